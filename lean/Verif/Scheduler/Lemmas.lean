import Verif.Scheduler.Model
/- Helper lemmas and invariants for the scheduler model. -/
namespace Big.Scheduler
open Big.Heap
variable {β : Type}

theorem Ev.lt_iff (a b : Ev β) : a.lt b = true ↔
    a.time < b.time ∨ (a.time = b.time ∧ (a.priority < b.priority ∨
      (a.priority = b.priority ∧ a.sequence < b.sequence))) := by
  unfold Ev.lt; (repeat' split) <;> simp <;> omega

theorem Ev.lt_false_iff (a b : Ev β) : a.lt b = false ↔
    ¬ (a.time < b.time ∨ (a.time = b.time ∧ (a.priority < b.priority ∨
      (a.priority = b.priority ∧ a.sequence < b.sequence)))) := by
  rw [← Ev.lt_iff]; simp

theorem Ev.strictWeak : StrictWeak (Ev.lt (β := β)) := by
  constructor
  · intro a b; rw [Ev.lt_iff, Ev.lt_false_iff]; omega
  · intro a b c; simp only [Ev.lt_iff]; omega

@[simp] theorem scheduledOf_append (a b : List (Obs β)) :
    scheduledOf (a ++ b) = scheduledOf a ++ scheduledOf b := by simp [scheduledOf]
@[simp] theorem cancelledOf_append (a b : List (Obs β)) :
    cancelledOf (a ++ b) = cancelledOf a ++ cancelledOf b := by simp [cancelledOf]
@[simp] theorem yieldedOf_append (a b : List (Obs β)) :
    yieldedOf (a ++ b) = yieldedOf a ++ yieldedOf b := by simp [yieldedOf]

/-- What one locked pass of `_next` does, on a well-formed heap. -/
theorem attempt_spec (s : Sched β) (hh : IsHeapFrom Ev.lt 0 s.heap.queue) (now : Int) :
    (s.heap.queue = [] ∧ s.attempt now = .stop) ∨
    (∃ e, e ∈ s.heap.queue ∧ (∀ x ∈ s.heap.queue, x.lt e = false) ∧
      ((e.time ≤ now ∧ ∃ h, s.attempt now = .yielded e { s with heap := h } ∧
          s.heap.queue.Perm (e :: h.queue) ∧ IsHeapFrom Ev.lt 0 h.queue) ∨
       (now < e.time ∧ s.attempt now = .sleep (e.time - now)))) := by
  cases hq : s.heap.queue with
  | nil => left; simp [Sched.attempt, hq]
  | cons a l =>
    right
    have hm := head_min Ev.strictWeak a l (hq ▸ hh)
    refine ⟨a, List.mem_cons_self, hm, ?_⟩
    have h0 : s.heap.getInt Ev.lt 0 = .ok a := by rw [getInt_zero, hq]
    by_cases ht : a.time ≤ now
    · left
      obtain ⟨v, q, h1, h2, h3, _, h5⟩ := heappop_spec Ev.strictWeak s.heap.queue hh (by simp [hq])
      rw [hq] at h5; simp at h5; subst h5
      refine ⟨ht, ⟨q, s.heap.version + 1⟩, ?_, hq ▸ h2, h3⟩
      have hp : s.heap.popleft Ev.lt = .ok (a, ⟨q, s.heap.version + 1⟩) := by
        simp [Heap.popleft, h1]
      simp [Sched.attempt, hq, h0, hp, show a.time - now ≤ 0 by omega]
    · right
      refine ⟨by omega, ?_⟩
      simp only [Sched.attempt, hq, h0]
      simp; omega

/-- The system invariant. -/
structure Inv (ident : Nat) (s : Sys β) : Prop where
  heap : IsHeapFrom Ev.lt 0 s.sched.heap.queue
  own : s.sched.ident = ident
  perm : (scheduledOf s.log).Perm
    (s.sched.heap.queue ++ (yieldedOf s.log ++ cancelledOf s.log))
  order : (scheduledOf s.log).Pairwise (fun a b => a.sequence < b.sequence)
  bound : ∀ e ∈ scheduledOf s.log, e.sequence ≤ s.sched.counter
  owner : ∀ e ∈ scheduledOf s.log, e.owner = ident

theorem Inv.of_same {ident : Nat} {s s' : Sys β} (h : Inv ident s) (h1 : s'.sched = s.sched)
    (h2 : scheduledOf s'.log = scheduledOf s.log) (h3 : yieldedOf s'.log = yieldedOf s.log)
    (h4 : cancelledOf s'.log = cancelledOf s.log) : Inv ident s' := by
  obtain ⟨a, b, c, d, e, f⟩ := h
  constructor <;> simp only [h1, h2, h3, h4] <;> assumption

theorem Inv.yield {ident : Nat} {s s' : Sys β} (hi : Inv ident s) {e : Ev β} {h : Heap (Ev β)}
    {t : Nat} {now : Int} (hp : s.sched.heap.queue.Perm (e :: h.queue))
    (hh : IsHeapFrom Ev.lt 0 h.queue)
    (h1 : s'.sched = { s.sched with heap := h }) (h2 : s'.log = s.log ++ [.yielded t e now]) :
    Inv ident s' := by
  obtain ⟨a, b, c, d, f, g⟩ := hi
  have e1 : scheduledOf s'.log = scheduledOf s.log := by
    rw [h2, scheduledOf_append]; simp [scheduledOf]
  have e2 : yieldedOf s'.log = yieldedOf s.log ++ [e] := by
    rw [h2, yieldedOf_append]; simp [yieldedOf]
  have e3 : cancelledOf s'.log = cancelledOf s.log := by
    rw [h2, cancelledOf_append]; simp [cancelledOf]
  constructor <;> simp only [h1, e1, e2, e3] <;> try assumption
  refine c.trans ((hp.append_right _).trans ?_)
  have := List.perm_middle (a := e) (l₁ := h.queue ++ yieldedOf s.log) (l₂ := cancelledOf s.log)
  simpa using this.symm

theorem Ev.same_iff (a b : Ev β) : a.same b = true ↔ a.owner = b.owner ∧ a.sequence = b.sequence := by
  simp [Ev.same]

/-- Events that were scheduled are determined by their sequence number. -/
theorem Inv.seq_inj {ident : Nat} {s : Sys β} (hi : Inv ident s) {a b : Ev β}
    (ha : a ∈ scheduledOf s.log) (hb : b ∈ scheduledOf s.log) (h : a.sequence = b.sequence) :
    a = b := by
  obtain ⟨i, hi1, rfl⟩ := List.getElem_of_mem ha
  obtain ⟨j, hj1, rfl⟩ := List.getElem_of_mem hb
  have := List.pairwise_iff_getElem.1 hi.order
  rcases Nat.lt_trichotomy i j with hij | hij | hij
  · have := this i j hi1 hj1 hij; omega
  · subst hij; rfl
  · have := this j i hj1 hi1 hij; omega

theorem Inv.queued_scheduled {ident : Nat} {s : Sys β} (hi : Inv ident s) {e : Ev β}
    (h : e ∈ s.sched.heap.queue) : e ∈ scheduledOf s.log :=
  hi.perm.symm.subset (by simp [h])

theorem Inv.scheduled_nodup {ident : Nat} {s : Sys β} (hi : Inv ident s) :
    (scheduledOf s.log).Nodup :=
  hi.order.imp (by intro a b h he; subst he; omega)

/-- How the locked body of cancel behaves: it removes an event identical to its argument, or
raises ValueError if none is queued. -/
theorem cancel_cases (s : Sched β) (e : Ev β) :
    (∃ v h, v.same e = true ∧ s.heap.queue.Perm (v :: h.queue) ∧ s.cancel e = .ok { s with heap := h }
      ∧ IsHeapFrom Ev.lt 0 h.queue) ∨
    ((∀ v ∈ s.heap.queue, v.same e = false) ∧ s.cancel e = .error .valueError) := by
  rcases remove_cases Ev.lt Ev.same s.heap e with ⟨v, q, h1, h2, h3⟩ | ⟨h1, h2⟩
  · left
    exact ⟨v, ⟨heapify Ev.lt q, s.heap.version + 1⟩, h1,
      h2.trans (.cons _ (heapify_perm _ _).symm), by simp [Sched.cancel, h3],
      heapify_heap Ev.strictWeak _⟩
  · right; exact ⟨h1, by simp [Sched.cancel, h2]⟩

end Big.Scheduler
