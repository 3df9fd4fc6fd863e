import Verif.Scheduler.SingleModel
import Verif.Scheduler.Props
/-! # C73: in a program with one thread, iterating over a Scheduler yields every event and ends -/
namespace Big.Scheduler
open Big.Heap
variable {β : Type}

/-- Sleeping for a positive interval takes some time; it may take less than the interval, as the
comment in scheduler.py:333-338 fears. -/
def Advances (sleep : Int → Int → Int) : Prop := ∀ c d, 0 < d → c < sleep c d

/-- Sleeping takes exactly the interval. -/
def Exact (sleep : Int → Int → Int) : Prop := ∀ c d, 0 < d → sleep c d = c + d

/-- Sleeping takes at least the interval, as `time.sleep` promises. -/
def Full (sleep : Int → Int → Int) : Prop := ∀ c d, 0 < d → c + d ≤ sleep c d

theorem nextBlocking_spec {sleep : Int → Int → Int} (ha : Advances sleep) (s : Sched β)
    (hh : IsHeapFrom Ev.lt 0 s.heap.queue)
    (hinj : ∀ a ∈ s.heap.queue, ∀ b ∈ s.heap.queue, a.sequence = b.sequence → a = b) (now : Int) :
    (s.heap.queue = [] ∧ ∀ n, s.nextBlocking sleep (n + 1) now = some (none, s, now)) ∨
    (∃ e h t, ∀ n, (e.time - now).toNat < n →
      s.nextBlocking sleep n now = some (some e, { s with heap := h }, t) ∧
      s.queue = e :: ({ s with heap := h } : Sched β).queue ∧
      s.heap.queue.Perm (e :: h.queue) ∧ IsHeapFrom Ev.lt 0 h.queue ∧ now ≤ t ∧ e.time ≤ t ∧
      (Exact sleep → t = max now e.time) ∧
      (Full sleep → ∀ k, s.nextBlocking sleep (k + 2) now = some (some e, { s with heap := h }, t))) := by
  generalize hk : (match s.heap.queue with | [] => 0 | a :: _ => (a.time - now).toNat) = k
  induction k using Nat.strongRecOn generalizing now with
  | _ k ih =>
  rcases attempt_spec s hh now with ⟨h1, h2⟩ | ⟨e, h1, h2, h3⟩
  · left
    exact ⟨h1, fun n => by simp [Sched.nextBlocking, h2]⟩
  · right
    rcases h3 with ⟨h5, h, h4, h6, h7⟩ | ⟨h5, h4⟩
    · refine ⟨e, h, now, fun n hn => ?_⟩
      obtain ⟨n, rfl⟩ : ∃ m, n = m + 1 := ⟨n - 1, by omega⟩
      refine ⟨by simp [Sched.nextBlocking, h4], sorted_cons_of_least h6 h2 hinj, h6, h7, Int.le_refl _,
        h5, fun _ => by omega, fun _ k => by simp [Sched.nextBlocking, h4]⟩
    · obtain ⟨a, l, hq⟩ : ∃ a l, s.heap.queue = a :: l := by
        cases hq : s.heap.queue with
        | nil => rw [hq] at h1; simp at h1
        | cons a l => exact ⟨a, l, rfl⟩
      have hat : a.time = e.time := by
        have i1 := h2 a (by simp [hq])
        have i2 := head_min Ev.strictWeak a l (hq ▸ hh) e (hq ▸ h1)
        rw [Ev.lt_false_iff] at i1 i2
        omega
      rw [hq] at hk
      simp only [hat] at hk
      have hadv := ha now (e.time - now) (by omega)
      have hlt : (e.time - sleep now (e.time - now)).toNat < k := by omega
      rcases ih _ hlt (sleep now (e.time - now)) (by rw [hq]; simp only [hat]) with
        ⟨i1, _⟩ | ⟨e', h', t, i⟩
      · rw [hq] at i1; simp at i1
      · have het : e'.time = e.time := by
          obtain ⟨_, _, i3, _⟩ := i _ (Nat.lt_succ_self _)
          obtain ⟨_, q1, _⟩ := i _ (Nat.lt_succ_self _)
          have m1 : e' ∈ s.heap.queue := i3.symm.subset List.mem_cons_self
          have m2 := h2 e' m1
          have srt := pysorted_sorted Ev.strictWeak s.heap.queue
          have q2 : pysorted Ev.lt s.heap.queue = e' :: pysorted Ev.lt h'.queue := q1
          rw [q2] at srt
          have m3 : e ∈ e' :: pysorted Ev.lt h'.queue := by
            rw [← q2]; exact (pysorted_perm Ev.lt _).symm.subset h1
          rcases List.mem_cons.1 m3 with rfl | m3
          · rfl
          · have m4 := (List.pairwise_cons.1 srt).1 e m3
            rw [Ev.lt_false_iff] at m2 m4
            omega
        refine ⟨e', h', t, fun n hn => ?_⟩
        obtain ⟨n, rfl⟩ : ∃ m, n = m + 1 := ⟨n - 1, by omega⟩
        obtain ⟨j1, j2, j3, j4, j5, j6, j7, j8⟩ := i n (by omega)
        refine ⟨by simpa [Sched.nextBlocking, h4] using j1, j2, j3, j4, by omega, j6, fun hx => ?_,
          fun hx k => ?_⟩
        · have := j7 hx
          have := hx now (e.time - now) (by omega)
          omega
        · have hf := hx now (e.time - now) (by omega)
          have := (i (k + 1) (by omega)).1
          show s.nextBlocking sleep (k + 1 + 1) now = _
          simpa [Sched.nextBlocking, h4] using this

/-- **C73.** In a program with one thread, whatever was scheduled and cancelled before, `next(scheduler)`
ends as long as sleeping takes time at all: with StopIteration at once if nothing is scheduled, that
is, if `bool(scheduler)` is False; else with the first event of `scheduler.queue`, which is then gone
from it, at no time before its time; exactly at its time (or at once if that has passed) if sleeping is
exact. -/
theorem C73_next_ends {ident : Nat} {clock : Int} {s : Sys β} (hr : Sys.Reach ident clock s)
    {sleep : Int → Int → Int} (ha : Advances sleep) (now : Int) :
    ∃ n r s' t, s.sched.nextBlocking sleep n now = some (r, s', t) ∧ now ≤ t ∧
      (r = none ↔ s.sched.bool = false) ∧ (r = none → s' = s.sched ∧ t = now) ∧
      (∀ e, r = some e → s.sched.queue = e :: s'.queue ∧ e.time ≤ t ∧
        (Exact sleep → t = max now e.time)) := by
  have hi := hr.inv
  rcases nextBlocking_spec ha s.sched hi.heap (fun a ha b hb =>
    hi.seq_inj (hi.queued_scheduled ha) (hi.queued_scheduled hb)) now with ⟨h1, h2⟩ | ⟨e, h, t, h1⟩
  · exact ⟨1, none, s.sched, now, h2 0, Int.le_refl _, by simp [Sched.bool, h1], by simp, by simp⟩
  · obtain ⟨j1, j2, j3, j4, j5, j6, j7, j8⟩ := h1 _ (Nat.lt_succ_self _)
    have hne : s.sched.heap.queue ≠ [] := by
      intro hq; rw [hq] at j3; exact absurd j3.length_eq (by simp)
    refine ⟨_, some e, _, t, j1, j5, ?_, by simp, ?_⟩
    · simpa [Sched.bool] using hne
    · intro e' he
      cases he
      exact ⟨j2, j6, j7⟩

/-- **C73.** With `time.sleep`'s promise (never less than the interval) two turns of the loop suffice:
`next` sleeps at most once. -/
theorem C73_sleeps_at_most_once {ident : Nat} {clock : Int} {s : Sys β}
    (hr : Sys.Reach ident clock s) {sleep : Int → Int → Int} (hf : Full sleep) (now : Int) :
    (s.sched.nextBlocking sleep 2 now).isSome = true := by
  have hi := hr.inv
  have ha : Advances sleep := fun c d hd => by have := hf c d hd; omega
  rcases nextBlocking_spec ha s.sched hi.heap (fun a ha b hb =>
    hi.seq_inj (hi.queued_scheduled ha) (hi.queued_scheduled hb)) now with ⟨h1, h2⟩ | ⟨e, h, t, h1⟩
  · rw [h2 1]; rfl
  · rw [(h1 _ (Nat.lt_succ_self _)).2.2.2.2.2.2.2 hf 0]; rfl

/-- When an event of a list is due to be yielded if sleeping is exact. -/
def dueTimes (work : Ev β → Nat) : Int → List (Ev β) → List (Ev β × Int)
  | _, [] => []
  | now, e :: l => (e, max now e.time) :: dueTimes work (max now e.time + work e) l

/-- **C73.** `for e in scheduler: work(e)`, the body not touching the scheduler, yields exactly the
events of `scheduler.queue`, in that order, none before its time, the clock never going back, and then
ends with nothing scheduled; if sleeping is exact, each event is yielded at its time, or as soon as the
body is done with the events before it. -/
theorem C73_for_loop {ident : Nat} {clock : Int} {s : Sys β} (hr : Sys.Reach ident clock s)
    {sleep : Int → Int → Int} (ha : Advances sleep) (work : Ev β → Nat) (now : Int) :
    ∃ n m l s' t, s.sched.forLoop sleep work n m now = some (l, s', t) ∧
      l.map (·.1) = s.sched.queue ∧ s'.bool = false ∧
      (∀ p ∈ l, p.1.time ≤ p.2 ∧ now ≤ p.2) ∧ l.Pairwise (fun p q => p.2 + (work p.1 : Int) ≤ q.2) ∧
      (Exact sleep → l = dueTimes work now s.sched.queue) := by
  have hi := hr.inv
  have key : ∀ (k : Nat) (s : Sched β) (now : Int), s.heap.queue.length = k →
      IsHeapFrom Ev.lt 0 s.heap.queue →
      (∀ a ∈ s.heap.queue, ∀ b ∈ s.heap.queue, a.sequence = b.sequence → a = b) →
      ∃ N l s' t, (∀ n, N ≤ n → ∀ m, k < m → s.forLoop sleep work n m now = some (l, s', t)) ∧
        l.map (·.1) = s.queue ∧ s'.bool = false ∧
        (∀ p ∈ l, p.1.time ≤ p.2 ∧ now ≤ p.2) ∧ l.Pairwise (fun p q => p.2 + (work p.1 : Int) ≤ q.2) ∧
        (Exact sleep → l = dueTimes work now s.queue) := by
    intro k
    induction k with
    | zero =>
      intro s now hk hh hinj
      have hq := List.length_eq_zero_iff.1 hk
      rcases nextBlocking_spec ha s hh hinj now with ⟨_, h2⟩ | ⟨e, h, t, h1⟩
      · have hqq : s.queue = [] := by
          have := (pysorted_perm Ev.lt s.heap.queue).length_eq
          rw [hq] at this
          exact List.length_eq_zero_iff.1 (by simpa [Sched.queue, Heap.sortedQueue, hq] using this)
        refine ⟨1, [], s, now, ?_, by simp [hqq], by simp [Sched.bool, hq], by simp, by simp, ?_⟩
        · intro n hn m hm
          obtain ⟨n, rfl⟩ : ∃ j, n = j + 1 := ⟨n - 1, by omega⟩
          obtain ⟨m, rfl⟩ : ∃ j, m = j + 1 := ⟨m - 1, by omega⟩
          simp [Sched.forLoop, h2]
        · intro _; rw [hqq]; rfl
      · have := (h1 _ (Nat.lt_succ_self _)).2.2.1.length_eq
        rw [hq] at this; simp at this
    | succ k ih =>
      intro s now hk hh hinj
      rcases nextBlocking_spec ha s hh hinj now with ⟨h1, _⟩ | ⟨e, h, t, h1⟩
      · rw [h1] at hk; simp at hk
      · obtain ⟨_, j2, j3, j4, j5, j6, j7, _⟩ := h1 _ (Nat.lt_succ_self _)
        have hsub : ∀ x ∈ h.queue, x ∈ s.heap.queue := fun x hx =>
          j3.symm.subset (List.mem_cons_of_mem _ hx)
        obtain ⟨N, l, s', t', i1, i2, i3, i4, i5, i6⟩ := ih { s with heap := h } (t + work e)
          (by have := j3.length_eq; simp at this ⊢; omega) j4
          (fun a ha b hb => hinj a (hsub a ha) b (hsub b hb))
        refine ⟨N + (e.time - now).toNat + 1, (e, t) :: l, s', t', ?_, ?_, i3, ?_, ?_, ?_⟩
        · intro n hn m hm
          obtain ⟨m, rfl⟩ : ∃ j, m = j + 1 := ⟨m - 1, by omega⟩
          have g1 := (h1 n (by omega)).1
          have g2 := i1 n (by omega) m (by omega)
          simp [Sched.forLoop, g1, g2]
        · simp [i2, j2]
        · intro p hp
          rcases List.mem_cons.1 hp with rfl | hp
          · exact ⟨j6, j5⟩
          · have := i4 p hp
            exact ⟨this.1, by omega⟩
        · refine List.Pairwise.cons ?_ i5
          intro p hp
          exact (i4 p hp).2
        · intro hx
          rw [j2, dueTimes, ← j7 hx, i6 hx]
  obtain ⟨N, l, s', t, i1, i2⟩ := key _ s.sched now rfl hi.heap (fun a ha b hb =>
    hi.seq_inj (hi.queued_scheduled ha) (hi.queued_scheduled hb))
  exact ⟨N, _, l, s', t, i1 N (Nat.le_refl _) _ (Nat.lt_succ_self _), i2⟩

/-- **C73.** `next(scheduler.non_blocking())` never sleeps: it gives the first event of
`scheduler.queue` if that is due, and otherwise StopIteration and changes nothing. -/
theorem C73_non_blocking {ident : Nat} {clock : Int} {s : Sys β} (hr : Sys.Reach ident clock s)
    (now : Int) :
    (∃ e s', s.sched.nextNonBlocking now = some (some e, s') ∧ s.sched.queue = e :: s'.queue ∧
      e.time ≤ now) ∨
    (s.sched.nextNonBlocking now = some (none, s.sched) ∧ ∀ e ∈ s.sched.queue, now < e.time) := by
  have hi := hr.inv
  have hp := pysorted_perm Ev.lt s.sched.heap.queue
  rcases attempt_spec s.sched hi.heap now with ⟨h1, h2⟩ | ⟨e, h1, h2, h3⟩
  · right
    refine ⟨by simp [Sched.nextNonBlocking, h2], ?_⟩
    intro e he
    have := hp.subset he
    rw [h1] at this
    simp at this
  · rcases h3 with ⟨h5, h, h4, h6, h7⟩ | ⟨h5, h4⟩
    · left
      exact ⟨e, _, by simp [Sched.nextNonBlocking, h4]; rfl, sorted_cons_of_least h6 h2
        (fun a ha b hb => hi.seq_inj (hi.queued_scheduled ha) (hi.queued_scheduled hb)), h5⟩
    · right
      refine ⟨by simp [Sched.nextNonBlocking, h4], ?_⟩
      intro x hx
      have := h2 x (hp.subset hx)
      rw [Ev.lt_false_iff] at this
      omega

/-- **C73.** `event.cancel()` takes the event, and nothing else, off `scheduler.queue`, and raises
ValueError if it is not there. -/
theorem C73_event_cancel {ident : Nat} {clock : Int} {s : Sys β} (hr : Sys.Reach ident clock s)
    (e : Ev β) (he : e ∈ scheduledOf s.log) :
    (e ∈ s.sched.queue ∧ ∃ s', e.cancel s.sched = .ok s' ∧
      ∃ p q, s.sched.queue = p ++ e :: q ∧ s'.queue = p ++ q) ∨
    (e ∉ s.sched.queue ∧ e.cancel s.sched = .error .valueError) := by
  have hi := hr.inv
  have hp := pysorted_perm Ev.lt s.sched.heap.queue
  have hinj : ∀ a ∈ s.sched.heap.queue, ∀ b ∈ s.sched.heap.queue, a.sequence = b.sequence → a = b :=
    fun a ha b hb => hi.seq_inj (hi.queued_scheduled ha) (hi.queued_scheduled hb)
  rcases cancel_cases s.sched e with ⟨v, h, h1, h2, h3, h4⟩ | ⟨h1, h2⟩
  · left
    have hv : v ∈ s.sched.heap.queue := h2.symm.subset List.mem_cons_self
    have hve : v = e := hi.seq_inj (hi.queued_scheduled hv) he ((Ev.same_iff v e).1 h1).2
    subst hve
    have hm : v ∈ s.sched.queue := hp.symm.subset hv
    refine ⟨hm, _, h3, ?_⟩
    obtain ⟨p, q, hpq⟩ := List.append_of_mem hm
    refine ⟨p, q, hpq, ?_⟩
    have srt := pysorted_sorted Ev.strictWeak s.sched.heap.queue
    have hpq' : pysorted Ev.lt s.sched.heap.queue = p ++ v :: q := hpq
    rw [hpq'] at srt
    have srt' : NonDecreasing Ev.lt (p ++ q) := by
      refine List.Pairwise.sublist ?_ srt
      exact List.Sublist.append (List.Sublist.refl _) (List.sublist_cons_self _ _)
    have hperm : (pysorted Ev.lt h.queue).Perm (p ++ q) := by
      refine (pysorted_perm Ev.lt h.queue).trans ?_
      have : (v :: h.queue).Perm (v :: (p ++ q)) := by
        refine h2.symm.trans ?_
        refine hp.symm.trans ?_
        rw [hpq']
        exact List.perm_middle
      exact this.cons_inv
    show pysorted Ev.lt h.queue = p ++ q
    apply List.ext_getElem hperm.length_eq
    intro i i1 i2
    have hx := sorted_unique Ev.strictWeak (pysorted_sorted Ev.strictWeak h.queue) srt' hperm i i1 i2
    have m1 : (pysorted Ev.lt h.queue)[i] ∈ s.sched.heap.queue :=
      h2.symm.subset (List.mem_cons_of_mem _ ((pysorted_perm Ev.lt h.queue).subset (List.getElem_mem _)))
    have m2 : (p ++ q)[i] ∈ s.sched.heap.queue :=
      h2.symm.subset (List.mem_cons_of_mem _ ((pysorted_perm Ev.lt h.queue).subset
        (hperm.symm.subset (List.getElem_mem _))))
    refine hinj _ m1 _ m2 ?_
    have e1 := hx.1
    have e2 := hx.2
    rw [Ev.lt_false_iff] at e1 e2
    omega
  · right
    refine ⟨fun hm => ?_, h2⟩
    have := h1 e (hp.subset hm)
    rw [← Bool.not_eq_true, Ev.same_iff] at this
    exact this ⟨rfl, rfl⟩

/-- Three events scheduled out of order, the last two for the same time. -/
def threeTrace : List (Label Unit) :=
  [.schedule 0 () 9 true 100, .schedule 0 () 3 false 100, .schedule 0 () 9 true 50]

example : ∃ s : Sys Unit, Sys.Reach 0 0 s ∧ (s.sched.forLoop (fun c d => c + d) (fun _ => 4) 2 4 1).any
    (fun r => decide (r.1.map (fun p => (p.1.sequence, p.2)) = [(2, 3), (3, 9), (1, 13)])) = true := by
  have hex : ((Sys.init 0 0 : Sys Unit).exec threeTrace).any (fun s =>
      (s.sched.forLoop (fun c d => c + d) (fun _ => 4) 2 4 1).any
        (fun r => decide (r.1.map (fun p => (p.1.sequence, p.2)) = [(2, 3), (3, 9), (1, 13)]))) = true := by
    decide +kernel
  rw [Option.any_eq_true] at hex
  obtain ⟨s, h1, h2⟩ := hex
  exact ⟨s, exec_reach threeTrace _ s (by
    intro l hl s
    simp [threeTrace] at hl
    rcases hl with rfl | rfl | rfl <;> trivial) .init h1, h2⟩

/-- A sleep that always returns a tick early but at least one tick later. -/
example : Advances (fun c d => if d ≤ 1 then c + d else c + d - 1) := by
  intro c d h; simp only; split <;> omega
example : Full (fun c d => c + d + 3) ∧ Exact (fun c d => c + d) :=
  ⟨fun c d _ => by simp only; omega, fun c d _ => rfl⟩

end Big.Scheduler
