import Verif.Scheduler.Lemmas
/-
Properties C05-C10 of big.scheduler.
-/
namespace Big.Scheduler
open Big.Heap
variable {β : Type}

theorem inv_init (ident : Nat) (clock : Int) : Inv ident (Sys.init ident clock : Sys β) := by
  constructor <;> simp [Sys.init, Sched.new, Heap.new, scheduledOf, yieldedOf, cancelledOf]
  intro j hj; simp at hj

theorem inv_step {ident : Nat} {s s' : Sys β} (hi : Inv ident s) (l : Label β) (hl : l.Legal s)
    (hs : s.step l = some s') : Inv ident s' := by
  cases l with
  | tick d => cases hs; exact hi.of_same rfl rfl rfl rfl
  | schedule t o time absolute priority =>
    simp only [Sys.step] at hs
    split at hs
    · cases hs
      obtain ⟨a, b, c, d, f, g⟩ := hi
      constructor
      · exact heappush_heap Ev.strictWeak _ _ a
      · exact b
      · simp only [scheduledOf_append, yieldedOf_append, cancelledOf_append]
        simp only [scheduledOf, yieldedOf, cancelledOf, List.filterMap_cons, List.filterMap_nil,
          List.append_nil]
        refine (List.perm_append_comm.trans (List.Perm.cons _ c)).trans ?_
        exact (List.Perm.append_right _ (heappush_perm Ev.lt _ _).symm)
      · simp only [scheduledOf_append]
        simp only [scheduledOf, List.filterMap_cons, List.filterMap_nil]
        refine List.pairwise_append.2 ⟨d, by simp, ?_⟩
        intro x hx y hy
        simp at hy; subst hy
        have := f x hx
        simp [Sched.schedule]; omega
      · intro e he
        simp only [scheduledOf_append, List.mem_append] at he
        rcases he with he | he
        · have := f e he; simp [Sched.schedule]; omega
        · simp [scheduledOf] at he; subst he; simp [Sched.schedule]
      · intro e he
        simp only [scheduledOf_append, List.mem_append] at he
        rcases he with he | he
        · exact g e he
        · simp [scheduledOf] at he; subst he; simpa [Sched.schedule] using b
    · cases hs
  | cancel t e =>
    simp only [Sys.step] at hs
    split at hs
    · rcases cancel_cases s.sched e with ⟨v, h, h1, h2, h3, h4⟩ | ⟨h1, h2⟩
      · rw [h3] at hs
        cases hs
        have hv := hi.queued_scheduled (h2.symm.subset List.mem_cons_self)
        have hve : v = e := by
          obtain ⟨o1, o2⟩ := (Ev.same_iff v e).1 h1
          rcases hl with hl | hl
          · exact hi.seq_inj hv hl o2
          · exact absurd (o1.symm.trans ((hi.owner v hv).trans hi.own.symm)) hl
        subst hve
        obtain ⟨a, b, c, d, f, g⟩ := hi
        have e1 : scheduledOf (s.log ++ [Obs.cancelled v]) = scheduledOf s.log := by
          simp [scheduledOf]
        have e2 : yieldedOf (s.log ++ [Obs.cancelled v]) = yieldedOf s.log := by
          simp [yieldedOf]
        have e3 : cancelledOf (s.log ++ [Obs.cancelled v]) = cancelledOf s.log ++ [v] := by
          simp [cancelledOf]
        constructor <;> simp only [e1, e2, e3] <;> try assumption
        refine c.trans ((h2.append_right _).trans ?_)
        have := List.perm_middle (a := v)
          (l₁ := h.queue ++ (yieldedOf s.log ++ cancelledOf s.log)) (l₂ := [])
        simpa using this.symm
      · rw [h2] at hs
        cases hs
        exact hi.of_same rfl (by simp [scheduledOf]) (by simp [yieldedOf]) (by simp [cancelledOf])
    · cases hs
  | nonBlocking t =>
    simp only [Sys.step] at hs
    split at hs
    · rcases attempt_spec s.sched hi.heap s.clock with ⟨_, h2⟩ | ⟨e, _, _, h3⟩
      · rw [h2] at hs; cases hs
        exact hi.of_same rfl (by simp [scheduledOf]) (by simp [yieldedOf]) (by simp [cancelledOf])
      · rcases h3 with ⟨_, h, h4, h5, h6⟩ | ⟨_, h4⟩
        · rw [h4] at hs; cases hs
          exact hi.yield h5 h6 rfl rfl
        · rw [h4] at hs; cases hs
          exact hi.of_same rfl (by simp [scheduledOf]) (by simp [yieldedOf]) (by simp [cancelledOf])
    · cases hs
  | enterNext t =>
    simp only [Sys.step] at hs
    split at hs
    · cases hs; exact hi.of_same rfl rfl rfl rfl
    · cases hs
  | tryNext t =>
    simp only [Sys.step] at hs
    split at hs
    · rcases attempt_spec s.sched hi.heap s.clock with ⟨_, h2⟩ | ⟨e, _, _, h3⟩
      · rw [h2] at hs; cases hs
        exact hi.of_same rfl (by simp [scheduledOf]) (by simp [yieldedOf]) (by simp [cancelledOf])
      · rcases h3 with ⟨_, h, h4, h5, h6⟩ | ⟨_, h4⟩
        · rw [h4] at hs; cases hs
          exact hi.yield h5 h6 rfl rfl
        · rw [h4] at hs; cases hs
          exact hi.of_same rfl rfl rfl rfl
    · cases hs
  | enterWait t =>
    simp only [Sys.step] at hs
    split at hs
    · cases hs; exact hi.of_same rfl rfl rfl rfl
    · cases hs
  | timeout t =>
    simp only [Sys.step] at hs
    split at hs
    · split at hs
      · cases hs; exact hi.of_same rfl rfl rfl rfl
      · cases hs
    · cases hs
  | spurious t =>
    simp only [Sys.step] at hs
    split at hs
    · cases hs; exact hi.of_same rfl rfl rfl rfl
    · cases hs; exact hi.of_same rfl rfl rfl rfl
    · cases hs
  | abandon t =>
    simp only [Sys.step] at hs
    split at hs
    · cases hs
    · cases hs; exact hi.of_same rfl rfl rfl rfl

theorem Sys.Reach.inv {ident : Nat} {clock : Int} {s : Sys β} (h : Sys.Reach ident clock s) :
    Inv ident s := by
  induction h with
  | init => exact inv_init ident clock
  | step l _ hl hs ih => exact inv_step ih l hl hs

/-- Specification order: earlier time, then smaller priority number, then scheduled earlier (as
recorded in the history). -/
def ComesBefore (log : List (Obs β)) (a b : Ev β) : Prop :=
  a.time < b.time ∨ (a.time = b.time ∧ (a.priority < b.priority ∨
    (a.priority = b.priority ∧ [a, b].Sublist (scheduledOf log))))

theorem comesBefore_of_lt {ident : Nat} {s : Sys β} (hi : Inv ident s) {a b : Ev β}
    (ha : a ∈ scheduledOf s.log) (hb : b ∈ scheduledOf s.log) (hne : a ≠ b)
    (h : b.lt a = false) : ComesBefore s.log a b := by
  rw [Ev.lt_false_iff] at h
  unfold ComesBefore
  have hseq : a.sequence ≠ b.sequence := fun he => hne (hi.seq_inj ha hb he)
  by_cases h1 : a.time < b.time
  · exact .inl h1
  · refine .inr ⟨by omega, ?_⟩
    by_cases h2 : a.priority < b.priority
    · exact .inl h2
    · refine .inr ⟨by omega, ?_⟩
      have hlt : a.sequence < b.sequence := by omega
      obtain ⟨i, hi1, rfl⟩ := List.getElem_of_mem ha
      obtain ⟨j, hj1, rfl⟩ := List.getElem_of_mem hb
      have hp := List.pairwise_iff_getElem.1 hi.order
      have hij : i < j := by
        rcases Nat.lt_trichotomy i j with hij | hij | hij
        · exact hij
        · subst hij; omega
        · have := hp j i hj1 hi1 hij; omega
      have e1 : (scheduledOf s.log).drop i = (scheduledOf s.log)[i] :: (scheduledOf s.log).drop (i+1) :=
        List.drop_eq_getElem_cons hi1
      refine List.Sublist.trans ?_ (List.drop_sublist i _)
      rw [e1]
      refine List.Sublist.cons_cons _ ?_
      rw [List.singleton_sublist]
      refine List.mem_iff_getElem.2 ⟨j - (i+1), by simp; omega, ?_⟩
      simp only [List.getElem_drop]
      congr 1; omega

/-- **C05.** In every reachable state of any number of threads, if a step yields an event (the
history grows by a `yielded` entry), then the event was in the queue, was due at the clock reading
of that step, and comes before every other queued event in (time, priority, order of scheduling). -/
theorem C05_yields_least_due {ident : Nat} {clock : Int} {s s' : Sys β} (hr : Sys.Reach ident clock s)
    (l : Label β) (hs : s.step l = some s') (t : Nat) (e : Ev β) (now : Int)
    (hy : s'.log = s.log ++ [.yielded t e now]) :
    now = s.clock ∧ e.time ≤ s.clock ∧ e ∈ s.sched.heap.queue ∧
      ∀ x ∈ s.sched.heap.queue, x ≠ e → ComesBefore s.log e x := by
  have hi := hr.inv
  have main : ∀ (e' : Ev β) (sch : Sched β), s.sched.attempt s.clock = .yielded e' sch →
      e'.time ≤ s.clock ∧ e' ∈ s.sched.heap.queue ∧
      ∀ x ∈ s.sched.heap.queue, x ≠ e' → ComesBefore s.log e' x := by
    intro e' sch ha
    rcases attempt_spec s.sched hi.heap s.clock with ⟨_, h2⟩ | ⟨e2, h1, h2, h3⟩
    · rw [ha] at h2; cases h2
    · rcases h3 with ⟨h5, h, h4, _, _⟩ | ⟨_, h4⟩
      · rw [ha] at h4
        cases h4
        refine ⟨h5, h1, fun x hx hne => ?_⟩
        exact comesBefore_of_lt hi (hi.queued_scheduled h1) (hi.queued_scheduled hx) (Ne.symm hne)
          (h2 x hx)
      · rw [ha] at h4; cases h4
  have nolog : ∀ (x : Obs β), s.log ++ [x] = s.log ++ [.yielded t e now] → x = .yielded t e now := by
    intro x hx; simpa using List.append_cancel_left hx
  have noext : s.log ≠ s.log ++ [.yielded t e now] := by
    intro h; have := congrArg List.length h; simp at this
  cases l with
  | tick d => cases hs; exact absurd hy noext
  | schedule t o time absolute priority =>
    simp only [Sys.step] at hs
    split at hs
    · cases hs; exact absurd (nolog _ hy) (by simp)
    · cases hs
  | cancel t e =>
    simp only [Sys.step] at hs
    split at hs
    · split at hs
      · cases hs; exact absurd (nolog _ hy) (by simp)
      · cases hs; exact absurd (nolog _ hy) (by simp)
    · cases hs
  | nonBlocking t =>
    simp only [Sys.step] at hs
    split at hs
    · split at hs
      · rename_i ha
        cases hs
        have := nolog _ hy
        cases this
        exact ⟨rfl, main _ _ ha⟩
      · cases hs; exact absurd (nolog _ hy) (by simp)
      · cases hs; exact absurd (nolog _ hy) (by simp)
      · cases hs
    · cases hs
  | enterNext t =>
    simp only [Sys.step] at hs
    split at hs
    · cases hs; exact absurd hy noext
    · cases hs
  | tryNext t =>
    simp only [Sys.step] at hs
    split at hs
    · split at hs
      · rename_i ha
        cases hs
        have := nolog _ hy
        cases this
        exact ⟨rfl, main _ _ ha⟩
      · cases hs; exact absurd (nolog _ hy) (by simp)
      · cases hs; exact absurd hy noext
      · cases hs
    · cases hs
  | enterWait t =>
    simp only [Sys.step] at hs
    split at hs
    · cases hs; exact absurd hy noext
    · cases hs
  | timeout t =>
    simp only [Sys.step] at hs
    split at hs
    · split at hs
      · cases hs; exact absurd hy noext
      · cases hs
    · cases hs
  | spurious t =>
    simp only [Sys.step] at hs
    split at hs
    · cases hs; exact absurd hy noext
    · cases hs; exact absurd hy noext
    · cases hs
  | abandon t =>
    simp only [Sys.step] at hs
    split at hs
    · cases hs
    · cases hs; exact absurd hy noext

/-- **C05.** The event that `schedule(o, t)` enters in the queue carries `o` and the given priority,
and is due at `now + t`, or at `t` itself when `absolute` is true; nothing else in the queue
changes. With `C05_yields_least_due` this says an event is never yielded before its delay is up. -/
theorem C05_schedule_due_time {s s' : Sys β} (t : Nat) (o : β) (time : Int) (absolute : Bool)
    (priority : Int) (hs : s.step (.schedule t o time absolute priority) = some s') :
    ∃ e : Ev β, s'.log = s.log ++ [.scheduled e] ∧ e.event = o ∧ e.priority = priority ∧
      (absolute = true → e.time = time) ∧ (absolute = false → e.time = s.clock + time) ∧
      s'.sched.heap.queue.Perm (e :: s.sched.heap.queue) := by
  simp only [Sys.step] at hs
  split at hs
  · cases hs
    refine ⟨_, rfl, rfl, rfl, ?_, ?_, heappush_perm Ev.lt _ _⟩
    · rintro rfl; simp [Sched.schedule]
    · rintro rfl; simp [Sched.schedule]; omega
  · cases hs

/-- **C06.** In every reachable state under any interleaving, the events scheduled so far are all
distinct, and together the queued, the yielded and the cancelled events are exactly the scheduled
ones, each once. -/
theorem C06_no_loss_no_duplication {ident : Nat} {clock : Int} {s : Sys β}
    (hr : Sys.Reach ident clock s) :
    (scheduledOf s.log).Nodup ∧
    (scheduledOf s.log).Perm (s.sched.heap.queue ++ (yieldedOf s.log ++ cancelledOf s.log)) :=
  ⟨hr.inv.scheduled_nodup, hr.inv.perm⟩

/-- **C06**, read per event: a scheduled event is in exactly one of the three places, once. -/
theorem C06_exactly_one {ident : Nat} {clock : Int} {s : Sys β} (hr : Sys.Reach ident clock s)
    (e : Ev β) (he : e ∈ scheduledOf s.log) [DecidableEq (Ev β)] :
    s.sched.heap.queue.count e + (yieldedOf s.log).count e + (cancelledOf s.log).count e = 1 := by
  have h := C06_no_loss_no_duplication hr
  have h1 : (scheduledOf s.log).count e = 1 := by
    have := List.nodup_iff_count.1 h.1 e
    have := List.count_pos_iff.2 he
    omega
  have := h.2.count_eq e
  simp only [List.count_append] at this
  omega

/-- **C06**: the code never meets an exception it does not expect (the model's `broken`): every
attempt under the lock yields, sleeps or stops. -/
theorem C06_never_broken {ident : Nat} {clock : Int} {s : Sys β} (hr : Sys.Reach ident clock s)
    (now : Int) (err : Err) : s.sched.attempt now ≠ .broken err := by
  rcases attempt_spec s.sched hr.inv.heap now with ⟨_, h⟩ | ⟨_, _, _, ⟨_, _, h, _⟩ | ⟨_, h⟩⟩ <;>
    rw [h] <;> simp

/-- **C07.** Cancelling a queued event succeeds and removes exactly that event. -/
theorem C07_cancel_queued {ident : Nat} {clock : Int} {s : Sys β} (hr : Sys.Reach ident clock s)
    (t : Nat) (e : Ev β) (hq : e ∈ s.sched.heap.queue) (ht : s.thr t = .idle) :
    ∃ s', s.step (.cancel t e) = some s' ∧ s'.log = s.log ++ [.cancelled e] ∧
      s.sched.heap.queue.Perm (e :: s'.sched.heap.queue) ∧ e ∉ s'.sched.heap.queue := by
  have hi := hr.inv
  rcases cancel_cases s.sched e with ⟨v, h, h1, h2, h3, _⟩ | ⟨h1, _⟩
  · have hv := hi.queued_scheduled (h2.symm.subset List.mem_cons_self)
    have hve : v = e := hi.seq_inj hv (hi.queued_scheduled hq) ((Ev.same_iff v e).1 h1).2
    subst hve
    refine ⟨_, by simp only [Sys.step, ht, h3, if_true]; rfl, rfl, h2, ?_⟩
    have hn : (s.sched.heap.queue ++ (yieldedOf s.log ++ cancelledOf s.log)).Nodup :=
      hi.perm.nodup_iff.1 hi.scheduled_nodup
    have hn2 : (v :: h.queue).Nodup := h2.nodup_iff.1 (List.nodup_append.1 hn).1
    exact (List.nodup_cons.1 hn2).1
  · have := h1 e hq
    simp [Ev.same] at this

/-- **C07.** Cancelling an event that was already yielded or cancelled, or that belongs to another
scheduler, raises ValueError and changes neither the queue nor any thread. -/
theorem C07_cancel_gone {ident : Nat} {clock : Int} {s : Sys β} (hr : Sys.Reach ident clock s)
    (t : Nat) (e : Ev β) (ht : s.thr t = .idle)
    (hg : e ∈ yieldedOf s.log ∨ e ∈ cancelledOf s.log ∨ e.owner ≠ ident) :
    s.sched.cancel e = .error .valueError ∧
    s.step (.cancel t e) = some { s with log := s.log ++ [.cancelFailed e] } := by
  have hi := hr.inv
  have hnone : ∀ v ∈ s.sched.heap.queue, v.same e = false := by
    intro v hv
    cases hsame : v.same e with
    | false => rfl
    | true =>
      exfalso
      obtain ⟨o1, o2⟩ := (Ev.same_iff v e).1 hsame
      have hvs := hi.queued_scheduled hv
      have hn : (s.sched.heap.queue ++ (yieldedOf s.log ++ cancelledOf s.log)).Nodup :=
        hi.perm.nodup_iff.1 hi.scheduled_nodup
      have hdis := (List.nodup_append.1 hn).2.2
      have hin : ∀ x ∈ yieldedOf s.log ++ cancelledOf s.log, x ∈ scheduledOf s.log := fun x hx =>
        hi.perm.symm.subset (List.mem_append_right _ hx)
      rcases hg with hg | hg | hg
      · have hm : e ∈ yieldedOf s.log ++ cancelledOf s.log := by simp [hg]
        exact hdis v hv e hm (hi.seq_inj hvs (hin e hm) o2)
      · have hm : e ∈ yieldedOf s.log ++ cancelledOf s.log := by simp [hg]
        exact hdis v hv e hm (hi.seq_inj hvs (hin e hm) o2)
      · exact hg (o1.symm.trans (hi.owner v hvs))
  rcases cancel_cases s.sched e with ⟨v, h, h1, h2, _, _⟩ | ⟨_, h2⟩
  · have := hnone v (h2.symm.subset List.mem_cons_self); simp_all
  · exact ⟨h2, by simp only [Sys.step, ht, h2, if_true]⟩

theorem drainN_spec (now : Int) (n : Nat) : ∀ (s : Sched β), IsHeapFrom Ev.lt 0 s.heap.queue →
    s.heap.queue.length ≤ n →
    s.heap.queue.Perm ((s.drainN now n).1 ++ (s.drainN now n).2.heap.queue) ∧
    NonDecreasing Ev.lt (s.drainN now n).1 ∧
    (∀ e ∈ (s.drainN now n).1, e.time ≤ now) ∧
    (∀ e ∈ (s.drainN now n).2.heap.queue, now < e.time) ∧
    (s.drainN now n).2.counter = s.counter ∧
    ((s.drainN now n).2.attempt now = .stop ∨ ∃ d, (s.drainN now n).2.attempt now = .sleep d) := by
  induction n with
  | zero =>
    intro s hh hl
    have hq : s.heap.queue = [] := List.length_eq_zero_iff.1 (by omega)
    simp [Sched.drainN, hq, NonDecreasing, Sched.attempt]
  | succ n ih =>
    intro s hh hl
    rcases attempt_spec s hh now with ⟨h1, h2⟩ | ⟨e, h1, h2, h3⟩
    · have : s.drainN now (n+1) = ([], s) := by simp [Sched.drainN, h2]
      rw [this]
      simp [h1, h2, NonDecreasing]
    · rcases h3 with ⟨h5, h, h4, h6, h7⟩ | ⟨h5, h4⟩
      · have hlen := h6.length_eq
        obtain ⟨i1, i2, i3, i4, i5, i6⟩ := ih { s with heap := h } h7 (by simp at hlen ⊢; omega)
        simp only [Sched.drainN, h4]
        refine ⟨?_, ?_, ?_, i4, i5, i6⟩
        · exact h6.trans (.cons _ i1)
        · refine List.Pairwise.cons ?_ i2
          intro x hx
          exact h2 x (h6.symm.subset (List.mem_cons_of_mem _ (i1.symm.subset (by simp [hx]))))
        · intro x hx
          rcases List.mem_cons.1 hx with rfl | hx
          · exact h5
          · exact i3 x hx
      · have : s.drainN now (n+1) = ([], s) := by simp [Sched.drainN, h4]
        rw [this]
        refine ⟨by simp, by simp [NonDecreasing], by simp, ?_, rfl, .inr ⟨_, h4⟩⟩
        intro x hx
        have := h2 x hx
        rw [Ev.lt_false_iff] at this
        simp only at hx ⊢
        omega

/-- **C08.** With the clock fixed at `now`, draining `non_blocking()` on the scheduler of any
reachable state yields exactly the queued events with time <= now (as a multiset: the due ones), in
queue order, leaves exactly the others queued, and then stops (the next pass would stop or sleep,
and a non-blocking iterator turns both into StopIteration). -/
theorem C08_non_blocking_drain {ident : Nat} {clock : Int} {s : Sys β}
    (hr : Sys.Reach ident clock s) (now : Int) :
    (s.sched.drain now).1.Perm (s.sched.heap.queue.filter (fun e => decide (e.time ≤ now))) ∧
    NonDecreasing Ev.lt (s.sched.drain now).1 ∧
    (s.sched.drain now).2.heap.queue.Perm
      (s.sched.heap.queue.filter (fun e => !decide (e.time ≤ now))) ∧
    ((s.sched.drain now).2.attempt now = .stop ∨
      ∃ d, (s.sched.drain now).2.attempt now = .sleep d) := by
  obtain ⟨h1, h2, h3, h4, _, h6⟩ := drainN_spec now _ s.sched hr.inv.heap (Nat.le_refl _)
  refine ⟨?_, h2, ?_, h6⟩
  · have := h1.filter (fun e => decide (e.time ≤ now))
    have f1 : (s.sched.drain now).1.filter (fun e => decide (e.time ≤ now)) = (s.sched.drain now).1 :=
      List.filter_eq_self.2 (fun a ha => by simpa using h3 a ha)
    have f2 : (s.sched.drain now).2.heap.queue.filter (fun e => decide (e.time ≤ now)) = [] :=
      List.filter_eq_nil_iff.2 (fun a ha => by have := h4 a ha; simp; omega)
    rw [List.filter_append] at this
    unfold Sched.drain at f1 f2 ⊢
    rw [f1, f2, List.append_nil] at this
    exact this.symm
  · have := h1.filter (fun e => !decide (e.time ≤ now))
    have f1 : (s.sched.drain now).1.filter (fun e => !decide (e.time ≤ now)) = [] :=
      List.filter_eq_nil_iff.2 (fun a ha => by simpa using h3 a ha)
    have f2 : (s.sched.drain now).2.heap.queue.filter (fun e => !decide (e.time ≤ now))
        = (s.sched.drain now).2.heap.queue :=
      List.filter_eq_self.2 (fun a ha => by have := h4 a ha; simp; omega)
    rw [List.filter_append] at this
    unfold Sched.drain at f1 f2 ⊢
    rw [f1, f2, List.nil_append] at this
    exact this.symm

/-- **C09.** A blocking `next` raises StopIteration at a step exactly when nothing is queued then;
otherwise it returns a queued event or goes on waiting. -/
theorem C09_stop_iff_empty {ident : Nat} {clock : Int} {s s' : Sys β} (hr : Sys.Reach ident clock s)
    (t : Nat) (hs : s.step (.tryNext t) = some s') :
    (s'.log = s.log ++ [.stopped t true s.clock] ↔ s.sched.heap.queue = []) ∧
    (s.sched.heap.queue ≠ [] → (∃ e ∈ s.sched.heap.queue, s'.log = s.log ++ [.yielded t e s.clock])
      ∨ (s'.log = s.log ∧ ∃ d, 0 < d ∧ s'.thr t = .aboutToSleep d)) := by
  simp only [Sys.step] at hs
  split at hs
  · rcases attempt_spec s.sched hr.inv.heap s.clock with ⟨h1, h2⟩ | ⟨e, h1, h2, h3⟩
    · rw [h2] at hs; cases hs
      simp [h1]
    · have hne : s.sched.heap.queue ≠ [] := by rintro h; simp [h] at h1
      rcases h3 with ⟨h5, h, h4, h6, h7⟩ | ⟨h5, h4⟩
      · rw [h4] at hs; cases hs
        simp only [hne, iff_false]
        exact ⟨by simp, fun _ => .inl ⟨e, h1, rfl⟩⟩
      · rw [h4] at hs; cases hs
        refine ⟨by simp [hne], fun _ => .inr ⟨rfl, e.time - s.clock, by omega, by simp [setThr]⟩⟩
  · cases hs

theorem sorted_cons_of_least {l q : List (Ev β)} {e : Ev β} (hp : l.Perm (e :: q))
    (hmin : ∀ x ∈ l, x.lt e = false)
    (hinj : ∀ a ∈ l, ∀ b ∈ l, a.sequence = b.sequence → a = b) :
    pysorted Ev.lt l = e :: pysorted Ev.lt q := by
  have hs1 := pysorted_sorted Ev.strictWeak l
  have hs2 := pysorted_sorted Ev.strictWeak q
  have hp1 := pysorted_perm Ev.lt l
  have hp2 := pysorted_perm Ev.lt q
  have hs3 : NonDecreasing Ev.lt (e :: pysorted Ev.lt q) := by
    refine List.Pairwise.cons ?_ hs2
    intro x hx
    exact hmin x (hp.symm.subset (List.mem_cons_of_mem _ (hp2.subset hx)))
  have hp3 : (pysorted Ev.lt l).Perm (e :: pysorted Ev.lt q) :=
    hp1.trans (hp.trans (.cons _ hp2.symm))
  apply List.ext_getElem hp3.length_eq
  intro i h1 h2
  have he := sorted_unique Ev.strictWeak hs1 hs3 hp3 i h1 h2
  refine hinj _ (hp1.subset (List.getElem_mem _))
    _ (hp1.subset (hp3.symm.subset (List.getElem_mem _))) ?_
  have e1 := he.1
  have e2 := he.2
  rw [Ev.lt_false_iff] at e1 e2
  omega

theorem consume_spec (nows : List Int) : ∀ (s : Sched β), IsHeapFrom Ev.lt 0 s.heap.queue →
    (∀ a ∈ s.heap.queue, ∀ b ∈ s.heap.queue, a.sequence = b.sequence → a = b) →
    (s.consume nows).1 ++ (s.consume nows).2.queue = s.queue := by
  induction nows with
  | nil => intro s _ _; simp [Sched.consume]
  | cons now nows ih =>
    intro s hh hinj
    rcases attempt_spec s hh now with ⟨h1, h2⟩ | ⟨e, h1, h2, h3⟩
    · simp only [Sched.consume, h2]; exact ih s hh hinj
    · rcases h3 with ⟨h5, h, h4, h6, h7⟩ | ⟨h5, h4⟩
      · simp only [Sched.consume, h4]
        have hsub : ∀ x ∈ h.queue, x ∈ s.heap.queue := fun x hx =>
          h6.symm.subset (List.mem_cons_of_mem _ hx)
        have := ih { s with heap := h } h7
          (fun a ha b hb => hinj a (hsub a ha) b (hsub b hb))
        simp only [List.cons_append, this]
        exact (sorted_cons_of_least h6 h2 hinj).symm
      · simp only [Sched.consume, h4]; exact ih s hh hinj

/-- **C09.** `Scheduler.queue` predicts the order: if nothing is scheduled or cancelled meanwhile,
then whatever the clock readings, the events a consumer is given are a prefix of what `queue`
showed, and `queue` afterwards shows the rest. -/
theorem C09_queue_predicts {ident : Nat} {clock : Int} {s : Sys β} (hr : Sys.Reach ident clock s)
    (nows : List Int) :
    (s.sched.consume nows).1 ++ (s.sched.consume nows).2.queue = s.sched.queue :=
  consume_spec nows s.sched hr.inv.heap fun _ ha _ hb =>
    hr.inv.seq_inj (hr.inv.queued_scheduled ha) (hr.inv.queued_scheduled hb)

/-- **C10.** A thread inside `event.wait` is released by every schedule and every successful cancel: it goes
back to re-examining the queue. -/
theorem C10_waiting_is_woken {s s' : Sys β} (l : Label β) (hs : s.step l = some s')
    (hl : (∃ t o time a p, l = .schedule t o time a p) ∨
      (∃ t e, l = .cancel t e ∧ s'.log = s.log ++ [.cancelled e]))
    (u : Nat) (dl : Int) (hu : s.thr u = .waiting dl) : s'.thr u = .looping := by
  rcases hl with ⟨t, o, time, a, p, rfl⟩ | ⟨t, e, rfl, hlog⟩
  · simp only [Sys.step] at hs
    split at hs
    · cases hs; simp [wakeAll, hu]
    · cases hs
  · simp only [Sys.step] at hs
    split at hs
    · split at hs
      · cases hs; simp [wakeAll, hu]
      · cases hs; simp at hlog
    · cases hs

/-- **C114.** Of the threads that mean to sleep when an event is scheduled or cancelled, those
already asleep go back to re-examining the queue, and those that have released the lock but are not asleep yet
miss the change: they are where they were, with the same interval in hand. -/
theorem C114_missed {s s' : Sys β} (l : Label β) (hs : s.step l = some s')
    (hl : (∃ t o time a p, l = .schedule t o time a p) ∨
      (∃ t e, l = .cancel t e ∧ s'.log = s.log ++ [.cancelled e])) (u : Nat) :
    (∀ dl, s.thr u = .waiting dl → s'.thr u = .looping) ∧
    (∀ d, s.thr u = .aboutToSleep d → s'.thr u = .aboutToSleep d) := by
  refine ⟨fun dl h => C10_waiting_is_woken l hs hl u dl h, fun d hu => ?_⟩
  rcases hl with ⟨t, o, time, a, p, rfl⟩ | ⟨t, e, rfl, hlog⟩
  · simp only [Sys.step] at hs
    split at hs
    · cases hs; simp [wakeAll, hu]
    · cases hs
  · simp only [Sys.step] at hs
    split at hs
    · split at hs
      · cases hs; simp [wakeAll, hu]
      · cases hs; simp at hlog
    · cases hs

/-- The interleaving of the lost wake-up, with two threads:
thread 0 schedules an event at 100, thread 1 calls next and releases the lock meaning to sleep 100,
thread 0 schedules another event at 1 (its wake finds nobody waiting), and only then thread 1 enters
`event.wait`. -/
def lostWakeupTrace : List (Label Unit) :=
  [.schedule 0 () 100 true 100, .enterNext 1, .tryNext 1, .schedule 0 () 1 true 100, .enterWait 1,
   .tick 50]

/-- Run a list of labels. -/
def Sys.exec (s : Sys β) : List (Label β) → Option (Sys β)
  | [] => some s
  | l :: ls => (s.step l).bind (·.exec ls)

theorem exec_reach {ident : Nat} {clock : Int} : ∀ (ls : List (Label Unit)) (s s' : Sys Unit),
    (∀ l ∈ ls, ∀ s : Sys Unit, l.Legal s) → Sys.Reach ident clock s → s.exec ls = some s' →
    Sys.Reach ident clock s'
  | [], s, s', _, hr, h => by cases h; exact hr
  | l :: ls, s, s', hl, hr, h => by
    simp only [Sys.exec, Option.bind_eq_some_iff] at h
    obtain ⟨s1, h1, h2⟩ := h
    exact exec_reach ls s1 s' (fun l' hl' => hl l' (List.mem_cons_of_mem _ hl'))
      (.step l hr (hl l List.mem_cons_self s) h1) h2

/-- **C114 (finding).** The full property is false: there is a reachable state in which an event
scheduled for time 1 is queued, the clock says 50, and a thread sleeps until 100, having entered its
sleep after that event was scheduled. -/
theorem C114_lost_wakeup :
    ∃ s : Sys Unit, Sys.Reach 0 0 s ∧ s.clock = 50 ∧ s.thr 1 = .waiting 100 ∧
      ∃ e ∈ s.sched.heap.queue, e.time = 1 := by
  have hex : ((Sys.init 0 0 : Sys Unit).exec lostWakeupTrace).any (fun s =>
      decide (s.clock = 50) && decide (s.thr 1 = .waiting 100) &&
      s.sched.heap.queue.any (fun e => decide (e.time = 1))) = true := by decide +kernel
  rw [Option.any_eq_true] at hex
  obtain ⟨s, h1, h2⟩ := hex
  simp only [Bool.and_eq_true, decide_eq_true_eq, List.any_eq_true] at h2
  refine ⟨s, exec_reach lostWakeupTrace _ s ?_ .init h1, h2.1.1, h2.1.2, h2.2⟩
  intro l hl s
  simp [lostWakeupTrace] at hl
  rcases hl with rfl | rfl | rfl | rfl | rfl | rfl <;> trivial

/-! ### The hypotheses are met: a reachable state with a queued event, an idle thread, etc. -/

/-- After scheduling two events and yielding one. -/
def sampleTrace : List (Label Unit) :=
  [.schedule 0 () 3 true 100, .schedule 1 () 3 true 100, .tick 5, .enterNext 2, .tryNext 2]

example : ∃ s : Sys Unit, Sys.Reach 7 0 s ∧ s.thr 0 = .idle ∧
    (yieldedOf s.log).length = 1 ∧ s.sched.heap.queue.length = 1 := by
  have hex : ((Sys.init 7 0 : Sys Unit).exec sampleTrace).any (fun s =>
      decide (s.thr 0 = .idle) && decide ((yieldedOf s.log).length = 1) &&
      decide (s.sched.heap.queue.length = 1)) = true := by decide +kernel
  rw [Option.any_eq_true] at hex
  obtain ⟨s, h1, h2⟩ := hex
  simp only [Bool.and_eq_true, decide_eq_true_eq] at h2
  have hr : Sys.Reach 7 0 s := exec_reach sampleTrace _ s (by
    intro l hl s
    simp [sampleTrace] at hl
    rcases hl with rfl | rfl | rfl | rfl | rfl <;> trivial) .init h1
  exact ⟨s, hr, h2.1.1, h2.1.2, h2.2⟩

end Big.Scheduler
