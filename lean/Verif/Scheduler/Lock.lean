import Verif.Scheduler.LockModel
import Verif.Scheduler.Props
/-! # The step-by-step execution stands for an atomic one (lemmas for C126) -/
namespace Big.Scheduler.Fine
open Big.Heap
variable {β : Type}

/-- Inside a `with self.regulator.lock:` body. -/
def Pc.inside : Pc β → Bool
  | .idle => false
  | .enter _ => false
  | .wantSleep _ => false
  | .asleep _ => false
  | _ => true

/-! ## Invariant -/

/-- What a thread knows at a point. -/
def PcOk (s : State β) : Pc β → Prop
  | .enter (.cancel e) => e ∈ scheduledOf s.log ∨ e.owner ≠ s.sched.ident
  | .cancelRemove e => e ∈ scheduledOf s.log ∨ e.owner ≠ s.sched.ident
  | .schedWrite _ _ _ c => c = s.sched.counter
  | .schedMake .. => 1 ≤ s.sched.counter
  | .schedPush e => 1 ≤ s.sched.counter ∧ e.owner = s.sched.ident ∧ e.sequence = s.sched.counter
  | .nextNow _ => s.sched.heap.queue.isEmpty = false
  | .nextHead .. => s.sched.heap.queue.isEmpty = false
  | .nextPop _ e now => s.sched.heap.queue.isEmpty = false ∧ s.sched.heap.getInt Ev.lt 0 = .ok e ∧ e.time - now ≤ 0
  | _ => True

/-- What is true of every reachable state: the thread inside is the one that has the lock. -/
structure WF (s : State β) : Prop where
  lock : ∀ t, (s.pc t).inside = true ↔ s.lock = some t
  ok : ∀ t, PcOk s (s.pc t)

theorem wakePc_inside (f : Nat → Pc β) (u : Nat) : (wakePc f u).inside = (f u).inside := by
  unfold wakePc
  split
  · rename_i h; rw [h]; rfl
  · rfl

theorem pcOk_outside {s s' : State β} (hid : s'.sched.ident = s.sched.ident) (hlog : ∃ l, s'.log = s.log ++ l) {p : Pc β}
    (hp : p.inside = false) (h : PcOk s p) : PcOk s' p := by
  obtain ⟨l, hl⟩ := hlog
  cases p with
  | enter op =>
    cases op with
    | cancel e =>
      unfold PcOk at *
      rw [hid, hl]
      rcases h with h | h
      · left
        unfold scheduledOf at *
        rw [List.filterMap_append]
        exact List.mem_append_left _ h
      · exact .inr h
    | _ => trivial
  | idle => trivial
  | wantSleep => trivial
  | asleep => trivial
  | _ => cases hp

/-- How the lock changes with a step of `t`, whose next point is `q`. -/
def LockOk (s s' : State β) (t : Nat) (q : Pc β) : Prop :=
  (s.lock = some t ∧ q.inside = true ∧ s'.lock = some t) ∨ (s.lock = some t ∧ q.inside = false ∧ s'.lock = none) ∨
  ((s.pc t).inside = false ∧ q.inside = false ∧ s'.lock = s.lock) ∨ (s.lock = none ∧ q.inside = true ∧ s'.lock = some t)

theorem wf_upd {s s' : State β} {t : Nat} {q : Pc β} (h : WF s)
    (hpc : s'.pc = setPc s.pc t q ∨ s'.pc = setPc (wakePc s.pc) t q) (hid : s'.sched.ident = s.sched.ident)
    (hlog : ∃ l, s'.log = s.log ++ l) (hq : PcOk s' q) (hlock : LockOk s s' t q) (hsame : s.lock ≠ some t → s'.sched = s.sched) :
    WF s' := by
  have hin : ∀ u, u ≠ t → (s'.pc u).inside = (s.pc u).inside := by
    intro u hu
    rcases hpc with e | e <;> rw [e] <;> unfold setPc <;> rw [if_neg hu]
    exact wakePc_inside _ _
  have ht : s'.pc t = q := by
    rcases hpc with e | e <;> rw [e] <;> simp [setPc]
  constructor
  · intro u
    by_cases hu : u = t
    · subst hu
      rw [ht]
      have := h.lock u
      rcases hlock with ⟨h1, h2, h3⟩ | ⟨h1, h2, h3⟩ | ⟨h1, h2, h3⟩ | ⟨h1, h2, h3⟩
      · simp [h2, h3]
      · simp [h2, h3]
      · rw [h1] at this; rw [h2, h3]; exact this
      · simp [h2, h3]
    · rw [hin u hu, h.lock u]
      rcases hlock with ⟨h1, h2, h3⟩ | ⟨h1, h2, h3⟩ | ⟨h1, h2, h3⟩ | ⟨h1, h2, h3⟩
      · rw [h1, h3]
      · rw [h1, h3]; simp [Ne.symm hu]
      · rw [h3]
      · rw [h1, h3]; simp [Ne.symm hu]
  · intro u
    by_cases hu : u = t
    · subst hu; rw [ht]; exact hq
    · by_cases hi : (s.pc u).inside = true
      · have h1 := (h.lock u).1 hi
        have h2 : s.lock ≠ some t := by rw [h1]; simp [hu]
        have hs := hsame h2
        have hp : s'.pc u = s.pc u := by
          rcases hpc with e | e <;> rw [e] <;> unfold setPc <;> rw [if_neg hu]
          unfold wakePc
          split
          · rename_i hh; rw [hh] at hi; cases hi
          · rfl
        rw [hp]
        have ho := h.ok u
        obtain ⟨l, hl⟩ := hlog
        cases hc : s.pc u with
        | cancelRemove e =>
          rw [hc] at ho
          unfold PcOk at *
          rw [hid, hl]
          rcases ho with ho | ho
          · left
            unfold scheduledOf at *
            rw [List.filterMap_append]
            exact List.mem_append_left _ ho
          · exact .inr ho
        | enter op => rw [hc] at hi; cases hi
        | schedWrite => rw [hc] at ho; unfold PcOk at *; rw [hs]; exact ho
        | schedMake => rw [hc] at ho; unfold PcOk at *; rw [hs]; exact ho
        | schedPush => rw [hc] at ho; unfold PcOk at *; rw [hs]; exact ho
        | nextNow => rw [hc] at ho; unfold PcOk at *; rw [hs]; exact ho
        | nextHead => rw [hc] at ho; unfold PcOk at *; rw [hs]; exact ho
        | nextPop => rw [hc] at ho; unfold PcOk at *; rw [hs]; exact ho
        | _ => trivial
      · have hi : (s.pc u).inside = false := by simpa using hi
        rcases hpc with e | e <;> rw [e] <;> unfold setPc <;> rw [if_neg hu]
        · exact pcOk_outside hid hlog hi (h.ok u)
        · unfold wakePc
          split
          · trivial
          · exact pcOk_outside hid hlog hi (h.ok u)

theorem first_inside (op : Op β) : op.first.inside = true := by
  cases op <;> simp only [Op.first] <;> (try split) <;> rfl

theorem after_outside (a : After β) : a.pc.inside = false := by
  cases a with
  | over => rfl
  | notYet b d => unfold After.pc; cases b <;> rfl

theorem after_ok (s : State β) (a : After β) : PcOk s a.pc := by
  cases a with
  | over => trivial
  | notYet b d => unfold After.pc; cases b <;> trivial

theorem cancel_ident {s s' : Sched β} {e : Ev β} (h : s.cancel e = .ok s') : s'.ident = s.ident := by
  unfold Sched.cancel at h
  split at h
  · cases h; rfl
  · cases h

theorem held {s : State β} (h : WF s) {t : Nat} {p : Pc β} (hp : s.pc t = p) (hi : p.inside = true) : s.lock = some t :=
  (h.lock t).1 (by rw [hp]; exact hi)

theorem wf_go {s s' : State β} (h : WF s) {t : Nat} (hs : s.go t = some s') : WF s' := by
  have stay : ∀ {p q : Pc β} {s' : State β}, s.pc t = p → p.inside = true → q.inside = true → s'.lock = s.lock → LockOk s s' t q :=
    fun hp hi hq hl => .inl ⟨held h hp hi, hq, hl.trans (held h hp hi)⟩
  have no : ∀ {p : Pc β} {X : Prop}, s.pc t = p → p.inside = true → s.lock ≠ some t → X :=
    fun hp hi hn => absurd (held h hp hi) hn
  have hok := h.ok t
  unfold State.go at hs
  split at hs
  · cases hs
  · rename_i op hp
    split at hs
    · rename_i hl
      cases hs
      refine wf_upd h (.inl rfl) rfl ⟨[], by simp⟩ ?_ (.inr (.inr (.inr ⟨by simpa using hl, first_inside _, rfl⟩))) fun _ => rfl
      rw [hp] at hok
      cases op with
      | cancel e => exact hok
      | schedule o time a p => cases a <;> trivial
      | _ => trivial
    · cases hs
  · rename_i hp; cases hs; exact wf_upd h (.inl rfl) rfl ⟨[], by simp⟩ trivial (stay hp rfl rfl rfl) (no hp rfl)
  · rename_i hp; cases hs; exact wf_upd h (.inl rfl) rfl ⟨[], by simp⟩ rfl (stay hp rfl rfl rfl) (no hp rfl)
  · rename_i hp; cases hs; exact wf_upd h (.inl rfl) rfl ⟨[], by simp⟩ (by simp [PcOk]) (stay hp rfl rfl rfl) (no hp rfl)
  · rename_i hp; cases hs
    rw [hp] at hok
    exact wf_upd h (.inl rfl) rfl ⟨[], by simp⟩ ⟨hok, rfl, rfl⟩ (stay hp rfl rfl rfl) (no hp rfl)
  · rename_i hp; cases hs; exact wf_upd h (.inl rfl) rfl ⟨[], by simp⟩ trivial (stay hp rfl rfl rfl) (no hp rfl)
  · rename_i hp; cases hs; exact wf_upd h (.inr rfl) rfl ⟨[], by simp⟩ trivial (stay hp rfl rfl rfl) (no hp rfl)
  · rename_i hp; cases hs; exact wf_upd h (.inl rfl) rfl ⟨[], by simp⟩ trivial (stay hp rfl rfl rfl) (no hp rfl)
  · rename_i hp
    split at hs
    · rename_i hc; cases hs
      exact wf_upd h (.inl rfl) (cancel_ident hc) ⟨[], by simp⟩ trivial (stay hp rfl rfl rfl) (no hp rfl)
    · cases hs; exact wf_upd h (.inl rfl) rfl ⟨[], by simp⟩ trivial (stay hp rfl rfl rfl) (no hp rfl)
  · rename_i hp; cases hs; exact wf_upd h (.inr rfl) rfl ⟨[], by simp⟩ trivial (stay hp rfl rfl rfl) (no hp rfl)
  · rename_i hp; cases hs; exact wf_upd h (.inl rfl) rfl ⟨[], by simp⟩ trivial (stay hp rfl rfl rfl) (no hp rfl)
  · rename_i hp; cases hs; exact wf_upd h (.inl rfl) rfl ⟨[], by simp⟩ trivial (stay hp rfl rfl rfl) (no hp rfl)
  · rename_i hp; cases hs; exact wf_upd h (.inl rfl) rfl ⟨[], by simp⟩ trivial (stay hp rfl rfl rfl) (no hp rfl)
  · rename_i hp
    split at hs
    · cases hs; exact wf_upd h (.inl rfl) rfl ⟨[], by simp⟩ trivial (stay hp rfl rfl rfl) (no hp rfl)
    · rename_i he
      cases hs
      exact wf_upd h (.inl rfl) rfl ⟨[], by simp⟩ (by simpa [PcOk] using he) (stay hp rfl rfl rfl) (no hp rfl)
  · rename_i hp; cases hs
    rw [hp] at hok
    exact wf_upd h (.inl rfl) rfl ⟨[], by simp⟩ hok (stay hp rfl rfl rfl) (no hp rfl)
  · rename_i hp
    rw [hp] at hok
    split at hs
    · cases hs; exact wf_upd h (.inl rfl) rfl ⟨[], by simp⟩ trivial (stay hp rfl rfl rfl) (no hp rfl)
    · rename_i ev hg
      split at hs
      · rename_i hle; cases hs
        exact wf_upd h (.inl rfl) rfl ⟨[], by simp⟩ ⟨hok, hg, hle⟩ (stay hp rfl rfl rfl) (no hp rfl)
      · cases hs; exact wf_upd h (.inl rfl) rfl ⟨[], by simp⟩ trivial (stay hp rfl rfl rfl) (no hp rfl)
  · rename_i hp
    split at hs
    · cases hs; exact wf_upd h (.inl rfl) rfl ⟨[], by simp⟩ trivial (stay hp rfl rfl rfl) (no hp rfl)
    · cases hs; exact wf_upd h (.inl rfl) rfl ⟨[], by simp⟩ trivial (stay hp rfl rfl rfl) (no hp rfl)
  · rename_i obs a hp; cases hs
    exact wf_upd h (.inl rfl) rfl ⟨_, rfl⟩ (after_ok _ _) (.inr (.inl ⟨held h hp rfl, after_outside _, rfl⟩)) (no hp rfl)
  · rename_i hp; cases hs
    refine wf_upd h (.inl rfl) rfl ⟨[], by simp⟩ ?_ (.inr (.inr (.inl ⟨by rw [hp]; rfl, ?_, rfl⟩))) (fun _ => rfl)
    · split <;> trivial
    · split <;> rfl
  · cases hs

theorem wf_fail {s s' : State β} (h : WF s) {t : Nat} (hs : s.fail t = some s') : WF s' := by
  have stay : ∀ {p q : Pc β} {s' : State β}, s.pc t = p → p.inside = true → q.inside = true → s'.lock = s.lock → LockOk s s' t q :=
    fun hp hi hq hl => .inl ⟨held h hp hi, hq, hl.trans (held h hp hi)⟩
  have no : ∀ {p : Pc β} {X : Prop}, s.pc t = p → p.inside = true → s.lock ≠ some t → X :=
    fun hp hi hn => absurd (held h hp hi) hn
  unfold State.fail at hs
  dsimp only at hs
  split at hs
  · rename_i hp; cases hs
    exact wf_upd h (.inl rfl) rfl ⟨[], by simp⟩ trivial (.inr (.inr (.inl ⟨by rw [hp]; rfl, rfl, rfl⟩))) (fun _ => rfl)
  · rename_i hp; cases hs
    exact wf_upd h (.inl rfl) rfl ⟨[], by simp⟩ trivial (.inr (.inr (.inl ⟨by rw [hp]; rfl, rfl, rfl⟩))) (fun _ => rfl)
  · rename_i hp; cases hs
    exact wf_upd h (.inl rfl) rfl ⟨[], by simp⟩ trivial (.inr (.inr (.inl ⟨by rw [hp]; rfl, rfl, rfl⟩))) (fun _ => rfl)
  · rename_i hp; cases hs; exact wf_upd h (.inl rfl) rfl ⟨[], by simp⟩ trivial (stay hp rfl rfl rfl) (no hp rfl)
  · rename_i hp; cases hs; exact wf_upd h (.inl rfl) rfl ⟨[], by simp⟩ trivial (stay hp rfl rfl rfl) (no hp rfl)
  · rename_i hp; cases hs; exact wf_upd h (.inl rfl) rfl ⟨[], by simp⟩ trivial (stay hp rfl rfl rfl) (no hp rfl)
  · rename_i hp; cases hs; exact wf_upd h (.inl rfl) rfl ⟨[], by simp⟩ trivial (stay hp rfl rfl rfl) (no hp rfl)
  · rename_i hp; cases hs; exact wf_upd h (.inl rfl) rfl ⟨[], by simp⟩ trivial (stay hp rfl rfl rfl) (no hp rfl)
  · rename_i hp; cases hs; exact wf_upd h (.inl rfl) rfl ⟨[], by simp⟩ trivial (stay hp rfl rfl rfl) (no hp rfl)
  · cases hs

theorem wf_step {s s' : State β} (h : WF s) {c : Choice β} (hc : c.Legal s) (hs : s.step c = some s') : WF s' := by
  cases c with
  | tick d => cases hs; exact ⟨h.lock, fun t => by have := h.ok t; cases hp : s.pc t <;> rw [hp] at this <;> exact this⟩
  | call t op =>
    unfold State.step at hs
    dsimp only at hs
    split at hs
    · rename_i hp; cases hs
      refine wf_upd h (.inl rfl) rfl ⟨[], by simp⟩ ?_ (.inr (.inr (.inl ⟨by rw [hp]; rfl, rfl, rfl⟩))) (fun _ => rfl)
      cases op with
      | cancel e => exact hc
      | _ => trivial
    · cases hs
  | go t => exact wf_go h hs
  | fail t => exact wf_fail h hs
  | awake t =>
    unfold State.step at hs
    dsimp only at hs
    split at hs
    · rename_i hp; cases hs
      exact wf_upd h (.inl rfl) rfl ⟨[], by simp⟩ trivial (.inr (.inr (.inl ⟨by rw [hp]; rfl, rfl, rfl⟩))) (fun _ => rfl)
    · cases hs

theorem Reach.wf {ident : Nat} {clock : Int} {s : State β} (h : Reach ident clock s) : WF s := by
  induction h with
  | init => exact ⟨fun t => by simp [State.init, Pc.inside], fun t => trivial⟩
  | step c _ hc hs ih => exact wf_step ih hc hs

/-! ## The atomic execution that a step-by-step execution stands for -/

/-- What the thread in the `with` body has done, or is certain to do: what Model.lean's atomic step adds to the history. -/
def pendObs (t : Nat) (s : Sched β) : Pc β → List (Obs β)
  | .schedSet e => [.scheduled e]
  | .schedClear e => [.scheduled e]
  | .cancelSet e => [.cancelled e]
  | .cancelClear e => [.cancelled e]
  | .nextHead b now => match s.attempt now with
    | .yielded e _ => [.yielded t e now]
    | _ => if b then [] else [.stopped t false now]
  | .nextPop _ e now => [.yielded t e now]
  | .exit obs _ => obs.toList
  | _ => []

/-- The scheduler after that. -/
def pendSched (s : Sched β) : Pc β → Sched β
  | .schedMake .. => { s with counter := s.counter - 1 }
  | .schedPush _ => { s with counter := s.counter - 1 }
  | .nextHead _ now => match s.attempt now with
    | .yielded _ s' => s'
    | _ => s
  | .nextPop _ _ now => match s.attempt now with
    | .yielded _ s' => s'
    | _ => s
  | _ => s

/-- Where the thread is in Model.lean: in a blocking __next__ that is not over, or idle. -/
def thrOf (s : Sched β) : Pc β → Thread
  | .enter (.next true) => .looping
  | .nextTest true => .looping
  | .nextNow true => .looping
  | .nextHead true now => match s.attempt now with
    | .yielded _ _ => .idle
    | _ => .looping
  | .exit _ (.notYet true _) => .looping
  | .wantSleep _ => .looping
  | .asleep _ => .looping
  | _ => .idle

/-- The state of Model.lean that a state stands for. -/
def State.abs (s : State β) : Sys β where
  sched := match s.lock with
    | some t => pendSched s.sched (s.pc t)
    | none => s.sched
  clock := s.clock
  thr := fun u => thrOf s.sched (s.pc u)
  log := match s.lock with
    | some t => s.log ++ pendObs t s.sched (s.pc t)
    | none => s.log

theorem thrOf_outside (s s' : Sched β) {p : Pc β} (h : p.inside = false) : thrOf s p = thrOf s' p := by
  cases p with
  | idle => rfl
  | enter op =>
    cases op with
    | next b => cases b <;> rfl
    | _ => rfl
  | wantSleep => rfl
  | asleep => rfl
  | _ => cases h

theorem thrOf_wake (s : Sched β) (f : Nat → Pc β) (u : Nat) : thrOf s (wakePc f u) = thrOf s (f u) := by
  unfold wakePc
  split
  · rename_i h; rw [h]; rfl
  · rfl

theorem setThr_same (f : Nat → Thread) (t : Nat) {x : Thread} (h : f t = x) : setThr f t x = f := by
  funext u
  unfold setThr
  split
  · rename_i h'; rw [h', h]
  · rfl

/-- Another step of `t`: the others are where they were. -/
theorem thr_upd {s : State β} (h : WF s) {t : Nat} (hl : s.lock = some t) (S : Sched β) (q : Pc β) :
    (fun u => thrOf S (setPc s.pc t q u)) = setThr (fun u => thrOf s.sched (s.pc u)) t (thrOf S q) := by
  funext u
  unfold setPc setThr
  by_cases hu : u = t
  · rw [if_pos hu, if_pos hu]
  · rw [if_neg hu, if_neg hu]
    refine thrOf_outside _ _ ?_
    cases hi : (s.pc u).inside with
    | false => rfl
    | true =>
      have := (h.lock u).1 hi
      rw [hl] at this
      cases this
      exact absurd rfl hu

theorem abs_held {s : State β} {t : Nat} {p : Pc β} (hl : s.lock = some t) (hp : s.pc t = p) :
    s.abs = ⟨pendSched s.sched p, s.clock, fun u => thrOf s.sched (s.pc u), s.log ++ pendObs t s.sched p⟩ := by
  unfold State.abs
  rw [hl]
  dsimp only
  rw [hp]

/-- The state after a step of `t` inside the `with` body. -/
theorem abs_step {s s' : State β} (h : WF s) {t : Nat} {q : Pc β} (hl : s.lock = some t) (hl' : s'.lock = s.lock)
    (hpc : s'.pc = setPc s.pc t q ∨ s'.pc = setPc (wakePc s.pc) t q) (hlog : s'.log = s.log) (hc : s'.clock = s.clock) :
    s'.abs = ⟨pendSched s'.sched q, s.clock, setThr (fun u => thrOf s.sched (s.pc u)) t (thrOf s'.sched q),
      s.log ++ pendObs t s'.sched q⟩ := by
  have ht : s'.pc t = q := by rcases hpc with e | e <;> rw [e] <;> simp [setPc]
  rw [abs_held (hl'.trans hl) ht, hc, hlog]
  congr 1
  rw [← thr_upd h hl]
  rcases hpc with e | e
  · rw [e]
  · rw [e]
    funext u
    unfold setPc
    split
    · rfl
    · exact thrOf_wake _ _ _

theorem noWaiting (s : State β) (u : Nat) : ∀ d, s.abs.thr u ≠ .waiting d := by
  intro d
  show thrOf s.sched (s.pc u) ≠ _
  unfold thrOf
  repeat' split
  all_goals simp

theorem wakeAll_abs (s : State β) : wakeAll s.abs.thr = s.abs.thr := by
  funext u
  unfold wakeAll
  split
  · rename_i d h; exact absurd h (noWaiting s u d)
  · rfl

/-- A step inside the `with` body that the atomic model does not see. -/
theorem abs_quiet {s s' : State β} (h : WF s) {t : Nat} {p q : Pc β} (hp : s.pc t = p) (hi : p.inside = true)
    (hl' : s'.lock = s.lock) (hpc : s'.pc = setPc s.pc t q ∨ s'.pc = setPc (wakePc s.pc) t q) (hlog : s'.log = s.log)
    (hc : s'.clock = s.clock) (h1 : pendSched s'.sched q = pendSched s.sched p)
    (h2 : pendObs t s'.sched q = pendObs t s.sched p) (h3 : thrOf s'.sched q = thrOf s.sched p) : s'.abs = s.abs := by
  have hl := held h hp hi
  rw [abs_step h hl hl' hpc hlog hc, abs_held hl hp, h1, h2, h3, setThr_same]
  rw [hp]

/-- A step outside. -/
theorem abs_out {s s' : State β} {t : Nat} {q : Pc β} (h : WF s) (hi : (s.pc t).inside = false)
    (hl' : s'.lock = s.lock) (hpc : s'.pc = setPc s.pc t q) (hlog : s'.log = s.log)
    (hc : s'.clock = s.clock) (hs : s'.sched = s.sched) :
    s'.abs = { s.abs with thr := setThr s.abs.thr t (thrOf s.sched q) } := by
  have hthr : (fun u => thrOf s'.sched (s'.pc u)) = setThr s.abs.thr t (thrOf s.sched q) := by
    funext u
    rw [hs, hpc]
    unfold setPc setThr
    split <;> rfl
  unfold State.abs
  rw [hthr, hl', hlog, hc, hs]
  cases hk : s.lock with
  | none => rfl
  | some v =>
    have hv : v ≠ t := by
      rintro rfl
      have := (h.lock v).2 hk
      rw [hi] at this
      cases this
    dsimp only
    rw [hpc]
    unfold setPc
    rw [if_neg hv]
    rfl

theorem abs_out_quiet {s s' : State β} {t : Nat} {p q : Pc β} (h : WF s) (hp : s.pc t = p) (hi : p.inside = false)
    (hl' : s'.lock = s.lock) (hpc : s'.pc = setPc s.pc t q) (hlog : s'.log = s.log)
    (hc : s'.clock = s.clock) (hs : s'.sched = s.sched) (h3 : thrOf s.sched q = thrOf s.sched p) : s'.abs = s.abs := by
  rw [abs_out h (by rw [hp]; exact hi) hl' hpc hlog hc hs, setThr_same]
  show thrOf s.sched (s.pc t) = _
  rw [hp, h3]

theorem attempt_ne_stop {s : Sched β} (h : s.heap.queue.isEmpty = false) {now : Int} : s.attempt now ≠ .stop := by
  unfold Sched.attempt
  rw [if_neg (by simp [h])]
  split
  · simp
  · dsimp only
    split
    · split <;> simp
    · simp

theorem attempt_err {s : Sched β} (h : s.heap.queue.isEmpty = false) {now : Int} {e : Err}
    (hg : s.heap.getInt Ev.lt 0 = .error e) : s.attempt now = .broken e := by
  unfold Sched.attempt
  rw [if_neg (by simp [h]), hg]

theorem attempt_sleep {s : Sched β} (h : s.heap.queue.isEmpty = false) {now : Int} {e : Ev β}
    (hg : s.heap.getInt Ev.lt 0 = .ok e) (hle : ¬ e.time - now ≤ 0) : s.attempt now = .sleep (e.time - now) := by
  unfold Sched.attempt
  rw [if_neg (by simp [h]), hg]
  dsimp only
  rw [if_neg hle]

theorem attempt_pop {s : Sched β} (h : s.heap.queue.isEmpty = false) {now : Int} {e : Ev β}
    (hg : s.heap.getInt Ev.lt 0 = .ok e) (hle : e.time - now ≤ 0) :
    s.attempt now = match s.heap.popleft Ev.lt with
      | .error e => .broken e
      | .ok (_, h) => .yielded e { s with heap := h } := by
  unfold Sched.attempt
  rw [if_neg (by simp [h]), hg]
  dsimp only
  rw [if_pos hle]
  rfl

theorem sim_go {ident : Nat} {clock : Int} {s s' : State β} (h : WF s) (hr : Sys.Reach ident clock s.abs) {t : Nat}
    (hs : s.go t = some s') : Sys.Reach ident clock s'.abs := by
  have hok := h.ok t
  have quiet : ∀ {p q : Pc β} {s' : State β}, s.pc t = p → p.inside = true → s'.lock = s.lock →
      (s'.pc = setPc s.pc t q ∨ s'.pc = setPc (wakePc s.pc) t q) → s'.log = s.log → s'.clock = s.clock →
      pendSched s'.sched q = pendSched s.sched p → pendObs t s'.sched q = pendObs t s.sched p →
      thrOf s'.sched q = thrOf s.sched p → Sys.Reach ident clock s'.abs := by
    intro p q s' a1 a2 a3 a4 a5 a6 a7 a8 a9
    rw [abs_quiet h a1 a2 a3 a4 a5 a6 a7 a8 a9]
    exact hr
  unfold State.go at hs
  split at hs
  · cases hs
  · rename_i op hp
    split at hs
    · rename_i hl
      cases hs
      have hl : s.lock = none := by simpa using hl
      suffices hh : ({ s with lock := some t, calls := s.calls ++ [(t, .acquire)], pc := setPc s.pc t op.first } : State β).abs
          = s.abs by rw [hh]; exact hr
      rw [abs_held (t := t) (p := op.first) rfl (by simp [setPc])]
      unfold State.abs
      rw [hl]
      dsimp only
      have e1 : pendSched s.sched op.first = s.sched := by
        cases op with
        | schedule o time a p => cases a <;> rfl
        | _ => rfl
      have e2 : pendObs t s.sched op.first = [] := by
        cases op with
        | schedule o time a p => cases a <;> rfl
        | _ => rfl
      have e3 : thrOf s.sched op.first = thrOf s.sched (.enter op) := by
        cases op with
        | schedule o time a p => cases a <;> rfl
        | next b => cases b <;> rfl
        | _ => rfl
      rw [e1, e2, List.append_nil]
      congr 1
      funext u
      unfold setPc
      split
      · rename_i hu; rw [e3, hu, hp]
      · rfl
    · cases hs
  · rename_i hp; cases hs; exact quiet hp rfl rfl (.inl rfl) rfl rfl rfl rfl rfl
  · rename_i hp; cases hs; exact quiet hp rfl rfl (.inl rfl) rfl rfl rfl rfl rfl
  · rename_i o time pr c hp; cases hs
    rw [hp] at hok
    refine quiet hp rfl rfl (.inl rfl) rfl rfl ?_ rfl rfl
    unfold PcOk at hok
    simp only [pendSched, Nat.add_sub_cancel, hok]
  · rename_i hp; cases hs; exact quiet hp rfl rfl (.inl rfl) rfl rfl rfl rfl rfl
  · -- schedPush
    rename_i e hp
    rw [hp] at hok
    obtain ⟨o1, o2, o3⟩ := hok
    have hl := held h hp rfl
    have hst : s.abs.step (.schedule t e.event e.time true e.priority) = some s'.abs := by
      have hidle : s.abs.thr t = .idle := by show thrOf s.sched (s.pc t) = _; rw [hp]; rfl
      simp only [Sys.step]
      rw [if_pos hidle, wakeAll_abs]
      have E := abs_step (s' := s') (q := .schedSet e) h hl (by cases hs; rfl) (.inl (by cases hs; rfl)) (by cases hs; rfl) (by cases hs; rfl)
      cases hs
      rw [abs_held hl hp, E]
      have e1 : s.sched.counter - 1 + 1 = s.sched.counter := by omega
      simp only [pendSched, pendObs, Sched.schedule, thrOf, List.append_nil, e1]
      rw [setThr_same _ _ (by rw [hp])]
      have e2 : (⟨s.sched.ident, e.event, e.time, e.priority, s.sched.counter⟩ : Ev β) = e := by
        rw [← o2, ← o3]
      simp [e2]
    exact .step (.schedule t e.event e.time true e.priority) hr trivial hst
  · rename_i hp; cases hs; exact quiet hp rfl rfl (.inr rfl) rfl rfl rfl rfl rfl
  · rename_i hp; cases hs; exact quiet hp rfl rfl (.inl rfl) rfl rfl rfl rfl rfl
  · -- cancelRemove
    rename_i e hp
    rw [hp] at hok
    have hl := held h hp rfl
    have hidle : s.abs.thr t = .idle := by show thrOf s.sched (s.pc t) = _; rw [hp]; rfl
    have hsc : s.abs.sched = s.sched := by rw [abs_held hl hp]; rfl
    have hlg : s.abs.log = s.log := by rw [abs_held hl hp]; simp [pendObs]
    have hst : s.abs.step (.cancel t e) = some s'.abs := by
      simp only [Sys.step]
      rw [if_pos hidle, wakeAll_abs, hsc, hlg]
      split at hs
      · rename_i sch hc
        have E := abs_step (s' := s') (q := .cancelSet e) h hl (by cases hs; rfl) (.inl (by cases hs; rfl)) (by cases hs; rfl) (by cases hs; rfl)
        cases hs
        rw [hc]
        dsimp only
        rw [abs_held hl hp, E]
        rw [setThr_same _ _ (by rw [hp]; rfl)]
        rfl
      · rename_i err hc
        have E := abs_step (s' := s') (q := .exit (some (.cancelFailed e)) (.over .valueError)) h hl (by cases hs; rfl) (.inl (by cases hs; rfl)) (by cases hs; rfl) (by cases hs; rfl)
        cases hs
        rw [hc]
        dsimp only
        rw [abs_held hl hp, E]
        rw [setThr_same _ _ (by rw [hp]; rfl)]
        rfl
    refine .step _ hr ?_ hst
    show e ∈ scheduledOf s.abs.log ∨ e.owner ≠ s.abs.sched.ident
    rw [hsc, hlg]
    exact hok
  · rename_i hp; cases hs; exact quiet hp rfl rfl (.inr rfl) rfl rfl rfl rfl rfl
  · rename_i hp; cases hs; exact quiet hp rfl rfl (.inl rfl) rfl rfl rfl rfl rfl
  · rename_i hp; cases hs; exact quiet hp rfl rfl (.inl rfl) rfl rfl rfl rfl rfl
  · rename_i hp; cases hs; exact quiet hp rfl rfl (.inl rfl) rfl rfl rfl rfl rfl
  · -- nextTest
    rename_i b hp
    split at hs
    · rename_i he
      have hl := held h hp rfl
      have E := abs_step (s' := s') (q := .exit (some (.stopped t b s.clock)) (.over .stop)) h hl (by cases hs; rfl) (.inl (by cases hs; rfl)) (by cases hs; rfl) (by cases hs; rfl)
      cases hs
      have hsc : s.abs.sched = s.sched := by rw [abs_held hl hp]; rfl
      have hlg : s.abs.log = s.log := by rw [abs_held hl hp]; simp [pendObs]
      have ha : s.sched.attempt s.clock = .stop := by unfold Sched.attempt; rw [if_pos he]
      cases b with
      | true =>
        have hthr : s.abs.thr t = .looping := by show thrOf s.sched (s.pc t) = _; rw [hp]; rfl
        refine .step (.tryNext t) hr trivial ?_
        simp only [Sys.step]
        rw [if_pos hthr, hsc, hlg, show s.abs.clock = s.clock from rfl, ha]
        dsimp only
        rw [abs_held hl hp, E]
        rfl
      | false =>
        have hthr : s.abs.thr t = .idle := by show thrOf s.sched (s.pc t) = _; rw [hp]; rfl
        refine .step (.nonBlocking t) hr trivial ?_
        simp only [Sys.step]
        rw [if_pos hthr, hsc, hlg, show s.abs.clock = s.clock from rfl, ha]
        dsimp only
        rw [abs_held hl hp, E]
        rw [setThr_same _ _ (by rw [hp]; rfl)]
        rfl
    · cases hs
      exact quiet hp rfl rfl (.inl rfl) rfl rfl rfl rfl (by cases b <;> rfl)
  · -- nextNow
    rename_i b hp
    rw [hp] at hok
    unfold PcOk at hok
    have hl := held h hp rfl
    have hsc : s.abs.sched = s.sched := by rw [abs_held hl hp]; rfl
    have hlg : s.abs.log = s.log := by rw [abs_held hl hp]; simp [pendObs]
    have hnb := C06_never_broken hr s.clock
    rw [hsc] at hnb
    have E := abs_step (s' := s') (q := .nextHead b s.clock) h hl (by cases hs; rfl) (.inl (by cases hs; rfl)) (by cases hs; rfl) (by cases hs; rfl)
    cases hs
    cases ha : s.sched.attempt s.clock with
    | stop =>
      exact absurd ha (attempt_ne_stop hok)
    | broken e => exact absurd ha (hnb e)
    | yielded e sch =>
      cases b with
      | true =>
        have hthr : s.abs.thr t = .looping := by show thrOf s.sched (s.pc t) = _; rw [hp]; rfl
        refine .step (.tryNext t) hr trivial ?_
        simp only [Sys.step]
        rw [if_pos hthr, hsc, hlg, show s.abs.clock = s.clock from rfl, ha]
        dsimp only
        rw [abs_held hl hp, E]
        simp only [pendSched, pendObs, thrOf, ha]
      | false =>
        have hthr : s.abs.thr t = .idle := by show thrOf s.sched (s.pc t) = _; rw [hp]; rfl
        refine .step (.nonBlocking t) hr trivial ?_
        simp only [Sys.step]
        rw [if_pos hthr, hsc, hlg, show s.abs.clock = s.clock from rfl, ha]
        dsimp only
        rw [abs_held hl hp, E]
        rw [setThr_same _ _ (by rw [hp]; rfl)]
        simp only [pendSched, pendObs, ha]
    | sleep d =>
      cases b with
      | true =>
        have hthr : s.abs.thr t = .looping := by show thrOf s.sched (s.pc t) = _; rw [hp]; rfl
        have r1 : Sys.Reach ident clock ({ s.abs with thr := setThr s.abs.thr t (.aboutToSleep d) } : Sys β) := by
          refine .step (.tryNext t) hr trivial ?_
          simp only [Sys.step]
          rw [if_pos hthr, hsc, show s.abs.clock = s.clock from rfl, ha]
        refine .step (.spurious t) r1 trivial ?_
        simp only [Sys.step]
        have : setThr s.abs.thr t (.aboutToSleep d) t = .aboutToSleep d := by simp [setThr]
        rw [this]
        dsimp only
        rw [abs_held hl hp, E]
        simp only [pendSched, pendObs, thrOf, ha]
        congr 2
        funext u
        unfold setThr
        split <;> rfl
      | false =>
        have hthr : s.abs.thr t = .idle := by show thrOf s.sched (s.pc t) = _; rw [hp]; rfl
        refine .step (.nonBlocking t) hr trivial ?_
        simp only [Sys.step]
        rw [if_pos hthr, hsc, hlg, show s.abs.clock = s.clock from rfl, ha]
        dsimp only
        rw [abs_held hl hp, E]
        rw [setThr_same _ _ (by rw [hp]; rfl)]
        simp [pendSched, pendObs, ha]
  · -- nextHead
    rename_i b now hp
    rw [hp] at hok
    unfold PcOk at hok
    split at hs
    · rename_i err hg
      have hl := held h hp rfl
      have ha := attempt_err (now := now) hok hg
      have hsc : s.abs.sched = s.sched := by rw [abs_held hl hp]; simp only [pendSched, ha]
      exact absurd (by rw [hsc]; exact ha) (C06_never_broken hr now err)
    · rename_i ev hg
      split at hs
      · rename_i hle
        cases hs
        have hl := held h hp rfl
        have ha := attempt_pop hok hg hle
        cases hpop : s.sched.heap.popleft Ev.lt with
        | error err =>
          rw [hpop] at ha
          have hsc : s.abs.sched = s.sched := by rw [abs_held hl hp]; simp only [pendSched, ha]
          exact absurd (by rw [hsc]; exact ha) (C06_never_broken hr now err)
        | ok x =>
          rw [hpop] at ha
          refine quiet hp rfl rfl (.inl rfl) rfl rfl ?_ ?_ ?_
          · simp only [pendSched, ha]
          · simp only [pendObs, ha]
          · cases b <;> simp only [thrOf, ha]
      · rename_i hle
        cases hs
        have ha := attempt_sleep hok hg hle
        refine quiet hp rfl rfl (.inl rfl) rfl rfl ?_ ?_ ?_
        · simp only [pendSched, ha]
        · simp only [pendObs, ha]; cases b <;> rfl
        · cases b <;> simp only [thrOf, ha]
  · -- nextPop
    rename_i b ev now hp
    rw [hp] at hok
    obtain ⟨o1, o2, o3⟩ := hok
    have hl := held h hp rfl
    have ha := attempt_pop o1 o2 o3
    split at hs
    · rename_i err hpop
      rw [hpop] at ha
      have hsc : s.abs.sched = s.sched := by rw [abs_held hl hp]; simp only [pendSched, ha]
      exact absurd (by rw [hsc]; exact ha) (C06_never_broken hr now err)
    · rename_i x hh hpop
      rw [hpop] at ha
      cases hs
      exact quiet hp rfl rfl (.inl rfl) rfl rfl (by simp only [pendSched, ha]) rfl rfl
  · -- exit
    rename_i obs a hp; cases hs
    have hl := held h hp rfl
    suffices hh : (s.leave t obs a).abs = s.abs by rw [hh]; exact hr
    rw [abs_held hl hp]
    unfold State.abs State.leave
    dsimp only [pendSched, pendObs]
    rw [thr_upd h hl, setThr_same]
    rw [hp]
    cases a with
    | over => rfl
    | notYet b d => cases b <;> rfl
  · rename_i d hp
    rw [abs_out_quiet (s' := s') (q := if s.flag then .enter (.next true) else .asleep (s.clock + d)) h hp rfl
      (by cases hs; rfl) (by cases hs; rfl) (by cases hs; rfl) (by cases hs; rfl) (by cases hs; rfl) (by split <;> rfl)]
    exact hr
  · cases hs

theorem sim_fail {ident : Nat} {clock : Int} {s s' : State β} (h : WF s) (hr : Sys.Reach ident clock s.abs) {t : Nat}
    (hs : s.fail t = some s') : Sys.Reach ident clock s'.abs := by
  have quiet : ∀ {p q : Pc β} {s' : State β}, s.pc t = p → p.inside = true → s'.lock = s.lock →
      (s'.pc = setPc s.pc t q ∨ s'.pc = setPc (wakePc s.pc) t q) → s'.log = s.log → s'.clock = s.clock →
      pendSched s'.sched q = pendSched s.sched p → pendObs t s'.sched q = pendObs t s.sched p →
      thrOf s'.sched q = thrOf s.sched p → Sys.Reach ident clock s'.abs := by
    intro p q s' a1 a2 a3 a4 a5 a6 a7 a8 a9
    rw [abs_quiet h a1 a2 a3 a4 a5 a6 a7 a8 a9]
    exact hr
  have out : ∀ {p : Pc β}, s.pc t = p → p.inside = false →
      some ({ s with pc := setPc s.pc t .idle, results := s.results ++ [(t, .failed)] } : State β) = some s' →
      Sys.Reach ident clock s'.abs := by
    intro p hp hi hs
    have E := abs_out (s' := s') (q := .idle) h (by rw [hp]; exact hi) (by cases hs; rfl) (by cases hs; rfl) (by cases hs; rfl)
      (by cases hs; rfl) (by cases hs; rfl)
    rw [E, show thrOf s.sched (.idle : Pc β) = .idle from rfl]
    by_cases ht : s.abs.thr t = .idle
    · rw [setThr_same _ _ ht]; exact hr
    · refine .step (.abandon t) hr trivial ?_
      simp only [Sys.step]
      rw [if_neg ht]
  unfold State.fail at hs
  dsimp only at hs
  split at hs
  · rename_i hp; exact out hp rfl hs
  · rename_i hp; exact out hp rfl hs
  · rename_i hp; exact out hp rfl hs
  · rename_i hp; cases hs; exact quiet hp rfl rfl (.inl rfl) rfl rfl rfl rfl rfl
  · rename_i b hp
    have hl := held h hp rfl
    have E := abs_step (s' := s') (q := .exit none (.over .failed)) h hl (by cases hs; rfl) (.inl (by cases hs; rfl))
      (by cases hs; rfl) (by cases hs; rfl)
    have hsc : s'.sched = s.sched := by cases hs; rfl
    have e : s'.abs = { s.abs with thr := setThr s.abs.thr t .idle } := by
      rw [E, abs_held hl hp, hsc]
      rfl
    rw [e]
    by_cases ht : s.abs.thr t = .idle
    · rw [setThr_same _ _ ht]; exact hr
    · refine .step (.abandon t) hr trivial ?_
      simp only [Sys.step]
      rw [if_neg ht]
  · rename_i hp; cases hs; exact quiet hp rfl rfl (.inl rfl) rfl rfl rfl rfl rfl
  · rename_i hp; cases hs; exact quiet hp rfl rfl (.inl rfl) rfl rfl rfl rfl rfl
  · rename_i hp; cases hs; exact quiet hp rfl rfl (.inl rfl) rfl rfl rfl rfl rfl
  · rename_i hp; cases hs; exact quiet hp rfl rfl (.inl rfl) rfl rfl rfl rfl rfl
  · cases hs

theorem sim_step {ident : Nat} {clock : Int} {s s' : State β} (h : WF s) (hr : Sys.Reach ident clock s.abs) {c : Choice β}
    (hs : s.step c = some s') : Sys.Reach ident clock s'.abs := by
  cases c with
  | tick d => cases hs; exact .step (.tick d) hr trivial rfl
  | call t op =>
    unfold State.step at hs
    dsimp only at hs
    split at hs
    · rename_i hp
      have E := abs_out (s' := s') (q := .enter op) h (by rw [hp]; rfl) (by cases hs; rfl) (by cases hs; rfl) (by cases hs; rfl)
        (by cases hs; rfl) (by cases hs; rfl)
      have ht : s.abs.thr t = .idle := by show thrOf s.sched (s.pc t) = _; rw [hp]; rfl
      rw [E]
      by_cases hn : thrOf s.sched (.enter op) = .idle
      · rw [hn, setThr_same _ _ ht]; exact hr
      · have hn' : thrOf s.sched (.enter op) = .looping := by
          cases op with
          | next b =>
            cases b with
            | true => rfl
            | false => exact absurd rfl hn
          | _ => exact absurd rfl hn
        rw [hn']
        refine .step (.enterNext t) hr trivial ?_
        simp only [Sys.step]
        rw [if_pos ht]
    · cases hs
  | go t => exact sim_go h hr hs
  | fail t => exact sim_fail h hr hs
  | awake t =>
    unfold State.step at hs
    dsimp only at hs
    split at hs
    · rename_i d hp
      rw [abs_out_quiet (s' := s') (q := .enter (.next true)) h hp rfl
        (by cases hs; rfl) (by cases hs; rfl) (by cases hs; rfl) (by cases hs; rfl) (by cases hs; rfl) rfl]
      exact hr
    · cases hs

theorem Reach.abs {ident : Nat} {clock : Int} {s : State β} (h : Reach ident clock s) : Sys.Reach ident clock s.abs := by
  induction h with
  | init => exact .init
  | step c hr _ hs ih => exact sim_step hr.wf ih hs

end Big.Scheduler.Fine
