import Verif.Scheduler.LockProps
/-! # C126, C127: one call of schedule, from beginning to end; what a call that raises has done -/
namespace Big.Scheduler.Fine
open Big.Heap
variable {β : Type}

/-- Steps of all threads, in which no call of thread `t` ends. -/
inductive Run (t : Nat) : State β → State β → Prop
  | refl (s) : Run t s s
  | step {s0 s s'} (c : Choice β) : Run t s0 s → s.step c = some s' →
      (s'.results = s.results ∨ ∃ u r, u ≠ t ∧ s'.results = s.results ++ [(u, r)]) → Run t s0 s'

/-- The time given, or, if it is relative, the time given after a moment between `c0` and `c1`. -/
def Due (absolute : Bool) (time c0 c1 due : Int) : Prop :=
  (absolute = true ∧ due = time) ∨ (absolute = false ∧ ∃ c, c0 ≤ c ∧ c ≤ c1 ∧ due = time + c)

/-- Inside a call of schedule that began at `c0`. -/
def During (o : β) (time : Int) (absolute : Bool) (priority c0 c1 : Int) : Pc β → Prop
  | .enter op => op = .schedule o time absolute priority ∧ c0 ≤ c1
  | .schedNow o' tm p => o' = o ∧ p = priority ∧ tm = time ∧ absolute = false ∧ c0 ≤ c1
  | .schedRead o' tm p => o' = o ∧ p = priority ∧ Due absolute time c0 c1 tm
  | .schedWrite o' tm p _ => o' = o ∧ p = priority ∧ Due absolute time c0 c1 tm
  | .schedMake o' tm p => o' = o ∧ p = priority ∧ Due absolute time c0 c1 tm
  | .schedPush e => e.event = o ∧ e.priority = priority ∧ Due absolute time c0 c1 e.time
  | .schedSet e => e.event = o ∧ e.priority = priority ∧ Due absolute time c0 c1 e.time
  | .schedClear e => e.event = o ∧ e.priority = priority ∧ Due absolute time c0 c1 e.time
  | .exit _ (.over (.event e)) => e.event = o ∧ e.priority = priority ∧ Due absolute time c0 c1 e.time
  | .exit _ (.over .failed) => True
  | _ => False

theorem Due.mono {absolute : Bool} {time c0 c1 c2 due : Int} (h : Due absolute time c0 c1 due) (hc : c1 ≤ c2) :
    Due absolute time c0 c2 due := by
  rcases h with h | ⟨h1, c, h2, h3, h4⟩
  · exact .inl h
  · exact .inr ⟨h1, c, h2, by omega, h4⟩

theorem During.mono {o : β} {time : Int} {absolute : Bool} {priority c0 c1 c2 : Int} {p : Pc β}
    (h : During o time absolute priority c0 c1 p) (hc : c1 ≤ c2) : During o time absolute priority c0 c2 p := by
  cases p with
  | enter op => exact ⟨h.1, by have := h.2; omega⟩
  | schedNow => exact ⟨h.1, h.2.1, h.2.2.1, h.2.2.2.1, by have := h.2.2.2.2; omega⟩
  | schedRead => exact ⟨h.1, h.2.1, h.2.2.mono hc⟩
  | schedWrite => exact ⟨h.1, h.2.1, h.2.2.mono hc⟩
  | schedMake => exact ⟨h.1, h.2.1, h.2.2.mono hc⟩
  | schedPush => exact ⟨h.1, h.2.1, h.2.2.mono hc⟩
  | schedSet => exact ⟨h.1, h.2.1, h.2.2.mono hc⟩
  | schedClear => exact ⟨h.1, h.2.1, h.2.2.mono hc⟩
  | exit obs a =>
    cases a with
    | over r =>
      cases r with
      | event e => exact ⟨h.1, h.2.1, h.2.2.mono hc⟩
      | failed => trivial
      | _ => cases h
    | notYet => cases h
  | _ => cases h

/-- The steps of the other threads. -/
theorem other_step {s s' : State β} {t : Nat} (c : Choice β) (hs : s.step c = some s')
    (hc : ∀ op, c ≠ .call t op) (hg : c ≠ .go t) (hf : c ≠ .fail t) (ha : ∀ d, s.pc t ≠ .asleep d) :
    s'.pc t = s.pc t ∧ s.clock ≤ s'.clock := by
  have hset : ∀ (u : Nat) (f : Nat → Pc β) (q : Pc β), u ≠ t → setPc f u q t = f t := by
    intro u f q hu; simp [setPc, Ne.symm hu]
  have hwake : wakePc s.pc t = s.pc t := by
    unfold wakePc
    split
    · rename_i d h; exact absurd h (ha d)
    · rfl
  cases c with
  | tick d => cases hs; exact ⟨rfl, by dsimp only; omega⟩
  | call u op =>
    have hu : u ≠ t := by rintro rfl; exact hc op rfl
    unfold State.step at hs
    dsimp only at hs
    split at hs <;> cases hs
    exact ⟨hset _ _ _ hu, Int.le_refl _⟩
  | awake u =>
    unfold State.step at hs
    dsimp only at hs
    split at hs
    · rename_i d hp
      have hu : u ≠ t := by rintro rfl; exact ha d hp
      cases hs
      exact ⟨hset _ _ _ hu, Int.le_refl _⟩
    · cases hs
  | fail u =>
    have hu : u ≠ t := by rintro rfl; exact hf rfl
    unfold State.step State.fail at hs
    dsimp only at hs
    split at hs <;> cases hs <;> exact ⟨hset _ _ _ hu, Int.le_refl _⟩
  | go u =>
    have hu : u ≠ t := by rintro rfl; exact hg rfl
    unfold State.step State.go at hs
    dsimp only at hs
    split at hs
    · cases hs
    · split at hs
      · cases hs; exact ⟨hset _ _ _ hu, Int.le_refl _⟩
      · cases hs
    · cases hs; exact ⟨hset _ _ _ hu, Int.le_refl _⟩
    · cases hs; exact ⟨hset _ _ _ hu, Int.le_refl _⟩
    · cases hs; exact ⟨hset _ _ _ hu, Int.le_refl _⟩
    · cases hs; exact ⟨hset _ _ _ hu, Int.le_refl _⟩
    · cases hs; exact ⟨hset _ _ _ hu, Int.le_refl _⟩
    · cases hs; exact ⟨(hset _ _ _ hu).trans hwake, Int.le_refl _⟩
    · cases hs; exact ⟨hset _ _ _ hu, Int.le_refl _⟩
    · split at hs <;> cases hs <;> exact ⟨hset _ _ _ hu, Int.le_refl _⟩
    · cases hs; exact ⟨(hset _ _ _ hu).trans hwake, Int.le_refl _⟩
    · cases hs; exact ⟨hset _ _ _ hu, Int.le_refl _⟩
    · cases hs; exact ⟨hset _ _ _ hu, Int.le_refl _⟩
    · cases hs; exact ⟨hset _ _ _ hu, Int.le_refl _⟩
    · split at hs <;> cases hs <;> exact ⟨hset _ _ _ hu, Int.le_refl _⟩
    · cases hs; exact ⟨hset _ _ _ hu, Int.le_refl _⟩
    · split at hs
      · cases hs; exact ⟨hset _ _ _ hu, Int.le_refl _⟩
      · split at hs <;> cases hs <;> exact ⟨hset _ _ _ hu, Int.le_refl _⟩
    · split at hs <;> cases hs <;> exact ⟨hset _ _ _ hu, Int.le_refl _⟩
    · cases hs; exact ⟨hset _ _ _ hu, Int.le_refl _⟩
    · cases hs; exact ⟨hset _ _ _ hu, Int.le_refl _⟩
    · cases hs

/-- One step: the call goes on, or ends. -/
theorem during_step {o : β} {time : Int} {absolute : Bool} {priority c0 : Int} {s s' : State β} {t : Nat} (c : Choice β)
    (hs : s.step c = some s') (h : During o time absolute priority c0 s.clock (s.pc t)) :
    During o time absolute priority c0 s'.clock (s'.pc t) ∨
    (∃ r, s'.results = s.results ++ [(t, r)] ∧
      (r = .failed ∨ ∃ e, r = .event e ∧ e.event = o ∧ e.priority = priority ∧ Due absolute time c0 s.clock e.time)) := by
  have hset : ∀ (f : Nat → Pc β) (q : Pc β), setPc f t q t = q := by intro f q; simp [setPc]
  by_cases hc : ∃ op, c = .call t op
  · obtain ⟨op, rfl⟩ := hc
    unfold State.step at hs
    dsimp only at hs
    split at hs
    · rename_i hp; rw [hp] at h; cases h
    · cases hs
  by_cases hg : c = .go t
  · subst hg
    unfold State.step State.go at hs
    dsimp only at hs
    cases hp : s.pc t with
    | enter op =>
      rw [hp] at hs h
      obtain ⟨rfl, h2⟩ := h
      dsimp only at hs
      split at hs
      · cases hs
        left
        dsimp only
        rw [hset]
        cases absolute with
        | true => exact ⟨rfl, rfl, .inl ⟨rfl, rfl⟩⟩
        | false => exact ⟨rfl, rfl, rfl, rfl, h2⟩
      · cases hs
    | schedNow =>
      rw [hp] at hs h
      cases hs
      obtain ⟨h1, h2, h3, h4, h5⟩ := h
      left
      dsimp only
      rw [hset]
      exact ⟨h1, h2, .inr ⟨h4, _, h5, Int.le_refl _, by rw [h3]⟩⟩
    | schedRead => rw [hp] at hs h; cases hs; left; dsimp only; rw [hset]; exact h
    | schedWrite => rw [hp] at hs h; cases hs; left; dsimp only; rw [hset]; exact h
    | schedMake => rw [hp] at hs h; cases hs; left; dsimp only; rw [hset]; exact h
    | schedPush => rw [hp] at hs h; cases hs; left; dsimp only; rw [hset]; exact h
    | schedSet => rw [hp] at hs h; cases hs; left; dsimp only; rw [hset]; exact h
    | schedClear => rw [hp] at hs h; cases hs; left; dsimp only; rw [hset]; exact h
    | exit obs a =>
      rw [hp] at hs h
      cases hs
      cases a with
      | over r =>
        right
        refine ⟨r, rfl, ?_⟩
        cases r with
        | event e => exact .inr ⟨e, rfl, h⟩
        | failed => exact .inl rfl
        | _ => cases h
      | notYet => cases h
    | _ => rw [hp] at h; cases h
  by_cases hf : c = .fail t
  · subst hf
    unfold State.step State.fail at hs
    dsimp only at hs
    cases hp : s.pc t with
    | enter op => rw [hp] at hs; cases hs; exact .inr ⟨_, rfl, .inl rfl⟩
    | schedNow => rw [hp] at hs; cases hs; left; dsimp only; rw [hset]; trivial
    | schedSet => rw [hp] at hs; cases hs; left; dsimp only; rw [hset]; trivial
    | schedClear => rw [hp] at hs; cases hs; left; dsimp only; rw [hset]; trivial
    | schedRead => rw [hp] at hs; cases hs
    | schedWrite => rw [hp] at hs; cases hs
    | schedMake => rw [hp] at hs; cases hs
    | schedPush => rw [hp] at hs; cases hs
    | exit => rw [hp] at hs; cases hs
    | _ => rw [hp] at h; cases h
  · obtain ⟨h1, h2⟩ := other_step c hs (fun op e => hc ⟨op, e⟩) hg hf (by intro d e; rw [e] at h; cases h)
    left
    rw [h1]
    exact h.mono h2

/-- A thread whose call has just ended is idle. -/
theorem results_step {s s' : State β} (c : Choice β) (hs : s.step c = some s') :
    s'.results = s.results ∨ ∃ u r, s'.results = s.results ++ [(u, r)] ∧ s'.pc u = .idle := by
  have hset : ∀ (t : Nat) (f : Nat → Pc β) (q : Pc β), setPc f t q t = q := by intro t f q; simp [setPc]
  cases c with
  | tick d => cases hs; exact .inl rfl
  | call u op =>
    unfold State.step at hs
    dsimp only at hs
    split at hs <;> cases hs
    exact .inl rfl
  | awake u =>
    unfold State.step at hs
    dsimp only at hs
    split at hs <;> cases hs
    exact .inl rfl
  | fail u =>
    unfold State.step State.fail at hs
    dsimp only at hs
    split at hs
    · cases hs; exact .inr ⟨u, _, rfl, hset _ _ _⟩
    · cases hs; exact .inr ⟨u, _, rfl, hset _ _ _⟩
    · cases hs; exact .inr ⟨u, _, rfl, hset _ _ _⟩
    · cases hs; exact .inl rfl
    · cases hs; exact .inl rfl
    · cases hs; exact .inl rfl
    · cases hs; exact .inl rfl
    · cases hs; exact .inl rfl
    · cases hs; exact .inl rfl
    · cases hs
  | go u =>
    unfold State.step State.go at hs
    dsimp only at hs
    split at hs
    · cases hs
    · split at hs
      · cases hs; exact .inl rfl
      · cases hs
    · cases hs; exact .inl rfl
    · cases hs; exact .inl rfl
    · cases hs; exact .inl rfl
    · cases hs; exact .inl rfl
    · cases hs; exact .inl rfl
    · cases hs; exact .inl rfl
    · cases hs; exact .inl rfl
    · split at hs <;> cases hs <;> exact .inl rfl
    · cases hs; exact .inl rfl
    · cases hs; exact .inl rfl
    · cases hs; exact .inl rfl
    · cases hs; exact .inl rfl
    · split at hs <;> cases hs <;> exact .inl rfl
    · cases hs; exact .inl rfl
    · split at hs
      · cases hs; exact .inl rfl
      · split at hs <;> cases hs <;> exact .inl rfl
    · split at hs <;> cases hs <;> exact .inl rfl
    · rename_i obs a hp
      cases hs
      cases a with
      | over r => exact .inr ⟨u, r, rfl, hset _ _ _⟩
      | notYet b d =>
        cases b with
        | true => left; simp [State.leave, After.res]
        | false => exact .inr ⟨u, .stop, rfl, hset _ _ _⟩
    · cases hs; exact .inl rfl
    · cases hs

/-- **C126**: a call of `schedule(o, time, absolute=..., priority=...)`, among any steps of other threads, raises only if the regulator
does; else it returns an event for `o` with that priority, due at `time`, or `time` after a moment during the call. -/
theorem C126_schedule_call {o : β} {time : Int} {absolute : Bool} {priority : Int} {s0 s1 s2 : State β} (t : Nat)
    (h0 : s0.pc t = .enter (.schedule o time absolute priority)) (hr : Run t s0 s1) (c : Choice β) (hs : s1.step c = some s2)
    (r : Res β) (he : s2.results = s1.results ++ [(t, r)]) :
    r = .failed ∨ ∃ e, r = .event e ∧ e.event = o ∧ e.priority = priority ∧ Due absolute time s0.clock s1.clock e.time := by
  have hd : During o time absolute priority s0.clock s1.clock (s1.pc t) := by
    clear hs he
    induction hr with
    | refl => rw [h0]; exact ⟨rfl, Int.le_refl _⟩
    | step c _ hs hres ih =>
      rcases during_step c hs ih with h | ⟨r, h1, _⟩
      · exact h
      · exfalso
        rcases hres with h | ⟨u, r', hu, h⟩
        · rw [h1] at h
          have := congrArg List.length h
          simp at this
        · rw [h1] at h
          have := List.append_cancel_left h
          simp only [List.cons.injEq, Prod.mk.injEq, and_true] at this
          exact hu this.1.symm
  rcases during_step c hs hd with h | ⟨r', h1, h2⟩
  · exfalso
    rcases results_step c hs with h1 | ⟨u, r', h1, h2⟩
    · rw [he] at h1
      have := congrArg List.length h1
      simp at this
    · rw [he] at h1
      have := List.append_cancel_left h1
      simp only [List.cons.injEq, Prod.mk.injEq, and_true] at this
      rw [← this.1] at h2
      rw [h2] at h
      cases h
  · rw [he] at h1
    have := List.append_cancel_left h1
    simp only [List.cons.injEq, Prod.mk.injEq, and_true, true_and] at this
    rw [this]
    exact h2

/-! ## C127: what a call that raises has done -/

/-- The thread is inside `regulator.wake()`. -/
def Pc.waking : Pc β → Bool
  | .schedSet _ => true
  | .schedClear _ => true
  | .cancelSet _ => true
  | .cancelClear _ => true
  | _ => false

/-- States reachable if `wake` never raises. -/
inductive ReachQ (ident : Nat) (clock : Int) : State β → Prop
  | init : ReachQ ident clock (State.init ident clock)
  | step {s s'} (c : Choice β) : ReachQ ident clock s → c.Legal s → (∀ t, c = .fail t → (s.pc t).waking = false) →
      s.step c = some s' → ReachQ ident clock s'

theorem ReachQ.reach {ident : Nat} {clock : Int} {s : State β} (h : ReachQ ident clock s) : Reach ident clock s := by
  induction h with
  | init => exact .init
  | step c _ hl _ hs ih => exact .step c ih hl hs

/-- The history is what the calls that returned, or raised what they should, have done. -/
inductive ExplainedQ : List (Nat × Res β) → List (Obs β) → Prop
  | nil : ExplainedQ [] []
  | call {rs log} (t : Nat) (r : Res β) (obs : Option (Obs β)) : ExplainedQ rs log → Means t r obs → (r = .failed → obs = none) →
      ExplainedQ (rs ++ [(t, r)]) (log ++ obs.toList)

/-- What is true while the regulator raises nothing. -/
structure Clean (s : State β) : Prop where
  exit : ∀ t obs, s.pc t = .exit obs (.over .failed) → obs = none
  log : ExplainedQ s.results s.log

theorem Clean.upd {s s' : State β} (h : Clean s) {t : Nat} {q : Pc β}
    (hpc : s'.pc = setPc s.pc t q ∨ s'.pc = setPc (wakePc s.pc) t q) (hq : ∀ obs, q = .exit obs (.over .failed) → obs = none)
    (hlog : ExplainedQ s'.results s'.log) : Clean s' := by
  refine ⟨?_, hlog⟩
  intro u obs hu
  by_cases e : u = t
  · subst e
    refine hq obs ?_
    rw [← hu]
    rcases hpc with e | e <;> rw [e] <;> simp [setPc]
  · refine h.exit u obs ?_
    rcases hpc with e' | e' <;> rw [e'] at hu <;> unfold setPc at hu <;> rw [if_neg e] at hu
    · exact hu
    · unfold wakePc at hu
      split at hu
      · cases hu
      · exact hu

theorem clean_go {ident : Nat} {clock : Int} {s s' : State β} (hr : Reach ident clock s) (h : Clean s) {t : Nat}
    (hs : s.go t = some s') : Clean s' := by
  have told := hr.told
  unfold State.go at hs
  split at hs
  · cases hs
  · rename_i op hp
    split at hs
    · cases hs
      refine h.upd (.inl rfl) ?_ h.log
      cases op with
      | schedule o time a p => cases a <;> simp [Op.first]
      | _ => simp [Op.first]
    · cases hs
  · cases hs; exact h.upd (.inl rfl) (by simp) h.log
  · cases hs; exact h.upd (.inl rfl) (by simp) h.log
  · cases hs; exact h.upd (.inl rfl) (by simp) h.log
  · cases hs; exact h.upd (.inl rfl) (by simp) h.log
  · cases hs; exact h.upd (.inl rfl) (by simp) h.log
  · cases hs; exact h.upd (.inr rfl) (by simp) h.log
  · cases hs; exact h.upd (.inl rfl) (by simp) h.log
  · split at hs <;> cases hs <;> exact h.upd (.inl rfl) (by simp) h.log
  · cases hs; exact h.upd (.inr rfl) (by simp) h.log
  · cases hs; exact h.upd (.inl rfl) (by simp) h.log
  · cases hs; exact h.upd (.inl rfl) (by simp) h.log
  · cases hs; exact h.upd (.inl rfl) (by simp) h.log
  · split at hs <;> cases hs <;> exact h.upd (.inl rfl) (by simp) h.log
  · cases hs; exact h.upd (.inl rfl) (by simp) h.log
  · split at hs
    · cases hs; exact h.upd (.inl rfl) (by simp) h.log
    · split at hs <;> cases hs <;> exact h.upd (.inl rfl) (by simp) h.log
  · split at hs <;> cases hs <;> exact h.upd (.inl rfl) (by simp) h.log
  · rename_i obs a hp; cases hs
    have he := told.exit t
    rw [hp] at he
    cases a with
    | over r =>
      refine h.upd (.inl rfl) (by simp [After.pc]) (.call t r obs h.log he.1 ?_)
      rintro rfl
      exact h.exit t obs hp
    | notYet b d =>
      cases b with
      | true =>
        refine h.upd (.inl rfl) (by simp [After.pc]) ?_
        have : obs = none := he
        subst this
        simpa [State.leave, After.res] using h.log
      | false =>
        obtain ⟨now, he⟩ := he
        exact h.upd (.inl rfl) (by simp [After.pc]) (.call t .stop obs h.log ⟨_, _, he⟩ (by simp))
  · cases hs
    refine h.upd (.inl rfl) ?_ h.log
    split <;> simp
  · cases hs

theorem clean_step {ident : Nat} {clock : Int} {s s' : State β} (hr : Reach ident clock s) (h : Clean s) {c : Choice β}
    (hq : ∀ t, c = .fail t → (s.pc t).waking = false) (hs : s.step c = some s') : Clean s' := by
  cases c with
  | tick d => cases hs; exact ⟨h.exit, h.log⟩
  | call t op =>
    unfold State.step at hs
    dsimp only at hs
    split at hs <;> cases hs
    exact h.upd (.inl rfl) (by simp) h.log
  | go t => exact clean_go hr h hs
  | fail t =>
    have hw := hq t rfl
    have out : Clean ({ s with pc := setPc s.pc t .idle, results := s.results ++ [(t, .failed)] } : State β) := by
      refine h.upd (.inl rfl) (by simp) ?_
      have := ExplainedQ.call t .failed none h.log (.inl rfl) (fun _ => rfl)
      simpa using this
    unfold State.step State.fail at hs
    dsimp only at hs
    split at hs
    · cases hs; exact out
    · cases hs; exact out
    · cases hs; exact out
    · cases hs; exact h.upd (.inl rfl) (by simp) h.log
    · cases hs; exact h.upd (.inl rfl) (by simp) h.log
    · rename_i hp; rw [hp] at hw; cases hw
    · rename_i hp; rw [hp] at hw; cases hw
    · rename_i hp; rw [hp] at hw; cases hw
    · rename_i hp; rw [hp] at hw; cases hw
    · cases hs
  | awake t =>
    unfold State.step at hs
    dsimp only at hs
    split at hs <;> cases hs
    exact h.upd (.inl rfl) (by simp) h.log

theorem ReachQ.clean {ident : Nat} {clock : Int} {s : State β} (h : ReachQ ident clock s) : Clean s := by
  induction h with
  | init => exact ⟨fun _ _ h => by simp [State.init] at h, .nil⟩
  | step c hr _ hq hs ih => exact clean_step hr.reach ih hq hs

/-- The events that schedule returned. -/
def given (l : List (Nat × Res β)) : List (Ev β) := l.filterMap fun x => match x.2 with
  | .event e => some e
  | _ => none

theorem given_explained {rs : List (Nat × Res β)} {log : List (Obs β)} (h : ExplainedQ rs log) :
    given rs = scheduledOf log ∧ (rs.filter fun x => match x.2 with | .nothing => true | _ => false).length = (cancelledOf log).length := by
  induction h with
  | nil => exact ⟨rfl, rfl⟩
  | @call rs log t r obs _ hm hf ih =>
    unfold given scheduledOf cancelledOf at *
    rw [List.filterMap_append, List.filterMap_append, List.filterMap_append, List.filter_append, List.length_append,
      List.length_append, ih.1, ih.2]
    cases r with
    | event e => cases hm; exact ⟨rfl, rfl⟩
    | nothing => obtain ⟨e, rfl⟩ := hm; exact ⟨rfl, rfl⟩
    | valueError => obtain ⟨e, rfl⟩ := hm; exact ⟨rfl, rfl⟩
    | yielded e => obtain ⟨now, rfl⟩ := hm; exact ⟨rfl, rfl⟩
    | stop => obtain ⟨b, now, rfl⟩ := hm; exact ⟨rfl, rfl⟩
    | bool => cases hm; exact ⟨rfl, rfl⟩
    | queue => cases hm; exact ⟨rfl, rfl⟩
    | failed => rw [hf rfl]; exact ⟨rfl, rfl⟩
    | broken => cases hm

/-- **C127**: if wake never raises, the events scheduled are exactly those that calls of schedule returned, and as
many were cancelled as calls of cancel returned: a call that raises has changed nothing. A call in which wake raises has done
its work (C127_counterexample_wake). -/
theorem C127_raises_nothing_done {ident : Nat} {clock : Int} {s : State β} (h : ReachQ ident clock s) :
    given s.results = scheduledOf s.log ∧
    (s.results.filter fun x => match x.2 with | .nothing => true | _ => false).length = (cancelledOf s.log).length :=
  given_explained h.clean.log

/-- **C127**: in any case, the events that schedule returned were scheduled, in that order (C126_results says what the calls that raised
have done: nothing, or all but the wake). -/
theorem C127_raises {ident : Nat} {clock : Int} {s : State β} (h : Reach ident clock s) :
    (given s.results).Sublist (scheduledOf s.log) := by
  have key : ∀ {rs : List (Nat × Res β)} {log : List (Obs β)}, Explained rs log → (given rs).Sublist (scheduledOf log) := by
    intro rs log h
    induction h with
    | nil => exact .slnil
    | @call rs log t r obs _ hm ih =>
      unfold given scheduledOf at *
      rw [List.filterMap_append, List.filterMap_append]
      refine ih.append ?_
      cases r with
      | event e => cases hm; exact List.Sublist.refl _
      | _ => exact List.nil_sublist _
  exact key h.told.log

/-! ## Examples -/

/-- Follow a list of choices. -/
def exec : List (Choice β) → State β → Option (State β)
  | [], s => some s
  | c :: cs, s => (s.step c).bind (exec cs)

theorem exec_reach {ident : Nat} {clock : Int} : ∀ (l : List (Choice β)) (s s' : State β), (∀ c ∈ l, ∀ s, c.Legal s) →
    Reach ident clock s → exec l s = some s' → Reach ident clock s'
  | [], _, _, _, h, he => by cases he; exact h
  | c :: cs, s, s', hl, h, he => by
    unfold exec at he
    cases hs : s.step c with
    | none => rw [hs] at he; cases he
    | some s1 =>
      rw [hs] at he
      exact exec_reach cs s1 s' (fun c hc => hl c (List.mem_cons_of_mem _ hc)) (.step c h (hl c List.mem_cons_self s) hs) he

/-- Thread 0 schedules "x" for 5; its wake raises. -/
def wakeRaises : List (Choice String) :=
  [.call 0 (.schedule "x" 5 false 100), .go 0, .go 0, .go 0, .go 0, .go 0, .go 0, .fail 0, .go 0]

/-- **C127** is false of the code: here schedule has raised, and the event is in the queue. -/
theorem C127_counterexample_wake : ∃ s : State String, Reach 0 0 s ∧ s.lock = none ∧ s.results.length = 1 ∧
    (∃ x ∈ s.results, x.1 = 0 ∧ x.2 = .failed) ∧ given s.results = [] ∧ s.sched.heap.queue.length = 1 := by
  have hex : (exec wakeRaises (State.init 0 0)).any (fun s => s.lock.isNone && s.results.length == 1 &&
      s.results.any (fun x => x.1 == 0 && (match x.2 with | .failed => true | _ => false)) && (given s.results).isEmpty &&
      s.sched.heap.queue.length == 1) = true := by decide +kernel
  rw [Option.any_eq_true] at hex
  obtain ⟨s, h1, h2⟩ := hex
  simp only [Bool.and_eq_true, Option.isNone_iff_eq_none, beq_iff_eq, List.any_eq_true, List.isEmpty_iff] at h2
  obtain ⟨⟨⟨⟨e1, e2⟩, x, e3, e4, e5⟩, e6⟩, e7⟩ := h2
  refine ⟨s, exec_reach wakeRaises _ s ?_ .init h1, e1, e2, ⟨x, e3, e4, ?_⟩, e6, e7⟩
  · intro c hc s
    simp only [wakeRaises, List.mem_cons, List.not_mem_nil, or_false] at hc
    rcases hc with rfl | rfl | rfl | rfl | rfl | rfl | rfl | rfl | rfl <;> trivial
  · cases h : x.2 <;> rw [h] at e5 <;> first | rfl | cases e5

/-- Threads 0 and 1 schedule events at the same time, their steps interleaved; thread 2 sleeps and is woken, and gets the one
that is due first. -/
def interleaved : List (Choice String) :=
  [.call 0 (.schedule "x" 5 false 100), .call 1 (.schedule "y" 3 false 100), .go 0, .go 0, .tick 1, .go 0, .go 0, .go 0, .go 0,
   .go 0, .go 0, .go 0, .call 2 (.next true), .go 2, .go 2, .go 2, .go 2, .go 2, .go 2, .go 1, .go 1, .go 1, .go 1, .go 1, .go 1,
   .go 1, .go 1, .go 1, .tick 4, .go 2, .go 2, .go 2, .go 2, .go 2, .go 2]

example : (exec interleaved (State.init 0 0)).any (fun s => s.lock.isNone && (s.results.map Prod.fst == [0, 1, 2]) &&
    ((returned s.results).map fun x => x.2.event) == ["y"] && (s.sched.queue.map Ev.event == ["x"]) &&
    s.calls.contains (2, .sleep)) = true := by decide +kernel

end Big.Scheduler.Fine
