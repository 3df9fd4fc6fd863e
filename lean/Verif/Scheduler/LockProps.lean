import Verif.Scheduler.Lock
/-! # C126: a Scheduler keeps to the regulator's protocol, and its calls are atomic -/
namespace Big.Scheduler.Fine
open Big.Heap
variable {β : Type}

/-! ## Atomicity -/

/-- **C126**: whatever the interleaving of the threads' steps and whatever calls of the regulator raise, there is an execution of the
atomic model (to which C05 to C09 apply) with the same clock; whenever the lock is free it has the same scheduler and the same history. -/
theorem C126_atomic {ident : Nat} {clock : Int} {s : State β} (h : Reach ident clock s) :
    ∃ a : Sys β, Sys.Reach ident clock a ∧ a.clock = s.clock ∧ (s.lock = none → a.sched = s.sched ∧ a.log = s.log) := by
  refine ⟨s.abs, h.abs, rfl, fun hl => ?_⟩
  unfold State.abs
  rw [hl]
  exact ⟨rfl, rfl⟩

/-- **C126**: so no event is lost or duplicated: whenever the lock is free, the events scheduled are all different, and each is queued,
yielded or cancelled, once. -/
theorem C126_no_loss {ident : Nat} {clock : Int} {s : State β} (h : Reach ident clock s) (hl : s.lock = none) :
    (scheduledOf s.log).Nodup ∧ (scheduledOf s.log).Perm (s.sched.heap.queue ++ (yieldedOf s.log ++ cancelledOf s.log)) := by
  obtain ⟨a, h1, _, h2⟩ := C126_atomic h
  obtain ⟨h3, h4⟩ := h2 hl
  rw [← h3, ← h4]
  exact C06_no_loss_no_duplication h1

/-! ## The regulator's protocol -/

/-- Who holds the lock after these calls. -/
def holder (l : List (Nat × RCall)) : Option Nat :=
  l.foldl (fun h c => match c.2 with
    | .acquire => some c.1
    | .release => none
    | _ => h) none

/-- What the documentation of Regulator allows thread `t` to call while `h` holds the lock: now and wake only while holding it, sleep
only while not holding it; it is never entered twice. -/
def Allowed (h : Option Nat) (t : Nat) : RCall → Prop
  | .acquire => h = none
  | .release => h = some t
  | .now => h = some t
  | .wake => h = some t
  | .sleep => h ≠ some t

/-- The calls of the regulator keep to the protocol. -/
def Protocol (l : List (Nat × RCall)) : Prop := ∀ pre t c post, l = pre ++ (t, c) :: post → Allowed (holder pre) t c

theorem holder_snoc (l : List (Nat × RCall)) (c : Nat × RCall) : holder (l ++ [c]) = match c.2 with
    | .acquire => some c.1
    | .release => none
    | _ => holder l := by
  unfold holder
  rw [List.foldl_append]
  rfl

theorem Protocol.snoc {l : List (Nat × RCall)} (h : Protocol l) {t : Nat} {c : RCall} (hc : Allowed (holder l) t c) :
    Protocol (l ++ [(t, c)]) := by
  intro pre t' c' post e
  rcases List.eq_nil_or_concat post with rfl | ⟨post', x, rfl⟩
  · have := List.append_inj' e rfl
    obtain ⟨rfl, h2⟩ := this
    cases h2
    exact hc
  · have e : l ++ [(t, c)] = (pre ++ (t', c') :: post') ++ [x] := by simpa using e
    obtain ⟨h1, _⟩ := List.append_inj' e rfl
    exact h pre t' c' post' h1

/-- What is true of every reachable state: the calls of the regulator so far keep to its protocol. -/
structure Proto (s : State β) : Prop where
  lock : holder s.calls = s.lock
  ok : Protocol s.calls

theorem Proto.same {s s' : State β} (h : Proto s) (h1 : s'.calls = s.calls) (h2 : s'.lock = s.lock) : Proto s' :=
  ⟨by rw [h1, h2]; exact h.lock, by rw [h1]; exact h.ok⟩

theorem Proto.call {s s' : State β} (h : Proto s) {t : Nat} {c : RCall} (hc : Allowed s.lock t c)
    (h1 : s'.calls = s.calls ++ [(t, c)]) (h2 : s'.lock = match c with | .acquire => some t | .release => none | _ => s.lock) :
    Proto s' := by
  constructor
  · rw [h1, h2, holder_snoc]
    cases c <;> first | rfl | exact h.lock
  · rw [h1]
    exact h.ok.snoc (by rw [h.lock]; exact hc)

theorem proto_go {s s' : State β} (w : WF s) (h : Proto s) {t : Nat} (hs : s.go t = some s') : Proto s' := by
  unfold State.go at hs
  split at hs
  · cases hs
  · split at hs
    · rename_i hl
      cases hs
      exact h.call (t := t) (c := .acquire) (show s.lock = none by simpa using hl) rfl rfl
    · cases hs
  · rename_i hp; cases hs; exact h.call (t := t) (c := .now) (held w hp rfl) rfl rfl
  · cases hs; exact h.same rfl rfl
  · cases hs; exact h.same rfl rfl
  · cases hs; exact h.same rfl rfl
  · cases hs; exact h.same rfl rfl
  · rename_i hp; cases hs; exact h.call (t := t) (c := .wake) (held w hp rfl) rfl rfl
  · cases hs; exact h.same rfl rfl
  · split at hs <;> cases hs <;> exact h.same rfl rfl
  · rename_i hp; cases hs; exact h.call (t := t) (c := .wake) (held w hp rfl) rfl rfl
  · cases hs; exact h.same rfl rfl
  · cases hs; exact h.same rfl rfl
  · cases hs; exact h.same rfl rfl
  · split at hs <;> cases hs <;> exact h.same rfl rfl
  · rename_i hp; cases hs; exact h.call (t := t) (c := .now) (held w hp rfl) rfl rfl
  · split at hs
    · cases hs; exact h.same rfl rfl
    · split at hs <;> cases hs <;> exact h.same rfl rfl
  · split at hs <;> cases hs <;> exact h.same rfl rfl
  · rename_i hp; cases hs; exact h.call (t := t) (c := .release) (held w hp rfl) rfl rfl
  · rename_i hp; cases hs
    refine h.call (t := t) (c := .sleep) ?_ rfl rfl
    intro hl
    have := (w.lock t).2 hl
    rw [hp] at this
    cases this
  · cases hs

theorem proto_step {s s' : State β} (w : WF s) (h : Proto s) {c : Choice β} (hs : s.step c = some s') : Proto s' := by
  cases c with
  | tick d => cases hs; exact h.same rfl rfl
  | call t op =>
    unfold State.step at hs
    dsimp only at hs
    split at hs <;> cases hs
    exact h.same rfl rfl
  | go t => exact proto_go w h hs
  | fail t =>
    unfold State.step State.fail at hs
    dsimp only at hs
    split at hs <;> cases hs <;> exact h.same rfl rfl
  | awake t =>
    unfold State.step at hs
    dsimp only at hs
    split at hs <;> cases hs
    exact h.same rfl rfl

/-- **C126**: for every interleaving and whatever the regulator raises, a Scheduler calls now and wake only while the calling thread
holds the regulator's lock, sleep only while it does not, and never enters the lock while it holds it. -/
theorem C126_protocol {ident : Nat} {clock : Int} {s : State β} (h : Reach ident clock s) :
    Protocol s.calls ∧ holder s.calls = s.lock := by
  have : Proto s := by
    induction h with
    | init =>
      refine ⟨rfl, ?_⟩
      intro pre t c post e
      have := congrArg List.length e
      simp [State.init] at this
    | step c hr _ hs ih => exact proto_step hr.wf ih hs
  exact ⟨this.ok, this.lock⟩

/-- **C126**: only one thread at a time is inside a `with` body, the one that holds the lock; a call that is over, whether it returned
or raised, does not hold it, nor does a thread that is about to enter or that sleeps. -/
theorem C126_exclusive {ident : Nat} {clock : Int} {s : State β} (h : Reach ident clock s) (t : Nat) :
    ((s.pc t).inside = true ↔ s.lock = some t) ∧ (s.pc t = .idle → s.lock ≠ some t) ∧
    (∀ op, s.pc t = .enter op → s.lock ≠ some t) ∧ (∀ d, s.pc t = .asleep d → s.lock ≠ some t) ∧
    (∀ d, s.pc t = .wantSleep d → s.lock ≠ some t) := by
  have w := h.wf.lock t
  refine ⟨w, ?_, ?_, ?_, ?_⟩
  · intro hp hl; have := w.2 hl; rw [hp] at this; cases this
  · intro op hp hl; have := w.2 hl; rw [hp] at this; cases this
  · intro op hp hl; have := w.2 hl; rw [hp] at this; cases this
  · intro op hp hl; have := w.2 hl; rw [hp] at this; cases this

/-! ## Progress -/

/-- `n` steps of thread `t`. -/
def State.goN (t : Nat) : Nat → State β → Option (State β)
  | 0, s => some s
  | n + 1, s => (s.go t).bind (State.goN t n)

/-- How many steps are left. -/
def rank : Pc β → Nat
  | .schedNow .. => 8
  | .schedRead .. => 7
  | .schedWrite .. => 6
  | .schedMake .. => 5
  | .schedPush .. => 4
  | .schedSet .. => 3
  | .schedClear .. => 2
  | .cancelRemove .. => 4
  | .cancelSet .. => 3
  | .cancelClear .. => 2
  | .readBool => 2
  | .readQueue => 2
  | .nextTest .. => 5
  | .nextNow .. => 4
  | .nextHead .. => 3
  | .nextPop .. => 2
  | .exit .. => 1
  | _ => 0

theorem go_rank {s : State β} {t : Nat} (hi : (s.pc t).inside = true) :
    ∃ s', s.go t = some s' ∧ ((s'.pc t).inside = false ∧ s'.lock = none ∨ (s'.pc t).inside = true ∧ rank (s'.pc t) < rank (s.pc t)) := by
  have hset : ∀ (f : Nat → Pc β) (q : Pc β), setPc f t q t = q := by intro f q; simp [setPc]
  unfold State.go
  cases hp : s.pc t with
  | idle => rw [hp] at hi; cases hi
  | enter => rw [hp] at hi; cases hi
  | wantSleep => rw [hp] at hi; cases hi
  | asleep => rw [hp] at hi; cases hi
  | exit obs a =>
    refine ⟨_, rfl, .inl ⟨?_, rfl⟩⟩
    simp only [State.leave, hset]
    exact after_outside a
  | cancelRemove e =>
    dsimp only
    split <;> exact ⟨_, rfl, .inr (by simp [hset, Pc.inside, rank])⟩
  | nextTest b =>
    dsimp only
    split <;> exact ⟨_, rfl, .inr (by simp [hset, Pc.inside, rank])⟩
  | nextHead b now =>
    dsimp only
    split
    · exact ⟨_, rfl, .inr (by simp [hset, Pc.inside, rank])⟩
    · split <;> exact ⟨_, rfl, .inr (by simp [hset, Pc.inside, rank])⟩
  | nextPop b e now =>
    dsimp only
    split <;> exact ⟨_, rfl, .inr (by simp [hset, Pc.inside, rank])⟩
  | _ => exact ⟨_, rfl, .inr (by simp [hset, Pc.inside, rank])⟩

theorem go_release (t : Nat) : ∀ (k : Nat) (s : State β), (s.pc t).inside = true → rank (s.pc t) ≤ k →
    ∃ n, n ≤ k ∧ ∃ s', s.goN t n = some s' ∧ s'.lock = none
  | 0, s, hi, hk => by
    obtain ⟨s', _, h | h⟩ := go_rank hi
    · exfalso
      cases hp : s.pc t <;> rw [hp] at hi hk <;> first | (simp [rank] at hk; done) | cases hi
    · omega
  | k + 1, s, hi, hk => by
    obtain ⟨s', h1, h | h⟩ := go_rank hi
    · exact ⟨1, by omega, s', by simp [State.goN, h1], h.2⟩
    · obtain ⟨n, h2, s2, h3, h4⟩ := go_release t k s' h.1 (by omega)
      exact ⟨n + 1, by omega, s2, by simp [State.goN, h1, h3], h4⟩

/-- **C126**: no thread keeps the lock: the one that holds it can always go on, releases it within 8 steps of its own, and no step of
another thread moves it. -/
theorem C126_released {ident : Nat} {clock : Int} {s : State β} (h : Reach ident clock s) (t : Nat) (hl : s.lock = some t) :
    (∃ n, n ≤ 8 ∧ ∃ s', s.goN t n = some s' ∧ s'.lock = none) ∧
    ∀ u s', u ≠ t → (s.go u = some s' ∨ s.fail u = some s' ∨ s.step (.awake u) = some s' ∨ ∃ op, s.step (.call u op) = some s') →
      s'.pc t = s.pc t ∧ s'.lock = some t := by
  have w := h.wf
  have hi := (w.lock t).2 hl
  constructor
  · refine go_release t 8 s hi ?_
    cases s.pc t <;> simp [rank]
  · intro u s' hu hs
    have hui : (s.pc u).inside = false := by
      cases hc : (s.pc u).inside with
      | false => rfl
      | true =>
        have := (w.lock u).1 hc
        rw [hl] at this
        cases this
        exact absurd rfl hu
    have hset : ∀ q : Pc β, setPc s.pc u q t = s.pc t := by
      intro q; simp [setPc, Ne.symm hu]
    rcases hs with hs | hs | hs | ⟨op, hs⟩
    · unfold State.go at hs
      cases hp : s.pc u with
      | idle => rw [hp] at hs; cases hs
      | asleep => rw [hp] at hs; cases hs
      | enter op => rw [hp] at hs; simp [hl] at hs
      | wantSleep d => rw [hp] at hs; cases hs; exact ⟨hset _, hl⟩
      | _ => rw [hp] at hui; cases hui
    · unfold State.fail at hs
      cases hp : s.pc u with
      | asleep => rw [hp] at hs; cases hs; exact ⟨hset _, hl⟩
      | enter op => rw [hp] at hs; cases hs; exact ⟨hset _, hl⟩
      | wantSleep d => rw [hp] at hs; cases hs; exact ⟨hset _, hl⟩
      | idle => rw [hp] at hs; cases hs
      | _ => rw [hp] at hui; cases hui
    · unfold State.step at hs
      dsimp only at hs
      split at hs <;> cases hs
      exact ⟨hset _, hl⟩
    · unfold State.step at hs
      dsimp only at hs
      split at hs <;> cases hs
      exact ⟨hset _, hl⟩

/-- **C126**: when schedule or cancel has called wake, no thread is asleep, not even one that fell asleep after the event was queued. -/
theorem C126_wakes {s s' : State β} (t : Nat) (h : s.go t = some s') (hw : (t, RCall.wake) ∈ s'.calls.drop s.calls.length) (u : Nat)
    (d : Int) : s'.pc u ≠ .asleep d := by
  have hwake : ∀ q : Pc β, (∀ d, q ≠ .asleep d) → setPc (wakePc s.pc) t q u ≠ .asleep d := by
    intro q hq
    unfold setPc
    split
    · exact hq d
    · unfold wakePc
      split
      · simp
      · rename_i hn; exact hn d
  have no : ∀ c, c ≠ RCall.wake → (t, RCall.wake) ∉ (s.calls ++ [(t, c)]).drop s.calls.length := by
    intro c hc
    rw [List.drop_append, List.drop_length]
    simpa using Ne.symm hc
  have no' : (t, RCall.wake) ∉ s.calls.drop s.calls.length := by simp
  unfold State.go at h
  split at h
  · cases h
  · split at h
    · cases h; exact absurd hw (no _ (by simp))
    · cases h
  · cases h; exact absurd hw (no _ (by simp))
  · cases h; exact absurd hw no'
  · cases h; exact absurd hw no'
  · cases h; exact absurd hw no'
  · cases h; exact absurd hw no'
  · cases h; exact hwake _ (by simp)
  · cases h; exact absurd hw no'
  · split at h <;> cases h <;> exact absurd hw no'
  · cases h; exact hwake _ (by simp)
  · cases h; exact absurd hw no'
  · cases h; exact absurd hw no'
  · cases h; exact absurd hw no'
  · split at h <;> cases h <;> exact absurd hw no'
  · cases h; exact absurd hw (no _ (by simp))
  · split at h
    · cases h; exact absurd hw no'
    · split at h <;> cases h <;> exact absurd hw no'
  · split at h <;> cases h <;> exact absurd hw no'
  · cases h; exact absurd hw (no _ (by simp))
  · cases h; exact absurd hw (no _ (by simp))
  · cases h

/-! ## What the calls return -/

/-- What a call of thread `t` that returns or raises `r` has done. `failed`: the regulator raised; the call has done nothing, or has
scheduled or cancelled an event (if it was wake that raised). The code never meets an exception it does not expect. -/
def Means (t : Nat) (r : Res β) (obs : Option (Obs β)) : Prop := match r with
  | .event e => obs = some (.scheduled e)
  | .nothing => ∃ e, obs = some (.cancelled e)
  | .valueError => ∃ e, obs = some (.cancelFailed e)
  | .yielded e => ∃ now, obs = some (.yielded t e now)
  | .stop => ∃ b now, obs = some (.stopped t b now)
  | .bool _ => obs = none
  | .queue _ => obs = none
  | .failed => obs = none ∨ (∃ e, obs = some (.scheduled e)) ∨ ∃ e, obs = some (.cancelled e)
  | .broken => False

/-- The history is what the calls have done, in the order in which they ended. -/
inductive Explained : List (Nat × Res β) → List (Obs β) → Prop
  | nil : Explained [] []
  | call {rs log} (t : Nat) (r : Res β) (obs : Option (Obs β)) : Explained rs log → Means t r obs →
      Explained (rs ++ [(t, r)]) (log ++ obs.toList)

/-- What a read-only call gives is right for a state of an atomic execution. -/
def ReadOk (ident : Nat) (clock : Int) : Res β → Prop
  | .queue l => ∃ a : Sys β, Sys.Reach ident clock a ∧ l = a.sched.queue
  | .bool b => ∃ a : Sys β, Sys.Reach ident clock a ∧ (b = true ↔ a.sched.heap.queue ≠ [])
  | _ => True

/-- At the end of a `with` body. -/
def ExitOk (ident : Nat) (clock : Int) (t : Nat) : Pc β → Prop
  | .exit obs (.over r) => Means t r obs ∧ ReadOk ident clock r
  | .exit obs (.notYet true _) => obs = none
  | .exit obs (.notYet false _) => ∃ now, obs = some (.stopped t false now)
  | _ => True

/-- What is true of every reachable state: the results so far are explained by the log. -/
structure Told (ident : Nat) (clock : Int) (s : State β) : Prop where
  exit : ∀ t, ExitOk ident clock t (s.pc t)
  log : Explained s.results s.log
  read : ∀ x ∈ s.results, ReadOk ident clock x.2

theorem Told.upd {ident : Nat} {clock : Int} {s s' : State β} (h : Told ident clock s) {t : Nat} {q : Pc β}
    (hpc : s'.pc = setPc s.pc t q ∨ s'.pc = setPc (wakePc s.pc) t q) (hq : ExitOk ident clock t q)
    (hlog : Explained s'.results s'.log) (hr : ∀ x ∈ s'.results, ReadOk ident clock x.2) : Told ident clock s' := by
  refine ⟨?_, hlog, hr⟩
  intro u
  by_cases hu : u = t
  · subst hu
    rcases hpc with e | e <;> rw [e] <;> simpa [setPc] using hq
  · rcases hpc with e | e <;> rw [e] <;> unfold setPc <;> rw [if_neg hu]
    · exact h.exit u
    · unfold wakePc
      split
      · trivial
      · exact h.exit u

theorem Told.more {ident : Nat} {clock : Int} {s : State β} (h : Told ident clock s) {t : Nat} {r : Res β} (hr : ReadOk ident clock r) :
    ∀ x ∈ s.results ++ [(t, r)], ReadOk ident clock x.2 := by
  intro x hx
  rcases List.mem_append.1 hx with hx | hx
  · exact h.read x hx
  · rw [List.mem_singleton.1 hx]; exact hr

theorem told_go {ident : Nat} {clock : Int} {s s' : State β} (hr : Reach ident clock s) (h : Told ident clock s) {t : Nat}
    (hs : s.go t = some s') : Told ident clock s' := by
  have w := hr.wf
  have ha := hr.abs
  have hok := w.ok t
  unfold State.go at hs
  split at hs
  · cases hs
  · rename_i op hp
    split at hs
    · cases hs
      refine h.upd (.inl rfl) ?_ h.log h.read
      cases op with
      | schedule o time a p => cases a <;> trivial
      | _ => trivial
    · cases hs
  · cases hs; exact h.upd (.inl rfl) trivial h.log h.read
  · cases hs; exact h.upd (.inl rfl) trivial h.log h.read
  · cases hs; exact h.upd (.inl rfl) trivial h.log h.read
  · cases hs; exact h.upd (.inl rfl) trivial h.log h.read
  · cases hs; exact h.upd (.inl rfl) trivial h.log h.read
  · cases hs; exact h.upd (.inr rfl) trivial h.log h.read
  · cases hs; exact h.upd (.inl rfl) ⟨rfl, trivial⟩ h.log h.read
  · split at hs
    · cases hs; exact h.upd (.inl rfl) trivial h.log h.read
    · cases hs; exact h.upd (.inl rfl) ⟨⟨_, rfl⟩, trivial⟩ h.log h.read
  · cases hs; exact h.upd (.inr rfl) trivial h.log h.read
  · cases hs; exact h.upd (.inl rfl) ⟨⟨_, rfl⟩, trivial⟩ h.log h.read
  · rename_i hp; cases hs
    refine h.upd (.inl rfl) ⟨rfl, s.abs, ha, ?_⟩ h.log h.read
    rw [abs_held (held w hp rfl) hp]
    simp [pendSched, Sched.bool]
  · rename_i hp; cases hs
    refine h.upd (.inl rfl) ⟨rfl, s.abs, ha, ?_⟩ h.log h.read
    rw [abs_held (held w hp rfl) hp]
    rfl
  · split at hs
    · cases hs; exact h.upd (.inl rfl) ⟨⟨_, _, rfl⟩, trivial⟩ h.log h.read
    · cases hs; exact h.upd (.inl rfl) trivial h.log h.read
  · cases hs; exact h.upd (.inl rfl) trivial h.log h.read
  · rename_i b now hp
    rw [hp] at hok
    split at hs
    · rename_i err hg
      have hl := held w hp rfl
      have hat := attempt_err (now := now) hok hg
      have hsc : s.abs.sched = s.sched := by rw [abs_held hl hp]; simp only [pendSched, hat]
      exact absurd (by rw [hsc]; exact hat) (C06_never_broken ha now err)
    · split at hs
      · cases hs; exact h.upd (.inl rfl) trivial h.log h.read
      · cases hs
        refine h.upd (.inl rfl) ?_ h.log h.read
        cases b with
        | true => exact rfl
        | false => exact ⟨_, rfl⟩
  · rename_i b ev now hp
    rw [hp] at hok
    split at hs
    · rename_i err hpop
      obtain ⟨o1, o2, o3⟩ := hok
      have hl := held w hp rfl
      have hat := attempt_pop o1 o2 o3
      rw [hpop] at hat
      have hsc : s.abs.sched = s.sched := by rw [abs_held hl hp]; simp only [pendSched, hat]
      exact absurd (by rw [hsc]; exact hat) (C06_never_broken ha now err)
    · cases hs; exact h.upd (.inl rfl) ⟨⟨_, rfl⟩, trivial⟩ h.log h.read
  · rename_i obs a hp; cases hs
    have he := h.exit t
    rw [hp] at he
    cases a with
    | over r => exact h.upd (.inl rfl) trivial (.call t r obs h.log he.1) (h.more he.2)
    | notYet b d =>
      cases b with
      | true =>
        refine h.upd (.inl rfl) trivial ?_ ?_
        · have : obs = none := he
          subst this
          simpa [State.leave, After.res] using h.log
        · simpa [State.leave, After.res] using h.read
      | false =>
        obtain ⟨now, he⟩ := he
        exact h.upd (.inl rfl) trivial (.call t .stop obs h.log ⟨_, _, he⟩) (h.more (r := .stop) trivial)
  · cases hs
    refine h.upd (.inl rfl) ?_ h.log h.read
    split <;> trivial
  · cases hs

theorem told_step {ident : Nat} {clock : Int} {s s' : State β} (hr : Reach ident clock s) (h : Told ident clock s) {c : Choice β}
    (hs : s.step c = some s') : Told ident clock s' := by
  cases c with
  | tick d => cases hs; exact ⟨h.exit, h.log, h.read⟩
  | call t op =>
    unfold State.step at hs
    dsimp only at hs
    split at hs <;> cases hs
    exact h.upd (.inl rfl) trivial h.log h.read
  | go t => exact told_go hr h hs
  | fail t =>
    have out : Told ident clock ({ s with pc := setPc s.pc t .idle, results := s.results ++ [(t, .failed)] } : State β) := by
      refine h.upd (.inl rfl) trivial ?_ (h.more (r := .failed) trivial)
      have := Explained.call t .failed none h.log (.inl rfl)
      simpa using this
    unfold State.step State.fail at hs
    dsimp only at hs
    split at hs
    · cases hs; exact out
    · cases hs; exact out
    · cases hs; exact out
    · cases hs; exact h.upd (.inl rfl) ⟨.inl rfl, trivial⟩ h.log h.read
    · cases hs; exact h.upd (.inl rfl) ⟨.inl rfl, trivial⟩ h.log h.read
    · cases hs; exact h.upd (.inl rfl) ⟨.inr (.inl ⟨_, rfl⟩), trivial⟩ h.log h.read
    · cases hs; exact h.upd (.inl rfl) ⟨.inr (.inl ⟨_, rfl⟩), trivial⟩ h.log h.read
    · cases hs; exact h.upd (.inl rfl) ⟨.inr (.inr ⟨_, rfl⟩), trivial⟩ h.log h.read
    · cases hs; exact h.upd (.inl rfl) ⟨.inr (.inr ⟨_, rfl⟩), trivial⟩ h.log h.read
    · cases hs
  | awake t =>
    unfold State.step at hs
    dsimp only at hs
    split at hs <;> cases hs
    exact h.upd (.inl rfl) trivial h.log h.read

theorem Reach.told {ident : Nat} {clock : Int} {s : State β} (h : Reach ident clock s) : Told ident clock s := by
  induction h with
  | init => exact ⟨fun _ => trivial, .nil, by simp [State.init]⟩
  | step c hr _ hs ih => exact told_step hr ih hs

/-- **C126**: the results of the calls, in the order in which the calls ended, are exactly those of the atomic execution: the history
consists of what the calls that returned have done, and of what calls have done in which the regulator raised; what `queue` and `bool`
gave is right for a state of an atomic execution. -/
theorem C126_results {ident : Nat} {clock : Int} {s : State β} (h : Reach ident clock s) :
    Explained s.results s.log ∧ ∀ t r, (t, r) ∈ s.results → ReadOk ident clock r :=
  ⟨h.told.log, fun t r hx => h.told.read (t, r) hx⟩

/-- The events that calls of next returned, with the threads to which they were returned. -/
def returned (l : List (Nat × Res β)) : List (Nat × Ev β) := l.filterMap fun x => match x.2 with
  | .yielded e => some (x.1, e)
  | _ => none

theorem returned_explained {rs : List (Nat × Res β)} {log : List (Obs β)} (h : Explained rs log) :
    (returned rs).map Prod.snd = yieldedOf log := by
  induction h with
  | nil => rfl
  | @call rs log t r obs _ hm ih =>
    unfold returned yieldedOf at *
    rw [List.filterMap_append, List.map_append, List.filterMap_append, ih]
    congr 1
    cases r with
    | event e => cases hm; rfl
    | nothing => obtain ⟨e, rfl⟩ := hm; rfl
    | valueError => obtain ⟨e, rfl⟩ := hm; rfl
    | yielded e => obtain ⟨now, rfl⟩ := hm; rfl
    | stop => obtain ⟨b, now, rfl⟩ := hm; rfl
    | bool => cases hm; rfl
    | queue => cases hm; rfl
    | failed => rcases hm with rfl | ⟨e, rfl⟩ | ⟨e, rfl⟩ <;> rfl
    | broken => cases hm

/-- **C126**: every event is returned to at most one call, and none that was returned is still queued or was cancelled, whatever the
interleaving and whatever the regulator raises. -/
theorem C126_returned_once {ident : Nat} {clock : Int} {s : State β} (h : Reach ident clock s) (hl : s.lock = none) :
    ((returned s.results).map Prod.snd).Nodup ∧
    ∀ x ∈ returned s.results, x.2 ∈ scheduledOf s.log ∧ x.2 ∉ s.sched.heap.queue ∧ x.2 ∉ cancelledOf s.log := by
  obtain ⟨h1, h2⟩ := C126_no_loss h hl
  have e := returned_explained h.told.log
  have hn := h2.nodup_iff.1 h1
  rw [List.nodup_append] at hn
  obtain ⟨_, hn2, hn3⟩ := hn
  rw [List.nodup_append] at hn2
  refine ⟨by rw [e]; exact hn2.1, ?_⟩
  intro x hx
  have hy : x.2 ∈ yieldedOf s.log := by rw [← e]; exact List.mem_map_of_mem hx
  refine ⟨h2.symm.subset (by simp [hy]), ?_, ?_⟩
  · intro hq; exact hn3 x.2 hq x.2 (by simp [hy]) rfl
  · intro hc; exact hn2.2.2 x.2 hy x.2 hc rfl

end Big.Scheduler.Fine
