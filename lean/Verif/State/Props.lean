import Verif.State.Model
/-!
# C28, C29, C30: StateManager
-/
namespace Big.State
variable {S O W : Type} [DecidableEq S]

/-! ## Running code while a transition is in progress -/

/-- The exception that refuses the assignment of s while `next` is not None (at depth 0: there is no
stack left). -/
def lockedExc (c : Cfg S O W) (d : Nat) (s : Option S) : Exc :=
  if d = 0 then .recursionError
  else if !c.classOk s then .typeError
  else if s = none then .valueError
  else .transitionError

theorem setter_locked (c : Cfg S O W) (d : Nat) (s : Option S) (m : Mgr S O W) (h : m.nxt ≠ none) :
    setter c d s m = (some (lockedExc c d s), m, [.assigned d s (some (lockedExc c d s))]) := by
  cases d with
  | zero => rfl
  | succ d =>
    have : refuse c s m = some (lockedExc c (d + 1) s) := by
      unfold refuse lockedExc
      rw [if_neg (by omega : ¬ d + 1 = 0)]
      split
      · rfl
      · split
        · rfl
        · simp [h]
    simp only [setter, setBody, this, logged, List.nil_append]

/-- C28: while a transition to another state is in progress (`next` is not None), whatever code runs
(in on_exit or an observer, or anything they call), `state` and `next` stay as they are, no callback
is called, and every assignment to `state` raises: TransitionError, or TypeError or ValueError for a
value that could never be a state (RecursionError if the stack is exhausted). -/
theorem C28_locked_while_transitioning (c : Cfg S O W) (d : Nat) (p : Prog S O W) (m : Mgr S O W)
    (h : m.nxt ≠ none) :
    (runAt c d p m).2.1.state = m.state ∧ (runAt c d p m).2.1.nxt = m.nxt ∧
    ∀ e ∈ (runAt c d p m).2.2, ∃ s, e = .assigned d s (some (lockedExc c d s)) := by
  unfold runAt
  induction p generalizing m with
  | done => exact ⟨rfl, rfl, by simp [Prog.run]⟩
  | raise e => exact ⟨rfl, rfl, by simp [Prog.run]⟩
  | set s k ih =>
    simp only [Prog.run]
    rw [setter_locked c d s m h]
    obtain ⟨a, b, g⟩ := ih (some (lockedExc c d s)) m h
    refine ⟨a, b, fun e he => ?_⟩
    rcases List.mem_append.1 he with he | he
    · exact ⟨s, by simpa using he⟩
    · exact g e he
  | getState k ih => exact ih _ m h
  | getNext k ih => exact ih _ m h
  | getObservers k ih => exact ih _ m h
  | setObservers l k ih => exact ih _ h
  | getW k ih => exact ih _ m h
  | setW w k ih => exact ih _ h

/-- ... and the cached copies of the observer list are not touched either. -/
theorem locked_cache (c : Cfg S O W) (d : Nat) (p : Prog S O W) (m : Mgr S O W) (h : m.nxt ≠ none) :
    (runAt c d p m).2.1.copy = m.copy ∧ (runAt c d p m).2.1.tuple = m.tuple := by
  unfold runAt
  induction p generalizing m with
  | done => exact ⟨rfl, rfl⟩
  | raise e => exact ⟨rfl, rfl⟩
  | set s k ih => simp only [Prog.run]; rw [setter_locked c d s m h]; exact ih _ m h
  | getState k ih => exact ih _ m h
  | getNext k ih => exact ih _ m h
  | getObservers k ih => exact ih _ m h
  | setObservers l k ih => exact ih _ h
  | getW k ih => exact ih _ m h
  | setW w k ih => exact ih _ h

/-! ## Refused assignments -/

/-- C28: an assignment to `state` is refused, with nothing changed and no callback called, when the
value has the wrong class (TypeError), is None (ValueError), or when a transition is in progress or
the value is the current state (TransitionError). -/
theorem C28_refused (c : Cfg S O W) (d : Nat) (s : Option S) (m : Mgr S O W) :
    (c.classOk s = false → setter c (d + 1) s m =
      (some .typeError, m, [.assigned (d + 1) s (some .typeError)])) ∧
    (c.classOk s = true → s = none → setter c (d + 1) s m =
      (some .valueError, m, [.assigned (d + 1) s (some .valueError)])) ∧
    (c.classOk s = true → s ≠ none → m.nxt ≠ none ∨ s = m.state → setter c (d + 1) s m =
      (some .transitionError, m, [.assigned (d + 1) s (some .transitionError)])) := by
  refine ⟨fun h => ?_, fun h h' => ?_, fun h h' h'' => ?_⟩
  · simp [setter, setBody, refuse, h, logged]
  · have : refuse c s m = some .valueError := by
      unfold refuse
      rw [if_neg (by simp [h]), if_pos h']
    simp [setter, setBody, this, logged]
  · have : refuse c s m = some .transitionError := by
      unfold refuse
      rw [if_neg (by simp [h]), if_neg h']
      rcases h'' with h'' | h''
      · rw [if_pos h'']
      · split
        · rfl
        · simp [h'']
    simp [setter, setBody, this, logged]

/-! ## The sequence of callbacks -/

def Ev.depth : Ev S O → Nat
  | .exit d .. => d | .observe d .. => d | .switched d _ => d | .enter d .. => d
  | .assigned d .. => d | .method .. => 0

/-- Is this a call of a callback, or the switch, made by an assignment at depth d? -/
def Ev.isCall (d : Nat) : Ev S O → Bool
  | .exit d' .. => d' = d | .observe d' .. => d' = d | .switched d' _ => d' = d
  | .enter d' .. => d' = d | _ => false

/-- The calls made directly by an assignment at depth d. -/
def calls (d : Nat) (l : List (Ev S O)) : List (Ev S O) := l.filter (Ev.isCall d)

theorem callback_depth {run : Prog S O W → Mgr S O W → Res S O W} {n : Nat} {e : Ev S O}
    (he : e.depth ≤ n) (hr : ∀ p m, ∀ x ∈ (run p m).2.2, x.depth ≤ n) (p : Option (Prog S O W))
    (m : Mgr S O W) : ∀ x ∈ (callback run e p m).2.2, x.depth ≤ n := by
  cases p with
  | none => simp [callback]
  | some p =>
    intro x hx
    simp only [callback, List.mem_cons] at hx
    rcases hx with rfl | hx
    · exact he
    · exact hr p m x hx

theorem andThen_depth {r : Res S O W} {f : Mgr S O W → Res S O W} {n : Nat}
    (hr : ∀ x ∈ r.2.2, x.depth ≤ n) (hf : ∀ m, ∀ x ∈ (f m).2.2, x.depth ≤ n) :
    ∀ x ∈ (andThen r f).2.2, x.depth ≤ n := by
  unfold andThen
  split
  · exact hr
  · intro x hx
    rcases List.mem_append.1 hx with hx | hx
    · exact hr x hx
    · exact hf _ x hx

theorem callObservers_depth {run : Prog S O W → Mgr S O W → Res S O W} {n : Nat}
    (f : O → Prog S O W) (hr : ∀ p m, ∀ x ∈ (run p m).2.2, x.depth ≤ n) (os : List O) :
    ∀ m : Mgr S O W, ∀ x ∈ (callObservers run f n os m).2.2, x.depth ≤ n := by
  induction os with
  | nil => simp [callObservers]
  | cons o os ih =>
    intro m x hx
    simp only [callObservers] at hx
    split at hx
    · exact callback_depth (Nat.le_refl n) hr (some (f o)) m x hx
    · rcases List.mem_append.1 hx with hx | hx
      · exact callback_depth (Nat.le_refl n) hr (some (f o)) m x hx
      · exact ih _ x hx

theorem transition_depth {run : Prog S O W → Mgr S O W → Res S O W} {n : Nat} (c : Cfg S O W)
    (hr : ∀ p m, ∀ x ∈ (run p m).2.2, x.depth ≤ n) (s : S) (m : Mgr S O W) :
    ∀ x ∈ (transition c run n s m).2.2, x.depth ≤ n := by
  refine andThen_depth ?_ (fun m => andThen_depth ?_ (fun m => andThen_depth ?_ (fun m => ?_)))
  · unfold exitStep
    split
    · simp
    · exact callback_depth (Nat.le_refl n) hr _ _
  · unfold observersStep
    split
    · simp
    · exact callObservers_depth _ hr _ _
  · simp [switchStep, Ev.depth]
  · exact callback_depth (Nat.le_refl n) hr _ _

theorem run_depth {setr : Option S → Mgr S O W → Res S O W} {n : Nat}
    (hs : ∀ s m, ∀ x ∈ (setr s m).2.2, x.depth ≤ n) (p : Prog S O W) :
    ∀ m, ∀ x ∈ (p.run setr m).2.2, x.depth ≤ n := by
  induction p with
  | done => simp [Prog.run]
  | raise e => simp [Prog.run]
  | set s k ih =>
    intro m x hx
    rcases List.mem_append.1 hx with hx | hx
    · exact hs _ _ x hx
    · exact ih _ _ x hx
  | getState k ih => intro m; exact ih _ m
  | getNext k ih => intro m; exact ih _ m
  | getObservers k ih => intro m; exact ih _ m
  | setObservers l k ih => intro m; exact ih _
  | getW k ih => intro m; exact ih _ m
  | setW w k ih => intro m; exact ih _

theorem setter_depth (c : Cfg S O W) (d : Nat) : ∀ s m, ∀ x ∈ (setter c d s m).2.2, x.depth ≤ d := by
  induction d with
  | zero => intro s m x hx; simp [setter, logged] at hx; subst hx; exact Nat.le_refl 0
  | succ d ih =>
    intro s m x hx
    simp only [setter, logged, List.mem_append, List.mem_singleton] at hx
    rcases hx with hx | rfl
    · unfold setBody at hx
      split at hx
      · simp at hx
      · exact transition_depth c (fun p m x hx => Nat.le_succ_of_le (run_depth ih p m x hx)) _ _ x hx
      · simp at hx
    · exact Nat.le_refl _

theorem calls_nil {n : Nat} {l : List (Ev S O)} (h : ∀ x ∈ l, x.depth < n) : calls n l = [] := by
  unfold calls
  rw [List.filter_eq_nil_iff]
  intro x hx
  have := h x hx
  cases x <;> simp [Ev.isCall, Ev.depth] at * <;> omega

theorem runAt_calls (c : Cfg S O W) (d : Nat) (p : Prog S O W) (m : Mgr S O W) :
    calls (d + 1) (runAt c d p m).2.2 = [] :=
  calls_nil fun x hx => Nat.lt_succ_of_le (run_depth (setter_depth c d) p m x hx)

/-- The manager after on_exit of state a ran, during the transition to b. -/
def afterExit (c : Cfg S O W) (d : Nat) (a b : S) (m : Mgr S O W) : Mgr S O W :=
  match c.onExit a with
  | none => { m with nxt := some b }
  | some p => (runAt c d p { m with nxt := some b }).2.1

/-- The sequence of callbacks the documentation promises for a transition from a to b at depth d, with
the values of (state, next) seen by each, when the observers are `obs`. -/
def protocol (c : Cfg S O W) (d : Nat) (a b : S) (obs : List O) : List (Ev S O) :=
  (if (c.onExit a).isSome then [.exit d a (some a) (some b)] else [])
  ++ obs.map (fun o => .observe d o (some a) (some b))
  ++ [.switched d b]
  ++ (if (c.onEnter b).isSome then [.enter d b (some b) none] else [])

theorem listSame_eq {same : O → O → Bool} (h : ∀ a b, same a b = true → a = b) :
    ∀ {l r : List O}, listSame same l r = true → l = r
  | [], [], _ => rfl
  | [], _ :: _, g => by simp [listSame] at g
  | _ :: _, [], g => by simp [listSame] at g
  | a :: l, b :: r, g => by
    simp only [listSame, Bool.and_eq_true] at g
    rw [h a b g.1, listSame_eq h g.2]

theorem callObservers_calls (c : Cfg S O W) (d : Nat) (f : O → Prog S O W) (os : List O) :
    ∀ m : Mgr S O W, m.nxt ≠ none →
    (callObservers (Prog.run (setter c d)) f (d + 1) os m).2.1.state = m.state ∧
    (callObservers (Prog.run (setter c d)) f (d + 1) os m).2.1.nxt = m.nxt ∧
    (∃ k, calls (d + 1) (callObservers (Prog.run (setter c d)) f (d + 1) os m).2.2 =
      (os.take k).map (fun o => .observe (d + 1) o m.state m.nxt)) ∧
    ((callObservers (Prog.run (setter c d)) f (d + 1) os m).1 = none →
      calls (d + 1) (callObservers (Prog.run (setter c d)) f (d + 1) os m).2.2 =
      os.map (fun o => .observe (d + 1) o m.state m.nxt)) := by
  induction os with
  | nil => intro m h; exact ⟨rfl, rfl, ⟨0, rfl⟩, fun _ => rfl⟩
  | cons o os ih =>
    intro m h
    obtain ⟨a1, a2, a3⟩ := C28_locked_while_transitioning c d (f o) m h
    have a4 := runAt_calls c d (f o) m
    simp only [callObservers, callback]
    have hc : calls (d + 1) (Ev.observe (d + 1) o m.state m.nxt ::
        (Prog.run (setter c d) (f o) m).2.2) = [Ev.observe (d + 1) o m.state m.nxt] := by
      unfold runAt calls at a4
      simp [calls, Ev.isCall, a4]
    split
    · rename_i e he
      refine ⟨a1, a2, ⟨1, ?_⟩, fun hh => by cases hh⟩
      rw [hc]; simp
    · have hn : (runAt c d (f o) m).2.1.nxt ≠ none := by rw [a2]; exact h
      obtain ⟨b1, b2, ⟨k, b3⟩, b4⟩ := ih (runAt c d (f o) m).2.1 hn
      unfold runAt at a1 a2 b1 b2 b3 b4
      simp only
      refine ⟨by rw [b1, a1], by rw [b2, a2], ⟨k + 1, ?_⟩, fun hh => ?_⟩
      · unfold calls at hc b3 ⊢
        rw [List.filter_append, hc, b3, a1, a2]; rfl
      · have := b4 hh
        unfold calls at hc this ⊢
        rw [List.filter_append, hc, this, a1, a2]; rfl

/-! ## Invariants -/

/-- A property of managers that every primitive change keeps. -/
structure Inv (I : Mgr S O W → Prop) (c : Cfg S O W) : Prop where
  obs : ∀ l m, I m → I { m with observers := l }
  w : ∀ x m, I m → I { m with w := x }
  nxt : ∀ s m, I m → I { m with nxt := some s }
  refresh : ∀ m, I m → I (refresh c.same m)
  switch : ∀ d s m, I m → I (switchStep d s m).2.1

theorem run_keep {I : Mgr S O W → Prop} (Hobs : ∀ l m, I m → I { m with observers := l })
    (Hw : ∀ x m, I m → I { m with w := x })
    {setr : Option S → Mgr S O W → Res S O W} (hs : ∀ s m, I m → I (setr s m).2.1)
    (p : Prog S O W) : ∀ m, I m → I (p.run setr m).2.1 := by
  induction p with
  | done => intro m h; exact h
  | raise e => intro m h; exact h
  | set s k ih => intro m h; exact ih _ _ (hs s m h)
  | getState k ih => intro m h; exact ih _ m h
  | getNext k ih => intro m h; exact ih _ m h
  | getObservers k ih => intro m h; exact ih _ m h
  | setObservers l k ih => intro m h; exact ih _ (Hobs l m h)
  | getW k ih => intro m h; exact ih _ m h
  | setW w k ih => intro m h; exact ih _ (Hw w m h)

theorem run_inv {I : Mgr S O W → Prop} {c : Cfg S O W} (H : Inv I c)
    {setr : Option S → Mgr S O W → Res S O W} (hs : ∀ s m, I m → I (setr s m).2.1)
    (p : Prog S O W) : ∀ m, I m → I (p.run setr m).2.1 := run_keep H.obs H.w hs p

theorem callback_inv {I : Mgr S O W → Prop} {run : Prog S O W → Mgr S O W → Res S O W}
    (hr : ∀ p m, I m → I (run p m).2.1) (e : Ev S O) (p : Option (Prog S O W)) (m : Mgr S O W)
    (h : I m) : I (callback run e p m).2.1 := by
  cases p with
  | none => exact h
  | some p => exact hr p m h

theorem callObservers_inv {I : Mgr S O W → Prop} {run : Prog S O W → Mgr S O W → Res S O W}
    (hr : ∀ p m, I m → I (run p m).2.1) (f : O → Prog S O W) (n : Nat) (os : List O) :
    ∀ m, I m → I (callObservers run f n os m).2.1 := by
  induction os with
  | nil => intro m h; exact h
  | cons o os ih =>
    intro m h
    have := hr (f o) m h
    simp only [callObservers, callback]
    split
    · exact this
    · exact ih _ this

theorem andThen_inv {I : Mgr S O W → Prop} {r : Res S O W} {f : Mgr S O W → Res S O W}
    (hr : I r.2.1) (hf : ∀ m, I m → I (f m).2.1) : I (andThen r f).2.1 := by
  unfold andThen
  split
  · exact hr
  · exact hf _ hr

theorem transition_inv {I : Mgr S O W → Prop} {c : Cfg S O W} (H : Inv I c)
    {run : Prog S O W → Mgr S O W → Res S O W} (hr : ∀ p m, I m → I (run p m).2.1) (n : Nat) (s : S)
    (m : Mgr S O W) (h : I m) : I (transition c run n s m).2.1 := by
  refine andThen_inv ?_ (fun m h => andThen_inv ?_ (fun m h => andThen_inv ?_ (fun m h => ?_)))
  · unfold exitStep
    split
    · exact H.nxt s m h
    · exact callback_inv hr _ _ _ (H.nxt s m h)
  · unfold observersStep
    split
    · exact h
    · exact callObservers_inv hr _ _ _ _ (H.refresh m h)
  · exact H.switch n s m h
  · exact callback_inv hr _ _ _ h

theorem setter_inv {I : Mgr S O W → Prop} {c : Cfg S O W} (H : Inv I c) (d : Nat) :
    ∀ s m, I m → I (setter c d s m).2.1 := by
  induction d with
  | zero => intro s m h; exact h
  | succ d ih =>
    intro s m h
    simp only [setter, logged, setBody]
    split
    · exact h
    · exact transition_inv H (fun p m h => run_inv H ih p m h) _ _ _ h
    · exact h

theorem runAt_inv {I : Mgr S O W → Prop} {c : Cfg S O W} (H : Inv I c) (d : Nat) (p : Prog S O W)
    (m : Mgr S O W) (h : I m) : I (runAt c d p m).2.1 := run_inv H (setter_inv H d) p m h

theorem history_inv {I : Mgr S O W → Prop} {c : Cfg S O W} (H : Inv I c) (d : Nat)
    (xs : List (Step S O W)) : ∀ m, I m → I (history c d xs m).1 := by
  induction xs with
  | nil => intro m h; exact h
  | cons x xs ih =>
    intro m h
    apply ih
    cases x with
    | code p => exact runAt_inv H d p m h
    | event pre name suf =>
      simp only [step, dispatch]
      split
      · exact h
      · split
        · exact h
        · exact callback_inv (runAt_inv H d) _ _ _ h

theorem cache_inv (c : Cfg S O W) : Inv (fun m => m.tuple = m.copy) c where
  obs _ _ h := h
  w _ _ h := h
  nxt _ _ h := h
  refresh m h := by unfold refresh; split; exact h; rfl
  switch _ _ _ h := h

/-- The managers a program can have: made by the constructor, then used in any way. -/
def Reachable (c : Cfg S O W) (m : Mgr S O W) : Prop :=
  ∃ d s w xs, m = (history c d xs (new c d s w).2.1).1

theorem Reachable.cache {c : Cfg S O W} {m : Mgr S O W} (h : Reachable c m) : m.tuple = m.copy := by
  obtain ⟨d, s, w, xs, rfl⟩ := h
  exact history_inv (cache_inv c) d xs _ (setter_inv (cache_inv c) d s _ rfl)

/-! ## C28 -/

theorem exitStep_facts (c : Cfg S O W) (d : Nat) (a b : S) (m : Mgr S O W) (hs : m.state = some a) :
    (exitStep c (Prog.run (setter c d)) (d + 1) { m with nxt := some b }).2.1 = afterExit c d a b m ∧
    calls (d + 1) (exitStep c (Prog.run (setter c d)) (d + 1) { m with nxt := some b }).2.2 =
      (if (c.onExit a).isSome then [.exit (d + 1) a (some a) (some b)] else []) := by
  obtain ⟨st, nx, ob, cp, tp, w⟩ := m
  simp only at hs
  subst hs
  unfold exitStep afterExit
  simp only
  cases h : c.onExit a with
  | none => exact ⟨rfl, rfl⟩
  | some p =>
    refine ⟨rfl, ?_⟩
    have := runAt_calls c d p ⟨some a, some b, ob, cp, tp, w⟩
    unfold runAt calls at this
    simp [callback, calls, Ev.isCall, this]

theorem afterExit_locked (c : Cfg S O W) (d : Nat) (a b : S) (m : Mgr S O W) :
    (afterExit c d a b m).state = m.state ∧ (afterExit c d a b m).nxt = some b ∧
    (afterExit c d a b m).tuple = m.tuple ∧ (afterExit c d a b m).copy = m.copy := by
  unfold afterExit
  split
  · exact ⟨rfl, rfl, rfl, rfl⟩
  · rename_i p hp
    have hn : ({ m with nxt := some b } : Mgr S O W).nxt ≠ none := by simp
    obtain ⟨h1, h2, _⟩ := C28_locked_while_transitioning c d p { m with nxt := some b } hn
    obtain ⟨h3, h4⟩ := locked_cache c d p { m with nxt := some b } hn
    exact ⟨h1, h2, h4, h3⟩

/-- The list `os` is `l`, except that some elements may be others that compare equal to them. -/
def SameList (same : O → O → Bool) (l os : List O) : Prop :=
  os.length = l.length ∧ ∀ (i : Nat) (h : i < l.length) (h' : i < os.length), os[i] = l[i] ∨ same l[i] os[i] = true

theorem listSame_sameList {same : O → O → Bool} : ∀ {l os : List O}, listSame same l os = true → SameList same l os
  | [], [], _ => ⟨rfl, fun i h => by simp at h⟩
  | [], _ :: _, h => by simp [listSame] at h
  | _ :: _, [], h => by simp [listSame] at h
  | x :: l, y :: os, h => by
    simp only [listSame, Bool.and_eq_true] at h
    obtain ⟨h1, h2⟩ := listSame_sameList h.2
    refine ⟨by simp [h1], fun i hi hi' => ?_⟩
    cases i with
    | zero => exact .inr h.1
    | succ i => exact h2 i (by simpa using hi) (by simpa using hi')

/-- The observers that are called: the cached ones if these compare equal to those in the list. -/
def calledObservers (c : Cfg S O W) (m : Mgr S O W) : List O :=
  if m.observers = [] then [] else (refresh c.same m).tuple

theorem calledObservers_same (c : Cfg S O W) (m : Mgr S O W) (hc : m.tuple = m.copy) :
    SameList c.same m.observers (calledObservers c m) := by
  have refl : ∀ l : List O, SameList c.same l l := fun l => ⟨rfl, fun _ _ _ => .inl rfl⟩
  unfold calledObservers
  split
  · rename_i h; rw [h]; exact refl _
  · unfold refresh
    split
    · rename_i h; rw [hc]; exact listSame_sameList h
    · exact refl _

theorem calledObservers_eq (c : Cfg S O W) (hsame : ∀ x y, c.same x y = true → x = y) (m : Mgr S O W)
    (hc : m.tuple = m.copy) : calledObservers c m = m.observers := by
  obtain ⟨h1, h2⟩ := calledObservers_same c m hc
  exact List.ext_getElem h1 fun i h h' => (h2 i h' h).elim id fun h => (hsame _ _ h).symm

theorem observersStep_facts (c : Cfg S O W) (d : Nat) (m : Mgr S O W) (hn : m.nxt ≠ none) :
    (observersStep c (Prog.run (setter c d)) (d + 1) m).2.1.state = m.state ∧
    (observersStep c (Prog.run (setter c d)) (d + 1) m).2.1.nxt = m.nxt ∧
    (∃ k, calls (d + 1) (observersStep c (Prog.run (setter c d)) (d + 1) m).2.2 =
      ((calledObservers c m).take k).map (fun o => .observe (d + 1) o m.state m.nxt)) ∧
    ((observersStep c (Prog.run (setter c d)) (d + 1) m).1 = none →
      calls (d + 1) (observersStep c (Prog.run (setter c d)) (d + 1) m).2.2 =
      (calledObservers c m).map (fun o => .observe (d + 1) o m.state m.nxt)) := by
  unfold observersStep calledObservers
  split
  · exact ⟨rfl, rfl, ⟨0, rfl⟩, fun _ => rfl⟩
  · have e : (refresh c.same m).state = m.state ∧ (refresh c.same m).nxt = m.nxt := by
      unfold refresh
      split <;> exact ⟨rfl, rfl⟩
    have := callObservers_calls c d c.observer (refresh c.same m).tuple (refresh c.same m)
      (by rw [e.2]; exact hn)
    rw [e.1, e.2] at this
    exact this

theorem enterStep_calls (c : Cfg S O W) (d : Nat) (b : S) (m : Mgr S O W) :
    calls (d + 1) (enterStep c (Prog.run (setter c d)) (d + 1) b m).2.2 =
      if (c.onEnter b).isSome then [.enter (d + 1) b m.state m.nxt] else [] := by
  unfold enterStep
  cases h : c.onEnter b with
  | none => rfl
  | some p =>
    have := runAt_calls c d p m
    unfold runAt calls at this
    simp [callback, calls, Ev.isCall, this]

theorem andThen_some {r : Res S O W} {f : Mgr S O W → Res S O W} {e : Exc} (h : r.1 = some e) :
    andThen r f = (some e, r.2.1, r.2.2) := by unfold andThen; rw [h]
theorem andThen_none {r : Res S O W} {f : Mgr S O W → Res S O W} (h : r.1 = none) :
    andThen r f = ((f r.2.1).1, (f r.2.1).2.1, r.2.2 ++ (f r.2.1).2.2) := by unfold andThen; rw [h]

theorem calls_append (n : Nat) (l r : List (Ev S O)) : calls n (l ++ r) = calls n l ++ calls n r := by
  simp [calls]

theorem setter_goes_ahead (c : Cfg S O W) (d : Nat) (a b : S) (m : Mgr S O W)
    (hs : m.state = some a) (hn : m.nxt = none) (hok : c.classOk (some b) = true) (hne : a ≠ b) :
    setter c (d + 1) (some b) m =
      logged (d + 1) (some b) (transition c (Prog.run (setter c d)) (d + 1) b m) := by
  have : refuse c (some b) m = none := by
    unfold refuse
    rw [if_neg (by simp [hok]), if_neg (by simp), if_neg (by simp [hn]), if_neg]
    rw [hs]; intro h; cases h; exact hne rfl
  simp only [setter, setBody, this]

theorem protocol_calls (c : Cfg S O W) (d : Nat) (a b : S) (m : Mgr S O W)
    (hs : m.state = some a) (hn : m.nxt = none) (hok : c.classOk (some b) = true) (hne : a ≠ b) :
    let r := setter c (d + 1) (some b) m
    let os := calledObservers c (afterExit c d a b m)
    (∃ k, calls (d + 1) r.2.2 = (protocol c (d + 1) a b os).take k) ∧
    (r.1 = none → calls (d + 1) r.2.2 = protocol c (d + 1) a b os) := by
  intro r os
  subst os
  have hr : r = _ := setter_goes_ahead c d a b m hs hn hok hne
  obtain ⟨x1, x2⟩ := exitStep_facts c d a b m hs
  obtain ⟨l1, l2, l3, l4⟩ := afterExit_locked c d a b m
  obtain ⟨o1, o2, ⟨k, o3⟩, o4⟩ := observersStep_facts c d (afterExit c d a b m)
    (by rw [l2]; simp)
  rw [l1, l2, hs] at o3 o4
  have hfin : ∀ (l : List (Ev S O)) e, calls (d + 1) (l ++ [Ev.assigned (d + 1) (some b) e]) =
      calls (d + 1) l := by intro l e; simp [calls, Ev.isCall]
  rw [hr]
  simp only [logged, hfin]
  unfold transition protocol
  cases he : (exitStep c (Prog.run (setter c d)) (d + 1) { m with nxt := some b }).1 with
  | some e =>
    rw [andThen_some he]
    refine ⟨⟨(if (c.onExit a).isSome then 1 else 0), ?_⟩, fun h => by cases h⟩
    rw [x2]
    cases (c.onExit a).isSome <;> simp
  | none =>
    rw [andThen_none he, x1]
    simp only [calls_append, x2]
    cases he' : (observersStep c (Prog.run (setter c d)) (d + 1) (afterExit c d a b m)).1 with
    | some e' =>
      rw [andThen_some he']
      refine ⟨⟨(if (c.onExit a).isSome then 1 else 0) +
        ((calledObservers c (afterExit c d a b m)).take k).length, ?_⟩, fun h => by cases h⟩
      simp only [o3]
      have hk : (calledObservers c (afterExit c d a b m)).take k = (calledObservers c (afterExit c d a b m)).take
          ((calledObservers c (afterExit c d a b m)).take k).length := by
        rw [List.length_take, List.take_eq_take_min]
      cases (c.onExit a).isSome
      · simp only [Bool.false_eq_true, if_false, List.nil_append, Nat.zero_add, List.append_assoc]
        rw [List.take_append_of_le_length (by simp; omega), ← List.map_take, ← hk]
      · simp only [if_true, List.append_assoc, List.singleton_append]
        rw [Nat.add_comm 1, List.cons_append, List.take_succ_cons,
          List.take_append_of_le_length (by simp; omega), ← List.map_take, ← hk]
    | none =>
      rw [andThen_none he']
      simp only [calls_append, o4 he', switchStep]
      rw [andThen_none rfl]
      simp only [calls_append, enterStep_calls]
      have hsw : calls (d + 1) [Ev.switched (d + 1) b] = [Ev.switched (O := O) (d + 1) b] := by
        simp [calls, Ev.isCall]
      rw [hsw]
      have : ∀ A B C D : List (Ev S O), A ++ (B ++ (C ++ D)) = A ++ B ++ C ++ D := by
        intros; simp [List.append_assoc]
      refine ⟨?_, fun _ => this _ _ _ _⟩
      rw [this]
      exact ⟨_, (List.take_length).symm⟩

/-- C28: in any manager a program can have, a transition from a to b that is not refused makes exactly
the documented calls in the documented order: on_exit of a, then each observer that is in the list
when on_exit has returned (or one that compares equal to it), then the switch to b, then on_enter of b.
on_exit and the observers see state a and next b, on_enter sees state b and next None. If a callback
raises, the calls after it are not made: the calls are an initial part of the sequence; else they are
all made. -/
theorem C28_protocol (c : Cfg S O W) (d : Nat) (a b : S) (m : Mgr S O W) (hm : Reachable c m)
    (hs : m.state = some a) (hn : m.nxt = none) (hok : c.classOk (some b) = true) (hne : a ≠ b) :
    ∃ os, SameList c.same (afterExit c d a b m).observers os ∧
    let r := setter c (d + 1) (some b) m
    (∃ k, calls (d + 1) r.2.2 = (protocol c (d + 1) a b os).take k) ∧
    (r.1 = none → calls (d + 1) r.2.2 = protocol c (d + 1) a b os) := by
  obtain ⟨l1, l2, l3, l4⟩ := afterExit_locked c d a b m
  exact ⟨_, calledObservers_same c _ (by rw [l3, l4]; exact hm.cache), protocol_calls c d a b m hs hn hok hne⟩

/-- C113: if no two different observers compare equal, the observers called are those
in the list. -/
theorem C113_observers_distinct (c : Cfg S O W) (hsame : ∀ x y, c.same x y = true → x = y) (d : Nat) (a b : S)
    (m : Mgr S O W) (hm : Reachable c m)
    (hs : m.state = some a) (hn : m.nxt = none) (hok : c.classOk (some b) = true) (hne : a ≠ b) :
    let r := setter c (d + 1) (some b) m
    (∃ k, calls (d + 1) r.2.2 = (protocol c (d + 1) a b (afterExit c d a b m).observers).take k) ∧
    (r.1 = none →
      calls (d + 1) r.2.2 = protocol c (d + 1) a b (afterExit c d a b m).observers) := by
  obtain ⟨l1, l2, l3, l4⟩ := afterExit_locked c d a b m
  have := protocol_calls c d a b m hs hn hok hne
  rwa [calledObservers_eq c hsame _ (by rw [l3, l4]; exact hm.cache)] at this

/-- C113 is false of the code: if an observer is replaced by a different one that compares equal to it,
the old one goes on being called, and the new one never is. Here no state has callbacks and observers do
nothing. -/
theorem C113_stale_observer (c : Cfg S O W) (hexit : ∀ s, c.onExit s = none)
    (henter : ∀ s, c.onEnter s = none) (hobs : ∀ o, c.observer o = .done) (hok : ∀ s, c.classOk (some s) = true)
    (x y : O) (hxy : c.same y x = true) (s₀ s₁ s₂ : S) (h₀ : s₀ ≠ s₁) (h₁ : s₁ ≠ s₂) (d : Nat) (w : W) :
    (history c (d + 1) [.code (.setObservers [x] (.set (some s₁) fun _ => .done)),
        .code (.setObservers [y] (.set (some s₂) fun _ => .done))] (new c (d + 1) (some s₀) w).2.1).2 =
      [.observe (d + 1) x (some s₀) (some s₁), .switched (d + 1) s₁, .assigned (d + 1) (some s₁) none,
       .observe (d + 1) x (some s₁) (some s₂), .switched (d + 1) s₂, .assigned (d + 1) (some s₂) none] := by
  simp [history, new, step, runAt, Prog.run, setter, setBody, refuse, hok, blank, transition, exitStep,
    observersStep, switchStep, enterStep, henter, hexit, callback, andThen, logged, refresh, listSame,
    callObservers, hobs, hxy, h₀, h₁, Ne.symm h₀, Ne.symm h₁]

/-- The hypotheses of `C113_stale_observer` can be met. -/
example : ∃ c : Cfg Nat Nat Unit, (∀ s, c.onExit s = none) ∧ (∀ s, c.onEnter s = none) ∧
    (∀ o, c.observer o = .done) ∧ (∀ s, c.classOk (some s) = true) ∧ c.same 1 0 = true ∧
    (history c 1 [.code (.setObservers [0] (.set (some 6) fun _ => .done)),
        .code (.setObservers [1] (.set (some 7) fun _ => .done))] (new c 1 (some 5) ()).2.1).2 =
      [.observe 1 0 (some 5) (some 6), .switched 1 6, .assigned 1 (some 6) none,
       .observe 1 0 (some 6) (some 7), .switched 1 7, .assigned 1 (some 7) none] :=
  ⟨⟨fun _ => none, fun _ => none, fun _ => .done, fun _ => true, fun _ _ => true, fun _ _ => none⟩,
    by simp, by simp, by simp, by simp, by simp, by decide⟩

/-- C28: the constructor makes a manager in its initial state with next None, when that state has no
on_enter; on_exit and observers are not called. -/
theorem C28_constructor (c : Cfg S O W) (d : Nat) (s : S) (w : W) (hok : c.classOk (some s) = true)
    (he : c.onEnter s = none) :
    (new c (d + 1) (some s) w).1 = none ∧ (new c (d + 1) (some s) w).2.1.state = some s ∧
    (new c (d + 1) (some s) w).2.1.nxt = none ∧
    (new c (d + 1) (some s) w).2.2 = [.switched (d + 1) s, .assigned (d + 1) (some s) none] := by
  simp [new, setter, setBody, refuse, hok, blank, transition, exitStep, observersStep, switchStep,
    enterStep, he, callback, andThen, logged]

/-- C28: what code reads, inside callbacks and outside: `state`, `next` and `observers` are those of the manager at that time
(so on_exit and the observers read the old state and the new state as `next`, on_enter the new state and None, by
`C28_protocol`), after any assignments the code itself has made. -/
theorem C28_reads (c : Cfg S O W) (d : Nat) (m : Mgr S O W) :
    (∀ k, runAt c d (.getState k) m = runAt c d (k m.state) m) ∧
    (∀ k, runAt c d (.getNext k) m = runAt c d (k m.nxt) m) ∧
    (∀ k, runAt c d (.getObservers k) m = runAt c d (k m.observers) m) ∧
    (∀ l k, runAt c d (.setObservers l (.getObservers k)) m = runAt c d (.setObservers l (k l)) m) ∧
    (∀ s k, let r := setter c d s m
      runAt c d (.set s k) m = ((runAt c d (k r.1) r.2.1).1, (runAt c d (k r.1) r.2.1).2.1,
        r.2.2 ++ (runAt c d (k r.1) r.2.1).2.2)) :=
  ⟨fun _ => rfl, fun _ => rfl, fun _ => rfl, fun _ _ => rfl, fun _ _ => rfl⟩

/-- C28: after a transition to a state without on_enter that raised nothing, the manager is in that
state and no transition is in progress. -/
theorem C28_result (c : Cfg S O W) (d : Nat) (a b : S) (m : Mgr S O W)
    (hs : m.state = some a) (hn : m.nxt = none) (hok : c.classOk (some b) = true) (hne : a ≠ b)
    (he : c.onEnter b = none) (hr : (setter c (d + 1) (some b) m).1 = none) :
    (setter c (d + 1) (some b) m).2.1.state = some b ∧
    (setter c (d + 1) (some b) m).2.1.nxt = none := by
  rw [setter_goes_ahead c d a b m hs hn hok hne] at hr ⊢
  simp only [logged] at hr ⊢
  unfold transition at hr ⊢
  cases h1 : (exitStep c (Prog.run (setter c d)) (d + 1) { m with nxt := some b }).1 with
  | some e => rw [andThen_some h1] at hr; cases hr
  | none =>
    rw [andThen_none h1] at hr ⊢
    simp only at hr ⊢
    cases h2 : (observersStep c (Prog.run (setter c d)) (d + 1)
        (exitStep c (Prog.run (setter c d)) (d + 1) { m with nxt := some b }).2.1).1 with
    | some e => rw [andThen_some h2] at hr; cases hr
    | none =>
      rw [andThen_none h2]
      simp only [switchStep, enterStep, he]
      exact ⟨rfl, rfl⟩

/-! ## C29 -/

theorem history_locked (c : Cfg S O W) (d : Nat) (xs : List (Step S O W)) :
    ∀ m : Mgr S O W, m.nxt ≠ none →
    (history c d xs m).1.state = m.state ∧ (history c d xs m).1.nxt = m.nxt ∧
    ∀ d' s r, Ev.assigned d' s r ∈ (history c d xs m).2 → r ≠ none := by
  induction xs with
  | nil => intro m h; exact ⟨rfl, rfl, by simp [history]⟩
  | cons x xs ih =>
    intro m h
    have key : (step c d x m).2.1.state = m.state ∧ (step c d x m).2.1.nxt = m.nxt ∧
        ∀ d' s r, Ev.assigned d' s r ∈ (step c d x m).2.2 → r ≠ none := by
      cases x with
      | code p =>
        obtain ⟨h1, h2, h3⟩ := C28_locked_while_transitioning c d p m h
        refine ⟨h1, h2, fun d' s r hm => ?_⟩
        obtain ⟨s', e⟩ := h3 _ hm
        cases e; simp
      | event pre name suf =>
        simp only [step, dispatch]
        split
        · exact ⟨rfl, rfl, by simp⟩
        · split
          · exact ⟨rfl, rfl, by simp⟩
          · rename_i p hp
            obtain ⟨h1, h2, h3⟩ := C28_locked_while_transitioning c d p m h
            refine ⟨h1, h2, fun d' s r hm => ?_⟩
            simp only [callback, List.mem_cons] at hm
            rcases hm with hm | hm
            · cases hm
            · obtain ⟨s', e⟩ := h3 _ hm
              cases e; simp
    obtain ⟨k1, k2, k3⟩ := key
    obtain ⟨r1, r2, r3⟩ := ih (step c d x m).2.1 (by rw [k2]; exact h)
    refine ⟨by simp only [history]; rw [r1, k1], by simp only [history]; rw [r2, k2], ?_⟩
    intro d' s r hm
    simp only [history, List.mem_append] at hm
    exact hm.elim (k3 d' s r) (r3 d' s r)

theorem failed_before_switch (c : Cfg S O W) (d : Nat)
    (a b : S) (m : Mgr S O W)
    (hs : m.state = some a) (hn : m.nxt = none) (hok : c.classOk (some b) = true) (hne : a ≠ b)
    (hf : Ev.switched (d + 1) b ∉ (setter c (d + 1) (some b) m).2.2) :
    (setter c (d + 1) (some b) m).2.1.state = some a ∧
    (setter c (d + 1) (some b) m).2.1.nxt = some b ∧
    ∃ e, (setter c (d + 1) (some b) m).1 = some e := by
  rw [setter_goes_ahead c d a b m hs hn hok hne] at hf ⊢
  obtain ⟨x1, x2⟩ := exitStep_facts c d a b m hs
  obtain ⟨l1, l2, l3, l4⟩ := afterExit_locked c d a b m
  obtain ⟨o1, o2, _, o4⟩ := observersStep_facts c d (afterExit c d a b m) (by rw [l2]; simp)
  simp only [logged, List.mem_append, not_or] at hf ⊢
  replace hf := hf.1
  unfold transition at hf ⊢
  cases h1 : (exitStep c (Prog.run (setter c d)) (d + 1) { m with nxt := some b }).1 with
  | some e => rw [andThen_some h1, x1]; exact ⟨by rw [l1, hs], l2, e, rfl⟩
  | none =>
    rw [andThen_none h1, x1] at hf ⊢
    simp only at hf ⊢
    cases h2 : (observersStep c (Prog.run (setter c d)) (d + 1) (afterExit c d a b m)).1 with
    | some e => rw [andThen_some h2]; exact ⟨by rw [o1, l1, hs], by rw [o2, l2], e, rfl⟩
    | none =>
      rw [andThen_none h2] at hf
      simp [switchStep, andThen] at hf

/-- C29: if on_exit or an observer raises (the assignment ends without the switch), the assignment raises
and the manager is still in the old state. -/
theorem C29_old_state (c : Cfg S O W) (d : Nat)
    (a b : S) (m : Mgr S O W)
    (hs : m.state = some a) (hn : m.nxt = none) (hok : c.classOk (some b) = true) (hne : a ≠ b)
    (hf : Ev.switched (d + 1) b ∉ (setter c (d + 1) (some b) m).2.2) :
    (setter c (d + 1) (some b) m).2.1.state = some a ∧ ∃ e, (setter c (d + 1) (some b) m).1 = some e :=
  ⟨(failed_before_switch c d a b m hs hn hok hne hf).1,
    (failed_before_switch c d a b m hs hn hok hne hf).2.2⟩

/-- C112 is false of the code, always: if on_exit or an observer raises, `next` stays the new state,
and from then on, whatever is done, the state never changes and no assignment to it ever succeeds. -/
theorem C112_violated (c : Cfg S O W) (d : Nat)
    (a b : S) (m : Mgr S O W)
    (hs : m.state = some a) (hn : m.nxt = none) (hok : c.classOk (some b) = true) (hne : a ≠ b)
    (hf : Ev.switched (d + 1) b ∉ (setter c (d + 1) (some b) m).2.2) (d' : Nat)
    (xs : List (Step S O W)) :
    let m' := (setter c (d + 1) (some b) m).2.1
    (history c d' xs m').1.state = some a ∧ (history c d' xs m').1.nxt = some b ∧
    ∀ e s r, Ev.assigned e s r ∈ (history c d' xs m').2 → r ≠ none := by
  intro m'
  obtain ⟨f1, f2, _⟩ := failed_before_switch c d a b m hs hn hok hne hf
  obtain ⟨g1, g2, g3⟩ := history_locked c d' xs m' (by show m'.nxt ≠ none; rw [f2]; simp)
  exact ⟨by rw [g1, f1], by rw [g2, f2], g3⟩

/-- on_exit callbacks and observers that never raise. -/
structure Quiet (c : Cfg S O W) : Prop where
  exit : ∀ a p, c.onExit a = some p → ∀ setr m, (p.run setr m).1 = none
  observer : ∀ o setr m, ((c.observer o).run setr m).1 = none

theorem callObservers_quiet {c : Cfg S O W} (H : Quiet c) (setr : Option S → Mgr S O W → Res S O W)
    (n : Nat) (os : List O) : ∀ m, (callObservers (Prog.run setr) c.observer n os m).1 = none := by
  induction os with
  | nil => intro m; rfl
  | cons o os ih =>
    intro m
    have := H.observer o setr m
    simp only [callObservers, callback]
    rw [this]
    exact ih _

theorem setter_quiet {c : Cfg S O W} (H : Quiet c) (d : Nat) :
    ∀ s m, m.nxt = none → (setter c d s m).2.1.nxt = none := by
  induction d with
  | zero => intro s m h; exact h
  | succ d ih =>
    intro s m h
    simp only [setter, logged, setBody]
    split
    · exact h
    · rename_i b _
      unfold transition
      have h1 : (exitStep c (Prog.run (setter c d)) (d + 1) { m with nxt := some b }).1 = none := by
        unfold exitStep
        split
        · rfl
        · rename_i a ha
          cases hp : c.onExit a with
          | none => rfl
          | some p => exact H.exit a p hp _ _
      rw [andThen_none h1]
      have h2 : ∀ m1, (observersStep c (Prog.run (setter c d)) (d + 1) m1).1 = none := by
        intro m1
        unfold observersStep
        split
        · rfl
        · exact callObservers_quiet H _ _ _ _
      simp only
      rw [andThen_none (h2 _)]
      simp only [switchStep]
      rw [andThen_none rfl]
      simp only [enterStep]
      exact callback_inv (I := fun m => m.nxt = none)
        (fun p m h => run_keep (I := fun m => m.nxt = none) (fun _ _ h => h) (fun _ _ h => h) ih p m h)
        _ _ _ rfl
    · exact h

/-- C112: if on_exit callbacks and observers never raise, then, even if on_enter
callbacks and dispatched methods do, at every point between uses of the manager no transition is in
progress, so (`C28_protocol`) the next transition works. -/
theorem C112_quiet (c : Cfg S O W) (H : Quiet c) (d : Nat) (s : Option S) (w : W)
    (xs : List (Step S O W)) : (history c d xs (new c d s w).2.1).1.nxt = none := by
  have hrun : ∀ p m, m.nxt = none → (runAt c d p m).2.1.nxt = none := fun p m h =>
    run_keep (I := fun m => m.nxt = none) (fun _ _ h => h) (fun _ _ h => h) (setter_quiet H d) p m h
  have : ∀ m, m.nxt = none → (history c d xs m).1.nxt = none := by
    induction xs with
    | nil => intro m h; exact h
    | cons x xs ih =>
      intro m h
      apply ih
      cases x with
      | code p => exact hrun p m h
      | event pre name suf =>
        simp only [step, dispatch]
        split
        · exact h
        · split
          · exact h
          · exact callback_inv (I := fun m => m.nxt = none) hrun _ _ _ h
  exact this _ (setter_quiet H d s _ rfl)

/-! ## C30 -/

/-- The current state after the events of a log, if it was `cur` before. -/
def current : Option S → List (Ev S O) → Option S
  | cur, [] => cur
  | _, .switched _ s :: l => current (some s) l
  | cur, .exit .. :: l => current cur l
  | cur, .observe .. :: l => current cur l
  | cur, .enter .. :: l => current cur l
  | cur, .assigned .. :: l => current cur l
  | cur, .method .. :: l => current cur l

/-- An event happens to the state that is current when it happens. -/
def concerns (cur : Option S) : Ev S O → Prop
  | .exit _ s st _ => cur = some s ∧ st = cur
  | .observe _ _ st _ => st = cur
  | .enter _ s st _ => cur = some s ∧ st = cur
  | .method s _ => cur = some s
  | .switched .. => True
  | .assigned .. => True

/-- Every event of a log does. -/
def follows : Option S → List (Ev S O) → Prop
  | _, [] => True
  | cur, e :: l => concerns cur e ∧ follows (current cur [e]) l

theorem current_cons (cur : Option S) (e : Ev S O) (l : List (Ev S O)) :
    current cur (e :: l) = current (current cur [e]) l := by cases e <;> rfl

theorem current_append (cur : Option S) (l r : List (Ev S O)) :
    current cur (l ++ r) = current (current cur l) r := by
  induction l generalizing cur with
  | nil => rfl
  | cons e l ih => rw [List.cons_append, current_cons, ih, current_cons cur e l]

theorem follows_append (cur : Option S) (l r : List (Ev S O)) :
    follows cur (l ++ r) ↔ follows cur l ∧ follows (current cur l) r := by
  induction l generalizing cur with
  | nil => simp [follows, current]
  | cons e l ih =>
    rw [List.cons_append, follows, follows, ih, current_cons cur e l]
    exact and_assoc.symm

/-- What happened is consistent with the state before and after. -/
def Good (m : Mgr S O W) (r : Res S O W) : Prop :=
  follows m.state r.2.2 ∧ current m.state r.2.2 = r.2.1.state

theorem good_append {m : Mgr S O W} {r r' : Res S O W} (h : Good m r) (h' : Good r.2.1 r')
    (x : Option Exc) : Good m (x, r'.2.1, r.2.2 ++ r'.2.2) := by
  refine ⟨?_, ?_⟩
  · simp only; rw [follows_append, h.2]; exact ⟨h.1, h'.1⟩
  · simp only; rw [current_append, h.2]; exact h'.2

theorem good_callback {run : Prog S O W → Mgr S O W → Res S O W} {m : Mgr S O W} {e : Ev S O}
    (he : concerns m.state e) (he' : current m.state [e] = m.state)
    (hr : ∀ p m, Good m (run p m)) (p : Option (Prog S O W)) : Good m (callback run e p m) := by
  cases p with
  | none => exact ⟨trivial, rfl⟩
  | some p =>
    obtain ⟨a, b⟩ := hr p m
    refine ⟨⟨he, by rw [he']; exact a⟩, ?_⟩
    simp only [callback]
    rw [current_cons, he']
    exact b

theorem good_callObservers {run : Prog S O W → Mgr S O W → Res S O W} (f : O → Prog S O W) (n : Nat)
    (hr : ∀ p m, Good m (run p m)) (os : List O) : ∀ m, Good m (callObservers run f n os m) := by
  induction os with
  | nil => intro m; exact ⟨trivial, rfl⟩
  | cons o os ih =>
    intro m
    have h := good_callback (run := run) (m := m) (e := .observe n o m.state m.nxt) rfl rfl hr
      (some (f o))
    simp only [callObservers]
    split
    · exact h
    · exact good_append h (ih _) _

theorem good_andThen {m : Mgr S O W} {r : Res S O W} {f : Mgr S O W → Res S O W} (h : Good m r)
    (hf : ∀ m, Good m (f m)) : Good m (andThen r f) := by
  unfold andThen
  split
  · exact h
  · exact good_append h (hf _) _

theorem good_enter {run : Prog S O W → Mgr S O W → Res S O W} (c : Cfg S O W)
    (hr : ∀ p m, Good m (run p m)) (n : Nat) (s : S) (m : Mgr S O W) :
    Good m (andThen (switchStep n s m) fun m => enterStep c run n s m) := by
  have h := good_callback (run := run) (m := { m with state := some s, nxt := none })
      (e := .enter n s (some s) none) ⟨rfl, rfl⟩ rfl hr (c.onEnter s)
  rw [andThen_none rfl]
  exact good_append (m := m) (r := switchStep n s m) ⟨⟨trivial, trivial⟩, rfl⟩ h _

theorem good_transition {run : Prog S O W → Mgr S O W → Res S O W} (c : Cfg S O W)
    (hr : ∀ p m, Good m (run p m)) (n : Nat) (s : S) (m : Mgr S O W) :
    Good m (transition c run n s m) := by
  refine good_andThen ?_ (fun m => good_andThen ?_ (fun m => good_enter c hr n s m))
  · unfold exitStep
    split
    · exact ⟨trivial, rfl⟩
    · rename_i a ha
      exact good_callback (run := run) (m := { m with nxt := some s }) (e := .exit n a m.state (some s))
        ⟨ha, rfl⟩ rfl hr (c.onExit a)
  · unfold observersStep
    split
    · exact ⟨trivial, rfl⟩
    · have h := good_callObservers c.observer n hr (refresh c.same m).tuple (refresh c.same m)
      have e : (refresh c.same m).state = m.state := by unfold refresh; split <;> rfl
      unfold Good at h ⊢
      rw [e] at h
      exact h

theorem good_run {setr : Option S → Mgr S O W → Res S O W} (hs : ∀ s m, Good m (setr s m))
    (p : Prog S O W) : ∀ m, Good m (p.run setr m) := by
  induction p with
  | done => intro m; exact ⟨trivial, rfl⟩
  | raise e => intro m; exact ⟨trivial, rfl⟩
  | set s k ih => intro m; exact good_append (hs s m) (ih _ _) _
  | getState k ih => intro m; exact ih _ m
  | getNext k ih => intro m; exact ih _ m
  | getObservers k ih => intro m; exact ih _ m
  | setObservers l k ih => intro m; exact ih { m with observers := l }
  | getW k ih => intro m; exact ih _ m
  | setW w k ih => intro m; exact ih { m with w := w }

theorem good_logged {m : Mgr S O W} {r : Res S O W} (h : Good m r) (d : Nat) (s : Option S) :
    Good m (logged d s r) :=
  good_append (r' := (r.1, r.2.1, [.assigned d s r.1])) h ⟨⟨trivial, trivial⟩, rfl⟩ _

theorem good_setter (c : Cfg S O W) (d : Nat) : ∀ s m, Good m (setter c d s m) := by
  induction d with
  | zero => intro s m; exact good_logged (r := (some .recursionError, m, [])) ⟨trivial, rfl⟩ _ _
  | succ d ih =>
    intro s m
    apply good_logged
    unfold setBody
    split
    · exact ⟨trivial, rfl⟩
    · exact good_transition c (good_run ih) _ _ _
    · exact ⟨trivial, rfl⟩

theorem good_step (c : Cfg S O W) (d : Nat) (x : Step S O W) (m : Mgr S O W) :
    Good m (step c d x m) := by
  cases x with
  | code p => exact good_run (good_setter c d) p m
  | event pre name suf =>
    simp only [step, dispatch]
    split
    · exact ⟨trivial, rfl⟩
    · rename_i s hs
      split
      · exact ⟨trivial, rfl⟩
      · exact good_callback (e := .method s (pre ++ name ++ suf)) hs rfl
          (fun p m => good_run (good_setter c d) p m) _

theorem good_history (c : Cfg S O W) (d : Nat) (xs : List (Step S O W)) :
    ∀ m, Good m (none, history c d xs m) := by
  induction xs with
  | nil => intro m; exact ⟨trivial, rfl⟩
  | cons x xs ih => intro m; exact good_append (good_step c d x m) (ih _) _

theorem follows_at {cur : Option S} {l r : List (Ev S O)} {e : Ev S O}
    (h : follows cur (l ++ e :: r)) : concerns (current cur l) e := by
  rw [follows_append] at h
  exact h.2.1

/-- C30: through any history of code that makes transitions (also inside callbacks and dispatched
methods) and of calls of dispatched methods, the object a dispatched method is called on is the state
the manager last switched to before that call. -/
theorem C30_dispatch_follows_state (c : Cfg S O W) (d : Nat) (xs : List (Step S O W))
    (m : Mgr S O W) (l r : List (Ev S O)) (s : S) (name : String)
    (h : (history c d xs m).2 = l ++ .method s name :: r) : current m.state l = some s := by
  have := (good_history c d xs m).1
  simp only [h] at this
  exact follows_at this

/-- C30: the manager's `state`, and so the accessor, is the state it last switched to. -/
theorem C30_state_is_last_switch (c : Cfg S O W) (d : Nat) (xs : List (Step S O W))
    (m : Mgr S O W) :
    accessorGet (history c d xs m).1 = current m.state (history c d xs m).2 :=
  (good_history c d xs m).2.symm

/-- C30: calling a dispatched event calls the method named prefix + event name + suffix of the current
state, first and exactly as calling that method directly would; if the state has no such method,
AttributeError is raised and nothing happens. -/
theorem C30_dispatch_calls (c : Cfg S O W) (d : Nat) (pre name suf : String) (m : Mgr S O W) (s : S)
    (hs : accessorGet m = some s) :
    (∀ p, c.method s (pre ++ name ++ suf) = some p →
      dispatch c d pre name suf m = ((runAt c d p m).1, (runAt c d p m).2.1,
        .method s (pre ++ name ++ suf) :: (runAt c d p m).2.2)) ∧
    (c.method s (pre ++ name ++ suf) = none →
      dispatch c d pre name suf m = (some .attributeError, m, [])) := by
  unfold accessorGet at hs
  constructor
  · intro p hp; simp only [dispatch, hs, hp]; rfl
  · intro hp; simp only [dispatch, hs, hp]

/-- C30: assigning through the accessor is assigning to the manager's state. -/
theorem C30_accessor_set (c : Cfg S O W) (d : Nat) (s : Option S) (m : Mgr S O W) :
    accessorSet c d s m = setter c d s m := rfl

/-! ## A concrete state machine -/

/-- States 0..; on_exit of state 1 tries a transition and ignores the exception, that of state 2 raises;
on_enter of state 3 makes a transition to state 4; observer 0 adds observer 1. -/
def demo : Cfg Nat Nat Nat where
  onExit
    | 1 => some (.set (some 5) fun _ => .done)
    | 2 => some (.raise (.other 7))
    | _ => none
  onEnter
    | 3 => some (.set (some 4) fun _ => .done)
    | _ => none
  observer
    | 0 => .setObservers [0, 1] .done
    | _ => .done
  classOk _ := true
  same a b := decide (a = b)
  method
    | 4, "on_x" => some .done
    | _, _ => none

/-- The callbacks of 1 -> 3 (-> 4) with one observer that adds another, then an event. -/
example : (history demo 9 [.code (.setObservers [0] (.set (some 3) fun _ => .done)),
      .event "on_" "x" ""] (new demo 9 (some 1) 0).2.1).2 =
    [.exit 9 1 (some 1) (some 3), .assigned 8 (some 5) (some .transitionError),
     .observe 9 0 (some 1) (some 3), .switched 9 3, .enter 9 3 (some 3) none,
     .observe 8 0 (some 3) (some 4), .observe 8 1 (some 3) (some 4), .switched 8 4,
     .assigned 8 (some 4) none, .assigned 9 (some 3) none, .method 4 "on_x"] := by decide

/-- A witness for `C112_violated`: on_exit of state 2 raises once, and the manager is stuck. -/
example : ∃ m, Reachable demo m ∧ m.state = some 2 ∧ m.nxt = none ∧
    Ev.switched 9 1 ∉ (setter demo 9 (some 1) m).2.2 ∧
    (setter demo 9 (some 1) m).2.1.nxt = some 1 :=
  ⟨_, ⟨9, some 2, 0, [], rfl⟩, by decide⟩

end Big.State
