import Verif.State.Props
/-!
# C112: what a transition that fails leaves
-/
namespace Big.State
variable {S O W : Type} [DecidableEq S]

theorem mem_calls {d : Nat} {b : S} {l : List (Ev S O)} (h : Ev.switched d b ∈ l) : Ev.switched d b ∈ calls d l :=
  List.mem_filter.2 ⟨h, by simp [Ev.isCall]⟩

theorem exit_no_switch (c : Cfg S O W) (d : Nat) (a b b' : S) (m : Mgr S O W) (hs : m.state = some a) :
    Ev.switched (d + 1) b' ∉ (exitStep c (Prog.run (setter c d)) (d + 1) { m with nxt := some b }).2.2 := by
  intro h
  have := mem_calls h
  rw [(exitStep_facts c d a b m hs).2] at this
  split at this <;> simp at this

theorem obs_no_switch (c : Cfg S O W) (d : Nat) (b : S) (m : Mgr S O W) (hn : m.nxt ≠ none) :
    Ev.switched (d + 1) b ∉ (observersStep c (Prog.run (setter c d)) (d + 1) m).2.2 := by
  intro h
  have := mem_calls h
  obtain ⟨_, _, ⟨k, hk⟩, _⟩ := observersStep_facts c d m hn
  rw [hk] at this
  obtain ⟨o, _, h⟩ := List.mem_map.1 this
  cases h

/-- C112, exactly: a transition that is not refused either switches, and then the manager is in the new state with `next` None
when on_enter runs, like any other code, whatever that does or raises; or it ends before, with the exception that on_exit or an
observer raised, and the manager is stuck for ever: the state never changes again, `next` stays the new state, and no
assignment to the state succeeds. -/
theorem C112_exactly (c : Cfg S O W) (d : Nat) (a b : S) (m : Mgr S O W)
    (hs : m.state = some a) (hn : m.nxt = none) (hok : c.classOk (some b) = true) (hne : a ≠ b) :
    let r := setter c (d + 1) (some b) m
    (Ev.switched (d + 1) b ∈ r.2.2 ∧ ∃ m₁ : Mgr S O W, m₁.state = some b ∧ m₁.nxt = none ∧
      (c.onEnter b = none → r.1 = none ∧ r.2.1 = m₁) ∧
      ∀ p, c.onEnter b = some p → r.1 = (runAt c d p m₁).1 ∧ r.2.1 = (runAt c d p m₁).2.1) ∨
    (Ev.switched (d + 1) b ∉ r.2.2 ∧ (∃ e, r.1 = some e) ∧
      ∀ (d' : Nat) (xs : List (Step S O W)),
        (history c d' xs r.2.1).1.state = some a ∧ (history c d' xs r.2.1).1.nxt = some b ∧
        ∀ e s x, Ev.assigned e s x ∈ (history c d' xs r.2.1).2 → x ≠ none) := by
  intro r
  by_cases hf : Ev.switched (d + 1) b ∈ r.2.2
  · left
    refine ⟨hf, ?_⟩
    obtain ⟨l1, l2, l3, l4⟩ := afterExit_locked c d a b m
    have hr : r = logged (d + 1) (some b) (transition c (Prog.run (setter c d)) (d + 1) b m) :=
      setter_goes_ahead c d a b m hs hn hok hne
    obtain ⟨x1, x2⟩ := exitStep_facts c d a b m hs
    have hrest : Ev.switched (d + 1) b ∈ (transition c (Prog.run (setter c d)) (d + 1) b m).2.2 := by
      rw [hr] at hf
      simp only [logged, List.mem_append] at hf
      rcases hf with hf | hf
      · exact hf
      · simp at hf
    rw [hr]
    simp only [logged]
    unfold transition at hrest ⊢
    cases h1 : (exitStep c (Prog.run (setter c d)) (d + 1) { m with nxt := some b }).1 with
    | some e =>
      rw [andThen_some h1] at hrest
      exact absurd hrest (exit_no_switch c d a b b m hs)
    | none =>
      rw [andThen_none h1] at hrest ⊢
      simp only at hrest ⊢
      cases h2 : (observersStep c (Prog.run (setter c d)) (d + 1)
          (exitStep c (Prog.run (setter c d)) (d + 1) { m with nxt := some b }).2.1).1 with
      | some e =>
        rw [andThen_some h2] at hrest
        exact absurd hrest (by
          simp only [List.mem_append, not_or]
          exact ⟨exit_no_switch c d a b b m hs, obs_no_switch c d b _ (by rw [x1, l2]; simp)⟩)
      | none =>
        rw [andThen_none h2]
        simp only [switchStep, enterStep]
        refine ⟨{ (observersStep c (Prog.run (setter c d)) (d + 1)
          (exitStep c (Prog.run (setter c d)) (d + 1) { m with nxt := some b }).2.1).2.1 with state := some b, nxt := none },
          rfl, rfl, ?_, ?_⟩
        · intro he; simp [he, callback, andThen]
        · intro p he; simp [he, callback, andThen, runAt]
  · right
    refine ⟨hf, (C29_old_state c d a b m hs hn hok hne hf).2, fun d' xs => ?_⟩
    exact C112_violated c d a b m hs hn hok hne hf d' xs

/-- C113: in any manager a program can have, a transition from a to b that is not refused calls the observers in the list as it is
when on_exit has returned, in its order, or for each of them one that compares equal to it (the list may have been replaced by an equal
one, `C113_stale_observer`); only the first ones if one of them raises. -/
theorem C113_observers (c : Cfg S O W) (d : Nat) (a b : S) (m : Mgr S O W) (hm : Reachable c m)
    (hs : m.state = some a) (hn : m.nxt = none) (hok : c.classOk (some b) = true) (hne : a ≠ b) :
    ∃ os : List O, os.length = (afterExit c d a b m).observers.length ∧
      (∀ (i : Nat) (o o' : O), (afterExit c d a b m).observers[i]? = some o → os[i]? = some o' → o' = o ∨ c.same o o' = true) ∧
      (∃ k, calls (d + 1) (setter c (d + 1) (some b) m).2.2 = (protocol c (d + 1) a b os).take k) ∧
      ((setter c (d + 1) (some b) m).1 = none →
        calls (d + 1) (setter c (d + 1) (some b) m).2.2 = protocol c (d + 1) a b os) := by
  obtain ⟨os, h1, h2⟩ := C28_protocol c d a b m hm hs hn hok hne
  refine ⟨os, h1.1, fun i o o' e e' => ?_, h2⟩
  obtain ⟨hi, rfl⟩ := List.getElem?_eq_some_iff.1 e
  obtain ⟨hi', rfl⟩ := List.getElem?_eq_some_iff.1 e'
  exact h1.2 i hi hi'

end Big.State
