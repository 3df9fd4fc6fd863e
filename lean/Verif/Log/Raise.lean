import Verif.Log.RaiseModel
import Verif.Log.Props
/-!
# C130: a call on a Log that raises
-/
namespace Big.Log

/-- The call with a str, and a clock that works. -/
def Op.x : Op → XOp
  | .log e => .log (.str e)
  | .enter s => .enter (.str s)
  | .exit => .exit
  | .reset => .reset

/-- The state of Model.lean that a state stands for. -/
def Rel (l : St) (x : XSt) : Prop :=
  x.start = l.start ∧ x.stack = l.stack.map .str ∧ x.events = l.events.map (fun e => (e.1, .str e.2.1, e.2.2)) ∧
  x.longest = l.longest

theorem rel_step {l : St} {x : XSt} (h : Rel l x) (o : Op) (t : Int) :
    Rel (step l (o, t)) (xstep x (o.x, some t)).1 ∧
      ((xstep x (o.x, some t)).2 = none ↔ ¬ (o = .exit ∧ l.stack = [])) := by
  obtain ⟨h1, h2, h3, h4⟩ := h
  cases o with
  | log e => 
    simp [step, call, Op.x, xstep, xcall, Val.len?, Rel, h1, h2, h3, h4]
  | enter s =>
    simp [step, enter, call, Op.x, xstep, xenter, Val.plus?, xcall, Val.len?, Rel, h1, h2, h3, h4]
  | exit =>
    cases hs : l.stack with
    | nil =>
      rw [hs] at h2
      simp [step, exit, Op.x, xstep, xexit, hs, h2, Rel, h1, h3, h4]
    | cons s st =>
      rw [hs] at h2
      simp [step, exit, call, Op.x, xstep, xexit, hs, h2, Val.plus?, xcall, Val.len?, Rel, h1, h3, h4]
  | reset => simp [step, reset, Op.x, xstep, xreset, XSt.new, Rel]

theorem rel_run (h : List (Op × Int)) (l : St) (x : XSt) (r : Rel l x) :
    Rel (h.foldl step l) ((h.map fun o => (o.1.x, some o.2)).foldl (fun l o => (xstep l o).1) x) := by
  induction h generalizing l x with
  | nil => exact r
  | cons o h ih => exact ih _ _ (rel_step r o.1 o.2).1

theorem xiterFrom_map (x : Int × String × Nat) (l : List (Int × String × Nat)) :
    xiterFrom (x.1, .str x.2.1, x.2.2) (l.map (fun e => (e.1, .str e.2.1, e.2.2))) =
      (iterFrom x l).map (fun e => (e.1, e.2.1, .str e.2.2.1, e.2.2.2)) := by
  induction l generalizing x with
  | nil => rfl
  | cons y l ih => simp only [List.map_cons, xiterFrom, iterFrom, ih]

/-- C130: with str arguments and a clock that does not raise this is the Log of C31. -/
theorem C130_as_documented (t₀ : Int) (h : List (Op × Int)) :
    xiter (xrun t₀ (h.map fun o => (o.1.x, some o.2))) =
      (iter (run t₀ h)).map (fun e => (e.1, e.2.1, .str e.2.2.1, e.2.2.2)) := by
  have r0 : Rel (reset t₀) (XSt.new t₀) := ⟨rfl, rfl, rfl, rfl⟩
  obtain ⟨_, _, h3, _⟩ := rel_run h _ _ r0
  unfold xiter iter
  have e : (run t₀ h).events = (h.foldl step (reset t₀)).events := rfl
  have e' : (xrun t₀ (h.map fun o => (o.1.x, some o.2))).events = (run t₀ h).events.map (fun e => (e.1, .str e.2.1, e.2.2)) := h3
  rw [e']
  cases (run t₀ h).events with
  | nil => rfl
  | cons x l => exact xiterFrom_map x l

/-- The subsystems on the stack are strs. -/
theorem stack_str (t₀ : Int) (h : List (XOp × Option Int)) : ∀ v ∈ (xrun t₀ h).stack, ∃ s, v = .str s := by
  suffices ∀ l : XSt, (∀ v ∈ l.stack, ∃ s, v = .str s) →
      ∀ v ∈ (h.foldl (fun l o => (xstep l o).1) l).stack, ∃ s, v = .str s from
    this _ (by simp [XSt.new])
  induction h with
  | nil => exact fun l hl => hl
  | cons o h ih =>
    intro l hl
    refine ih _ ?_
    obtain ⟨o, t⟩ := o
    have hcall : ∀ (l : XSt) e, (xcall l e t).1.stack = l.stack := by
      intro l e
      cases t with
      | none => rfl
      | some t => simp only [xcall]; split <;> rfl
    cases o with
    | log e => simp only [xstep]; rw [hcall]; exact hl
    | reset => cases t <;> simp [xstep, xreset, XSt.new, hl]; exact hl
    | exit =>
      simp only [xstep, xexit]
      split
      · exact hl
      · rename_i s st hs
        rw [hs] at hl
        split
        · intro v hv; exact hl v (by simp [hv])
        · rw [hcall]; intro v hv; exact hl v (by simp [hv])
    | enter s =>
      simp only [xstep, xenter]
      split
      · exact hl
      · rename_i e he
        have hs : ∃ x, s = .str x := by cases s <;> simp [Val.plus?] at he ⊢
        split
        · rename_i l' x hc
          have := hcall l e
          rw [hc] at this
          simp only at this ⊢
          rw [this]; exact hl
        · rename_i l' hc
          have := hcall l e
          rw [hc] at this
          simp only at this ⊢
          intro v hv
          rcases List.mem_cons.1 hv with rfl | hv
          · exact hs
          · exact hl v (by rwa [← this])

/-- The exception expected of a call (`t` is none if the clock raises). -/
def expected (noneOpen : Bool) (t : Option Int) : XOp → Option Exc
  | .log (.unsized _) => if t.isNone then some .clock else some .typeError
  | .log _ => if t.isNone then some .clock else none
  | .enter (.str _) => if t.isNone then some .clock else none
  | .enter _ => some .typeError
  | .exit => if noneOpen then some .indexError else if t.isNone then some .clock else none
  | .reset => if t.isNone then some .clock else none

/-- C130: exactly the calls that raise: log of an object without a length; enter of anything but a str; exit with no
subsystem open; and every call in which the clock raises. -/
theorem C130_raises (t₀ : Int) (h : List (XOp × Option Int)) (o : XOp) (t : Option Int) :
    (xstep (xrun t₀ h) (o, t)).2 = expected (xrun t₀ h).stack.isEmpty t o := by
  have hs := stack_str t₀ h
  generalize xrun t₀ h = l at *
  cases o with
  | log e => cases t <;> cases e <;> simp [xstep, xcall, Val.len?, expected]
  | reset => cases t <;> simp [xstep, xreset, expected]
  | enter s => cases t <;> cases s <;> simp [xstep, xenter, Val.plus?, xcall, Val.len?, expected]
  | exit =>
    cases hst : l.stack with
    | nil => simp [xstep, xexit, hst, expected]
    | cons s st =>
      obtain ⟨x, rfl⟩ := hs s (by rw [hst]; simp)
      cases t <;> simp [xstep, xexit, hst, Val.plus?, xcall, Val.len?, expected]

/-- C130: after every history, a call that raises has changed nothing if and only if it is not a log of an
object without a length, with a clock that works, and not an exit from an open subsystem in which the clock raises. -/
theorem C130_raises_nothing_changed (t₀ : Int) (h : List (XOp × Option Int)) (o : XOp) (t : Option Int)
    (hr : (xstep (xrun t₀ h) (o, t)).2 ≠ none) :
    (xstep (xrun t₀ h) (o, t)).1 = xrun t₀ h ↔
      ¬ ((∃ v, o = .log (.unsized v)) ∧ t ≠ none) ∧ ¬ (o = .exit ∧ (xrun t₀ h).stack ≠ [] ∧ t = none) := by
  have hs := stack_str t₀ h
  generalize xrun t₀ h = l at *
  have hlen : ∀ (a : XSt) e, a.events = l.events ++ [e] → a ≠ l := by
    intro a e he h'
    rw [h'] at he
    simpa using congrArg List.length he
  cases o with
  | log e =>
    cases t with
    | none => simp [xstep, xcall]
    | some t =>
      cases e with
      | unsized v =>
        simp only [xstep, xcall, Val.len?, ne_eq, reduceCtorEq, not_false_eq_true, and_true, XOp.log.injEq,
          Val.unsized.injEq, false_and, not_true_eq_false, exists_eq', iff_false]
        exact hlen _ _ rfl
      | str s => simp [xstep, xcall, Val.len?] at hr
      | sized a b => simp [xstep, xcall, Val.len?] at hr
  | reset => cases t <;> simp [xstep, xreset] at hr ⊢
  | enter s => cases t <;> cases s <;> simp [xstep, xenter, Val.plus?, xcall, Val.len?] at hr ⊢
  | exit =>
    cases hst : l.stack with
    | nil => simp [xstep, xexit, hst]
    | cons s st =>
      obtain ⟨x, rfl⟩ := hs s (by rw [hst]; simp)
      cases t with
      | some t => simp [xstep, xexit, hst, Val.plus?, xcall, Val.len?] at hr
      | none =>
        simp only [xstep, xexit, hst, Val.plus?, xcall]
        simp only [reduceCtorEq, exists_const, ne_eq, not_true_eq_false, and_false, not_false_eq_true, true_and,
          and_true, and_self, false_and, iff_false]
        intro h'
        have := congrArg XSt.stack h'
        simp only [hst] at this
        simpa using congrArg List.length this

/-- C130: what the two exceptions leave: an event that is recorded although log() raised, and a subsystem that is left
without a record although exit() raised. -/
theorem C130_what_is_left (t₀ : Int) (h : List (XOp × Option Int)) :
    (∀ v t, (xstep (xrun t₀ h) (.log (.unsized v), some t)).1.events =
      (xrun t₀ h).events ++ [(t - (xrun t₀ h).start, .unsized v, (xrun t₀ h).stack.length)]) ∧
    ((xstep (xrun t₀ h) (.exit, none)).1.events = (xrun t₀ h).events ∧
      (xstep (xrun t₀ h) (.exit, none)).1.stack = (xrun t₀ h).stack.tail) := by
  have hs := stack_str t₀ h
  generalize xrun t₀ h = l at *
  refine ⟨fun v t => rfl, ?_⟩
  cases hst : l.stack with
  | nil => simp [xstep, xexit, hst]
  | cons s st =>
    obtain ⟨x, rfl⟩ := hs s (by rw [hst]; simp)
    simp [xstep, xexit, hst, Val.plus?, xcall]

/-- C130 fails: log(5) raises TypeError but is recorded. -/
theorem C130_counterexample_log :
    (xstep (xrun 10 []) (.log (.unsized 5), some 12)).2 = some .typeError ∧
    xiter (xstep (xrun 10 []) (.log (.unsized 5), some 12)).1 =
      [(0, 2, .str "log start", 0), (2, 0, .unsized 5, 0)] := by decide +kernel

/-- C130 fails: if the clock raises in exit(), the subsystem has been left, and the next exit() is that of the enclosing
one. -/
theorem C130_counterexample_exit :
    (xstep (xrun 10 [(.enter (.str "a"), some 11), (.enter (.str "b"), some 12)]) (.exit, none)).2 = some .clock ∧
    xiter (xrun 10 [(.enter (.str "a"), some 11), (.enter (.str "b"), some 12), (.exit, none), (.exit, some 15)]) =
      [(0, 1, .str "log start", 0), (1, 1, .str "a start", 0), (2, 3, .str "b start", 1), (5, 0, .str "a end", 0)] := by
  decide +kernel

end Big.Log
