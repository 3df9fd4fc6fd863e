import Verif.Pushback.Props
/-!
# C129: a PushbackIterator and the exceptions of the wrapped iterator
-/
namespace Big.Pushback
variable {σ α : Type}

/-! ## Specification: what is to come, exceptions included -/

/-- What is to come: `f n` is what the n-th request gives; from the end on every request gives `stop`. -/
abbrev Evs (α : Type) := Nat → Out α

/-- Put a value in front. -/
def Evs.cons (a : α) (f : Evs α) : Evs α
  | 0 => .val a
  | n + 1 => f n
/-- Without the first. -/
def Evs.tail (f : Evs α) : Evs α := fun n => f (n + 1)

/-- next: a value is returned, an exception is raised, and either is then used up; at the end StopIteration. -/
def Evs.next (f : Evs α) : Ret α × Evs α :=
  match f 0 with
  | .val a => (.val a, f.tail)
  | .exc => (.exc, f.tail)
  | .stop => (.stopIteration, f)
/-- next with a default: as next, but at the end the default. -/
def Evs.nextD (d : α) (f : Evs α) : Ret α × Evs α :=
  match f 0 with
  | .val a => (.val a, f.tail)
  | .exc => (.exc, f.tail)
  | .stop => (.val d, f)
/-- bool: whether there is a value; an exception is raised, and used up. -/
def Evs.bool (f : Evs α) : Ret α × Evs α :=
  match f 0 with
  | .val _ => (.bool true, f)
  | .exc => (.exc, f.tail)
  | .stop => (.bool false, f)

/-- One operation. -/
def Evs.step (f : Evs α) : Op α → Ret α × Evs α
  | .push a => (.unit, f.cons a)
  | .next => f.next
  | .nextD d => f.nextD d
  | .bool => f.bool

/-- A history. -/
def Evs.run : Evs α → List (Op α) → List (Ret α)
  | _, [] => []
  | f, o :: os => (f.step o).1 :: Evs.run (f.step o).2 os

/-- Whether an outcome is the end. -/
def Out.isStop : Out α → Bool
  | .stop => true
  | _ => false

/-- What calling `__next__` of the wrapped iterator over and over gives, until its end. -/
def evs (it : Iter σ α) (s : σ) : Evs α
  | 0 => (it.next s).1
  | n + 1 => if (it.next s).1.isStop then .stop else evs it (it.next s).2 n

/-- Nothing to come. -/
def Evs.ended : Evs α := fun _ => .stop

/-! ## Proofs -/

/-- What a PushbackIterator has to come. -/
def toCome (it : Iter σ α) (t : St σ α) : Evs α :=
  t.stack.foldr Evs.cons (match t.i with | none => Evs.ended | some s => evs it s)

theorem evs_tail {it : Iter σ α} {s s' : σ} {o : Out α} (h : it.next s = (o, s')) (ho : o.isStop = false) :
    (evs it s).tail = evs it s' := by
  funext n; simp [Evs.tail, evs, h, ho]

theorem evs_stop {it : Iter σ α} {s s' : σ} (h : it.next s = (.stop, s')) : evs it s = Evs.ended := by
  funext n; cases n <;> simp [evs, h, Evs.ended, Out.isStop]

theorem evs_zero (it : Iter σ α) (s : σ) : evs it s 0 = (it.next s).1 := rfl

/-- One operation: the same, unless next() meets an exception. -/
theorem step_evs {it : Iter σ α} (hb : ∀ s, it.bool s = (true, s)) (t : St σ α) (o : Op α)
    (h : ¬ (o = .next ∧ toCome it t 0 = .exc)) :
    (step it t o).1 = ((toCome it t).step o).1 ∧ toCome it (step it t o).2 = ((toCome it t).step o).2 := by
  obtain ⟨i, stack⟩ := t
  cases o with
  | push a => exact ⟨rfl, rfl⟩
  | next =>
    cases stack with
    | cons a l => exact ⟨rfl, rfl⟩
    | nil =>
      cases i with
      | none => exact ⟨rfl, rfl⟩
      | some s =>
        have hz : toCome it ⟨some s, []⟩ 0 = (it.next s).1 := rfl
        have hc : toCome it ⟨some s, []⟩ = evs it s := rfl
        simp only [step, next, test, hb, if_true, Evs.step, Evs.next]
        rw [hz]
        rcases hn : it.next s with ⟨o, s'⟩
        cases o with
        | val a => exact ⟨rfl, (evs_tail hn rfl).symm⟩
        | stop => exact ⟨rfl, by rw [hc, evs_stop hn]; rfl⟩
        | exc => exact absurd ⟨rfl, by rw [hz, hn]⟩ h
  | nextD d =>
    cases stack with
    | cons a l => exact ⟨rfl, rfl⟩
    | nil =>
      cases i with
      | none => exact ⟨rfl, rfl⟩
      | some s =>
        have hz : toCome it ⟨some s, []⟩ 0 = (it.next s).1 := rfl
        have hc : toCome it ⟨some s, []⟩ = evs it s := rfl
        simp only [step, nextD, test, hb, if_true, Evs.step, Evs.nextD]
        rw [hz]
        rcases hn : it.next s with ⟨o, s'⟩
        cases o with
        | val a => exact ⟨rfl, (evs_tail hn rfl).symm⟩
        | stop => exact ⟨rfl, by rw [hc, evs_stop hn]; rfl⟩
        | exc => exact ⟨rfl, (evs_tail hn rfl).symm⟩
  | bool =>
    cases stack with
    | cons a l => exact ⟨rfl, rfl⟩
    | nil =>
      cases i with
      | none => exact ⟨rfl, rfl⟩
      | some s =>
        have hz : toCome it ⟨some s, []⟩ 0 = (it.next s).1 := rfl
        have hc : toCome it ⟨some s, []⟩ = evs it s := rfl
        simp only [step, bool, test, hb, if_true, Evs.step, Evs.bool]
        rw [hz]
        rcases hn : it.next s with ⟨o, s'⟩
        cases o with
        | val a =>
          refine ⟨rfl, ?_⟩
          rw [hc]
          funext n
          cases n with
          | zero => simp [afterBool, push, toCome, Evs.cons, evs, hn]
          | succ n => show _ = evs it s (n + 1); rw [show evs it s (n + 1) = (evs it s).tail n from rfl, evs_tail hn rfl]; rfl
        | stop => exact ⟨rfl, by rw [hc, evs_stop hn]; rfl⟩
        | exc => exact ⟨rfl, (evs_tail hn rfl).symm⟩

/-- next() that meets an exception raises StopIteration, and lets go of the wrapped iterator. -/
theorem next_swallows {it : Iter σ α} (hb : ∀ s, it.bool s = (true, s)) (t : St σ α)
    (h : toCome it t 0 = .exc) : step it t .next = (.stopIteration, ⟨none, []⟩) := by
  obtain ⟨i, stack⟩ := t
  cases stack with
  | cons a l => simp [toCome, Evs.cons] at h
  | nil =>
    cases i with
    | none => simp [toCome, Evs.ended] at h
    | some s =>
      have hz : (it.next s).1 = .exc := h
      simp only [step, next, test, hb, if_true]
      rcases hn : it.next s with ⟨o, s'⟩
      rw [hn] at hz
      simp only at hz
      subst hz
      rfl

/-- Some next() in the history meets an exception. -/
def Meets : Evs α → List (Op α) → Prop
  | _, [] => False
  | f, o :: os => (o = .next ∧ f 0 = .exc) ∨ Meets (f.step o).2 os

/-- The same from any state. -/
theorem run_evs {it : Iter σ α} (hb : ∀ s, it.bool s = (true, s)) (os : List (Op α)) (t : St σ α) :
    (run it t os).1 = (toCome it t).run os ↔ ¬ Meets (toCome it t) os := by
  induction os generalizing t with
  | nil => simp [run, Evs.run, Meets]
  | cons o os ih =>
    simp only [run, Evs.run, Meets, not_or]
    by_cases h : o = .next ∧ toCome it t 0 = .exc
    · obtain ⟨rfl, h⟩ := h
      have h1 : ((toCome it t).step .next).1 = .exc := by simp [Evs.step, Evs.next, h]
      rw [next_swallows hb t h, h1]
      simp [h]
    · obtain ⟨h1, h2⟩ := step_evs hb t o h
      rw [h1, ← h2]
      simp only [List.cons.injEq, true_and, h, not_false_eq_true]
      exact ih _

/-- C129: in every history, PushbackIterator passes on the exceptions of the wrapped iterator, and gives all
that comes before and after them, if and only if no exception is met by next() (that is, if they are all met by
.next() or bool()). -/
theorem C129_passes_exceptions {it : Iter σ α} (hb : ∀ s, it.bool s = (true, s)) (s : σ) (os : List (Op α)) :
    (run it (init (some s)) os).1 = (evs it s).run os ↔ ¬ Meets (evs it s) os :=
  run_evs hb os (init (some s))

/-- C129: for a user of `.next()` and bool() only, all exceptions are passed on. -/
theorem C129_next_method {it : Iter σ α} (hb : ∀ s, it.bool s = (true, s)) (s : σ) (os : List (Op α))
    (h : .next ∉ os) : (run it (init (some s)) os).1 = (evs it s).run os := by
  refine (C129_passes_exceptions hb s os).2 ?_
  suffices ∀ f : Evs α, ¬ Meets f os from this _
  intro f
  induction os generalizing f with
  | nil => exact id
  | cons o os ih =>
    simp only [List.mem_cons, not_or] at h
    rintro (⟨h1, _⟩ | h1)
    · exact h.1 h1.symm
    · exact ih h.2 _ h1

/-- C129 fails for next(): whenever next() meets an exception it raises StopIteration instead, and from then on the
PushbackIterator is one made with None: whatever the wrapped iterator still had to give is lost. -/
theorem C129_next_swallows {it : Iter σ α} (hb : ∀ s, it.bool s = (true, s)) (s : σ) (before after : List (Op α))
    (h0 : ¬ Meets (evs it s) before)
    (h : toCome it (run it (init (some s)) before).2 0 = .exc) :
    (run it (init (some s)) (before ++ .next :: after)).1 =
      (evs it s).run before ++ .stopIteration :: (run it (init none) after).1 := by
  have app : ∀ (a b : List (Op α)) (t : St σ α), (run it t (a ++ b)).1 = (run it t a).1 ++ (run it (run it t a).2 b).1 := by
    intro a b
    induction a with
    | nil => intro t; rfl
    | cons o a ih => intro t; simp only [List.cons_append, run, ih]
  rw [app, (C129_passes_exceptions hb s before).2 h0]
  congr 1
  simp only [run]
  rw [next_swallows hb _ h]
  rfl

/-- An iterator that raises an exception at its second value. -/
def faulty : Iter Nat Nat := { next := fun n => if n = 1 then (.exc, 2) else if n = 4 then (.stop, 4) else (.val n, n + 1) }

/-- C129 fails: next() gives 0 and then StopIteration; .next() gives 0, the exception, 2, 3. -/
theorem C129_counterexample :
    (run faulty (init (some 0)) [.next, .next, .next]).1 = [.val 0, .stopIteration, .stopIteration] ∧
    (evs faulty 0).run [.next, .next, .next] = [.val 0, .exc, .val 2] ∧
    (run faulty (init (some 0)) [.nextD 9, .bool, .next, .nextD 9, .nextD 9]).1 =
      [.val 0, .exc, .val 2, .val 3, .val 9] := by
  decide

example : ¬ Meets (evs faulty 0) [.nextD 9, .bool, .next, .nextD 9, .nextD 9] ∧
    Meets (evs faulty 0) [.push 5, .next, .next, .next] := by
  constructor
  · simp [Meets, Evs.step, Evs.nextD, Evs.bool, Evs.next, evs, faulty, Evs.tail, Out.isStop]
  · simp [Meets, Evs.step, Evs.next, evs, faulty, Evs.tail, Evs.cons, Out.isStop]

end Big.Pushback
