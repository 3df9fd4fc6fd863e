import Verif.Pushback.Model
/-!
# C27: a PushbackIterator is a stack in front of the wrapped iterator
-/
namespace Big.Pushback
variable {σ α : Type}

/-! ## Specification: a sequence of values to come, finite or infinite -/

/-- Values to come: `f n` is the n-th one, none past the end. -/
abbrev Seq (α : Type) := Nat → Option α

/-- Put a value in front. -/
def Seq.cons (a : α) (f : Seq α) : Seq α
  | 0 => some a
  | n + 1 => f n
/-- Without the first element. -/
def Seq.tail (f : Seq α) : Seq α := fun n => f (n + 1)
/-- The finite sequence with the elements of a list. -/
def Seq.ofList (l : List α) : Seq α := fun n => l[n]?

/-- next on a sequence: the first value, which is removed; at the end StopIteration. -/
def Seq.next (f : Seq α) : Ret α × Seq α :=
  match f 0 with
  | some a => (.val a, f.tail)
  | none => (.stopIteration, f)
/-- next with a default. -/
def Seq.nextD (d : α) (f : Seq α) : Ret α × Seq α :=
  match f 0 with
  | some a => (.val a, f.tail)
  | none => (.val d, f)

/-- The operations on a sequence: push puts a value in front, next takes the first value, bool tells
whether there is one and changes nothing. -/
def Seq.step (f : Seq α) : Op α → Ret α × Seq α
  | .push a => (.unit, f.cons a)
  | .next => f.next
  | .nextD d => f.nextD d
  | .bool => (.bool (f 0).isSome, f)

/-- The answers to calls, one after another, and what is left. -/
def Seq.run : Seq α → List (Op α) → List (Ret α) × Seq α
  | f, [] => ([], f)
  | f, o :: os =>
    let r := f.step o
    let rest := Seq.run r.2 os
    (r.1 :: rest.1, rest.2)

/-- The value of an outcome. -/
def Out.value? : Out α → Option α
  | .val a => some a
  | _ => none

/-- The values a wrapped iterator in state s will give, by calling its `__next__` over and over until
it does not give a value. -/
def den (it : Iter σ α) (s : σ) : Seq α
  | 0 => (it.next s).1.value?
  | n + 1 => if (it.next s).1.value?.isSome then den it (it.next s).2 n else none

/-- A wrapped iterator is well behaved from state s: it raises nothing but StopIteration, and its
truth value, if it defines one, is false only at the end and taking it does not use values up. -/
structure Honest (it : Iter σ α) (ok : σ → Prop) : Prop where
  next_ok : ∀ s, ok s → (it.next s).1 ≠ .exc ∧ (∀ a, (it.next s).1 = .val a → ok (it.next s).2)
  bool_ok : ∀ s, ok s → ok (it.bool s).2 ∧ den it (it.bool s).2 = den it s ∧
    ((it.bool s).1 = false → den it s 0 = none)

/-- The values a PushbackIterator will give: its stack, then the wrapped iterator. -/
def abs (it : Iter σ α) (t : St σ α) : Seq α :=
  t.stack.foldr Seq.cons (match t.i with | none => fun _ => none | some s => den it s)

theorem den_zero (it : Iter σ α) (s : σ) : den it s 0 = (it.next s).1.value? := rfl
theorem den_succ (it : Iter σ α) (s : σ) (n : Nat) : den it s (n + 1) =
    if (it.next s).1.value?.isSome then den it (it.next s).2 n else none := rfl

theorem den_val {it : Iter σ α} {s s' : σ} {a : α} (h : it.next s = (.val a, s')) :
    den it s = (den it s').cons a := by
  funext n
  cases n with
  | zero => rw [den_zero, h]; rfl
  | succ n => rw [den_succ, h]; rfl

theorem den_stop {it : Iter σ α} {s : σ} (h : den it s 0 = none) : den it s = fun _ => none := by
  funext n
  cases n with
  | zero => exact h
  | succ n => rw [den_zero] at h; rw [den_succ, h]; rfl

theorem cons_tail (f : Seq α) (a : α) : (f.cons a).tail = f := rfl
theorem cons_zero (f : Seq α) (a : α) : f.cons a 0 = some a := rfl

/-- The wrapped state, if any, is one where the iterator is well behaved. -/
def OkSt (ok : σ → Prop) (t : St σ α) : Prop := ∀ s, t.i = some s → ok s

theorem abs_push (it : Iter σ α) (t : St σ α) (a : α) : abs it (push a t) = (abs it t).cons a := rfl
theorem abs_some (it : Iter σ α) (s : σ) : abs it ⟨some s, []⟩ = den it s := rfl
theorem abs_none (it : Iter σ α) : abs it ⟨none, []⟩ = fun _ => none := rfl

theorem Seq.next_cons (a : α) (f : Seq α) : (f.cons a).next = (.val a, f) := rfl
theorem Seq.next_empty {f : Seq α} (h : f 0 = none) : f.next = (.stopIteration, f) := by
  simp [Seq.next, h]
theorem Seq.nextD_cons (d a : α) (f : Seq α) : (f.cons a).nextD d = (.val a, f) := rfl
theorem Seq.nextD_empty {d : α} {f : Seq α} (h : f 0 = none) : f.nextD d = (.val d, f) := by
  simp [Seq.nextD, h]

theorem step_refines {it : Iter σ α} {ok : σ → Prop} (H : Honest it ok) {t : St σ α}
    (ht : OkSt ok t) (o : Op α) :
    (step it t o).1 = ((abs it t).step o).1 ∧ abs it (step it t o).2 = ((abs it t).step o).2 ∧
      OkSt ok (step it t o).2 := by
  obtain ⟨i, l⟩ := t
  cases o with
  | push a => exact ⟨rfl, rfl, ht⟩
  | next =>
    cases l with
    | cons a l => exact ⟨rfl, rfl, ht⟩
    | nil =>
      cases i with
      | none => exact ⟨rfl, rfl, ht⟩
      | some s =>
        obtain ⟨b1, b2, b3⟩ := H.bool_ok s (ht s rfl)
        obtain ⟨n1, n2⟩ := H.next_ok _ b1
        simp only [step, next, test, Seq.step, abs_some]
        rcases hb : it.bool s with ⟨b, s1⟩
        rw [hb] at b1 b2 b3 n1 n2
        cases b
        · simp only [Bool.false_eq_true, if_false]
          rw [Seq.next_empty (b3 rfl), abs_some, b2]
          exact ⟨rfl, rfl, fun x hx => by cases hx; exact b1⟩
        · simp only [if_true]
          rw [← b2]
          rcases hn : it.next s1 with ⟨a | _ | _, s'⟩
          · rw [den_val hn, Seq.next_cons]
            exact ⟨rfl, rfl, fun x hx => by cases hx; rw [hn] at n2; exact n2 a rfl⟩
          · have h0 : den it s1 0 = none := by rw [den_zero, hn]; rfl
            rw [Seq.next_empty h0, den_stop h0]
            exact ⟨rfl, rfl, fun x hx => by cases hx⟩
          · rw [hn] at n1; exact absurd rfl n1
  | nextD d =>
    cases l with
    | cons a l => exact ⟨rfl, rfl, ht⟩
    | nil =>
      cases i with
      | none => exact ⟨rfl, rfl, ht⟩
      | some s =>
        obtain ⟨b1, b2, b3⟩ := H.bool_ok s (ht s rfl)
        obtain ⟨n1, n2⟩ := H.next_ok _ b1
        simp only [step, nextD, test, Seq.step, abs_some]
        rcases hb : it.bool s with ⟨b, s1⟩
        rw [hb] at b1 b2 b3 n1 n2
        cases b
        · simp only [Bool.false_eq_true, if_false]
          rw [Seq.nextD_empty (b3 rfl), abs_some, b2]
          exact ⟨rfl, rfl, fun x hx => by cases hx; exact b1⟩
        · simp only [if_true]
          rw [← b2]
          rcases hn : it.next s1 with ⟨a | _ | _, s'⟩
          · rw [den_val hn, Seq.nextD_cons]
            exact ⟨rfl, rfl, fun x hx => by cases hx; rw [hn] at n2; exact n2 a rfl⟩
          · have h0 : den it s1 0 = none := by rw [den_zero, hn]; rfl
            rw [Seq.nextD_empty h0, den_stop h0]
            exact ⟨rfl, rfl, fun x hx => by cases hx⟩
          · rw [hn] at n1; exact absurd rfl n1
  | bool =>
    cases l with
    | cons a l => exact ⟨rfl, rfl, ht⟩
    | nil =>
      cases i with
      | none => exact ⟨rfl, rfl, ht⟩
      | some s =>
        obtain ⟨b1, b2, b3⟩ := H.bool_ok s (ht s rfl)
        obtain ⟨n1, n2⟩ := H.next_ok _ b1
        simp only [step, bool, test, Seq.step, abs_some]
        rcases hb : it.bool s with ⟨b, s1⟩
        rw [hb] at b1 b2 b3 n1 n2
        cases b
        · simp only [Bool.false_eq_true, if_false]
          rw [b3 rfl, abs_some, b2]
          exact ⟨rfl, rfl, fun x hx => by cases hx; exact b1⟩
        · simp only [if_true]
          rw [← b2]
          rcases hn : it.next s1 with ⟨a | _ | _, s'⟩
          · rw [den_val hn]
            exact ⟨rfl, rfl, fun x hx => by cases hx; rw [hn] at n2; exact n2 a rfl⟩
          · have h0 : den it s1 0 = none := by rw [den_zero, hn]; rfl
            rw [h0, den_stop h0]
            exact ⟨rfl, rfl, fun x hx => by cases hx⟩
          · rw [hn] at n1; exact absurd rfl n1

theorem run_refines {it : Iter σ α} {ok : σ → Prop} (H : Honest it ok) (os : List (Op α)) :
    ∀ {t : St σ α}, OkSt ok t →
    (run it t os).1 = ((abs it t).run os).1 ∧ abs it (run it t os).2 = ((abs it t).run os).2 ∧
      OkSt ok (run it t os).2 := by
  induction os with
  | nil => intro t ht; exact ⟨rfl, rfl, ht⟩
  | cons o os ih =>
    intro t ht
    obtain ⟨s1, s2, s3⟩ := step_refines H ht o
    obtain ⟨r1, r2, r3⟩ := ih s3
    refine ⟨?_, ?_, r3⟩
    · simp only [run, Seq.run]; rw [s1, r1, s2]
    · simp only [run, Seq.run]; rw [r2, s2]

/-- C27: for every well-behaved wrapped iterator, finite or infinite, and every history of push,
next, .next(default) and bool, a new PushbackIterator returns at each operation what the sequence of
the iterator's values returns, with pushed values put in front of it: nothing is lost, duplicated or
reordered, bool changes nothing, and push works after the end. -/
theorem C27_pushback_is_stack {it : Iter σ α} {ok : σ → Prop} (H : Honest it ok) (s : σ) (hs : ok s)
    (os : List (Op α)) : (run it (init (some s)) os).1 = ((den it s).run os).1 :=
  (run_refines H os (t := init (some s)) (fun x hx => by cases hx; exact hs)).1

theorem listIter_honest : Honest (listIter (α := α)) (fun _ => True) where
  next_ok s _ := ⟨by cases s <;> simp [listIter], fun _ _ => trivial⟩
  bool_ok s _ := ⟨trivial, rfl, fun h => by simp [listIter] at h⟩

theorem den_list (l : List α) : den listIter l = Seq.ofList l := by
  funext n
  induction n generalizing l with
  | zero => cases l <;> simp [den, listIter, Seq.ofList, Out.value?]
  | succ n ih =>
    cases l with
    | nil => simp [den, listIter, Seq.ofList, Out.value?]
    | cons a l =>
      have e : listIter.next (a :: l) = (.val a, l) := rfl
      rw [den_succ, e]; simp only [Out.value?, Option.isSome_some, if_true]; rw [ih]; simp [Seq.ofList]

/-- The operations on a finite sequence, as a list. -/
def listStep (l : List α) : Op α → Ret α × List α
  | .push a => (.unit, a :: l)
  | .next => match l with | [] => (.stopIteration, []) | a :: r => (.val a, r)
  | .nextD d => match l with | [] => (.val d, []) | a :: r => (.val a, r)
  | .bool => (.bool (!l.isEmpty), l)
/-- The answers to calls, one after another, and what is left. -/
def listRun : List α → List (Op α) → List (Ret α) × List α
  | l, [] => ([], l)
  | l, o :: os => ((listStep l o).1 :: (listRun (listStep l o).2 os).1, (listRun (listStep l o).2 os).2)

theorem ofList_step (l : List α) (o : Op α) :
    ((Seq.ofList l).step o).1 = (listStep l o).1 ∧
    ((Seq.ofList l).step o).2 = Seq.ofList (listStep l o).2 := by
  cases o with
  | push a => exact ⟨rfl, by funext n; cases n <;> simp [Seq.step, Seq.cons, Seq.ofList, listStep]⟩
  | next =>
    cases l with
    | nil => exact ⟨rfl, rfl⟩
    | cons a r => exact ⟨rfl, by funext n; simp [Seq.step, Seq.next, Seq.tail, Seq.ofList, listStep]⟩
  | nextD d =>
    cases l with
    | nil => exact ⟨rfl, rfl⟩
    | cons a r => exact ⟨rfl, by funext n; simp [Seq.step, Seq.nextD, Seq.tail, Seq.ofList, listStep]⟩
  | bool => cases l <;> exact ⟨rfl, rfl⟩

/-- C27 for a wrapped finite iterable: the PushbackIterator behaves as the list of its values, with
push at the front, next from the front, and bool telling whether it is non-empty. -/
theorem C27_finite (l : List α) (os : List (Op α)) :
    (run listIter (init (some l)) os).1 = (listRun l os).1 := by
  rw [C27_pushback_is_stack listIter_honest l trivial, den_list]
  induction os generalizing l with
  | nil => rfl
  | cons o os ih =>
    obtain ⟨h1, h2⟩ := ofList_step l o
    simp only [Seq.run, listRun]
    rw [h1, h2, ih]

/-- C27 for PushbackIterator(None): it starts exhausted, and push makes it usable. -/
theorem C27_none (os : List (Op α)) :
    (run (listIter (α := α)) (init none) os).1 = (listRun [] os).1 := by
  have h := (run_refines (listIter_honest (α := α)) os (t := init none) (fun x hx => by cases hx)).1
  rw [h, ← C27_finite, C27_pushback_is_stack listIter_honest [] trivial, den_list]
  rfl

/-- A PushbackIterator is a well-behaved iterator itself, so PushbackIterators nest, although testing
the inner one's truth value reads ahead. -/
theorem asIter_den {it : Iter σ α} {ok : σ → Prop} (H : Honest it ok) :
    ∀ (n : Nat) (t : St σ α), OkSt ok t → den (asIter it) t n = abs it t n := by
  intro n
  induction n with
  | zero =>
    intro t ht
    obtain ⟨h1, _, _⟩ := step_refines H ht .next
    rw [den_zero]
    simp only [step, Seq.step, Seq.next] at h1
    simp only [asIter]
    rcases hn : (next it t) with ⟨r, t'⟩
    rw [hn] at h1
    cases hf : abs it t 0 <;> rw [hf] at h1 <;> simp only at h1 <;> subst h1 <;> rfl
  | succ n ih =>
    intro t ht
    obtain ⟨h1, h2, h3⟩ := step_refines H ht .next
    simp only [step, Seq.step, Seq.next] at h1 h2 h3
    rw [den_succ]
    have e : (asIter it).next t = ((next it t).1.out, (next it t).2) := rfl
    rw [e]
    rcases hn : (next it t) with ⟨r, t'⟩
    rw [hn] at h1 h2 h3
    cases hf : abs it t 0 with
    | some a =>
      rw [hf] at h1 h2
      simp only at h1 h2 h3
      subst h1
      simp only [Ret.out, Out.value?, Option.isSome_some, if_true]
      rw [ih t' h3, h2]; rfl
    | none =>
      rw [hf] at h1 h2
      simp only at h1 h2 h3
      subst h1
      simp only [Ret.out, Out.value?, Option.isSome_none, Bool.false_eq_true, if_false]
      -- past the end there is nothing
      obtain ⟨i, l⟩ := t
      cases l with
      | cons a l => cases hf
      | nil =>
        cases i with
        | none => rfl
        | some s => rw [abs_some] at hf ⊢; rw [den_stop hf]

theorem asIter_honest {it : Iter σ α} {ok : σ → Prop} (H : Honest it ok) :
    Honest (asIter it) (OkSt (α := α) ok) where
  next_ok t ht := by
    obtain ⟨h1, _, h3⟩ := step_refines H ht .next
    refine ⟨?_, fun _ _ => h3⟩
    simp only [step, Seq.step, Seq.next] at h1
    simp only [asIter]
    rw [h1]
    cases abs it t 0 <;> simp [Ret.out]
  bool_ok t ht := by
    obtain ⟨h1, h2, h3⟩ := step_refines H ht .bool
    simp only [step, Seq.step] at h1 h2 h3
    refine ⟨h3, ?_, ?_⟩
    · funext n
      show den (asIter it) (bool it t).2 n = _
      rw [asIter_den H n _ h3, asIter_den H n _ ht, h2]
    · intro hb
      rw [asIter_den H 0 _ ht]
      simp only [asIter] at hb
      rw [h1] at hb
      simpa [Ret.isTrue] using hb

/-- C27 for a PushbackIterator that wraps a PushbackIterator, with values pushed on the inner one. -/
theorem C27_nested {it : Iter σ α} {ok : σ → Prop} (H : Honest it ok) (t : St σ α) (ht : OkSt ok t)
    (os : List (Op α)) : (run (asIter it) (init (some t)) os).1 = ((abs it t).run os).1 := by
  rw [C27_pushback_is_stack (asIter_honest H) t ht]
  congr 2
  funext n
  exact asIter_den H n t ht

example : (run listIter (init (some [1, 2])) [.bool, .next, .push 7, .push 8, .next, .next, .next,
      .next, .bool, .push 9, .bool, .nextD 0, .nextD 0]).1 =
    [.bool true, .val 1, .unit, .unit, .val 8, .val 7, .val 2, .stopIteration, .bool false, .unit,
     .bool true, .val 9, .val 0] := by decide

/-- Outside C27's hypothesis: an exception other than StopIteration raised by the wrapped iterator is
turned into StopIteration by next(), and the values after it are lost, while .next() lets it through
and goes on. -/
theorem C27_exception_swallowed :
    let it : Iter Nat Nat := { next := fun n => if n = 1 then (.exc, 2) else (.val n, n + 1) }
    (run it (init (some 0)) [.next, .next, .next]).1 = [.val 0, .stopIteration, .stopIteration] ∧
    (run it (init (some 0)) [.next, .nextD 9, .next]).1 = [.val 0, .exc, .val 2] := by
  decide

/-- Outside C27's hypothesis: an iterator object that is false (it defines `__len__` or `__bool__`) is
taken to be exhausted, and its values are never seen. -/
theorem C27_false_iterator_ignored :
    let it : Iter (List Nat) Nat := { listIter with bool := fun s => (false, s) }
    (run it (init (some [1, 2])) [.bool, .next]).1 = [.bool false, .stopIteration] := by
  decide

end Big.Pushback
