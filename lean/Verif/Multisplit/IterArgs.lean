import Verif.Multisplit.Args
/-!
# C102: multisplit with an iterator of separators, for all options
-/
namespace Big.MS
variable {α : Type} [DecidableEq α]

/-- Without a newline at its end. -/
def chomp (nl : α) (s : List α) : List α := if s.getLast? = some nl then s.dropLast else s

/-- Are separators stripped from the right? (multisplit's documentation, no maxsplit.) -/
def rightToo : Strip → Bool
  | .yes => true | .right => true | .progressive => true | _ => false

/-- Pieces between which there are empty separators, presented as `keep` says. -/
def shown (keep : Keep) (pieces : List (List α)) : List (Item α) :=
  match keep with
  | .no => pieces.map .str
  | .yes => pieces.map .str
  | .alternating => (pieces.intersperse []).map .str
  | .asPairs => pieces.map (fun p => .pair p [])

/-- An empty string, then each character, then an empty string. -/
def chars (s : List α) : List (List α) := [] :: (s.map (fun c => [c]) ++ [[]])

theorem match0_empty (s : List α) : match0 (sepRe ([] : List (List α)) false) s = some ([], s) := by
  have h : ∀ (n : Nat) (s : List α) (c : Big.Rx.Caps α) (k : List α → Big.Rx.Caps α → Option (Big.Rx.Caps α × List α)),
      Big.Rx.mstar (fun x y z => z x y) n s c k = k s c := by
    intro n s c k
    cases n with
    | zero => rfl
    | succ n => simp [Big.Rx.mstar]
  simp [match0, sepRe, sortSeps, alts, Big.Rx.Rx.matchStart, Big.Rx.Rx.plus, Big.Rx.Rx.m, h]

theorem match0_empty_end (nl : α) (s : List α) :
    match0 (.seq (sepRe ([] : List (List α)) false) (.look (atEnd nl))) s =
      if s = [] ∨ s = [nl] then some ([], s) else none := by
  have h : ∀ (n : Nat) (s : List α) (c : Big.Rx.Caps α) (k : List α → Big.Rx.Caps α → Option (Big.Rx.Caps α × List α)),
      Big.Rx.mstar (fun x y z => z x y) n s c k = k s c := by
    intro n s c k
    cases n with
    | zero => rfl
    | succ n => simp [Big.Rx.mstar]
  by_cases hs : s = [] ∨ s = [nl]
  · simp [match0, sepRe, sortSeps, alts, Big.Rx.Rx.matchStart, Big.Rx.Rx.plus, Big.Rx.Rx.m, h, atEnd, hs]
  · simp [match0, sepRe, sortSeps, alts, Big.Rx.Rx.matchStart, Big.Rx.Rx.plus, Big.Rx.Rx.m, h, atEnd, hs]

theorem search_empty_end (nl : α) (s : List α) :
    preOr s (search (match0 (.seq (sepRe ([] : List (List α)) false) (.look (atEnd nl)))) s) = chomp nl s := by
  have : ∃ w, search (match0 (.seq (sepRe ([] : List (List α)) false) (.look (atEnd nl)))) s =
      some (chomp nl s, w) := by
    induction s with
    | nil => simp [search, match0_empty_end, chomp]
    | cons c s ih =>
      obtain ⟨w, hw⟩ := ih
      rw [search, match0_empty_end]
      by_cases h : c :: s = [] ∨ c :: s = [nl]
      · rw [if_pos h]
        rcases h with h | h
        · cases h
        · rw [h]; simp [chomp]
      · rw [if_neg h]
        simp only [hw, Option.map_some]
        refine ⟨w, ?_⟩
        cases s with
        | nil =>
          have : c ≠ nl := by intro hc; subst hc; simp at h
          simp [chomp, this]
        | cons d s =>
          simp only [chomp, List.getLast?_cons_cons]
          split <;> simp
  obtain ⟨w, hw⟩ := this
  rw [hw]; rfl

theorem stripCore_empty (nl : α) (s : List α) (left right : Bool) :
    stripCore nl s [] left right = if right then chomp nl s else s := by
  have : (if left then restOr s (match0 (sepRe ([] : List (List α)) false) s) else s) = s := by
    cases left
    · rfl
    · rw [match0_empty]; rfl
  unfold stripCore
  dsimp only
  rw [this, search_empty_end]

theorem splitEmpty_keep (s : List α) :
    splitEmpty true 0 s = (chars s).intersperse [] := by
  have : ∀ s : List α, splitEmptyFrom true none s = (s.map (fun c => [c]) ++ [[]]).intersperse [] := by
    intro s
    induction s with
    | nil => rfl
    | cons c s ih =>
      cases s with
      | nil => simp [splitEmptyFrom]
      | cons d s => simp [splitEmptyFrom] at ih ⊢; exact ih
  cases s with
  | nil => simp [splitEmpty, this, chars]
  | cons c s => simp [splitEmpty, this, chars]

theorem chars_reverse (s : List α) : ((chars s.reverse).map List.reverse).reverse = chars s := by
  simp [chars, List.map_reverse, Function.comp_def]

theorem intersperse_append (l : List (List α)) (x y : List α) :
    (l ++ [x, y]).intersperse [] = (l ++ [x]).intersperse [] ++ [[], y] := by
  induction l with
  | nil => rfl
  | cons a l ih =>
    cases l with
    | nil => rfl
    | cons b l =>
      simp only [List.cons_append, List.intersperse_cons₂] at ih ⊢
      rw [ih]

theorem intersperse_reverse (l : List (List α)) :
    (l.intersperse []).reverse = l.reverse.intersperse [] := by
  induction l with
  | nil => rfl
  | cons a l ih =>
    cases l with
    | nil => rfl
    | cons b l =>
      rw [List.intersperse_cons₂, List.reverse_cons, List.reverse_cons, ih, List.reverse_cons, List.reverse_cons,
        List.append_assoc, List.reverse_cons, List.append_assoc]
      exact (intersperse_append _ b a).symm

theorem intersperse_map_reverse (l : List (List α)) :
    (l.intersperse []).map List.reverse = (l.map List.reverse).intersperse [] := by
  induction l with
  | nil => rfl
  | cons a l ih =>
    cases l with
    | nil => rfl
    | cons b l =>
      rw [List.intersperse_cons₂, List.map_cons, List.map_cons, ih]
      rfl

theorem intersperse_length (a : List α) : ∀ l : List (List α),
    ((a :: l).intersperse ([] : List α)).length = 2 * l.length + 1
  | [] => rfl
  | b :: l => by
    rw [List.intersperse_cons₂, List.length_cons, List.length_cons, intersperse_length b l, List.length_cons]
    omega

theorem pairUp_intersperse (keep : Keep) : ∀ (a : List α) (l : List (List α)),
    pairUp keep ((a :: l).intersperse [] ++ [[]]) =
      (a :: l).map (fun p => if keep = .asPairs then .pair p [] else .str p)
  | a, [] => by simp [pairUp]
  | a, b :: l => by
    rw [List.intersperse_cons₂, List.cons_append, List.cons_append, pairUp, pairUp_intersperse keep b l]
    simp

theorem emit_intersperse (keep : Keep) (hk : keep ≠ .no) (l : List (List α)) (hl : l ≠ []) :
    emit keep (l.intersperse []) = shown keep l := by
  obtain ⟨a, l, rfl⟩ := List.exists_cons_of_ne_nil hl
  have hlen := intersperse_length a l
  cases keep with
  | no => exact absurd rfl hk
  | alternating => rfl
  | yes =>
    unfold emit; dsimp only
    rw [if_pos (by omega), pairUp_intersperse]
    simp [shown]
  | asPairs =>
    unfold emit; dsimp only
    rw [if_pos (by omega), pairUp_intersperse]
    simp [shown]

theorem usedSeps_iter {K : Kind α} (hK : Proper K) {l : List Elem} {seps : List (List α)} (h : Fits K l seps) :
    usedSeps K (.iter l) = .ok [] := by
  obtain ⟨f1, f2, f3, f4, f5, f6, f7⟩ := proper_facts hK
  simp [usedSeps, f6, checkElems_ok.2 h, Except.map]

/-- The generator without separators and without maxsplit. -/
theorem msGenEmpty_all (s : List α) (keep : Keep) (reverse : Bool) (strip : Strip) (hs : strip ≠ .progressive) :
    msGenEmpty s keep (some (-1)) reverse strip (decide (keep ≠ .no)) = shown keep (chars s) := by
  have hrev : ∀ b : Bool, (if b then ((splitEmpty (decide (keep ≠ .no)) 0 (if b then s.reverse else s)).map
      List.reverse).reverse else splitEmpty (decide (keep ≠ .no)) 0 (if b then s.reverse else s)) =
      if keep ≠ .no then (chars s).intersperse [] else chars s := by
    intro b
    by_cases hk : keep = .no
    · cases b
      · simp [hk, splitEmpty_all, chars]
      · have := chars_reverse s
        simp only [hk, ne_eq, not_true_eq_false, decide_false, if_true, splitEmpty_all, if_false]
        exact this
    · cases b
      · simp [hk, splitEmpty_keep]
      · have := chars_reverse s
        simp only [hk, ne_eq, not_false_eq_true, decide_true, if_true, splitEmpty_keep]
        rw [intersperse_map_reverse, intersperse_reverse, this]
  unfold msGenEmpty
  rw [if_neg (by simp)]
  dsimp only [Option.getD]
  rw [if_neg hs, if_pos rfl, hrev]
  by_cases hk : keep = .no
  · subst hk; simp [emit, shown]
  · rw [if_pos hk, emit_intersperse keep hk _ (by simp [chars])]

/-- C102 is false of the code for iterators, for all options: whatever the separators are, and whatever keep, reverse,
separate and strip say, the string is cut up into its characters, with empty separators between them. If separators are
to be stripped (on the right), what is stripped is one newline; and if nothing is left then, it is not split. -/
theorem C102_iterator_all_options {K : Kind α} (hK : Proper K) {l : List Elem} {seps : List (List α)}
    (h : Fits K l seps) (s : List α) (keep : Keep) (reverse separate : Bool) (strip : Strip) :
    multisplitCall K s (.iter l) keep (some (-1)) reverse separate strip =
      .ok (let t := if rightToo strip then chomp K.nl s else s
           if strip ≠ .no ∧ t = [] then (if keep = .asPairs then [.pair [] []] else [.str []])
           else shown keep (chars t)) := by
  unfold multisplitCall
  rw [usedSeps_iter hK h]
  dsimp only
  rw [stripCore_empty]
  have ht : (if strip = .no then s else if (stripSides strip (some (-1)) reverse).2 then chomp K.nl s else s) =
      (if rightToo strip then chomp K.nl s else s) := by
    cases strip <;> simp [stripSides, rightToo]
  rw [ht]
  generalize (if rightToo strip then chomp K.nl s else s) = t
  by_cases hc : strip ≠ .no ∧ t = []
  · rw [if_pos hc, if_pos hc, hc.2]
    simp [msGenEmpty]
  · rw [if_neg hc, if_neg hc]
    have : (decide (keep ≠ .no) || (decide (strip = .progressive) && decide ((some (-1) : Option Int) ≠ some (-1)))) =
        decide (keep ≠ .no) := by simp
    rw [this, msGenEmpty_all]
    split
    · simp
    · rename_i hx
      intro hp
      exact hx ⟨hp, rfl⟩

theorem splitEmptyFrom_keep_lim : ∀ (n : Nat) (s : List α),
    splitEmptyFrom true (some n) s = ((s.take n).map (fun c => [c]) ++ [s.drop n]).intersperse []
  | n, [] => by simp [splitEmptyFrom]
  | 0, c :: s => by simp [splitEmptyFrom]
  | n + 1, c :: s => by
    simp only [splitEmptyFrom, splitEmptyFrom_keep_lim n s, Option.map_some, Nat.add_sub_cancel, List.take_succ_cons,
      List.drop_succ_cons, List.map_cons, List.cons_append]
    cases h : (s.take n).map (fun c => [c]) ++ [s.drop n] with
    | nil => simp at h
    | cons a l => simp

theorem evens_intersperse : ∀ (a : List α) (l : List (List α)), evens ((a :: l).intersperse []) = a :: l
  | a, [] => rfl
  | a, b :: l => by
    rw [List.intersperse_cons₂, evens, evens_intersperse b l]

theorem lastNonEmpty_snoc (x : List α) (hx : x ≠ []) : ∀ (l : List (List α)) (i : Nat), 0 < i + l.length →
    lastNonEmpty i ((l ++ [x]).intersperse []) = i + 2 * l.length
  | [], i, h => by simp [lastNonEmpty, hx]
  | a :: l, i, h => by
    obtain ⟨b, m, hm⟩ : ∃ b m, l ++ [x] = b :: m := by
      cases l with
      | nil => exact ⟨x, [], rfl⟩
      | cons b l => exact ⟨b, l ++ [x], rfl⟩
    have ih := lastNonEmpty_snoc x hx l (i + 2) (by omega)
    rw [List.cons_append, hm, List.intersperse_cons₂, lastNonEmpty]
    rw [hm] at ih
    rw [ih, if_pos (by omega)]
    simp; omega

theorem lastNonEmpty_snoc2 (x : List α) (hx : x ≠ []) : ∀ (l : List (List α)) (i : Nat), 0 < i + l.length →
    lastNonEmpty i ((l ++ [x, []]).intersperse []) = i + 2 * l.length
  | [], i, h => by simp at h; simp [lastNonEmpty, hx]
  | a :: l, i, h => by
    obtain ⟨b, m, hm⟩ : ∃ b m, l ++ [x, []] = b :: m := by
      cases l with
      | nil => exact ⟨x, [[]], rfl⟩
      | cons b l => exact ⟨b, l ++ [x, []], rfl⟩
    have ih := lastNonEmpty_snoc2 x hx l (i + 2) (by omega)
    rw [List.cons_append, hm, List.intersperse_cons₂, lastNonEmpty]
    rw [hm] at ih
    rw [ih, if_pos (by omega)]
    simp; omega

/-- The same for strip=PROGRESSIVE with a maxsplit (not 0): nothing is stripped from the front, and the empty string after the
last character is dropped if maxsplit gets that far. -/
theorem C102_iterator_progressive {K : Kind α} (hK : Proper K) {l : List Elem} {seps : List (List α)}
    (h : Fits K l seps) (s : List α) (hs : s ≠ []) (separate : Bool) (n : Nat) :
    multisplitCall K s (.iter l) .no (some ((n + 1 : Nat) : Int)) false separate .progressive =
      .ok ((([] :: ((s.take n).map (fun c => [c]) ++ (if n < s.length then [s.drop n] else []))) :
        List (List α)).map .str) := by
  have h1 : ¬ (((n + 1 : Nat) : Int) = -1) := by omega
  have h2 : ¬ (((n + 1 : Nat) : Int) = 0) := by omega
  unfold multisplitCall
  rw [usedSeps_iter hK h]
  dsimp only
  rw [stripCore_empty]
  have h3 : (some ((n + 1 : Nat) : Int) : Option Int) ≠ some (-1) := by simpa using h1
  have h4 : (some ((n + 1 : Nat) : Int) : Option Int) ≠ some 0 := by simpa using h2
  have hss : (stripSides .progressive (some ((n + 1 : Nat) : Int)) false).2 = false := by
    unfold stripSides; dsimp only; rw [if_neg h3]
  rw [hss]
  simp only [reduceCtorEq, if_false, ne_eq, not_false_eq_true, true_and, hs, Bool.false_eq_true, h3, and_false,
    decide_true, Bool.and_self, Bool.or_true]
  unfold msGenEmpty
  rw [if_neg h4]
  simp only [Option.getD_some, h1, if_false, Bool.false_eq_true, if_true]
  have hsplit : splitEmpty true ((n + 1 : Nat) : Int) s =
      ([] :: ((s.take n).map (fun c => [c]) ++ [s.drop n])).intersperse [] := by
    unfold splitEmpty
    simp only [h2, if_false, if_true]
    rw [if_neg (by simp)]
    have : (((n + 1 : Nat) : Int).toNat) - 1 = n := by omega
    simp only [Option.map_some, this, splitEmptyFrom_keep_lim]
    cases hh : (s.take n).map (fun c => [c]) ++ [s.drop n] with
    | nil => simp at hh
    | cons a l => simp
  rw [hsplit]
  simp only [emit]
  congr 2
  unfold progressive
  dsimp only
  by_cases hn : n < s.length
  · have hd : s.drop n ≠ [] := by simp; omega
    have := lastNonEmpty_snoc (s.drop n) hd ([] :: (s.take n).map (fun c => [c])) 0 (by simp)
    rw [List.cons_append] at this
    rw [this, if_pos rfl, if_neg, evens_intersperse, if_pos hn]
    simp; omega
  · obtain ⟨t, c, rfl⟩ : ∃ t c, s = t ++ [c] := ⟨s.dropLast, s.getLast hs, (List.dropLast_concat_getLast hs).symm⟩
    have ht : (t ++ [c]).take n = t ++ [c] := List.take_of_length_le (by omega)
    have hd : (t ++ [c]).drop n = [] := List.drop_of_length_le (by omega)
    rw [ht, hd, if_neg hn]
    have := lastNonEmpty_snoc2 [c] (by simp) ([] :: t.map (fun c => [c])) 0 (by simp)
    have hx : ([] :: ((t ++ [c]).map (fun c => [c]) ++ [[]]) : List (List α)) =
        ([] :: t.map (fun c => [c])) ++ [[c], []] := by simp
    rw [hx, this, if_pos rfl, if_pos]
    · have h5 : ((([] :: t.map (fun c => [c])) ++ [[c], []] : List (List α)).intersperse []).take
          (0 + 2 * ([] :: t.map (fun c => [c]) : List (List α)).length + 1) =
          (([] :: t.map (fun c => [c])) ++ [[c]] : List (List α)).intersperse [] := by
        rw [intersperse_append, List.take_left']
        rw [List.cons_append, intersperse_length]
        simp
      rw [h5, List.cons_append, evens_intersperse]
      simp
    · simp only [List.length_cons, List.length_map, List.length_append, List.length_nil] at hn ⊢
      omega

/-- Both in examples: `multisplit("ab\n", iter("x"), strip=True, keep=True)`,
`multisplit("abc", iter("x"), strip=PROGRESSIVE, maxsplit=2)`, and with a maxsplit that reaches the end. -/
example :
    multisplitCall strKind "ab\n".toList (.iter [.str ['x']]) .yes (some (-1)) true false .yes =
      .ok [.str [], .str ['a'], .str ['b'], .str []] ∧
    multisplitCall strKind "abc".toList (.iter [.str ['x']]) .no (some 2) false false .progressive =
      .ok [.str [], .str ['a'], .str ['b', 'c']] ∧
    multisplitCall strKind "abc".toList (.iter [.str ['x']]) .no (some 7) false false .progressive =
      .ok [.str [], .str ['a'], .str ['b'], .str ['c']] := by
  refine ⟨?_, ?_, ?_⟩ <;> decide +kernel

end Big.MS
