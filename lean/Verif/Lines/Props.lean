import Verif.Lines.Model
import Verif.Multisplit.Props
import Verif.Multisplit.Strip
import Verif.Quoted.Main
/-!
# C49, C50: lines, and what every lines modifier preserves
-/
namespace Big.Lines
open Big.MS (Item CacheOK)
open Big.MS
open Big.MS.Spec

variable {α μ : Type} [DecidableEq α] {E : Env α}

/-! ### C49 -/

/-- The pair that `lines` yields for the `i`th line. -/
def linePair (E : Env α) (n : Int) (i : Nat) (p : List α × List α) : Pair α μ :=
  ({ line := p.1 ++ p.2, lineNumber := n + i, columnNumber := E.column, leading := [], trailing := [],
     lineEnd := p.2, indent := 0, attrs := [] }, p.1)

theorem number_get : ∀ (l : List (List α × List α)) (n : Int) (i : Nat),
    (number (μ := μ) E n l)[i]? = l[i]?.map (linePair E n i)
  | [], _, _ => by simp [number]
  | (line, e) :: rest, n, 0 => by
    simp only [number, List.getElem?_cons_zero, Option.map_some, linePair]
    cases e <;> simp
  | (line, e) :: rest, n, i + 1 => by
    simp only [number, List.getElem?_cons_succ]
    rw [number_get rest (n + 1) i]
    cases rest[i]? with
    | none => rfl
    | some p =>
      simp only [Option.map_some, linePair]
      rw [show n + 1 + (i : Int) = n + ((i + 1 : Nat) : Int) by omega]

theorem number_length (l : List (List α × List α)) : ∀ n : Int, (number (μ := μ) E n l).length = l.length := by
  induction l with
  | nil => intro n; rfl
  | cons p l ih => intro n; obtain ⟨a, b⟩ := p; simp [number, ih]

theorem number_lines (l : List (List α × List α)) : ∀ n : Int,
    (number (μ := μ) E n l).map Prod.snd = l.map Prod.fst ∧
    (number (μ := μ) E n l).map (fun p => p.1.lineEnd) = l.map Prod.snd ∧
    (number (μ := μ) E n l).map (fun p => p.1.line) = l.map (fun p => p.1 ++ p.2) := by
  induction l with
  | nil => intro n; simp [number]
  | cons p l ih =>
    intro n; obtain ⟨a, b⟩ := p
    simp only [number, List.map_cons, ih, true_and]
    cases b <;> simp

omit [DecidableEq α] in
theorem pairs_fst : ∀ l : List (List α), (pairs l).map Prod.fst = texts l
  | [] => rfl
  | [_] => rfl
  | _ :: _ :: l => by simp [pairs, texts, pairs_fst l]

omit [DecidableEq α] in
theorem pairs_snd : ∀ l : List (List α), l.length % 2 = 1 → (pairs l).map Prod.snd = Spec.seps l ++ [[]]
  | [], h => by simp at h
  | [_], _ => rfl
  | _ :: _ :: l, h => by
    simp [pairs, Spec.seps, pairs_snd l (by simp only [List.length_cons] at h; omega)]

omit [DecidableEq α] in
theorem pairs_join : ∀ l : List (List α), ((pairs l).map (fun p => p.1 ++ p.2)).flatten = l.flatten
  | [] => rfl
  | [_] => by simp [pairs]
  | _ :: _ :: l => by simp [pairs, pairs_join l]

/-- C49: with `L` the text split at every separator (text, separator, ..., text), `lines` yields one line
for each text, the `i`th with number `n + i`, with the separator after it as `end` (none after the last);
`info.line` is the line and the end, nothing is stripped yet; there is one more line than separators; and
all `info.line` joined are the text. -/
theorem C49_lines_of_text (hc : CacheOK E.sq.cache) (separators : Option (List (List α)))
    (hne : usedSeparators E separators ≠ []) (he : [] ∉ usedSeparators E separators)
    (n : Int) (s : List α) :
    ∃ (L : List (List α)) (out : List (Pair α μ)),
      Splits (usedSeparators E separators) true false s L ∧
      lines E n (.text s separators) = (out, none) ∧
      out.map (fun p => p.2) = texts L ∧
      out.map (fun p => p.1.lineEnd) = Spec.seps L ++ [[]] ∧
      out.length = (Spec.seps L).length + 1 ∧
      (out.map (fun p => p.1.line)).flatten = s ∧
      ∀ (i : Nat) p, out[i]? = some p →
        p.1.lineNumber = n + i ∧ p.1.line = p.2 ++ p.1.lineEnd ∧ p.1.columnNumber = E.column ∧
        p.1.leading = [] ∧ p.1.trailing = [] ∧ p.1.indent = 0 ∧ p.1.attrs = [] := by
  obtain ⟨L, hL, -, -, -, hp⟩ := Big.MS.C38_multisplit_splits_exactly (nl := E.sq.nl) hc hne he s false true
    (some (-1)) (.inr rfl)
  have hodd := Big.MS.splits_odd hL
  refine ⟨L, number E n (pairs L), hL, ?_, ?_, ?_, ?_, ?_, ?_⟩
  · simp only [lines]
    rw [hp]
    simp only [List.map_map]
    congr 2
    rw [show (pairOf ∘ fun x : List α × List α => Item.pair x.1 x.2) = id from rfl, List.map_id]
  · rw [(number_lines _ n).1, pairs_fst]
  · rw [(number_lines _ n).2.1, pairs_snd _ hodd]
  · have := congrArg List.length (pairs_snd L hodd)
    simp only [List.length_map, List.length_append, List.length_singleton] at this
    rw [number_length, this]
  · rw [(number_lines _ n).2.2, pairs_join, hL.1]
  · intro i p hi
    rw [number_get] at hi
    cases hx : (pairs L)[i]? with
    | none => rw [hx] at hi; simp at hi
    | some q =>
      rw [hx] at hi
      simp only [Option.map_some, Option.some.injEq] at hi
      subst hi
      simp [linePair]

/-- C49: an iterable of lines, or of pairs of line and linebreak, is numbered in the same way. -/
theorem C49_lines_of_iterable (n : Int) (l : List (List α × List α)) (l' : List (List α)) (i : Nat) :
    (lines (μ := μ) E n (.pairs l)).2 = none ∧
    ((lines (μ := μ) E n (.pairs l)).1)[i]? = l[i]?.map (fun p =>
      ({ line := p.1 ++ p.2, lineNumber := n + i, columnNumber := E.column, leading := [], trailing := [],
         lineEnd := p.2, indent := 0, attrs := [] }, p.1)) ∧
    (lines (μ := μ) E n (.strings l')).2 = none ∧
    ((lines (μ := μ) E n (.strings l')).1)[i]? = l'[i]?.map (fun s =>
      ({ line := s, lineNumber := n + i, columnNumber := E.column, leading := [], trailing := [],
         lineEnd := [], indent := 0, attrs := [] }, s)) := by
  refine ⟨rfl, number_get _ _ _, rfl, ?_⟩
  simp only [lines]
  rw [number_get, List.getElem?_map, Option.map_map]
  congr 1
  funext s
  simp [linePair]

/-! ### C50 -/

/-- leading + line + trailing + end is the original line. -/
def Whole (p : Pair α μ) : Prop := p.1.leading ++ p.2 ++ p.1.trailing ++ p.1.lineEnd = p.1.line

/-- The column of a line: if the original line has no tabs, it is the first column and the length of
what was clipped before the line. Unless the line is empty, it is the first column and the lengths of the
pieces clipped before the line, with the tabs of each expanded. -/
def Column (E : Env α) (p : Pair α μ) : Prop :=
  (E.tab ∉ p.1.line → p.1.columnNumber = E.column + p.1.leading.length) ∧
  (p.2 ≠ [] → ∃ as : List (List α), p.1.leading = as.flatten ∧
    p.1.columnNumber = E.column + (as.map (fun a => ((detab E a).length : Int))).sum)

/-- What a chain of modifiers keeps of each line. -/
structure Same (E : Env α) (p q : Pair α μ) : Prop where
  line : q.1.line = p.1.line
  number : q.1.lineNumber = p.1.lineNumber
  lineEnd : q.1.lineEnd = p.1.lineEnd
  whole : Whole q
  empty : p.2 = [] → q.2 = []
  column : Column E p → Column E q

theorem expandLoop_noTab : ∀ (s : List α) (j : Nat), E.tab ∉ s → expandLoop E j s = s
  | [], _, _ => rfl
  | c :: s, j, h => by
    unfold expandLoop
    rw [if_neg (fun hc => h (by simp [hc])), expandLoop_noTab s _ (fun hc => h (by simp [hc]))]

theorem detab_noTab {s : List α} (h : E.tab ∉ s) : detab E s = s := expandLoop_noTab s 0 h

theorem Same.refl {p : Pair α μ} (h : Whole p) : Same E p p := ⟨rfl, rfl, rfl, h, id, id⟩

theorem leading_mem {p : Pair α μ} (h : Whole p) {c : α} (hc : c ∈ p.1.leading) : c ∈ p.1.line := by
  rw [← h]; simp [hc]

theorem whole_clipAll {info : Info α μ} {q : Info α μ × List α} {line : List α} (hw : Whole (info, line))
    (h : clipAll info = .ok q) : Same E (info, line) q ∧ q.2 = [] := by
  unfold clipAll at h
  have hs : info.lineEnd.isSuffixOf info.line = true := by
    rw [← hw]
    simp only [List.isSuffixOf_iff_suffix]
    exact List.suffix_append _ _
  rw [if_neg (by simp [hs])] at h
  simp only [Except.ok.injEq] at h
  subst h
  refine ⟨⟨rfl, rfl, rfl, ?_, fun _ => rfl, ?_⟩, rfl⟩
  rotate_left
  · intro hcol
    refine ⟨fun ht => ?_, fun h => absurd rfl h⟩
    have := hcol.1 ht
    dsimp only at this ⊢
    rw [this]; simp
  unfold Whole at hw ⊢
  simp only [List.nil_append]
  cases he : info.lineEnd with
  | nil => simp
  | cons c e =>
    simp only [List.isEmpty_cons, Bool.false_eq_true, if_false]
    rw [← he]
    unfold sliceTo
    rw [if_neg (by rw [he]; simp only [List.length_cons]; omega)]
    simp only [Int.neg_neg, Int.toNat_natCast]
    rw [← hw]
    have : ∀ x y : List α, List.take ((x ++ y).length - y.length) (x ++ y) ++ y = x ++ y := by
      intro x y; simp
    exact this _ _

theorem clipAll_total {info : Info α μ} {line : List α} (hw : Whole (info, line)) :
    ∃ q, clipAll info = .ok q := by
  unfold clipAll
  have hs : info.lineEnd.isSuffixOf info.line = true := by
    rw [← hw]
    simp only [List.isSuffixOf_iff_suffix]
    exact List.suffix_append _ _
  rw [if_neg (by simp [hs])]
  exact ⟨_, rfl⟩

theorem clipLeading_spec {info : Info α μ} {a b : List α} (hw : Whole (info, a ++ b)) (s : Option (List α))
    (hs : ∀ t, s = some t → t = a) :
    ∃ q, clipLeading E info (a ++ b) a.length s = .ok q ∧ Same E (info, a ++ b) q ∧ q.2 = b := by
  unfold clipLeading
  have h1 : sliceFrom (a ++ b) a.length = b := by unfold sliceFrom; rw [if_pos (by omega)]; simp
  have h2 : sliceTo (a ++ b) a.length = a := by unfold sliceTo; rw [if_pos (by omega)]; simp
  dsimp only
  rw [h1, h2]
  by_cases hb : b.isEmpty = true
  · rw [if_pos hb]
    obtain ⟨q, hq⟩ := clipAll_total hw
    have := whole_clipAll (E := E) hw hq
    refine ⟨q, hq, this.1, ?_⟩
    rw [this.2]; simpa using hb.symm
  · rw [if_neg hb]
    have : s.getD a = a := by cases s with
      | none => rfl
      | some t => exact hs t rfl
    refine ⟨_, rfl, ⟨rfl, rfl, rfl, ?_, fun h => (List.append_eq_nil_iff.1 h).2, ?_⟩, rfl⟩
    rotate_left
    · intro hcol
      rw [this]
      refine ⟨fun ht => ?_, fun _ => ?_⟩
      · have h1 := hcol.1 ht
        have h2 : E.tab ∉ a := by
          intro h; apply ht; rw [← hw]; simp [h]
        dsimp only at h1 ⊢
        rw [h1, detab_noTab h2, List.length_append]; omega
      · obtain ⟨as, h1, h2⟩ := hcol.2 (by
          intro h; apply hb; simp [(List.append_eq_nil_iff.1 h).2])
        refine ⟨as ++ [a], ?_, ?_⟩
        · dsimp only at h1 ⊢; rw [h1]; simp
        · dsimp only at h2 ⊢; rw [h2]; simp; omega
    unfold Whole at hw ⊢
    dsimp only at hw ⊢
    rw [this, ← hw]
    simp

theorem clipTrailing_spec {info : Info α μ} {a b : List α} (hw : Whole (info, a ++ b)) (s : List α)
    (hs : s = b) (hb : b = [] → a = []) :
    ∃ q, clipTrailing info (a ++ b) s.length (some s) = .ok q ∧ Same E (info, a ++ b) q ∧ q.2 = a := by
  subst hs
  unfold clipTrailing
  have h1 : sliceTo (a ++ s) (-(s.length : Int)) = a := by
    unfold sliceTo
    by_cases hs0 : s = []
    · rw [hs0, hb hs0]; simp
    · have := List.length_pos_iff.2 hs0
      rw [if_neg (by omega)]; simp
  dsimp only
  rw [h1]
  by_cases ha : a.isEmpty = true
  · rw [if_pos ha]
    obtain ⟨q, hq⟩ := clipAll_total hw
    have := whole_clipAll (E := E) hw hq
    refine ⟨q, hq, this.1, ?_⟩
    rw [this.2]; simpa using ha.symm
  · rw [if_neg ha]
    refine ⟨_, rfl, ⟨rfl, rfl, rfl, ?_, fun h => (List.append_eq_nil_iff.1 h).1, ?_⟩, rfl⟩
    rotate_left
    · intro hcol
      refine ⟨hcol.1, fun _ => hcol.2 ?_⟩
      intro h; apply ha; simp [(List.append_eq_nil_iff.1 h).1]
    unfold Whole at hw ⊢
    dsimp only at hw ⊢
    rw [← hw]
    simp

theorem clipTrailing_neg {info : Info α μ} {a b : List α} (hw : Whole (info, a ++ b)) (hb : b ≠ []) :
    ∃ q, clipTrailing info (a ++ b) (-(a.length : Int)) none = .ok q ∧ Same E (info, a ++ b) q ∧ q.2 = a := by
  unfold clipTrailing
  have h1 : sliceTo (a ++ b) (-(-(a.length : Int))) = a := by
    unfold sliceTo; rw [if_pos (by omega)]; simp
  have h2 : sliceFrom (a ++ b) (-(-(a.length : Int))) = b := by
    unfold sliceFrom; rw [if_pos (by omega)]; simp
  dsimp only
  rw [h1, h2]
  by_cases ha : a.isEmpty = true
  · rw [if_pos ha]
    obtain ⟨q, hq⟩ := clipAll_total hw
    have := whole_clipAll (E := E) hw hq
    refine ⟨q, hq, this.1, ?_⟩
    rw [this.2]; simpa using ha.symm
  · rw [if_neg ha]
    refine ⟨_, rfl, ⟨rfl, rfl, rfl, ?_, fun h => (List.append_eq_nil_iff.1 h).1, ?_⟩, rfl⟩
    rotate_left
    · intro hcol
      refine ⟨hcol.1, fun _ => hcol.2 ?_⟩
      intro h; apply ha; simp [(List.append_eq_nil_iff.1 h).1]
    unfold Whole at hw ⊢
    dsimp only at hw ⊢
    rw [← hw]
    simp

theorem Same.trans {p q r : Pair α μ} (h : Same E p q) (h' : Same E q r) : Same E p r :=
  ⟨h'.line.trans h.line, h'.number.trans h.number, h'.lineEnd.trans h.lineEnd, h'.whole,
    fun x => h'.empty (h.empty x), fun x => h'.column (h.column x)⟩

theorem clipBoth_spec {info : Info α μ} {a b c : List α} (hw : Whole (info, a ++ (b ++ c)))
    (hb : b = [] → a = []) :
    ∃ q, clipBoth E (info, a ++ (b ++ c)) a c = .ok (some q) ∧ Same E (info, a ++ (b ++ c)) q ∧ q.2 = b := by
  have h1 : ∃ q, (if a.isEmpty then Except.ok (info, a ++ (b ++ c))
      else clipLeading E info (a ++ (b ++ c)) a.length (some a)) = .ok q ∧
      Same E (info, a ++ (b ++ c)) q ∧ q.2 = b ++ c := by
    by_cases ha : a.isEmpty = true
    · rw [if_pos ha]
      refine ⟨_, rfl, .refl hw, ?_⟩
      simp at ha; simp [ha]
    · rw [if_neg ha]
      exact clipLeading_spec hw _ (by simp)
  obtain ⟨q, hq1, hq2, hq3⟩ := h1
  obtain ⟨qi, ql⟩ := q
  dsimp only at hq3
  subst hq3
  have h2 : ∃ r, (if c.isEmpty then Except.ok (qi, b ++ c)
      else clipTrailing qi (b ++ c) c.length (some c)) = .ok r ∧
      Same E (qi, b ++ c) r ∧ r.2 = b := by
    by_cases hc : c.isEmpty = true
    · rw [if_pos hc]
      refine ⟨_, rfl, .refl hq2.whole, ?_⟩
      simp at hc; simp [hc]
    · rw [if_neg hc]
      exact clipTrailing_spec hq2.whole _ rfl (by intro h; simp [h] at hc)
  obtain ⟨r, hr1, hr2, hr3⟩ := h2
  refine ⟨r, ?_, hq2.trans hr2, hr3⟩
  unfold clipBoth
  dsimp only
  rw [hq1]
  dsimp only
  rw [hr1]
  rfl

/-- A modifier of single lines that keeps lines whole and does not fail, except for illegal separators. -/
def Keeps (f : Pair α μ → Except Err (Option (Pair α μ))) : Prop :=
  ∀ p, Whole p → f p = .error .valueError ∨ ∃ o, f p = .ok o ∧ ∀ q, o = some q → Same E p q

theorem dropWhile_split {β : Type} (f : β → Bool) (l : List β) :
    l = l.take (l.length - (l.dropWhile f).length) ++ l.dropWhile f := by
  obtain ⟨t, ht⟩ : ∃ t, l = t ++ l.dropWhile f := ⟨l.takeWhile f, List.takeWhile_append_dropWhile.symm⟩
  have : l.take (l.length - (l.dropWhile f).length) = t := by
    generalize l.dropWhile f = d at ht
    subst ht
    simp
  rw [this, ← ht]

omit [DecidableEq α] in
theorem rstrip_split (s : List α) : ∃ t, s = rstrip E s ++ t ∧ (t = [] ↔ rstrip E s = s) := by
  unfold rstrip
  refine ⟨(s.reverse.takeWhile E.isSpace).reverse, ?_, ?_⟩
  · rw [← List.reverse_append, List.takeWhile_append_dropWhile, List.reverse_reverse]
  · have h : s = (s.reverse.dropWhile E.isSpace).reverse ++ (s.reverse.takeWhile E.isSpace).reverse := by
      rw [← List.reverse_append, List.takeWhile_append_dropWhile, List.reverse_reverse]
    constructor
    · intro ht; rw [ht, List.append_nil] at h; exact h.symm
    · intro ht
      rw [ht] at h
      have := congrArg List.length h
      simp only [List.length_append] at this
      exact List.length_eq_zero_iff.1 (by omega)

/-- lines_rstrip: the line is `line.rstrip()`. -/
theorem rstripOne_spec (p : Pair α μ) (hw : Whole p) :
    ∃ q, rstripOne E p = .ok (some q) ∧ Same E p q ∧ q.2 = rstrip E p.2 := by
  obtain ⟨info, line⟩ := p
  obtain ⟨t, ht, hte⟩ := rstrip_split (E := E) line
  unfold rstripOne
  dsimp only
  by_cases h : rstrip E line = line
  · rw [if_neg (by simpa using h)]
    exact ⟨_, rfl, .refl hw, h.symm⟩
  · rw [if_pos h]
    generalize rstrip E line = r at *
    subst ht
    obtain ⟨q, h1, h2, h3⟩ := clipTrailing_neg hw (fun h' => h (hte.1 h'))
    exact ⟨q, by rw [h1]; rfl, h2, h3⟩

/-- lines_strip: the line is `line.strip()`. -/
theorem stripOne_spec (p : Pair α μ) (hw : Whole p) :
    ∃ q, stripOne E p = .ok (some q) ∧ Same E p q ∧ q.2 = rstrip E (lstrip E p.2) := by
  obtain ⟨info, line⟩ := p
  unfold stripOne
  dsimp only
  by_cases h0 : line.isEmpty = true
  · rw [if_pos h0]
    refine ⟨_, rfl, .refl hw, ?_⟩
    simp at h0; subst h0; simp [lstrip, rstrip]
  rw [if_neg h0]
  by_cases h1 : (lstrip E line).isEmpty = true
  · rw [if_pos h1]
    obtain ⟨q, g1, g2, g3⟩ := clipBoth_spec (E := E) (info := info) (a := []) (b := []) (c := line)
      (by simpa using hw) (by simp)
    refine ⟨q, g1, g2, ?_⟩
    simp at h1; rw [g3, h1]; simp [rstrip]
  · rw [if_neg h1]
    have ha : line = line.take (line.length - (lstrip E line).length) ++ lstrip E line :=
      dropWhile_split _ _
    generalize hl : line.take (line.length - (lstrip E line).length) = lead at ha ⊢
    obtain ⟨t, ht, hte⟩ := rstrip_split (E := E) (lstrip E line)
    have hr : rstrip E (lstrip E line) ≠ [] := by
      intro h
      obtain ⟨c, m, hm⟩ : ∃ c m, lstrip E line = c :: m := by
        cases hc : lstrip E line with
        | nil => simp [hc] at h1
        | cons c m => exact ⟨c, m, rfl⟩
      have hcs : E.isSpace c = false := by
        have h := List.head_dropWhile_not (l := line) E.isSpace (by unfold lstrip at hm; rw [hm]; simp)
        unfold lstrip at hm
        simp only [hm, List.head_cons] at h
        exact h
      unfold rstrip at h
      rw [hm, List.reverse_eq_nil_iff] at h
      have : ∀ x ∈ (c :: m).reverse, E.isSpace x = true := by
        have h := @List.takeWhile_append_dropWhile _ E.isSpace (c :: m).reverse
        rw [‹List.dropWhile _ _ = []›, List.append_nil] at h
        intro x hx
        rw [← h] at hx
        exact List.all_eq_true.1 List.all_takeWhile x hx
      have := this c (by simp)
      rw [hcs] at this; cases this
    have hd : (lstrip E line).drop (rstrip E (lstrip E line)).length = t := by
      generalize rstrip E (lstrip E line) = r at *
      rw [ht]; simp
    rw [hd]
    generalize rstrip E (lstrip E line) = r at *
    rw [ht] at ha
    clear hl hd h0
    subst ha
    obtain ⟨q, g1, g2, g3⟩ := clipBoth_spec (E := E) (info := info) hw (fun h => absurd h hr)
    exact ⟨q, g1, g2, g3⟩

/-- lines_rstrip with separators: the line is `multistrip(line, separators, left=False)`. -/
theorem rstripSepsOne_spec (seps : List (List α)) (p : Pair α μ) (hw : Whole p) :
    (rstripSepsOne E seps p = .error .valueError ∧
      multistrip E.sq.nl p.2 seps false true = .error .valueError) ∨
    ∃ q, rstripSepsOne E seps p = .ok (some q) ∧ Same E p q ∧
      multistrip E.sq.nl p.2 seps false true = .ok q.2 := by
  obtain ⟨info, line⟩ := p
  unfold rstripSepsOne
  dsimp only
  by_cases he : seps = [] ∨ [] ∈ seps
  · have := (C41_errors (nl := E.sq.nl) (seps := seps) line false true).1.2 he
    rw [this]; exact .inl ⟨rfl, rfl⟩
  · have h1 : seps ≠ [] := fun h => he (.inl h)
    have h2 : [] ∉ seps := fun h => he (.inr h)
    obtain ⟨t, l, r, e1, e2, e3, e4⟩ := C41_multistrip_general (nl := E.sq.nl) h1 h2 line false true
    have hl : l = [] := by simpa using e3
    subst hl
    simp only [List.nil_append] at e2
    right
    rw [e1]
    dsimp only
    by_cases h : t = line
    · rw [if_neg (by simpa using h)]
      exact ⟨_, rfl, by rw [h]; exact .refl hw, rfl⟩
    · rw [if_pos h]
      subst e2
      obtain ⟨q, g1, g2, g3⟩ := clipTrailing_neg hw (fun h' => h (by simp [h']))
      refine ⟨(q.1, t), by rw [g1]; rfl, ?_, rfl⟩
      obtain ⟨qi, ql⟩ := q
      dsimp only at g3; subst g3; exact g2

theorem partition_spec (t : List α) (ht : t ≠ []) : ∀ s : List α, t <:+: s →
    s = (partition t s).1 ++ (t ++ (partition t s).2)
  | [], h => by
    obtain ⟨a, b, h⟩ := h
    simp at h; exact absurd h.2.1 ht
  | c :: s, h => by
    unfold partition
    by_cases hp : t.isPrefixOf (c :: s) = true
    · rw [if_pos hp]
      obtain ⟨r, hr⟩ := List.isPrefixOf_iff_prefix.1 hp
      rw [← hr]; simp
    · rw [if_neg hp]
      have hs : t <:+: s := by
        rcases (List.infix_cons_iff.1 h) with h | h
        · exact absurd (List.isPrefixOf_iff_prefix.2 h) hp
        · exact h
      have := partition_spec t ht s hs
      dsimp only
      rw [List.cons_append, ← this]

/-- lines_strip with separators: the line is `multistrip(line, separators)`. -/
theorem stripSepsOne_spec (seps : List (List α)) (p : Pair α μ) (hw : Whole p) :
    (stripSepsOne E seps p = .error .valueError ∧
      multistrip E.sq.nl p.2 seps true true = .error .valueError) ∨
    ∃ q, stripSepsOne E seps p = .ok (some q) ∧ Same E p q ∧
      (p.2 = [] ∧ q.2 = [] ∨ multistrip E.sq.nl p.2 seps true true = .ok q.2) := by
  obtain ⟨info, line⟩ := p
  unfold stripSepsOne
  dsimp only
  by_cases h0 : line.isEmpty = true
  · rw [if_pos h0]
    simp at h0
    exact .inr ⟨_, rfl, .refl hw, .inl ⟨h0, h0⟩⟩
  rw [if_neg h0]
  by_cases he : seps = [] ∨ [] ∈ seps
  · have := (C41_errors (nl := E.sq.nl) (seps := seps) line true true).1.2 he
    rw [this]; exact .inl ⟨rfl, rfl⟩
  · have h1 : seps ≠ [] := fun h => he (.inl h)
    have h2 : [] ∉ seps := fun h => he (.inr h)
    obtain ⟨t, l, r, e1, e2, e3, e4⟩ := C41_multistrip_general (nl := E.sq.nl) h1 h2 line true true
    right
    rw [e1]
    dsimp only
    by_cases h : t.isEmpty = true
    · rw [if_pos h]
      simp at h
      obtain ⟨q, g1, g2, g3⟩ := clipBoth_spec (E := E) (info := info) (a := []) (b := []) (c := line)
        (by simpa using hw) (by simp)
      exact ⟨q, g1, g2, .inr (by rw [g3, h])⟩
    · rw [if_neg h]
      have ht : t ≠ [] := by simpa using h
      have hp := partition_spec t ht line ⟨l, r, by rw [e2]; simp⟩
      generalize partition t line = pr at hp ⊢
      subst hp
      obtain ⟨q, g1, g2, g3⟩ := clipBoth_spec (E := E) (info := info) hw (fun h => absurd h ht)
      exact ⟨q, g1, g2, .inr (by rw [g3])⟩

end Big.Lines
