import Verif.Lines.ClipModel
import Verif.Lines.Props
/-! # C81: LineInfo, for lines modifiers of one's own -/
namespace Big.Lines
variable {α μ : Type} [DecidableEq α] {E : Env α}

/-! ### Specification -/

/-- `op` cuts `line` into what is clipped from the front, what is left, and what is clipped from the end: the
string given, or as many characters as the number says. -/
inductive Cuts : ClipOp α → List α → List α → List α → List α → Prop
  | leadingStr (a b : List α) : Cuts (.leading (.string a)) (a ++ b) a b []
  | leadingInt (a b : List α) : Cuts (.leading (.number a.length)) (a ++ b) a b []
  | trailingStr (a b : List α) : Cuts (.trailing (.string b)) (a ++ b) [] a b
  | trailingInt (a b : List α) : Cuts (.trailing (.number b.length)) (a ++ b) [] a b

/-- The arguments are right: the line starts or ends with the string, or has at least that many characters. -/
def CanClip (op : ClipOp α) (line : List α) : Prop := ∃ f l b, Cuts op line f l b

/-- `op` is a call of clip_trailing that clips nothing off a line that is not empty. -/
def ClipsNothingFromEnd (op : ClipOp α) (line : List α) : Prop :=
  line ≠ [] ∧ (op = .trailing (.string []) ∨ op = .trailing (.number 0))

/-- Calls one after the other, each with the right arguments; `front` and `back` is all that was clipped so far. -/
inductive CutsAll : List (ClipOp α) → List α → List α → List α → List α → Prop
  | nil (l : List α) : CutsAll [] l [] l []
  | cons {op : ClipOp α} {ops : List (ClipOp α)} {line f l b f' l' b' : List α} (h : Cuts op line f l b)
      (hn : ¬ ClipsNothingFromEnd op line) (hs : CutsAll ops l f' l' b') :
      CutsAll (op :: ops) line (f ++ f') l' (b' ++ b)

/-- What a modifier of one's own may expect: `q` is `p` with `front` and `back` clipped off the line, which leaves
`rest`. Nothing is lost; if something is left of the line, then what was clipped is in leading and trailing; if not, all
of it is in trailing. -/
structure Clipped (p q : Pair α μ) (front rest back : List α) : Prop where
  line : q.2 = rest
  whole : q.1.leading ++ q.2 ++ q.1.trailing ++ q.1.lineEnd = q.1.line
  leading : rest ≠ [] → q.1.leading = p.1.leading ++ front
  trailing : rest ≠ [] → q.1.trailing = back ++ p.1.trailing
  empty : p.2 ≠ [] → rest = [] → q.1.leading = [] ∧ q.1.trailing ++ q.1.lineEnd = q.1.line
  others : q.1.line = p.1.line ∧ q.1.lineNumber = p.1.lineNumber ∧ q.1.lineEnd = p.1.lineEnd ∧
    q.1.indent = p.1.indent ∧ q.1.attrs = p.1.attrs

/-! ### Lemmas -/

theorem clipAll_eq {info : Info α μ} {line : List α} (hw : Whole (info, line)) :
    clipAll info = .ok ({ info with
      columnNumber := info.columnNumber - info.leading.length
      trailing := info.leading ++ line ++ info.trailing
      leading := [] }, []) := by
  have hl : info.line = (info.leading ++ line ++ info.trailing) ++ info.lineEnd := hw.symm
  unfold clipAll
  have hs : info.lineEnd.isSuffixOf info.line = true := by
    rw [hl, List.isSuffixOf_iff_suffix]; exact List.suffix_append _ _
  rw [if_neg (by simp [hs])]
  have : (if info.lineEnd.isEmpty then info.line else sliceTo info.line (-info.lineEnd.length)) =
      info.leading ++ line ++ info.trailing := by
    cases he : info.lineEnd with
    | nil => rw [he] at hl; simpa using hl
    | cons c e =>
      simp only [List.isEmpty_cons, Bool.false_eq_true, if_false]
      rw [← he, hl]
      unfold sliceTo
      have : 0 < info.lineEnd.length := by rw [he]; simp
      rw [if_neg (by omega), Int.neg_neg, Int.toNat_natCast, List.length_append, Nat.add_sub_cancel]
      exact List.take_left' rfl
  simp only [this]

theorem clipped_all {info : Info α μ} {line f b : List α} (hw : Whole (info, line)) :
    ∃ q, clipAll info = .ok q ∧ Clipped (info, line) q f [] b := by
  refine ⟨_, clipAll_eq hw, ⟨rfl, ?_, fun h => absurd rfl h, fun h => absurd rfl h, fun _ _ => ⟨rfl, ?_⟩,
    rfl, rfl, rfl, rfl, rfl⟩⟩
  · have : info.line = _ := hw.symm
    simp [this]
  · have : info.line = _ := hw.symm
    simp [this]

theorem lead_clipped {info : Info α μ} {a b : List α} (hw : Whole (info, a ++ b)) (s : Option (List α))
    (hs : ∀ t, s = some t → t = a) :
    ∃ q, clipLeading E info (a ++ b) a.length s = .ok q ∧ Clipped (info, a ++ b) q a b [] ∧
      (b ≠ [] → q.1.columnNumber = info.columnNumber + (detab E a).length) := by
  have h1 : sliceFrom (a ++ b) a.length = b := by unfold sliceFrom; rw [if_pos (by omega)]; simp
  have h2 : sliceTo (a ++ b) a.length = a := by unfold sliceTo; rw [if_pos (by omega)]; simp
  unfold clipLeading
  dsimp only
  rw [h1, h2]
  cases hb : b with
  | nil =>
    subst hb
    obtain ⟨q, e, hq⟩ := clipped_all (f := a) (b := []) hw
    exact ⟨q, by simpa using e, hq, fun h => absurd rfl h⟩
  | cons c b' =>
    simp only [List.isEmpty_cons, Bool.false_eq_true, if_false]
    have : s.getD a = a := by cases s with
      | none => rfl
      | some t => exact hs t rfl
    rw [this]
    refine ⟨_, rfl, ⟨rfl, ?_, fun _ => rfl, fun _ => by simp, fun _ h => by simp at h, rfl, rfl, rfl, rfl, rfl⟩, fun _ => rfl⟩
    have : info.line = _ := hw.symm
    simp [this, hb]

theorem trail_clipped {info : Info α μ} {a b : List α} (hw : Whole (info, a ++ b)) (s : Option (List α))
    (hs : ∀ t, s = some t → t = b) (hb : b = [] → a = []) :
    ∃ q, clipTrailing info (a ++ b) b.length s = .ok q ∧ Clipped (info, a ++ b) q [] a b ∧
      (a ≠ [] → q.1.columnNumber = info.columnNumber) := by
  have h1 : sliceTo (a ++ b) (-(b.length : Int)) = a := by
    unfold sliceTo
    by_cases hs0 : b = []
    · rw [hs0, hb hs0]; simp
    · have := List.length_pos_iff.2 hs0
      rw [if_neg (by omega)]; simp
  unfold clipTrailing
  dsimp only
  rw [h1]
  cases ha : a with
  | nil =>
    subst ha
    obtain ⟨q, e, hq⟩ := clipped_all (f := []) (b := b) hw
    exact ⟨q, by simpa using e, hq, fun h => absurd rfl h⟩
  | cons c a' =>
    have hb0 : b ≠ [] := fun h => by have := hb h; rw [ha] at this; simp at this
    have hl := List.length_pos_iff.2 hb0
    have h2 : sliceFrom (a ++ b) (-(b.length : Int)) = b := by
      unfold sliceFrom
      rw [if_neg (by omega)]; simp
    rw [ha] at h2
    simp only [List.isEmpty_cons, Bool.false_eq_true, if_false, h2]
    have : s.getD b = b := by cases s with
      | none => rfl
      | some t => exact hs t rfl
    rw [this]
    refine ⟨_, rfl, ⟨rfl, ?_, fun _ => by simp, fun _ => rfl, fun _ h => by simp at h, rfl, rfl, rfl, rfl, rfl⟩, fun _ => rfl⟩
    have : info.line = _ := hw.symm
    simp [this, ha]

/-! ### C81 -/

/-- C81: a clip method called with the right arguments does as documented, except if clip_trailing is to clip nothing. -/
theorem C81_clip {p : Pair α μ} (hw : p.1.leading ++ p.2 ++ p.1.trailing ++ p.1.lineEnd = p.1.line)
    {op : ClipOp α} {f l b : List α} (hc : Cuts op p.2 f l b) (hn : ¬ ClipsNothingFromEnd op p.2) :
    ∃ q, op.apply E p = .ok q ∧ Clipped p q f l b ∧
      (l ≠ [] → q.1.columnNumber = p.1.columnNumber + (detab E f).length) := by
  obtain ⟨info, line⟩ := p
  dsimp only at *
  have nil : ∀ n : Int, n = n + (detab E ([] : List α)).length := by intro n; simp [detab, expandLoop]
  cases hc with
  | leadingStr a b => exact lead_clipped hw _ (by rintro t h; cases h; rfl)
  | leadingInt a b => exact lead_clipped hw _ (by rintro t h; cases h)
  | trailingStr a b =>
    rw [show ∀ n : Int, n + (detab E ([] : List α)).length = n from fun n => (nil n).symm]
    refine trail_clipped hw _ (by rintro t h; cases h; rfl) (fun h => ?_)
    subst h
    apply Classical.byContradiction
    intro ha
    exact hn ⟨by simpa using ha, .inl rfl⟩
  | trailingInt a b =>
    rw [show ∀ n : Int, n + (detab E ([] : List α)).length = n from fun n => (nil n).symm]
    refine trail_clipped hw _ (by rintro t h; cases h) (fun h => ?_)
    subst h
    apply Classical.byContradiction
    intro ha
    exact hn ⟨by simpa using ha, .inr rfl⟩

/-- C81: the same after any number of calls, of both methods, in any order: what a modifier of one's own does to a
line. -/
theorem C81_modifier : ∀ {ops : List (ClipOp α)} {p : Pair α μ} {f l b : List α},
    p.1.leading ++ p.2 ++ p.1.trailing ++ p.1.lineEnd = p.1.line → CutsAll ops p.2 f l b →
    ∃ q, ClipOp.applyAll E p ops = .ok q ∧ Clipped p q f l b
  | [], p, f, l, b, hw, h => by
    cases h
    exact ⟨p, rfl, rfl, hw, fun _ => by simp, fun _ => by simp, fun h1 h2 => absurd h2 h1, rfl, rfl, rfl, rfl, rfl⟩
  | op :: ops, p, _, l', _, hw, h => by
    cases h with
    | @cons _ _ _ f l b f' _ b' hc hn hs =>
      obtain ⟨q, e, hq, _⟩ := C81_clip (E := E) hw hc hn
      have hs' := hq.line ▸ hs
      obtain ⟨r, e', hr⟩ := C81_modifier hq.whole hs'
      have hl' : ∀ {ops : List (ClipOp α)} {l f' l' b' : List α}, CutsAll ops l f' l' b' → l = f' ++ l' ++ b' := by
        intro ops
        induction ops with
        | nil => intro l f' l' b' h; cases h; simp
        | cons op ops ih =>
          intro l f' l' b' h
          cases h with
          | cons hc _ hs =>
            have := ih hs
            cases hc <;> simp [ih hs]
      have hne : l' ≠ [] → l ≠ [] := by
        intro h h0
        have := hl' hs
        rw [h0] at this
        simp at this
        exact h this.2.1
      have o1 := hq.others
      have o2 := hr.others
      refine ⟨r, by simp only [ClipOp.applyAll, e]; exact e', hr.line, hr.whole, fun h => ?_, fun h => ?_, fun h1 h2 => ?_,
        o2.1.trans o1.1, o2.2.1.trans o1.2.1, o2.2.2.1.trans o1.2.2.1, o2.2.2.2.1.trans o1.2.2.2.1,
        o2.2.2.2.2.trans o1.2.2.2.2⟩
      · rw [hr.leading h, hq.leading (hne h), List.append_assoc]
      · rw [hr.trailing h, hq.trailing (hne h), List.append_assoc]
      · by_cases h0 : l = []
        · -- the line was clipped whole by the first call; later calls clip nothing from it
          have hq0 := hq.empty h1 h0
          have : r.1.leading ++ r.2 ++ r.1.trailing ++ r.1.lineEnd = r.1.line := hr.whole
          rw [hr.line, h2] at this
          have hlead : r.1.leading = [] := by
            have key : ∀ {ops : List (ClipOp α)} {q r : Pair α μ}, q.2 = [] → q.1.leading = [] →
                q.1.leading ++ q.2 ++ q.1.trailing ++ q.1.lineEnd = q.1.line →
                ClipOp.applyAll E q ops = .ok r → r.1.leading = [] := by
              intro ops
              induction ops with
              | nil => intro q r _ h2 _ h; cases h; exact h2
              | cons op ops ih =>
                intro q r h1 h2 h3 h
                obtain ⟨info, line⟩ := q
                dsimp only at h1 h2 h3
                subst h1
                have hall : op.apply E (info, ([] : List α)) = clipAll info := by
                  have ht : ∀ i, sliceTo ([] : List α) i = [] := by intro i; unfold sliceTo; split <;> simp
                  have hf : ∀ i, sliceFrom ([] : List α) i = [] := by intro i; unfold sliceFrom; split <;> simp
                  cases op with
                  | leading a => cases a <;> simp [ClipOp.apply, clipLeading, hf]
                  | trailing a => cases a <;> simp [ClipOp.apply, clipTrailing, ht]
                rw [ClipOp.applyAll, hall, clipAll_eq h3] at h
                refine ih rfl rfl ?_ h
                simp only [List.nil_append]
                rw [← h3]
            exact key (by rw [hq.line, h0]) hq0.1 hq.whole e'
          rw [hlead] at this
          exact ⟨hlead, by simpa using this⟩
        · exact hr.empty (by rw [hq.line]; exact h0) h2

/-- C111 fails there: whatever the line, if it is not empty, clipping nothing from its end, with '' or 0, clips all of it. -/
theorem C111_clip_nothing {p : Pair α μ} (hw : p.1.leading ++ p.2 ++ p.1.trailing ++ p.1.lineEnd = p.1.line)
    {op : ClipOp α} (hn : ClipsNothingFromEnd op p.2) :
    ∃ q, op.apply E p = .ok q ∧ q.2 = [] ∧ q.1.leading = [] ∧ q.1.trailing = p.1.leading ++ p.2 ++ p.1.trailing := by
  obtain ⟨info, line⟩ := p
  have ht : sliceTo line 0 = [] := by simp [sliceTo]
  refine ⟨({ info with
      columnNumber := info.columnNumber - info.leading.length
      trailing := info.leading ++ line ++ info.trailing
      leading := [] }, []), ?_, rfl, rfl, rfl⟩
  rcases hn.2 with rfl | rfl
  · simp only [ClipOp.apply, clipTrailing, List.length_nil, Int.natCast_zero, Int.neg_zero, ht, List.isEmpty_nil, if_true]
    exact clipAll_eq hw
  · simp only [ClipOp.apply, clipTrailing, Int.neg_zero, ht, List.isEmpty_nil, if_true]
    exact clipAll_eq hw

theorem apply_whole {p : Pair α μ} {op : ClipOp α} {f b : List α} (hc : Cuts op p.2 f [] b) : op.apply E p = clipAll p.1 := by
  obtain ⟨info, line⟩ := p
  have hf : ∀ a : List α, sliceFrom a a.length = [] := by intro a; unfold sliceFrom; rw [if_pos (by omega)]; simp
  have ht : ∀ a : List α, sliceTo a (-(a.length : Int)) = [] := by
    intro a
    unfold sliceTo
    split
    · cases a with
      | nil => simp
      | cons c a => rename_i h; simp at h; omega
    · simp
  generalize hl : ([] : List α) = l at hc
  cases hc with
  | leadingStr a => subst hl; simp [ClipOp.apply, clipLeading, hf]
  | leadingInt a => subst hl; simp [ClipOp.apply, clipLeading, hf]
  | trailingStr a b => subst hl; simp [ClipOp.apply, clipTrailing, ht]
  | trailingInt a b => subst hl; simp [ClipOp.apply, clipTrailing, ht]

/-- C111: column_number is where the line now starts, whatever the calls: the column of the original line and as many columns as
there are characters in leading; if there is no tab in the line. -/
theorem C111_column_no_tabs {c : Int} : ∀ {ops : List (ClipOp α)} {p q : Pair α μ} {f l b : List α},
    p.1.leading ++ p.2 ++ p.1.trailing ++ p.1.lineEnd = p.1.line → E.tab ∉ p.1.line → CutsAll ops p.2 f l b →
    p.1.columnNumber = c + p.1.leading.length → ClipOp.applyAll E p ops = .ok q →
    q.1.columnNumber = c + q.1.leading.length
  | [], p, q, f, l, b, _, _, _, hcol, h => by cases h; exact hcol
  | op :: ops, p, q, _, l', _, hw, ht, hs, hcol, h => by
    cases hs with
    | @cons _ _ _ f l b f' _ b' hc hn hs =>
      obtain ⟨r, e, hr, hr'⟩ := C81_clip (E := E) hw hc hn
      rw [ClipOp.applyAll, e] at h
      refine C111_column_no_tabs hr.whole (by rw [hr.others.1]; exact ht) (hr.line ▸ hs) ?_ h
      by_cases hl : l = []
      · subst hl
        rw [apply_whole hc, clipAll_eq hw] at e
        cases e
        simp; omega
      · have hft : E.tab ∉ f := by
          intro hm
          apply ht
          rw [← hw]
          have : ∀ {line : List α}, Cuts op line f l b → E.tab ∈ line := by intro line hc; cases hc <;> simp_all
          have := this hc
          simp [this]
        rw [hr' hl, detab_noTab hft, hr.leading hl, hcol]
        simp; omega

/-- C111 fails with a tab: the line `\tx` in column 1 is clipped, first the tab, then the rest; now the empty line that is left
is in column 8. -/
theorem C111_column_tab (E : Env α) (ht : E.tabWidth = 8) (x : α) (info : Info α μ) (hi : info.columnNumber = 1)
    (hl : info.line = [E.tab, x]) (h1 : info.leading = []) (h2 : info.trailing = []) (h3 : info.lineEnd = []) :
    ∃ q, ClipOp.applyAll E (info, [E.tab, x]) [.leading (.number 1), .leading (.number 1)] = .ok q ∧ q.2 = [] ∧
      q.1.columnNumber = 8 := by
  simp [ClipOp.applyAll, ClipOp.apply, clipLeading, sliceFrom, sliceTo, clipAll, hl, h1, h3, hi, detab, expandLoop, ht]

/-- C111: which arguments LineInfo takes: line is str or bytes, the numbers are ints, and leading, trailing and end are None
or of the type of line. But match has to be None or an re.Pattern: the re.Match that the documentation says it is, and that
lines_grep stores there, is refused. -/
theorem C111_constructor (a : InfoArgs) :
    a.accepted = true ↔ (a.line = .str ∨ a.line = .bytes) ∧ a.lineNumber = .int ∧ a.columnNumber = .int ∧ a.indent = .int ∧
      (a.leading = .none ∨ a.leading = a.line) ∧ (a.trailing = .none ∨ a.trailing = a.line) ∧
      (a.lineEnd = .none ∨ a.lineEnd = a.line) ∧ (a.match = .none ∨ a.match = .pattern) := by
  unfold InfoArgs.accepted
  grind

/-- An re.Match is never accepted. -/
theorem C111_match_refused (a : InfoArgs) (h : a.match = .matchObj) : a.accepted = false := by
  cases hb : a.accepted with
  | false => rfl
  | true => have := (C111_constructor a).1 hb; rw [h] at this; simp at this

/-- The hypotheses hold: `  key = value ;` is clipped three times; the last call clips what is left. -/
example : CutsAll [.leading (.number 2), .trailing (.string [';']), .leading (.string ['a'])]
    [' ', ' ', 'a', 'b', ';'] ([' ', ' '] ++ ([] ++ (['a'] ++ []))) ['b'] ((([] ++ []) ++ [';']) ++ []) :=
  .cons (.leadingInt [' ', ' '] ['a', 'b', ';']) (by rintro ⟨_, h | h⟩ <;> cases h)
    (.cons (.trailingStr ['a', 'b'] [';']) (by rintro ⟨_, h | h⟩ <;> cases h)
      (.cons (.leadingStr ['a'] ['b']) (by rintro ⟨_, h | h⟩ <;> cases h) (.nil ['b'])))

end Big.Lines
