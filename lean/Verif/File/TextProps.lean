import Verif.File.Text
/-!
# C33, C34, C35
-/
namespace Big.File

/-! ## C33 -/

/-- The characters exFAT forbids in names (the list in file.py:278-290). -/
def exfatForbidden (c : Char) : Prop :=
  c.toNat < 32 ∨ c ∈ ['/', '\\', ':', '*', '?', '"', '<', '>', '|']

theorem toNat_nul {c : Char} (h : c.toNat = 0) : c = '\x00' := by
  apply Char.ext
  apply UInt32.toNat_inj.1
  exact h

theorem exfatChar_legal (c : Char) (h : c.toNat = 0 ∨ 32 ≤ c.toNat) :
    ∀ x ∈ exfatChar c, exfatForbidden x → x = ':' := by
  unfold exfatChar
  intro x hx hf
  have lit : ∀ y ∈ ['@', '-', '.', '\'', '{', '}', '!'], ¬ exfatForbidden y := by
    intro y hy
    simp only [List.mem_cons, List.not_mem_nil, or_false] at hy
    rcases hy with rfl | rfl | rfl | rfl | rfl | rfl | rfl <;>
      (intro hh; rcases hh with hh | hh <;> revert hh <;> decide)
  split at hx
  · exact absurd hf (lit x (by simp_all))
  split at hx
  · omega
  split at hx
  · exact absurd hf (lit x (by simp_all))
  split at hx
  · exact absurd hf (lit x (by simp_all))
  split at hx
  · exact absurd hf (lit x (by simp_all))
  split at hx
  · exact absurd hf (lit x (by simp_all))
  split at hx
  · exact absurd hf (lit x (by simp_all))
  split at hx
  · exact absurd hf (lit x (by simp_all))
  split at hx
  · exact absurd hf (lit x (by simp_all))
  split at hx
  · exact absurd hf (lit x (by simp_all))
  · simp only [List.mem_singleton] at hx
    subst hx
    unfold exfatForbidden at hf
    simp only [List.mem_cons, List.not_mem_nil, or_false] at hf
    rcases hf with hf | hf | hf | hf | hf | hf | hf | hf | hf | hf
    · omega
    all_goals first | exact hf | contradiction

theorem exfatChar_ne (c : Char) : exfatChar c ≠ [] := by
  unfold exfatChar hex2
  repeat' split
  all_goals simp

theorem mem_replaceColonSpace (s : List Char) : ∀ x ∈ replaceColonSpace s,
    x ∈ s ∨ x = ' ' ∨ x = '-' := by
  fun_induction replaceColonSpace s with
  | case1 s ih =>
    intro x hx
    simp only [List.mem_cons] at hx ⊢
    rcases hx with rfl | rfl | rfl | hx
    · simp
    · simp
    · simp
    · rcases ih x hx with h | h
      · exact .inl (.inr (.inr h))
      · exact .inr h
  | case2 c s hne ih =>
    intro x hx
    simp only [List.mem_cons] at hx ⊢
    rcases hx with rfl | hx
    · exact .inl (.inl rfl)
    · rcases ih x hx with h | h
      · exact .inl (.inr h)
      · exact .inr h
  | case3 => simp

theorem replaceColonSpace_ne (s : List Char) (h : s ≠ []) : replaceColonSpace s ≠ [] := by
  fun_induction replaceColonSpace s <;> simp_all

/-- C33: for every non-empty name with no control character but NUL, the result is
not empty and has no character exFAT forbids. For control characters U+0001 to U+001F
it is false (`C33_violated`). -/
theorem C33_exfat_legal (s : List Char) (hs : s ≠ [])
    (h : ∀ c ∈ s, c.toNat = 0 ∨ 32 ≤ c.toNat) :
    ∃ t, toExfat s = some t ∧ t ≠ [] ∧ ∀ c ∈ t, ¬ exfatForbidden c := by
  refine ⟨replaceColon (replaceColonSpace (s.flatMap exfatChar)), by simp [toExfat, hs], ?_, ?_⟩
  · unfold replaceColon
    intro h0
    have h1 := List.map_eq_nil_iff.1 h0
    refine replaceColonSpace_ne _ ?_ h1
    cases s with
    | nil => exact absurd rfl hs
    | cons c s => simp [exfatChar_ne]
  · intro c hc hf
    unfold replaceColon at hc
    obtain ⟨d, hd, rfl⟩ := List.mem_map.1 hc
    have hdf : exfatForbidden d → d = ':' := by
      rcases mem_replaceColonSpace _ d hd with h1 | rfl | rfl
      · obtain ⟨e, he, hde⟩ := List.mem_flatMap.1 h1
        exact exfatChar_legal e (h e he) d hde
      · intro hh; rcases hh with hh | hh <;> revert hh <;> decide
      · intro hh; rcases hh with hh | hh <;> revert hh <;> decide
    by_cases hcol : d = ':'
    · rw [if_pos hcol] at hf
      rcases hf with hf | hf <;> revert hf <;> decide
    · rw [if_neg hcol] at hf
      exact hcol (hdf hf)

/-- The result is never empty, whatever the name. -/
theorem C33_nonempty (s : List Char) : (toExfat s = none ↔ s = []) ∧ toExfat s ≠ some [] := by
  constructor
  · by_cases hs : s = [] <;> simp [toExfat, hs]
  · by_cases hs : s = []
    · simp [toExfat, hs]
    · simp only [toExfat, hs, if_false]
      intro h0
      have h0' := Option.some.inj h0
      unfold replaceColon at h0'
      refine replaceColonSpace_ne _ ?_ (List.map_eq_nil_iff.1 h0')
      cases s with
      | nil => exact absurd rfl hs
      | cons c s => simp [exfatChar_ne]

theorem replaceColonSpace_keeps {x : Char} (h1 : x ≠ ':') (h2 : x ≠ ' ') (s : List Char)
    (h : x ∈ s) : x ∈ replaceColonSpace s := by
  fun_induction replaceColonSpace s with
  | case1 s ih => simp_all
  | case2 c s hne ih =>
    rcases List.mem_cons.1 h with rfl | h
    · simp
    · exact List.mem_cons_of_mem _ (ih h)
  | case3 => simp at h

/-- C33 is false of the code: for every name with a control character other than NUL the result
contains a question mark, which exFAT forbids. -/
theorem C33_violated (s : List Char) (c : Char) (hc : c ∈ s) (h1 : 0 < c.toNat) (h2 : c.toNat < 32) :
    ∃ t, toExfat s = some t ∧ '?' ∈ t ∧ exfatForbidden '?' := by
  have hs : s ≠ [] := by intro h; rw [h] at hc; cases hc
  refine ⟨replaceColon (replaceColonSpace (s.flatMap exfatChar)),
    by simp only [toExfat, hs, if_false], ?_, .inr (by decide)⟩
  have hq : '?' ∈ exfatChar c := by
    unfold exfatChar
    rw [if_neg (by omega), if_pos h2]
    simp [hex2]
  have := replaceColonSpace_keeps (x := '?') (by decide) (by decide) _
    (List.mem_flatMap.2 ⟨c, hc, hq⟩)
  unfold replaceColon
  exact List.mem_map.2 ⟨'?', this, by decide⟩

/-- C33, exactly: the result has no character exFAT forbids if and only if the name has no control character U+0001 to
U+001F. -/
theorem C33_exfat_iff (s : List Char) (hs : s ≠ []) :
    ∃ t, toExfat s = some t ∧ t ≠ [] ∧
      ((∀ c ∈ t, ¬ exfatForbidden c) ↔ ∀ c ∈ s, c.toNat = 0 ∨ 32 ≤ c.toNat) := by
  by_cases h : ∀ c ∈ s, c.toNat = 0 ∨ 32 ≤ c.toNat
  · obtain ⟨t, h1, h2, h3⟩ := C33_exfat_legal s hs h
    exact ⟨t, h1, h2, fun _ => h, fun _ => h3⟩
  · simp only [Classical.not_forall, not_or] at h
    obtain ⟨c, hc, h1, h2⟩ := h
    obtain ⟨t, t1, t2, t3⟩ := C33_violated s c hc (by omega) (by omega)
    refine ⟨t, t1, (fun e => by rw [e] at t2; cases t2), fun hh => absurd t3 (hh _ t2), fun hh => ?_⟩
    have := hh c hc
    omega

example : toExfat "a: b:c/d<e>\x00".toList = some "a - b.c-d{e}@".toList := by decide
example : toExfat "a\nb".toList = some "a?0ab".toList := by decide

/-! ## C34 -/

/-- C34: for every non-empty name the result has the same length and no NUL or slash, differs only at
those characters, and is left unchanged by translating again. -/
theorem C34_unix (s : List Char) (hs : s ≠ []) :
    ∃ t, toUnix s = some t ∧ t.length = s.length ∧
      (∀ c ∈ t, c ≠ '\x00' ∧ c ≠ '/') ∧
      (∀ (i : Nat) (c : Char), s[i]? = some c → c ≠ '\x00' → c ≠ '/' → t[i]? = some c) ∧
      toUnix t = some t := by
  have legal : ∀ c, unixChar c ≠ '\x00' ∧ unixChar c ≠ '/' := by
    intro c
    unfold unixChar
    split
    · decide
    · rename_i h
      split
      · decide
      · rename_i h'
        exact ⟨by rintro rfl; exact h rfl, h'⟩
  have fix : ∀ c, c ≠ '\x00' → c ≠ '/' → unixChar c = c := by
    intro c h1 h2
    unfold unixChar
    rw [if_neg (fun h => h1 (toNat_nul h)), if_neg h2]
  refine ⟨s.map unixChar, by simp [toUnix, hs], by simp, ?_, ?_, ?_⟩
  · intro c hc
    obtain ⟨d, _, rfl⟩ := List.mem_map.1 hc
    exact legal d
  · intro i c hi h1 h2
    rw [List.getElem?_map, hi, Option.map_some, fix c h1 h2]
  · unfold toUnix
    rw [if_neg (by simp [hs])]
    congr 1
    rw [List.map_map]
    apply List.map_congr_left
    intro c _
    exact fix _ (legal c).1 (legal c).2

example : toUnix "a/b\x00c".toList = some "a-b@c".toList := by decide

/-! ## C35 -/

/-- `ls` are the lines of `contents`: no line contains the line break and joining them with line breaks
gives the contents. -/
def AreLines {α : Type} (nl : α) (ls : List (List α)) (contents : List α) : Prop :=
  ls ≠ [] ∧ (∀ l ∈ ls, nl ∉ l) ∧ List.intercalate [nl] ls = contents

theorem split_ne {α : Type} [DecidableEq α] (nl : α) (s : List α) : split nl s ≠ [] := by
  cases s with
  | nil => simp [split]
  | cons c s =>
    unfold split
    split
    · simp
    · split <;> simp

theorem intercalate_cons2 {α : Type} (sep a b : List α) (l : List (List α)) :
    List.intercalate sep (a :: b :: l) = a ++ sep ++ List.intercalate sep (b :: l) := by
  simp [List.intercalate, List.intersperse]

theorem split_areLines {α : Type} [DecidableEq α] (nl : α) (s : List α) : AreLines nl (split nl s) s := by
  induction s with
  | nil => exact ⟨by simp [split], by simp [split], by simp [split, List.intercalate]⟩
  | cons c s ih =>
    obtain ⟨i1, i2, i3⟩ := ih
    unfold split
    split
    · rename_i hc
      refine ⟨by simp, ?_, ?_⟩
      · intro l hl
        rcases List.mem_cons.1 hl with rfl | hl
        · simp
        · exact i2 l hl
      · cases hsp : split nl s with
        | nil => exact absurd hsp (split_ne nl s)
        | cons a l =>
          rw [intercalate_cons2, ← hsp, i3, hc]; rfl
    · rename_i hc
      cases hsp : split nl s with
      | nil => exact absurd hsp (split_ne nl s)
      | cons a l =>
        rw [hsp] at i2 i3
        refine ⟨by simp, ?_, ?_⟩
        · intro x hx
          rcases List.mem_cons.1 hx with rfl | hx
          · intro hh
            rcases List.mem_cons.1 hh with h | h
            · exact hc h.symm
            · exact i2 a (by simp) h
          · exact i2 x (List.mem_cons_of_mem _ hx)
        · cases l with
          | nil => simp only [List.intercalate, List.intersperse, List.flatten] at i3 ⊢; simp at i3 ⊢; exact i3
          | cons b l => rw [intercalate_cons2] at i3 ⊢; rw [← i3]; simp

theorem split_line {α : Type} [DecidableEq α] {nl : α} {l : List α} (h : nl ∉ l) : split nl l = [l] := by
  induction l with
  | nil => rfl
  | cons c l ih =>
    simp only [List.mem_cons, not_or] at h
    unfold split
    rw [if_neg (fun e => h.1 e.symm), ih h.2]

theorem split_append {α : Type} [DecidableEq α] {nl : α} {l : List α} (h : nl ∉ l) (s : List α) :
    split nl (l ++ nl :: s) = l :: split nl s := by
  induction l with
  | nil => simp [split]
  | cons c l ih =>
    simp only [List.mem_cons, not_or] at h
    rw [List.cons_append]
    conv => lhs; unfold split
    rw [if_neg (fun e => h.1 e.symm), ih h.2]

/-- The lines are uniquely determined. -/
theorem areLines_unique {α : Type} [DecidableEq α] {nl : α} {ls : List (List α)} {s : List α}
    (h : AreLines nl ls s) : ls = split nl s := by
  obtain ⟨h1, h2, h3⟩ := h
  subst h3
  induction ls with
  | nil => exact absurd rfl h1
  | cons a ls ih =>
    cases ls with
    | nil => simp [List.intercalate, split_line (h2 a (by simp))]
    | cons b l =>
      rw [intercalate_cons2, List.append_assoc, List.singleton_append]
      rw [split_append (h2 a (by simp)), ← ih (by simp) (fun x hx => h2 x (List.mem_cons_of_mem _ hx))]

theorem contains_iff {α : Type} [DecidableEq α] (t s : List α) : contains t s = true ↔ t <:+: s := by
  induction s with
  | nil =>
    simp only [contains, List.isPrefixOf_iff_prefix]
    rw [List.prefix_nil, List.infix_nil]
  | cons c s ih =>
    simp only [contains, Bool.or_eq_true, List.isPrefixOf_iff_prefix, ih]
    exact List.infix_cons_iff.symm

/-- lower() of a type of strings: it leaves line breaks alone and handles each line separately. (True of
str.lower and bytes.lower in Python: the only context-sensitive case, the final sigma, is not
influenced by what is beyond a line break.) -/
structure LowerOk {α : Type} (nl : α) (lower : List α → List α) : Prop where
  line : ∀ l, nl ∉ l → nl ∉ lower l
  lines : ∀ l s, nl ∉ l → lower (l ++ nl :: s) = lower l ++ nl :: lower s

theorem split_lower {α : Type} [DecidableEq α] {nl : α} {lower : List α → List α}
    (H : LowerOk nl lower) {ls : List (List α)} {s : List α} (h : AreLines nl ls s) :
    split nl (lower s) = ls.map lower := by
  obtain ⟨h1, h2, h3⟩ := h
  subst h3
  induction ls with
  | nil => exact absurd rfl h1
  | cons a ls ih =>
    cases ls with
    | nil => simp [List.intercalate, split_line (H.line a (h2 a (by simp)))]
    | cons b l =>
      rw [intercalate_cons2, List.append_assoc, List.singleton_append]
      rw [H.lines a _ (h2 a (by simp)), split_append (H.line a (h2 a (by simp))),
        ih (by simp) (fun x hx => h2 x (List.mem_cons_of_mem _ hx))]
      rfl

theorem enum_map {α β : Type} (f : α → β) (l : List α) :
    (enum l).map (fun t => (t.1, f t.2)) = enum (l.map f) := by
  simp [enum, List.zip_map_right]

theorem filter_enum_snd {α : Type} (p : α → Bool) (l : List α) (n : Nat) :
    (((List.range' n l.length).zip l).filter (fun t => p t.2)).map (·.2) = l.filter p := by
  induction l generalizing n with
  | nil => rfl
  | cons a l ih =>
    rw [List.length_cons, List.range'_succ, List.zip_cons_cons, List.filter_cons, List.filter_cons]
    simp only
    split
    · rw [List.map_cons, ih]
    · exact ih _

/-- The lines of `contents`, numbered from 1. -/
def Numbered {α : Type} (nl : α) (contents : List α) (r : List (Nat × List α)) : Prop :=
  ∃ ls, AreLines nl ls contents ∧ r = (List.range' 1 ls.length).zip ls

/-- C35: fgrep, case-sensitive: with enumerate the result is the numbered lines of the file that contain
the text, in file order; without, the same lines without numbers. -/
theorem C35_fgrep {α : Type} [DecidableEq α] (nl : α) (lower : List α → List α)
    (text contents : List α) :
    ∃ r, Numbered nl contents r ∧
      (∀ p : List α → Bool, (∀ l, p l = true ↔ text <:+: l) →
        fgrepNumbered nl lower text contents false = r.filter (fun t => p t.2) ∧
        fgrepPlain nl lower text contents false = (r.filter (fun t => p t.2)).map (·.2)) := by
  refine ⟨enum (split nl contents), ⟨_, split_areLines nl contents, rfl⟩, fun p hp => ?_⟩
  have e : p = contains text := by
    funext l
    rw [Bool.eq_iff_iff, hp, contains_iff]
  subst e
  exact ⟨rfl, (filter_enum_snd _ _ 1).symm⟩

/-- C35: fgrep with case_insensitive: the lines whose lower-cased form contains the lower-cased text. -/
theorem C35_fgrep_ci {α : Type} [DecidableEq α] (nl : α) (lower : List α → List α)
    (H : LowerOk nl lower) (text contents : List α) :
    ∃ r, Numbered nl contents r ∧
      (∀ p : List α → Bool, (∀ l, p l = true ↔ lower text <:+: lower l) →
        fgrepNumbered nl lower text contents true = r.filter (fun t => p t.2) ∧
        fgrepPlain nl lower text contents true = (r.filter (fun t => p t.2)).map (·.2)) := by
  refine ⟨enum (split nl contents), ⟨_, split_areLines nl contents, rfl⟩, fun p hp => ?_⟩
  have e : p = fun l => contains (lower text) (lower l) := by
    funext l
    rw [Bool.eq_iff_iff, hp, contains_iff]
  subst e
  have hl := split_lower H (split_areLines nl contents)
  have hz : (split nl contents).zip (split nl (lower contents)) =
      (split nl contents).map (fun l => (l, lower l)) := by
    rw [hl]
    induction split nl contents with
    | nil => rfl
    | cons a l ih => simp only [List.map_cons, List.zip_cons_cons, ih]
  constructor
  · simp only [fgrepNumbered, Bool.not_true, Bool.false_eq_true, if_false, hz]
    rw [← enum_map (fun l => (l, lower l)), List.filter_map, List.map_map]
    exact (List.map_congr_left (fun x _ => rfl)).trans (List.map_id _)
  · have := filter_enum_snd (fun l => contains (lower text) (lower l)) (split nl contents) 1
    simp only [fgrepPlain, Bool.not_true, Bool.false_eq_true, if_false, hz, enum]
    rw [this, List.filter_map, List.map_map]
    exact (List.map_congr_left (fun x _ => rfl)).trans (List.map_id _)

/-- C35: grep, for every pattern. -/
theorem C35_grep {α : Type} [DecidableEq α] (nl : α) (search : List α → Bool) (contents : List α) :
    ∃ r, Numbered nl contents r ∧
      grepNumbered nl search contents = r.filter (fun t => search t.2) ∧
      grepPlain nl search contents = (r.filter (fun t => search t.2)).map (·.2) :=
  ⟨enum (split nl contents), ⟨_, split_areLines nl contents, rfl⟩, rfl, (filter_enum_snd _ _ 1).symm⟩

/-- The numbered lines of a file are unique, so C35 determines the results. -/
theorem C35_numbered_unique {α : Type} [DecidableEq α] (nl : α) (contents : List α)
    (r r' : List (Nat × List α)) (h : Numbered nl contents r) (h' : Numbered nl contents r') :
    r = r' := by
  obtain ⟨ls, h1, rfl⟩ := h
  obtain ⟨ls', h2, rfl⟩ := h'
  rw [areLines_unique h1, areLines_unique h2]

/-- Lower-casing letter by letter is an example of `LowerOk`. -/
theorem mapLower_ok : LowerOk '\n' (List.map Char.toLower) where
  line l h := by
    intro hm
    obtain ⟨c, hc, e⟩ := List.mem_map.1 hm
    have : c = '\n' := by
      unfold Char.toLower at e
      split at e
      · rename_i hh
        exfalso
        have h2 := congrArg (fun x => x.val.toNat) e
        have h3 : c.val.toNat ≤ 90 := hh.2
        have h4 : 65 ≤ c.val.toNat := hh.1
        rw [UInt32.toNat_add] at h2
        have h5 : (('a' : Char).val - ('A' : Char).val).toNat = 32 := by decide
        have h6 : ('\n' : Char).val.toNat = 10 := rfl
        rw [h6] at h2
        omega
      · exact e
    exact h (this ▸ hc)
  lines l s _ := by simp

example : fgrepNumbered '\n' (List.map Char.toLower) "B".toList "abc\nxyz\nB".toList true =
    [(1, "abc".toList), (3, "B".toList)] := by decide
example : fgrepPlain '\n' (List.map Char.toLower) "b".toList "abc\nxyz\nB".toList false =
    ["abc".toList] := by decide

end Big.File
