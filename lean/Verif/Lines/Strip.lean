import Verif.Lines.Chain
/-!
# C67: lines_strip and lines_rstrip; counterexamples to C50, C65
-/
namespace Big.Lines
open Big.MS
open Big.MS.Spec

variable {α μ : Type} [DecidableEq α] {E : Env α}

/-! ### specification -/

/-- `t` is `s` without the whitespace `b` at its end. -/
def RStripped (sp : α → Bool) (s t b : List α) : Prop :=
  s = t ++ b ∧ (∀ c ∈ b, sp c = true) ∧ ∀ c, t.getLast? = some c → sp c = false

/-- `t` is `s` without the whitespace `a` at its start and `b` at its end. -/
def Stripped (sp : α → Bool) (s a t b : List α) : Prop :=
  s = a ++ t ++ b ∧ (∀ c ∈ a, sp c = true) ∧ (∀ c ∈ b, sp c = true) ∧
  (∀ c, t.head? = some c → sp c = false) ∧ ∀ c, t.getLast? = some c → sp c = false

/-- As many pairs come out as go in, and the `i`th that comes out is related to the `i`th that goes in. -/
def Pointwise (P : Pair α μ → Pair α μ → Prop) (li out : List (Pair α μ)) : Prop :=
  out.length = li.length ∧ ∀ (i : Nat) p q, li[i]? = some p → out[i]? = some q → P p q

/-! ### proof -/

omit [DecidableEq α] in
theorem rstrip_stripped (s : List α) : ∃ b, RStripped E.isSpace s (rstrip E s) b := by
  unfold rstrip
  refine ⟨(s.reverse.takeWhile E.isSpace).reverse, ?_, ?_, ?_⟩
  · rw [← List.reverse_append, List.takeWhile_append_dropWhile, List.reverse_reverse]
  · intro c hc
    rw [List.mem_reverse] at hc
    exact List.all_eq_true.1 List.all_takeWhile c hc
  · intro c hc
    rw [List.getLast?_reverse] at hc
    have h := List.head?_dropWhile_not E.isSpace s.reverse
    rw [hc] at h
    simpa using h

omit [DecidableEq α] in
theorem strip_stripped (s : List α) : ∃ a b, Stripped E.isSpace s a (rstrip E (lstrip E s)) b := by
  obtain ⟨b, h1, h2, h3⟩ := rstrip_stripped (E := E) (lstrip E s)
  refine ⟨s.takeWhile E.isSpace, b, ?_, ?_, h2, ?_, h3⟩
  · rw [List.append_assoc, ← h1]; exact List.takeWhile_append_dropWhile.symm
  · intro c hc; exact List.all_eq_true.1 List.all_takeWhile c hc
  · intro c hc
    have h := List.head?_dropWhile_not E.isSpace s
    have hl : (s.dropWhile E.isSpace).head? = some c := by
      change (lstrip E s).head? = some c
      rw [h1, List.head?_append, hc]; rfl
    rw [hl] at h
    simpa using h

omit [DecidableEq α] in
theorem each_map {f : Pair α μ → Except Err (Option (Pair α μ))} {P : Pair α μ → Pair α μ → Prop}
    (e : Option Err) : ∀ li : List (Pair α μ), (∀ p ∈ li, ∃ q, f p = .ok (some q) ∧ P p q) →
    ∃ out, each f li e = (out, e) ∧ Pointwise P li out
  | [], _ => ⟨[], rfl, rfl, by simp⟩
  | p :: rest, h => by
    obtain ⟨q, h1, h2⟩ := h p (by simp)
    obtain ⟨out, h3, h4⟩ := each_map e rest (fun p hp => h p (by simp [hp]))
    refine ⟨q :: out, ?_, by simp [h4.1], ?_⟩
    rotate_left
    · intro i p' q' hp' hq'
      cases i with
      | zero =>
        simp only [List.getElem?_cons_zero, Option.some.injEq] at hp' hq'
        subst hp' hq'; exact h2
      | succ i => exact h4.2 i p' q' (by simpa using hp') (by simpa using hq')
    unfold each
    rw [h1]
    simp [h3]

/-- C67: lines_strip yields every line, in order, without the whitespace at its ends. -/
theorem C67_lines_strip (li : List (Pair α μ)) (hw : ∀ p ∈ li, Whole p) :
    ∃ out, Modifier.apply E (li, none) (.strip none) = (out, none) ∧
      Pointwise (fun p q => (∃ a b, Stripped E.isSpace p.2 a q.2 b) ∧ Same E p q) li out := by
  apply each_map
  intro p hp
  obtain ⟨q, h1, h2, h3⟩ := stripOne_spec (E := E) p (hw p hp)
  refine ⟨q, h1, ?_, h2⟩
  rw [h3]; exact strip_stripped p.2

/-- C67: lines_rstrip yields every line, in order, without the whitespace at its end. -/
theorem C67_lines_rstrip (li : List (Pair α μ)) (hw : ∀ p ∈ li, Whole p) :
    ∃ out, Modifier.apply E (li, none) (.rstrip none) = (out, none) ∧
      Pointwise (fun p q => (∃ b, RStripped E.isSpace p.2 q.2 b) ∧ Same E p q) li out := by
  apply each_map
  intro p hp
  obtain ⟨q, h1, h2, h3⟩ := rstripOne_spec (E := E) p (hw p hp)
  refine ⟨q, h1, ?_, h2⟩
  rw [h3]; exact rstrip_stripped p.2

/-- C67: with separators (legal ones), each line becomes what multistrip makes of it. -/
theorem C67_strip_separators (seps : List (List α)) (hne : seps ≠ []) (he : [] ∉ seps)
    (li : List (Pair α μ)) (hw : ∀ p ∈ li, Whole p) :
    (∃ out, Modifier.apply E (li, none) (.strip (some seps)) = (out, none) ∧
      Pointwise (fun p q => multistrip E.sq.nl p.2 seps true true = .ok q.2 ∧ Same E p q) li out) ∧
    ∃ out, Modifier.apply E (li, none) (.rstrip (some seps)) = (out, none) ∧
      Pointwise (fun p q => multistrip E.sq.nl p.2 seps false true = .ok q.2 ∧ Same E p q) li out := by
  have hok : ∀ (s : List α) l r, multistrip E.sq.nl s seps l r ≠ .error .valueError := by
    intro s l r h
    rcases (C41_errors (nl := E.sq.nl) (seps := seps) s l r).1.1 h with h | h
    · exact hne h
    · exact he h
  refine ⟨?_, ?_⟩
  · apply each_map
    intro p hp
    rcases stripSepsOne_spec (E := E) seps p (hw p hp) with ⟨-, h⟩ | ⟨q, h1, h2, h3⟩
    · exact absurd h (hok _ _ _)
    · refine ⟨q, h1, ?_, h2⟩
      rcases h3 with ⟨h3, h4⟩ | h3
      · obtain ⟨t, l, r, g1, g2, -⟩ := C41_multistrip_general (nl := E.sq.nl) hne he p.2 true true
        rw [g1, h4]
        rw [h3] at g2
        have := List.append_eq_nil_iff.1 g2.symm
        rw [(List.append_eq_nil_iff.1 this.2).1]
      · exact h3
  · apply each_map
    intro p hp
    rcases rstripSepsOne_spec (E := E) seps p (hw p hp) with ⟨-, h⟩ | ⟨q, h1, h2, h3⟩
    · exact absurd h (hok _ _ _)
    · exact ⟨q, h1, h3, h2⟩

/-! ### examples -/

/-- str, with only ASCII whitespace and linebreaks (enough for the examples). -/
def strEnv : Env Char where
  tab := '\t'
  space := ' '
  nl := '\n'
  cr := '\r'
  isSpace := fun c => c = ' ' || c = '\t' || c = '\n' || c = '\r'
  linebreaks := [['\n'], ['\r'], ['\r', '\n']]
  column := 1
  tabWidth := 8
  sq := Big.SQ.strEnv

example : CacheOK strEnv.sq.cache ∧ ∀ l w, w ∈ strEnv.sq.sort l ↔ w ∈ l :=
  ⟨by intro _ _ h; simp [strEnv, Big.SQ.strEnv] at h, fun _ _ => Iff.rfl⟩

/-- What the examples show of a pair. -/
structure Row where
  column : Int
  leading : String
  line : String
  trailing : String
  lineEnd : String
  indent : Int
  deriving DecidableEq

/-- The text `s` through a chain of modifiers. -/
def run (E : Env Char) (s : String) (ms : List (Modifier Char Unit)) : List Row × Option Err :=
  let r := chain E (lines E 1 (.text s.toList none)) ms
  (r.1.map (fun p => ⟨p.1.columnNumber, String.ofList p.1.leading, String.ofList p.2,
    String.ofList p.1.trailing, String.ofList p.1.lineEnd, p.1.indent⟩), r.2)

/-- Comments starting with `#` and quotes `'` and (multiline) `"`. -/
def hash : Comments Char := ⟨[['#']], [['\'']], [['"']], ['\\']⟩

example : run strEnv "a: # b\n  b  'x # y' # \"c\n\n c" [.stripLineComments hash, .strip none]
    = ([⟨1, "", "a:", " # b", "\n", 0⟩,
        ⟨3, "  ", "b  'x # y'", " # \"c", "\n", 0⟩,
        ⟨1, "", "", "", "\n", 0⟩,
        ⟨2, " ", "c", "", "", 0⟩], none) := by decide +kernel

/-- lines_convert_tabs_to_spaces changes the line, so C50 excludes it. -/
theorem C50_convert_tabs_changes_lines :
    run strEnv "\tx" [.convertTabsToSpaces] = ([⟨1, "", "        x", "", "", 0⟩], none) := by
  decide +kernel

/-- With tab_width 0 a line indented by a tab is at the first column, and an assertion in
lines_strip_indent fails: C50_no_assertion_fails needs a positive tab width. -/
theorem C50_assertion_fails_without_tab_width :
    run { strEnv with tabWidth := 0 } "\tx" [.stripIndent] = ([], some .assertionError) := by decide +kernel

/-- Two modifiers that each clip a part of the indent " \t", which is 8 columns wide: column_number is 10,
not 9. C65 fails if there are tabs. -/
theorem C65_counterexample_two_clips :
    run strEnv " \tx" [.strip (some [[' ']]), .stripIndent] = ([⟨10, " \t", "x", "", "", 1⟩], none) ∧
    run strEnv " \tx" [.stripIndent] = ([⟨9, " \t", "x", "", "", 1⟩], none) := by
  decide +kernel

/-- If what is left of a line is clipped, column_number goes back by the number of characters of `leading`,
not by their width: nothing is clipped before the line, but column_number is 8, not 1. -/
theorem C65_counterexample_whole_line :
    run strEnv "\t#x" [.strip none, .stripLineComments hash]
      = ([⟨8, "", "", "\t#x", "", 0⟩], none) := by
  decide +kernel

/-- The wrong occurrence of what is left of the line: "xa" is stripped from the left of "xaa". The line "a"
starts at column 3, but column_number is 2 (and `leading` is "x"). -/
theorem C65_counterexample_partition :
    run strEnv "xaa" [.strip (some ["xa".toList])]
      = ([⟨2, "x", "a", "a", "", 0⟩], none) := by
  decide +kernel

end Big.Lines
