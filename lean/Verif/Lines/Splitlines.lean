import Verif.Lines.Filters
import Verif.Multisplit.Builtins
import Verif.Multisplit.ByteLines
/-!
# C142: lines of a text are what splitlines gives, and one empty line more if the text ends with a line break
-/
namespace Big.Lines
open Big.MS (Item CacheOK strLinebreaks bytesLinebreaks lineParts byteParts alternates_unique lineParts_alternates
  byteParts_alternatesB lineParts_flatten byteParts_flattenB lineParts_ne byteParts_neB texts_onFirst texts_onFirstB texts_ne texts_neB)
open Big.MS
open Big.MS.Spec

/-- Empty, or ending with a line break. -/
def AtLineStart (s : List Char) : Bool := s.getLast?.all PyStr.isBreak

/-- Empty, or ending with a line break. -/
def AtLineStartB (s : List UInt8) : Bool := s.getLast?.all PyBytes.isBreak

/-- The empty line after the last line break. -/
def lastLine {α : Type} (b : Bool) : List (List α) := if b then [[]] else []

theorem onFirst_append (c : Char) {l : List (List Char)} (h : l ≠ []) (r : List (List Char)) :
    PyStr.onFirst c (l ++ r) = PyStr.onFirst c l ++ r := by
  cases l with
  | nil => exact absurd rfl h
  | cons a l => rfl

theorem onFirst_appendB (c : UInt8) {l : List (List UInt8)} (h : l ≠ []) (r : List (List UInt8)) :
    PyBytes.onFirst c (l ++ r) = PyBytes.onFirst c l ++ r := by
  cases l with
  | nil => exact absurd rfl h
  | cons a l => rfl

theorem splitlines_ne (k : Bool) (c : Char) (t : List Char) : PyStr.splitlines k (c :: t) ≠ [] := by
  cases t with
  | nil => rw [PyStr.splitlines]; split <;> simp
  | cons d t =>
    rw [PyStr.splitlines]
    split
    · simp
    split
    · simp
    · cases PyStr.splitlines k (d :: t) <;> simp [PyStr.onFirst]

theorem splitlines_neB (k : Bool) (c : UInt8) (t : List UInt8) : PyBytes.splitlines k (c :: t) ≠ [] := by
  cases t with
  | nil => rw [PyBytes.splitlines]; split <;> simp
  | cons d t =>
    rw [PyBytes.splitlines]
    split
    · simp
    split
    · simp
    · cases PyBytes.splitlines k (d :: t) <;> simp [PyBytes.onFirst]

theorem lineParts_splitlines : ∀ s, texts (lineParts s) = PyStr.splitlines false s ++ lastLine (AtLineStart s) ∧
    joined (lineParts s) = PyStr.splitlines true s ++ lastLine (AtLineStart s)
  | [] => by simp [lineParts, texts, joined, PyStr.splitlines, lastLine, AtLineStart]
  | [c] => by
    by_cases h : PyStr.isBreak c <;> simp [lineParts, h, texts, joined, PyStr.splitlines, lastLine, AtLineStart]
  | c :: d :: t => by
    by_cases hcr : c = '\r' ∧ d = '\n'
    · have ih := lineParts_splitlines t
      have hl : AtLineStart (c :: d :: t) = AtLineStart t := by
        cases t with
        | nil => rw [hcr.1, hcr.2]; decide
        | cons e t => simp [AtLineStart]
      rw [hl]
      simp only [lineParts, PyStr.splitlines, if_pos hcr, texts, joined, ih.1, ih.2]
      simp
    · have ih := lineParts_splitlines (d :: t)
      have hl : AtLineStart (c :: d :: t) = AtLineStart (d :: t) := by simp [AtLineStart]
      rw [hl]
      by_cases hb : PyStr.isBreak c = true
      · simp only [lineParts, PyStr.splitlines, if_neg hcr, if_pos hb, texts, joined, ih.1, ih.2]
        simp
      · have hf := texts_onFirst c (lineParts_ne (d :: t))
        simp only [lineParts, PyStr.splitlines, if_neg hcr, hb, if_false, hf.1, hf.2, ih.1, ih.2, Bool.false_eq_true,
          onFirst_append c (splitlines_ne _ d t), and_self]

theorem byteParts_splitlines : ∀ s, texts (byteParts s) = PyBytes.splitlines false s ++ lastLine (AtLineStartB s) ∧
    joined (byteParts s) = PyBytes.splitlines true s ++ lastLine (AtLineStartB s)
  | [] => by simp [byteParts, texts, joined, PyBytes.splitlines, lastLine, AtLineStartB]
  | [c] => by
    by_cases h : PyBytes.isBreak c <;> simp [byteParts, h, texts, joined, PyBytes.splitlines, lastLine, AtLineStartB]
  | c :: d :: t => by
    by_cases hcr : c = 13 ∧ d = 10
    · have ih := byteParts_splitlines t
      have hl : AtLineStartB (c :: d :: t) = AtLineStartB t := by
        cases t with
        | nil => rw [hcr.1, hcr.2]; decide
        | cons e t => simp [AtLineStartB]
      rw [hl]
      simp only [byteParts, PyBytes.splitlines, if_pos hcr, texts, joined, ih.1, ih.2]
      simp
    · have ih := byteParts_splitlines (d :: t)
      have hl : AtLineStartB (c :: d :: t) = AtLineStartB (d :: t) := by simp [AtLineStartB]
      rw [hl]
      by_cases hb : PyBytes.isBreak c = true
      · simp only [byteParts, PyBytes.splitlines, if_neg hcr, if_pos hb, texts, joined, ih.1, ih.2]
        simp
      · have hf := texts_onFirstB c (byteParts_neB (d :: t))
        simp only [byteParts, PyBytes.splitlines, if_neg hcr, hb, if_false, hf.1, hf.2, ih.1, ih.2, Bool.false_eq_true,
          onFirst_appendB c (splitlines_neB _ d t), and_self]

section
variable {α : Type} [DecidableEq α] {μ : Type} {E : Env α}

omit [DecidableEq α] in
theorem joined_of_parts : ∀ (L : List (List α)) (out : List (Pair α μ)),
    out.map (fun p => p.2) = texts L → out.map (fun p => p.1.lineEnd) = Spec.seps L ++ [[]] →
    (∀ p ∈ out, p.1.line = p.2 ++ p.1.lineEnd) → out.map (fun p => p.1.line) = joined L
  | [], out, h1, h2, _ => by
    simp only [texts, List.map_eq_nil_iff] at h1
    subst h1; rfl
  | [a], out, h1, h2, h3 => by
    match out, h1, h2 with
    | [], h1, _ => simp [texts] at h1
    | [p], h1, h2 =>
      simp only [texts, List.map_cons, List.map_nil, Spec.seps, List.nil_append, List.cons.injEq, and_true] at h1 h2
      simp [joined, h3 p (by simp), h1, h2]
    | _ :: _ :: _, h1, _ => simp [texts] at h1
  | a :: w :: L, out, h1, h2, h3 => by
    match out, h1, h2 with
    | [], h1, _ => simp [texts] at h1
    | p :: out, h1, h2 =>
      simp only [texts, List.map_cons, Spec.seps, List.cons_append, List.cons.injEq] at h1 h2
      simp only [joined, List.map_cons, h3 p (by simp), h1.1, h2.1]
      rw [joined_of_parts L out h1.2 h2.2 (fun q hq => h3 q (by simp [hq]))]

/-- The lines, from the text split at the line breaks. -/
theorem lines_of_parts (hc : CacheOK E.sq.cache) (hne : E.linebreaks ≠ []) (he : [] ∉ E.linebreaks) (n : Int) (s : List α)
    {L : List (List α)} (hL : Alternates E.linebreaks true L) (hs : L.flatten = s) :
    ∃ out : List (Pair α μ), lines E n (.text s none) = (out, none) ∧ out.map (fun p => p.2) = texts L ∧
      out.map (fun p => p.1.line) = joined L ∧ (out.map (fun p => p.1.lineNumber) = (List.range out.length).map (fun i : Nat => n + (i : Int))) := by
  obtain ⟨L', out, h1, h2, h3, h4, -, -, h7⟩ := C49_lines_of_text (μ := μ) hc none hne he n s
  have : L' = L := alternates_unique _ _ (by simpa [usedSeparators] using h1.2) hL (by rw [h1.1, hs])
  subst this
  refine ⟨out, h2, h3, ?_, ?_⟩
  · refine joined_of_parts _ _ h3 h4 ?_
    intro p hp
    obtain ⟨i, hi⟩ := List.getElem?_of_mem hp
    exact (h7 i p hi).2.1
  · apply List.ext_getElem?
    intro i
    rw [List.getElem?_map, List.getElem?_map]
    cases hx : out[i]? with
    | none =>
      have := List.getElem?_eq_none_iff.1 hx
      rw [List.getElem?_eq_none (by simpa using this)]
      rfl
    | some p =>
      have hlt := (List.getElem?_eq_some_iff.1 hx).1
      rw [List.getElem?_eq_getElem (by simpa using hlt)]
      simp [(h7 i p hx).1]

end

/-- **C142**: for every str: the lines that lines(s) yields are s.splitlines(), and what their `info.line` are is
s.splitlines(True), each with one empty line more at the end exactly if s is empty or ends with a line break; they are numbered
from `n` on. -/
theorem C142_lines_splitlines {μ : Type} {E : Env Char} (hc : CacheOK E.sq.cache) (hl : E.linebreaks = strLinebreaks) (n : Int)
    (s : List Char) :
    ∃ out : List (Pair Char μ), lines E n (.text s none) = (out, none) ∧
      out.map (fun p => p.2) = PyStr.splitlines false s ++ lastLine (AtLineStart s) ∧
      out.map (fun p => p.1.line) = PyStr.splitlines true s ++ lastLine (AtLineStart s) ∧
      out.map (fun p => p.1.lineNumber) = (List.range out.length).map (fun i : Nat => n + (i : Int)) := by
  obtain ⟨out, h1, h2, h3, h4⟩ := lines_of_parts (μ := μ) (E := E) (L := lineParts s) hc (by rw [hl]; decide +kernel)
    (by rw [hl]; decide +kernel) n s (by rw [hl]; exact lineParts_alternates s) (lineParts_flatten s)
  exact ⟨out, h1, by rw [h2, (lineParts_splitlines s).1], by rw [h3, (lineParts_splitlines s).2], h4⟩

/-- **C142**, for every bytes object. -/
theorem C142_lines_splitlines_bytes {μ : Type} {E : Env UInt8} (hc : CacheOK E.sq.cache) (hl : E.linebreaks = bytesLinebreaks)
    (n : Int) (s : List UInt8) :
    ∃ out : List (Pair UInt8 μ), lines E n (.text s none) = (out, none) ∧
      out.map (fun p => p.2) = PyBytes.splitlines false s ++ lastLine (AtLineStartB s) ∧
      out.map (fun p => p.1.line) = PyBytes.splitlines true s ++ lastLine (AtLineStartB s) ∧
      out.map (fun p => p.1.lineNumber) = (List.range out.length).map (fun i : Nat => n + (i : Int)) := by
  obtain ⟨out, h1, h2, h3, h4⟩ := lines_of_parts (μ := μ) (E := E) (L := byteParts s) hc (by rw [hl]; decide +kernel)
    (by rw [hl]; decide +kernel) n s (by rw [hl]; exact byteParts_alternatesB s) (byteParts_flattenB s)
  exact ⟨out, h1, by rw [h2, (byteParts_splitlines s).1], by rw [h3, (byteParts_splitlines s).2], h4⟩

/-- **C142**: lines_filter_empty_lines(lines(s)) yields the lines of s.splitlines() that are not empty; the last empty line makes
no difference. -/
theorem C142_without_empty_lines {μ : Type} {E : Env Char} (hc : CacheOK E.sq.cache) (hl : E.linebreaks = strLinebreaks) (n : Int)
    (s : List Char) :
    ((Modifier.apply E (lines (μ := μ) E n (.text s none)) .filterEmptyLines).1).map (fun p => p.2) =
      (PyStr.splitlines false s).filter (fun l => decide (l ≠ [])) := by
  obtain ⟨out, h1, h2, -, -⟩ := C142_lines_splitlines (μ := μ) hc hl n s
  rw [h1, C63_filter_empty_lines]
  have := List.filter_map (f := fun p : Pair Char μ => p.2) (p := fun l => decide (l ≠ [])) (l := out)
  dsimp only
  rw [show (fun p : Pair Char μ => decide (p.2 ≠ [])) = (fun l => decide (l ≠ [])) ∘ fun p => p.2 from rfl, ← this, h2,
    List.filter_append]
  cases AtLineStart s <;> simp [lastLine]

/-- With CR LF, a form feed (a line break for str, not for bytes) and a last line break. -/
example : PyStr.splitlines false "a\r\n\nb\x0cc\n".toList ++ lastLine (AtLineStart "a\r\n\nb\x0cc\n".toList) =
      ["a".toList, [], "b".toList, "c".toList, []] ∧
    PyBytes.splitlines true [97, 13, 10, 12, 98] ++ lastLine (AtLineStartB [97, 13, 10, 12, 98]) = [[97, 13, 10], [12, 98]] ∧
    ∃ E : Env Char, CacheOK E.sq.cache ∧ E.linebreaks = strLinebreaks := by
  refine ⟨by decide +kernel, by decide +kernel, { strEnv with linebreaks := strLinebreaks }, ?_, rfl⟩
  intro _ _ h
  simp [strEnv, Big.SQ.strEnv] at h

end Big.Lines
