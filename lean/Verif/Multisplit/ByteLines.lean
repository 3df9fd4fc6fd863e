import Verif.Multisplit.Builtins
import Verif.Multisplit.Tables2
/-! # C72: splitting bytes with the tables of bytes is what bytes' own methods do -/
namespace Big.MS
open Spec

namespace PyBytes

/-- Put a byte before the first line. -/
def onFirst (c : UInt8) : List (List UInt8) → List (List UInt8)
  | [] => [[c]]
  | l :: ls => (c :: l) :: ls

/-- Is it a line boundary of `bytes.splitlines` on its own? (Python's documentation: universal
newlines.) -/
def isBreak (c : UInt8) : Bool := decide (c = 10 ∨ c = 13)

/-- `s.splitlines(keepends)` of a bytes object. -/
def splitlines (keepends : Bool) : List UInt8 → List (List UInt8)
  | [] => []
  | [c] => if isBreak c then [if keepends then [c] else []] else [[c]]
  | c :: d :: t =>
    if c = 13 ∧ d = 10 then (if keepends then [13, 10] else []) :: splitlines keepends t
    else if isBreak c then (if keepends then [c] else []) :: splitlines keepends (d :: t)
    else onFirst c (splitlines keepends (d :: t))

end PyBytes
open PyBytes

/-- The alternating list of lines and line boundaries. -/
def byteParts : List UInt8 → List (List UInt8)
  | [] => [[]]
  | [c] => if isBreak c then [[], [c], []] else [[c]]
  | c :: d :: t =>
    if c = 13 ∧ d = 10 then [] :: [13, 10] :: byteParts t
    else if isBreak c then [] :: [c] :: byteParts (d :: t)
    else onFirst c (byteParts (d :: t))

theorem onFirst_flattenB (c : UInt8) (l : List (List UInt8)) : (onFirst c l).flatten = c :: l.flatten := by
  cases l <;> simp [onFirst]

theorem byteParts_flattenB : ∀ s, (byteParts s).flatten = s
  | [] => rfl
  | [c] => by by_cases h : isBreak c <;> simp [byteParts, h]
  | c :: d :: t => by
    rw [byteParts]
    split
    · rename_i h; simp [byteParts_flattenB t, h.1, h.2]
    · split
      · simp [byteParts_flattenB (d :: t)]
      · rw [onFirst_flattenB, byteParts_flattenB (d :: t)]

theorem mem_linebreaksB {w : List UInt8} :
    w ∈ bytesLinebreaks ↔ w = [13, 10] ∨ ∃ c, w = [c] ∧ isBreak c = true := by
  rw [C72_bytes_tables.2.2.1.2]
  have : ∀ c : UInt8, isBreak c = true ↔ ByteBreak c.toNat := by
    intro c
    simp only [isBreak, ByteBreak, decide_eq_true_eq, ← UInt8.toNat_inj]
    rfl
  simp only [true_and, this]
  exact Or.comm

theorem noSep_linebreaksB {s : List UInt8} :
    NoSep bytesLinebreaks s ↔ ∀ c t, s = c :: t → isBreak c = false := by
  constructor
  · rintro h c t rfl
    cases hb : isBreak c with
    | false => rfl
    | true => exact absurd (⟨t, rfl⟩ : [c] <+: c :: t) (h [c] (mem_linebreaksB.2 (.inr ⟨c, rfl, hb⟩)))
  · intro h w hw ⟨t, e⟩
    rcases mem_linebreaksB.1 hw with rfl | ⟨c, rfl, hb⟩
    · have := h 13 (10 :: t) (by simp [← e])
      exact absurd this (by decide)
    · have := h c t (by simp [← e])
      rw [hb] at this; simp at this

theorem longest_crlfB (t : List UInt8) : Longest bytesLinebreaks [13, 10] (13 :: 10 :: t) := by
  refine ⟨by decide +kernel, ⟨t, rfl⟩, ?_⟩
  intro w hw _
  rcases mem_linebreaksB.1 hw with rfl | ⟨c, rfl, _⟩ <;> simp

theorem longest_breakB {c : UInt8} (hb : isBreak c = true) {t : List UInt8}
    (h : ¬ (c = 13 ∧ t.head? = some 10)) : Longest bytesLinebreaks [c] (c :: t) := by
  refine ⟨mem_linebreaksB.2 (.inr ⟨c, rfl, hb⟩), ⟨t, rfl⟩, ?_⟩
  intro w hw ⟨u, e⟩
  rcases mem_linebreaksB.1 hw with rfl | ⟨c, rfl, _⟩
  · simp only [List.cons_append, List.nil_append, List.cons.injEq] at e
    exact absurd ⟨e.1.symm, by rw [← e.2]; rfl⟩ h
  · simp

theorem alternates_onFirstB {c : UInt8} (hb : isBreak c = false) : ∀ {l : List (List UInt8)},
    Alternates bytesLinebreaks true l → Alternates bytesLinebreaks true (onFirst c l)
  | [], h => by simp [Alternates] at h
  | [n], h => by
    intro a b e
    cases a with
    | nil =>
      rw [noSep_linebreaksB]
      rintro d t rfl
      simp only [List.nil_append, List.cons.injEq] at e
      rw [← e.1]; exact hb
    | cons x a =>
      simp only [List.cons_append, List.cons.injEq] at e
      exact h a b e.2
  | n :: w :: r, h => by
    obtain ⟨h1, h2⟩ := h
    refine ⟨?_, h2⟩
    intro a b e hbn
    cases a with
    | nil =>
      rw [noSep_linebreaksB]
      simp only [List.nil_append] at e
      subst e
      intro d t e
      simp only [List.cons_append, List.cons.injEq] at e
      rw [← e.1]; exact hb
    | cons x a =>
      simp only [List.cons_append, List.cons.injEq] at e
      exact h1 a b e.2 hbn

theorem byteParts_alternatesB : ∀ s, Alternates bytesLinebreaks true (byteParts s)
  | [] => by
    intro a b e
    rw [noSep_linebreaksB]
    rintro c t rfl
    simp at e
  | [c] => by
    rw [byteParts]
    split
    · rename_i hb
      refine ⟨fun a b e h => ?_, longest_breakB hb (by simp), byteParts_alternatesB []⟩
      simp only [List.nil_eq, List.append_eq_nil_iff] at e
      exact absurd e.2 h
    · rename_i hb
      exact alternates_onFirstB (by simpa using hb) (byteParts_alternatesB [])
  | c :: d :: t => by
    rw [byteParts]
    split
    · rename_i h
      obtain ⟨rfl, rfl⟩ := h
      refine ⟨fun a b e h => ?_, ?_, byteParts_alternatesB t⟩
      · simp only [List.nil_eq, List.append_eq_nil_iff] at e
        exact absurd e.2 h
      · exact longest_crlfB _
    · rename_i hcr
      split
      · rename_i hb
        refine ⟨fun a b e h => ?_, ?_, byteParts_alternatesB (d :: t)⟩
        · simp only [List.nil_eq, List.append_eq_nil_iff] at e
          exact absurd e.2 h
        · refine longest_breakB hb ?_
          rw [byteParts_flattenB]
          simpa using hcr
      · rename_i hb
        exact alternates_onFirstB (by simpa using hb) (byteParts_alternatesB (d :: t))

/-- Drop a last empty string. -/
def popNilB (l : List (List UInt8)) : List (List UInt8) :=
  if l.getLast? = some [] then l.dropLast else l

theorem popEmpty_mapB (l : List (List UInt8)) :
    popEmpty (l.map Item.str) = (popNilB l).map Item.str := by
  cases l with
  | nil => rfl
  | cons a l =>
    simp only [popNilB, popEmpty, List.map_cons]
    rw [← List.map_cons, List.getLast?_map]
    cases h : (a :: l).getLast? with
    | none => simp at h
    | some x =>
      simp only [Option.map_some, Option.some.injEq, Item.str.injEq]
      split <;> simp

theorem popNil_consB {a : List UInt8} {l : List (List UInt8)} (h : l ≠ []) :
    popNilB (a :: l) = a :: popNilB l := by
  cases l with
  | nil => exact absurd rfl h
  | cons b l =>
    simp only [popNilB, List.getLast?_cons_cons]
    split <;> simp

theorem texts_neB {l : List (List UInt8)} (h : l ≠ []) : texts l ≠ [] ∧ joined l ≠ [] := by
  match l, h with
  | [a], _ => simp [texts, joined]
  | a :: w :: r, _ => simp [texts, joined]

theorem byteParts_neB (s : List UInt8) : byteParts s ≠ [] := fun e => by
  have := byteParts_alternatesB s
  rw [e] at this
  exact this

theorem texts_onFirstB (c : UInt8) : ∀ {l : List (List UInt8)}, l ≠ [] →
    texts (onFirst c l) = onFirst c (texts l) ∧ joined (onFirst c l) = onFirst c (joined l)
  | [a], _ => by simp [onFirst, texts, joined]
  | a :: w :: r, _ => by simp [onFirst, texts, joined]

theorem popNil_onFirstB (c : UInt8) : ∀ {l : List (List UInt8)}, l ≠ [] →
    popNilB (onFirst c l) = onFirst c (popNilB l)
  | [a], _ => by
    cases a <;> simp [popNilB, onFirst]
  | a :: b :: r, _ => by
    show popNilB ((c :: a) :: b :: r) = _
    rw [popNil_consB (a := c :: a) (by simp), popNil_consB (a := a) (by simp)]
    rfl

theorem splitlines_partsB : ∀ s, popNilB (texts (byteParts s)) = splitlines false s ∧
    popNilB (joined (byteParts s)) = splitlines true s
  | [] => by simp [byteParts, texts, joined, popNilB, splitlines]
  | [c] => by
    by_cases h : isBreak c <;> simp [byteParts, h, texts, joined, popNilB, splitlines]
  | c :: d :: t => by
    by_cases hcr : c = 13 ∧ d = 10
    · have ih := splitlines_partsB t
      have hne := texts_neB (byteParts_neB t)
      simp only [byteParts, splitlines, if_pos hcr, texts, joined, popNil_consB hne.1,
        popNil_consB hne.2, ih.1, ih.2]
      simp
    · have ih := splitlines_partsB (d :: t)
      have hne := texts_neB (byteParts_neB (d :: t))
      by_cases hb : isBreak c = true
      · simp only [byteParts, splitlines, if_neg hcr, if_pos hb, texts, joined, popNil_consB hne.1,
          popNil_consB hne.2, ih.1, ih.2]
        simp
      · have hf := texts_onFirstB c (byteParts_neB (d :: t))
        simp only [byteParts, splitlines, if_neg hcr, hb, if_false, hf.1, hf.2,
          popNil_onFirstB c hne.1, popNil_onFirstB c hne.2, ih.1, ih.2, Bool.false_eq_true, and_self]

/-- C72: splitting bytes at bytes_linebreaks (and dropping a last empty line, as the README's
str_splitlines does) is `bytes.splitlines`, for every bytes object. -/
theorem C72_bytes_splitlines (s : List UInt8) (keepends : Bool) :
    readmeSplitlines 10 bytesCache s bytesLinebreaks keepends
      = .ok ((PyBytes.splitlines keepends s).map .str) := by
  obtain ⟨l, h1, h2⟩ := multisplit_spec (nl := 10) C72_reversed_tables.2 (seps := bytesLinebreaks)
    (by decide +kernel) (by decide +kernel) true false s
  have hl : l = byteParts s := by
    refine alternates_unique _ _ (by simpa using h1.2) (byteParts_alternatesB s) ?_
    rw [h1.1, byteParts_flattenB]
  subst hl
  have := splitlines_partsB s
  cases keepends <;>
    simp [readmeSplitlines, h2, Except.map, allowed, cut, render, popEmpty_mapB, this]

/-- C72: splitting bytes at bytes_whitespace with strip=PROGRESSIVE (dropping a last empty string, as
the README does) is `bytes.split(None, n)` and `bytes.rsplit(None, n)`. -/
theorem C72_bytes_split_none (s : List UInt8) (n : Int) (hn : -1 ≤ n) :
    readmeSplitNone 10 bytesCache s bytesWhitespace n false
      = .ok ((pySplitNone isByteSpace s n).map .str) ∧
    readmeSplitNone 10 bytesCache s bytesWhitespace n true
      = .ok ((pyRsplitNone isByteSpace s n).map .str) :=
  C68_readme_split_none C72_reversed_tables.2 (by decide +kernel) (by decide +kernel)
    C72_space_sets.2.2.2.1 (by decide +kernel) s n hn

/-- The line boundaries of bytes are not those of str: b"a\x0bb" is one line. -/
example : PyBytes.splitlines false [97, 11, 98] = [[97, 11, 98]] := by decide +kernel
example : readmeSplitlines 10 bytesCache [97, 13, 10, 98, 10] bytesLinebreaks false =
    .ok [.str [97], .str [98]] := by rw [C72_bytes_splitlines]; decide +kernel
example : readmeSplitNone 10 bytesCache [32, 97, 13, 10, 98, 32] bytesWhitespace (-1) false =
    .ok [.str [97], .str [98]] := by rw [(C72_bytes_split_none _ _ (by decide)).1]; decide +kernel

end Big.MS
