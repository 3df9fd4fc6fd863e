import Verif.File.Grep
import Verif.Lines.Code
/-! # C156: searching a file of UTF-8 as text and as bytes -/
namespace Big.File
open Big.MS (utf8)
open Big.Lines (enc enc_code enc_inj enc_nil enc_append mem_utf8 ascii_byte)

/-! ### Specification -/

/-- What is found, encoded, with the same numbers. -/
def encodeFound : Found Char → Found UInt8
  | .numbered l => .numbered (l.map (fun x => (x.1, enc x.2)))
  | .plain l => .plain (l.map enc)

/-- The file `path` has the text `s`, encoded in UTF-8. -/
structure HasText (W : World) (path : String) (s : List Char) : Prop where
  read : W.read path = some (enc s)
  decode : W.decode (some "utf-8") (enc s) = .ok s

/-! ### Lemmas -/

theorem enc_cons (c : Char) (s : List Char) : enc (c :: s) = utf8 c ++ enc s := rfl

theorem split_ascii_pre {u : List UInt8} (hu : (10 : UInt8) ∉ u) : ∀ {s : List UInt8} {l ls}, split 10 s = l :: ls →
    split 10 (u ++ s) = (u ++ l) :: ls := by
  induction u with
  | nil => intro s l ls h; exact h
  | cons b u ih =>
    intro s l ls h
    simp only [List.mem_cons, not_or] at hu
    rw [List.cons_append, split, if_neg (fun e => hu.1 e.symm), ih hu.2 h]
    rfl

theorem utf8_lf {c : Char} (hc : c ≠ '\n') : (10 : UInt8) ∉ utf8 c := by
  intro hm
  have := mem_utf8 c hm (by decide)
  exact hc (Big.Lines.toNat_lit.2 this)

theorem split_code : ∀ s : List Char, split 10 (enc s) = (split '\n' s).map enc
  | [] => rfl
  | c :: s => by
    have ih := split_code s
    rw [enc_cons, split]
    by_cases hc : c = '\n'
    · subst hc
      have : utf8 '\n' = [10] := by decide +kernel
      rw [this, List.singleton_append, split, if_pos rfl, if_pos rfl, ih]
      rfl
    · rw [if_neg hc]
      cases hs : split '\n' s with
      | nil => exact absurd hs (split_ne _ _)
      | cons l ls =>
        rw [hs, List.map_cons] at ih
        rw [split_ascii_pre (utf8_lf hc) ih]
        rfl

theorem contains_code (t l : List Char) : contains (enc t) (enc l) = contains t l := by
  rw [Bool.eq_iff_iff, contains_iff, contains_iff]
  by_cases ht : t = []
  · subst ht; simp [enc_nil]
  constructor
  · rintro ⟨x, y, h⟩
    obtain ⟨x', y', h1, _, _⟩ := enc_code.aligned l t x y ht h.symm
    exact ⟨x', y', h1.symm⟩
  · rintro ⟨x, y, h⟩
    exact ⟨enc x, enc y, by rw [← enc_append, ← enc_append, h]⟩

theorem universal_id : ∀ {s : List Char}, '\r' ∉ s → universal s = s
  | [], _ => rfl
  | c :: s, h => by
    simp only [List.mem_cons, not_or] at h
    rw [universal_cons (fun e => h.1 e.symm), universal_id h.2]

theorem enum_code (l : List (List Char)) : enum (l.map enc) = (enum l).map (fun x => (x.1, enc x.2)) := by
  unfold enum
  rw [List.length_map, List.zip_map_right]
  rfl

theorem readText_code {W : World} {path : String} {s : List Char} (h : HasText W path s) :
    readText W path (some "utf-8") = .ok (universal s) := by
  unfold readText
  rw [h.read]
  dsimp only
  rw [h.decode]

theorem readBytes_code {W : World} {path : String} {s : List Char} (h : HasText W path s) :
    readBytes W path = .ok (enc s) := by
  unfold readBytes
  rw [h.read]

theorem filter_code {α β : Type} (f : α → β) (p : α → Bool) (q : β → Bool) (l : List α) (h : ∀ a ∈ l, q (f a) = p a) :
    (l.map f).filter q = (l.filter p).map f := by
  rw [List.filter_map]
  congr 1
  exact List.filter_congr h

/-- C156: fgrep for an encoded text, in a file without `\r`, finds the lines that fgrep for the text finds, encoded, with
the same numbers. -/
theorem C156_fgrep {W : World} {path : String} {s : List Char} (h : HasText W path s) (hcr : '\r' ∉ s) (t : List Char)
    (enumerate : Bool) :
    ∃ r, fgrep W path (.str t) (some "utf-8") enumerate false = .ok (.str r) ∧
      fgrep W path (.bytes (enc t)) none enumerate false = .ok (.bytes (encodeFound r)) := by
  refine ⟨_, by unfold fgrep; dsimp only; rw [readText_code h], ?_⟩
  unfold fgrep
  dsimp only
  rw [if_neg (by decide), readBytes_code h, universal_id hcr]
  cases enumerate with
  | true =>
    simp only [if_true, encodeFound, fgrepNumbered, Bool.not_false, split_code, enum_code]
    rw [filter_code _ (fun x => contains t x.2) _ _ (fun a _ => contains_code t a.2)]
  | false =>
    simp only [Bool.false_eq_true, if_false, encodeFound, fgrepPlain, Bool.not_false, if_true, split_code]
    rw [filter_code _ (contains t) _ _ (fun a _ => contains_code t a)]

/-- C156: grep too, if the pattern of bytes is found in an encoded line exactly if the pattern is found in the line. -/
theorem C156_grep {W : World} {path : String} {s : List Char} (h : HasText W path s) (hcr : '\r' ∉ s)
    (search : List Char → Bool) (searchBytes : List UInt8 → Bool)
    (hse : ∀ l, '\n' ∉ l → searchBytes (enc l) = search l) (enumerate : Bool) (flags : Nat) :
    ∃ r, grep W path (.compiledStr search) (some "utf-8") enumerate flags = .ok (.str r) ∧
      grep W path (.compiledBytes searchBytes) none enumerate flags = .ok (.bytes (encodeFound r)) := by
  refine ⟨_, by unfold grep compiled; dsimp only; rw [readText_code h], ?_⟩
  unfold grep compiled
  dsimp only
  rw [if_neg (by decide), readBytes_code h, universal_id hcr]
  have hl : ∀ l ∈ split '\n' s, '\n' ∉ l := (split_areLines '\n' s).2.1
  cases enumerate with
  | true =>
    simp only [if_true, encodeFound, grepNumbered, split_code, enum_code]
    rw [filter_code (fun x => (x.1, enc x.2)) (fun x => search x.2) (fun x => searchBytes x.2) (enum (split '\n' s))
      (fun a ha => hse a.2 (hl _ (List.of_mem_zip ha).2))]
  | false =>
    simp only [Bool.false_eq_true, if_false, encodeFound, grepPlain, split_code]
    rw [filter_code _ search _ _ (fun a ha => hse a (hl a ha))]

/-! ### case_insensitive -/

theorem lower_code {s : List Char} (hs : ∀ c ∈ s, c.toNat < 128) : (enc s).map lowerByte = enc (s.map Char.toLower) := by
  induction s with
  | nil => rfl
  | cons c s ih =>
    have key : ∀ n < 128, (utf8 (Char.ofNat n)).map lowerByte = utf8 (Char.ofNat n).toLower := by decide +kernel
    have := key c.toNat (hs c (by simp))
    rw [Char.ofNat_toNat] at this
    rw [enc_cons, List.map_append, ih (fun c hc => hs c (by simp [hc])), this]
    rfl

/-- C156: case_insensitive too, if the file and the text are ASCII. `hlow`: str.lower of an ASCII string. -/
theorem C156_fgrep_case_insensitive {W : World} {path : String} {s : List Char} (h : HasText W path s) (hcr : '\r' ∉ s)
    (hs : ∀ c ∈ s, c.toNat < 128) (t : List Char) (ht : ∀ c ∈ t, c.toNat < 128)
    (hlow : ∀ l : List Char, (∀ c ∈ l, c.toNat < 128) → W.lower l = l.map Char.toLower) (enumerate : Bool) :
    ∃ r, fgrep W path (.str t) (some "utf-8") enumerate true = .ok (.str r) ∧
      fgrep W path (.bytes (enc t)) none enumerate true = .ok (.bytes (encodeFound r)) := by
  refine ⟨_, by unfold fgrep; dsimp only; rw [readText_code h], ?_⟩
  unfold fgrep
  dsimp only
  rw [if_neg (by decide), readBytes_code h, universal_id hcr]
  have hz : ∀ a b : List (List Char), (a.map enc).zip (b.map enc) = (a.zip b).map (fun x => (enc x.1, enc x.2)) := by
    intro a b
    rw [List.zip_map]
    rfl
  cases enumerate with
  | true =>
    simp only [if_true, encodeFound, fgrepNumbered, Bool.not_true, Bool.false_eq_true, if_false, hlow s hs, hlow t ht,
      lower_code hs, lower_code ht, split_code, hz]
    have he : ∀ l : List (List Char × List Char), enum (l.map (fun x => (enc x.1, enc x.2))) =
        (enum l).map (fun x => (x.1, enc x.2.1, enc x.2.2)) := by
      intro l; unfold enum; rw [List.length_map, List.zip_map_right]; rfl
    rw [he, filter_code _ (fun x => contains (t.map Char.toLower) x.2.2) _ _ (fun a _ => contains_code _ a.2.2)]
    simp only [List.map_map, Function.comp_def]
  | false =>
    simp only [Bool.false_eq_true, if_false, encodeFound, fgrepPlain, Bool.not_true, hlow s hs, hlow t ht,
      lower_code hs, lower_code ht, split_code, hz]
    rw [filter_code _ (fun x => contains (t.map Char.toLower) x.2) _ _ (fun a _ => contains_code _ a.2)]
    simp only [List.map_map, Function.comp_def]

/-! ### Lines that end in CR LF -/

/-- The lines of the encoded text, each with a `\r` but the last. -/
def crLines : List (List Char) → List (List UInt8)
  | [] => []
  | [l] => [enc l]
  | l :: m :: ls => (enc l ++ [13]) :: crLines (m :: ls)

theorem enc_crlf : enc ['\r', '\n'] = [13, 10] := by decide +kernel
theorem enc_cr : enc ['\r'] = [13] := by decide +kernel

theorem split_crlf : ∀ (ls : List (List Char)), ls ≠ [] → (∀ l ∈ ls, '\r' ∉ l ∧ '\n' ∉ l) →
    split 10 (enc (List.intercalate ['\r', '\n'] ls)) = crLines ls ∧
      split '\n' (universal (List.intercalate ['\r', '\n'] ls)) = ls
  | [], h, _ => absurd rfl h
  | [l], _, hl => by
    obtain ⟨h1, h2⟩ := hl l (by simp)
    have : List.intercalate ['\r', '\n'] [l] = l := by simp [List.intercalate]
    rw [this, universal_id h1, split_code, split_line h2]
    exact ⟨rfl, rfl⟩
  | l :: m :: ls, _, hl => by
    obtain ⟨h1, h2⟩ := hl l (by simp)
    obtain ⟨i1, i2⟩ := split_crlf (m :: ls) (by simp) (fun l hm => hl l (by simp [hm]))
    rw [intercalate_cons2]
    generalize hrest : List.intercalate ['\r', '\n'] (m :: ls) = rest at i1 i2
    constructor
    · rw [enc_append, enc_append, enc_crlf]
      have e : enc l ++ [13, 10] ++ enc rest = (enc l ++ [13]) ++ 10 :: enc rest := by simp
      have hn : (10 : UInt8) ∉ enc l ++ [13] := by
        rw [List.mem_append]
        rintro (hm | hm)
        · obtain ⟨c, hc, hm⟩ := List.mem_flatMap.1 hm
          exact utf8_lf (fun e => h2 (e ▸ hc)) hm
        · simp at hm
      rw [e, split_append hn, i1]
      rfl
    · rw [List.append_assoc, universal_append h1]
      show split '\n' (l ++ '\n' :: universal rest) = _
      rw [split_append h2, i2]

theorem contains_cr {t l : List Char} (ht : '\r' ∉ t) : contains (enc t) (enc l ++ [13]) = contains t l := by
  rw [← enc_cr, ← enc_append, contains_code, Bool.eq_iff_iff, contains_iff, contains_iff]
  rw [List.infix_concat_iff, List.suffix_concat_iff]
  constructor
  · rintro ((rfl | ⟨t', rfl, _⟩) | h)
    · exact List.nil_infix
    · exact absurd (by simp) ht
    · exact h
  · exact .inr

theorem zip_crlf (last : Nat) : ∀ (ls : List (List Char)) (k : Nat), k + ls.length = last + 1 →
    (List.range' k ls.length).zip (crLines ls) =
      ((List.range' k ls.length).zip ls).map (fun x => (x.1, if x.1 < last then enc x.2 ++ [13] else enc x.2))
  | [], k, _ => rfl
  | [l], k, h => by
    simp only [List.length_singleton] at h
    have : ¬ k < last := by omega
    simp [crLines, List.range'_succ, this]
  | l :: m :: ls, k, h => by
    have ih := zip_crlf last (m :: ls) (k + 1) (by simp only [List.length_cons] at h ⊢; omega)
    have : k < last := by simp only [List.length_cons] at h; omega
    rw [List.length_cons, List.range'_succ, crLines, List.zip_cons_cons, List.zip_cons_cons, ih, List.map_cons, if_pos this]

theorem crLines_length : ∀ ls : List (List Char), (crLines ls).length = ls.length
  | [] => rfl
  | [_] => rfl
  | _ :: m :: ls => by rw [crLines, List.length_cons, crLines_length (m :: ls)]; rfl

/-- C156: in a file whose lines end in CR LF, fgrep for encoded text without `\r` finds the lines that fgrep for the text
finds, with the same numbers, encoded, and each with the `\r` at its end but for the file's last line. -/
theorem C156_crlf {W : World} {path : String} {ls : List (List Char)} (hne : ls ≠ [])
    (hl : ∀ l ∈ ls, '\r' ∉ l ∧ '\n' ∉ l) (h : HasText W path (List.intercalate ['\r', '\n'] ls))
    (t : List Char) (ht : '\r' ∉ t) :
    ∃ r, fgrep W path (.str t) (some "utf-8") true false = .ok (.str (.numbered r)) ∧
      fgrep W path (.bytes (enc t)) none true false = .ok (.bytes (.numbered
        (r.map (fun x => (x.1, if x.1 < ls.length then enc x.2 ++ [13] else enc x.2))))) := by
  obtain ⟨h1, h2⟩ := split_crlf ls hne hl
  refine ⟨(enum ls).filter (fun x => contains t x.2), ?_, ?_⟩
  · unfold fgrep
    dsimp only
    rw [readText_code h]
    simp only [if_true, fgrepNumbered, Bool.not_false, h2]
  · unfold fgrep
    dsimp only
    rw [if_neg (by decide), readBytes_code h]
    simp only [if_true, fgrepNumbered, Bool.not_false, h1]
    unfold enum
    rw [crLines_length, zip_crlf ls.length ls 1 (by omega),
      filter_code (fun x : Nat × List Char => (x.1, if x.1 < ls.length then enc x.2 ++ [13] else enc x.2))
        (fun x => contains t x.2) (fun x => contains (enc t) x.2) _ ?_]
    intro a _
    dsimp only
    split
    · exact contains_cr ht
    · exact contains_code t a.2

/-! ### examples -/

/-- A file system of one file, with the lower case of Latin-1 letters. -/
def oneFile (s : List Char) : World where
  read _ := some (enc s)
  decode _ _ := .ok s
  lower := List.map (fun c => if 0xc0 ≤ c.toNat ∧ c.toNat ≤ 0xde then Char.ofNat (c.toNat + 32) else c.toLower)
  compileStr p _ := .ok (contains p)
  compileBytes p _ := .ok (contains p)

theorem oneFile_has (s : List Char) : HasText (oneFile s) "f" s := ⟨rfl, rfl⟩

theorem toLower_ascii (c : Char) (h : c.toNat < 128) :
    (if 0xc0 ≤ c.toNat ∧ c.toNat ≤ 0xde then Char.ofNat (c.toNat + 32) else c.toLower) = c.toLower := by
  rw [if_neg (by omega)]

theorem oneFile_lower (s : List Char) : ∀ l : List Char, (∀ c ∈ l, c.toNat < 128) → (oneFile s).lower l = l.map Char.toLower :=
  fun l h => List.map_congr_left (fun c hc => toLower_ascii c (h c hc))

/-- C156: case_insensitive finds a letter that is not ASCII in another case in text, but not in bytes. -/
theorem C156_counterexample_case :
    fgrep (oneFile ['É']) "f" (.str ['é']) (some "utf-8") false true = .ok (.str (.plain [['É']])) ∧
    fgrep (oneFile ['É']) "f" (.bytes (enc ['é'])) none false true = .ok (.bytes (.plain [])) := by
  constructor
  · simp only [fgrep, readText]; rfl
  · simp only [fgrep, readBytes]; rfl

/-- C156: after a lone `\r` there is a new line in text, but not in bytes. -/
theorem C156_counterexample_cr :
    fgrep (oneFile ['a', '\r', 'b']) "f" (.str ['b']) (some "utf-8") true false = .ok (.str (.numbered [(2, ['b'])])) ∧
    fgrep (oneFile ['a', '\r', 'b']) "f" (.bytes [98]) none true false = .ok (.bytes (.numbered [(1, [97, 13, 98])])) := by
  constructor
  · simp only [fgrep, readText]; rfl
  · simp only [fgrep, readBytes]; rfl

example : '\r' ∉ ['x', '\n', 'ë', '«'] ∧
    fgrep (oneFile ['x', '\n', 'ë', '«']) "f" (.str ['«']) (some "utf-8") true false =
      .ok (.str (.numbered [(2, ['ë', '«'])])) ∧
    fgrep (oneFile ['x', '\n', 'ë', '«']) "f" (.bytes [194, 171]) none true false =
      .ok (.bytes (.numbered [(2, [195, 171, 194, 171])])) := by
  refine ⟨by decide, ?_, ?_⟩
  · simp only [fgrep, readText]; rfl
  · simp only [fgrep, readBytes]; rfl

example : (∀ l ∈ [['a'], ['b', 'a']], '\r' ∉ l ∧ '\n' ∉ l) ∧
    fgrep (oneFile ['a', '\r', '\n', 'b', 'a']) "f" (.bytes [97]) none true false =
      .ok (.bytes (.numbered [(1, [97, 13]), (2, [98, 97])])) := by
  refine ⟨by decide, ?_⟩
  simp only [fgrep, readBytes]; rfl

end Big.File
