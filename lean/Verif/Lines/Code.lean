import Verif.Lines.Splitlines
import Verif.Lines.Laws
import Verif.Quoted.CodeProps
/-! # C154: the lines of encoded text: specification and lemmas -/
namespace Big.Lines
open Big.MS (utf8 Code code_of_aligned strLinebreaks bytesLinebreaks lineParts byteParts Item)
open Big.SQ (pyStr pyBytes utf8_code utf8_ascii)

variable {μ : Type}

/-! ### Specification -/

/-- `s.encode('utf-8')` -/
def enc (s : List Char) : List UInt8 := s.flatMap utf8

/-- A LineInfo object with its strings encoded, and its numbers unchanged. -/
def encodeInfo (i : Info Char μ) : Info UInt8 μ where
  line := enc i.line
  lineNumber := i.lineNumber
  columnNumber := i.columnNumber
  leading := enc i.leading
  trailing := enc i.trailing
  lineEnd := enc i.lineEnd
  indent := i.indent
  attrs := i.attrs

/-- A pair of a LineInfo object and a line, encoded. -/
def encodePair (p : Pair Char μ) : Pair UInt8 μ := (encodeInfo p.1, enc p.2)

/-- What is yielded, encoded, and the same exception. -/
def encodeStream (r : Stream Char μ) : Stream UInt8 μ := (r.1.map encodePair, r.2)

/-- Python's str, as far as the lines functions are concerned, and the arguments of `lines`. -/
def strText (column tabWidth : Int) : Env Char where
  tab := '\t'
  space := ' '
  nl := '\n'
  cr := '\r'
  isSpace := Big.MS.isSpace
  linebreaks := strLinebreaks
  column := column
  tabWidth := tabWidth
  sq := pyStr

/-- Python's bytes, as far as the lines functions are concerned, and the arguments of `lines`. -/
def bytesText (column tabWidth : Int) : Env UInt8 where
  tab := 9
  space := 32
  nl := 10
  cr := 13
  isSpace b := decide (9 ≤ b ∧ b ≤ 13 ∨ b = 32)
  linebreaks := bytesLinebreaks
  column := column
  tabWidth := tabWidth
  sq := pyBytes

/-- The only line breaks are `\n` and `\r`, and the only whitespace is ASCII whitespace but for the separators 1C to 1F. -/
def Plain (s : List Char) : Prop :=
  ∀ c ∈ s, (Big.MS.PyStr.isBreak c = true → c = '\n' ∨ c = '\r') ∧
    (Big.MS.isSpace c = true → 9 ≤ c.toNat ∧ c.toNat ≤ 13 ∨ c.toNat = 32)

/-! ### Encoding -/

theorem enc_code : Code enc := utf8_code
theorem enc_nil : enc [] = [] := rfl
theorem enc_append (a b : List Char) : enc (a ++ b) = enc a ++ enc b := enc_code.append a b
theorem enc_isEmpty (a : List Char) : (enc a).isEmpty = a.isEmpty := Big.SQ.code_isEmpty enc_code a
theorem enc_inj {a b : List Char} : enc a = enc b ↔ a = b := ⟨fun h => enc_code.inj h, fun h => by rw [h]⟩

theorem utf8_of_lt (c : Char) (h : c.toNat < 128) : utf8 c = [c.toNat.toUInt8] := by
  have : ∀ n < 128, utf8 (Char.ofNat n) = [n.toUInt8] := by decide +kernel
  have := this c.toNat h
  rwa [Char.ofNat_toNat] at this

theorem enc_ascii_length : ∀ {a : List Char}, (∀ c ∈ a, c.toNat < 128) → (enc a).length = a.length
  | [], _ => rfl
  | c :: a, h => by
    have ih := enc_ascii_length (a := a) (fun c hc => h c (by simp [hc]))
    rw [show c :: a = [c] ++ a from rfl, enc_append, List.length_append, ih]
    simp [enc, utf8_of_lt c (h c (by simp))]; omega

theorem enc_suffix {a b : List Char} : enc a <:+ enc b ↔ a <:+ b := by
  have := (enc_code.mirror).prefix (w := a.reverse) (s := b.reverse)
  simp only [List.reverse_reverse] at this
  rw [List.reverse_prefix, List.reverse_prefix] at this
  exact this

theorem enc_isSuffixOf (a b : List Char) : (enc a).isSuffixOf (enc b) = a.isSuffixOf b := by
  rw [Bool.eq_iff_iff, List.isSuffixOf_iff_suffix, List.isSuffixOf_iff_suffix, enc_suffix]

theorem enc_isPrefixOf (a b : List Char) : (enc a).isPrefixOf (enc b) = a.isPrefixOf b := by
  rw [Bool.eq_iff_iff, List.isPrefixOf_iff_prefix, List.isPrefixOf_iff_prefix, enc_code.prefix]

/-- ASCII characters other than bytes of other characters. -/
theorem mem_utf8 (c : Char) {b : UInt8} (hb : b ∈ utf8 c) (hlt : b.toNat < 128) : c.toNat = b.toNat := by
  have hd : (Char.ofNat b.toNat).toNat = b.toNat := by
    have : ∀ n < 128, (Char.ofNat n).toNat = n := by decide +kernel
    exact this _ hlt
  have he := utf8_of_lt (Char.ofNat b.toNat) (by rw [hd]; exact hlt)
  rw [hd] at he
  rw [show b.toNat.toUInt8 = b by simp] at he
  rw [(utf8_ascii (c := c) he).1 hb, hd]

theorem toNat_lit {c d : Char} : c = d ↔ c.toNat = d.toNat :=
  ⟨fun h => by rw [h], fun h => by rw [← Char.ofNat_toNat c, h, Char.ofNat_toNat]⟩

/-- The byte of an ASCII character. -/
theorem ascii_byte {c : Char} (h : c.toNat < 128) : utf8 c = [c.toNat.toUInt8] ∧ c.toNat.toUInt8.toNat = c.toNat :=
  ⟨utf8_of_lt c h, by simp; omega⟩

theorem space_bytes (b : UInt8) (col tw : Int) :
    (bytesText col tw).isSpace b = true ↔ (9 ≤ b.toNat ∧ b.toNat ≤ 13 ∨ b.toNat = 32) := by
  show (bytesText 0 0).isSpace b = true ↔ _
  have : ∀ n < 256, (bytesText 0 0).isSpace n.toUInt8 = true ↔ (9 ≤ n.toUInt8.toNat ∧ n.toUInt8.toNat ≤ 13 ∨ n.toUInt8.toNat = 32) := by
    decide +kernel
  have := this b.toNat b.toNat_lt
  simpa using this

theorem space_chars (c : Char) (h : 9 ≤ c.toNat ∧ c.toNat ≤ 13 ∨ c.toNat = 32) : Big.MS.isSpace c = true := by
  have : ∀ n < 33, (9 ≤ n ∧ n ≤ 13 ∨ n = 32) → Big.MS.isSpace (Char.ofNat n) = true := by decide +kernel
  have := this c.toNat (by omega) h
  rwa [Char.ofNat_toNat] at this

/-- Whitespace is one byte, whitespace too; and of other characters no byte is whitespace. -/
theorem space_code {c : Char} (hc : Big.MS.isSpace c = true → 9 ≤ c.toNat ∧ c.toNat ≤ 13 ∨ c.toNat = 32) (col tw : Int) :
    (Big.MS.isSpace c = true ∧ c.toNat < 128 ∧ ∃ b, utf8 c = [b] ∧ (bytesText col tw).isSpace b = true) ∨
    (Big.MS.isSpace c = false ∧ ∀ b ∈ utf8 c, (bytesText col tw).isSpace b = false) := by
  cases h : Big.MS.isSpace c with
  | true =>
    have := hc h
    obtain ⟨h1, h2⟩ := ascii_byte (c := c) (by omega)
    exact .inl ⟨rfl, by omega, _, h1, by rw [space_bytes, h2]; exact this⟩
  | false =>
    refine .inr ⟨rfl, ?_⟩
    intro b hb
    rw [Bool.eq_false_iff, ne_eq, space_bytes]
    intro hs
    have hbc := mem_utf8 c hb (by omega)
    rw [space_chars c (by omega)] at h
    cases h

theorem Plain.sub {s t : List Char} (h : Plain s) (ht : ∀ c ∈ t, c ∈ s) : Plain t := fun c hc => h c (ht c hc)

theorem enc_lstrip {col tw : Int} : ∀ {s : List Char}, Plain s →
    lstrip (bytesText col tw) (enc s) = enc (lstrip (strText col tw) s)
  | [], _ => rfl
  | c :: s, h => by
    have ih := enc_lstrip (col := col) (tw := tw) (h.sub (t := s) (by simp_all))
    rw [show enc (c :: s) = utf8 c ++ enc s from rfl]
    unfold lstrip at ih ⊢
    have hsp : (strText col tw).isSpace = Big.MS.isSpace := rfl
    rcases space_code (h c (by simp)).2 col tw with ⟨h1, -, b, h2, h3⟩ | ⟨h1, h2⟩
    · rw [h2, List.dropWhile_cons, if_pos (by rw [hsp, h1])]
      show List.dropWhile _ (b :: enc s) = _
      rw [List.dropWhile_cons, if_pos h3, ih]
    · rw [List.dropWhile_cons, if_neg (by rw [hsp, h1]; simp)]
      cases hu : utf8 c with
      | nil => exact absurd hu String.utf8EncodeChar_ne_nil
      | cons b u =>
        show List.dropWhile _ (b :: (u ++ enc s)) = _
        rw [List.dropWhile_cons, if_neg (by rw [h2 b (by simp [hu])]; simp)]
        rw [show enc (c :: s) = utf8 c ++ enc s from rfl, hu]; rfl

theorem enc_rstrip_aux {col tw : Int} : ∀ {s : List Char}, Plain s →
    (enc s.reverse).reverse.dropWhile (bytesText col tw).isSpace = (enc (s.dropWhile Big.MS.isSpace).reverse).reverse
  | [], _ => rfl
  | c :: s, h => by
    have ih := enc_rstrip_aux (col := col) (tw := tw) (h.sub (t := s) (by simp_all))
    have he : (enc (c :: s).reverse).reverse = (utf8 c).reverse ++ (enc s.reverse).reverse := by
      rw [List.reverse_cons, enc_append, List.reverse_append]; simp [enc]
    rcases space_code (h c (by simp)).2 col tw with ⟨h1, -, b, h2, h3⟩ | ⟨h1, h2⟩
    · rw [he, h2, List.dropWhile_cons, if_pos h1]
      show List.dropWhile _ (b :: (enc s.reverse).reverse) = _
      rw [List.dropWhile_cons, if_pos h3, ih]
    · rw [List.dropWhile_cons, if_neg (by rw [h1]; simp), he]
      cases hu : (utf8 c).reverse with
      | nil => exact absurd (List.reverse_eq_nil_iff.1 hu) String.utf8EncodeChar_ne_nil
      | cons b u =>
        show List.dropWhile _ (b :: (u ++ _)) = _
        rw [List.dropWhile_cons, if_neg (by
          rw [h2 b (by rw [← List.mem_reverse, hu]; simp)]; simp)]
        rfl

theorem enc_rstrip {col tw : Int} {s : List Char} (h : Plain s) :
    rstrip (bytesText col tw) (enc s) = enc (rstrip (strText col tw) s) := by
  have := enc_rstrip_aux (col := col) (tw := tw) (s := s.reverse) (h.sub (by simp))
  unfold rstrip
  rw [List.reverse_reverse] at this
  rw [this, List.reverse_reverse]
  rfl

/-! ### Lines -/

theorem number_code (col tw : Int) : ∀ (l : List (List Char × List Char)) (n : Int),
    number (bytesText col tw) n (l.map (fun p => (enc p.1, enc p.2))) =
      (number (strText col tw) n l).map (encodePair (μ := μ))
  | [], _ => rfl
  | (a, b) :: l, n => by
    have ih := number_code col tw l (n + 1)
    simp only [List.map_cons, number, enc_isEmpty, ih]
    congr 1
    unfold encodePair encodeInfo
    dsimp only
    split <;> simp [enc_append, enc_nil, bytesText, strText]

theorem byteParts_pre (r : List UInt8) (hr : r ≠ []) : ∀ (u : List UInt8), (∀ b ∈ u, Big.MS.PyBytes.isBreak b = false) →
    ∀ x l, byteParts r = x :: l → byteParts (u ++ r) = (u ++ x) :: l
  | [], _, x, l, h => h
  | b :: u, hb, x, l, h => by
    have ih := byteParts_pre r hr u (fun c hc => hb c (by simp [hc])) x l h
    have hb0 := hb b (by simp)
    cases hu : u ++ r with
    | nil => simp at hu; exact absurd hu.2 hr
    | cons d t =>
      show byteParts (b :: (u ++ r)) = _
      rw [hu] at ih ⊢
      rw [byteParts, if_neg, hb0]
      · simp [Big.MS.PyBytes.onFirst, ih]
      · rintro ⟨rfl, -⟩
        revert hb0; decide

theorem byteParts_plain : ∀ (u : List UInt8), (∀ b ∈ u, Big.MS.PyBytes.isBreak b = false) → byteParts u = [u]
  | [], _ => rfl
  | [b], h => by rw [byteParts, h b (by simp)]; rfl
  | b :: c :: u, h => by
    have ih := byteParts_plain (c :: u) (fun x hx => h x (by simp [hx]))
    rw [byteParts, if_neg, h b (by simp), ih]
    · rfl
    · rintro ⟨rfl, -⟩
      have := h 13 (by simp)
      revert this; decide

theorem break_bytes {c : Char} (h : Big.MS.PyStr.isBreak c = false) : ∀ b ∈ utf8 c, Big.MS.PyBytes.isBreak b = false := by
  intro b hb
  cases hx : Big.MS.PyBytes.isBreak b with
  | false => rfl
  | true =>
    exfalso
    simp only [Big.MS.PyBytes.isBreak, decide_eq_true_eq] at hx
    rcases hx with rfl | rfl
    · have := (utf8_ascii (c := c) (d := '\n') (b := 10) (by decide +kernel)).1 hb
      subst this; revert h; decide +kernel
    · have := (utf8_ascii (c := c) (d := '\r') (b := 13) (by decide +kernel)).1 hb
      subst this; revert h; decide +kernel

theorem byteParts_code : ∀ {s : List Char}, Plain s → byteParts (enc s) = (lineParts s).map enc
  | [], _ => rfl
  | [c], h => by
    cases hb : Big.MS.PyStr.isBreak c with
    | true => rcases (h c (by simp)).1 hb with rfl | rfl <;> decide +kernel
    | false =>
      rw [lineParts, hb]
      rw [byteParts_plain _ (by simpa [enc] using break_bytes hb)]
      rfl
  | c :: d :: t, h => by
    have ih := byteParts_code (s := d :: t) (h.sub (by simp_all))
    rw [lineParts]
    by_cases hcr : c = '\r' ∧ d = '\n'
    · have ih2 := byteParts_code (s := t) (h.sub (by simp_all))
      obtain ⟨rfl, rfl⟩ := hcr
      have : enc ('\r' :: '\n' :: t) = 13 :: 10 :: enc t := by
        rw [show '\r' :: '\n' :: t = ['\r', '\n'] ++ t from rfl, enc_append]
        rw [show enc ['\r', '\n'] = [13, 10] by decide +kernel]; rfl
      rw [this, byteParts, if_pos ⟨rfl, rfl⟩, if_pos ⟨rfl, rfl⟩, ih2]
      simp [show enc ['\r', '\n'] = [13, 10] by decide +kernel, enc_nil]
    rw [if_neg hcr]
    have he : enc (c :: d :: t) = utf8 c ++ enc (d :: t) := rfl
    have hne : enc (d :: t) ≠ [] := fun h0 => by simpa using enc_code.eq_nil.1 h0
    cases hb : Big.MS.PyStr.isBreak c with
    | true =>
      obtain ⟨b, hu, hbb⟩ : ∃ b, utf8 c = [b] ∧ Big.MS.PyBytes.isBreak b = true := by
        rcases (h c (by simp)).1 hb with rfl | rfl
        · exact ⟨10, by decide +kernel, by decide⟩
        · exact ⟨13, by decide +kernel, by decide⟩
      cases hr : enc (d :: t) with
      | nil => exact absurd hr hne
      | cons b' r =>
        rw [he, hr, hu]
        show byteParts (b :: b' :: r) = _
        rw [byteParts, if_neg, hbb, if_pos rfl, ← hr, ih, if_pos rfl]
        · simp [enc, hu]
        · rintro ⟨rfl, rfl⟩
          have h1 := (utf8_ascii (c := c) (d := '\r') (b := 13) (by decide +kernel)).1 (by rw [hu]; simp)
          have h2 : (10 : UInt8) ∈ utf8 d := by
            have : enc (d :: t) = utf8 d ++ enc t := rfl
            rw [this] at hr
            cases hd : utf8 d with
            | nil => exact absurd hd String.utf8EncodeChar_ne_nil
            | cons x y => rw [hd] at hr; simp at hr; rw [hr.1]; simp
          have h2 := (utf8_ascii (c := d) (d := '\n') (b := 10) (by decide +kernel)).1 h2
          exact hcr ⟨h1, h2⟩
    | false =>
      rw [if_neg (by simp)]
      cases hl : lineParts (d :: t) with
      | nil => exact absurd hl (Big.MS.lineParts_ne _)
      | cons x l =>
        rw [hl] at ih
        rw [he, byteParts_pre _ hne _ (break_bytes hb) _ _ ih]
        rfl

theorem pairs_code : ∀ l : List (List Char), Big.MS.Spec.pairs (l.map enc) = (Big.MS.Spec.pairs l).map (fun p => (enc p.1, enc p.2))
  | [] => rfl
  | [a] => rfl
  | a :: b :: l => by simp [Big.MS.Spec.pairs, pairs_code l]

section
variable {α : Type} [DecidableEq α] {E : Env α}

/-- What `lines` yields, from the text split at the separators. -/
theorem lines_eq (hc : Big.MS.CacheOK E.sq.cache) (separators : Option (List (List α))) (hne : usedSeparators E separators ≠ [])
    (he : [] ∉ usedSeparators E separators) (n : Int) (s : List α) {L : List (List α)}
    (hL : Big.MS.Spec.Alternates (usedSeparators E separators) true L) (hs : L.flatten = s) :
    lines (μ := μ) E n (.text s separators) = (number E n (Big.MS.Spec.pairs L), none) := by
  obtain ⟨L', hL', -, -, -, hp⟩ := Big.MS.C38_multisplit_splits_exactly (nl := E.sq.nl) hc hne he s false true
    (some (-1)) (.inr rfl)
  have : L' = L := Big.MS.alternates_unique _ _ (by simpa using hL'.2) hL (by rw [hL'.1, hs])
  subst this
  simp only [lines]
  rw [hp]
  simp only [List.map_map]
  congr 2
  rw [show (pairOf ∘ fun x : List α × List α => Item.pair x.1 x.2) = id from rfl, List.map_id]

end

/-- The lines of an encoded text. -/
theorem lines_code {s : List Char} (hs : Plain s) (col tw n : Int) :
    lines (bytesText col tw) n (.text (enc s) none) = encodeStream (lines (μ := μ) (strText col tw) n (.text s none)) := by
  rw [lines_eq (E := bytesText col tw) Big.MS.C72_reversed_tables.2 none (show bytesLinebreaks ≠ [] by decide +kernel)
    (show [] ∉ bytesLinebreaks by decide +kernel) n (enc s) (L := byteParts (enc s)) (Big.MS.byteParts_alternatesB _) (Big.MS.byteParts_flattenB _),
    lines_eq (E := strText col tw) Big.MS.C72_reversed_tables.1 none (show strLinebreaks ≠ [] by decide +kernel)
    (show [] ∉ strLinebreaks by decide +kernel) n s (L := lineParts s) (Big.MS.lineParts_alternates _) (Big.MS.lineParts_flatten _),
    byteParts_code hs, pairs_code, number_code]
  rfl

/-- The same, with separators. -/
theorem lines_seps_code (s : List Char) {seps : List (List Char)} (hne : seps ≠ []) (he : [] ∉ seps) (col tw n : Int) :
    lines (bytesText col tw) n (.text (enc s) (some (seps.map enc))) =
      encodeStream (lines (μ := μ) (strText col tw) n (.text s (some seps))) := by
  have hu : usedSeparators (strText col tw) (some seps) = seps := by
    cases seps with
    | nil => exact absurd rfl hne
    | cons a l => rfl
  have hu' : usedSeparators (bytesText col tw) (some (seps.map enc)) = seps.map enc := by
    cases seps with
    | nil => exact absurd rfl hne
    | cons a l => rfl
  have h := Big.MS.code_multisplit enc_code Big.MS.C72_reversed_tables.1 Big.MS.C72_reversed_tables.2 he
    (nl := '\n') (nl' := 10) (by decide +kernel) s .asPairs (some (-1)) false true .no
  simp only [lines, hu, hu']
  rw [show (bytesText col tw).sq.nl = 10 from rfl, show (bytesText col tw).sq.cache = Big.MS.bytesCache from rfl,
    show (strText col tw).sq.nl = '\n' from rfl, show (strText col tw).sq.cache = Big.MS.strCache from rfl, h]
  cases Big.MS.multisplit '\n' Big.MS.strCache s seps .asPairs (some (-1)) false true .no with
  | error x => rfl
  | ok items =>
    simp only [Except.map]
    have : (items.map (Item.onStr enc)).map pairOf = (items.map pairOf).map (fun p => (enc p.1, enc p.2)) := by
      rw [List.map_map, List.map_map]
      apply List.map_congr_left
      intro x _
      cases x <;> rfl
    rw [this, number_code]
    rfl

end Big.Lines
