import Verif.Multisplit.Code
import Verif.Multisplit.Tables2
/-! # C149: splitting encoded text by encoded separators (README.md:5318-5366) -/
namespace Big.MS
open Big.Rx Spec

variable {α β : Type} [DecidableEq α] [DecidableEq β]

/-! ### Encodings -/

/-- An encoding whose first bytes of characters are never later bytes of characters, and that encodes no character as the
beginning of another's encoding, is aligned. -/
theorem aligned_of_first {E : α → List β} (F : β → Prop)
    (h1 : ∀ c, ∃ b t, E c = b :: t ∧ F b ∧ ∀ x ∈ t, ¬ F x) (h2 : ∀ c d, E c <+: E d → c = d) : Aligned E := by
  have hpre : ∀ (w t : List α) (y : List β), t.flatMap E = w.flatMap E ++ y →
      ∃ y', t = w ++ y' ∧ y'.flatMap E = y := by
    intro w
    induction w with
    | nil => intro t y h; exact ⟨t, rfl, by simpa using h⟩
    | cons c w ih =>
      intro t y h
      cases t with
      | nil =>
        obtain ⟨b, u, hb, _⟩ := h1 c
        simp [hb] at h
      | cons d t =>
        simp only [List.flatMap_cons, List.append_assoc] at h
        have hcd : c = d := by
          rcases List.append_eq_append_iff.1 h with ⟨u, hu, _⟩ | ⟨u, hu, _⟩
          · exact (h2 d c ⟨u, hu.symm⟩).symm
          · exact h2 c d ⟨u, hu.symm⟩
        subst hcd
        obtain ⟨y', g1, g2⟩ := ih t y (List.append_cancel_left h)
        exact ⟨y', by rw [g1]; rfl, g2⟩
  have hbd : ∀ (s : List α) (x t : List β) (b : β), F b → s.flatMap E = x ++ b :: t →
      ∃ x' t', s = x' ++ t' ∧ x'.flatMap E = x ∧ t'.flatMap E = b :: t := by
    intro s
    induction s with
    | nil => intro x t b _ h; simp at h
    | cons c s ih =>
      intro x t b hb h
      by_cases hx : x = []
      · subst hx; exact ⟨[], c :: s, rfl, rfl, h⟩
      · obtain ⟨b0, u, hc, _, hu⟩ := h1 c
        simp only [List.flatMap_cons] at h
        rcases List.append_eq_append_iff.1 h with ⟨v, hv, hv2⟩ | ⟨v, hv, hv2⟩
        · obtain ⟨x', t', g1, g2, g3⟩ := ih v t b hb hv2
          exact ⟨c :: x', t', by rw [g1]; rfl, by rw [List.flatMap_cons, g2, hv], g3⟩
        · cases v with
          | nil => exact ⟨[c], s, rfl, by simpa using hv, by simpa using hv2.symm⟩
          | cons b' v =>
            simp only [List.cons_append, List.cons.injEq] at hv2
            cases x with
            | nil => exact absurd rfl hx
            | cons a x =>
              rw [hc] at hv
              simp only [List.cons_append, List.cons.injEq] at hv
              exact absurd (hv2.1 ▸ hb) (hu b' (by rw [hv.2]; simp))
  intro s w x y hw h
  cases w with
  | nil => exact absurd rfl hw
  | cons c w =>
    obtain ⟨b, u, hc, hb, _⟩ := h1 c
    obtain ⟨x', t', g1, g2, g3⟩ := hbd s x (u ++ w.flatMap E ++ y) b hb (by rw [h]; simp [hc])
    obtain ⟨y', k1, k2⟩ := hpre (c :: w) t' y (by rw [g3]; simp [hc])
    exact ⟨x', y', by rw [g1, k1, List.append_assoc], g2, k2⟩

/-- `'c'.encode('utf-8')`, by Lean's library. -/
def utf8 (c : Char) : List UInt8 := String.utf8EncodeChar c

/-- UTF-8 is aligned. -/
theorem C149_utf8_aligned : Aligned utf8 := by
  refine aligned_of_first (fun b => b.IsUTF8FirstByte) ?_ ?_
  · intro c
    have h : ∀ (i : Nat) (hi : i < (utf8 c).length), (utf8 c)[i].IsUTF8FirstByte ↔ i = 0 :=
      fun i hi => UInt8.isUTF8FirstByte_getElem_utf8EncodeChar
    have hne : utf8 c ≠ [] := String.utf8EncodeChar_ne_nil
    cases hc : utf8 c with
    | nil => exact absurd hc hne
    | cons b t =>
      simp only [hc] at h
      refine ⟨b, t, rfl, (h 0 (by simp)).2 rfl, ?_⟩
      intro x hx hF
      obtain ⟨i, hi, rfl⟩ := List.getElem_of_mem hx
      have := (h (i + 1) (by simpa using hi)).1 hF
      omega
  · rintro c d ⟨t, ht⟩
    have h1 := ByteArray.utf8DecodeChar?_utf8EncodeChar_append (b := t.toByteArray) (c := c)
    have h2 := ByteArray.utf8DecodeChar?_utf8EncodeChar_append (b := [].toByteArray) (c := d)
    have : (utf8 c).toByteArray ++ t.toByteArray = (utf8 d).toByteArray ++ [].toByteArray := by
      rw [← List.toByteArray_append, ← List.toByteArray_append, ht, List.append_nil]
    rw [show String.utf8EncodeChar c = utf8 c from rfl, this] at h1
    exact Option.some.inj (h1.symm.trans h2)

/-- An encoding of one byte per character, such as ASCII and Latin-1, is aligned. -/
theorem C149_one_byte_aligned {E : α → List β} (b : α → β) (hE : ∀ c, E c = [b c]) (hb : ∀ c d, b c = b d → c = d) :
    Aligned E := by
  refine aligned_of_first (fun _ => True) (fun c => ⟨b c, [], hE c, trivial, by simp⟩) ?_
  intro c d h
  rw [hE, hE] at h
  exact hb _ _ (by simpa using h)

/-! ### The property -/

variable {E : α → List β} (hE : Aligned E) (hpos : ∀ c, E c ≠ []) {nl : α} {nl' : β} (hnl : E nl = [nl'])
  {cache : List (List α) → Option (List (List α))} (hc : CacheOK cache)
  {cache' : List (List β) → Option (List (List β))} (hc' : CacheOK cache')
  {seps : List (List α)} (he : [] ∉ seps)

theorem encode_onStr : (Item.onStr (fun s : List α => s.flatMap E)) = Item.encode E := by
  funext x; cases x <;> rfl

include hE hpos hnl hc hc' he in
/-- C149: under an aligned encoding, splitting the encoded text by the encoded separators gives what splitting the text by
the separators gives, encoded. -/
theorem C149_multisplit (s : List α) (keep : Keep) (maxsplit : Option Int) (reverse separate : Bool) (strip : Strip) :
    multisplit nl' cache' (s.flatMap E) (seps.map (List.flatMap E)) keep maxsplit reverse separate strip =
      encodeAll E (multisplit nl cache s seps keep maxsplit reverse separate strip) := by
  have := code_multisplit (code_of_aligned hE hpos) hc hc' he (nl := nl) (nl' := nl') (by simpa using hnl)
    s keep maxsplit reverse separate strip
  rw [encode_onStr] at this
  exact this

include hE hpos hnl he in
/-- C149: the same for multistrip. -/
theorem C149_multistrip (s : List α) (left right : Bool) :
    multistrip nl' (s.flatMap E) (seps.map (List.flatMap E)) left right =
      (multistrip nl s seps left right).map (List.flatMap E) :=
  code_multistrip (code_of_aligned hE hpos) he (by simpa using hnl) s left right

include hE hpos hnl hc hc' he in
/-- C149: the same for multipartition and multirpartition. -/
theorem C149_multipartition (s : List α) (count : Int) (reverse separate : Bool) :
    multipartition nl' cache' (s.flatMap E) (seps.map (List.flatMap E)) count reverse separate =
        (multipartition nl cache s seps count reverse separate).map (List.map (List.flatMap E)) ∧
      multirpartition nl' cache' (s.flatMap E) (seps.map (List.flatMap E)) count reverse separate =
        (multirpartition nl cache s seps count reverse separate).map (List.map (List.flatMap E)) :=
  ⟨code_multipartition (code_of_aligned hE hpos) hc hc' he (by simpa using hnl) s count reverse separate,
   code_multipartition (code_of_aligned hE hpos) hc hc' he (by simpa using hnl) s count (!reverse) separate⟩

include hE hpos hc hc' in
/-- C149: the same for normalize_whitespace with separators given (and not one of its two tables). -/
theorem C149_normalize_whitespace (sp : α → Bool) (sp' : β → Bool) (s repl : List α) :
    normalizeWhitespace cache' sp' false (s.flatMap E) (seps.map (List.flatMap E)) (repl.flatMap E) =
      (normalizeWhitespace cache sp false s seps repl).map (List.flatMap E) :=
  code_normalize (code_of_aligned hE hpos) hc hc' sp sp' s repl

/-- C149: for UTF-8, with the functions and tables of the module. -/
theorem C149_utf8 {seps : List (List Char)} (he : [] ∉ seps) (s : List Char) (keep : Keep) (maxsplit : Option Int)
    (reverse separate : Bool) (strip : Strip) :
    multisplit 10 bytesCache (s.flatMap utf8) (seps.map (List.flatMap utf8)) keep maxsplit reverse separate strip =
      encodeAll utf8 (multisplit '\n' strCache s seps keep maxsplit reverse separate strip) :=
  C149_multisplit C149_utf8_aligned (fun _ => String.utf8EncodeChar_ne_nil) (by decide +kernel)
    C72_reversed_tables.1 C72_reversed_tables.2 he s keep maxsplit reverse separate strip

/-- The separators of the README's example: a two-byte, a three-byte and a one-byte separator, the first occurring in the
text, and split the same whether encoded or not. -/
example : [] ∉ [['é'], ['→'], ['-']] ∧
    encodeAll utf8 (multisplit '\n' strCache ['x', 'é', 'è', '→', '-', '😀'] [['é'], ['→'], ['-']] .asPairs) =
      .ok [.pair [120] [195, 169], .pair [195, 168] [226, 134, 146, 45], .pair [240, 159, 152, 128] []] ∧
    multisplit 10 bytesCache (['x', 'é', 'è', '→', '-', '😀'].flatMap utf8) [[195, 169], [226, 134, 146], [45]] .asPairs =
      .ok [.pair [120] [195, 169], .pair [195, 168] [226, 134, 146, 45], .pair [240, 159, 152, 128] []] :=
  ⟨by decide +kernel, by decide +kernel, by decide +kernel⟩

/-- Latin-1, as an encoding of the characters it has. -/
example : Aligned (fun c : Fin 256 => [UInt8.ofNat c.val]) :=
  C149_one_byte_aligned (fun c => UInt8.ofNat c.val) (fun _ => rfl) (fun c d h => by
    have := congrArg UInt8.toNat h
    simp only [UInt8.toNat_ofNat'] at this
    omega)

/-- `'c'.encode('utf-16-le')` -/
def utf16le (c : Char) : List UInt8 :=
  let two (n : Nat) : List UInt8 := [UInt8.ofNat (n % 256), UInt8.ofNat (n / 256)]
  if c.val.toNat < 65536 then two c.val.toNat
  else two (55296 + (c.val.toNat - 65536) / 1024) ++ two (56320 + (c.val.toNat - 65536) % 1024)

/-- C149, the README's counterexample (README.md:5335-5366): UTF-16 is not aligned, and the separator U+0201, which does not
occur in the text U+0101 U+0102, splits the encoded text in the middle of its characters. -/
theorem C149_utf16_counterexample : ¬ Aligned utf16le ∧
    encodeAll utf16le (multisplit '\n' strCache [Char.ofNat 0x101, Char.ofNat 0x102] [[Char.ofNat 0x201]]) =
      .ok [.str [1, 1, 2, 1]] ∧
    multisplit 10 bytesCache ([Char.ofNat 0x101, Char.ofNat 0x102].flatMap utf16le) [[Char.ofNat 0x201].flatMap utf16le] =
      .ok [.str [1], .str [1]] := by
  refine ⟨?_, by decide +kernel, by decide +kernel⟩
  intro h
  obtain ⟨x', y', h1, h2, h3⟩ := h [Char.ofNat 0x101, Char.ofNat 0x102] [Char.ofNat 0x201] [1] [1] (by simp) (by decide +kernel)
  have hm : Char.ofNat 0x201 ∈ [Char.ofNat 0x101, Char.ofNat 0x102] := by rw [h1]; simp
  revert hm
  decide +kernel

end Big.MS
