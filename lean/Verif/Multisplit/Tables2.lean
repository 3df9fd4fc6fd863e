import Verif.Multisplit.Norm
/-!
# C72: the separator tables list the right characters (big/text.py:122-310, 337-358)

The specification is a list of code points for each table, taken from the documentation the README
names: Python's `str.isspace`, `str.splitlines`, `bytes.isspace` and `bytes.splitlines`, Unicode's
White_Space property (PropList.txt), and Unicode's mandatory line breaks (UAX #14: BK, CR, LF, NL).
-/
namespace Big.MS
open Spec

/-! ### Specification -/

/-- Unicode's White_Space property (PropList.txt). -/
def UniSpace (n : Nat) : Prop :=
  9 ≤ n ∧ n ≤ 13 ∨ n = 0x20 ∨ n = 0x85 ∨ n = 0xa0 ∨ n = 0x1680 ∨ 0x2000 ≤ n ∧ n ≤ 0x200a ∨
  n = 0x2028 ∨ n = 0x2029 ∨ n = 0x202f ∨ n = 0x205f ∨ n = 0x3000

/-- `str.isspace` of one character: bidirectional class WS, B or S, or category Zs. These are the
White_Space characters and the four ASCII separators. -/
def PySpace (n : Nat) : Prop := UniSpace n ∨ 0x1c ≤ n ∧ n ≤ 0x1f

/-- `bytes.isspace` of one byte: b' \t\n\r\x0b\f'. -/
def ByteSpace (n : Nat) : Prop := n = 32 ∨ n = 9 ∨ n = 10 ∨ n = 13 ∨ n = 11 ∨ n = 12

/-- The line boundaries of `str.splitlines`, besides CR LF. -/
def PyBreak (n : Nat) : Prop :=
  10 ≤ n ∧ n ≤ 13 ∨ 0x1c ≤ n ∧ n ≤ 0x1e ∨ n = 0x85 ∨ n = 0x2028 ∨ n = 0x2029

/-- Unicode's mandatory line breaks: LF, VT, FF, CR, NEL, LS, PS. -/
def UniBreak (n : Nat) : Prop := 10 ≤ n ∧ n ≤ 13 ∨ n = 0x85 ∨ n = 0x2028 ∨ n = 0x2029

/-- The line boundaries of `bytes.splitlines`, besides CR LF: universal newlines. -/
def ByteBreak (n : Nat) : Prop := n = 10 ∨ n = 13

/-- A tuple of str holds exactly the characters P, one string each, and the pair CR LF if `crlf`. -/
def Lists (t : List (List Char)) (crlf : Bool) (P : Nat → Prop) : Prop :=
  t.Nodup ∧ ∀ w, w ∈ t ↔ (∃ c, w = [c] ∧ P c.toNat) ∨ crlf = true ∧ w = ['\r', '\n']

/-- The same for a tuple of bytes. -/
def ListsBytes (t : List (List UInt8)) (crlf : Bool) (P : Nat → Prop) : Prop :=
  t.Nodup ∧ ∀ w, w ∈ t ↔ (∃ c, w = [c] ∧ P c.toNat) ∨ crlf = true ∧ w = [13, 10]

/-! ### The other tables -/

/-- Python's `<` on str: by code points, a proper prefix first. -/
def strLt : List Char → List Char → Bool
  | [], [] => false
  | [], _ :: _ => true
  | _ :: _, [] => false
  | a :: s, b :: t => if a.toNat < b.toNat then true else if b.toNat < a.toNat then false else strLt s t

/-- ascii_linebreaks (text.py:243). -/
def asciiLinebreaks : List (List Char) := unicodeLinebreaks.filter (fun s => strLt s ['\u0080'])

/-- `encode_strings(t)` with the default encoding 'ascii' (text.py:110-120), for a tuple of strings
of ASCII characters; the general model is `Big.Encode`. -/
def encodeAscii (t : List (List Char)) : List (List UInt8) :=
  t.map (·.map (fun c => UInt8.ofNat c.toNat))

/-- bytes_whitespace (text.py:198). -/
def bytesWhitespace : List (List UInt8) := encodeAscii asciiWhitespace

/-- `tuple(s for s in t if s != b'\r\n')` (text.py:200, 311). -/
def bytesWithoutCrlf (t : List (List UInt8)) : List (List UInt8) :=
  t.filter (fun w => decide (w ≠ [13, 10]))

/-- bytes_linebreaks (text.py:290-308), given what `len(b'x\vx'.splitlines()) == 2` and
`len(b'x\fx'.splitlines()) == 2` give. They are False in every CPython up to now; if they were True,
the strings added would be str (text.py:296, 301), not bytes: `none` here stands for such a str. -/
def bytesLinebreaksRaw (vt ff : Bool) : List (Option (List UInt8)) :=
  [some [10]] ++ (if vt then [none] else []) ++ (if ff then [none] else []) ++
    [some [13], some [13, 10]]

/-- bytes_linebreaks with the Python there is. -/
def bytesLinebreaks : List (List UInt8) := (bytesLinebreaksRaw false false).filterMap id

/-- _reversed_builtin_separators, its bytes entries (text.py:356-357). -/
def bytesCache (seps : List (List UInt8)) : Option (List (List UInt8)) :=
  if seps = bytesLinebreaks then some (bytesWithoutCrlf bytesLinebreaks ++ [[10, 13]])
  else if seps = bytesWithoutCrlf bytesLinebreaks then some (bytesWithoutCrlf bytesLinebreaks)
  else none

/-! ### Proofs -/

theorem lists_of {t : List (List Char)} {crlf : Bool} {P : Nat → Prop} (codes : List Nat)
    (hn : t.Nodup) (h1 : t.filter (fun w => decide (w ≠ ['\r', '\n'])) =
      codes.map (fun n => [Char.ofNat n])) (hv : ∀ n ∈ codes, (Char.ofNat n).toNat = n)
    (h2 : decide (['\r', '\n'] ∈ t) = crlf) (h3 : ∀ n, P n ↔ n ∈ codes) : Lists t crlf P := by
  refine ⟨hn, fun w => ?_⟩
  by_cases hw : w = ['\r', '\n']
  · subst hw
    simp [← h2]
  · have : w ∈ t ↔ w ∈ codes.map (fun n => [Char.ofNat n]) := by
      rw [← h1, List.mem_filter]; simp [hw]
    rw [this]
    simp only [List.mem_map, hw, and_false, or_false]
    constructor
    · rintro ⟨n, hn, rfl⟩
      exact ⟨_, rfl, by rw [hv n hn]; exact (h3 n).2 hn⟩
    · rintro ⟨c, rfl, hp⟩
      exact ⟨c.toNat, (h3 _).1 hp, by rw [Char.ofNat_toNat]⟩

theorem lists_bytes_of {t : List (List UInt8)} {crlf : Bool} {P : Nat → Prop} (codes : List Nat)
    (hn : t.Nodup) (h1 : t.filter (fun w => decide (w ≠ [13, 10])) =
      codes.map (fun n => [UInt8.ofNat n])) (hv : ∀ n ∈ codes, (UInt8.ofNat n).toNat = n)
    (h2 : decide ([13, 10] ∈ t) = crlf) (h3 : ∀ n, P n ↔ n ∈ codes) : ListsBytes t crlf P := by
  refine ⟨hn, fun w => ?_⟩
  by_cases hw : w = [13, 10]
  · subst hw
    simp [← h2]
  · have : w ∈ t ↔ w ∈ codes.map (fun n => [UInt8.ofNat n]) := by
      rw [← h1, List.mem_filter]; simp [hw]
    rw [this]
    simp only [List.mem_map, hw, and_false, or_false]
    constructor
    · rintro ⟨n, hn, rfl⟩
      exact ⟨_, rfl, by rw [hv n hn]; exact (h3 n).2 hn⟩
    · rintro ⟨c, rfl, hp⟩
      exact ⟨c.toNat, (h3 _).1 hp, by rw [UInt8.ofNat_toNat]⟩

/-- The code points of `UniSpace`, listed. -/
def uniSpaces : List Nat := [9, 10, 11, 12, 13, 0x20, 0x85, 0xa0, 0x1680, 0x2000, 0x2001, 0x2002,
  0x2003, 0x2004, 0x2005, 0x2006, 0x2007, 0x2008, 0x2009, 0x200a, 0x2028, 0x2029, 0x202f, 0x205f,
  0x3000]
/-- The code points of `PySpace`, listed. -/
def pySpaces : List Nat := [9, 10, 11, 12, 13, 0x1c, 0x1d, 0x1e, 0x1f, 0x20, 0x85, 0xa0, 0x1680,
  0x2000, 0x2001, 0x2002, 0x2003, 0x2004, 0x2005, 0x2006, 0x2007, 0x2008, 0x2009, 0x200a, 0x2028,
  0x2029, 0x202f, 0x205f, 0x3000]

theorem uniSpaces_iff (n : Nat) : UniSpace n ↔ n ∈ uniSpaces := by
  simp only [UniSpace, uniSpaces, List.mem_cons, List.not_mem_nil, or_false]; omega
theorem pySpaces_iff (n : Nat) : PySpace n ↔ n ∈ pySpaces := by
  simp only [PySpace, UniSpace, pySpaces, List.mem_cons, List.not_mem_nil, or_false]; omega

/-- C72: str_whitespace and its variants hold exactly the whitespace characters of Python, Unicode
and ASCII, each once, and CR LF or not as the name says. -/
theorem C72_str_whitespace_tables :
    Lists strWhitespace true PySpace ∧ Lists (withoutCrlf strWhitespace) false PySpace ∧
    Lists unicodeWhitespace true UniSpace ∧ Lists (withoutCrlf unicodeWhitespace) false UniSpace ∧
    Lists asciiWhitespace true (fun n => UniSpace n ∧ n < 128) ∧
    Lists (withoutCrlf asciiWhitespace) false (fun n => UniSpace n ∧ n < 128) := by
  have ha : ∀ n, (UniSpace n ∧ n < 128) ↔ n ∈ [9, 10, 11, 12, 13, 32] := by
    intro n
    simp only [UniSpace, List.mem_cons, List.not_mem_nil, or_false]; omega
  refine ⟨lists_of pySpaces ?_ ?_ ?_ ?_ pySpaces_iff, lists_of pySpaces ?_ ?_ ?_ ?_ pySpaces_iff,
    lists_of uniSpaces ?_ ?_ ?_ ?_ uniSpaces_iff, lists_of uniSpaces ?_ ?_ ?_ ?_ uniSpaces_iff,
    lists_of [9, 10, 11, 12, 13, 32] ?_ ?_ ?_ ?_ ha,
    lists_of [9, 10, 11, 12, 13, 32] ?_ ?_ ?_ ?_ ha⟩ <;> decide +kernel

/-- C72: likewise the tables of line breaks. -/
theorem C72_str_linebreak_tables :
    Lists strLinebreaks true PyBreak ∧ Lists (withoutCrlf strLinebreaks) false PyBreak ∧
    Lists unicodeLinebreaks true UniBreak ∧ Lists (withoutCrlf unicodeLinebreaks) false UniBreak ∧
    Lists asciiLinebreaks true (fun n => UniBreak n ∧ n < 128) ∧
    Lists (withoutCrlf asciiLinebreaks) false (fun n => UniBreak n ∧ n < 128) := by
  have hp : ∀ n, PyBreak n ↔ n ∈ [10, 11, 12, 13, 0x1c, 0x1d, 0x1e, 0x85, 0x2028, 0x2029] := by
    intro n
    simp only [PyBreak, List.mem_cons, List.not_mem_nil, or_false]; omega
  have hu : ∀ n, UniBreak n ↔ n ∈ [10, 11, 12, 13, 0x85, 0x2028, 0x2029] := by
    intro n
    simp only [UniBreak, List.mem_cons, List.not_mem_nil, or_false]; omega
  have ha : ∀ n, (UniBreak n ∧ n < 128) ↔ n ∈ [10, 11, 12, 13] := by
    intro n
    simp only [UniBreak, List.mem_cons, List.not_mem_nil, or_false]; omega
  refine ⟨lists_of _ ?_ ?_ ?_ ?_ hp, lists_of _ ?_ ?_ ?_ ?_ hp, lists_of _ ?_ ?_ ?_ ?_ hu,
    lists_of _ ?_ ?_ ?_ ?_ hu, lists_of _ ?_ ?_ ?_ ?_ ha, lists_of _ ?_ ?_ ?_ ?_ ha⟩ <;>
    decide +kernel

/-- C72: and the tables of bytes. -/
theorem C72_bytes_tables :
    ListsBytes bytesWhitespace true ByteSpace ∧
    ListsBytes (bytesWithoutCrlf bytesWhitespace) false ByteSpace ∧
    ListsBytes bytesLinebreaks true ByteBreak ∧
    ListsBytes (bytesWithoutCrlf bytesLinebreaks) false ByteBreak := by
  have hs : ∀ n, ByteSpace n ↔ n ∈ [9, 10, 11, 12, 13, 32] := by
    intro n
    simp only [ByteSpace, List.mem_cons, List.not_mem_nil, or_false]; omega
  have hb : ∀ n, ByteBreak n ↔ n ∈ [10, 13] := by
    intro n
    simp only [ByteBreak, List.mem_cons, List.not_mem_nil, or_false]
  refine ⟨lists_bytes_of _ ?_ ?_ ?_ ?_ hs, lists_bytes_of _ ?_ ?_ ?_ ?_ hs,
    lists_bytes_of _ ?_ ?_ ?_ ?_ hb, lists_bytes_of _ ?_ ?_ ?_ ?_ hb⟩ <;> decide +kernel

/-- `strLt` is the order by code points: at the first difference the smaller character, or a proper prefix. -/
theorem strLt_iff : ∀ (s t : List Char), strLt s t = true ↔
    (∃ c r, t = s ++ c :: r) ∨ ∃ p a b s' t', s = p ++ a :: s' ∧ t = p ++ b :: t' ∧ a.toNat < b.toNat
  | [], [] => by simp [strLt]
  | [], c :: r => by simp [strLt]
  | c :: r, [] => by simp [strLt]
  | a :: s, b :: t => by
    have ih := strLt_iff s t
    unfold strLt
    split
    · rename_i h
      simp only [true_iff]
      exact .inr ⟨[], a, b, s, t, rfl, rfl, h⟩
    · split
      · rename_i h1 h2
        simp only [Bool.false_eq_true, false_iff]
        rintro (⟨c, r, e⟩ | ⟨p, x, y, s', t', e1, e2, h⟩)
        · simp only [List.cons_append, List.cons.injEq] at e
          rw [e.1] at h2; omega
        · cases p with
          | nil =>
            simp only [List.nil_append, List.cons.injEq] at e1 e2
            rw [e1.1, e2.1] at h2; omega
          | cons z p =>
            simp only [List.cons_append, List.cons.injEq] at e1 e2
            rw [e1.1, e2.1] at h2; omega
      · rename_i h1 h2
        have hab : a = b := by
          apply Char.ext
          apply UInt32.toNat_inj.1
          have : a.toNat = b.toNat := by omega
          exact this
        subst hab
        rw [ih]
        constructor
        · rintro (⟨c, r, rfl⟩ | ⟨p, x, y, s', t', rfl, rfl, h⟩)
          · exact .inl ⟨c, r, rfl⟩
          · exact .inr ⟨a :: p, x, y, s', t', rfl, rfl, h⟩
        · rintro (⟨c, r, e⟩ | ⟨p, x, y, s', t', e1, e2, h⟩)
          · simp only [List.cons_append, List.cons.injEq] at e
            exact .inl ⟨c, r, e.2⟩
          · cases p with
            | nil =>
              simp only [List.nil_append, List.cons.injEq] at e1 e2
              rw [← e1.1, ← e2.1] at h; omega
            | cons z p =>
              simp only [List.cons_append, List.cons.injEq] at e1 e2
              exact .inr ⟨p, x, y, s', t', e1.2, e2.2, h⟩

/-- C72: the filters of text.py:182-243 written with `<` on whole strings give the tables as modelled
with first characters. -/
theorem C72_filters_on_strings :
    unicodeWhitespace = strWhitespace.filter
      (fun s => !(!strLt s ['\x1c'] && !strLt ['\x1f'] s)) ∧
    asciiWhitespace = unicodeWhitespace.filter (fun s => strLt s ['\u0080']) ∧
    unicodeLinebreaks = strLinebreaks.filter
      (fun s => !(!strLt s ['\x1c'] && !strLt ['\x1f'] s)) := by
  decide +kernel

/-- C72: the precalculated reversed tables are the tables reversed, for str and for bytes, so reverse
splitting with a built-in table is reverse splitting with its contents. -/
theorem C72_reversed_tables : CacheOK strCache ∧ CacheOK bytesCache := by
  refine ⟨strCache_ok, ?_⟩
  intro seps r h
  unfold bytesCache at h
  repeat' split at h
  all_goals first
    | (simp only [Option.some.injEq] at h; subst h; subst_vars
       refine fun w => ⟨?_, ?_⟩ <;> revert w <;> decide +kernel)
    | simp at h

/-- `bytes.isspace` of one byte. -/
def isByteSpace (c : UInt8) : Bool := decide (c.toNat ∈ [32, 9, 10, 13, 11, 12])

/-- C72: what the model of normalize_whitespace calls a space is what Python does, and
bytes_whitespace is such a table as well. -/
theorem C72_space_sets :
    (∀ c, isSpace c = true ↔ PySpace c.toNat) ∧ SpaceSet isSpace strWhitespace ∧
    (∀ c, isByteSpace c = true ↔ ByteSpace c.toNat) ∧ SpaceSet isByteSpace bytesWhitespace ∧
    SpaceSet isByteSpace (bytesWithoutCrlf bytesWhitespace) := by
  have hb : ∀ c, isByteSpace c = true ↔ ByteSpace c.toNat := by
    intro c
    simp [isByteSpace, ByteSpace]
  refine ⟨fun c => ?_, C43_whitespace_tables.1, hb, ⟨fun c => ?_, by decide +kernel⟩,
    ⟨fun c => ?_, by decide +kernel⟩⟩
  · rw [isSpace, decide_eq_true_iff, C72_str_whitespace_tables.1.2]
    simp
  · rw [hb, C72_bytes_tables.1.2]
    simp
  · rw [hb, C72_bytes_tables.2.1.2]
    simp

/-- C72 fails in a Python whose bytes.splitlines splits at \v or \f, the case the code provides for:
a str would get into the table of bytes. -/
theorem C72_defensive_code_adds_str : none ∈ bytesLinebreaksRaw true false ∧
    none ∈ bytesLinebreaksRaw false true := by decide +kernel

end Big.MS
