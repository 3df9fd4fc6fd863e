import Verif.Multisplit.Model
/-!
# The text of the regular expressions made of separators (big/text.py:360-373, 819-852)

Multisplit/Model.lean has the patterns as trees. The code makes them as text, which Python's re reads. Here is the text,
character by character, for str and for bytes, and (`Re.read`) how re reads such a text.
-/
namespace Big.MS
open Big.Rx

/-- Characters of str, or of bytes: their code, the character of a code, and whether they are white space (str.isspace and
bytes.isspace of one character). For text.py:360-373. -/
structure Alphabet (α : Type) where
  code : α → Nat
  chr : Nat → α
  isSpace : α → Bool

variable {α : Type} [DecidableEq α]

/-- The bytes of an ASCII string literal, as characters of the type at hand. -/
def Alphabet.str (A : Alphabet α) (s : String) : List α := s.toList.map (fun c => A.chr c.toNat)

/-- The characters that `re.escape` puts a backslash before (CPython's Lib/re, `_special_chars_map`). For text.py:367. -/
def escaped : List Nat := "()[]{}?*+-|^$\\.&~# \t\n\r".toList.map Char.toNat ++ [11, 12]

/-- `re.escape(s)` (CPython's Lib/re). For text.py:367. -/
def reEscape (A : Alphabet α) : List α → List α
  | [] => []
  | c :: s => if A.code c ∈ escaped then A.chr 92 :: c :: reEscape A s else c :: reEscape A s

/-- `_re_quote(s)` (text.py:360-373). -/
def reQuote (A : Alphabet α) (s : List α) : List α :=
  if !(!s.isEmpty && s.all A.isSpace) then reEscape A s
  else if s.length > 1 then A.str "(?:" ++ s ++ A.str ")"
  else s

/-- `pipe.join(...)` (text.py:838). -/
def pipeJoin (A : Alphabet α) : List (List α) → List α
  | [] => []
  | [w] => w
  | w :: v :: ws => w ++ A.chr 124 :: pipeJoin A (v :: ws)

/-- The pattern `__separators_to_re` returns (text.py:819-844). -/
def separatorsToRe (A : Alphabet α) (seps : List (List α)) (separate keep : Bool) : List α :=
  let pattern := pipeJoin A ((sortSeps seps).map (reQuote A))
  let pattern := if !separate then A.str "(?:" ++ pattern ++ A.str ")+" else pattern
  if keep then A.str "(" ++ pattern ++ A.str ")" else pattern

/-! ### How re reads a pattern

Python's re (Lib/re/_parser.py), without flags, for patterns without `[...]`, `.`, `{...}`, lazy repetition, named groups,
flags and look-around, and with no escapes of letters and digits but `\s`; for any of these the reader gives up. -/

namespace Re

/-- The characters that are not literal (`SPECIAL_CHARS`). -/
def special : List Nat := ".\\[{()*+?^$|".toList.map Char.toNat

/-- ASCII letters and digits: an escape of one of these is not that character. -/
def alnum (n : Nat) : Bool := (48 ≤ n && n ≤ 57) || (65 ≤ n && n ≤ 90) || (97 ≤ n && n ≤ 122)

/-- A repetition after an item. -/
def repeated (A : Alphabet α) (a : Rx α) : List α → Rx α × List α
  | [] => (a, [])
  | c :: t =>
    if A.code c = 42 then (.star a, t)
    else if A.code c = 43 then (.plus a, t)
    else if A.code c = 63 then (.opt a, t)
    else (a, c :: t)

/-- A `)`, which must be there. -/
def closed (A : Alphabet α) (f : Rx α → Rx α) : Option (Rx α × List α) → Option (Rx α × List α)
  | some (a, c :: t) => if A.code c = 41 then some (f a, t) else none
  | _ => none

mutual
/-- Alternatives, up to a `)` or the end. -/
def readAlt (A : Alphabet α) (nl : α) : Nat → List α → Option (Rx α × List α)
  | 0, _ => none
  | n + 1, s =>
    match readSeq A nl n s with
    | none => none
    | some (b, []) => some (b, [])
    | some (b, c :: t) =>
      if A.code c = 124 then
        match readAlt A nl n t with
        | none => none
        | some (a, r) => some (.alt b a, r)
      else some (b, c :: t)
/-- Items, up to a `|`, a `)` or the end. -/
def readSeq (A : Alphabet α) (nl : α) : Nat → List α → Option (Rx α × List α)
  | 0, _ => none
  | _ + 1, [] => some (.eps, [])
  | n + 1, c :: t =>
    if A.code c = 124 ∨ A.code c = 41 then some (.eps, c :: t)
    else
      match readAtom A nl n c t with
      | none => none
      | some (a, r) =>
        match readSeq A nl n (repeated A a r).2 with
        | none => none
        | some (b, r') => some (.seq (repeated A a r).1 b, r')
/-- One item, of which `c` is the first character. `^` is read as true: the patterns that begin with it are used by
`re.match` only, at the start of the text. -/
def readAtom (A : Alphabet α) (nl : α) : Nat → α → List α → Option (Rx α × List α)
  | 0, _, _ => none
  | n + 1, c, t =>
    if A.code c = 92 then
      match t with
      | [] => none
      | d :: t => if A.code d = 115 then some (.cls A.isSpace, t) else if alnum (A.code d) then none
        else some (.cls (fun x => decide (x = d)), t)
    else if A.code c = 40 then
      match t with
      | d :: e :: t' =>
        if A.code d = 63 then (if A.code e = 58 then closed A id (readAlt A nl n t') else none)
        else closed A (.grp "1") (readAlt A nl n t)
      | _ => closed A (.grp "1") (readAlt A nl n t)
    else if A.code c = 94 then some (.look (fun _ => true), t)
    else if A.code c = 36 then some (.look (atEnd nl), t)
    else if A.code c ∈ special then none
    else some (.cls (fun x => decide (x = c)), t)
end

/-- `re.compile(pattern)`. -/
def read (A : Alphabet α) (nl : α) (s : List α) : Option (Rx α) :=
  match readAlt A nl (2 * s.length + 10) s with
  | some (r, []) => some r
  | _ => none

end Re

/-- str. -/
def strAlphabet : Alphabet Char where
  code := Char.toNat
  chr := Char.ofNat
  isSpace c := decide (9 ≤ c.toNat ∧ c.toNat ≤ 13 ∨ 0x1c ≤ c.toNat ∧ c.toNat ≤ 0x20 ∨ c.toNat = 0x85 ∨ c.toNat = 0xa0 ∨
    c.toNat = 0x1680 ∨ 0x2000 ≤ c.toNat ∧ c.toNat ≤ 0x200a ∨ c.toNat = 0x2028 ∨ c.toNat = 0x2029 ∨ c.toNat = 0x202f ∨
    c.toNat = 0x205f ∨ c.toNat = 0x3000)

/-- bytes. -/
def bytesAlphabet : Alphabet UInt8 where
  code := UInt8.toNat
  chr := UInt8.ofNat
  isSpace c := decide (c.toNat = 32 ∨ 9 ≤ c.toNat ∧ c.toNat ≤ 13)

end Big.MS
