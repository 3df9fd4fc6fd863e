import Verif.Regex.Basic
/-
Model of big/version.py: class Version. Strings are lists of characters; Python ints are Int (Nat
where the code has checked that they are not negative). Arguments of the wrong type are modelled in
Version/ArgsModel.lean, sys.version_info (version.py:160-168) in Version/AccessModel.lean.
-/
namespace Big.Version
open Big.Rx

/-- Case folding of re.IGNORECASE for the letters that occur in the pattern: Python's
`[a-z]` with IGNORECASE and str patterns also matches U+0130, U+0131, U+017F and U+212A. For version.py:87. -/
def foldTable : List (Char × Char) :=
  [('A','a'),('B','b'),('C','c'),('D','d'),('E','e'),('F','f'),('G','g'),('H','h'),('I','i'),
   ('J','j'),('K','k'),('L','l'),('M','m'),('N','n'),('O','o'),('P','p'),('Q','q'),('R','r'),
   ('S','s'),('T','t'),('U','u'),('V','v'),('W','w'),('X','x'),('Y','y'),('Z','z'),
   ('\u0130','i'),('\u0131','i'),('\u017f','s'),('\u212a','k')]

/-- The lower-case letter a character is compared as. For version.py:87. -/
def fold (c : Char) : Char := (foldTable.lookup c).getD c

/-- `\s` of a str pattern. For version.py:59-88. -/
def wsList : List Char :=
  ['\t','\n','\u000b','\u000c','\r','\u001c','\u001d','\u001e','\u001f',' ','\u0085','\u00a0',
   '\u1680','\u2000','\u2001','\u2002','\u2003','\u2004','\u2005','\u2006','\u2007','\u2008',
   '\u2009','\u200a','\u2028','\u2029','\u202f','\u205f','\u3000']

/-- `\s`. For version.py:59-88. -/
def isWs (c : Char) : Bool := wsList.elem c
/-- `[-_\.]`. For version.py:87. -/
def isSep (c : Char) : Bool := c == '-' || c == '_' || c == '.'
/-- `[0-9]`. For version.py:59-94. -/
def digitList : List Char := ['0','1','2','3','4','5','6','7','8','9']
/-- `[0-9]`. For version.py:59-94. -/
def isDig (c : Char) : Bool := digitList.elem c
/-- the lower-case letters. For version.py:87, 94. -/
def letters : List Char :=
  ['a','b','c','d','e','f','g','h','i','j','k','l','m','n','o','p','q','r','s','t','u','v','w','x','y','z']
/-- `[a-z0-9]` with IGNORECASE. For version.py:87. -/
def isLocalChar (c : Char) : Bool := letters.elem (fold c) || isDig c

/-- A literal character, compared without case. For version.py:62. -/
def lit (l : Char) : Rx Char := .cls (fun c => fold c == l)
/-- A literal word. For version.py:66. -/
def word : List Char → Rx Char
  | [] => .eps
  | l :: w => .seq (lit l) (word w)
/-- `[0-9]+`. For version.py:62. -/
def digits : Rx Char := .plus (.cls isDig)
/-- `[-_\.]?`. For version.py:64-69. -/
def sepO : Rx Char := .opt (.cls isSep)
/-- `(?P<g>[0-9]+)?`. For version.py:64-69. -/
def numO (g : String) : Rx Char := .opt (.grp g digits)

/-- `(?P<epoch>[0-9]+)!` (version.py:62) -/
def epochR : Rx Char := .seq (.grp "epoch" digits) (lit '!')
/-- `(?P<release>[0-9]+(?:\.[0-9]+)*)` (version.py:63) -/
def releaseR : Rx Char := .grp "release" (.seq digits (.star (.seq (lit '.') digits)))
/-- `(?P<pre_l>(a|b|c|rc|alpha|beta|pre|preview))` (version.py:66) -/
def preL : Rx Char := .grp "pre_l"
  (.alt (word ['a']) (.alt (word ['b']) (.alt (word ['c']) (.alt (word ['r','c'])
    (.alt (word ['a','l','p','h','a']) (.alt (word ['b','e','t','a']) (.alt (word ['p','r','e'])
      (word ['p','r','e','v','i','e','w']))))))))
/-- The pre-release part (version.py:64-69); the outer group, which is never read, is left out. -/
def preR : Rx Char := .seq sepO (.seq preL (.seq sepO (numO "pre_n")))
/-- `(?P<post_l>post|rev|r)` (version.py:75) -/
def postL : Rx Char := .grp "post_l"
  (.alt (word ['p','o','s','t']) (.alt (word ['r','e','v']) (word ['r'])))
/-- The post-release part (version.py:70-79); the outer group is left out. -/
def postR : Rx Char := .alt (.seq (lit '-') (.grp "post_n1" digits))
  (.seq sepO (.seq postL (.seq sepO (numO "post_n2"))))
/-- The dev-release part (version.py:80-85); the outer group is left out. -/
def devR : Rx Char := .seq sepO (.seq (.grp "dev_l" (word ['d','e','v'])) (.seq sepO (numO "dev_n")))
/-- `\+(?P<local>[a-z0-9]+(?:[-_\.][a-z0-9]+)*)` (version.py:87) -/
def localR : Rx Char := .seq (lit '+') (.grp "local" (.seq (.plus (.cls isLocalChar))
  (.star (.seq (.cls isSep) (.plus (.cls isLocalChar))))))
/-- `$`: at the end, or before a newline at the end. For version.py:59-88. -/
def eol : Rx Char := .look (fun s => s == [] || s == ['\n'])

/-- The pattern, from its end to its start (version.py:59-88). -/
def T0 : Rx Char := .seq (.star (.cls isWs)) eol
/-- The pattern from the local version on (version.py:87-88). -/
def T1 : Rx Char := .seq (.opt localR) T0
/-- The pattern from the dev release on (version.py:80-88). -/
def T2 : Rx Char := .seq (.opt devR) T1
/-- The pattern from the post release on (version.py:70-88). -/
def T3 : Rx Char := .seq (.opt postR) T2
/-- The pattern from the pre-release on (version.py:64-88). -/
def T4 : Rx Char := .seq (.opt preR) T3
/-- The pattern from the release on (version.py:63-88). -/
def T5 : Rx Char := .seq releaseR T4
/-- The pattern from the epoch on (version.py:62-88). -/
def T6 : Rx Char := .seq (.opt epochR) T5
/-- The pattern from `v?` on (version.py:60-88). -/
def T7 : Rx Char := .seq (.opt (lit 'v')) T6
/-- VERSION_PATTERN (version.py:59-88). -/
def versionR : Rx Char := .seq (.star (.cls isWs)) T7

/-- Exceptions. For version.py. -/
inductive Err where
  | valueError | assertionError
  deriving DecidableEq, Repr

/-- The values of _release_level (version.py:46). -/
inductive Level where
  | alpha | beta | rc | final
  deriving DecidableEq, Repr

/-- The attributes of a Version (version.py:256-263). -/
structure Ver where
  epoch : Option Nat
  release : List Int
  level : Level
  serial : Option Nat
  post : Option Nat
  dev : Option Nat
  loc : Option (List (List Char))
  deriving DecidableEq, Repr

/-- int() of a string of ASCII digits. For version.py:189-246. -/
def toNat (s : List Char) : Nat := Nat.ofDigitChars 10 s 0
/-- str() of a non-negative int. For version.py:319-320, 328-329. -/
def natStr (n : Nat) : List Char := Nat.toDigits 10 n
/-- str() of an int. For version.py:315-341. -/
def intStr : Int → List Char
  | .ofNat n => natStr n
  | .negSucc n => '-' :: natStr (n + 1)

/-- str.split('.') For version.py:189-246. -/
def splitDot : List Char → List (List Char)
  | [] => [[]]
  | c :: s => if c = '.' then [] :: splitDot s else
    match splitDot s with
    | [] => [[c]]
    | w :: ws => (c :: w) :: ws

/-- '.'.join. For version.py:337-339. -/
def joinDot : List (List Char) → List Char
  | [] => []
  | [w] => w
  | w :: ws => w ++ '.' :: joinDot ws

/-- `while (len(release) > 1) and (not release[-1]): release.pop()` (version.py:206-207), on the
reversed list. -/
def trimRev : List Nat → List Nat
  | 0 :: x :: r => trimRev (x :: r)
  | r => r
/-- The release without the zeros at its end (version.py:206-207). -/
def trim (l : List Nat) : List Nat := (trimRev l.reverse).reverse

/-- `_release_level_normalize.get(x, x)` and the assertion that it is an allowed value
(version.py:210-217); none is AssertionError. A 'final' in the text cannot occur: the pattern has no
such label. -/
def normLevel (l : List Char) : Option Level :=
  if l = ['a'] ∨ l = ['a','l','p','h','a'] then some .alpha
  else if l = ['b'] ∨ l = ['b','e','t','a'] then some .beta
  else if l = ['c'] ∨ l = ['r','c'] ∨ l = ['p','r','e'] ∨ l = ['p','r','e','v','i','e','w'] then some .rc
  else none

/-- `local.replace('-', '.').replace('_', '.')` (version.py:246) -/
def toDot (c : Char) : Char := if c = '-' ∨ c = '_' then '.' else c

/-- What __init__ makes of the groups of a match (version.py:189-246). -/
def ofGroups (c : Caps Char) : Except Err Ver :=
  let get (g : String) : Option (List Char) := c.lookup g
  let release := trim ((splitDot ((get "release").getD [])).map toNat)
  match (match get "pre_l" with | none => some Level.final | some l => normLevel l) with
  | none => .error .assertionError
  | some level =>
    if level = .final ∧ (get "pre_n").isSome then .error .assertionError else
    match (match get "post_n1" with
      | some n => if (get "post_l").isSome ∨ (get "post_n2").isSome then none else some (some n)
      | none => match get "post_n2" with
        | some n => if (get "post_l").isNone then none else some (some n)
        | none => some none) with
    | none => .error .assertionError
    | some post =>
      if (get "dev_n").isSome ∧ (get "dev_l").isNone then .error .assertionError
      else .ok ⟨(get "epoch").map toNat, release.map Int.ofNat, level, (get "pre_n").map toNat,
        post.map toNat, (get "dev_n").map toNat,
        (get "local").map (fun l => splitDot (l.map toDot))⟩

/-- Version(s) (version.py:170-246). -/
def parse (s : List Char) : Except Err Ver :=
  match versionR.matchStart s with
  | none => .error .valueError
  | some (c, _) => ofGroups c

/-- `_re_is_valid_local_segment(element)`: `^[A-Za-z0-9]+$` (version.py:94), where `$` also matches
before a newline at the end. -/
def asciiAlnum (c : Char) : Bool :=
  letters.elem c || (letters.map Char.toUpper).elem c || isDig c
/-- `_re_is_valid_local_segment` (version.py:94): `$` also matches before a newline at the end. -/
def validSegment (s : List Char) : Bool :=
  let b := if s.getLast? = some '\n' then s.dropLast else s
  b ≠ [] && b.all asciiAlnum

/-- Keyword arguments. -/
structure Kw where
  epoch : Option Int := none
  release : List Int
  level : Option Level := none
  serial : Option Int := none
  post : Option Int := none
  dev : Option Int := none
  loc : Option (List (List Char)) := none

/-- `x is None or x >= 0`. For version.py:116-146. -/
def nonneg : Option Int → Bool
  | none => true
  | some x => decide (0 ≤ x)

/-- The test on the `local` keyword (version.py:145-146): true if it is refused. -/
def badLoc : Option (List (List Char)) → Bool
  | none => false
  | some l => l = [] || !l.all validSegment

/-- Version(**fields) (version.py:116-146). -/
def ofKw (k : Kw) : Except Err Ver :=
  if ¬ nonneg k.epoch ∨ k.release = [] ∨ ¬ nonneg k.serial ∨ ¬ nonneg k.post ∨ ¬ nonneg k.dev then
    .error .valueError
  else if badLoc k.loc then
    .error .valueError
  else .ok ⟨some ((k.epoch.map Int.toNat).getD 0), k.release, k.level.getD .final,
    some ((k.serial.map Int.toNat).getD 0), k.post.map Int.toNat, k.dev.map Int.toNat, k.loc⟩

/-- `_release_level_to_str` (version.py:49) -/
def Level.str : Level → List Char
  | .alpha => ['a'] | .beta => ['b'] | .rc => ['r','c'] | .final => []

/-- `_release_level_to_integer` (version.py:48) -/
def Level.int : Level → Int
  | .alpha => -3 | .beta => -2 | .rc => -1 | .final => 0

/-- str(x) if x is true (neither None nor 0), else nothing (version.py:319-320, 328-329). -/
def truthy : Option Nat → List Char
  | none => [] | some 0 => [] | some (n + 1) => natStr (n + 1)

/-- version.py:331-332 -/
def postStr : Option Nat → List Char
  | none => [] | some n => ['.','p','o','s','t'] ++ natStr n
/-- version.py:334-335 -/
def devStr : Option Nat → List Char
  | none => [] | some n => ['.','d','e','v'] ++ natStr n
/-- version.py:337-339 -/
def locStr : Option (List (List Char)) → List Char
  | none => [] | some [] => [] | some l => '+' :: joinDot l

/-- __str__ (version.py:315-341). -/
def Ver.str (v : Ver) : Except Err (List Char) :=
  if v.level.str = [] ∧ truthy v.serial ≠ [] then .error .assertionError
  else .ok (
    (if truthy v.epoch = [] then [] else truthy v.epoch ++ ['!'])
    ++ joinDot (v.release.map intStr)
    ++ (if v.level.str = [] then [] else v.level.str ++ truthy v.serial)
    ++ postStr v.post
    ++ devStr v.dev
    ++ locStr v.loc)

/-- An element of compare_local (version.py:251): (1, text) or (2, number). -/
inductive LKey where
  | text (s : List Char) | num (n : Nat)
  deriving DecidableEq, Repr

/-- The comparison tuple (version.py:248-254, 301-310); `none` as dev stands for math.inf. -/
structure Key where
  epoch : Nat
  release : List Int
  level : Int
  serial : Nat
  post : Int
  dev : Option Nat
  loc : List LKey
  deriving DecidableEq, Repr

/-- The tuple that is compared (version.py:248-254, 301-310). -/
def Ver.key (v : Ver) : Key :=
  ⟨v.epoch.getD 0, v.release, v.level.int, v.serial.getD 0,
   (match v.post with | none => -1 | some n => (n : Int)), v.dev,
   (v.loc.getD []).map (fun e => if e ≠ [] ∧ e.all isDig then .num (toNat e) else .text e)⟩

/-- `<` of tuples in Python: at the first place where they differ, else by length. For version.py:351. -/
def tupleLt {α : Type} [DecidableEq α] (lt : α → α → Bool) : List α → List α → Bool
  | [], [] => false
  | [], _ :: _ => true
  | _ :: _, [] => false
  | a :: as, b :: bs => if a = b then tupleLt lt as bs else lt a b

/-- `<` of elements of compare_local. -/
def LKey.lt : LKey → LKey → Bool
  | .text a, .text b => tupleLt (fun x y => decide (x < y)) a b
  | .text _, .num _ => true
  | .num _, .text _ => false
  | .num a, .num b => decide (a < b)

/-- `<` of ints and math.inf. For version.py:351. -/
def infLt : Option Nat → Option Nat → Bool
  | some a, some b => decide (a < b)
  | some _, none => true
  | none, _ => false

/-- `self._tuple < other._tuple` (version.py:351). -/
def Key.lt (a b : Key) : Bool :=
  if a.epoch ≠ b.epoch then decide (a.epoch < b.epoch)
  else if a.release ≠ b.release then tupleLt (fun x y => decide (x < y)) a.release b.release
  else if a.level ≠ b.level then decide (a.level < b.level)
  else if a.serial ≠ b.serial then decide (a.serial < b.serial)
  else if a.post ≠ b.post then decide (a.post < b.post)
  else if a.dev ≠ b.dev then infLt a.dev b.dev
  else tupleLt LKey.lt a.loc b.loc

/-- __lt__ (version.py:348-351) -/
def Ver.lt (a b : Ver) : Bool := a.key.lt b.key
/-- __eq__ (version.py:343-346) -/
def Ver.eq (a b : Ver) : Bool := decide (a.key = b.key)

/-- The hash functions of the types of the fields; what they are is left open. For version.py:354-363. -/
structure Hashes where
  int : Option Nat → Nat
  release : List Int → Nat
  level : Level → Nat
  loc : Option (List (List Char)) → Nat

/-- __hash__ (version.py:354-363) -/
def Ver.hash (h : Hashes) (v : Ver) : Nat :=
  h.int v.epoch ^^^ h.release v.release ^^^ h.level v.level ^^^ h.int v.serial ^^^ h.int v.post
    ^^^ h.int v.dev ^^^ h.loc v.loc

deriving instance DecidableEq for Except

end Big.Version
