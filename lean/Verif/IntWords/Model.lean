import Mathlib.Data.Nat.Digits.Defs
/-!
# int_to_words (big/text.py:4311-4442)

A string is a list of characters. The check that `i` is an int is not modelled.
-/
namespace Big.IntWords

/-- first_twenty (text.py:4343-4358). -/
def firstTwenty (ordinal : Bool) : List String :=
  if ordinal then
    ["zeroth", "first", "second", "third", "fourth", "fifth", "sixth", "seventh", "eighth", "ninth", "tenth",
     "eleventh", "twelveth", "thirteenth", "fourteenth", "fifteenth", "sixteenth", "seventeenth", "eighteenth",
     "nineteenth"]
  else
    ["zero", "one", "two", "three", "four", "five", "six", "seven", "eight", "nine", "ten", "eleven", "twelve",
     "thirteen", "fourteen", "fifteen", "sixteen", "seventeen", "eighteen", "nineteen"]

/-- tens (text.py:4360-4363); the two entries that are None are never used. -/
def tens : List String :=
  ["", "", "twenty", "thirty", "forty", "fifty", "sixty", "seventy", "eighty", "ninety"]

/-- quantities below 10**12 (text.py:4401-4408). -/
def quantitiesLow : List (Nat × String) :=
  [(10 ^ 9, " billion"), (10 ^ 6, " million"), (10 ^ 3, " thousand"), (10 ^ 2, " hundred")]

/-- quantities from 10**12 on (text.py:4375-4400). -/
def quantitiesHigh : List (Nat × String) :=
  [(10 ^ 63, " vigintillion"), (10 ^ 60, " novemdecillion"), (10 ^ 57, " octodecillion"),
   (10 ^ 54, " septdecillion"), (10 ^ 51, " sexdecillion"), (10 ^ 48, " qindecillion"),
   (10 ^ 45, " quattuordecillion"), (10 ^ 42, " tredecillion"), (10 ^ 39, " duodecillion"),
   (10 ^ 36, " undecillion"), (10 ^ 33, "   decillion"), (10 ^ 30, "   nonillion"), (10 ^ 27, "   octillion"),
   (10 ^ 24, "  septillion"), (10 ^ 21, "  sextillion"), (10 ^ 18, " quintillion"), (10 ^ 15, " quadrillion"),
   (10 ^ 12, " trillion"), (10 ^ 9, " billion"), (10 ^ 6, " million"), (10 ^ 3, " thousand"), (10 ^ 2, " hundred")]

/-- The variables: `i`, `strings`, `spacer`. For text.py:4410-4417. -/
structure Vars where
  i : Nat
  strings : List (List Char)
  spacer : List Char

/-- The loop over quantities (text.py:4410-4417); `rec` is the recursive call. -/
def loop (rec : Nat → List Char) (flowery : Bool) : List (Nat × String) → Vars → Vars
  | [], m => m
  | (threshold, english) :: qs, m =>
    if m.i ≥ threshold then
      loop rec flowery qs
        ⟨m.i % threshold,
         m.strings ++ [m.spacer, rec (m.i / threshold), english.toList],
         if flowery then [',', ' '] else [' ']⟩
    else loop rec flowery qs m

/-- `if i >= 100:` and `if strings:` (text.py:4374-4420). -/
def largePart (rec : Nat → List Char) (flowery : Bool) (i : Nat) : Vars :=
  let m :=
    if i ≥ 100 then loop rec flowery (if i ≥ 10 ^ 12 then quantitiesHigh else quantitiesLow) ⟨i, [], []⟩
    else ⟨i, [], []⟩
  if m.strings ≠ [] then { m with spacer := if flowery then " and ".toList else [' '] } else m

/-- `if i >= 20:` (text.py:4422-4427). -/
def tensPart (m : Vars) : Vars :=
  if m.i ≥ 20 then ⟨m.i % 10, m.strings ++ [m.spacer, ((tens[m.i / 10]?).getD "").toList], ['-']⟩ else m

/-- The end (text.py:4429-4437). -/
def unitPart (ordinal : Bool) (m : Vars) : List (List Char) :=
  if m.i ≠ 0 ∨ m.strings = [] then m.strings ++ [m.spacer, (((firstTwenty ordinal)[m.i]?).getD "").toList]
  else if ordinal && m.strings ≠ [] then
    (if (m.strings.getLast?.bind List.getLast?) = some 'y' then
       m.strings.dropLast ++ [((m.strings.getLast?).getD []).dropLast ++ ['i', 'e']]
     else m.strings) ++ [['t', 'h']]
  else m.strings

/-- int_to_words for an `i` from 0 up to 10**75 (text.py:4343-4437), given what the recursive calls
return. -/
def body (rec : Nat → List Char) (flowery ordinal : Bool) (i : Nat) : List (List Char) :=
  unitPart ordinal (tensPart (largePart rec flowery i))

/-- The recursive calls, up to a depth that is never reached (`cardinal_eq`): a recursive call has the default
`ordinal=False`. For text.py:4311-4442. -/
def cardinalN (flowery : Bool) : Nat → Nat → List Char
  | 0, _ => []
  | depth + 1, i => (body (cardinalN flowery depth) flowery false i).flatten

/-- The recursive calls. For text.py:4311-4442. -/
def cardinal (flowery : Bool) (i : Nat) : List Char := cardinalN flowery 4 i

/-- `str(i)`. For text.py:4311-4442. -/
def str (i : Int) : List Char :=
  (if i < 0 then ['-'] else []) ++
    (if i = 0 then ['0'] else (Nat.digits 10 i.natAbs).reverse.map (fun d => Char.ofNat ('0'.toNat + d)))

/-- `int_to_words(i, flowery, ordinal)` (text.py:4311-4442). -/
def intToWords (i : Int) (flowery ordinal : Bool) : List Char :=
  if i ≥ 10 ^ 75 ∨ i ≤ -10 ^ 75 then str i
  else
    let strings := body (cardinal flowery) flowery ordinal i.natAbs
    (if i < 0 then "negative ".toList :: strings else strings).flatten

/-! ## Specification: reading English numbers -/

/-- What a word says: add a number, or multiply by a power of ten. -/
inductive Meaning where
  | add (n : Nat)
  | times (m : Nat)
  deriving DecidableEq, Repr

/-- The cardinal numerals (as they are spelled in the code). -/
def cardinals : List (String × Meaning) :=
  [("zero", .add 0), ("one", .add 1), ("two", .add 2), ("three", .add 3), ("four", .add 4), ("five", .add 5),
   ("six", .add 6), ("seven", .add 7), ("eight", .add 8), ("nine", .add 9), ("ten", .add 10), ("eleven", .add 11),
   ("twelve", .add 12), ("thirteen", .add 13), ("fourteen", .add 14), ("fifteen", .add 15), ("sixteen", .add 16),
   ("seventeen", .add 17), ("eighteen", .add 18), ("nineteen", .add 19), ("twenty", .add 20), ("thirty", .add 30),
   ("forty", .add 40), ("fifty", .add 50), ("sixty", .add 60), ("seventy", .add 70), ("eighty", .add 80),
   ("ninety", .add 90), ("hundred", .times (10 ^ 2)), ("thousand", .times (10 ^ 3)), ("million", .times (10 ^ 6)),
   ("billion", .times (10 ^ 9)), ("trillion", .times (10 ^ 12)), ("quadrillion", .times (10 ^ 15)),
   ("quintillion", .times (10 ^ 18)), ("sextillion", .times (10 ^ 21)), ("septillion", .times (10 ^ 24)),
   ("octillion", .times (10 ^ 27)), ("nonillion", .times (10 ^ 30)), ("decillion", .times (10 ^ 33)),
   ("undecillion", .times (10 ^ 36)), ("duodecillion", .times (10 ^ 39)), ("tredecillion", .times (10 ^ 42)),
   ("quattuordecillion", .times (10 ^ 45)), ("qindecillion", .times (10 ^ 48)), ("sexdecillion", .times (10 ^ 51)),
   ("septdecillion", .times (10 ^ 54)), ("octodecillion", .times (10 ^ 57)), ("novemdecillion", .times (10 ^ 60)),
   ("vigintillion", .times (10 ^ 63))]

/-- The ordinal numerals that are not a cardinal followed by "th" (as they are spelled in the code). -/
def ordinals : List (String × Meaning) :=
  [("first", .add 1), ("second", .add 2), ("third", .add 3), ("fifth", .add 5), ("eighth", .add 8),
   ("ninth", .add 9), ("twentieth", .add 20), ("thirtieth", .add 30), ("fortieth", .add 40), ("fiftieth", .add 50),
   ("sixtieth", .add 60), ("seventieth", .add 70), ("eightieth", .add 80), ("ninetieth", .add 90)]

/-- What a word says as a cardinal. -/
def asCardinal (w : List Char) : Option Meaning := (cardinals.map (fun p => (p.1.toList, p.2))).lookup w

/-- What a word says as an ordinal. -/
def asOrdinal (w : List Char) : Option Meaning :=
  ((ordinals.map (fun p => (p.1.toList, p.2))) ++ (cardinals.map (fun p => (p.1.toList ++ ['t', 'h'], p.2)))).lookup w

/-- Reading on: a numeral adds to the value; "hundred" and the like multiply what is below them, so that
"two million three thousand" is `2 * 10 ^ 6 + 3 * 10 ^ 3`. -/
def Meaning.apply (v : Nat) : Meaning → Nat
  | .add n => v + n
  | .times m => v - v % m + v % m * m

/-- The value of a list of words: the last one is an ordinal if `ordinal`, all others are cardinals. -/
def readWords (ordinal : Bool) : Nat → List (List Char) → Option Nat
  | _, [] => none
  | v, [w] => (if ordinal then asOrdinal w else asCardinal w).map (·.apply v)
  | v, w :: w' :: ws => (asCardinal w).bind (fun m => readWords ordinal (m.apply v) (w' :: ws))

/-- The characters between words. -/
def isSep (c : Char) : Bool := c = ' ' || c = ',' || c = '-'

/-- The words of a text; the first argument is the start of the current one. -/
def wordsOf : List Char → List Char → List (List Char)
  | w, [] => if w = [] then [] else [w]
  | w, c :: s => if isSep c then (if w = [] then [] else [w]) ++ wordsOf [] s else wordsOf (w ++ [c]) s

/-- Reading a number: "negative" at the start, "and" is skipped. -/
def read (ordinal : Bool) (s : List Char) : Option Int :=
  match (wordsOf [] s).filter (· ≠ "and".toList) with
  | [] => none
  | w :: ws =>
    if w = "negative".toList then (readWords ordinal 0 ws).map (fun n : Nat => -(n : Int))
    else (readWords ordinal 0 (w :: ws)).map (fun n : Nat => (n : Int))

end Big.IntWords
