import Verif.Log.Model
/-!
# Model of `Log.print` (big/log.py:157-197)
-/
namespace Big.Log

/-- str() of an int. For log.py:179-184. -/
def intStr (n : Int) : List Char := if n < 0 then '-' :: natStr n.natAbs else natStr n.natAbs

/-- `f"{n:0{w}}"` for an int: zeros go between the sign and the digits. For log.py:179-184. -/
def zeroFill (w : Nat) (n : Int) : List Char :=
  if n < 0 then '-' :: zeroPad (w - 1) (natStr n.natAbs) else zeroPad w (natStr n.natAbs)

/-- format_time (log.py:179-184), on any int (`//` rounds down; `:>09` puts zeros before the sign). -/
def formatInt (secondsWidth fractionalWidth : Nat) (t : Int) : List Char :=
  let seconds := t.fdiv 1000000000
  let nanoseconds := (zeroPad 9 (intStr (t - seconds))).take fractionalWidth
  zeroFill secondsWidth seconds ++ '.' :: nanoseconds

/-- `f"{s:{w}}"` for a str: padded with spaces on the right. For log.py:189-192. -/
def padRight (w : Nat) (s : List Char) : List Char := s ++ List.replicate (w - s.length) ' '

/-- The keyword arguments of print (log.py:157), without the print function. Negative widths and
indents are not modelled. -/
structure Opts where
  title : Option String
  headings : Bool
  indent : Nat
  secondsWidth : Nat
  fractionalWidth : Nat

/-- Their default values. -/
def Opts.default : Opts := ⟨some "[event log]", true, 2, 2, 9⟩

/-- `column_width = seconds_width + 1 + fractional_width` (log.py:177) -/
def Opts.columnWidth (o : Opts) : Nat := o.secondsWidth + 1 + o.fractionalWidth

/-- `" " * indent` (log.py:176) -/
def Opts.indentStr (o : Opts) : List Char := List.replicate o.indent ' '

/-- The line printed for the title (log.py:186-187): none if it is None or empty. -/
def titleLines (o : Opts) : List (List Char) :=
  match o.title with
  | none => []
  | some t => if t.toList.isEmpty then [] else [t.toList]

/-- The two heading lines (log.py:189-192). -/
def headingLines (o : Opts) (longest : Nat) : List (List Char) :=
  if o.headings then
    [o.indentStr ++ padRight o.columnWidth "start".toList ++ "  ".toList ++
        padRight o.columnWidth "elapsed".toList ++ "  ".toList ++ "event".toList,
     o.indentStr ++ List.replicate o.columnWidth '-' ++ "  ".toList ++
        List.replicate o.columnWidth '-' ++ "  ".toList ++ List.replicate longest '-']
  else []

/-- `indent * depth` (log.py:196) -/
def repeatStr (s : List Char) : Nat → List Char
  | 0 => []
  | n + 1 => s ++ repeatStr s n

/-- The line of one event (log.py:195-197). -/
def eventLine (o : Opts) : Int × Int × String × Nat → List Char
  | (start, elapsed, event, depth) =>
    o.indentStr ++ formatInt o.secondsWidth o.fractionalWidth start ++ "  ".toList ++
      formatInt o.secondsWidth o.fractionalWidth elapsed ++ "  ".toList ++
      repeatStr o.indentStr depth ++ event.toList

/-- print (log.py:157-197): the arguments of the calls of the print function, in order. -/
def printed (o : Opts) (l : St) : List (List Char) :=
  titleLines o ++ headingLines o l.longest ++ (iter l).map (eventLine o)

end Big.Log
