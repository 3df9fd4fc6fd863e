import Verif.Multisplit.ArgsModel
import Verif.Words.GentlyTitle
/-!
# The arguments of gently_title and normalize_whitespace (big/text.py:1650-1690, 1758-1793)

Which exceptions bad arguments raise and what the others stand for, with str and bytes told apart. `Words.GentlyTitle`
and `Multisplit.Model` model what happens then.
-/
namespace Big.Words
open Big.MS (Elem SepArg Kind CallErr)
variable {α : Type} [DecidableEq α]

/-- A str that is iterated over when bytes were expected yields strings, bytes yield ints, none of which has the right
type: the first raises TypeError, if there is one. For text.py:1667-1690. -/
def foreignEmpty : SepArg → Bool
  | .str t => t.isEmpty
  | .bytes t => t.isEmpty
  | _ => false

/-- The test made from an `apostrophes` or `double_quotes` argument (text.py:1667-1690, and `_iterate_over_bytes`,
67-74). Only None gives the default; `if not apostrophes` comes after the elements are checked, and an iterator is true. -/
def quoteArg (K : Kind α) (dflt : α → Bool) (a : SepArg) : Except CallErr (α → Bool) :=
  match K.text a with
  | some t => if t.isEmpty then .error .valueError else .ok (fun c => t.contains c)
  | none =>
    if K.foreign a then (if foreignEmpty a then .error .valueError else .error .typeError)
    else match a with
      | .none => .ok dflt
      | .coll l =>
        match Big.MS.stripSeps.go K l with
        | .error e => .error e
        | .ok ts => if l.isEmpty then .error .valueError else .ok (fun c => ts.contains [c])
      | .iter l => (Big.MS.stripSeps.go K l).map (fun ts c => ts.contains [c])
      | _ => .error .typeError

/-- gently_title (text.py:1590-1726), with its checks. -/
def gentlyTitleCall (K : Kind α) (E : TitleEnv α) (s : List α) (apostrophes doubleQuotes : SepArg) :
    Except CallErr (List α) :=
  match quoteArg K E.defApos apostrophes with
  | .error e => .error e
  | .ok apos =>
    match quoteArg K E.defQuote doubleQuotes with
    | .error e => .error e
    | .ok quote => .ok (gentlyLoop E apos quote .afterSpace s)

/-- gently_title's view of bytes: `bytes.isspace`, `bytes.upper`, `b'DO'.__contains__`, the default apostrophe and quote
(text.py:1366-1368, 1584-1587). -/
def bytesTitle : TitleEnv UInt8 where
  space b := (9 ≤ b && b ≤ 13) || b == 32
  lparen := 40
  upper b := if 97 ≤ b && b ≤ 122 then [b - 32] else [b]
  isDO l := l.isEmpty || l == [68] || l == [79] || l == [68, 79]
  defApos b := b == 39
  defQuote b := b == 34

/-- gently_title's view of str (text.py:1360-1362, 1582-1583, 1586); `upper` is `str.upper` of a character. -/
def strTitle (upper : Char → List Char) : TitleEnv Char where
  space c := Big.MS.isSpace c
  lparen := '('
  upper := upper
  isDO l := l.isEmpty || l == ['D'] || l == ['O'] || l == ['D', 'O']
  defApos c := ['\'', '‘', '’', '‚', '‛'].contains c
  defQuote c := ['"', '“', '”', '„', '‟', '«', '»', '‹', '›'].contains c

/-- What normalize_whitespace knows about the type of `s` besides: the space, `isspace` of a character, whether there is
a fast path, and the default separators (text.py:1758-1768, 1811-1813). -/
structure NormKind (α : Type) extends Kind α where
  space : α
  sp : α → Bool
  fast : Bool
  noCrlf : List (List α)

/-- s is a str. -/
def strNorm : NormKind Char :=
  { Big.MS.strKind with
    space := ' '
    sp := Big.MS.isSpace
    fast := true
    noCrlf := Big.MS.withoutCrlf Big.MS.strWhitespace }

/-- s is bytes. -/
def bytesNorm : NormKind UInt8 :=
  { Big.MS.bytesKind with
    space := 32
    sp := fun b => Big.MS.bytesWhitespace.contains [b]
    fast := false
    noCrlf := Big.MS.bytesWithoutCrlf Big.MS.bytesWhitespace }

/-- The tuple of separators (text.py:1770-1788). -/
def normSeps (N : NormKind α) (a : SepArg) : Except CallErr (List (List α)) :=
  match N.text a with
  | some t => .ok (t.map (fun c => [c]))
  | none =>
    if N.foreign a then (if foreignEmpty a then .error .valueError else .error .typeError)
    else match a with
      | .none => .ok N.noCrlf
      | .coll l =>
        match Big.MS.stripSeps.go N.toKind l with
        | .error e => .error e
        | .ok ts => if ts.isEmpty then .error .valueError else .ok ts
      | .iter l =>
        match Big.MS.stripSeps.go N.toKind l with
        | .error e => .error e
        | .ok ts => if ts.isEmpty then .error .valueError else .ok ts
      | _ => .error .typeError

/-- The replacement (text.py:1790-1793). -/
def normRepl (N : NormKind α) (r : SepArg) : Except CallErr (List α) :=
  match r with
  | .none => .ok [N.space]
  | _ => match N.text r with
    | some t => .ok t
    | none => .error .typeError

/-- `separators is None`. For text.py:1731-1825. -/
def isNone : SepArg → Bool
  | .none => true
  | _ => false

/-- normalize_whitespace (text.py:1731-1825), with its checks. Only the default separators are the object
`whitespace_without_crlf` (a tuple passed in is copied, text.py:1788), so that only they take the fast path; multisplit
raises ValueError if there are no separators. -/
def normalizeCall (N : NormKind α) (s : List α) (a r : SepArg) : Except CallErr (List α) :=
  match normSeps N a with
  | .error e => .error e
  | .ok seps =>
    match normRepl N r with
    | .error e => .error e
    | .ok repl =>
      if s.isEmpty then .ok []
      else if N.fast && isNone a then .ok (Big.MS.normFast N.sp repl s)
      else if seps.isEmpty then .error .valueError
      else .ok (Big.MS.normGeneral N.cache repl s seps)

end Big.Words
