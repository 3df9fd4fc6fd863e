import Verif.Wrap.Words
/-!
# split_text_with_code (big/text.py:3789-4088)

A string is a list of characters; the type checks (str against bytes) are not modelled. The states of the
StateManager are an enumeration (there are no on_enter and on_exit handlers, and no state is ever entered
from itself). `tab_width` is a natural number.
-/
namespace Big.Wrap

variable {α : Type} [DecidableEq α]

/-- `_code_paragraph` and `_text_paragraph` (text.py:3789-3790). -/
inductive Para where
  | code | text
  deriving DecidableEq, Repr

/-- The states (text.py:3942-4046). -/
inductive St where
  | paragraphStart | lineStart | textLineStart | inTextLine | codeLineStart | inCodeLine
  deriving DecidableEq, Repr

/-- The arguments of split_text_with_code. -/
structure Opt where
  tabWidth : Nat
  allowCode : Bool
  codeIndent : Int
  convertTabs : Bool

/-- A `_column_wrapper_splitter` (text.py:3793-3827). -/
structure Splitter (α : Type) where
  words : List (List α)
  leading : List α
  word : List α
  code : List (List α)
  prev : Option Para
  col : Nat
  st : St

/-- The column after a whitespace character (text.py:3974-3980, 4031-4043). -/
def advance (E : Env α) (o : Opt) (col : Nat) (c : α) : Except Err Nat :=
  if c = E.tab then
    if o.tabWidth = 0 then .error .zeroDivisionError else .ok (col + o.tabWidth - col % o.tabWidth)
  else if c = E.sp then .ok (col + 1)
  else .error .runtimeError

/-- The column after `leading` (text.py:3972-3980). -/
def indentCol (E : Env α) (o : Opt) : Nat → List α → Except Err Nat
  | col, [] => .ok col
  | col, c :: cs =>
    match advance E o col c with
    | .error e => .error e
    | .ok col' => indentCol E o col' cs

/-- The loop over `leading` in a code line: the column and the strings appended to `code`
(text.py:4025-4043). -/
def codeLeading (E : Env α) (o : Opt) : Nat → List α → Except Err (Nat × List (List α))
  | col, [] => .ok (col, [])
  | col, c :: cs =>
    match advance E o col c with
    | .error e => .error e
    | .ok col' =>
      let piece := if c = E.tab then (if o.convertTabs then List.replicate (col' - col) E.sp else [c]) else [c]
      match codeLeading E o col' cs with
      | .error e => .error e
      | .ok (col'', pieces) => .ok (col'', piece :: pieces)

/-- state_line_start for a newline (text.py:3959-3969). -/
def lineStartNewline (E : Env α) (m : Splitter α) : Splitter α :=
  if m.prev = some .code then { m with code := m.code ++ [[E.nl]] }
  else { m with st := .paragraphStart }

/-- state_in_code_line (text.py:4018-4045). -/
def inCodeLine (E : Env α) (o : Opt) (m : Splitter α) (leading word : List α) : Except Err (Splitter α) :=
  if word = [E.nl] then
    .ok (lineStartNewline E { m with words := m.words ++ [m.code.flatten], code := [], st := .lineStart })
  else
    match codeLeading E o m.col leading with
    | .error e => .error e
    | .ok (col, pieces) => .ok { m with code := m.code ++ pieces ++ [word], col := col + word.length }

/-- state_code_line_start (text.py:4012-4016). -/
def codeLineStart (E : Env α) (o : Opt) (m : Splitter α) (leading word : List α) : Except Err (Splitter α) :=
  inCodeLine E o { m with prev := some .code, col := 0, st := .inCodeLine } leading word

/-- state_in_text_line (text.py:4006-4010). -/
def inTextLine (E : Env α) (m : Splitter α) (_leading word : List α) : Except Err (Splitter α) :=
  if word = [E.nl] then .ok { m with st := .lineStart }
  else .ok { m with words := m.words ++ [word] }

/-- state_text_line_start (text.py:4001-4004). -/
def textLineStart (E : Env α) (m : Splitter α) (leading word : List α) : Except Err (Splitter α) :=
  inTextLine E { m with prev := some .text, st := .inTextLine } leading word

/-- The end of state_line_start: a line of text (text.py:3996-3999). -/
def startText (E : Env α) (m : Splitter α) (leading word : List α) : Except Err (Splitter α) :=
  textLineStart E
    (if m.prev = some .code then { m with words := m.words ++ [[E.nl, E.nl]], st := .textLineStart }
     else { m with st := .textLineStart }) leading word

/-- The branch of state_line_start for a line of code (text.py:3981-3994). -/
def startCode (E : Env α) (o : Opt) (m : Splitter α) (leading word : List α) : Except Err (Splitter α) :=
  if m.prev = some .text then
    if m.code ≠ [] then .error .assertionError
    else codeLineStart E o { m with words := m.words ++ [[E.nl, E.nl]], st := .codeLineStart } leading word
  else
    codeLineStart E o { m with words := m.words ++ m.code.map (fun _ => [E.nl]), code := [],
                               st := .codeLineStart } leading word

/-- state_line_start (text.py:3958-3999). -/
def lineStart (E : Env α) (o : Opt) (m : Splitter α) (leading word : List α) : Except Err (Splitter α) :=
  if word = [E.nl] then .ok (lineStartNewline E m)
  else if o.allowCode then
    match indentCol E o 0 leading with
    | .error e => .error e
    | .ok col => if col ≥ o.codeIndent then startCode E o m leading word else startText E m leading word
  else startText E m leading word

/-- state_paragraph_start (text.py:3942-3954). -/
def paragraphStart (E : Env α) (o : Opt) (m : Splitter α) (leading word : List α) : Except Err (Splitter α) :=
  if word = [E.nl] then .ok m
  else
    lineStart E o
      (if m.prev ≠ none then { m with words := m.words ++ [[E.nl, E.nl]], prev := none, st := .lineStart }
       else { m with st := .lineStart }) leading word

/-- `self.state(leading, word)`. -/
def call (E : Env α) (o : Opt) (m : Splitter α) (leading word : List α) : Except Err (Splitter α) :=
  match m.st with
  | .paragraphStart => paragraphStart E o m leading word
  | .lineStart => lineStart E o m leading word
  | .textLineStart => textLineStart E m leading word
  | .inTextLine => inTextLine E m leading word
  | .codeLineStart => codeLineStart E o m leading word
  | .inCodeLine => inCodeLine E o m leading word

/-- `write` (text.py:3841-3932). -/
def write (E : Env α) (o : Opt) (m : Splitter α) (c : α) : Except Err (Splitter α) :=
  if E.isSpace c = false then .ok { m with word := m.word ++ [c] }
  else if m.word ≠ [] then
    match call E o { m with word := [], leading := [] } m.leading m.word with
    | .error e => .error e
    | .ok m' =>
      if c = E.nl then call E o m' [] [E.nl]
      else .ok { m' with leading := [c] }
  else if c = E.nl then call E o { m with leading := [] } m.leading [c]
  else .ok { m with leading := m.leading ++ [c] }

/-- `for c in iterable: cws.write(c)` (text.py:4082-4083). -/
def writeAll (E : Env α) (o : Opt) : Splitter α → List α → Except Err (Splitter α)
  | m, [] => .ok m
  | m, c :: s =>
    match write E o m c with
    | .error e => .error e
    | .ok m' => writeAll E o m' s

/-- `close` (text.py:3934-3940). -/
def close (E : Env α) (o : Opt) (m : Splitter α) : Except Err (Splitter α) :=
  if m.word ≠ [] then call E o m m.leading m.word else .ok m

/-- The splitter at the start (text.py:3794-3827). -/
def newSplitter : Splitter α := ⟨[], [], [], [], none, 0, .paragraphStart⟩

/-- `split_text_with_code(s, ...)` (text.py:4050-4088). -/
def splitTextWithCode (E : Env α) (o : Opt) (s : List α) : Except Err (List (List α)) :=
  match writeAll E o newSplitter s with
  | .error e => .error e
  | .ok m =>
    match close E o m with
    | .error e => .error e
    | .ok m => .ok (if m.words = [] then [[]] else m.words)

/-! ## Specification -/

/-- The words of a string, as `s.split()` gives them; the first argument is the start of the current
word. -/
def splitWords (isSpace : α → Bool) : List α → List α → List (List α)
  | word, [] => if word = [] then [] else [word]
  | word, c :: s =>
    if isSpace c then (if word = [] then [] else [word]) ++ splitWords isSpace [] s
    else splitWords isSpace (word ++ [c]) s

/-- `s.expandtabs(n)` for a line that starts in column `col`. -/
def expandTabs (tab sp : α) (n : Nat) : Nat → List α → List α
  | _, [] => []
  | col, c :: s =>
    if c = tab then List.replicate (n - col % n) sp ++ expandTabs tab sp n (col + (n - col % n)) s
    else c :: expandTabs tab sp n (col + 1) s

/-- `line.rstrip()`. -/
def rstrip (isSpace : α → Bool) (line : List α) : List α := (line.reverse.dropWhile isSpace).reverse

/-- What is shown of a line of code: all of it but the whitespace at the end, with its tabs expanded if
that is wanted. -/
def codeText (E : Env α) (o : Opt) (line : List α) : List α :=
  if o.convertTabs then expandTabs E.tab E.sp o.tabWidth 0 (rstrip E.isSpace line) else rstrip E.isSpace line

/-- The kind of a line: nothing but whitespace, code, or text. -/
inductive Kind where
  | blank | code | text
  deriving DecidableEq

/-- The kind of a line: code if its indent, with the tabs expanded, is at least `code_indent` wide. -/
def kind (E : Env α) (o : Opt) (line : List α) : Kind :=
  if line.all E.isSpace then .blank
  else if o.allowCode ∧
      ((expandTabs E.tab E.sp o.tabWidth 0 (line.takeWhile E.isSpace)).length : Int) ≥ o.codeIndent then .code
  else .text

/-- The elements for a line: its words, or the whole line for code. -/
def elements (E : Env α) (o : Opt) (line : List α) : List (List α) :=
  match kind E o line with
  | .blank => []
  | .code => [codeText E o line]
  | .text => splitWords E.isSpace [] line

/-- The break between two lines with `blanks` blank lines between them: lines of a text with no blank line
between them are one paragraph; lines of code keep their distance; else it is the end of a
paragraph. -/
def breaks (E : Env α) (a : Kind) (blanks : Nat) (b : Kind) : List (List α) :=
  match a, b with
  | .code, .code => List.replicate (blanks + 1) [E.nl]
  | .text, .text => if blanks = 0 then [] else [[E.nl, E.nl]]
  | .code, .text => [[E.nl, E.nl]]
  | .text, .code => [[E.nl, E.nl]]
  | _, _ => []

/-- What split_text_with_code should give for the lines of a text: `prev` is the kind of the last line that
was not blank (`blank` if there is none), `blanks` the number of blank lines after it. -/
def layout (E : Env α) (o : Opt) : Kind → Nat → List (List α) → List (List α)
  | _, _, [] => []
  | prev, blanks, line :: lines =>
    match kind E o line with
    | .blank => layout E o prev (blanks + 1) lines
    | k => breaks E prev blanks k ++ elements E o line ++ layout E o k 0 lines

/-- Whitespace other than tabs and spaces does not occur where columns are counted: in the indent of a line,
and before the end of a line of code. -/
def Countable (E : Env α) (o : Opt) (line : List α) : Prop :=
  o.allowCode = true → kind E o line ≠ .blank →
    (∀ c ∈ line.takeWhile E.isSpace, c = E.tab ∨ c = E.sp) ∧
    (kind E o line = .code → ∀ c ∈ rstrip E.isSpace line, E.isSpace c = true → c = E.tab ∨ c = E.sp)

/-- No line of code comes after a line of text that comes after a line of code. -/
def CodeAtMostOnce (E : Env α) (o : Opt) (lines : List (List α)) : Prop :=
  ¬ ∃ a b c, [a, b, c].Sublist lines ∧ kind E o a = .code ∧ kind E o b = .text ∧ kind E o c = .code

end Big.Wrap
