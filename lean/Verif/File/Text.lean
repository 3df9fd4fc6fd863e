/-!
# Model of the text functions of big/file.py: filename translation, fgrep and grep
-/
namespace Big.File

/-- "\x01" to "\x1f", as "?01" to "?1f" (file.py:295-326). -/
def hex2 (n : Nat) : List Char :=
  ['?', if n / 16 = 0 then '0' else '1', Nat.digitChar (n % 16)]

/-- `_exfat_translation_dict` (file.py:293-336): what one character becomes. -/
def exfatChar (c : Char) : List Char :=
  if c.toNat = 0 then ['@']
  else if c.toNat < 32 then hex2 c.toNat
  else if c = '/' then ['-']
  else if c = '\\' then ['-']
  else if c = '*' then ['@']
  else if c = '?' then ['.']
  else if c = '"' then ['\'']
  else if c = '<' then ['{']
  else if c = '>' then ['}']
  else if c = '|' then ['!']
  else [c]

/-- `s.replace(": ", " - ")` (file.py:352) -/
def replaceColonSpace : List Char → List Char
  | ':' :: ' ' :: s => ' ' :: '-' :: ' ' :: replaceColonSpace s
  | c :: s => c :: replaceColonSpace s
  | [] => []

/-- `s.replace(":", ".")` (file.py:353) -/
def replaceColon (s : List Char) : List Char := s.map fun c => if c = ':' then '.' else c

/-- translate_filename_to_exfat (file.py:341-354); none is ValueError. -/
def toExfat (s : List Char) : Option (List Char) :=
  if s = [] then none
  else some (replaceColon (replaceColonSpace (s.flatMap exfatChar)))

/-- `_unix_translation_dict` (file.py:359-362) -/
def unixChar (c : Char) : Char := if c.toNat = 0 then '@' else if c = '/' then '-' else c

/-- translate_filename_to_unix (file.py:367-377); none is ValueError. -/
def toUnix (s : List Char) : Option (List Char) :=
  if s = [] then none else some (s.map unixChar)

/-- `contents.split('\n')`: characters are any type, nl is the separator; used for str and bytes. For file.py:95-107. -/
def split {α : Type} [DecidableEq α] (nl : α) : List α → List (List α)
  | [] => [[]]
  | c :: s =>
    if c = nl then [] :: split nl s
    else match split nl s with
      | [] => [[c]]
      | l :: ls => (c :: l) :: ls

/-- `t in line`. For file.py:95-107. -/
def contains {α : Type} [DecidableEq α] (t : List α) : List α → Bool
  | [] => t.isPrefixOf []
  | c :: s => t.isPrefixOf (c :: s) || contains t s

/-- `enumerate(l, 1)`. For file.py:95-107. -/
def enum {α : Type} (l : List α) : List (Nat × α) := (List.range' 1 l.length).zip l

/-- fgrep (file.py:95-107) after the file was read: `contents` is what `f.read()` returned and `lower`
is the lower() of its type. The result is a list of (number, line); without enumerate, the numbers
are dropped. -/
def fgrepNumbered {α : Type} [DecidableEq α] (nl : α) (lower : List α → List α)
    (text contents : List α) (ci : Bool) : List (Nat × List α) :=
  let sp := split nl contents
  if !ci then (enum sp).filter (fun t => contains text t.2)
  else
    let lowerSplit := split nl (lower contents)
    ((enum (sp.zip lowerSplit)).filter (fun t => contains (lower text) t.2.2)).map
      (fun t => (t.1, t.2.1))

/-- fgrep without enumerate (file.py:100, 107). -/
def fgrepPlain {α : Type} [DecidableEq α] (nl : α) (lower : List α → List α)
    (text contents : List α) (ci : Bool) : List (List α) :=
  let sp := split nl contents
  if !ci then sp.filter (contains text)
  else
    let lowerSplit := split nl (lower contents)
    ((sp.zip lowerSplit).filter (fun t => contains (lower text) t.2)).map (·.1)

/-- grep (file.py:168-173): `search` is whether `pattern.search(line)` finds a match. -/
def grepNumbered {α : Type} [DecidableEq α] (nl : α) (search : List α → Bool) (contents : List α) :
    List (Nat × List α) :=
  (enum (split nl contents)).filter (fun t => search t.2)
/-- The same without line numbers (enumerate=False). For file.py:151-173. -/
def grepPlain {α : Type} [DecidableEq α] (nl : α) (search : List α → Bool) (contents : List α) :
    List (List α) :=
  (split nl contents).filter search

end Big.File
