import Verif.Version.Model
/- Ways of writing a version, and what PEP 440 says they mean: the specification for C24-C26. -/
namespace Big.Version

/-- Pre-release labels. -/
inductive PreLabel where
  | a | b | c | rc | alpha | beta | pre | preview
  deriving DecidableEq

/-- Its spelling. -/
def PreLabel.text : PreLabel → String
  | .a => "a" | .b => "b" | .c => "c" | .rc => "rc" | .alpha => "alpha" | .beta => "beta"
  | .pre => "pre" | .preview => "preview"

/-- PEP 440 "Pre-release spelling". -/
def PreLabel.level : PreLabel → Level
  | .a | .alpha => .alpha
  | .b | .beta => .beta
  | _ => .rc

/-- Post-release labels. -/
inductive PostLabel where
  | post | rev | r
  deriving DecidableEq

/-- Its spelling. -/
def PostLabel.text : PostLabel → String
  | .post => "post" | .rev => "rev" | .r => "r"

/-- A label with optional separators around it and an optional number: `.post-3`. -/
structure Part (L : Type) where
  sep₁ : Option Char
  label : L
  sep₂ : Option Char
  num : Option (List Char)

/-- A post-release: `-3`, or a label. -/
inductive Post where
  | dash (n : List Char)
  | word (p : Part PostLabel)

/-- A version as written. -/
structure Written where
  ws₁ : List Char := []
  v : Option Char := none
  epoch : Option (List Char) := none
  rel : List Char
  rels : List (List Char) := []
  pre : Option (Part PreLabel) := none
  post : Option Post := none
  dev : Option (Part Unit) := none
  loc : Option (List Char × List (Char × List Char)) := none
  ws₂ : List Char := []

/-- The text of a part. -/
def Part.render {L : Type} (text : L → List Char) (p : Part L) : List Char :=
  p.sep₁.toList ++ text p.label ++ p.sep₂.toList ++ p.num.getD []

/-- The text of a post release. -/
def Post.render : Post → List Char
  | .dash n => '-' :: n
  | .word p => p.render (fun l => l.text.toList)

/-- The text of a local version. -/
def renderLocal (l : List Char × List (Char × List Char)) : List Char :=
  '+' :: l.1 ++ (l.2.map (fun p => p.1 :: p.2)).flatten

/-- The text. -/
def Written.render (w : Written) : List Char :=
  w.ws₁ ++ w.v.toList ++ (match w.epoch with | none => [] | some e => e ++ ['!']) ++
  w.rel ++ (w.rels.map (fun r => '.' :: r)).flatten ++
  (match w.pre with | none => [] | some p => p.render (fun l => l.text.toList)) ++
  (match w.post with | none => [] | some p => p.render) ++
  (match w.dev with | none => [] | some p => p.render (fun _ => "dev".toList)) ++
  (match w.loc with | none => [] | some l => renderLocal l) ++ w.ws₂

/-- A non-empty string of decimal digits. -/
def IsNum (s : List Char) : Prop := s ≠ [] ∧ ∀ c ∈ s, isDig c = true

/-- The separators are separators, and the number is one. -/
def Part.Ok {L : Type} (p : Part L) : Prop :=
  (∀ c ∈ p.sep₁, isSep c = true) ∧ (∀ c ∈ p.sep₂, isSep c = true) ∧ (∀ n ∈ p.num, IsNum n)

/-- The number, if any, is one. -/
def Post.Ok : Post → Prop
  | .dash n => IsNum n
  | .word p => p.Ok

/-- A segment of a local version: letters and digits. -/
def IsSeg (s : List Char) : Prop := s ≠ [] ∧ ∀ c ∈ s, isLocalChar c = true

/-- The pieces are what they should be. The last condition resolves an ambiguity as PEP 440 does:
`1.0a-1` is the pre-release 1, not post-release 1 of a pre-release without number. -/
structure Written.Ok (w : Written) : Prop where
  ws₁ : ∀ c ∈ w.ws₁, isWs c = true
  v : ∀ c ∈ w.v, c = 'v' ∨ c = 'V'
  epoch : ∀ e ∈ w.epoch, IsNum e
  rel : IsNum w.rel
  rels : ∀ r ∈ w.rels, IsNum r
  pre : ∀ p ∈ w.pre, p.Ok
  post : ∀ p ∈ w.post, p.Ok
  dev : ∀ p ∈ w.dev, p.Ok
  loc : ∀ l ∈ w.loc, IsSeg l.1 ∧ ∀ p ∈ l.2, isSep p.1 = true ∧ IsSeg p.2
  ws₂ : ∀ c ∈ w.ws₂, isWs c = true
  unambiguous : ∀ p ∈ w.pre, p.sep₂ = none → p.num = none → ∀ n, w.post ≠ some (.dash n)

/-- Release segments without trailing zeros (but at least one). -/
def dropTrailingZeros (l : List Nat) : List Nat :=
  if (l.reverse.dropWhile (· = 0)).reverse = [] then [0] else (l.reverse.dropWhile (· = 0)).reverse

/-- The meaning of a post- or dev-release as PEP 440 has it: an absent number is 0. -/
def Part.number {L : Type} (p : Part L) : Nat := (p.num.map toNat).getD 0
/-- Its number; 0 if it has none. -/
def Post.number : Post → Nat
  | .dash n => toNat n
  | .word p => p.number

/-- What the text means according to PEP 440 (an absent epoch or pre-release number is 0, and `1.0`
without pre-release has no serial; local labels keep their spelling, separators become dots). -/
def Written.meaning (w : Written) : Ver where
  epoch := some ((w.epoch.map toNat).getD 0)
  release := (dropTrailingZeros ((w.rel :: w.rels).map toNat)).map Int.ofNat
  level := match w.pre with | none => .final | some p => p.label.level
  serial := match w.pre with | none => some 0 | some p => some p.number
  post := w.post.map Post.number
  dev := w.dev.map Part.number
  loc := w.loc.map (fun l => l.1 :: l.2.map (·.2))

/-- Every post- and dev-release is written with its number. -/
def Written.Numbered (w : Written) : Prop :=
  (∀ p, w.post = some (.word p) → p.num.isSome) ∧ (∀ p, w.dev = some p → p.num.isSome)

end Big.Version
