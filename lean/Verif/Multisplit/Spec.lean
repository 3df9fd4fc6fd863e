/-!
# What splitting by several separators means

Independent of the model: nothing here mentions regular expressions or the code.
-/
namespace Big.MS.Spec

variable {α : Type}

/-- No separator starts at the beginning of `s`. -/
def NoSep (seps : List (List α)) (s : List α) : Prop := ∀ w ∈ seps, ¬ w <+: s

/-- `w` is the longest separator that starts at the beginning of `s`. -/
def Longest (seps : List (List α)) (w s : List α) : Prop :=
  w ∈ seps ∧ w <+: s ∧ ∀ w' ∈ seps, w' <+: s → w'.length ≤ w.length

/-- `m`, followed by `rest`, is a maximal run of separators: read from the left, always taking the
longest separator, until none starts. -/
inductive Run (seps : List (List α)) : List α → List α → Prop
  | done {rest} : NoSep seps rest → Run seps [] rest
  | more {w m rest} : Longest seps w (w ++ (m ++ rest)) → Run seps m rest → Run seps (w ++ m) rest

/-- `m`, followed by `rest`, is what a split takes out at once: the longest separator, or, if
adjacent separators are grouped, a maximal run of at least one. -/
def SepAt (seps : List (List α)) (separate : Bool) (m rest : List α) : Prop :=
  if separate then Longest seps m (m ++ rest) else m ≠ [] ∧ Run seps m rest

/-- The list alternates text and separator, starting and ending with text, as a scan from the left
that splits at every separator would give: no separator starts at a position inside a text, and
every separator piece is as `SepAt` says. -/
def Alternates (seps : List (List α)) (separate : Bool) : List (List α) → Prop
  | [] => False
  | [n] => ∀ a b, n = a ++ b → NoSep seps b
  | n :: w :: rest =>
    (∀ a b, n = a ++ b → b ≠ [] → NoSep seps (b ++ (w ++ rest.flatten))) ∧
    SepAt seps separate w rest.flatten ∧ Alternates seps separate rest

/-- Split only the first `n` times: leave the rest of the string in one piece. -/
def limit : Nat → List (List α) → List (List α)
  | 0, l => [l.flatten]
  | _ + 1, [] => [[]]
  | _ + 1, [a] => [a]
  | n + 1, a :: w :: rest => a :: w :: limit n rest

/-- The texts of an alternating list. -/
def texts : List (List α) → List (List α)
  | [] => []
  | [n] => [n]
  | n :: _ :: rest => n :: texts rest

/-- The separators of an alternating list. -/
def seps : List (List α) → List (List α)
  | [] => []
  | [_] => []
  | _ :: w :: rest => w :: seps rest

/-- Each text with the separator after it appended. -/
def joined : List (List α) → List (List α)
  | [] => []
  | [n] => [n]
  | n :: w :: rest => (n ++ w) :: joined rest

/-- Each text with the separator after it, empty after the last. -/
def pairs : List (List α) → List (List α × List α)
  | [] => []
  | [n] => [(n, [])]
  | n :: w :: rest => (n, w) :: pairs rest

/-- The list read from right to left, with every string turned around. -/
def mirror (l : List (List α)) : List (List α) := (l.map List.reverse).reverse

/-- The string with every separator piece of an alternating list replaced by `repl`. -/
def replaced (repl : List α) : List (List α) → List α
  | [] => []
  | [n] => n
  | n :: _ :: rest => n ++ (repl ++ replaced repl rest)

/-- Python's `s.split(None, n)` for `n ≥ 0`: skip space; if anything is left, the next word, and so on;
after `n` words the remaining string, its leading space skipped, is one piece. -/
def pySplit (sp : α → Bool) : Nat → List α → List (List α)
  | 0, s => if (s.dropWhile sp).isEmpty then [] else [s.dropWhile sp]
  | n + 1, s =>
    if (s.dropWhile sp).isEmpty then []
    else (s.dropWhile sp).takeWhile (fun c => !sp c)
      :: pySplit sp n ((s.dropWhile sp).dropWhile (fun c => !sp c))

/-- Python's `s.rsplit(None, n)` for `n ≥ 0`: the same from the right. -/
def pyRsplit (sp : α → Bool) (n : Nat) (s : List α) : List (List α) := mirror (pySplit sp n s.reverse)

/-- A concatenation of strings of `seps`. -/
inductive Concat (seps : List (List α)) : List α → Prop
  | nil : Concat seps []
  | cons {w m} : w ∈ seps → Concat seps m → Concat seps (w ++ m)

/-- `l`, in the order of the string, is `s` split at every separator, scanning from the left, or from
the right if `reverse`: scanning from the right is scanning the mirrored string for the mirrored
separators from the left. -/
def Splits (seps : List (List α)) (separate reverse : Bool) (s : List α) (l : List (List α)) : Prop :=
  l.flatten = s ∧
  if reverse then Alternates (seps.map List.reverse) separate (mirror l)
  else Alternates seps separate l

/-- Keep the first `n` splits, or the last `n` if `reverse`. -/
def limitDir (reverse : Bool) (n : Nat) (l : List (List α)) : List (List α) :=
  if reverse then mirror (limit n (mirror l)) else limit n l

end Big.MS.Spec
