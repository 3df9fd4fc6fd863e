import Verif.Graph.Model
/-!
# Model of `python3 -m big.graph`, a tsort (big/graph.py:690-724)

The text is that of the file after newline translation; opening and closing the file is not modelled. `space` is
`str.isspace` of a character.
-/
namespace Big.Graph

/-- `for line in file` (graph.py:710): `cur` is the line read so far. -/
def fileLines (cur : List Char) : List Char → List (List Char)
  | [] => if cur.isEmpty then [] else [cur]
  | c :: t => if c = '\n' then (cur ++ [c]) :: fileLines [] t else fileLines (cur ++ [c]) t

/-- `line.strip()` (graph.py:711) -/
def stripLine (space : Char → Bool) (line : List Char) : List Char :=
  ((line.dropWhile space).reverse.dropWhile space).reverse

/-- `line.split()` (graph.py:714): `cur` is the field read so far. -/
def splitFields (space : Char → Bool) (cur : List Char) : List Char → List (List Char)
  | [] => if cur.isEmpty then [] else [cur]
  | c :: t =>
    if space c then (if cur.isEmpty then splitFields space [] t else cur :: splitFields space [] t)
    else splitFields space (cur ++ [c]) t

/-- `len(fields) != 2` (graph.py:715) -/
def twoFields : List (List Char) → Option (List Char × List Char)
  | [a, b] => some (a, b)
  | _ => none

/-- The loop (graph.py:709-717): the graph, or the line the program exits with. -/
def readPairs (space : Char → Bool) (ord : List (List Char) → List (List Char)) (s : Sys (List Char)) :
    List (List Char) → Except (List Char) (Sys (List Char))
  | [] => .ok s
  | l :: rest =>
    let line := stripLine space l
    if line.isEmpty then readPairs space ord s rest
    else match twoFields (splitFields space [] line) with
      | some p => readPairs space ord (step ord s (.add p.2 [p.1])).1 rest
      | none => .error line

/-- What the program does: it prints lines, exits with "invalid input:" and a line, or raises an exception (then
nothing is printed: `list(g.static_order())` comes first). For graph.py:709-721. -/
inductive TsortOut where
  | printed (l : List (List Char))
  | invalid (line : List Char)
  | raised (e : Err)
  | hangs

/-- The program (graph.py:709-721). -/
def tsort (space : Char → Bool) (ord : List (List Char) → List (List Char)) (text : List Char) : TsortOut :=
  match readPairs space ord Sys.init (fileLines [] text) with
  | .error line => .invalid line
  | .ok s => match s.staticOrder ord with
    | (l, some (.ok ())) => .printed l
    | (_, some (.error e)) => .raised e
    | (_, none) => .hangs

end Big.Graph
