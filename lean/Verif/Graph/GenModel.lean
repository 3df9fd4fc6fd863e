import Verif.Graph.Model
/- Model of TopologicalSorter.static_order as the generator it is (graph.py:660-669): other calls may be made
between two `next`s. `σ` is what the calls act on and `call` makes one call; with `step` it is the graph with
its views. -/
namespace Big.Graph
variable {ν σ : Type}

/-- Where the generator of static_order stands (graph.py:665-669): not started; suspended in
`yield from ready`, on the view with handle `k`, with `rest` of the tuple `batch` still to yield; or ended. -/
inductive Gen (ν : Type) where
  | fresh
  | paused (k : Nat) (batch rest : List ν)
  | over

/-- What `next` on the generator does: yields, ends with StopIteration, raises, or has not come back after the
number of turns of `while v` allowed. For graph.py:666-669. -/
inductive Got (ν : Type) where
  | yields (n : ν)
  | stops
  | raises (e : Err)
  | running
  deriving DecidableEq

/-- `while v: ready = v.ready(); yield from ready; v.done(*ready)` (graph.py:666-669) from the test of `v` to the
next suspension, for at most the given number of turns: an empty `ready` yields nothing, so the loop goes on.
The last alternatives cannot happen: `bool`, `ready` and `done` do not answer like that. -/
def turns (call : σ → Op ν → σ × Out ν) (k : Nat) : Nat → σ → σ × Gen ν × Got ν
  | 0, s => (s, .over, .running)
  | fuel + 1, s =>
    match call s (.bool (.user k)) with
    | (s, .bool false) => (s, .over, .stops)
    | (s, .bool true) =>
      match call s (.ready (.user k)) with
      | (s, .nodes (x :: l)) => (s, .paused k (x :: l) l, .yields x)
      | (s, .nodes []) =>
        match call s (.done (.user k) []) with
        | (s, .err e) => (s, .over, .raises e)
        | (s, _) => turns call k fuel s
      | (s, .err e) => (s, .over, .raises e)
      | (s, _) => (s, .over, .stops)
    | (s, .err e) => (s, .over, .raises e)
    | (s, _) => (s, .over, .stops)

/-- `next(generator)` (graph.py:660-669): the view is made by the first call, not by static_order(). -/
def Gen.next (call : σ → Op ν → σ × Out ν) (fuel : Nat) (s : σ) : Gen ν → σ × Gen ν × Got ν
  | .fresh =>
    match call s .view with
    | (s, .handle k) => turns call k fuel s
    | (s, _) => (s, .over, .stops)
  | .paused k batch (x :: rest) => (s, .paused k batch rest, .yields x)
  | .paused k batch [] =>
    match call s (.done (.user k) batch) with
    | (s, .err e) => (s, .over, .raises e)
    | (s, _) => turns call k fuel s
  | .over => (s, .over, .stops)

end Big.Graph
