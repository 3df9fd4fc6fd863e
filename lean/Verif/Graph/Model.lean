/-
Model of big/graph.py: TopologicalSorter and its View class.

Representation choices (all are about data layout, not behaviour):
* the dict `self.nodes` (node -> [predecessor count, dict of successors]) is its key list in
  insertion order plus two functions read only at keys;
* sets are duplicate-free lists; the iteration order of a set is arbitrary in Python, so where the
  code iterates over a set the model takes an arbitrary rearrangement `ord` as a parameter;
* the dict of sets `_conflicts` is the list of its (key, member) pairs: the code deletes a key as soon
  as its set is empty, so `if self._conflicts` is "the pair list is non-empty"; likewise
  `_reverse_conflicts`;
* `_predecessors` is a partial map; an access to a missing key (KeyError in Python) sets the flag
  `broken`, which the theorems show never happens.
Exceptions are values paired with the state in which they leave the object.
-/
namespace Big.Graph

variable {ν : Type} [DecidableEq ν]

/-- Exceptions. For graph.py. -/
inductive Err where
  | valueError | runtimeError | cycleError | indexError | assertionError | keyError
  deriving DecidableEq, Repr

/-- Update a function at one point. For graph.py:238-251. -/
def upd {β : Type} (f : ν → β) (a : ν) (b : β) : ν → β := fun x => if x = a then b else f x

/-- TopologicalSorter's `nodes` and `dirty` (graph.py:414-438). -/
structure Graph (ν : Type) where
  keys : List ν
  pc : ν → Int
  succ : ν → List ν
  dirty : Bool

/-- TopologicalSorter.View's attributes (graph.py:80-122). `closed` is `graph is None`. -/
structure View (ν : Type) where
  pred : ν → Option Int
  ready : List ν
  yielded : List ν
  done : List ν
  conf : List (ν × ν)
  rconf : List (ν × ν)
  closed : Bool
  broken : Bool

/-- TopologicalSorter.__init__ without the argument (graph.py:414-438). -/
def Graph.empty : Graph ν := ⟨[], fun _ => 0, fun _ => [], false⟩

/-- View.__init__ without `original` (graph.py:80-122). -/
def View.empty : View ν := ⟨fun _ => none, [], [], [], [], [], false, false⟩

/-- View._add_nodes (graph.py:238-251). -/
def View.addNodes (v : View ν) (nodes : List ν) : View ν :=
  nodes.foldl (fun v node => { v with pred := upd v.pred node (some 0), ready := v.ready ++ [node] }) v

/-- View._add_successor (graph.py:253-303). -/
def View.addSuccessor (v : View ν) (node successor : ν) : View ν :=
  let conflict_1 := ¬ (node ∈ v.done)
  let conflict_2 := successor ∈ v.yielded ∨ successor ∈ v.done
  let v := if conflict_1 ∧ conflict_2 then
      { v with conf := (node, successor) :: v.conf.filter (· ≠ (node, successor)),
               rconf := (successor, node) :: v.rconf.filter (· ≠ (successor, node)) }
    else v
  if successor ∈ v.done then v
  else match v.pred successor with
    | none => { v with broken := true }
    | some k =>
      let v := { v with pred := upd v.pred successor (some (k + 1)) }
      if k + 1 = 1 then { v with ready := v.ready.erase successor } else v

/-- View._mark_node_done (graph.py:337-354): only the successors matter. -/
def View.markNodeDone (v : View ν) (successors : List ν) : View ν :=
  successors.foldl (fun v s =>
    if s ∈ v.yielded ∨ s ∈ v.done then v
    else match v.pred s with
      | none => { v with broken := true }
      | some k =>
        let v := { v with pred := upd v.pred s (some (k - 1)) }
        if k - 1 = 0 then { v with ready := v.ready ++ [s] } else v) v

/-- One direction of the conflict clean-up in View._remove_node (graph.py:311-322): delete
`this[node]` and discard `node` from `other[x]` for each `x` that was in it. -/
def dropConflicts (this other : List (ν × ν)) (node : ν) : List (ν × ν) × List (ν × ν) :=
  let values := (this.filter (fun p => p.1 = node)).map (·.2)
  (this.filter (fun p => p.1 ≠ node), other.filter (fun p => ¬ (p.2 = node ∧ p.1 ∈ values)))

/-- View._remove_node (graph.py:304-335). -/
def View.removeNode (v : View ν) (node : ν) (successors : List ν) : View ν :=
  let r1 := dropConflicts v.conf v.rconf node
  let r2 := dropConflicts r1.2 r1.1 node
  let v := { v with conf := r2.2, rconf := r2.1 }
  if node ∈ v.done then { v with done := v.done.erase node }
  else
    let v := if node ∈ v.ready then { v with ready := v.ready.erase node } else v
    let v := { v with yielded := v.yielded.erase node }
    match v.pred node with
    | none => { v with broken := true }
    | some _ => ({ v with pred := upd v.pred node none }).markNodeDone successors

/-- State of the loop in TopologicalSorter.add. For graph.py:484-493. -/
structure AddSt (ν : Type) where
  g : Graph ν
  count : Int
  newNodes : List ν
  newSuccs : List ν

/-- Body of the `for d in dependencies` loop of add (graph.py:484-493). -/
def addLoopBody (node : ν) (st : AddSt ν) (d : ν) : AddSt ν :=
  let st := if d ∈ st.g.keys then st else
    { st with g := { st.g with keys := st.g.keys ++ [d], pc := upd st.g.pc d 0,
                               succ := upd st.g.succ d [] },
              newNodes := st.newNodes ++ [d] }
  if node ∈ st.g.succ d then st
  else { st with g := { st.g with dirty := true, succ := upd st.g.succ d (st.g.succ d ++ [node]) },
                 count := st.count + 1, newSuccs := st.newSuccs ++ [d] }

/-- TopologicalSorter.add on the graph alone (graph.py:474-495): the new graph, the new nodes and
the dependencies that are new. -/
def Graph.add (g : Graph ν) (node : ν) (deps : List ν) : Graph ν × List ν × List ν :=
  let st0 : AddSt ν :=
    if node ∈ g.keys then ⟨g, 0, [], []⟩
    else ⟨{ g with keys := g.keys ++ [node], pc := upd g.pc node 0, succ := upd g.succ node [] },
          0, [node], []⟩
  let st0 := { st0 with count := st0.g.pc node }
  let st := deps.foldl (addLoopBody node) st0
  ({ st.g with pc := upd st.g.pc node st.count }, st.newNodes, st.newSuccs)

/-- What add tells each view (graph.py:497-503). -/
def View.afterAdd (v : View ν) (node : ν) (newNodes newSuccs : List ν) : View ν :=
  newSuccs.foldl (fun v s => v.addSuccessor s node) (v.addNodes newNodes)

/-- The scan for predecessors in remove, with its early exit (graph.py:523-534). -/
def findPredecessors (g : Graph ν) (node : ν) : List ν → Int → List ν
  | [], _ => []
  | n :: rest, count =>
    if node ∈ g.succ n then
      if count - 1 = 0 then [n] else n :: findPredecessors g node rest (count - 1)
    else findPredecessors g node rest count

/-- TopologicalSorter.remove on the graph (graph.py:518-549); also returns the `successors` dict as
the views see it (after the node itself was deleted from it in case of a self-loop). -/
def Graph.remove (g : Graph ν) (node : ν) : Except Err (Graph ν × List ν) :=
  if node ∉ g.keys then .error .valueError
  else
    let predecessors := if g.pc node = 0 then [] else findPredecessors g node g.keys (g.pc node)
    let succ' := predecessors.foldl (fun f n => upd f n ((f n).erase node)) g.succ
    let successors := succ' node
    let pc' := successors.foldl (fun f n => upd f n (f n - 1)) g.pc
    .ok (⟨g.keys.erase node, pc', succ', g.dirty⟩, successors)

/-! ### cycle detection -/

/-- State of the first phase of cycle() (graph.py:588-600). -/
structure Kahn (ν : Type) where
  counts : ν → Int
  done : List ν
  ready : List ν

/-- `for successor in successors: counts[successor] -= 1; ...`. For graph.py:591-600. -/
def kahnSucc (st : (ν → Int) × List ν) (successors : List ν) : (ν → Int) × List ν :=
  successors.foldl (fun st s =>
    let c := upd st.1 s (st.1 s - 1)
    (c, if c s = 0 then (if s ∈ st.2 then st.2 else st.2 ++ [s]) else st.2)) st

/-- One round of `while _ready` (graph.py:591-600). -/
def kahnRound (g : Graph ν) (ord : List ν → List ν) (k : Kahn ν) : Kahn ν :=
  let r := (ord k.ready).foldl (fun st n => kahnSucc st (g.succ n)) (k.counts, [])
  ⟨r.1, k.done ++ k.ready.filter (· ∉ k.done), r.2⟩

/-- `while _ready:` with at most `n` rounds; `Graph.kahn_finishes` shows the bound is enough. For graph.py:588-600. -/
def kahnLoop (g : Graph ν) (ord : List ν → List ν) : Nat → Kahn ν → Kahn ν
  | 0, k => k
  | n + 1, k => if k.ready = [] then k else kahnLoop g ord n (kahnRound g ord k)

/-- The first phase of cycle() (graph.py:588-600). -/
def Graph.kahn (g : Graph ν) (ord : List ν → List ν) : Kahn ν :=
  kahnLoop g ord (g.keys.length + 1) ⟨g.pc, [], g.keys.filter (fun n => g.pc n = 0)⟩

/-- State of the depth-first search of cycle() (graph.py:621-647): the stack of iterators (innermost
first, each the list of what it still has to yield) and the current path. The set `seen` always
holds exactly the nodes of `cycle` (every add/append and pop/remove is paired), so only the path is
kept. -/
structure Dfs (ν : Type) where
  iterators : List (List ν)
  path : List ν

/-- What the search may end with. For graph.py:625-647. -/
inductive DfsEnd (ν : Type) where
  | found (c : List ν) | fellOff | raised (e : Err)

/-- One turn of `while iterators` (graph.py:625-647). -/
def dfsStep (g : Graph ν) (done : List ν) (s : Dfs ν) : Dfs ν ⊕ DfsEnd ν :=
  match s.iterators with
  | [] => .inr .fellOff
  | [] :: rest =>          -- StopIteration: ascend
    if s.path = [] then .inr (.raised .indexError)   -- cycle.pop() on an empty list
    else .inl ⟨rest, s.path.dropLast⟩
  | (node :: more) :: rest =>
    if node ∈ done then .inr (.raised .assertionError)
    else if node ∈ s.path then .inr (.found (s.path.drop (s.path.idxOf node)))
    else .inl ⟨g.succ node :: more :: rest, s.path ++ [node]⟩

/-- Run the search for at most `n` turns. -/
def dfsRun (g : Graph ν) (done : List ν) : Nat → Dfs ν → Option (DfsEnd ν)
  | 0, _ => none
  | n + 1, s => match dfsStep g done s with
    | .inr e => some e
    | .inl s' => dfsRun g done n s'

/-- The same search written recursively, used to define `cycle()` as a function; theorem
`dfs_refines` shows that the loop above ends, with this result. `depth` bounds the path length. For graph.py:575-647. -/
def explore (g : Graph ν) : Nat → List ν → List ν → Option (List ν)
  | 0, _, _ => none
  | depth + 1, path, l => l.findSome? fun node =>
    if node ∈ path then some (path.drop (path.idxOf node))
    else explore g depth (path ++ [node]) (g.succ node)

/-- TopologicalSorter.cycle (graph.py:575-647): the graph (its dirty flag may change) and the
result. `ord` is the arbitrary iteration order of sets. -/
def Graph.cycle (g : Graph ν) (ord : List ν → List ν) : Graph ν × Option (List ν) :=
  if ¬ g.dirty then (g, none)
  else
    let k := g.kahn ord
    if k.done.length = g.keys.length then ({ g with dirty := false }, none)
    else
      match explore g (g.keys.length + 1) [] (ord (g.keys.filter (· ∉ k.done))) with
      | some c => ({ g with dirty := true }, some c)
      | none => ({ g with dirty := false }, none)

/-- check_for_cycles (graph.py:649-658): the graph, and whether CycleError was raised. -/
def Graph.checkForCycles (g : Graph ν) (ord : List ν → List ν) : Graph ν × Bool :=
  if g.dirty then let r := g.cycle ord; (r.1, r.2.isSome) else (g, false)

/-! ### View methods -/

/-- View.__bool__ (graph.py:173-183). -/
def View.bool (v : View ν) (g : Graph ν) : Except Err Bool :=
  if v.closed then .error .valueError
  else if v.conf ≠ [] then .error .runtimeError
  else .ok (decide (v.done.length < g.keys.length))

/-- View.ready (graph.py:185-199). -/
def View.getReady (v : View ν) (g : Graph ν) (ord : List ν → List ν) :
    View ν × Graph ν × Except Err (List ν) :=
  if v.closed then (v, g, .error .valueError)
  else if v.conf ≠ [] then (v, g, .error .runtimeError)
  else
    let r := g.checkForCycles ord
    if r.2 then (v, r.1, .error .cycleError)
    else ({ v with yielded := v.yielded ++ v.ready.filter (· ∉ v.yielded), ready := [] }, r.1,
          .ok v.ready)

/-- The `for node in nodes` loop of View.done (graph.py:211-217); `false` if it raised. -/
def View.doneLoop (g : Graph ν) : View ν → List ν → View ν × Bool
  | v, [] => (v, true)
  | v, node :: rest =>
    if node ∉ g.keys then (v, false)
    else if node ∉ v.yielded then (v, false)
    else View.doneLoop g (v.markNodeDone (g.succ node)) rest

/-- View.done (graph.py:201-220). -/
def View.setDone (v : View ν) (g : Graph ν) (nodes : List ν) : View ν × Except Err Unit :=
  if v.closed then (v, .error .valueError)
  else if v.conf ≠ [] then (v, .error .runtimeError)
  else
    let r := View.doneLoop g v nodes
    if r.2 then
      ({ r.1 with done := r.1.done ++ (nodes.filter (· ∉ r.1.done)).eraseDups,
                  yielded := r.1.yielded.filter (· ∉ nodes) }, .ok ())
    else (r.1, .error .valueError)

/-- View.reset (graph.py:133-147), given the graph's stock view. -/
def View.reset (v stock : View ν) : View ν × Except Err Unit :=
  if v.closed then (v, .error .valueError)
  else ({ v with pred := stock.pred, ready := stock.ready, yielded := [], done := [],
                 conf := [], rconf := [] }, .ok ())

/-- View.close (graph.py:149-164). -/
def View.close (v : View ν) : View ν × Except Err Unit :=
  if v.closed then (v, .error .valueError)
  else ({ (View.empty : View ν) with closed := true }, .ok ())

/-! ### A graph with its views as a state machine -/

/-- A TopologicalSorter with its default view, its stock view, and the views made by `view()` and
`copy()` (closed ones included). All open ones are in `graph.views`. For graph.py:414-447. -/
structure Sys (ν : Type) where
  g : Graph ν
  dflt : View ν
  stock : View ν
  user : List (View ν)

/-- A handle on a view: the graph's own methods act on the default view (graph.py:372-412). -/
inductive H where
  | dflt | user (k : Nat)
  deriving DecidableEq, Repr

/-- API calls. -/
inductive Op (ν : Type) where
  | add (node : ν) (deps : List ν)
  | remove (node : ν)
  | view                      -- graph.view()
  | copyView (h : H)          -- view.copy()
  | reset (h : H)
  | close (k : Nat)
  | ready (h : H)
  | done (h : H) (nodes : List ν)
  | bool (h : H)
  | cycle

/-- Results. For graph.py:64-669. -/
inductive Out (ν : Type) where
  | none | nodes (l : List ν) | bool (b : Bool) | handle (k : Nat)
  | cycle (c : Option (List ν)) | err (e : Err)
  deriving DecidableEq

/-- A new TopologicalSorter. For graph.py:414-447. -/
def Sys.init : Sys ν := ⟨Graph.empty, View.empty, View.empty, []⟩

/-- The view behind a handle. For graph.py:443-447. -/
def Sys.get (s : Sys ν) : H → Option (View ν)
  | .dflt => some s.dflt
  | .user k => s.user[k]?

/-- Replace the view behind a handle. For graph.py:443-447. -/
def Sys.set (s : Sys ν) (h : H) (v : View ν) : Sys ν :=
  match h with
  | .dflt => { s with dflt := v }
  | .user k => { s with user := s.user.set k v }

/-- Apply to every view in `graph.views` (closed views are not in it). For graph.py:449-503. -/
def Sys.mapViews (s : Sys ν) (f : View ν → View ν) : Sys ν :=
  { s with dflt := f s.dflt, stock := f s.stock,
           user := s.user.map (fun v => if v.closed then v else f v) }

/-- One API call. (A call on a view that does not exist cannot be written in Python; here it is an
error that changes nothing.) For graph.py:64-669. -/
def step (ord : List ν → List ν) (s : Sys ν) : Op ν → Sys ν × Out ν
  | .add node deps =>
    let r := s.g.add node deps
    (({ s with g := r.1 } : Sys ν).mapViews (fun v => v.afterAdd node r.2.1 r.2.2), .none)
  | .remove node => match s.g.remove node with
    | .error e => (s, .err e)
    | .ok (g', successors) =>
      (({ s with g := g' } : Sys ν).mapViews (fun v => v.removeNode node successors), .none)
  | .view => ({ s with user := s.user ++ [s.stock] }, .handle s.user.length)
  | .copyView h => match s.get h with
    | none => (s, .err .valueError)
    | some v => if v.closed then (s, .err .valueError)
                else ({ s with user := s.user ++ [v] }, .handle s.user.length)
  | .reset h => match s.get h with
    | none => (s, .err .valueError)
    | some v => match v.reset s.stock with
      | (v', .ok _) => (s.set h v', .none)
      | (v', .error e) => (s.set h v', .err e)
  | .close k => match s.get (.user k) with
    | none => (s, .err .valueError)
    | some v => match v.close with
      | (v', .ok _) => (s.set (.user k) v', .none)
      | (v', .error e) => (s.set (.user k) v', .err e)
  | .ready h => match s.get h with
    | none => (s, .err .valueError)
    | some v => match v.getReady s.g ord with
      | (v', g', .ok l) => ({ s.set h v' with g := g' }, .nodes l)
      | (v', g', .error e) => ({ s.set h v' with g := g' }, .err e)
  | .done h nodes => match s.get h with
    | none => (s, .err .valueError)
    | some v => match v.setDone s.g nodes with
      | (v', .ok _) => (s.set h v', .none)
      | (v', .error e) => (s.set h v', .err e)
  | .bool h => match s.get h with
    | none => (s, .err .valueError)
    | some v => match v.bool s.g with
      | .ok b => (s, .bool b)
      | .error e => (s, .err e)
  | .cycle => let r := s.g.cycle ord; ({ s with g := r.1 }, .cycle r.2)

/-- A history of calls. -/
def run (ord : List ν → List ν) (s : Sys ν) : List (Op ν) → Sys ν
  | [] => s
  | op :: ops => run ord (step ord s op).1 ops

/-- The loop of static_order (graph.py:660-669) on the fresh view `v`, fully consumed, for at most
`n` turns: the nodes yielded and, if it ended, how. -/
def staticLoop (ord : List ν → List ν) : Nat → Graph ν → View ν → List ν × Option (Except Err Unit)
  | 0, _, _ => ([], none)
  | n + 1, g, v => match v.bool g with
    | .error e => ([], some (.error e))
    | .ok false => ([], some (.ok ()))
    | .ok true => match v.getReady g ord with
      | (_, _, .error e) => ([], some (.error e))
      | (v1, g1, .ok l) => match v1.setDone g1 l with
        | (_, .error e) => (l, some (.error e))
        | (v2, .ok _) => let r := staticLoop ord n g1 v2; (l ++ r.1, r.2)

/-- static_order(), consumed: the view is a copy of the stock view. For graph.py:660-669. -/
def Sys.staticOrder (ord : List ν → List ν) (s : Sys ν) : List ν × Option (Except Err Unit) :=
  staticLoop ord (s.g.keys.length + 2) s.g s.stock

end Big.Graph
