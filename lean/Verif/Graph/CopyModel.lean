import Verif.Graph.Model
/-
Model of TopologicalSorter.copy (big/graph.py:558-573) and of two graphs that share views.

View.__init__ registers every new view in the `views` list of the graph it is given (graph.py:85). So
* `self._default_view.copy()` and `self._stock_view.copy()` in copy() register the copies with the original; giving
  them another `graph` afterwards (graph.py:568-571) does not change that;
* the constructor of the clone (graph.py:563, 430-432) makes two views and registers them with the clone; copy()
  replaces them as default and stock view, but they stay in the clone's `views`. The nodes of the clone are not added
  with add() (graph.py:564-566), so these two views do not know them.
Here a missing key of `_predecessors` is a KeyError that leaves the call at once: the views after it are not told.
-/
namespace Big.Graph
variable {ν : Type} [DecidableEq ν]

/-- Calls of `f` for one element after the other, up to the first that raises KeyError (which the elementary steps of
Model.lean report with the flag `broken`). For graph.py:337-354. -/
def View.each {β : Type} (f : View ν → β → View ν) : View ν → List β → View ν × Bool
  | v, [] => (v, true)
  | v, b :: bs => if (f v b).broken then ({ f v b with broken := false }, false) else View.each f (f v b) bs

/-- View._mark_node_done (graph.py:337-354). -/
def View.mark (v : View ν) (successors : List ν) : View ν × Bool :=
  v.each (fun v s => v.markNodeDone [s]) successors

/-- The calls of View._add_successor for one view in add (graph.py:501-503). -/
def View.addEdges (v : View ν) (node : ν) (newSuccs : List ν) : View ν × Bool :=
  v.each (fun v s => v.addSuccessor s node) newSuccs

/-- View._remove_node (graph.py:304-335). -/
def View.removeX (v : View ν) (node : ν) (successors : List ν) : View ν × Bool :=
  let r := v.removeNode node []
  if r.broken then ({ r with broken := false }, false)
  else if node ∈ v.done then (r, true)
  else r.mark successors

/-- The loop of View.done (graph.py:211-217), with the exception it raised. -/
def View.doneLoopX (g : Graph ν) : View ν → List ν → View ν × Option Err
  | v, [] => (v, none)
  | v, node :: rest =>
    if node ∉ g.keys then (v, some .valueError)
    else if node ∉ v.yielded then (v, some .valueError)
    else if (v.mark (g.succ node)).2 then View.doneLoopX g (v.mark (g.succ node)).1 rest
    else ((v.mark (g.succ node)).1, some .keyError)

/-- View.done (graph.py:201-220). -/
def View.setDoneX (v : View ν) (g : Graph ν) (nodes : List ν) : View ν × Except Err Unit :=
  if v.closed then (v, .error .valueError)
  else if v.conf ≠ [] then (v, .error .runtimeError)
  else
    let r := View.doneLoopX g v nodes
    match r.2 with
    | none => ({ r.1 with done := r.1.done ++ (nodes.filter (· ∉ r.1.done)).eraseDups,
                          yielded := r.1.yielded.filter (· ∉ nodes) }, .ok ())
    | some e => (r.1, .error e)

/-- Tell a view, unless it is closed (then it is not in `views`) or telling one before it raised an exception.
For graph.py:497-503, 552-553. -/
def tell (f : View ν → View ν × Bool) (ok : Bool) (v : View ν) : View ν × Bool :=
  if ok && !v.closed then f v else (v, ok)

/-- Tell views one after the other (`for v in self.views`, graph.py:497-503, 552-553). -/
def tellAll (f : View ν → View ν × Bool) : Bool → List (View ν) → List (View ν) × Bool
  | ok, [] => ([], ok)
  | ok, v :: vs =>
    let r := tell f ok v
    let q := tellAll f r.2 vs
    (r.1 :: q.1, q.2)

/-- A graph and a copy made of it. `before` of the original's views (made by view() and copy()) are older than the
copy; `left` are the two views that the clone's constructor made. For graph.py:558-573. -/
structure Two (ν : Type) where
  orig : Sys ν
  before : Nat
  clone : Sys ν
  left : List (View ν)

/-- TopologicalSorter.copy (graph.py:558-573). The clone gets copies of the node table and of the two
built-in views; its dirty flag is that of a new object. -/
def Sys.copy (a : Sys ν) : Two ν :=
  ⟨a, a.user.length, ⟨{ a.g with dirty := false }, a.dflt, a.stock, []⟩, [View.empty, View.empty]⟩

/-- Tell the views of the original, in the order in which they were registered; `g` is the graph's new node table. -/
def Two.tellOrig (t : Two ν) (g : Graph ν) (f : View ν → View ν × Bool) : Two ν × Bool :=
  let a := tell f true t.orig.dflt
  let b := tell f a.2 t.orig.stock
  let u := tellAll f b.2 (t.orig.user.take t.before)
  let c := tell f u.2 t.clone.dflt
  let d := tell f c.2 t.clone.stock
  let w := tellAll f d.2 (t.orig.user.drop t.before)
  ({ t with orig := ⟨g, a.1, b.1, u.1 ++ w.1⟩, clone := { t.clone with dflt := c.1, stock := d.1 } }, w.2)

/-- Tell the views of the clone. -/
def Two.tellClone (t : Two ν) (g : Graph ν) (f : View ν → View ν × Bool) : Two ν × Bool :=
  let a := tellAll f true t.left
  let b := tellAll f a.2 t.clone.user
  ({ t with clone := { t.clone with g := g, user := b.1 }, left := a.1 }, b.2)

/-- None, or KeyError. -/
def outcome (ok : Bool) : Out ν := if ok then .none else .err .keyError

/-- Calls that tell no other view: as in Model.lean, but done() with its KeyErrors. -/
def stepAlone (ord : List ν → List ν) (s : Sys ν) : Op ν → Sys ν × Out ν
  | .done h nodes => match s.get h with
    | none => (s, .err .valueError)
    | some v => match v.setDoneX s.g nodes with
      | (v', .ok _) => (s.set h v', .none)
      | (v', .error e) => (s.set h v', .err e)
  | op => step ord s op

/-- A call on the original. -/
def stepOrig (ord : List ν → List ν) (t : Two ν) : Op ν → Two ν × Out ν
  | .add node deps =>
    let x := t.orig.g.add node deps
    let t := (t.tellOrig x.1 (fun v => (v.addNodes x.2.1, true))).1
    let r := t.tellOrig x.1 (fun v => v.addEdges node x.2.2)
    (r.1, outcome r.2)
  | .remove node => match t.orig.g.remove node with
    | .error e => (t, .err e)
    | .ok (g, ss) => let r := t.tellOrig g (fun v => v.removeX node ss); (r.1, outcome r.2)
  | op => let r := stepAlone ord t.orig op; ({ t with orig := r.1 }, r.2)

/-- A call on the clone. Its default and stock view are not in its `views`. -/
def stepClone (ord : List ν → List ν) (t : Two ν) : Op ν → Two ν × Out ν
  | .add node deps =>
    let x := t.clone.g.add node deps
    let t := (t.tellClone x.1 (fun v => (v.addNodes x.2.1, true))).1
    let r := t.tellClone x.1 (fun v => v.addEdges node x.2.2)
    (r.1, outcome r.2)
  | .remove node => match t.clone.g.remove node with
    | .error e => (t, .err e)
    | .ok (g, ss) => let r := t.tellClone g (fun v => v.removeX node ss); (r.1, outcome r.2)
  | op => let r := stepAlone ord t.clone op; ({ t with clone := r.1 }, r.2)

/-- Which of the two is called. -/
inductive Side where
  | orig | clone
  deriving DecidableEq

/-- A call. -/
def stepTwo (ord : List ν → List ν) (t : Two ν) : Side → Op ν → Two ν × Out ν
  | .orig, op => stepOrig ord t op
  | .clone, op => stepClone ord t op

/-- Run calls on both; the answers with their side. -/
def runTwo (ord : List ν → List ν) : Two ν → List (Side × Op ν) → List (Side × Out ν)
  | _, [] => []
  | t, (sd, op) :: ops => let r := stepTwo ord t sd op; (sd, r.2) :: runTwo ord r.1 ops

/-- The answers a graph alone gives. -/
def answers (ord : List ν → List ν) : Sys ν → List (Op ν) → List (Out ν)
  | _, [] => []
  | s, op :: ops => let r := step ord s op; r.2 :: answers ord r.1 ops

end Big.Graph
