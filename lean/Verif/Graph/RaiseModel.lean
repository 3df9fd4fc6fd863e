import Verif.Graph.Model
/-
Calls of TopologicalSorter and its views whose arguments need not be hashable (big/graph.py). A node must be hashable:
it is used as a key of `self.nodes`. An argument that is not (a list, say) makes `node in self.nodes` raise TypeError,
in the middle of the call if the arguments before it were good.
-/
namespace Big.Graph
variable {ν : Type} [DecidableEq ν]

/-- An argument of a call: a hashable object, or one that is not. For graph.py:484-493. -/
inductive Arg (ν : Type) where
  | node (n : ν)
  | unhashable
  deriving DecidableEq

/-- The `for d in dependencies` loop of add (graph.py:484-493); `false` if `d not in self.nodes` raised TypeError. -/
def addLoopX (node : ν) : AddSt ν → List (Arg ν) → AddSt ν × Bool
  | st, [] => (st, true)
  | st, .unhashable :: _ => (st, false)
  | st, .node d :: ds => addLoopX node (addLoopBody node st d) ds

/-- TopologicalSorter.add (graph.py:449-503). When the loop raises, `self.nodes` has been changed already, but the
predecessor count (graph.py:495) is not stored and the views are not told (graph.py:497-503). -/
def Sys.addX (s : Sys ν) : Arg ν → List (Arg ν) → Sys ν × Bool
  | .unhashable, _ => (s, false)
  | .node node, deps =>
    let st0 : AddSt ν :=
      if node ∈ s.g.keys then ⟨s.g, 0, [], []⟩
      else ⟨{ s.g with keys := s.g.keys ++ [node], pc := upd s.g.pc node 0, succ := upd s.g.succ node [] },
            0, [node], []⟩
    let st0 := { st0 with count := st0.g.pc node }
    let st := addLoopX node st0 deps
    if st.2 then
      (({ s with g := { st.1.g with pc := upd st.1.g.pc node st.1.count } } : Sys ν).mapViews
        (fun v => v.afterAdd node st.1.newNodes st.1.newSuccs), true)
    else ({ s with g := st.1.g }, false)

/-- How the loop of View.done ended. For graph.py:211-217. -/
inductive LoopEnd where
  | finished | valueError | typeError
  deriving DecidableEq

/-- The `for node in nodes` loop of View.done (graph.py:211-217). -/
def View.doneLoopA (g : Graph ν) : View ν → List (Arg ν) → View ν × LoopEnd
  | v, [] => (v, .finished)
  | v, .unhashable :: _ => (v, .typeError)
  | v, .node n :: rest =>
    if n ∉ g.keys then (v, .valueError)
    else if n ∉ v.yielded then (v, .valueError)
    else View.doneLoopA g (v.markNodeDone (g.succ n)) rest

/-- The nodes among the arguments. -/
def nodesOf (args : List (Arg ν)) : List ν :=
  args.filterMap (fun a => match a with | .node n => some n | .unhashable => none)

/-- Calls. -/
inductive XOp (ν : Type) where
  | add (node : Arg ν) (deps : List (Arg ν))
  | remove (node : Arg ν)
  | done (h : H) (nodes : List (Arg ν))
  | other (op : Op ν)

/-- Answers. -/
inductive XOut (ν : Type) where
  | out (o : Out ν)
  | typeError
  deriving DecidableEq

/-- One call. The methods not listed take no nodes: they are those of Model.lean (`other` is meant for them; it is
harmless for add, remove and done of hashable arguments, see `C128_hashable`). -/
def xstep (ord : List ν → List ν) (s : Sys ν) : XOp ν → Sys ν × XOut ν
  | .add node deps =>
    let r := s.addX node deps
    (r.1, if r.2 then .out .none else .typeError)
  | .remove .unhashable => (s, .typeError)      -- graph.py:518
  | .remove (.node n) => let r := step ord s (.remove n); (r.1, .out r.2)
  | .done h nodes =>                             -- graph.py:201-220
    match s.get h with
    | none => (s, .out (.err .valueError))
    | some v =>
      if v.closed then (s, .out (.err .valueError))
      else if v.conf ≠ [] then (s, .out (.err .runtimeError))
      else
        let r := View.doneLoopA s.g v nodes
        match r.2 with
        | .typeError => (s.set h r.1, .typeError)
        | .valueError => (s.set h r.1, .out (.err .valueError))
        | .finished =>
          (s.set h { r.1 with done := r.1.done ++ ((nodesOf nodes).filter (· ∉ r.1.done)).eraseDups,
                              yielded := r.1.yielded.filter (· ∉ nodesOf nodes) }, .out .none)
  | .other op => let r := step ord s op; (r.1, .out r.2)

/-- A call raised an exception. -/
def XOut.raised : XOut ν → Prop
  | .typeError => True
  | .out (.err _) => True
  | .out _ => False

/-- The call with hashable arguments. -/
def Op.x : Op ν → XOp ν
  | .add n deps => .add (.node n) (deps.map .node)
  | .remove n => .remove (.node n)
  | .done h nodes => .done h (nodes.map .node)
  | op => .other op

end Big.Graph
