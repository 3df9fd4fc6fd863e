import Verif.Graph.Model
/- Specification of TopologicalSorter in terms of calls and answers only. An observer keeps the
abstract graph (what was added and removed) and, for each view, which nodes were handed out and which
were marked done. It never looks inside the objects. -/
namespace Big.Graph
variable {ν : Type}

/-- What the observer knows about one view, since it was made or reset: which nodes were handed out and
not marked done, which were marked done; whether its done() calls were clean (`clean`), and which nodes got
a dependency on a node already done before they were handed out (`late`). -/
structure Seen (ν : Type) where
  yielded : ν → Prop
  done : ν → Prop
  clean : Prop
  late : ν → Prop

/-- Nothing seen. -/
def Seen.none : Seen ν := ⟨fun _ => False, fun _ => False, True, fun _ => False⟩

/-- What the observer knows. `edge d n`: n depends on d. -/
structure Obs (ν : Type) where
  node : ν → Prop
  edge : ν → ν → Prop
  seen : H → Seen ν

/-- At the start. -/
def Obs.init : Obs ν := ⟨fun _ => False, fun _ _ => False, fun _ => Seen.none⟩

/-- Set what is known of one view. -/
def Obs.put (o : Obs ν) (h : H) (s : Seen ν) : Obs ν :=
  { o with seen := fun h' => if h' = h then s else o.seen h' }

/-- The observer watches a call and its answer. A done() call is clean if it names no node twice and, if it
is refused, already its first argument was wrong. -/
def observe (o : Obs ν) : Op ν → Out ν → Obs ν
  | .add n deps, _ =>
      { node := fun x => o.node x ∨ x = n ∨ x ∈ deps,
        edge := fun d m => o.edge d m ∨ (m = n ∧ d ∈ deps),
        seen := fun h =>
          { o.seen h with
            late := fun x => (o.seen h).late x ∨ (x = n ∧ ¬ (o.seen h).yielded x ∧ ¬ (o.seen h).done x ∧
              ∃ d ∈ deps, ¬ o.edge d n ∧ (o.seen h).done d) } }
  | .remove n, .none =>
      { node := fun x => o.node x ∧ x ≠ n,
        edge := fun d m => o.edge d m ∧ d ≠ n ∧ m ≠ n,
        seen := fun h => ⟨fun x => (o.seen h).yielded x ∧ x ≠ n, fun x => (o.seen h).done x ∧ x ≠ n,
          (o.seen h).clean, fun x => (o.seen h).late x ∧ x ≠ n⟩ }
  | .view, .handle k => o.put (.user k) Seen.none
  | .copyView h, .handle k => o.put (.user k) (o.seen h)
  | .reset h, .none => o.put h Seen.none
  | .close k, .none => o.put (.user k) Seen.none
  | .ready h, .nodes l =>
      o.put h { o.seen h with yielded := fun x => (o.seen h).yielded x ∨ x ∈ l }
  | .done h nodes, .none =>
      o.put h ⟨fun x => (o.seen h).yielded x ∧ x ∉ nodes, fun x => (o.seen h).done x ∨ x ∈ nodes,
        (o.seen h).clean ∧ nodes.Nodup, (o.seen h).late⟩
  | .done h nodes, .err .valueError =>
      o.put h { o.seen h with
        clean := (o.seen h).clean ∧ ∀ n, nodes.head? = some n → ¬ (o.seen h).yielded n }
  | _, _ => o

/-- The observed graph has no dependency cycle. -/
def Obs.Acyclic (o : Obs ν) : Prop := ∀ n, ¬ Relation.TransGen o.edge n n

/-- A view is incoherent, as documented (graph.py:19-60): Z depends on Y, Z was yielded or done,
Y is not done. -/
def Obs.Incoherent (o : Obs ν) (h : H) : Prop :=
  ∃ y z, o.edge y z ∧ ((o.seen h).yielded z ∨ (o.seen h).done z) ∧ ¬ (o.seen h).done y

/-- States the graph can be in, with what the observer then knows, after any history of calls. Each step
may use another iteration order of sets. -/
inductive Reach [DecidableEq ν] : Sys ν → Obs ν → Prop
  | init : Reach Sys.init Obs.init
  | step {s : Sys ν} {o : Obs ν} (ord : List ν → List ν) (hord : ∀ l, (ord l).Perm l) (op : Op ν)
      (r : Reach s o) : Reach (step ord s op).1 (observe o op (step ord s op).2)

end Big.Graph
