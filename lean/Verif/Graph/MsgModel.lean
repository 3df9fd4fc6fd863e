import Verif.Graph.Model
/-!
# Model of what the RuntimeError for an incoherent view says (graph.py:166-171)

The message has one part for each key of `_conflicts`: "successor node {successor} is 'yielded' or 'done', but it
depends on predecessor node {node} which is not 'done'", where `successor` is the *set* `_conflicts[node]`. A part is
modelled as the pair of `node` and the members of that set. Simplified: the order of the parts, which is that of a dict,
is not modelled (`_conflicts` is a list of pairs here), nor is how nodes are printed.
-/
namespace Big.Graph
variable {ν : Type} [DecidableEq ν]

/-- The parts of the message of View._raise_conflicts (graph.py:166-171). -/
def View.conflictParts (v : View ν) : List (ν × List ν) :=
  (v.conf.map Prod.fst).eraseDups.map fun node => (node, (v.conf.filter (·.1 = node)).map Prod.snd)

/-- The message a call of `bool(view)`, `view.ready()` or `view.done(...)` raises RuntimeError with (graph.py:181,
193, 209: `if self._conflicts: self._raise_conflicts()` comes first in all three), if it does. -/
def View.runtimeErrorParts (v : View ν) : Option (List (ν × List ν)) :=
  if v.closed then none else if v.conf ≠ [] then some v.conflictParts else none

end Big.Graph
