import Verif.Heap.Model
/-!
# Model of the container methods of `Heap` (big/heap.py:60-62, 108-118)

`eq x o` is what list operations ask of two values: "`x is o or x == o`".
-/
namespace Big.Heap
variable {α : Type}

/-- Heap.__bool__ (heap.py:108-109). -/
def Heap.bool (h : Heap α) : Bool := !h.queue.isEmpty

/-- Heap.__contains__ (heap.py:111-112): `o in self._queue`. -/
def Heap.contains (eq : α → α → Bool) (h : Heap α) (o : α) : Bool := h.queue.any fun x => eq x o

/-- Heap.__len__ (heap.py:117-118). -/
def Heap.len (h : Heap α) : Nat := h.queue.length

/-- list.__eq__: same length, and the elements are equal one by one. For heap.py:114-115. -/
def listEq (eq : α → α → Bool) : List α → List α → Bool
  | [], [] => true
  | a :: l, b :: m => eq a b && listEq eq l m
  | _, _ => false

/-- Heap.__eq__ (heap.py:114-115): `isinstance(other, self.__class__) and self.queue == other.queue`;
`other` is `none` when it is not an instance of the class. -/
def Heap.pyEq (lt eq : α → α → Bool) (h : Heap α) (other : Option (Heap α)) : Bool :=
  match other with
  | none => false
  | some o => listEq eq (h.sortedQueue lt) (o.sortedQueue lt)

/-- Heap.__repr__ (heap.py:60-62): the length and the first value it shows (the id is left out), or
the IndexError of `self._queue[0]`. -/
def Heap.repr (h : Heap α) : Except Err (Nat × α) :=
  match pyIndex h.queue 0 with
  | .error e => .error e
  | .ok v => .ok (h.queue.length, v)

end Big.Heap
