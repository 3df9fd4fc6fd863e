import Verif.Heap.Model
/-!
# Heap when a comparison raises (big/heap.py:52-115, 155-165)

Here heapq is modelled from its C implementation (CPython `Modules/_heapqmodule.c`), which is what
`from heapq import ...` gives: it moves items by swapping two of them in the list, so that what is in the list
when a comparison raises matters. (`Verif.Heap.Model` follows the Python source, which holds an item in a
variable; `Verif.Heap.Fault` proves that both give the same lists when no comparison raises.) For lists of more
than 2500 items the C code calls siftup for the same positions in another order: the order of heapify is a
parameter.

A comparison is any function with a state: it may raise any exception, may answer differently each time, and
need not be an order. It cannot change the heap itself (the C code notices some of that with RuntimeError).
-/
namespace Big.Heap

variable {α σ ε : Type}

/-- A comparison `a < b` or `a == b`, as Python calls it: it gives an answer or raises, and may change a
state. For heap.py:160-165. -/
abbrev Cmp (σ ε α : Type) := α → α → σ → Except ε Bool × σ

/-- The exceptions: those of Heap, and those raised by a comparison or by an iterable. For heap.py. -/
inductive Exn (ε : Type) where
  | heap (e : Err)
  | raised (e : ε)

/-- siftdown (_heapqmodule.c): the list, and the exception that was raised, if any. For heap.py:64-100, 138-139. -/
def siftdownF (lt : Cmp σ ε α) (startpos : Nat) (heap : List α) (pos : Nat) (s : σ) : List α × Option ε × σ :=
  if _h : pos > startpos then
    match heap[pos]?, heap[(pos - 1) / 2]? with
    | some newitem, some parent =>
      match lt newitem parent s with
      | (.error e, s) => (heap, some e, s)
      | (.ok false, s) => (heap, none, s)
      | (.ok true, s) =>
        siftdownF lt startpos ((heap.set pos parent).set ((pos - 1) / 2) newitem) ((pos - 1) / 2) s
    | _, _ => (heap, none, s)
  else (heap, none, s)
termination_by pos
decreasing_by omega

/-- The smaller child of two (siftup, _heapqmodule.c): there is a comparison only if there are two.
For heap.py:64-100, 138-139. -/
def smallerChildF (lt : Cmp σ ε α) (heap : List α) (childpos : Nat) (s : σ) : Except ε Nat × σ :=
  match heap[childpos]?, heap[childpos + 1]? with
  | some a, some b =>
    match lt a b s with
    | (.error e, s) => (.error e, s)
    | (.ok true, s) => (.ok childpos, s)
    | (.ok false, s) => (.ok (childpos + 1), s)
  | _, _ => (.ok childpos, s)

theorem smallerChildF_le (lt : Cmp σ ε α) (heap : List α) (c : Nat) (s : σ) (n : Nat)
    (h : (smallerChildF lt heap c s).1 = .ok n) : c ≤ n := by
  unfold smallerChildF at h
  grind

/-- The loop of siftup (_heapqmodule.c) and the siftdown after it. For heap.py:64-100, 138-139. -/
def siftupF (lt : Cmp σ ε α) (startpos : Nat) (heap : List α) (pos : Nat) (s : σ) : List α × Option ε × σ :=
  if _h : pos < heap.length / 2 then
    match hr : smallerChildF lt heap (2 * pos + 1) s with
    | (.error e, s) => (heap, some e, s)
    | (.ok childpos, s) =>
      match heap[pos]?, heap[childpos]? with
      | some item, some child =>
        siftupF lt startpos ((heap.set pos child).set childpos item) childpos s
      | _, _ => (heap, none, s)
  else siftdownF lt startpos heap pos s
termination_by heap.length - pos
decreasing_by
  have := smallerChildF_le lt heap (2 * pos + 1) _ childpos (by rw [hr])
  simp only [List.length_set]
  omega

/-- heapify (_heapqmodule.c): siftup for some positions, one after the other. For heap.py:64-100, 138-139. -/
def heapifyF (lt : Cmp σ ε α) : List Nat → List α → σ → List α × Option ε × σ
  | [], heap, s => (heap, none, s)
  | i :: is, heap, s =>
    match siftupF lt i heap i s with
    | (heap, some e, s) => (heap, some e, s)
    | (heap, none, s) => heapifyF lt is heap s

/-- heappush (_heapqmodule.c). For heap.py:64-100, 138-139. -/
def heappushF (lt : Cmp σ ε α) (heap : List α) (item : α) (s : σ) : List α × Option ε × σ :=
  siftdownF lt 0 (heap ++ [item]) heap.length s

/-- What a call gives: the list that the heap then holds, the value it returns or the exception it raises, and
the state of the comparisons. For heap.py:87-100. -/
abbrev Res (σ ε α β : Type) := List α × Except (Exn ε) β × σ

/-- heappop (_heapqmodule.c). For heap.py:64-100, 138-139. -/
def heappopF (lt : Cmp σ ε α) (heap : List α) (s : σ) : Res σ ε α α :=
  match heap.getLast? with
  | none => (heap, .error (.heap .indexError), s)
  | some lastelt =>
    match heap.dropLast with
    | [] => ([], .ok lastelt, s)
    | returnitem :: rest =>
      match siftupF lt 0 (lastelt :: rest) 0 s with
      | (heap, some e, s) => (heap, .error (.raised e), s)
      | (heap, none, s) => (heap, .ok returnitem, s)

/-- heapreplace (_heapqmodule.c). For heap.py:64-100, 138-139. -/
def heapreplaceF (lt : Cmp σ ε α) (heap : List α) (item : α) (s : σ) : Res σ ε α α :=
  match heap with
  | [] => ([], .error (.heap .indexError), s)
  | returnitem :: rest =>
    match siftupF lt 0 (item :: rest) 0 s with
    | (heap, some e, s) => (heap, .error (.raised e), s)
    | (heap, none, s) => (heap, .ok returnitem, s)

/-- heappushpop (_heapqmodule.c). For heap.py:64-100, 138-139. -/
def heappushpopF (lt : Cmp σ ε α) (heap : List α) (item : α) (s : σ) : Res σ ε α α :=
  match heap with
  | [] => ([], .ok item, s)
  | first :: rest =>
    match lt first item s with
    | (.error e, s) => (first :: rest, .error (.raised e), s)
    | (.ok false, s) => (first :: rest, .ok item, s)
    | (.ok true, s) => heapreplaceF lt (first :: rest) item s

/-- list.remove: `item == o` for one item after the other; what is left, if one was found.
For heap.py:64-100, 138-139. -/
def listRemoveF (eq : Cmp σ ε α) (o : α) : List α → σ → Except (Exn ε) (List α) × σ
  | [], s => (.error (.heap .valueError), s)
  | a :: l, s =>
    match eq a o s with
    | (.error e, s) => (.error (.raised e), s)
    | (.ok true, s) => (.ok l, s)
    | (.ok false, s) =>
      match listRemoveF eq o l s with
      | (.error e, s) => (.error e, s)
      | (.ok l, s) => (.ok (a :: l), s)

/-- The calls; the iterable given to extend yields `items`, and then raises `fail`, if that is not None.
For heap.py:64-100, 138-139. -/
inductive FOp (ε α : Type) where
  | append (o : α) | extend (items : List α) (fail : Option ε) | remove (o : α) | popleft
  | appendAndPopleft (o : α) | popleftAndAppend (o : α) | clear | peek

/-- What a call gives: None, a value, or an exception. For heap.py:64-66, 77-85. -/
inductive FOut (ε α : Type) where
  | done | val (v : α) | exn (e : Exn ε)

/-- The comparisons, and the order of positions in heapify for a list of some length. For heap.py:64-100, 138-139. -/
structure World (σ ε α : Type) where
  lt : Cmp σ ε α
  eq : Cmp σ ε α
  order : Nat → List Nat

/-- The end of append, extend and remove: `_version` is incremented if there was no exception
(heap.py:64-66, 77-85). -/
def finish (version : Nat) (r : List α × Option ε × σ) : Heap α × FOut ε α × σ :=
  match r with
  | (q, none, s) => (⟨q, version + 1⟩, .done, s)
  | (q, some e, s) => (⟨q, version⟩, .exn (.raised e), s)

/-- The end of the calls that return an item (heap.py:87-100). -/
def finishVal (version : Nat) (r : Res σ ε α α) : Heap α × FOut ε α × σ :=
  match r with
  | (q, .ok v, s) => (⟨q, version + 1⟩, .val v, s)
  | (q, .error e, s) => (⟨q, version⟩, .exn e, s)

/-- One call (heap.py:64-100, 138-139). `list.extend` keeps the items that an iterable yielded before it
raised. -/
def stepF (w : World σ ε α) (h : Heap α) (s : σ) : FOp ε α → Heap α × FOut ε α × σ
  | .append o => finish h.version (heappushF w.lt h.queue o s)
  | .extend items none =>
    finish h.version (heapifyF w.lt (w.order (h.queue ++ items).length) (h.queue ++ items) s)
  | .extend items (some e) => (⟨h.queue ++ items, h.version⟩, .exn (.raised e), s)
  | .remove o =>
    match listRemoveF w.eq o h.queue s with
    | (.error e, s) => (h, .exn e, s)
    | (.ok q, s) => finish h.version (heapifyF w.lt (w.order q.length) q s)
  | .popleft => finishVal h.version (heappopF w.lt h.queue s)
  | .appendAndPopleft o => finishVal h.version (heappushpopF w.lt h.queue o s)
  | .popleftAndAppend o => finishVal h.version (heapreplaceF w.lt h.queue o s)
  | .clear => (h.clear, .done, s)
  | .peek =>
    match h.queue with
    | [] => (h, .exn (.heap .indexError), s)
    | v :: _ => (h, .val v, s)

/-- A history. -/
def runF (w : World σ ε α) (h : Heap α) (s : σ) : List (FOp ε α) → Heap α × List (FOut ε α) × σ
  | [] => (h, [], s)
  | op :: ops =>
    let r := stepF w h s op
    let r' := runF w r.1 r.2.2 ops
    (r'.1, r.2.1 :: r'.2.1, r'.2.2)

/-- HeapIterator.__next__ (heap.py:160-165): the iterator afterwards, and the item or the exception. -/
def HeapIter.nextF (lt : Cmp σ ε α) (it : HeapIter α) (h : Heap α) (s : σ) :
    HeapIter α × Except (Exn ε) α × σ :=
  if it.version ≠ h.version then (it, .error (.heap .runtimeError), s)
  else if it.copy.isEmpty then (it, .error (.heap .stopIteration), s)
  else
    match heappopF lt it.copy s with
    | (copy, r, s) => (⟨copy, it.version⟩, r, s)

end Big.Heap
