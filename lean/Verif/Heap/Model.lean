/-
Model of big/heap.py (class Heap) together with the parts of CPython's heapq it calls.

Trusted reading: `heapq` is modelled from the pure-Python source of the CPython standard
library (`Lib/heapq.py`), which the C accelerator mirrors.  Python's `<` on the stored values
is a parameter `lt : α → α → Bool`; theorems assume it is a strict weak order (`StrictWeak`),
as heapq and list.sort themselves do.  Comparisons that raise: Heap/FaultModel.lean.
-/
namespace Big.Heap

variable {α : Type}

/-- Python exceptions Heap can raise. For heap.py. -/
inductive Err where
  | indexError | valueError | runtimeError | stopIteration | typeError
  deriving DecidableEq, Repr

/-- "`<` is a strict weak order": what heapq and list.sort need to be meaningful. -/
structure StrictWeak (lt : α → α → Bool) : Prop where
  asymm : ∀ a b, lt a b = true → lt b a = false
  negtrans : ∀ a b c, lt a c = true → lt a b = true ∨ lt b c = true

/-! ### heapq -/

/-- heapq._siftdown's loop (CPython Lib/heapq.py `_siftdown`): the hole is at `pos`, `newitem` is
held in a local variable, parents larger than it are moved down.  The Python code indexes
`heap[parentpos]`; the `else` branch of the bounds test is unreachable when `pos < len(heap)`. For heap.py:64-66. -/
def siftdownLoop (lt : α → α → Bool) (startpos : Nat) (newitem : α) (heap : List α) (pos : Nat) :
    List α :=
  if _h : pos > startpos then
    let parentpos := (pos - 1) / 2
    if hp : parentpos < heap.length then
      let parent := heap[parentpos]
      if lt newitem parent then
        siftdownLoop lt startpos newitem (heap.set pos parent) parentpos
      else heap.set pos newitem
    else heap.set pos newitem
  else heap.set pos newitem
termination_by pos
decreasing_by omega

/-- heapq._siftdown(heap, startpos, pos). For heap.py:64-66. -/
def siftdown (lt : α → α → Bool) (heap : List α) (startpos pos : Nat) : List α :=
  match heap[pos]? with
  | none => heap
  | some newitem => siftdownLoop lt startpos newitem heap pos

/-- Index of the smaller child, as selected in heapq._siftup:
`if rightpos < endpos and not heap[childpos] < heap[rightpos]: childpos = rightpos`. For heap.py:87-90. -/
def smallerChild (lt : α → α → Bool) (heap : List α) (childpos : Nat) : Nat :=
  if hr : childpos + 1 < heap.length then
    if lt (heap[childpos]'(by omega)) heap[childpos + 1] then childpos else childpos + 1
  else childpos

/-- The selected child is in range (needed only for Lean's bounds and termination checks). -/
theorem smallerChild_bounds (lt : α → α → Bool) (heap : List α) (c : Nat) (hc : c < heap.length) :
    c ≤ smallerChild lt heap c ∧ smallerChild lt heap c < heap.length := by
  simp only [smallerChild]; split <;> (try split) <;> omega

/-- heapq._siftup's loop: bubble up the smaller child until hitting a leaf; returns the list with
the hole and the final hole position. For heap.py:87-90. -/
def siftupLoop (lt : α → α → Bool) (heap : List α) (pos : Nat) : List α × Nat :=
  if hc : 2 * pos + 1 < heap.length then
    have hb := smallerChild_bounds lt heap (2 * pos + 1) hc
    siftupLoop lt (heap.set pos (heap[smallerChild lt heap (2 * pos + 1)]'hb.2))
      (smallerChild lt heap (2 * pos + 1))
  else (heap, pos)
termination_by heap.length - pos
decreasing_by
  simp only [List.length_set]
  omega

/-- heapq._siftup(heap, pos). For heap.py:87-90. -/
def siftup (lt : α → α → Bool) (heap : List α) (pos : Nat) : List α :=
  match heap[pos]? with
  | none => heap
  | some newitem =>
    let r := siftupLoop lt heap pos
    siftdownLoop lt pos newitem (r.1.set r.2 newitem) r.2

/-- heapq.heappush. For heap.py:64-66. -/
def heappush (lt : α → α → Bool) (heap : List α) (item : α) : List α :=
  let heap := heap ++ [item]
  siftdown lt heap 0 (heap.length - 1)

/-- heapq.heappop: `lastelt = heap.pop()` raises IndexError on an empty list. For heap.py:87-90. -/
def heappop (lt : α → α → Bool) (heap : List α) : Except Err (α × List α) :=
  match heap.getLast? with
  | none => .error .indexError
  | some lastelt =>
    match heap.dropLast with
    | [] => .ok (lastelt, [])
    | returnitem :: rest => .ok (returnitem, siftup lt (lastelt :: rest) 0)

/-- heapq.heapreplace. For heap.py:97-100. -/
def heapreplace (lt : α → α → Bool) (heap : List α) (item : α) : Except Err (α × List α) :=
  match heap with
  | [] => .error .indexError
  | returnitem :: rest => .ok (returnitem, siftup lt (item :: rest) 0)

/-- heapq.heappushpop. For heap.py:92-95. -/
def heappushpop (lt : α → α → Bool) (heap : List α) (item : α) : α × List α :=
  match heap with
  | [] => (item, [])
  | first :: rest =>
    if lt first item then (first, siftup lt (item :: rest) 0) else (item, first :: rest)

/-- heapq.heapify's loop body `for i in reversed(range(n//2)): _siftup(x, i)`: `heapifyFrom x i`
processes indices i-1, i-2, ..., 0. For heap.py:52-58. -/
def heapifyFrom (lt : α → α → Bool) (x : List α) : Nat → List α
  | 0 => x
  | i + 1 => heapifyFrom lt (siftup lt x i) i

/-- heapq.heapify. For heap.py:52-58. -/
def heapify (lt : α → α → Bool) (x : List α) : List α := heapifyFrom lt x (x.length / 2)

/-- list.sort()/sorted(): stable ascending sort (CPython's timsort contract). For heap.py:102-106. -/
def pysorted (lt : α → α → Bool) (l : List α) : List α := l.mergeSort (fun a b => !lt b a)

/-- sorted(reverse=True): stable descending sort. For heap.py:138-152. -/
def pysortedRev (lt : α → α → Bool) (l : List α) : List α := l.mergeSort (fun a b => !lt a b)

/-- heapq.nsmallest(n, l): documented as `sorted(iterable)[:n]`; for n <= 0 the code returns []. For heap.py:138-152. -/
def nsmallest (lt : α → α → Bool) (n : Int) (l : List α) : List α := (pysorted lt l).take n.toNat

/-- heapq.nlargest(n, l): documented as `sorted(iterable, reverse=True)[:n]`; [] for n <= 0. For heap.py:138-152. -/
def nlargest (lt : α → α → Bool) (n : Int) (l : List α) : List α := (pysortedRev lt l).take n.toNat

/-- builtin max(l): first maximal element, ValueError on empty. For heap.py:138-152. -/
def pymax (lt : α → α → Bool) : List α → Except Err α
  | [] => .error .valueError
  | a :: l => .ok (l.foldl (fun m x => if lt m x then x else m) a)

/-- Python `l[i]` for a list and an int. For heap.py:138-152. -/
def pyIndex (l : List α) (i : Int) : Except Err α :=
  let j := if i < 0 then i + l.length else i
  if j < 0 then .error .indexError
  else match l[j.toNat]? with
    | some v => .ok v
    | none => .error .indexError

/-- Python's clamping of a slice bound (`slice.indices` with step 1). For heap.py:121-137. -/
def clampBound (len : Nat) (b : Int) : Nat :=
  if b < 0 then (b + len).toNat else min b.toNat len

/-- Python `l[start:stop]` with step None. For heap.py:121-137. -/
def pySlice (l : List α) (start stop : Option Int) : List α :=
  let s := clampBound l.length (start.getD 0)
  let e := clampBound l.length (stop.getD l.length)
  (l.take e).drop s

/-! ### class Heap -/

/-- Heap's attributes `_queue` and `_version` (big/heap.py:52-58). -/
structure Heap (α : Type) where
  queue : List α
  version : Nat

/-- Heap.__init__ (heap.py:52-58); the iterable is the list of what it yields. -/
def Heap.new (lt : α → α → Bool) (i : List α) : Heap α :=
  match i with
  | [] => ⟨[], 0⟩
  | i => ⟨heapify lt i, 0⟩

/-- Heap.append (heap.py:64-66). -/
def Heap.append (lt : α → α → Bool) (h : Heap α) (o : α) : Heap α :=
  ⟨heappush lt h.queue o, h.version + 1⟩

/-- Heap.clear (heap.py:68-70). -/
def Heap.clear (h : Heap α) : Heap α := ⟨[], h.version + 1⟩

/-- Heap.copy (heap.py:72-75): a new Heap (version 0) with a copy of the list. -/
def Heap.copy (h : Heap α) : Heap α := ⟨h.queue, 0⟩

/-- Heap.extend (heap.py:77-80). -/
def Heap.extend (lt : α → α → Bool) (h : Heap α) (i : List α) : Heap α :=
  ⟨heapify lt (h.queue ++ i), h.version + 1⟩

/-- list.remove(o): removes the first element that == o, ValueError if there is none. For heap.py:82-85. -/
def listRemove (eq : α → α → Bool) (l : List α) (o : α) : Except Err (List α) :=
  if l.any (fun x => eq x o) then .ok (l.eraseP (fun x => eq x o)) else .error .valueError

/-- Heap.remove (heap.py:82-85). -/
def Heap.remove (lt eq : α → α → Bool) (h : Heap α) (o : α) : Except Err (Heap α) :=
  match listRemove eq h.queue o with
  | .error e => .error e
  | .ok q => .ok ⟨heapify lt q, h.version + 1⟩

/-- Heap.popleft (heap.py:87-90). -/
def Heap.popleft (lt : α → α → Bool) (h : Heap α) : Except Err (α × Heap α) :=
  match heappop lt h.queue with
  | .error e => .error e
  | .ok (o, q) => .ok (o, ⟨q, h.version + 1⟩)

/-- Heap.append_and_popleft (heap.py:92-95). -/
def Heap.appendAndPopleft (lt : α → α → Bool) (h : Heap α) (o : α) : α × Heap α :=
  let r := heappushpop lt h.queue o
  (r.1, ⟨r.2, h.version + 1⟩)

/-- Heap.popleft_and_append (heap.py:97-100). -/
def Heap.popleftAndAppend (lt : α → α → Bool) (h : Heap α) (o : α) : Except Err (α × Heap α) :=
  match heapreplace lt h.queue o with
  | .error e => .error e
  | .ok (o, q) => .ok (o, ⟨q, h.version + 1⟩)

/-- Heap.queue property (heap.py:102-106). -/
def Heap.sortedQueue (lt : α → α → Bool) (h : Heap α) : List α := pysorted lt h.queue

/-- Heap.__getitem__ for an int (heap.py:138-152), branch by branch. -/
def Heap.getInt (lt : α → α → Bool) (h : Heap α) (item : Int) : Except Err α :=
  if item = 0 then pyIndex h.queue 0
  else if item = -1 then pymax lt h.queue
  else if 0 < item ∧ item < 10 then pyIndex (nsmallest lt (item + 1) h.queue) item
  else if -10 < item ∧ item < 0 then pyIndex (nlargest lt (-item + 1) h.queue) item
  else pyIndex (pysorted lt h.queue) item

/-- Heap.__getitem__ for a slice with step None or 1 (heap.py:121-137). -/
def Heap.getSlice (lt : α → α → Bool) (h : Heap α) (istart istop : Option Int) : List α :=
  let length : Int := h.queue.length
  let start := istart.getD 0
  let stop := istop.getD length
  let start := if start < 0 then start + length else start
  let stop := if stop < 0 then stop + length else stop
  if start = 0 then nsmallest lt stop h.queue
  else if stop = length then (nlargest lt (length - start) h.queue).reverse
  else pySlice (pysorted lt h.queue) istart istop

/-- HeapIterator (heap.py:154-168): the copied list and the version seen at creation. -/
structure HeapIter (α : Type) where
  copy : List α
  version : Nat

/-- Heap.__iter__ / HeapIterator.__init__ (heap.py:155-158, 171-172). -/
def Heap.iter (h : Heap α) : HeapIter α := ⟨h.queue, h.version⟩

/-- HeapIterator.__next__ (heap.py:160-165), given the heap it refers to as it is now. -/
def HeapIter.next (lt : α → α → Bool) (it : HeapIter α) (h : Heap α) :
    Except Err (α × HeapIter α) :=
  if it.version ≠ h.version then .error .runtimeError
  else match it.copy with
    | [] => .error .stopIteration
    | _ :: _ => match heappop lt it.copy with
      | .error e => .error e
      | .ok (v, c) => .ok (v, ⟨c, it.version⟩)

/-! ### Heap as a state machine -/

/-- The mutating calls of the API. -/
inductive Op (α : Type) where
  | append (o : α) | extend (i : List α) | remove (o : α) | popleft
  | appendAndPopleft (o : α) | popleftAndAppend (o : α) | clear | peek

/-- What a call returns: None, a value, or an exception. For heap.py:52-170. -/
inductive Out (α : Type) where
  | none | val (v : α) | err (e : Err)

/-- One API call; a call that raises leaves the Python object as it was (heappop, heapreplace and
list.remove raise before any assignment). `peek` is `heap[0]`. For heap.py:52-170. -/
def step (lt eq : α → α → Bool) (h : Heap α) : Op α → Heap α × Out α
  | .append o => (h.append lt o, .none)
  | .extend i => (h.extend lt i, .none)
  | .clear => (h.clear, .none)
  | .remove o => match h.remove lt eq o with
    | .ok h' => (h', .none)
    | .error e => (h, .err e)
  | .popleft => match h.popleft lt with
    | .ok (v, h') => (h', .val v)
    | .error e => (h, .err e)
  | .appendAndPopleft o => let r := h.appendAndPopleft lt o; (r.2, .val r.1)
  | .popleftAndAppend o => match h.popleftAndAppend lt o with
    | .ok (v, h') => (h', .val v)
    | .error e => (h, .err e)
  | .peek => match h.getInt lt 0 with
    | .ok v => (h, .val v)
    | .error e => (h, .err e)

/-- A history: the heap after the calls, and what each call returned. -/
def run (lt eq : α → α → Bool) (h : Heap α) : List (Op α) → Heap α × List (Out α)
  | [] => (h, [])
  | op :: ops =>
    let r := step lt eq h op
    let r' := run lt eq r.1 ops
    (r'.1, r.2 :: r'.2)

end Big.Heap
