import Verif.Heap.Model
/-!
# Slices of a Heap with any step (big/heap.py:121-152), and Python's slices of a list

Python's slices are modelled from CPython's `PySlice_AdjustIndices`.
-/
namespace Big.Heap

variable {α : Type}

/-- A bound of a slice, put into the range that makes sense for a list of length `len`
(`PySlice_AdjustIndices`). For heap.py:121-137, 150-152. -/
def adjust (len step b : Int) : Int :=
  if b < 0 then
    if b + len < 0 then (if step < 0 then -1 else 0) else b + len
  else if b ≥ len then (if step < 0 then len - 1 else len)
  else b

/-- The first index of a slice: without one it is the first item, or the last one for a negative step.
For heap.py:121-137, 150-152. -/
def sliceStart (len step : Int) (start : Option Int) : Int :=
  match start with
  | some b => adjust len step b
  | none => if step < 0 then len - 1 else 0

/-- Where a slice stops: without it after the last item, or before the first one for a negative step.
For heap.py:121-137, 150-152. -/
def sliceStop (len step : Int) (stop : Option Int) : Int :=
  match stop with
  | some b => adjust len step b
  | none => if step < 0 then -1 else len

/-- The number of indices from `start` to before `stop` (`PySlice_AdjustIndices`). For heap.py:121-137, 150-152. -/
def sliceCount (start stop step : Int) : Nat :=
  if step < 0 then (if stop < start then ((start - stop - 1) / (-step) + 1).toNat else 0)
  else if start < stop then ((stop - start - 1) / step + 1).toNat
  else 0

/-- `l[start:stop:step]` for a list; ValueError for a step of zero. For heap.py:121-137, 150-152. -/
def pySliceStep (l : List α) (start stop step : Option Int) : Except Err (List α) :=
  let k := step.getD 1
  if k = 0 then .error .valueError
  else
    let i := sliceStart l.length k start
    let n := sliceCount i (sliceStop l.length k stop) k
    .ok ((List.range n).filterMap fun (m : Nat) => l[(i + m * k).toNat]?)

/-- Heap.__getitem__ for a slice with any step (heap.py:121-137, 150-152): the special cases are for a step
of None or 1. -/
def Heap.getSliceStep (lt : α → α → Bool) (h : Heap α) (start stop step : Option Int) : Except Err (List α) :=
  if step = none ∨ step = some 1 then .ok (h.getSlice lt start stop)
  else pySliceStep (pysorted lt h.queue) start stop step

end Big.Heap
