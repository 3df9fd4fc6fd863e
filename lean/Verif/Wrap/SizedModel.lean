import Verif.Wrap.Merge
/-! # merge_columns with the minimum width of each column (big/text.py:4105-4308) -/
namespace Big.Wrap
variable {α : Type} [DecidableEq α]

/-- A column, `(s, min_width, max_width)` (text.py:4206). -/
structure SizedColumn (α : Type) where
  text : ColText α
  minWidth : Int
  maxWidth : Int

/-- What the loops use of it: `min_width` occurs in `operator.index(min_width)` only (text.py:4206-4277). -/
def SizedColumn.column (c : SizedColumn α) : Column α := ⟨c.text, c.maxWidth⟩

/-- `merge_columns(*columns, ...)` with integers as widths (text.py:4105-4308). -/
def mergeSized (E : Env α) (o : MergeOpt α) (columns : List (SizedColumn α)) : Except Err (List α) :=
  mergeColumns E o (columns.map SizedColumn.column)

end Big.Wrap
