import Verif.Deprecated.Comments
/-!
# C62: a fault of `deprecated.lines_strip_comments`
-/
namespace Big.DC
open Big.Lines

/-- The fault: a line that ends in an opening quote mark raises RuntimeError (with triple quotes on), even
if that quote mark is in the comment. -/
theorem C62_strip_comments_fault :
    linesStripComments E0 a0 [line "it's", line "a '"] = ([line "it's"], some .runtimeError) ∧
    linesStripComments E0 a0 [line "a # '"] = ([], some .runtimeError) ∧
    (linesStripComments E0 a0 [line "a = '#'  # b"]).1.map (·.2) = ["a = '#'".toList] := by
  refine ⟨?_, ?_, ?_⟩ <;> decide +kernel

end Big.DC
