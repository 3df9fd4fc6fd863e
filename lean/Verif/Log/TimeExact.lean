import Verif.Log.Props
/-!
# C32, exactly
-/
namespace Big.Log

/-- C32, exactly: Log.print shows every time within second number s right if and only if s is 0, or no fraction is shown. -/
theorem C32_right_iff (sw fw s : Nat) :
    (∀ t, t / 1000000000 = s → formatTime sw fw t = rightTime sw fw t) ↔ s = 0 ∨ fw = 0 := by
  constructor
  · intro h
    by_cases hs : s = 0
    · exact .inl hs
    · by_cases hf : fw = 0
      · exact .inr hf
      · exact absurd (h (s * 1000000000) (by omega)) (C32_violated sw fw s (by omega) (by omega))
  · rintro (rfl | rfl) t ht
    · exact C32_print sw fw t (by omega)
    · simp [formatTime, rightTime]

/-- C32: the seconds are always right, and what is shown as the fraction is the first digits of the number of nanoseconds less
the number of seconds. -/
theorem C32_shown (sw fw t : Nat) (h : 1000000000 ≤ t) :
    formatTime sw fw t = zeroPad sw (natStr (t / 1000000000)) ++ '.' :: (natStr (t - t / 1000000000)).take fw := by
  have e : zeroPad 9 (natStr (t - t / 1000000000)) = natStr (t - t / 1000000000) := by
    have := long_digits (t - t / 1000000000) (by omega)
    unfold zeroPad
    rw [Nat.sub_eq_zero_of_le this, List.replicate_zero, List.nil_append]
  simp only [formatTime, e]

example : formatTime 2 9 3000000000 = "03.299999999".toList := by decide +kernel
example : rightTime 2 9 3000000000 = "03.000000000".toList := by decide +kernel

end Big.Log
