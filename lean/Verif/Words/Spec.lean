/-! # Cutting a string into pieces: independent vocabulary -/
namespace Big.Words

variable {α : Type}

/-- `pre` ends where one of the pieces ends: the pieces are cut after `pre`. -/
def CutAfter (pieces : List (List α)) (pre : List α) : Prop :=
  ∃ l₁ l₂, pieces = l₁ ++ l₂ ∧ l₁.flatten = pre

theorem cutAfter_cons {w : List α} {l : List (List α)} {pre : List α} :
    CutAfter (w :: l) pre ↔ pre = [] ∨ ∃ p, pre = w ++ p ∧ CutAfter l p := by
  constructor
  · rintro ⟨l₁, l₂, h, rfl⟩
    cases l₁ with
    | nil => exact .inl rfl
    | cons a l₁ =>
      obtain ⟨rfl, rfl⟩ := List.cons.inj h
      exact .inr ⟨l₁.flatten, by simp, l₁, l₂, rfl, rfl⟩
  · rintro (rfl | ⟨p, rfl, l₁, l₂, rfl, rfl⟩)
    · exact ⟨[], w :: l, rfl, rfl⟩
    · exact ⟨w :: l₁, l₂, rfl, by simp⟩

theorem cutAfter_nil {pre : List α} : CutAfter ([] : List (List α)) pre ↔ pre = [] := by
  constructor
  · rintro ⟨l₁, l₂, h, rfl⟩
    rw [(List.append_eq_nil_iff.1 h.symm).1]; rfl
  · rintro rfl; exact ⟨[], [], rfl, rfl⟩

end Big.Words
