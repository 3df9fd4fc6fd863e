import Verif.Multisplit.Strip
/-!
# C107: exactly which separators multistrip handles
-/
namespace Big.MS
open Spec

variable {α : Type} [DecidableEq α] {nl : α} {seps : List (List α)}

/-- Only separators are taken from the right of `s`. -/
def OnlySeparators (nl : α) (seps : List (List α)) (s : List α) : Prop :=
  ∃ t r, multistrip nl s seps false true = .ok t ∧ s = t ++ r ∧ Concat seps r

/-- A non-empty run of separators ends with a separator. -/
theorem concat_last {m : List α} (h : Concat seps m) (hm : m ≠ []) :
    ∃ a w, w ∈ seps ∧ Concat seps a ∧ m = a ++ w := by
  induction h with
  | nil => exact absurd rfl hm
  | @cons w m hw hc ih =>
    by_cases h0 : m = []
    · subst h0; exact ⟨[], w, hw, .nil, by simp⟩
    · obtain ⟨a, v, hv, ha, rfl⟩ := ih h0
      exact ⟨w ++ a, v, hv, .cons hw ha, by simp⟩

/-- A separator and a newline: both are taken away. -/
theorem strips_newline (hne : seps ≠ []) (he : [] ∉ seps) (w : List α) (hw : w ∈ seps) :
    multistrip nl (w ++ [nl]) seps false true = .ok [] := by
  have hw0 : w ≠ [] := fun e => he (e ▸ hw)
  unfold multistrip
  rw [if_neg hne, if_neg he, if_neg (by simp)]
  unfold stripCore
  simp only [Bool.false_eq_true, if_false, if_true]
  obtain ⟨t, r, h1, h2, h3, h4⟩ := right_strip (nl := nl) hne he (w ++ [nl])
  rw [h2]
  congr 1
  refine Decidable.byContradiction fun ht => ?_
  exact h4 [] t w [nl] rfl (.inl ht) h1.symm hw0 (by simpa using Concat.cons hw .nil) (.inr rfl)

/-- **C107.** Exactly for which separators multistrip takes only separators from the right of every string: those
of which each, with a newline after it, is made of separators again. If newline is a separator they are; if it is
not, and no separator contains a newline, there is a string that loses more than separators, whatever the
separators are. -/
theorem C107_only_separators_iff (hne : seps ≠ []) (he : [] ∉ seps) :
    (∀ s, OnlySeparators nl seps s) ↔ ∀ w ∈ seps, Concat seps (w ++ [nl]) := by
  constructor
  · intro h w hw
    obtain ⟨t, r, h1, h2, h3⟩ := h (w ++ [nl])
    rw [strips_newline hne he w hw] at h1
    cases h1
    rw [h2]; exact h3
  · intro h s
    obtain ⟨t, l, r, h1, h2, h3, h4⟩ := C41_multistrip_general (nl := nl) hne he s false true
    simp only [Bool.false_eq_true, if_false] at h3
    subst h3
    simp only [if_true] at h4
    refine ⟨t, r, h1, h2, ?_⟩
    rcases h4.2 with h5 | ⟨m, hm, hcm, rfl⟩
    · exact h5
    · obtain ⟨a, w, hw, ha, rfl⟩ := concat_last hcm hm
      rw [List.append_assoc]
      exact concat_append ha (h w hw)

/-- If no separator contains a newline, there is such a string. -/
theorem C107_violated (hne : seps ≠ []) (he : [] ∉ seps) (hn : ∀ w ∈ seps, nl ∉ w) :
    ∃ s, ¬ OnlySeparators nl seps s := by
  refine Classical.byContradiction fun h => ?_
  have h' : ∀ s, OnlySeparators nl seps s := fun s => Classical.byContradiction fun hs => h ⟨s, hs⟩
  obtain ⟨w, hw⟩ := List.exists_mem_of_ne_nil seps hne
  have hc := (C107_only_separators_iff hne he).mp h' w hw
  have hno : ∀ m, Concat seps m → nl ∉ m := by
    intro m hm
    induction hm with
    | nil => simp
    | cons hw _ ih => simp only [List.mem_append, not_or]; exact ⟨hn _ hw, ih⟩
  exact hno _ hc (by simp)

/-- The hypotheses are met: whitespace other than newline. -/
example : ∃ s, ¬ OnlySeparators '\n' [[' '], ['\t']] s := C107_violated (by simp) (by simp) (by simp)
/-- And newline as a separator is handled. -/
example : ∀ s, OnlySeparators '\n' [[' '], ['\n']] s :=
  (C107_only_separators_iff (by simp) (by simp)).mpr (by
    intro w hw
    exact .cons hw (by simpa using Concat.cons (seps := [[' '], ['\n']]) (w := ['\n']) (by simp) .nil))

end Big.MS
