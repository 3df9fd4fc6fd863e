import Verif.Quoted.Resume
/-!
# C47: which arguments split_quoted_strings refuses (big/text.py:2040-2117)
-/
namespace Big.SQ
open Big.MS Big.MS.Spec

variable {α : Type} [DecidableEq α] {E : Env α}

theorem repeated_iff (l : List (List α)) : repeated l = false ↔ l.Nodup := by
  induction l with
  | nil => simp [repeated]
  | cons q l ih => simp [repeated, ih]

/-- C47: a call is refused, with ValueError and before anything is yielded, exactly if a quote mark is empty,
there are no quote marks, one is given twice (in `quotes`, in `multiline_quotes`, or once in each), or
`state` is not one of them. Whatever the string and the escape. -/
theorem C47_raises_iff (hc : CacheOK E.cache) (hsort : ∀ l w, w ∈ E.sort l ↔ w ∈ l)
    (s : List α) (quotes ml : List (List α)) (escape state : List α) :
    ((∃ r, splitQuotedStrings E s quotes escape ml state = .ok r) ↔
      [] ∉ quotes ++ ml ∧ quotes ++ ml ≠ [] ∧ (quotes ++ ml).Nodup ∧ (state ≠ [] → state ∈ quotes ++ ml)) ∧
    ∀ e, splitQuotedStrings E s quotes escape ml state = .error e → e = .valueError := by
  have hall : [] ∉ quotes ++ ml ↔ ¬ (quotes.any List.isEmpty || ml.any List.isEmpty) = true := by
    simp
  have hst : (state ≠ [] → state ∈ quotes ++ ml) ↔
      ¬ (!state.isEmpty && !(quotes ++ ml).contains state) = true := by
    rw [Bool.and_eq_true, Bool.not_eq_true', Bool.not_eq_true', List.isEmpty_eq_false_iff]
    simp only [not_and, Bool.not_eq_false, List.contains_iff_mem]
  have hnd : (quotes ++ ml).Nodup ↔ ¬ (repeated quotes || repeated ml) = true ∧
      ¬ (quotes.any (fun q => ml.contains q)) = true := by
    rw [List.nodup_append, ← repeated_iff, ← repeated_iff]
    simp only [Bool.or_eq_true, not_or, Bool.not_eq_true, List.any_eq_false, List.contains_iff_mem, and_assoc]
    refine and_congr_right fun _ => and_congr_right fun _ => ?_
    constructor
    · intro h x hx hm; exact h x hx x hm rfl
    · intro h x hx y hy e; exact h x hx (e ▸ hy)
  constructor
  · constructor
    · rintro ⟨r, h⟩
      obtain ⟨g1, g2, g3, _⟩ := call_eq hc hsort h
      unfold splitQuotedStrings at h
      rw [if_neg (hall.1 g1)] at h
      by_cases h2 : (quotes ++ ml).isEmpty = true
      · rw [if_pos h2] at h; simp at h
      rw [if_neg h2, if_neg (hst.1 g3)] at h
      by_cases h4 : (repeated quotes || repeated ml) = true
      · rw [if_pos h4] at h; simp at h
      rw [if_neg h4] at h
      by_cases h5 : (quotes.any (fun q => ml.contains q)) = true
      · rw [if_pos h5] at h; simp at h
      exact ⟨g1, by simpa using h2, hnd.2 ⟨h4, h5⟩, g3⟩
    · rintro ⟨g1, g2, g3, g4⟩
      obtain ⟨h4, h5⟩ := hnd.1 g3
      have hmem : ∀ w, w ∈ separators E quotes ml escape ↔ w ∈ Separators quotes ml escape := by
        intro w
        unfold separators
        rw [hsort]
        unfold Separators
        by_cases he : escape = []
        · subst he; simp
        · rw [if_neg he, if_neg (by simpa using he)]
      have he' : [] ∉ separators E quotes ml escape := by
        rw [hmem]
        unfold Separators
        rw [List.mem_append]
        rintro (hm | hm)
        · exact g1 hm
        · by_cases he : escape = []
          · rw [if_pos he] at hm; simp at hm
          · rw [if_neg he] at hm
            simp only [List.mem_append, List.mem_map, List.append_eq_nil_iff, List.mem_singleton] at hm
            rcases hm with ⟨_, _, h, _⟩ | h
            · exact he h
            · exact he (List.append_eq_nil_iff.1 h.symm).1
      have hne : separators E quotes ml escape ≠ [] := by
        intro hn
        obtain ⟨w, hw⟩ := List.exists_mem_of_ne_nil _ g2
        have : w ∈ separators E quotes ml escape := (hmem w).2 (List.mem_append.2 (.inl hw))
        rw [hn] at this
        simp at this
      obtain ⟨L, _, _, _, _, hp⟩ := C38_multisplit_splits_exactly (nl := E.nl) hc hne he' s false true
        (some (-1)) (.inr rfl)
      unfold splitQuotedStrings
      rw [if_neg (hall.1 g1), if_neg (by simpa using g2), if_neg (hst.1 g4), if_neg h4, if_neg h5, hp]
      exact ⟨_, rfl⟩
  · intro e h
    unfold splitQuotedStrings at h
    repeat'
      first
      | (split at h)
      | (simp only [Except.error.injEq] at h; exact h.symm)
      | (simp at h; done)

/-- Both sides of C47_raises_iff occur. -/
example : (∃ r, splitQuotedStrings strEnv "a'b".toList ["'".toList] ['\\'] ["\"".toList] ['"'] = .ok r) ∧
    splitQuotedStrings strEnv "a'b".toList ["'".toList] ['\\'] ["'".toList] [] = .error .valueError ∧
    splitQuotedStrings strEnv "a'b".toList ["'".toList, "\"".toList, "'".toList] ['\\'] [] []
      = .error .valueError := by
  refine ⟨⟨([([], "a'b".toList, [])], none), ?_⟩, ?_, ?_⟩ <;> decide +kernel

end Big.SQ
