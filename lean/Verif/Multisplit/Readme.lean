import Verif.Multisplit.Builtins
/-!
# C99: exactly when the README's str_split and str_rsplit are str.split and str.rsplit
-/
namespace Big.MS
open Spec PyStr

section
variable {α : Type} [DecidableEq α] {nl : α} {cache : List (List α) → Option (List (List α))}

/-- A string that is one of the separators, of one character, splits into two empty strings. -/
theorem alternates_one (c : α) (sep : List α) (hc : c ∈ sep) :
    Alternates (sep.map fun c => [c]) true [[], [c], []] := by
  simp only [Alternates, SepAt, if_true]
  refine ⟨?_, ⟨by simpa using hc, by simp, ?_⟩, ?_⟩
  · intro a b e hb
    have := List.append_eq_nil_iff.mp e.symm
    exact absurd this.2 hb
  · intro w hw _
    simp only [List.mem_map] at hw
    obtain ⟨d, _, rfl⟩ := hw
    simp
  · intro a b e w hw hp
    have := List.append_eq_nil_iff.mp e.symm
    rw [this.2] at hp
    simp only [List.mem_map] at hw
    obtain ⟨d, _, rfl⟩ := hw
    simp at hp

theorem find_short {sep : List α} (c : α) (h : 2 ≤ sep.length) : find sep [c] = none := by
  refine find_none (by rintro rfl; simp at h) ?_
  intro a b e hp
  have h1 := hp.length_le
  have h2 := congrArg List.length e
  simp only [List.length_append, List.length_singleton] at h2
  omega

theorem rfind_short {sep : List α} (c : α) (h : 2 ≤ sep.length) : rfind sep [c] = none := by
  refine rfind_none (by rintro rfl; simp at h) ?_
  intro a b e hp
  have h1 := hp.length_le
  have h2 := congrArg List.length e
  simp only [List.length_append, List.length_singleton] at h2
  omega

theorem splitN_short {sep : List α} (c : α) (h : 2 ≤ sep.length) (n : Nat) : splitN sep n [c] = [[c]] := by
  cases n with
  | zero => rfl
  | succ n => simp [splitN, find_short c h]

theorem rsplitN_short {sep : List α} (c : α) (h : 2 ≤ sep.length) (n : Nat) : rsplitN sep n [c] = [[c]] := by
  cases n with
  | zero => rfl
  | succ n => simp [rsplitN, rfind_short c h]

theorem splitN_self {sep : List α} (h : sep ≠ []) (n : Nat) : (splitN sep (n + 1) sep).length = 2 := by
  have h1 : find sep sep = some ([], []) := by
    have := find_some (sep := sep) (rest := []) h (n := []) (by
      intro a b e hb; exact absurd (List.append_eq_nil_iff.mp e.symm).2 hb)
    simpa using this
  have h2 : splitN sep n ([] : List α) = [[]] := by
    cases n with
    | zero => rfl
    | succ n => simp [splitN, find, h]
  simp [splitN, h1, h2]

theorem rsplitN_self {sep : List α} (h : sep ≠ []) (n : Nat) : (rsplitN sep (n + 1) sep).length = 2 := by
  have h1 : rfind sep sep = some ([], []) := by
    have := rfind_some (sep := sep) (rest := []) h (n := []) (by
      intro a b e ha hp
      have h1 := hp.length_le
      have h2 := congrArg List.length e
      simp only [List.length_append, List.length_nil] at h2
      have : 0 < a.length := List.length_pos_iff.mpr ha
      omega)
    simpa using this
  have h2 : rsplitN sep n ([] : List α) = [[]] := by
    cases n with
    | zero => rfl
    | succ n => simp [rsplitN, rfind, h]
  simp [rsplitN, h1, h2]

/-- maxsplit 0, and below -1: the string is not split. -/
theorem readmeSplit_none (hc : CacheOK cache) (s sep : List α) (hs : sep ≠ []) (n : Int) (hn : n = 0 ∨ n < -1)
    (reverse : Bool) : readmeSplit nl cache s sep n reverse = .ok [.str s] := by
  obtain ⟨l, h1, h2⟩ := multisplit_spec (nl := nl) hc (seps := sep.map fun c => [c]) (by simpa using hs)
    (by simp) true reverse s
  unfold readmeSplit
  rw [h2]
  have : allowed (some n) = some 0 := by
    simp only [allowed]
    rw [if_neg (by omega)]
    congr 1; omega
  rw [this]
  simp only [cut, limitDir, limit]
  have hm : (mirror l).flatten.reverse = l.flatten := by
    unfold mirror
    rw [← List.reverse_flatten, List.reverse_reverse]
  cases reverse with
  | false => simp [render, texts, h1.1]
  | true =>
    have hx : mirror [(mirror l).flatten] = [s] := by
      show [(mirror l).flatten.reverse] = [s]
      rw [hm, h1.1]
    simp only [if_true, hx]
    rfl

/-- The README's functions split a single character that is in the separator. -/
theorem readmeSplit_one (hc : CacheOK cache) (c : α) (sep : List α) (hs : c ∈ sep) (n : Int) (hn : n = -1 ∨ 1 ≤ n)
    (reverse : Bool) : readmeSplit nl cache [c] sep n reverse = .ok [.str [], .str []] := by
  obtain ⟨l, h1, h2⟩ := multisplit_spec (nl := nl) hc (seps := sep.map fun c => [c])
    (by intro e; simp only [List.map_eq_nil_iff] at e; rw [e] at hs; simp at hs)
    (by simp) true reverse [c]
  unfold readmeSplit
  rw [h2]
  have hrev : (sep.map fun c => [c]).map List.reverse = sep.map fun c => [c] := by simp
  have hl : (if reverse then mirror l else l) = [[], [c], []] := by
    obtain ⟨h1, h3⟩ := h1
    rw [hrev] at h3
    cases reverse with
    | false =>
      exact alternates_unique _ _ (by simpa using h3) (alternates_one c sep hs) (by simp [h1])
    | true =>
      refine alternates_unique _ _ (by simpa using h3) (alternates_one c sep hs) ?_
      simp [mirror, ← List.reverse_flatten, h1]
  have hk : ∀ k : Nat, limit (k + 1) ([[], [c], []] : List (List α)) = [[], [c], []] := by
    intro k; cases k <;> simp [limit]
  have hmm : mirror ([[], [c], []] : List (List α)) = [[], [c], []] := by simp [mirror]
  have hll : l = [[], [c], []] := by
    cases reverse with
    | false => simpa using hl
    | true =>
      simp only [if_true] at hl
      have := congrArg mirror hl
      rw [hmm] at this
      rw [← this, mirror_mirror]
  subst hll
  have hcut : cut reverse (allowed (some n)) ([[], [c], []] : List (List α)) = [[], [c], []] := by
    simp only [allowed]
    rcases hn with rfl | hn
    · rfl
    · rw [if_neg (by omega)]
      obtain ⟨k, hk'⟩ : ∃ k, n.toNat = k + 1 := ⟨n.toNat - 1, by omega⟩
      rw [hk']
      simp only [cut, limitDir, hmm, hk]
      split <;> rfl
  rw [hcut]
  simp [render, texts]

/-- **C99.** Exactly when the README's str_split and str_rsplit are str.split and str.rsplit, for every string:
with a separator of one character and a maxsplit of -1 or more, and with any separator if maxsplit is 0. For every
other separator and maxsplit each of the two functions is wrong for some string. -/
theorem C99_readme_split_iff (hc : CacheOK cache) (sep : List α) (hs : sep ≠ []) (n : Int) :
    ((∀ s, readmeSplit nl cache s sep n false = .ok ((PyStr.split s sep n).map .str)) ↔
      n = 0 ∨ (-1 ≤ n ∧ sep.length = 1)) ∧
    ((∀ s, readmeSplit nl cache s sep n true = .ok ((PyStr.rsplit s sep n).map .str)) ↔
      n = 0 ∨ (-1 ≤ n ∧ sep.length = 1)) := by
  have hpos : 0 < sep.length := List.length_pos_iff.mpr hs
  have hback : n = 0 ∨ (-1 ≤ n ∧ sep.length = 1) → ∀ s,
      readmeSplit nl cache s sep n false = .ok ((PyStr.split s sep n).map .str) ∧
      readmeSplit nl cache s sep n true = .ok ((PyStr.rsplit s sep n).map .str) := by
    rintro (rfl | ⟨hn, hl⟩) s
    · rw [readmeSplit_none hc s sep hs 0 (.inl rfl), readmeSplit_none hc s sep hs 0 (.inl rfl)]
      constructor <;> simp [PyStr.split, PyStr.rsplit, splitN, rsplitN]
    · obtain ⟨c, rfl⟩ := List.length_eq_one_iff.mp hl
      exact C99_readme_split hc s c n hn
  have hlong : ¬ (n = 0 ∨ (-1 ≤ n ∧ sep.length = 1)) → n < -1 ∨ ((n = -1 ∨ 1 ≤ n) ∧ 2 ≤ sep.length) := by omega
  refine ⟨⟨fun h => ?_, fun h s => (hback h s).1⟩, ⟨fun h => ?_, fun h s => (hback h s).2⟩⟩
  · refine Decidable.byContradiction fun hno => ?_
    rcases hlong hno with hn | ⟨hn, h2⟩
    · have := h sep
      rw [readmeSplit_none hc sep sep hs n (.inr hn)] at this
      simp only [Except.ok.injEq] at this
      have := congrArg List.length this
      unfold PyStr.split at this
      rw [if_pos (by omega)] at this
      obtain ⟨k, hk⟩ : ∃ k, sep.length = k + 1 := ⟨sep.length - 1, by omega⟩
      rw [hk] at this
      simp [splitN_self hs] at this
    · obtain ⟨c, hcs⟩ := List.exists_mem_of_ne_nil sep hs
      have := h [c]
      rw [readmeSplit_one hc c sep hcs n hn] at this
      simp [PyStr.split, splitN_short c h2] at this
  · refine Decidable.byContradiction fun hno => ?_
    rcases hlong hno with hn | ⟨hn, h2⟩
    · have := h sep
      rw [readmeSplit_none hc sep sep hs n (.inr hn)] at this
      simp only [Except.ok.injEq] at this
      have := congrArg List.length this
      unfold PyStr.rsplit at this
      rw [if_pos (by omega)] at this
      obtain ⟨k, hk⟩ : ∃ k, sep.length = k + 1 := ⟨sep.length - 1, by omega⟩
      rw [hk] at this
      simp [rsplitN_self hs] at this
    · obtain ⟨c, hcs⟩ := List.exists_mem_of_ne_nil sep hs
      have := h [c]
      rw [readmeSplit_one hc c sep hcs n hn] at this
      simp [PyStr.rsplit, rsplitN_short c h2] at this

/-- The hypotheses are met. -/
example : CacheOK strCache ∧ "->".toList ≠ [] := ⟨strCache_ok, by decide⟩

end
end Big.MS
