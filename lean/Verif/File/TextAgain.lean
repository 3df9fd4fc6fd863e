import Verif.File.TextProps
/-! # C136: translate_filename_to_exfat applied again -/
namespace Big.File

theorem hex2_toNat (n : Nat) (h : n < 32) : ∀ x ∈ hex2 n, 32 ≤ x.toNat := by
  have : ∀ k : Fin 32, ∀ x ∈ hex2 k.val, 32 ≤ x.toNat := by decide +kernel
  exact this ⟨n, h⟩

theorem exfatChar_toNat (c : Char) : ∀ x ∈ exfatChar c, 32 ≤ x.toNat := by
  unfold exfatChar
  intro x hx
  repeat' split at hx
  all_goals first
    | (simp only [List.mem_singleton] at hx; subst hx; decide)
    | exact hex2_toNat _ (by assumption) x hx
    | (simp only [List.mem_singleton] at hx; subst hx; omega)

/-- No result has a control character. -/
theorem toExfat_toNat {s t : List Char} (h : toExfat s = some t) : ∀ x ∈ t, 32 ≤ x.toNat := by
  unfold toExfat at h
  split at h
  · simp at h
  · simp only [Option.some.injEq] at h
    subst h
    intro x hx
    unfold replaceColon at hx
    obtain ⟨d, hd, rfl⟩ := List.mem_map.1 hx
    have hd' : 32 ≤ d.toNat := by
      rcases mem_replaceColonSpace _ d hd with h1 | rfl | rfl
      · obtain ⟨e, _, hde⟩ := List.mem_flatMap.1 h1
        exact exfatChar_toNat e d hde
      · decide
      · decide
    split
    · decide
    · exact hd'

theorem exfatChar_fix {c : Char} (h : ¬ exfatForbidden c) : exfatChar c = [c] := by
  unfold exfatForbidden at h
  simp only [List.mem_cons, List.not_mem_nil, or_false, not_or] at h
  obtain ⟨h0, h1, h2, h3, h4, h5, h6, h7, h8, h9⟩ := h
  unfold exfatChar
  rw [if_neg (by omega), if_neg h0, if_neg h1, if_neg h2, if_neg h4, if_neg h5, if_neg h6, if_neg h7, if_neg h8,
    if_neg h9]

theorem replaceColonSpace_fix (s : List Char) (h : ':' ∉ s) : replaceColonSpace s = s := by
  fun_induction replaceColonSpace s with
  | case1 s ih => simp at h
  | case2 c s hne ih =>
    simp only [List.mem_cons, not_or] at h
    rw [ih h.2]
  | case3 => rfl

/-- C136: a name is left unchanged exactly if exFAT allows it (and it is not empty). -/
theorem C136_exfat_fixed (t : List Char) :
    toExfat t = some t ↔ t ≠ [] ∧ ∀ c ∈ t, ¬ exfatForbidden c := by
  constructor
  · intro h
    have ht : t ≠ [] := by intro h'; subst h'; simp [toExfat] at h
    obtain ⟨u, h1, _, h2⟩ := C33_exfat_legal t ht (fun c hc => .inr (toExfat_toNat h c hc))
    rw [h] at h1
    simp only [Option.some.injEq] at h1
    subst h1
    exact ⟨ht, h2⟩
  · rintro ⟨ht, h⟩
    have hcol : ':' ∉ t := fun hc => h _ hc (.inr (by decide))
    have h1 : t.flatMap exfatChar = t := by
      clear ht hcol
      induction t with
      | nil => rfl
      | cons c t ih =>
        rw [List.flatMap_cons, exfatChar_fix (h c (by simp)), ih (fun x hx => h x (by simp [hx]))]; rfl
    unfold toExfat
    rw [if_neg ht, h1, replaceColonSpace_fix _ hcol]
    unfold replaceColon
    congr 1
    conv => rhs; rw [← List.map_id t]
    refine List.map_congr_left (fun c hc => ?_)
    rw [if_neg (by rintro rfl; exact hcol hc)]; rfl

/-- C136: translating a second time gives a name that exFAT allows, whatever the name was; a third time changes
nothing. -/
theorem C136_exfat_twice (s : List Char) (hs : s ≠ []) :
    ∃ t u, toExfat s = some t ∧ toExfat t = some u ∧ u ≠ [] ∧ (∀ c ∈ u, ¬ exfatForbidden c) ∧ toExfat u = some u := by
  obtain ⟨t, h1, h2, _⟩ := C33_exfat_iff s hs
  obtain ⟨u, h3, h4, h5⟩ := C33_exfat_legal t h2 (fun c hc => .inr (toExfat_toNat h1 c hc))
  exact ⟨t, u, h1, h3, h4, h5, (C136_exfat_fixed u).2 ⟨h4, h5⟩⟩

/-- C136: the second time changes nothing exactly if the name had no control character U+0001 to U+001F. -/
theorem C136_exfat_idempotent (s : List Char) (hs : s ≠ []) :
    ∃ t, toExfat s = some t ∧ (toExfat t = some t ↔ ∀ c ∈ s, c.toNat = 0 ∨ 32 ≤ c.toNat) := by
  obtain ⟨t, h1, h2, h3⟩ := C33_exfat_iff s hs
  refine ⟨t, h1, ?_⟩
  rw [C136_exfat_fixed, ← h3]
  exact ⟨fun h => h.2, fun h => ⟨h2, h⟩⟩

example : toExfat "a\nb".toList = some "a?0ab".toList ∧ toExfat "a?0ab".toList = some "a.0ab".toList ∧
    toExfat "a.0ab".toList = some "a.0ab".toList := by decide

end Big.File
