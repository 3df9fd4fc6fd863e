import Verif.RePart.Reverse
/-! # C57: reversed_re_finditer -/
namespace Big.RePart

/-- Everything the loop yields is a match, and each one ends where the one before starts, or earlier. -/
theorem revLoop_order {M : Matcher} (hM : M.Lawful) : ∀ fuel ms over prev, prev ≤ M.len → MsInv M ms → OverInv M over →
    turns ms over < fuel → ∃ ys, revLoop M fuel ms over prev = .ok ys ∧
      ((∀ y ∈ ys, Good M y ∧ y.2 ≤ prev) ∧ ys.Pairwise (fun a b => b.2 ≤ a.1)) := by
  refine revLoop_ind hM ?_ ?_
  · intros; exact ⟨by simp, .nil⟩
  · intro ms over prev over1 ms1 y rest ys hp hms hov hT h1 h2 h3 h4 h5 hP
    have hy : y ∈ over1 := h4.subset (by simp)
    have hg := h1.good y hy
    have hy2 := h2 y hy
    refine ⟨?_, List.Pairwise.cons (fun b hb => (hP.1 b hb).2) hP.2⟩
    intro z hz
    rcases List.mem_cons.1 hz with rfl | hz
    · exact ⟨hg, hy2⟩
    · obtain ⟨k1, k2⟩ := hP.1 z hz
      exact ⟨k1, by have := hg.1; omega⟩

/-- Two spans that touch, and overlap if the first is not empty. -/
def Touches (t y : Span) : Prop := y.1 ≤ t.2 ∧ t.1 ≤ y.2 ∧ (t.1 < t.2 → y.1 < t.2 ∧ t.1 < y.2)

theorem revLoop_complete {M : Matcher} (hM : M.Lawful) (u : Span) : ∀ fuel ms over prev, prev ≤ M.len → MsInv M ms → OverInv M over →
    turns ms over < fuel → ∃ ys, revLoop M fuel ms over prev = .ok ys ∧
      (u ∈ ms → u.2 ≤ prev → (∀ o ∈ over, u.2 ≤ o.1) → ∃ y ∈ ys, Touches u y) := by
  refine revLoop_ind hM ?_ ?_
  · intro ms over prev hp hms hov h1 h2 hu hup
    exact absurd hup (popViable_none h2 u hu)
  · intro ms over prev over1 ms1 y rest ys hp hms hov hT h1 h2 h3 h4 h5 hP hu hup huo
    have hy : y ∈ over1 := h4.subset (by simp)
    have hug := hms.good u hu
    cases hT with
    | keep hne =>
      have hsub := (truncate_spec hM hp hov).2.2
      have hst : ∀ o ∈ truncate M prev over, u.2 ≤ o.1 := by
        intro o ho
        obtain ⟨o', ho', he⟩ := List.mem_map.1 (hsub.subset (List.mem_map.2 ⟨o, ho, rfl⟩))
        rw [← he]; exact huo o' ho'
      obtain ⟨z, hz, hz2⟩ := hP hu (hst y hy) (fun o ho => hst o (h4.subset (by simp [ho])))
      exact ⟨z, by simp [hz], hz2⟩
    | fresh t _ hnil hpv =>
      obtain ⟨g1, g2, g3⟩ := popViable_some hpv
      have ht : t ∈ ms := g2.subset (by simp)
      have htg := hms.good t ht
      obtain ⟨k1, k2, k3⟩ := scan_spec hM hp htg g1
      obtain ⟨l1, l2, l3⟩ := k2 y hy
      have htin : t ∈ scan M prev t := by simp [scan]
      -- the one that is yielded ends where t ends, or later
      have hend : t.2 ≤ y.2 := by
        rcases List.mem_cons.1 (h4.symm.subset htin) with h | h
        · rw [h]; exact Nat.le_refl _
        · have := (List.pairwise_cons.1 h5).1 t h
          rw [keyLe_iff] at this; omega
      have hstart : y.1 ≤ t.2 ∧ (t.1 < t.2 → y.1 < t.2) := by
        rcases l3 with rfl | ⟨l3, -⟩
        · exact ⟨htg.1, fun h => h⟩
        · exact ⟨by omega, fun _ => l3⟩
      have hy12 := (k1.good y hy).1
      rcases g3 u hu hup with rfl | hur
      · exact ⟨y, by simp, hstart.1, Nat.le_trans hug.1 hend, fun h => ⟨hstart.2 h, by omega⟩⟩
      · have hne : u ≠ t := by
          rintro rfl
          have := hms.nodup.sublist g2
          exact (List.nodup_cons.1 this).1 hur
        have hkey := (List.pairwise_cons.1 (hms.desc.sublist g2)).1 u hur
        rw [keyLe_iff] at hkey
        rcases hms.apart u hu t ht hne with h | h
        · obtain ⟨z, hz, hz2⟩ := hP hur (by omega) (fun o ho => by
            have := (k2 o (h4.subset (by simp [ho]))).2.1
            omega)
          exact ⟨z, by simp [hz], hz2⟩
        · -- u is empty and at the end of t
          have hu1 := hug.1
          exact ⟨y, by simp, by omega, by omega, fun h => by omega⟩

/-- C57: reversed_re_finditer raises nothing and ends. `revLoop` is the loop with a bound on its number of
turns; whatever larger bound it is given, the result is the same. -/
theorem C57_terminates {M : Matcher} (hM : M.Lawful) :
    ∃ ms ys bound, sortedMatches M = .ok ms ∧ reversedFinditer M = .ok ys ∧
      ∀ n, bound ≤ n → revLoop M n ms [] M.len = .ok ys := by
  obtain ⟨ms, h1, h2, h0, h3⟩ := reversedFinditer_eq hM
  obtain ⟨ys, h4, -⟩ := revLoop_order hM (turns ms [] + 1) ms [] M.len (Nat.le_refl _) h2 ⟨by simp, by simp⟩ (by omega)
  refine ⟨ms, ys, turns ms [] + 1, h0, ?_, fun n hn => ?_⟩
  · rw [h3 0]; exact h4
  · obtain ⟨k, rfl⟩ := Nat.exists_eq_add_of_le hn
    rw [← h3 k, h3 0]; exact h4

/-- C57: everything that is yielded is a match of the pattern in the string. -/
theorem C57_true_matches {M : Matcher} (hM : M.Lawful) {ys : List Span} (h : reversedFinditer M = .ok ys) :
    ∀ y ∈ ys, y.1 ≤ y.2 ∧ y.2 ≤ M.len ∧ M.IsMatch y := by
  obtain ⟨ms, h1, h2, -, h3⟩ := reversedFinditer_eq hM
  obtain ⟨ys', h4, h5, -⟩ := revLoop_order hM (turns ms [] + 1) ms [] M.len (Nat.le_refl _) h2 ⟨by simp, by simp⟩ (by omega)
  have : ys' = ys := by
    have := (h3 0).symm.trans h
    rw [Nat.add_zero, h4] at this
    exact Except.ok.inj this
  subst this
  exact fun y hy => (h5 y hy).1

/-- C57: the matches do not overlap, and move leftwards: each one ends at or before the start of every one
that was yielded before. -/
theorem C57_disjoint {M : Matcher} (hM : M.Lawful) {ys : List Span} (h : reversedFinditer M = .ok ys) :
    ∀ i j (hij : i < j) (hj : j < ys.length), (ys[j]).2 ≤ (ys[i]).1 := by
  obtain ⟨ms, h1, h2, -, h3⟩ := reversedFinditer_eq hM
  obtain ⟨ys', h4, -, h5⟩ := revLoop_order hM (turns ms [] + 1) ms [] M.len (Nat.le_refl _) h2 ⟨by simp, by simp⟩ (by omega)
  have : ys' = ys := by
    have := (h3 0).symm.trans h
    rw [Nat.add_zero, h4] at this
    exact Except.ok.inj this
  subst this
  intro i j hij hj
  exact List.pairwise_iff_getElem.1 h5 i j (by omega) hj hij

/-- C57: every match that finditer finds is touched by one that is yielded, and if it isn't empty it overlaps
with one: no part of the string with a match is passed over. -/
theorem C57_complete {M : Matcher} (hM : M.Lawful) {ys : List Span} (h : reversedFinditer M = .ok ys) :
    ∀ t ∈ finditer M, ∃ y ∈ ys, y.1 ≤ t.2 ∧ t.1 ≤ y.2 ∧ (t.1 < t.2 → y.1 < t.2 ∧ t.1 < y.2) := by
  intro t ht
  obtain ⟨ms, h1, h2, -, h3⟩ := reversedFinditer_eq hM
  obtain ⟨ys', h4, h5⟩ := revLoop_complete hM t (turns ms [] + 1) ms [] M.len (Nat.le_refl _) h2 ⟨by simp, by simp⟩ (by omega)
  have : ys' = ys := by
    have := (h3 0).symm.trans h
    rw [Nat.add_zero, h4] at this
    exact Except.ok.inj this
  subst this
  exact h5 (h1.symm.subset ((doctored_spec hM).2.2.1 t ht)) ((finditer_spec hM).1 t ht).2.1 (by simp)

/-- C57: nothing is yielded only if finditer finds nothing. -/
theorem C57_nothing {M : Matcher} (hM : M.Lawful) : reversedFinditer M = .ok [] ↔ finditer M = [] := by
  constructor
  · intro h
    cases hf : finditer M with
    | nil => rfl
    | cons t l =>
      obtain ⟨y, hy, -⟩ := C57_complete hM h t (by rw [hf]; simp)
      simp at hy
  · intro h; unfold reversedFinditer; simp [h]

/-- C94: if the pattern matches no empty string then the matches move strictly leftwards, so that none
is yielded twice. (For patterns that match the empty string see `C94_strict_but_for_empty` and `C94_not_strict`.) -/
theorem C94_strict {M : Matcher} (hM : M.Lawful) (hpos : ∀ p q, M.at_ p q ≠ some p)
    {ys : List Span} (h : reversedFinditer M = .ok ys) :
    ∀ i j (hij : i < j) (hj : j < ys.length), (ys[j]).1 < (ys[i]).1 ∧ (ys[j]).2 < (ys[i]).2 := by
  intro i j hij hj
  have h1 := C57_disjoint hM h i j hij hj
  have key : ∀ y ∈ ys, y.1 < y.2 := by
    intro y hy
    obtain ⟨g1, g2, g3⟩ := C57_true_matches hM h y hy
    rcases g3 with ⟨q, -, hq⟩ | hq
    · have : y.1 ≠ y.2 := by intro he; exact hpos y.1 q (by rw [hq, ← he])
      omega
    · exact (hM.adv_lt _ _ hq).1
  have h2 := key ys[i] (List.getElem_mem _)
  have h3 := key ys[j] (List.getElem_mem _)
  omega

/-! ### Examples -/

/-- A pattern that is one text or another, the first one preferred (`ab|bc|`), as a matcher for `s`. -/
def altMatcher (alts : List (List Char)) (s : List Char) : Matcher where
  len := s.length
  at_ p q := if p ≤ q then (alts.find? (fun w => w.isPrefixOf ((s.take q).drop p))).map (fun w => p + w.length) else none
  adv p := (alts.find? (fun w => w ≠ [] ∧ w.isPrefixOf (s.drop p))).map (fun w => p + w.length)

theorem altMatcher_lawful (alts : List (List Char)) (s : List Char) : (altMatcher alts s).Lawful := by
  constructor
  · intro p q e h
    unfold altMatcher at h
    dsimp only at h
    split at h
    · cases hf : alts.find? (fun w => w.isPrefixOf ((s.take q).drop p)) with
      | none => rw [hf] at h; simp at h
      | some w =>
        rw [hf] at h
        have := List.find?_some hf
        have := (List.isPrefixOf_iff_prefix.1 this).length_le
        simp at h this
        omega
    · simp at h
  · intro p e h
    unfold altMatcher at h
    dsimp only at h
    cases hf : alts.find? (fun w => w ≠ [] ∧ w.isPrefixOf (s.drop p)) with
    | none => rw [hf] at h; simp at h
    | some w =>
      rw [hf] at h
      have hw := List.find?_some hf
      simp at hw
      have := hw.2.length_le
      have h0 : 0 < w.length := List.length_pos_iff.2 hw.1
      simp at h this
      have : (altMatcher alts s).len = s.length := rfl
      omega

/-- C94, a counterexample to strictness: the pattern `ab|bc|` on "abc" yields the same empty match twice. -/
theorem C94_not_strict : reversedFinditer (altMatcher ["ab".toList, "bc".toList, []] "abc".toList) =
    .ok [(3, 3), (1, 3), (0, 0), (0, 0)] := by decide +kernel

/-- C57, a counterexample to what one may expect: the first match yielded is not always the one that ends
last. With `ab|d|bcde` on "abcde" the match of "bcde" is not yielded, but "d" is. -/
theorem C57_not_rightmost : (altMatcher ["ab".toList, "d".toList, "bcde".toList] "abcde".toList).at_ 1 5 = some 5 ∧
    reversedFinditer (altMatcher ["ab".toList, "d".toList, "bcde".toList] "abcde".toList) = .ok [(3, 4), (0, 2)] := by
  decide +kernel

/-- An ordinary case: going from the right, a run is cut differently. -/
example : finditer (altMatcher ["aa".toList] "baaab".toList) = [(1, 3)] ∧
    reversedFinditer (altMatcher ["aa".toList] "baaab".toList) = .ok [(2, 4)] := by decide +kernel

/-- The hypotheses of `C94_strict` hold of a pattern with several matches. -/
example : (altMatcher ["aa".toList] "aaaaab".toList).Lawful ∧
    (∀ p q, (altMatcher ["aa".toList] "aaaaab".toList).at_ p q ≠ some p) ∧
    reversedFinditer (altMatcher ["aa".toList] "aaaaab".toList) = .ok [(3, 5), (1, 3)] := by
  refine ⟨altMatcher_lawful _ _, ?_, by decide +kernel⟩
  intro p q h
  unfold altMatcher at h
  dsimp only at h
  split at h
  · cases hf : ["aa".toList].find? (fun w => w.isPrefixOf (("aaaaab".toList.take q).drop p)) with
    | none => rw [hf] at h; simp at h
    | some w =>
      rw [hf] at h
      have := List.mem_of_find?_eq_some hf
      simp at this
      subst this
      simp at h
  · simp at h

end Big.RePart
