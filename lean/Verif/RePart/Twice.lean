import Verif.RePart.Props57
/-! # C94: how often reversed_re_finditer yields a match -/
namespace Big.RePart

theorem countP_le_one {l : List Span} (hn : l.Nodup) {q : Span → Bool} (h : ∀ a ∈ l, ∀ b ∈ l, q a → q b → a = b) : l.countP q ≤ 1 := by
  induction l with
  | nil => simp
  | cons a l ih =>
    obtain ⟨h1, h2⟩ := List.nodup_cons.1 hn
    have := ih h2 (fun a ha b hb => h a (by simp [ha]) b (by simp [hb]))
    by_cases hq : q a = true
    · have h0 : l.countP q = 0 := by
        rw [List.countP_eq_zero]
        intro b hb hqb
        have := h a (by simp) b (by simp [hb]) hq hqb
        exact h1 (this ▸ hb)
      rw [List.countP_cons_of_pos hq]; omega
    · rw [List.countP_cons_of_neg hq]; omega

/-- How often a match from `p` can still come from `matches`: from one that has `p` in it, and from an empty one. -/
def fromMs (p : Nat) (ms : List Span) : Nat :=
  ms.countP (fun t => decide (t.1 ≤ p ∧ p < t.2)) + ms.countP (fun t => decide (t = (p, p)))

theorem fromMs_cons (p : Nat) (t : Span) (ms : List Span) : fromMs p (t :: ms) =
    fromMs p ms + (if (t.1 ≤ p ∧ p < t.2) ∨ t = (p, p) then 1 else 0) := by
  unfold fromMs
  rw [List.countP_cons, List.countP_cons]
  by_cases h1 : t = (p, p)
  · subst h1; simp; omega
  · by_cases h2 : t.1 ≤ p ∧ p < t.2
    · simp [h1, h2]; omega
    · simp [h1, h2]

theorem fromMs_sublist {p : Nat} {l l' : List Span} (h : l.Sublist l') : fromMs p l ≤ fromMs p l' := by
  unfold fromMs
  have := h.countP_le (p := fun t => decide (t.1 ≤ p ∧ p < t.2))
  have := h.countP_le (p := fun t => decide (t = (p, p)))
  omega

theorem fromMs_le {M : Matcher} {ms : List Span} (h : MsInv M ms) (p : Nat) : fromMs p ms ≤ 2 := by
  unfold fromMs
  have h1 := countP_le_one h.nodup (q := fun t => decide (t.1 ≤ p ∧ p < t.2)) (by
    intro a ha b hb h1 h2
    simp at h1 h2
    apply Classical.byContradiction
    intro hne
    rcases h.apart a ha b hb hne with h | h <;> omega)
  have h2 := countP_le_one h.nodup (q := fun t => decide (t = (p, p))) (by
    intro a ha b hb h1 h2
    simp at h1 h2
    rw [h1, h2])
  exact Nat.add_le_add h1 h2

theorem starts_count {l : List Span} (h : (l.map Prod.fst).Nodup) (p : Nat) : l.countP (fun t => decide (t.1 = p)) ≤ 1 := by
  have := List.nodup_iff_count.1 h p
  rw [List.count, List.countP_map] at this
  refine Nat.le_trans (Nat.le_of_eq ?_) this
  congr 1

theorem starts_sublist {l l' : List Span} (h : (l.map Prod.fst).Sublist (l'.map Prod.fst)) (p : Nat) :
    l.countP (fun t => decide (t.1 = p)) ≤ l'.countP (fun t => decide (t.1 = p)) := by
  have := h.countP_le (p := fun x => decide (x = p))
  rw [List.countP_map, List.countP_map] at this
  exact this

theorem revLoop_count {M : Matcher} (hM : M.Lawful) (p : Nat) : ∀ fuel ms over prev, prev ≤ M.len → MsInv M ms → OverInv M over →
    turns ms over < fuel → ∃ ys, revLoop M fuel ms over prev = .ok ys ∧
      ys.countP (fun t => decide (t.1 = p)) ≤ over.countP (fun t => decide (t.1 = p)) + fromMs p ms := by
  refine revLoop_ind hM ?_ ?_
  · intros; simp
  · intro ms over prev over1 ms1 y rest ys hp hms hov hT h1 h2 h3 h4 h5 hP
    have hc : (y :: ys).countP (fun t => decide (t.1 = p)) ≤ over1.countP (fun t => decide (t.1 = p)) + fromMs p ms1 := by
      rw [← h4.countP_eq, List.countP_cons, List.countP_cons]
      omega
    refine Nat.le_trans hc ?_
    cases hT with
    | keep hne =>
      have := starts_sublist (truncate_spec hM hp hov).2.2 p
      omega
    | fresh t _ hnil hpv =>
      obtain ⟨g1, g2, g3⟩ := popViable_some hpv
      have htg := hms.good t (g2.subset (by simp))
      obtain ⟨k1, k2, -⟩ := scan_spec hM hp htg g1
      have hs := fromMs_sublist (p := p) g2
      rw [fromMs_cons] at hs
      have hle := starts_count k1.starts p
      by_cases h0 : (scan M prev t).countP (fun t => decide (t.1 = p)) = 0
      · omega
      · have : ∃ o ∈ scan M prev t, o.1 = p := by
          apply Classical.byContradiction
          intro h
          refine h0 (List.countP_eq_zero.2 ?_)
          intro o ho hq
          exact h ⟨o, ho, by simpa using hq⟩
        obtain ⟨o, ho, ho1⟩ := this
        obtain ⟨l1, l2, l3⟩ := k2 o ho
        rw [if_pos] at hs
        · omega
        · rcases l3 with rfl | ⟨l3, -⟩
          · have := htg.1
            by_cases h : o.1 = o.2
            · right; ext <;> simp <;> omega
            · left; omega
          · left; omega

/-- C94: no more than two of the matches yielded start at the same place; so no match is yielded more than twice. -/
theorem C94_at_most_twice {M : Matcher} (hM : M.Lawful) {ys : List Span} (h : reversedFinditer M = .ok ys) (p : Nat) :
    (ys.filter (fun t => t.1 = p)).length ≤ 2 := by
  obtain ⟨ms, h1, h2, -, h3⟩ := reversedFinditer_eq hM
  obtain ⟨ys', h4, h5⟩ := revLoop_count hM p (turns ms [] + 1) ms [] M.len (Nat.le_refl _) h2 ⟨by simp, by simp⟩ (by omega)
  have : ys' = ys := by
    have := (h3 0).symm.trans h
    rw [Nat.add_zero, h4] at this
    exact Except.ok.inj this
  subst this
  have := fromMs_le h2 p
  rw [← List.countP_eq_length_filter]
  simp at h5 ⊢
  omega

/-- C94: the matches move strictly leftwards, in where they start and in where they end, but for an empty match at the
start of one yielded before. -/
theorem C94_strict_but_for_empty {M : Matcher} (hM : M.Lawful) {ys : List Span} (h : reversedFinditer M = .ok ys)
    (i j : Nat) (hij : i < j) (hj : j < ys.length) :
    ((ys[j]).1 < (ys[i]).1 ∧ ((ys[j]).2 < (ys[i]).2 ∨ (ys[i]).1 = (ys[i]).2)) ∨ ys[j] = ((ys[i]).1, (ys[i]).1) := by
  have hd := C57_disjoint hM h i j hij hj
  have h1 := (C57_true_matches hM h ys[i] (List.getElem_mem _)).1
  have h2 := (C57_true_matches hM h ys[j] (List.getElem_mem _)).1
  by_cases hs : (ys[j]).1 < (ys[i]).1
  · left
    refine ⟨hs, ?_⟩
    by_cases he : (ys[i]).1 = (ys[i]).2
    · exact .inr he
    · left; omega
  · right
    ext <;> simp <;> omega

/-- C94: so a match is yielded twice only if it is empty. -/
theorem C94_twice_only_empty {M : Matcher} (hM : M.Lawful) {ys : List Span} (h : reversedFinditer M = .ok ys)
    (i j : Nat) (hij : i < j) (hj : j < ys.length) (he : ys[i] = ys[j]) : (ys[i]).1 = (ys[i]).2 := by
  have hd := C57_disjoint hM h i j hij hj
  have h1 := (C57_true_matches hM h ys[i] (List.getElem_mem _)).1
  rw [← he] at hd
  omega

/-- It happens: with `ab|bc|` on "abc" two start at 0. -/
example : ∃ ys, reversedFinditer (altMatcher ["ab".toList, "bc".toList, []] "abc".toList) = .ok ys ∧
    (ys.filter (fun t => t.1 = 0)).length = 2 := ⟨_, C94_not_strict, by decide⟩

end Big.RePart
