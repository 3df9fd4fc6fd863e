import Verif.RePart.Forward
/-! # Lemmas on reversed_re_finditer -/
namespace Big.RePart

/-- A span that is one of `M`'s, within the string. -/
def Good (M : Matcher) (t : Span) : Prop := t.1 ≤ t.2 ∧ t.2 ≤ M.len ∧ M.IsMatch t

theorem good_at {M : Matcher} (hM : M.Lawful) {p q e : Nat} (hq : q ≤ M.len) (h : M.at_ p q = some e) : Good M (p, e) := by
  have := hM.at_le _ _ _ h
  exact ⟨this.1, by omega, .inl ⟨q, hq, h⟩⟩

/-! ### doctor -/

theorem doctor_mem {M : Matcher} : ∀ (ms : List Span) (z : List Nat) (t : Span), t ∈ doctor M z ms →
    t ∈ ms ∨ (t.1 = t.2 ∧ (M.at_ t.1 t.1).isSome ∧ t.1 ∉ z ∧ ∃ e, (t.1, e) ∈ ms) := by
  intro ms
  induction ms with
  | nil => intro z t ht; simp [doctor] at ht
  | cons m ms ih =>
    intro z t ht
    obtain ⟨start, stop⟩ := m
    rw [doctor] at ht
    split at ht
    · rcases List.mem_cons.1 ht with rfl | ht
      · exact .inl (by simp)
      · rcases ih _ _ ht with h | ⟨h1, h2, h3, e, h4⟩
        · exact .inl (by simp [h])
        · exact .inr ⟨h1, h2, h3, e, by simp [h4]⟩
    · rename_i hz
      split at ht
      · rcases List.mem_cons.1 ht with rfl | ht
        · exact .inl (by simp)
        · rcases ih _ _ ht with h | ⟨h1, h2, h3, e, h4⟩
          · exact .inl (by simp [h])
          · exact .inr ⟨h1, h2, fun h => h3 (by simp [h]), e, by simp [h4]⟩
      · rcases List.mem_append.1 ht with ht | ht
        · split at ht
          · rename_i hs
            simp at ht; subst ht
            exact .inr ⟨rfl, hs, hz, stop, by simp⟩
          · simp at ht
        · rcases List.mem_cons.1 ht with rfl | ht
          · exact .inl (by simp)
          · rcases ih _ _ ht with h | ⟨h1, h2, h3, e, h4⟩
            · exact .inl (by simp [h])
            · exact .inr ⟨h1, h2, fun h => h3 (by simp [h]), e, by simp [h4]⟩

theorem doctor_subset {M : Matcher} : ∀ (ms : List Span) (z : List Nat) (t : Span), t ∈ ms → t ∈ doctor M z ms := by
  intro ms
  induction ms with
  | nil => intro z t ht; simp at ht
  | cons m ms ih =>
    intro z t ht
    obtain ⟨start, stop⟩ := m
    rw [doctor]
    split
    · rcases List.mem_cons.1 ht with rfl | ht
      · simp
      · exact List.mem_cons_of_mem _ (ih _ _ ht)
    · split
      · rcases List.mem_cons.1 ht with rfl | ht
        · simp
        · exact List.mem_cons_of_mem _ (ih _ _ ht)
      · refine List.mem_append_right _ ?_
        rcases List.mem_cons.1 ht with rfl | ht
        · simp
        · exact List.mem_cons_of_mem _ (ih _ _ ht)

theorem doctor_order {M : Matcher} : ∀ (ms : List Span) (z : List Nat), InOrder ms → (∀ t ∈ ms, t.1 ≤ t.2) →
    InOrder (doctor M z ms) := by
  intro ms
  induction ms with
  | nil => intro z _ _; exact .nil
  | cons m ms ih =>
    intro z ho hle
    obtain ⟨start, stop⟩ := m
    have h1 := (List.pairwise_cons.1 ho).1
    have h2 := (List.pairwise_cons.1 ho).2
    have hle' : ∀ t ∈ ms, t.1 ≤ t.2 := fun t ht => hle t (by simp [ht])
    have hm : start ≤ stop := hle (start, stop) (by simp)
    -- the head comes before all that follows
    have key : ∀ z', start ∈ z' → ∀ t ∈ doctor M z' ms, stop ≤ t.1 ∧ (start, stop) ≠ t := by
      intro z' hz t ht
      rcases doctor_mem ms z' t ht with h | ⟨g1, g2, g3, e, g4⟩
      · exact h1 t h
      · refine ⟨(h1 _ g4).1, ?_⟩
        rintro rfl
        exact g3 hz
    rw [doctor]
    split
    · rename_i hz
      exact List.Pairwise.cons (key z hz) (ih z h2 hle')
    · split
      · exact List.Pairwise.cons (key _ (by simp)) (ih _ h2 hle')
      · rename_i hne
        have hc : InOrder ((start, stop) :: doctor M (start :: z) ms) := List.Pairwise.cons (key _ (by simp)) (ih _ h2 hle')
        split
        · refine List.Pairwise.cons ?_ hc
          intro t ht
          rcases List.mem_cons.1 ht with rfl | ht
          · exact ⟨Nat.le_refl _, by simpa using hne⟩
          · have := (key _ (by simp) t ht).1
            refine ⟨by dsimp only; omega, ?_⟩
            rintro rfl
            dsimp only at this
            omega
        · exact hc

theorem InOrder.nodup {ms : List Span} (h : InOrder ms) : ms.Nodup := h.imp (fun h => h.2)

/-! ### sort -/

/-- Sorted with the greatest element first. -/
def Desc (l : List Span) : Prop := l.Pairwise (fun a b => keyLe b a = true)

theorem keyLe_iff (a b : Span) : keyLe a b = true ↔ a.2 < b.2 ∨ (a.2 = b.2 ∧ b.1 ≤ a.1) := by
  unfold keyLe; simp

theorem insertDesc_perm (t : Span) : ∀ l, (insertDesc t l).Perm (t :: l) := by
  intro l
  induction l with
  | nil => exact List.Perm.refl _
  | cons u l ih =>
    rw [insertDesc]
    split
    · exact List.Perm.refl _
    · exact (ih.cons u).trans (List.Perm.swap t u l)

theorem insertDesc_desc (t : Span) : ∀ l, Desc l → Desc (insertDesc t l) := by
  intro l
  induction l with
  | nil => intro _; exact List.pairwise_singleton _ _
  | cons u l ih =>
    intro h
    obtain ⟨h1, h2⟩ := List.pairwise_cons.1 h
    rw [insertDesc]
    split
    · rename_i hk
      refine List.Pairwise.cons ?_ h
      intro b hb
      rcases List.mem_cons.1 hb with rfl | hb
      · exact hk
      · have := h1 b hb
        rw [keyLe_iff] at *; omega
    · rename_i hk
      refine List.Pairwise.cons ?_ (ih h2)
      intro b hb
      rcases List.mem_cons.1 ((insertDesc_perm t l).subset hb) with rfl | hb
      · rw [keyLe_iff] at *; omega
      · exact h1 b hb

theorem sortDesc_ok {l : List Span} (h : l.Nodup) : ∃ l', sortDesc l = .ok l' ∧ l'.Perm l ∧ Desc l' := by
  refine ⟨_, by rw [sortDesc, if_pos h], ?_, ?_⟩
  · clear h
    induction l with
    | nil => exact List.Perm.refl _
    | cons a l ih => exact (insertDesc_perm a _).trans (ih.cons a)
  · clear h
    induction l with
    | nil => exact .nil
    | cons a l ih => exact insertDesc_desc a _ ih

/-! ### The loop -/

/-- What holds of `overlapping_matches`. -/
structure OverInv (M : Matcher) (over : List Span) : Prop where
  good : ∀ t ∈ over, Good M t
  starts : (over.map Prod.fst).Nodup

/-- What holds of `matches`. -/
structure MsInv (M : Matcher) (ms : List Span) : Prop where
  good : ∀ t ∈ ms, Good M t
  apart : ∀ a ∈ ms, ∀ b ∈ ms, a ≠ b → a.2 ≤ b.1 ∨ b.2 ≤ a.1
  desc : Desc ms
  nodup : ms.Nodup

theorem MsInv.sublist {M : Matcher} {ms ms' : List Span} (h : MsInv M ms) (hs : ms'.Sublist ms) : MsInv M ms' :=
  ⟨fun t ht => h.good t (hs.subset ht), fun a ha b hb => h.apart a (hs.subset ha) b (hs.subset hb),
    h.desc.sublist hs, h.nodup.sublist hs⟩

theorem truncate_spec {M : Matcher} (hM : M.Lawful) {prev : Nat} (hp : prev ≤ M.len) {over : List Span} (h : OverInv M over) :
    OverInv M (truncate M prev over) ∧ (∀ t ∈ truncate M prev over, t.2 ≤ prev) ∧
    ((truncate M prev over).map Prod.fst).Sublist (over.map Prod.fst) := by
  have hsub : ((truncate M prev over).map Prod.fst).Sublist (over.map Prod.fst) := by
    clear h
    induction over with
    | nil => exact .slnil
    | cons o over ih =>
      unfold truncate at ih ⊢
      rw [List.filterMap_cons]
      split
      · exact ih.cons _
      · rename_i b hb
        have : b.1 = o.1 := by
          split at hb
          · simp at hb
          · split at hb
            · simp at hb; rw [hb]
            · cases ha : M.at_ o.1 prev with
              | none => rw [ha] at hb; simp at hb
              | some e => rw [ha] at hb; simp at hb; rw [← hb]
        rw [List.map_cons, List.map_cons, this]
        exact ih.cons₂ _
  have hmem : ∀ t ∈ truncate M prev over, Good M t ∧ t.2 ≤ prev := by
    intro t ht
    unfold truncate at ht
    obtain ⟨o, ho, hto⟩ := List.mem_filterMap.1 ht
    split at hto
    · simp at hto
    · split at hto
      · rename_i h2
        simp at hto; subst hto
        exact ⟨h.good o ho, h2⟩
      · cases ha : M.at_ o.1 prev with
        | none => rw [ha] at hto; simp at hto
        | some e =>
          rw [ha] at hto; simp at hto; subst hto
          exact ⟨good_at hM hp ha, (hM.at_le _ _ _ ha).2⟩
  exact ⟨⟨fun t ht => (hmem t ht).1, h.starts.sublist hsub⟩, fun t ht => (hmem t ht).2, hsub⟩

theorem truncate_length (M : Matcher) (prev : Nat) (over : List Span) : (truncate M prev over).length ≤ over.length :=
  List.length_filterMap_le _ _

theorem popViable_some {prev : Nat} : ∀ {ms : List Span} {t : Span} {rest : List Span}, popViable prev ms = some (t, rest) →
    t.2 ≤ prev ∧ (t :: rest).Sublist ms ∧ ∀ u ∈ ms, u.2 ≤ prev → u = t ∨ u ∈ rest := by
  intro ms
  induction ms with
  | nil => intro t rest h; simp [popViable] at h
  | cons m ms ih =>
    intro t rest h
    rw [popViable] at h
    split at h
    · rename_i hm
      cases h
      exact ⟨hm, List.Sublist.refl _, fun u hu _ => List.mem_cons.1 hu⟩
    · rename_i hm
      obtain ⟨h1, h2, h3⟩ := ih h
      refine ⟨h1, h2.cons _, fun u hu hup => ?_⟩
      rcases List.mem_cons.1 hu with rfl | hu
      · exact absurd hup hm
      · exact h3 u hu hup

theorem popViable_none {prev : Nat} : ∀ {ms : List Span}, popViable prev ms = none → ∀ u ∈ ms, ¬ u.2 ≤ prev := by
  intro ms
  induction ms with
  | nil => intro _ u hu; simp at hu
  | cons m ms ih =>
    intro h u hu
    rw [popViable] at h
    split at h
    · simp at h
    · rename_i hm
      rcases List.mem_cons.1 hu with rfl | hu
      · exact hm
      · exact ih h u hu

theorem scan_spec {M : Matcher} (hM : M.Lawful) {prev : Nat} (hp : prev ≤ M.len) {t : Span} (ht : Good M t) (h2 : t.2 ≤ prev) :
    OverInv M (scan M prev t) ∧ (∀ o ∈ scan M prev t, o.2 ≤ prev ∧ t.1 ≤ o.1 ∧ (o = t ∨ (o.1 < t.2 ∧ M.at_ o.1 prev = some o.2))) ∧
    (scan M prev t).length ≤ max 1 (t.2 - t.1) := by
  have hmem : ∀ o ∈ (List.range' (t.1 + 1) (min t.2 prev - (t.1 + 1))).filterMap (fun pos => (M.at_ pos prev).map (fun e => (pos, e))),
      t.1 < o.1 ∧ o.1 < t.2 ∧ M.at_ o.1 prev = some o.2 := by
    intro o ho
    obtain ⟨pos, hpos, h⟩ := List.mem_filterMap.1 ho
    rw [List.mem_range'_1] at hpos
    cases ha : M.at_ pos prev with
    | none => rw [ha] at h; simp at h
    | some e =>
      rw [ha] at h; simp at h; subst h
      exact ⟨by dsimp only; omega, by dsimp only; omega, ha⟩
  refine ⟨⟨?_, ?_⟩, ?_, ?_⟩
  · intro o ho
    rcases List.mem_cons.1 ho with rfl | ho
    · exact ht
    · exact good_at hM hp (hmem o ho).2.2
  · unfold scan
    rw [List.map_cons]
    refine List.nodup_cons.2 ⟨?_, ?_⟩
    · intro hin
      obtain ⟨o, ho, he⟩ := List.mem_map.1 hin
      have := (hmem o ho).1
      omega
    · generalize (min t.2 prev - (t.1 + 1)) = n
      generalize t.1 + 1 = a
      induction n generalizing a with
      | zero => simp
      | succ n ih =>
        rw [List.range'_succ, List.filterMap_cons]
        split
        · exact ih _
        · rename_i b hb
          have hb1 : b.1 = a := by
            cases ha : M.at_ a prev with
            | none => rw [ha] at hb; simp at hb
            | some e => rw [ha] at hb; simp at hb; rw [← hb]
          rw [List.map_cons]
          refine List.nodup_cons.2 ⟨?_, ih _⟩
          intro hin
          obtain ⟨o, ho, he⟩ := List.mem_map.1 hin
          obtain ⟨pos, hpos, h⟩ := List.mem_filterMap.1 ho
          rw [List.mem_range'_1] at hpos
          cases ha : M.at_ pos prev with
          | none => rw [ha] at h; simp at h
          | some e => rw [ha] at h; simp at h; subst h; dsimp only at he; omega
  · intro o ho
    rcases List.mem_cons.1 ho with rfl | ho
    · exact ⟨h2, Nat.le_refl _, .inl rfl⟩
    · obtain ⟨g1, g2, g3⟩ := hmem o ho
      exact ⟨(hM.at_le _ _ _ g3).2, by omega, .inr ⟨g2, g3⟩⟩
  · unfold scan
    rw [List.length_cons]
    have := List.length_filterMap_le (fun pos => (M.at_ pos prev).map (fun e => ((pos, e) : Span)))
      (List.range' (t.1 + 1) (min t.2 prev - (t.1 + 1)))
    rw [List.length_range'] at this
    omega

theorem nodup_of_starts : ∀ {l : List Span}, (l.map Prod.fst).Nodup → l.Nodup := by
  intro l
  induction l with
  | nil => intro _; exact .nil
  | cons a l ih =>
    intro h
    rw [List.map_cons] at h
    obtain ⟨h1, h2⟩ := List.nodup_cons.1 h
    exact List.nodup_cons.2 ⟨fun hm => h1 (List.mem_map.2 ⟨a, hm, rfl⟩), ih h2⟩

theorem sortDesc_nil : sortDesc [] = .ok [] := by
  obtain ⟨l, h1, h2, -⟩ := sortDesc_ok (l := []) .nil
  rw [h1, h2.eq_nil]

/-- What one turn of the loop does: `over1` is what overlapping_matches is before it is sorted, and `ms1` what is
left of matches. -/
inductive Turn (M : Matcher) (prev : Nat) (ms over : List Span) : List Span → List Span → Prop
  | keep (h : truncate M prev over ≠ []) : Turn M prev ms over (truncate M prev over) ms
  | fresh (t : Span) (rest : List Span) (h : truncate M prev over = []) (hp : popViable prev ms = some (t, rest)) :
      Turn M prev ms over (scan M prev t) rest

/-- A turn: either there is nothing left and the loop ends, or the greatest of `over1` is yielded. -/
theorem revLoop_turn {M : Matcher} (hM : M.Lawful) {prev : Nat} (hp : prev ≤ M.len) {ms over : List Span} (hms : MsInv M ms)
    (hov : OverInv M over) :
    ((truncate M prev over = [] ∧ popViable prev ms = none) ∧ ∀ fuel, revLoop M (fuel + 1) ms over prev = .ok []) ∨
    ∃ over1 ms1 y rest, Turn M prev ms over over1 ms1 ∧ OverInv M over1 ∧ (∀ o ∈ over1, o.2 ≤ prev) ∧ MsInv M ms1 ∧
      (y :: rest).Perm over1 ∧ Desc (y :: rest) ∧ turns ms1 rest < turns ms over ∧
      ∀ fuel, revLoop M (fuel + 1) ms over prev = (revLoop M fuel ms1 rest y.1).map (y :: ·) := by
  obtain ⟨ht1, ht2, ht3⟩ := truncate_spec hM hp hov
  have finish : ∀ (over1 ms1 : List Span), Turn M prev ms over over1 ms1 → OverInv M over1 → over1 ≠ [] → (∀ o ∈ over1, o.2 ≤ prev) →
      MsInv M ms1 → (∀ n, n < over1.length → ∀ rest : List Span, rest.length = n → turns ms1 rest < turns ms over) →
      (∀ fuel, revLoop M (fuel + 1) ms over prev = match sortDesc over1 with
        | .error e => .error e
        | .ok [] => .ok []
        | .ok (t :: over) => match revLoop M fuel ms1 over t.1 with
          | .error e => .error e
          | .ok ys => .ok (t :: ys)) →
      ∃ over1 ms1 y rest, Turn M prev ms over over1 ms1 ∧ OverInv M over1 ∧ (∀ o ∈ over1, o.2 ≤ prev) ∧ MsInv M ms1 ∧
      (y :: rest).Perm over1 ∧ Desc (y :: rest) ∧ turns ms1 rest < turns ms over ∧
      ∀ fuel, revLoop M (fuel + 1) ms over prev = (revLoop M fuel ms1 rest y.1).map (y :: ·) := by
    intro over1 ms1 hT h1 hne h2 h3 h4 h5
    have hnd : over1.Nodup := nodup_of_starts h1.starts
    obtain ⟨l, hl, hperm, hdesc⟩ := sortDesc_ok hnd
    cases l with
    | nil => exact absurd hperm.symm.eq_nil hne
    | cons y rest =>
      refine ⟨over1, ms1, y, rest, hT, h1, h2, h3, hperm, hdesc, h4 rest.length ?_ rest rfl, ?_⟩
      · rw [← hperm.length_eq]; simp
      · intro fuel
        rw [h5, hl]
        dsimp only
        cases revLoop M fuel ms1 rest y.1 <;> rfl
  by_cases hne : truncate M prev over = []
  · cases hpv : popViable prev ms with
    | none =>
      left
      refine ⟨⟨hne, rfl⟩, fun fuel => ?_⟩
      rw [revLoop]
      simp only [hne, if_true, hpv, sortDesc_nil]
    | some p =>
      obtain ⟨t, rest⟩ := p
      right
      obtain ⟨g1, g2, g3⟩ := popViable_some hpv
      have htg : Good M t := hms.good t (g2.subset (by simp))
      obtain ⟨k1, k2, k3⟩ := scan_spec hM hp htg g1
      refine finish (scan M prev t) rest (.fresh t rest hne hpv) k1 (by simp [scan]) (fun o ho => (k2 o ho).1)
        (hms.sublist ((List.sublist_cons_self _ _).trans g2)) ?_ ?_
      · intro n hn l hl
        unfold turns
        have : (rest.map (fun t => t.2 - t.1 + 1)).sum + (t.2 - t.1 + 1) ≤ (ms.map (fun t => t.2 - t.1 + 1)).sum := by
          have hsum : ∀ {a b : List Span}, a.Sublist b → (a.map (fun t => t.2 - t.1 + 1)).sum ≤ (b.map (fun t => t.2 - t.1 + 1)).sum := by
            intro a b hab
            induction hab with
            | slnil => simp
            | cons x _ ih => simp; omega
            | cons_cons x _ ih => simp; omega
          have := hsum g2
          simp at this; omega
        have htg1 := htg.1
        omega
      · intro fuel
        rw [revLoop]
        have htp : t.1 ≤ prev := Nat.le_trans htg.1 g1
        simp only [hne, if_true, hpv, if_pos htp]
        rfl
  · right
    refine finish _ ms (.keep hne) ht1 hne ht2 hms ?_ ?_
    · intro n hn l hl
      unfold turns
      have := truncate_length M prev over
      omega
    · intro fuel
      rw [revLoop]
      simp only [if_neg hne]
      rfl

/-- An induction principle for the loop, with enough turns. -/
theorem revLoop_ind {M : Matcher} (hM : M.Lawful) {P : List Span → List Span → Nat → List Span → Prop}
    (hstop : ∀ ms over prev, prev ≤ M.len → MsInv M ms → OverInv M over → truncate M prev over = [] → popViable prev ms = none →
      P ms over prev [])
    (hturn : ∀ ms over prev over1 ms1 y rest ys, prev ≤ M.len → MsInv M ms → OverInv M over → Turn M prev ms over over1 ms1 →
      OverInv M over1 → (∀ o ∈ over1, o.2 ≤ prev) → MsInv M ms1 → (y :: rest).Perm over1 → Desc (y :: rest) →
      P ms1 rest y.1 ys → P ms over prev (y :: ys)) :
    ∀ fuel ms over prev, prev ≤ M.len → MsInv M ms → OverInv M over → turns ms over < fuel →
      ∃ ys, revLoop M fuel ms over prev = .ok ys ∧ P ms over prev ys := by
  intro fuel
  induction fuel with
  | zero => intro ms over prev _ _ _ h; omega
  | succ fuel ih =>
    intro ms over prev hp hms hov hf
    rcases revLoop_turn hM hp hms hov with ⟨⟨h1, h2⟩, h3⟩ | ⟨over1, ms1, y, rest, hT, h1, h2, h3, h4, h5, h6, h7⟩
    · exact ⟨[], h3 fuel, hstop _ _ _ hp hms hov h1 h2⟩
    · have hy : y ∈ over1 := h4.subset (by simp)
      have hr : OverInv M rest := by
        have hperm := h4.map Prod.fst
        refine ⟨fun t ht => h1.good t (h4.subset (by simp [ht])), ?_⟩
        have := hperm.nodup_iff.2 h1.starts
        rw [List.map_cons] at this
        exact (List.nodup_cons.1 this).2
      have hyl : y.1 ≤ M.len := by
        have := h1.good y hy
        exact Nat.le_trans this.1 this.2.1
      obtain ⟨ys, g1, g2⟩ := ih ms1 rest y.1 hyl h3 hr (by omega)
      exact ⟨y :: ys, by rw [h7, g1]; rfl, hturn _ _ _ _ _ _ _ _ hp hms hov hT h1 h2 h3 h4 h5 g2⟩

/-- The bound on the number of turns is never reached. -/
theorem revLoop_enough {M : Matcher} (hM : M.Lawful) : ∀ (f g : Nat) (ms over : List Span) (prev : Nat), prev ≤ M.len → MsInv M ms → OverInv M over →
    turns ms over < f → turns ms over < g → revLoop M f ms over prev = revLoop M g ms over prev := by
  intro f
  induction f with
  | zero => intro g ms over prev _ _ _ h; omega
  | succ f ih =>
    intro g ms over prev hp hms hov hf hg
    cases g with
    | zero => omega
    | succ g =>
      rcases revLoop_turn hM hp hms hov with ⟨⟨h1, h2⟩, h3⟩ | ⟨over1, ms1, y, rest, hT, h1, h2, h3, h4, h5, h6, h7⟩
      · rw [h3, h3]
      · have hy : y ∈ over1 := h4.subset (by simp)
        have hr : OverInv M rest := by
          have hperm := h4.map Prod.fst
          refine ⟨fun t ht => h1.good t (h4.subset (by simp [ht])), ?_⟩
          have := hperm.nodup_iff.2 h1.starts
          rw [List.map_cons] at this
          exact (List.nodup_cons.1 this).2
        have hyl : y.1 ≤ M.len := by
          have := h1.good y hy
          exact Nat.le_trans this.1 this.2.1
        rw [h7, h7, ih g ms1 rest y.1 hyl h3 hr (by omega) (by omega)]

/-! ### reversed_re_finditer -/

/-- `matches` when the loop starts. -/
def doctored (M : Matcher) : List Span := if (M.at_ 0 0).isSome then doctor M [] (finditer M) else finditer M

theorem doctored_spec {M : Matcher} (hM : M.Lawful) : InOrder (doctored M) ∧ (∀ t ∈ doctored M, Good M t) ∧
    (∀ t ∈ finditer M, t ∈ doctored M) ∧ (∀ t ∈ doctored M, t.1 < t.2 → t ∈ finditer M) := by
  obtain ⟨h1, h2⟩ := finditer_spec hM
  unfold doctored
  split
  · refine ⟨doctor_order _ _ h2 (fun t ht => (h1 t ht).1), ?_, fun t ht => doctor_subset _ _ _ ht, ?_⟩
    · intro t ht
      rcases doctor_mem _ _ _ ht with h | ⟨g1, g2, g3, e, g4⟩
      · exact h1 t h
      · obtain ⟨a, b⟩ := t
        dsimp only at g1 g2 g4
        subst g1
        have := h1 _ g4
        dsimp only at this
        cases ha : M.at_ a a with
        | none => rw [ha] at g2; simp at g2
        | some x =>
          have hx := hM.at_le _ _ _ ha
          have : x = a := by omega
          subst this
          exact good_at hM (by omega) ha
    · intro t ht hlt
      rcases doctor_mem _ _ _ ht with h | ⟨g1, _⟩
      · exact h
      · omega
  · exact ⟨h2, h1, fun t ht => ht, fun t ht _ => ht⟩

/-- How the loop starts. -/
theorem reversedFinditer_eq {M : Matcher} (hM : M.Lawful) : ∃ ms, ms.Perm (doctored M) ∧ MsInv M ms ∧
    sortedMatches M = .ok ms ∧ ∀ k, reversedFinditer M = revLoop M (turns ms [] + 1 + k) ms [] M.len := by
  obtain ⟨h1, h2, h3, h4⟩ := doctored_spec hM
  obtain ⟨ms, g1, g2, g3⟩ := sortDesc_ok h1.nodup
  have hinv : MsInv M ms := by
    refine ⟨fun t ht => h2 t (g2.subset ht), ?_, g3, g2.nodup_iff.2 h1.nodup⟩
    have : ∀ (l : List Span), InOrder l → ∀ a ∈ l, ∀ b ∈ l, a ≠ b → a.2 ≤ b.1 ∨ b.2 ≤ a.1 := by
      intro l hl
      induction l with
      | nil => intro a ha; simp at ha
      | cons x l ih =>
        intro a ha b hb hab
        have hx := (List.pairwise_cons.1 hl).1
        rcases List.mem_cons.1 ha with ha | ha <;> rcases List.mem_cons.1 hb with hb | hb
        · exact absurd (ha.trans hb.symm) hab
        · exact .inl (ha ▸ (hx b hb).1)
        · exact .inr (hb ▸ (hx a ha).1)
        · exact ih (List.pairwise_cons.1 hl).2 a ha b hb hab
    intro a ha b hb hab
    exact this _ h1 a (g2.subset ha) b (g2.subset hb) hab
  have g1' : sortedMatches M = .ok ms := g1
  refine ⟨ms, g2, hinv, g1', fun k => ?_⟩
  have henough := revLoop_enough hM (turns ms [] + 1) (turns ms [] + 1 + k) ms [] M.len (Nat.le_refl _) hinv
    ⟨by simp, by simp⟩ (by omega) (by omega)
  rw [← henough]
  unfold reversedFinditer
  by_cases hnil : finditer M = []
  · have hd : doctored M = [] := by
      unfold doctored; rw [hnil]; simp [doctor]
    rw [hd] at g2
    have := g2.eq_nil
    subst this
    rw [hnil]
    simp [revLoop, truncate, popViable, sortDesc_nil]
  · simp only [if_neg hnil]
    rw [g1']

end Big.RePart
