import Verif.Subclass.Props
/-!
# C144: re_partition and re_rpartition of instances of subclasses
-/
namespace Big.Sub

variable {C α : Type} [DecidableEq C] [DecidableEq α]

/-- An element with strings proper. -/
def Elem.ofText : RePart.Elem α → Elem C α
  | .text t => .text (new t)
  | .found m => .found m

omit [DecidableEq C] [DecidableEq α] in
theorem missing_ofText (n : Nat) :
    (missing n : List (Elem C α)) = ((List.replicate n [RePart.Elem.found none, .text []]).flatten).map Elem.ofText := by
  induction n with
  | zero => rfl
  | succ n ih =>
    unfold missing at ih ⊢
    rw [List.replicate_succ, List.replicate_succ, List.flatten_cons, List.flatten_cons, ih, List.map_append]
    rfl

omit [DecidableEq C] in
theorem partition_new (t w : List α) :
    partition (C := C) (new t) w = (RePart.partition t w).map (fun x => (new x.1, new x.2)) := by
  unfold partition RePart.partition
  split
  · rfl
  · rw [new_text]; cases RePart.findSub w t <;> rfl

omit [DecidableEq C] in
theorem rpartition_new (t w : List α) :
    rpartition (C := C) (new t) w = (RePart.rpartition t w).map (fun x => (new x.1, new x.2)) := by
  unfold rpartition RePart.rpartition
  split
  · rfl
  · rw [new_text]; cases RePart.rfindSub w t <;> rfl

omit [DecidableEq C] in
theorem partLoop_new (s0 : List α) : ∀ (n : Nat) (ms : List RePart.Span) (t : List α),
    partLoop (C := C) s0 n ms (new t) = (RePart.partLoop s0 n ms t).map (·.map Elem.ofText)
  | 0, _, _ => by simp only [partLoop, RePart.partLoop]; rfl
  | n + 1, [], t => by
    simp only [partLoop, RePart.partLoop, Except.map, List.map_cons]
    rw [← missing_ofText]; rfl
  | n + 1, m :: ms, t => by
    simp only [partLoop, RePart.partLoop, partition_new]
    cases RePart.partition t (RePart.group s0 m) with
    | error e => rfl
    | ok x =>
      simp only [Except.map]
      rw [partLoop_new s0 n ms x.2]
      cases RePart.partLoop s0 n ms x.2 <;> rfl

omit [DecidableEq C] in
theorem rpartLoop_new (s0 : List α) : ∀ (n : Nat) (ms : List RePart.Span) (t : List α),
    rpartLoop (C := C) s0 n ms (new t) = (RePart.rpartLoop s0 n ms t).map (·.map Elem.ofText)
  | 0, _, _ => by simp only [rpartLoop, RePart.rpartLoop]; rfl
  | n + 1, [], t => by
    simp only [rpartLoop, RePart.rpartLoop, Except.map, List.map_cons]
    rw [← missing_ofText]; rfl
  | n + 1, m :: ms, t => by
    simp only [rpartLoop, RePart.rpartLoop, rpartition_new]
    cases RePart.rpartition t (RePart.group s0 m) with
    | error e => rfl
    | ok x =>
      simp only [Except.map]
      rw [rpartLoop_new s0 n ms x.1]
      cases RePart.rpartLoop s0 n ms x.1 <;> rfl

omit [DecidableEq C] in
/-- Text that is there is cut out. -/
theorem partition_found (s : Str C α) (m : RePart.Span) (h : m.1 ≤ m.2 ∧ m.2 ≤ s.text.length) :
    partition s (RePart.group s.text m) = partition (new s.text) (RePart.group s.text m) := by
  unfold partition
  split
  · rfl
  · obtain ⟨i, hi, -⟩ := RePart.findSub_of_prefix (RePart.group_prefix s.text m 0 (Nat.zero_le _)) (by simp; omega)
    simp only [List.drop_zero] at hi
    rw [new_text, hi]

omit [DecidableEq C] in
theorem rpartition_found (s : Str C α) (m : RePart.Span) (h : m.1 ≤ m.2 ∧ m.2 ≤ s.text.length) :
    rpartition s (RePart.group s.text m) = rpartition (new s.text) (RePart.group s.text m) := by
  unfold rpartition
  split
  · rfl
  · obtain ⟨i, hi, -⟩ := RePart.rfindSub_of_prefix (RePart.group_prefix s.text m 0 (Nat.zero_le _)) (by simp; omega)
    simp only [List.drop_zero] at hi
    rw [new_text, hi]

omit [DecidableEq C] in
/-- C144, re_partition: if it finds a match (and the count is not 0), the strings that it returns are all str (or bytes)
proper; otherwise it returns `s` itself, followed by Nones and empty strings. -/
theorem C144_re_partition {M : RePart.Matcher} (hM : M.Lawful) (s : Str C α) (hs : M.len = s.text.length) (count : Int) :
    (0 ≤ count → (count = 0 ∨ RePart.finditer M = []) →
      rePartition M s count = .ok (.text s :: missing count.toNat)) ∧
    (count ≠ 0 → RePart.finditer M ≠ [] →
      rePartition M s count = (RePart.rePartition M s.text count).map (·.map Elem.ofText)) := by
  constructor
  · intro h0 h
    unfold rePartition
    by_cases h1 : count = 1
    · subst h1
      have h := h.resolve_left (by decide)
      rw [if_pos rfl, h]; rfl
    · rw [if_neg h1]
      by_cases h2 : count = 0
      · subst h2; rfl
      · rw [if_neg h2, if_neg (by omega), h.resolve_left h2]
        obtain ⟨n, hn⟩ : ∃ n, count.toNat = n + 1 := ⟨count.toNat - 1, by omega⟩
        rw [hn, partLoop]
  · intro h0 hf
    have hspec := RePart.finditer_from hM
    obtain ⟨m, ms, hms⟩ : ∃ m ms, RePart.finditer M = m :: ms := by
      cases h : RePart.finditer M with
      | nil => exact absurd h hf
      | cons m ms => exact ⟨m, ms, rfl⟩
    have hm := hspec.1 m (by rw [hms]; simp)
    have hfound := partition_found s m ⟨hm.2.1, by omega⟩
    unfold rePartition RePart.rePartition
    split
    · rw [hms]
      simp only [List.head?_cons]
      rw [hfound, partition_new]
      cases RePart.partition s.text (RePart.group s.text m) <;> rfl
    · split
      · rfl
      · rw [← partLoop_new, hms]
        obtain ⟨n, hn⟩ : ∃ n, count.toNat = n + 1 := ⟨count.toNat - 1, by omega⟩
        rw [hn, partLoop, partLoop, hfound]

omit [DecidableEq C] in
/-- C144, re_rpartition: if it finds a match (and the count is not 0), the strings that it returns are all str (or
bytes) proper; otherwise it returns empty strings and Nones, followed by `s` itself. -/
theorem C144_re_rpartition {M : RePart.Matcher} (hM : M.Lawful) (s : Str C α) (hs : M.len = s.text.length) (count : Int) :
    (0 ≤ count → (count = 0 ∨ RePart.finditer M = []) →
      reRpartition M s count = .ok ((missing count.toNat).reverse ++ [.text s])) ∧
    (count ≠ 0 → RePart.finditer M ≠ [] →
      reRpartition M s count = (RePart.reRpartition M s.text count).map (·.map Elem.ofText)) := by
  constructor
  · intro h0 h
    unfold reRpartition
    by_cases h1 : count = 1
    · subst h1
      have h := h.resolve_left (by decide)
      rw [if_pos rfl, (RePart.C57_nothing hM).2 h]; rfl
    · rw [if_neg h1]
      by_cases h2 : count = 0
      · subst h2; rfl
      · rw [if_neg h2, if_neg (by omega), (RePart.C57_nothing hM).2 (h.resolve_left h2)]
        obtain ⟨n, hn⟩ : ∃ n, count.toNat = n + 1 := ⟨count.toNat - 1, by omega⟩
        dsimp only
        rw [hn, rpartLoop]
        simp
  · intro h0 hf
    unfold reRpartition RePart.reRpartition
    cases hr : RePart.reversedFinditer M with
    | error e =>
      dsimp only
      split
      · rfl
      · split <;> rfl
    | ok l =>
      cases l with
      | nil => exact absurd ((RePart.C57_nothing hM).1 hr) hf
      | cons m ms =>
        have hm := RePart.C57_true_matches hM hr m (by simp)
        have hfound := rpartition_found s m ⟨hm.1, by omega⟩
        dsimp only
        split
        · rw [hfound, rpartition_new]
          cases RePart.rpartition s.text (RePart.group s.text m) <;> rfl
        · · split
            · rfl
            · obtain ⟨n, hn⟩ : ∃ n, count.toNat = n + 1 := ⟨count.toNat - 1, by omega⟩
              have e : rpartLoop s.text count.toNat (m :: ms) s = rpartLoop s.text count.toNat (m :: ms) (new s.text) := by
                rw [hn, rpartLoop, rpartLoop, hfound]
              rw [e, rpartLoop_new]
              cases RePart.rpartLoop s.text count.toNat (m :: ms) s.text with
              | error e => rfl
              | ok r => simp [Except.map]

/-- A pattern that matches the letter at position 1, of 3. -/
def exM : RePart.Matcher where
  len := 3
  at_ := fun p q => if p = 1 ∧ 2 ≤ q then some 2 else none
  adv := fun p => if p = 1 then some 2 else none

/-- One that matches nowhere. -/
def exN : RePart.Matcher where
  len := 3
  at_ := fun _ _ => none
  adv := fun _ => none

/-- The cases of C144_re_partition and C144_re_rpartition: found, not found, and a count of 0. -/
example :
    rePartition (C := Unit) exM ⟨some (), ['a', 'x', 'b']⟩ 1 =
      .ok [.text (new ['a']), .found (some (1, 2)), .text (new ['b'])] ∧
    rePartition (C := Unit) exN ⟨some (), ['a', 'x', 'b']⟩ 2 =
      .ok [.text ⟨some (), ['a', 'x', 'b']⟩, .found none, .text (new []), .found none, .text (new [])] ∧
    reRpartition (C := Unit) exM ⟨some (), ['a', 'x', 'b']⟩ 2 =
      .ok [.text (new []), .found none, .text (new ['a']), .found (some (1, 2)), .text (new ['b'])] ∧
    reRpartition (C := Unit) exN ⟨some (), ['a', 'x', 'b']⟩ 1 =
      .ok [.text (new []), .found none, .text ⟨some (), ['a', 'x', 'b']⟩] := by decide +kernel

/-- exM and exN are lawful. -/
example : exM.Lawful ∧ exN.Lawful := by
  refine ⟨⟨?_, ?_⟩, ⟨?_, ?_⟩⟩
  · intro p q e h
    simp only [exM] at h
    split at h
    · cases h; omega
    · cases h
  · intro p e h
    simp only [exM] at h ⊢
    split at h
    · cases h; omega
    · cases h
  · intro p q e h; cases h
  · intro p e h; cases h

end Big.Sub
