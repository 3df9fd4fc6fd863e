import Verif.RePart.Props57
/-! # C56: re_partition and re_rpartition -/
namespace Big.RePart

variable {α : Type} [DecidableEq α]

/-! ### weave -/

omit [DecidableEq α] in
theorem weave_length : ∀ (ts : List (List α)) (ms : List (Option Span)), ts.length = ms.length + 1 →
    (weave ts ms).length = 2 * ms.length + 1 := by
  intro ts ms
  induction ms generalizing ts with
  | nil =>
    intro h
    match ts, h with
    | [t], _ => rfl
  | cons m ms ih =>
    intro h
    match ts, h with
    | t :: ts, h =>
      rw [weave]
      have := ih ts (by simpa using h)
      simp [this]; omega

omit [DecidableEq α] in
theorem weave_snoc : ∀ (ts : List (List α)) (ms : List (Option Span)) (t : List α) (m : Option Span), ts.length = ms.length + 1 →
    weave (ts ++ [t]) (ms ++ [m]) = weave ts ms ++ [.found m, .text t] := by
  intro ts ms
  induction ms generalizing ts with
  | nil =>
    intro t m h
    match ts, h with
    | [t'], _ => rfl
  | cons m' ms ih =>
    intro t m h
    match ts, h with
    | t' :: ts, h =>
      rw [List.cons_append, List.cons_append, weave, ih ts t m (by simpa using h)]
      rfl

omit [DecidableEq α] in
theorem weave_reverse : ∀ (ts : List (List α)) (ms : List (Option Span)), ts.length = ms.length + 1 →
    (weave ts ms).reverse = weave ts.reverse ms.reverse := by
  intro ts ms
  induction ms generalizing ts with
  | nil =>
    intro h
    match ts, h with
    | [t], _ => rfl
  | cons m ms ih =>
    intro h
    match ts, h with
    | t :: ts, h =>
      have hl : ts.length = ms.length + 1 := by simpa using h
      rw [weave, List.reverse_cons, List.reverse_cons, ih ts hl, List.reverse_cons, List.reverse_cons,
        weave_snoc _ _ _ _ (by simpa using hl)]
      simp

theorem padTo_length (n : Nat) (ms : List Span) : (padTo n ms).length = n := by
  unfold padTo; simp; omega

/-! ### The loop of re_rpartition -/

/-- Matches from right to left, up to `d`. -/
def UpTo (d : Nat) (ms : List Span) : Prop := (∀ t ∈ ms, t.1 ≤ t.2 ∧ t.2 ≤ d) ∧ ms.Pairwise (fun a b => b.2 ≤ a.1)

theorem UpTo.tail {d : Nat} {m : Span} {ms : List Span} (h : UpTo d (m :: ms)) {d' : Nat} (hd : m.1 ≤ d') : UpTo d' ms := by
  refine ⟨fun t ht => ?_, (List.pairwise_cons.1 h.2).2⟩
  have h1 := (List.pairwise_cons.1 h.2).1 t ht
  have h2 := h.1 t (by simp [ht])
  exact ⟨h2.1, by omega⟩

omit [DecidableEq α] in
theorem group_take (s : List α) (m : Span) (d : Nat) (h : m.2 ≤ d) : group (s.take d) m = group s m := by
  unfold group
  rw [List.take_take, Nat.min_eq_left h]

theorem rpartLoop_spec (s : List α) : ∀ (n : Nat) (ms : List Span) (d : Nat), d ≤ s.length → UpTo d ms →
    (∀ t ∈ ms.take n, t.1 < t.2) →
    ∃ ts, rpartLoop s n ms (s.take d) = .ok (weave ts (padTo n ms)) ∧ ts.length = n + 1 ∧
      ((weave ts (padTo n ms)).reverse.map (·.str s)).flatten = s.take d := by
  intro n
  induction n with
  | zero =>
    intro ms d _ _ _
    refine ⟨[s.take d], ?_, rfl, ?_⟩
    · rw [rpartLoop]; simp [padTo, weave]
    · simp [padTo, weave, Elem.str]
  | succ n ih =>
    intro ms d hd hms hne
    cases ms with
    | nil =>
      refine ⟨s.take d :: List.replicate (n + 1) [], ?_, by simp, ?_⟩
      · rw [rpartLoop, weave_nones]; simp [padTo]
      · have hp : padTo (n + 1) [] = List.replicate (n + 1) none := by simp [padTo]
        rw [hp, ← weave_nones]
        rw [List.reverse_cons, List.map_append, List.flatten_append]
        have : ∀ k, (List.map (fun x : Elem α => x.str s) (List.replicate k ([.found none, .text []] : List (Elem α))).flatten.reverse).flatten = [] := by
          intro k
          induction k with
          | zero => rfl
          | succ k ih =>
            rw [List.replicate_succ, List.flatten_cons, List.reverse_append, List.map_append, List.flatten_append, ih]
            simp [Elem.str]
        rw [this]; simp [Elem.str]
    | cons m ms =>
      have hm := hms.1 m (by simp)
      have hlt := hne m (by simp)
      have hlen := group_length s m hm.1 (by omega)
      have hne0 : group s m ≠ [] := by intro h; rw [h] at hlen; simp at hlen; omega
      have hp : group s m <+: (s.take d).drop m.1 := by
        have := group_prefix (s.take d) m 0 (by omega)
        rw [group_take s m d hm.2] at this
        simpa using this
      obtain ⟨i, hi, hile⟩ := rfindSub_of_prefix hp (by simp; omega)
      obtain ⟨g1, g2, -⟩ := rfindSub_some hi
      have hil : i ≤ d := by simp at g2; omega
      rw [rpartLoop, rpartition, if_neg hne0, hi]
      dsimp only
      rw [List.take_take, Nat.min_eq_left hil]
      obtain ⟨ts, k1, k2, k3⟩ := ih ms i (by omega) (hms.tail hile) (fun t ht => hne t (by simp [ht]))
      rw [k1]
      have hpad : padTo (n + 1) (m :: ms) = some m :: padTo n ms := by simp [padTo]
      refine ⟨(s.take d).drop (i + (group s m).length) :: ts, ?_, by simp [k2], ?_⟩
      · rw [hpad]; rfl
      · rw [hpad, weave, List.reverse_cons, List.reverse_cons, List.map_append, List.map_append, List.flatten_append,
          List.flatten_append, k3]
        rw [List.map_cons, List.map_nil, List.map_cons, List.map_nil,
          show (Elem.text ((s.take d).drop (i + (group s m).length))).str s = (s.take d).drop (i + (group s m).length) from rfl,
          show (Elem.found (some m)).str s = group s m from rfl]
        have := prefix_drop_eq g1
        rw [List.take_take, Nat.min_eq_left hil] at this
        simpa using this

theorem rpartLoop_error (s : List α) : ∀ (n : Nat) (ms : List Span) (d : Nat), d ≤ s.length → UpTo d ms →
    (∃ t ∈ ms.take n, t.1 = t.2) → rpartLoop s n ms (s.take d) = .error .valueError := by
  intro n
  induction n with
  | zero => intro ms d _ _ ⟨t, ht, _⟩; simp at ht
  | succ n ih =>
    intro ms d hd hms ⟨t, ht, hte⟩
    cases ms with
    | nil => simp at ht
    | cons m ms =>
      have hm := hms.1 m (by simp)
      have hlen := group_length s m hm.1 (by omega)
      rw [rpartLoop, rpartition]
      by_cases h0 : group s m = []
      · rw [if_pos h0]
      · rw [if_neg h0]
        have hp : group s m <+: (s.take d).drop m.1 := by
          have := group_prefix (s.take d) m 0 (by omega)
          rw [group_take s m d hm.2] at this
          simpa using this
        obtain ⟨i, hi, hile⟩ := rfindSub_of_prefix hp (by simp; omega)
        obtain ⟨g1, g2, -⟩ := rfindSub_some hi
        have hil : i ≤ d := by simp at g2; omega
        rw [hi]
        dsimp only
        rw [List.take_take, Nat.min_eq_left hil]
        have : t ∈ ms.take n := by
          rw [List.take_succ_cons] at ht
          rcases List.mem_cons.1 ht with rfl | ht
          · exfalso
            rw [List.length_eq_zero_iff.symm, hlen] at h0; omega
          · exact ht
        rw [ih ms i (by omega) (hms.tail hile) ⟨t, this, hte⟩]

/-! ### The functions as loops -/

theorem rePartition_eq (M : Matcher) (s : List α) (n : Nat) : rePartition M s n = partLoop s n (finditer M) s := by
  unfold rePartition
  by_cases h1 : (n : Int) = 1
  · have : n = 1 := by omega
    subst this
    rw [if_pos h1]
    cases finditer M with
    | nil => rfl
    | cons m ms =>
      simp only [List.head?_cons, partLoop]
  · rw [if_neg h1]
    by_cases h0 : (n : Int) = 0
    · have : n = 0 := by omega
      subst this
      rw [if_pos h0]; rfl
    · rw [if_neg h0, if_neg (by omega)]; rfl

theorem reRpartition_eq (M : Matcher) (s : List α) (n : Nat) {ys : List Span} (h : reversedFinditer M = .ok ys) :
    reRpartition M s n = (rpartLoop s n ys s).map List.reverse := by
  unfold reRpartition
  by_cases h1 : (n : Int) = 1
  · have : n = 1 := by omega
    subst this
    rw [if_pos h1, h]
    cases ys with
    | nil => rfl
    | cons m ms =>
      simp only [rpartLoop]
      cases rpartition s (group s m) <;> rfl
  · rw [if_neg h1]
    by_cases h0 : (n : Int) = 0
    · have : n = 0 := by omega
      subst this
      rw [if_pos h0]; rfl
    · rw [if_neg h0, if_neg (by omega), h]
      simp only [Int.toNat_natCast]
      cases rpartLoop s n ys s <;> rfl

/-- What reversed_re_finditer yields, from right to left. -/
theorem reversed_upTo {M : Matcher} (hM : M.Lawful) {ys : List Span} (h : reversedFinditer M = .ok ys) : UpTo M.len ys := by
  refine ⟨fun t ht => ?_, ?_⟩
  · have := C57_true_matches hM h t ht
    exact ⟨this.1, this.2.1⟩
  · rw [List.pairwise_iff_getElem]
    intro i j hi hj hij
    exact C57_disjoint hM h i j hij hj

/-! ### The theorems -/

/-- C56: re_partition returns `count + 1` texts with `count` matches between them, 2 * count + 1 elements in
all: the first matches of the pattern, and None for those that are missing. The texts and what was matched
rejoin to the string. This is so unless one of the matches is empty. -/
theorem C56_partition {M : Matcher} (hM : M.Lawful) (s : List α) (hs : M.len = s.length) (count : Nat)
    (hne : ∀ t ∈ (finditer M).take count, t.1 < t.2) :
    ∃ ts, rePartition M s count = .ok (weave ts (padTo count (finditer M))) ∧ ts.length = count + 1 ∧
      (weave ts (padTo count (finditer M))).length = 2 * count + 1 ∧
      ((weave ts (padTo count (finditer M))).map (·.str s)).flatten = s := by
  obtain ⟨ts, h1, h2, h3⟩ := partLoop_spec s count (finditer M) 0 (by omega) (hs ▸ finditer_from hM) hne
  rw [List.drop_zero] at h1 h3
  refine ⟨ts, by rw [rePartition_eq, h1], h2, ?_, h3⟩
  rw [weave_length _ _ (by rw [h2, padTo_length]), padTo_length]

/-- C56: the same for re_rpartition, with the matches from the right. -/
theorem C56_rpartition {M : Matcher} (hM : M.Lawful) (s : List α) (hs : M.len = s.length) (count : Nat)
    {ys : List Span} (hys : reversedFinditer M = .ok ys) (hne : ∀ t ∈ ys.take count, t.1 < t.2) :
    ∃ ts, reRpartition M s count = .ok (weave ts (padTo count ys).reverse) ∧ ts.length = count + 1 ∧
      (weave ts (padTo count ys).reverse).length = 2 * count + 1 ∧
      ((weave ts (padTo count ys).reverse).map (·.str s)).flatten = s := by
  obtain ⟨ts, h1, h2, h3⟩ := rpartLoop_spec s count ys s.length (Nat.le_refl _) (hs ▸ reversed_upTo hM hys) hne
  rw [List.take_length] at h1 h3
  have hl : ts.length = (padTo count ys).length + 1 := by rw [h2, padTo_length]
  rw [weave_reverse _ _ hl] at h3
  refine ⟨ts.reverse, ?_, by simpa using h2, ?_, h3⟩
  · rw [reRpartition_eq M s count hys, h1, ← weave_reverse _ _ hl]; rfl
  · rw [weave_length _ _ (by simpa using hl), List.length_reverse, padTo_length]

/-- C56: re_partition raises ValueError exactly when the count is negative or one of the matches to be used is
empty, and nothing else. -/
theorem C56_raises {M : Matcher} (hM : M.Lawful) (s : List α) (hs : M.len = s.length) (count : Int) (e : Err) :
    rePartition M s count = .error e ↔
      e = .valueError ∧ (count < 0 ∨ ∃ t ∈ (finditer M).take count.toNat, t.1 = t.2) := by
  by_cases hc : count < 0
  · have : rePartition M s count = .error .valueError := by
      unfold rePartition
      rw [if_neg (by omega), if_neg (by omega), if_pos hc]
    rw [this]
    constructor
    · intro h; cases h; exact ⟨rfl, .inl hc⟩
    · rintro ⟨rfl, -⟩; rfl
  · obtain ⟨n, rfl⟩ := Int.eq_ofNat_of_zero_le (by omega : 0 ≤ count)
    rw [Int.toNat_natCast]
    by_cases hex : ∃ t ∈ (finditer M).take n, t.1 = t.2
    · have := partLoop_error s n (finditer M) 0 (by omega) (hs ▸ finditer_from hM) hex
      rw [List.drop_zero] at this
      rw [rePartition_eq, this]
      constructor
      · intro h; cases h; exact ⟨rfl, .inr hex⟩
      · rintro ⟨rfl, -⟩; rfl
    · have hne : ∀ t ∈ (finditer M).take n, t.1 < t.2 := by
        intro t ht
        have h1 := ((finditer_spec hM).1 t (List.mem_of_mem_take ht)).1
        have h2 : t.1 ≠ t.2 := fun h => hex ⟨t, ht, h⟩
        omega
      obtain ⟨ts, h1, -⟩ := C56_partition hM s hs n hne
      rw [h1]
      constructor
      · intro h; cases h
      · rintro ⟨-, h | h⟩
        · exact absurd h hc
        · exact absurd h hex

/-- C56: the same for re_rpartition. -/
theorem C56_rraises {M : Matcher} (hM : M.Lawful) (s : List α) (hs : M.len = s.length) (count : Int) (e : Err)
    {ys : List Span} (hys : reversedFinditer M = .ok ys) :
    reRpartition M s count = .error e ↔
      e = .valueError ∧ (count < 0 ∨ ∃ t ∈ ys.take count.toNat, t.1 = t.2) := by
  by_cases hc : count < 0
  · have : reRpartition M s count = .error .valueError := by
      unfold reRpartition
      rw [if_neg (by omega), if_neg (by omega), if_pos hc]
    rw [this]
    constructor
    · intro h; cases h; exact ⟨rfl, .inl hc⟩
    · rintro ⟨rfl, -⟩; rfl
  · obtain ⟨n, rfl⟩ := Int.eq_ofNat_of_zero_le (by omega : 0 ≤ count)
    rw [Int.toNat_natCast]
    by_cases hex : ∃ t ∈ ys.take n, t.1 = t.2
    · have := rpartLoop_error s n ys s.length (Nat.le_refl _) (hs ▸ reversed_upTo hM hys) hex
      rw [List.take_length] at this
      rw [reRpartition_eq M s n hys, this]
      constructor
      · intro h; cases h; exact ⟨rfl, .inr hex⟩
      · rintro ⟨rfl, -⟩; rfl
    · have hne : ∀ t ∈ ys.take n, t.1 < t.2 := by
        intro t ht
        have h1 := (C57_true_matches hM hys t (List.mem_of_mem_take ht)).1
        have h2 : t.1 ≠ t.2 := fun h => hex ⟨t, ht, h⟩
        omega
      obtain ⟨ts, h1, -⟩ := C56_rpartition hM s hs n hys hne
      rw [h1]
      constructor
      · intro h; cases h
      · rintro ⟨-, h | h⟩
        · exact absurd h hc
        · exact absurd h hex

/-- C93: for a pattern for which only the text that it matches counts (`Textual`; see `C93_textual`) the
texts are exactly those before the first match, between one and the next, and after the last one. (For other
patterns see `C93_exact_iff` and `C93_not_exact`.) -/
theorem C93_textual_exact {M : Matcher} (hM : M.Lawful) (s : List α) (hT : Textual M s) (count : Nat) :
    rePartition M s count = .ok (weave
      (between s 0 ((finditer M).take count) ++ List.replicate (count - (finditer M).length) [])
      (padTo count (finditer M))) := by
  have := partLoop_exact M s hM hT count (finditer M) 0 (by omega) (hT.len ▸ finditer_from hM)
    (fun t ht => findFrom_at hT.pos _ _ t ht) (fun p e _ h => finditer_cover hM hT.pos p e h)
  rw [List.drop_zero] at this
  rw [rePartition_eq, this]

/-! ### From the right, exactly -/

/-- Each match is the last place where its text is found before the start of the one before. -/
def LastOcc (s : List α) : Nat → List Span → Prop
  | _, [] => True
  | prev, y :: ys => y.1 < y.2 ∧ y.2 ≤ prev ∧
    (∀ q, y.1 < q → q + (y.2 - y.1) ≤ prev → group s (q, q + (y.2 - y.1)) ≠ group s y) ∧ LastOcc s y.1 ys

theorem revLoop_last {M : Matcher} (hM : M.Lawful) (s : List α) (hT : Textual M s) : ∀ fuel ms over prev, prev ≤ M.len → MsInv M ms → OverInv M over →
    turns ms over < fuel → ∃ ys, revLoop M fuel ms over prev = .ok ys ∧
      ((∀ q e, M.at_ q prev = some e → (∃ o ∈ over, o.1 = q) ∨ ∃ t ∈ ms, t.1 ≤ q ∧ q < t.2) →
       (∀ t ∈ ms, t.2 ≤ prev ∧ (∀ o ∈ over, t.2 ≤ o.1) ∧ M.at_ t.1 M.len = some t.2) →
       (∀ o ∈ over, ∃ q, prev ≤ q ∧ q ≤ M.len ∧ M.at_ o.1 q = some o.2) → LastOcc s prev ys) := by
  -- a pattern that matches up to some place matches up to a later one, no less
  have mono : ∀ p q q' e, q ≤ q' → q' ≤ M.len → M.at_ p q = some e → ∃ e', M.at_ p q' = some e' ∧ e ≤ e' := by
    intro p q q' e h1 h2 h3
    have hle := hM.at_le _ _ _ h3
    have hl := hT.len
    obtain ⟨e', g1, g2⟩ := hT.again p q e p q' h3 (by omega) (by omega) (by omega) (by
      rw [show p + (e - p) = e by omega])
    exact ⟨e', g1, by omega⟩
  have hl := hT.len
  refine revLoop_ind hM ?_ ?_
  · intros; trivial
  · intro ms over prev over1 ms1 y rest ys hp hms hov hT1 h1 h2 h3 h4 h5 hP k1 k2 k3
    have hy : y ∈ over1 := h4.subset (by simp)
    have hyg := h1.good y hy
    -- the facts for over1 and ms1
    have key : (∀ q e, M.at_ q prev = some e → (∃ o ∈ over1, o.1 = q) ∨ ∃ t ∈ ms1, t.1 ≤ q ∧ q < t.2) ∧
       (∀ t ∈ ms1, t.2 ≤ prev ∧ (∀ o ∈ over1, t.2 ≤ o.1) ∧ M.at_ t.1 M.len = some t.2) ∧
       (∀ o ∈ over1, ∃ q, prev ≤ q ∧ q ≤ M.len ∧ M.at_ o.1 q = some o.2) := by
      cases hT1 with
      | keep hne =>
        refine ⟨?_, ?_, ?_⟩
        · intro q e hq
          rcases k1 q e hq with ⟨o, ho, rfl⟩ | h
          · left
            have hle := hM.at_le _ _ _ hq
            by_cases ho2 : o.2 ≤ prev
            · exact ⟨o, List.mem_filterMap.2 ⟨o, ho, by rw [if_neg (by omega), if_pos ho2]⟩, rfl⟩
            · exact ⟨(o.1, e), List.mem_filterMap.2 ⟨o, ho, by rw [if_neg (by omega), if_neg ho2, hq]; rfl⟩, rfl⟩
          · exact .inr h
        · intro t ht
          obtain ⟨g1, g2, g3⟩ := k2 t ht
          refine ⟨g1, ?_, g3⟩
          intro o ho
          obtain ⟨o', ho', he⟩ := List.mem_map.1 ((truncate_spec hM hp hov).2.2.subset (List.mem_map.2 ⟨o, ho, rfl⟩))
          rw [← he]; exact g2 o' ho'
        · intro o ho
          obtain ⟨o', ho', he⟩ := List.mem_filterMap.1 ho
          split at he
          · simp at he
          · split at he
            · simp at he; subst he; exact k3 o' ho'
            · cases ha : M.at_ o'.1 prev with
              | none => rw [ha] at he; simp at he
              | some e => rw [ha] at he; simp at he; subst he; exact ⟨prev, Nat.le_refl _, hp, ha⟩
      | fresh t _ hnil hpv =>
        obtain ⟨g1, g2, g3⟩ := popViable_some hpv
        have ht : t ∈ ms := g2.subset (by simp)
        have htg := hms.good t ht
        have hta := (k2 t ht).2.2
        obtain ⟨l1, l2, l3⟩ := scan_spec hM hp htg g1
        have hover : ∀ q e, M.at_ q prev = some e → ∃ t ∈ ms, t.1 ≤ q ∧ q < t.2 := by
          intro q e hq
          rcases k1 q e hq with ⟨o, ho, rfl⟩ | h
          · exfalso
            have hle := hM.at_le _ _ _ hq
            have : ∃ o', o' ∈ truncate M prev over := by
              by_cases ho2 : o.2 ≤ prev
              · exact ⟨o, List.mem_filterMap.2 ⟨o, ho, by rw [if_neg (by omega), if_pos ho2]⟩⟩
              · exact ⟨(o.1, e), List.mem_filterMap.2 ⟨o, ho, by rw [if_neg (by omega), if_neg ho2, hq]; rfl⟩⟩
            obtain ⟨o', ho'⟩ := this
            rw [hnil] at ho'; simp at ho'
          · exact h
        refine ⟨?_, ?_, ?_⟩
        · intro q e hq
          obtain ⟨u, hu, hu1, hu2⟩ := hover q e hq
          rcases g3 u hu (k2 u hu).1 with rfl | hur
          · left
            by_cases hqu : q = u.1
            · exact ⟨u, by simp [scan], hqu.symm⟩
            · refine ⟨(q, e), ?_, rfl⟩
              unfold scan
              refine List.mem_cons_of_mem _ (List.mem_filterMap.2 ⟨q, ?_, by rw [hq]; rfl⟩)
              rw [List.mem_range'_1]; omega
          · exact .inr ⟨u, hur, hu1, hu2⟩
        · intro u hur
          have hu : u ∈ ms := g2.subset (by simp [hur])
          refine ⟨(k2 u hu).1, ?_, (k2 u hu).2.2⟩
          have hne : u ≠ t := by
            rintro rfl
            have := hms.nodup.sublist g2
            exact (List.nodup_cons.1 this).1 hur
          have hkey := (List.pairwise_cons.1 (hms.desc.sublist g2)).1 u hur
          rw [keyLe_iff] at hkey
          have hu12 := hT.pos _ _ _ (k2 u hu).2.2
          intro o ho
          have := (l2 o ho).2.1
          rcases hms.apart u hu t ht hne with h | h <;> omega
        · intro o ho
          rcases (l2 o ho).2.2 with rfl | ⟨-, h⟩
          · exact ⟨M.len, hp, Nat.le_refl _, hta⟩
          · exact ⟨prev, Nat.le_refl _, hp, h⟩
    obtain ⟨c1, c2, c3⟩ := key
    obtain ⟨qy, hqy1, hqy2, hqy3⟩ := c3 y hy
    have hylt := hT.pos _ _ _ hqy3
    refine ⟨hylt, h2 y hy, ?_, ?_⟩
    · intro q hq hqp hgrp
      obtain ⟨e', g1, g2⟩ := hT.again y.1 qy y.2 q prev hqy3 (by omega) (by omega) hqp hgrp
      rcases c1 q e' g1 with ⟨o, ho, rfl⟩ | ⟨t, ht, ht1, ht2⟩
      · -- that one ends later
        obtain ⟨qo, ho1, ho2, ho3⟩ := c3 o ho
        obtain ⟨e'', f1, f2⟩ := mono o.1 prev qo e' ho1 ho2 g1
        rw [ho3] at f1
        cases f1
        have hmax : o.2 ≤ y.2 := by
          rcases List.mem_cons.1 (h4.symm.subset ho) with h | h
          · rw [h]; exact Nat.le_refl _
          · have := (List.pairwise_cons.1 h5).1 o h
            rw [keyLe_iff] at this; omega
        omega
      · have := (c2 t ht).2.1 y hy
        omega
    · refine hP ?_ ?_ ?_
      · intro q e hq
        have hle := hM.at_le _ _ _ hq
        have hpe := hT.pos _ _ _ hq
        obtain ⟨e', f1, -⟩ := mono q y.1 prev e (by have := hyg.1; have := h2 y hy; omega) hp hq
        rcases c1 q e' f1 with ⟨o, ho, rfl⟩ | h
        · left
          rcases List.mem_cons.1 (h4.symm.subset ho) with h | h
          · subst h; omega
          · exact ⟨o, h, rfl⟩
        · exact .inr h
      · intro t ht
        obtain ⟨f1, f2, f3⟩ := c2 t ht
        exact ⟨f2 y hy, fun o ho => f2 o (h4.subset (by simp [ho])), f3⟩
      · intro o ho
        obtain ⟨q, f1, f2, f3⟩ := c3 o (h4.subset (by simp [ho]))
        exact ⟨q, by have := hyg.1; have := h2 y hy; omega, f2, f3⟩

/-- So that rpartition finds it there. -/
theorem rpartLoop_exact (s : List α) : ∀ (n : Nat) (ms : List Span) (d : Nat), d ≤ s.length → LastOcc s d ms →
    rpartLoop s n ms (s.take d) = .ok (weave ((between (s.take d) 0 (ms.take n).reverse).reverse ++ List.replicate (n - ms.length) [])
      (padTo n ms)) := by
  -- the texts, from the right
  have hb : ∀ (d : Nat) (m : Span) (l : List Span) (s : List α) (p : Nat), (∀ t ∈ l, t.2 ≤ m.1) → (p ≤ m.1) → m.1 ≤ d → m.1 ≤ m.2 → m.2 ≤ d →
      (∀ t ∈ l, t.1 ≤ t.2) →
      between (s.take d) p (l ++ [m]) = between (s.take m.1) p l ++ [(s.take d).drop m.2] := by
    intro d m l
    induction l with
    | nil =>
      intro s p _ _ h1 h2 h3 _
      simp [between, List.take_take, Nat.min_eq_left h1]
    | cons t l ih =>
      intro s p ht hp h1 h2 h3 hle
      have h5 := ht t (by simp)
      have h6 := hle t (by simp)
      rw [List.cons_append, between, between, ih s t.2 (fun u hu => ht u (by simp [hu])) h5 h1 h2 h3 (fun u hu => hle u (by simp [hu]))]
      rw [List.take_take, List.take_take, Nat.min_eq_left (by omega), Nat.min_eq_left (by omega)]
      rfl
  have hLt : ∀ (ys : List Span) (d : Nat), LastOcc s d ys → ∀ t ∈ ys, t.1 ≤ t.2 ∧ t.2 ≤ d := by
    intro ys
    induction ys with
    | nil => intro d _ t ht; simp at ht
    | cons y ys ih =>
      intro d h t ht
      obtain ⟨h1, h2, -, h4⟩ := h
      rcases List.mem_cons.1 ht with rfl | ht
      · exact ⟨by omega, h2⟩
      · have := ih _ h4 t ht
        exact ⟨this.1, by omega⟩
  intro n
  induction n with
  | zero =>
    intro ms d _ _
    rw [rpartLoop]; simp [padTo, between, weave]
  | succ n ih =>
    intro ms d hd hms
    cases ms with
    | nil => rw [rpartLoop, weave_nones]; simp [padTo, between]
    | cons m ms =>
      obtain ⟨h1, h2, h3, h4⟩ := hms
      have hlen := group_length s m (by omega) (by omega)
      have hne0 : group s m ≠ [] := by intro h; rw [h] at hlen; simp at hlen; omega
      have hp : group s m <+: (s.take d).drop m.1 := by
        have := group_prefix (s.take d) m 0 (by omega)
        rw [group_take s m d h2] at this
        simpa using this
      obtain ⟨i, hi, hile⟩ := rfindSub_of_prefix hp (by simp; omega)
      obtain ⟨g1, g2, -⟩ := rfindSub_some hi
      have hil : i ≤ d := by simp at g2; omega
      -- the last occurrence is the match
      have hi' : i = m.1 := by
        by_cases h : m.1 < i
        · exfalso
          have hlen2 := g1.length_le
          simp [hlen] at hlen2
          refine h3 i h (by omega) ?_
          obtain ⟨t, ht⟩ := g1
          have : group (s.take d) (i, i + (m.2 - m.1)) = group s m := by
            show ((s.take d).take (i + (m.2 - m.1))).drop i = group s m
            rw [List.drop_take, ← ht, show i + (m.2 - m.1) - i = (group s m).length by omega]
            simp
          rw [← this, group_take _ _ _ (by dsimp only; omega)]
        · omega
      subst hi'
      rw [rpartLoop, rpartition, if_neg hne0, hi]
      dsimp only
      rw [List.take_take, Nat.min_eq_left hil, ih ms m.1 (by omega) h4]
      have hpad : padTo (n + 1) (m :: ms) = some m :: padTo n ms := by simp [padTo]
      have hmem : ∀ t ∈ (ms.take n).reverse, t.1 ≤ t.2 ∧ t.2 ≤ m.1 := by
        intro t ht
        exact hLt ms m.1 h4 t (List.mem_of_mem_take (List.mem_reverse.1 ht))
      rw [hpad, List.take_succ_cons, List.reverse_cons, hb d m _ s 0 (fun t ht => (hmem t ht).2) (by omega) hil (by omega) h2
        (fun t ht => (hmem t ht).1)]
      rw [List.reverse_append, List.reverse_singleton, hlen, show m.1 + (m.2 - m.1) = m.2 by omega]
      simp only [List.length_cons, Nat.add_sub_add_right, List.cons_append, List.nil_append, weave]

/-- C93: the same as `C93_textual_exact` for re_rpartition. -/
theorem C93_textual_rexact {M : Matcher} (hM : M.Lawful) (s : List α) (hT : Textual M s) (count : Nat)
    {ys : List Span} (hys : reversedFinditer M = .ok ys) :
    reRpartition M s count = .ok (weave
      (List.replicate (count - ys.length) [] ++ between s 0 (ys.take count).reverse)
      (padTo count ys).reverse) := by
  have hdoc : doctored M = finditer M := by
    unfold doctored
    rw [if_neg]
    intro h
    cases ha : M.at_ 0 0 with
    | none => rw [ha] at h; simp at h
    | some e => have := hM.at_le _ _ _ ha; have := hT.pos _ _ _ ha; omega
  obtain ⟨ms, h1, h2, -, h3⟩ := reversedFinditer_eq hM
  obtain ⟨ys', h4, h5⟩ := revLoop_last hM s hT (turns ms [] + 1) ms [] M.len (Nat.le_refl _) h2 ⟨by simp, by simp⟩ (by omega)
  have : ys' = ys := by
    have := (h3 0).symm.trans hys
    rw [Nat.add_zero, h4] at this
    exact Except.ok.inj this
  subst this
  rw [hdoc] at h1
  have hlast : LastOcc s M.len ys' := by
    refine h5 ?_ ?_ (by simp)
    · intro q e hq
      obtain ⟨t, ht, hh⟩ := finditer_cover hM hT.pos q e hq
      exact .inr ⟨t, h1.symm.subset ht, hh⟩
    · intro t ht
      have ht' := h1.subset ht
      exact ⟨((finditer_spec hM).1 t ht').2.1, by simp, findFrom_at hT.pos _ _ t ht'⟩
  rw [hT.len] at hlast
  have hres := rpartLoop_exact s count ys' s.length (Nat.le_refl _) hlast
  rw [List.take_length] at hres
  rw [reRpartition_eq M s count hys, hres]
  show Except.ok _ = _
  have hbl : ∀ (l : List Span) (p : Nat), (between s p l).length = l.length + 1 := by
    intro l
    induction l with
    | nil => intro p; rfl
    | cons m l ih => intro p; rw [between, List.length_cons, ih]; rfl
  rw [weave_reverse _ _ (by rw [padTo_length]; simp [hbl]; omega)]
  simp

/-! ### Examples -/

/-- C93, a counterexample to exactness: the pattern `(?<=b)a`, as a matcher for "aba", has its match at 2, but
the text before it that is returned is the one before the first "a". -/
theorem C93_not_exact :
    let M : Matcher := { len := 3, at_ := fun p q => if p = 2 ∧ 3 ≤ q then some 3 else none, adv := fun p => if p = 2 then some 3 else none }
    M.Lawful ∧ finditer M = [(2, 3)] ∧
    rePartition M "aba".toList 1 = .ok [.text "".toList, .found (some (2, 3)), .text "ba".toList] := by
  refine ⟨⟨?_, ?_⟩, by decide +kernel, by decide +kernel⟩
  · intro p q e h
    dsimp only at h
    split at h
    · cases h; omega
    · simp at h
  · intro p e h
    dsimp only at h
    split at h
    · cases h; dsimp only; omega
    · simp at h

/-- C56: a pattern that matches the empty string makes re_partition raise. -/
theorem C56_empty_match : rePartition (altMatcher ["b".toList, []] "ab".toList) "ab".toList 1 = .error .valueError := by
  decide +kernel

/-- An ordinary case. -/
example : rePartition (altMatcher [",".toList, ";".toList] "a,b;c".toList) "a,b;c".toList 3 =
      .ok [.text "a".toList, .found (some (1, 2)), .text "b".toList, .found (some (3, 4)), .text "c".toList, .found none, .text []] ∧
    reRpartition (altMatcher [",".toList, ";".toList] "a,b;c".toList) "a,b;c".toList 1 =
      .ok [.text "a,b".toList, .found (some (3, 4)), .text "c".toList] ∧
    reRpartition (altMatcher [",".toList, ";".toList] "a,b;c".toList) "a,b;c".toList 3 =
      .ok [.text [], .found none, .text "a".toList, .found (some (1, 2)), .text "b".toList, .found (some (3, 4)), .text "c".toList] := by
  decide +kernel

end Big.RePart
