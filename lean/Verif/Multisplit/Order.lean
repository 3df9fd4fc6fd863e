import Verif.Multisplit.Props2
/-!
# C38: separators are a set: neither their order nor repetitions matter
-/
namespace Big.MS
open Big.Rx Spec

variable {α R : Type} [DecidableEq α]

/-- In a list sorted by decreasing length, the first success is the one with the longest string. -/
theorem findSome_iff (k : List α → Option R) (s : List α) (x : R) : ∀ ws : List (List α),
    ws.Pairwise (fun a b => b.length ≤ a.length) →
    (ws.findSome? (fun w => if w <+: s then k (s.drop w.length) else none) = some x ↔
      ∃ w ∈ ws, w <+: s ∧ k (s.drop w.length) = some x ∧
        ∀ v ∈ ws, v <+: s → w.length < v.length → k (s.drop v.length) = none)
  | [], _ => by simp
  | w :: ws, h => by
    rw [List.pairwise_cons] at h
    have ih := findSome_iff k s x ws h.2
    rw [List.findSome?_cons]
    by_cases hw : w <+: s
    · rw [if_pos hw]
      cases hk : k (s.drop w.length) with
      | some y =>
        constructor
        · intro e
          cases e
          refine ⟨w, by simp, hw, hk, fun v hv _ hl => ?_⟩
          rcases List.mem_cons.1 hv with rfl | hv
          · omega
          · have := h.1 v hv; omega
        · rintro ⟨v, hv, hp, hkv, hall⟩
          have hle : w.length ≤ v.length := by
            apply Nat.le_of_not_lt
            intro hl
            have := hall w (by simp) hw hl
            rw [hk] at this; cases this
          have heq : v.length = w.length := by
            rcases List.mem_cons.1 hv with rfl | hv
            · rfl
            · have := h.1 v hv; omega
          rw [heq, hk] at hkv
          exact hkv
      | none =>
        show ws.findSome? _ = some x ↔ _
        rw [ih]
        constructor
        · rintro ⟨v, hv, hp, hkv, hall⟩
          refine ⟨v, by simp [hv], hp, hkv, fun u hu hup hl => ?_⟩
          rcases List.mem_cons.1 hu with rfl | hu
          · exact hk
          · exact hall u hu hup hl
        · rintro ⟨v, hv, hp, hkv, hall⟩
          rcases List.mem_cons.1 hv with rfl | hv
          · rw [hk] at hkv; cases hkv
          · exact ⟨v, hv, hp, hkv, fun u hu => hall u (by simp [hu])⟩
    · rw [if_neg hw]
      show ws.findSome? _ = some x ↔ _
      rw [ih]
      constructor
      · rintro ⟨v, hv, hp, hkv, hall⟩
        refine ⟨v, by simp [hv], hp, hkv, fun u hu hup hl => ?_⟩
        rcases List.mem_cons.1 hu with rfl | hu
        · exact absurd hup hw
        · exact hall u hu hup hl
      · rintro ⟨v, hv, hp, hkv, hall⟩
        rcases List.mem_cons.1 hv with rfl | hv
        · exact absurd hp hw
        · exact ⟨v, hv, hp, hkv, fun u hu => hall u (by simp [hu])⟩

theorem alts_congr {a b : List (List α)} (h : ∀ w, w ∈ a ↔ w ∈ b) :
    (alts (sortSeps a)).m (R := R) = (alts (sortSeps b)).m := by
  by_cases ha : a = []
  · have hb : b = [] := by
      cases b with
      | nil => rfl
      | cons w l => exact absurd ((h w).2 (by simp)) (by rw [ha]; simp)
    rw [ha, hb]
  have hb : b ≠ [] := by
    rintro rfl
    cases a with
    | nil => exact ha rfl
    | cons w l => exact absurd ((h w).1 (by simp)) (by simp)
  funext s c k
  rw [alts_m _ (sortSeps_ne ha), alts_m _ (sortSeps_ne hb)]
  apply Option.ext
  intro x
  have h' : ∀ w, w ∈ sortSeps a ↔ w ∈ sortSeps b := fun w => by rw [mem_sortSeps, mem_sortSeps, h]
  rw [findSome_iff (fun t => k t c) s x _ (sortSeps_sorted a), findSome_iff (fun t => k t c) s x _ (sortSeps_sorted b)]
  simp only [h']

theorem sepRe_congr {a b : List (List α)} (h : ∀ w, w ∈ a ↔ w ∈ b) (separate : Bool) :
    (sepRe a separate).m (R := R) = (sepRe b separate).m := by
  unfold sepRe
  cases separate with
  | true => exact alts_congr h
  | false =>
    funext s c k
    simp only [Bool.false_eq_true, if_false, Rx.plus, Rx.m]
    rw [alts_congr h]

theorem match0_set {a b : List (List α)} (h : ∀ w, w ∈ a ↔ w ∈ b) (separate : Bool) :
    match0 (sepRe a separate) = match0 (sepRe b separate) := by
  funext s
  unfold match0 Rx.matchStart
  rw [sepRe_congr h]

theorem nil_iff {a b : List (List α)} (h : ∀ w, w ∈ a ↔ w ∈ b) : a = [] ↔ b = [] := by
  simp only [List.eq_nil_iff_forall_not_mem, h]

theorem stripCore_set {a b : List (List α)} (h : ∀ w, w ∈ a ↔ w ∈ b) (nl : α) (s : List α) (left right : Bool) :
    stripCore nl s a left right = stripCore nl s b left right := by
  have h2 : match0 (.seq (sepRe a false) (.look (atEnd nl))) = match0 (.seq (sepRe b false) (.look (atEnd nl))) := by
    funext s
    unfold match0 Rx.matchStart
    simp only [Rx.m]
    rw [sepRe_congr h]
  unfold stripCore
  dsimp only
  rw [match0_set h, h2]

/-- C38: for multistrip the separators are a set. -/
theorem C38_multistrip_set {a b : List (List α)} (h : ∀ w, w ∈ a ↔ w ∈ b) (nl : α) (s : List α) (left right : Bool) :
    multistrip nl s a left right = multistrip nl s b left right := by
  unfold multistrip
  rw [stripCore_set h]
  simp only [nil_iff h, h []]

theorem msGen_set {cache : List (List α) → Option (List (List α))} (hc : CacheOK cache) {a b : List (List α)}
    (h : ∀ w, w ∈ a ↔ w ∈ b) (s : List α) (keep : Keep) (maxsplit : Option Int) (reverse separate : Bool)
    (strip : Strip) (reKeep : Bool) :
    msGen cache s a keep maxsplit reverse separate strip reKeep =
      msGen cache s b keep maxsplit reverse separate strip reKeep := by
  have h' : ∀ w, w ∈ (if reverse then revSeps cache a else a) ↔ w ∈ (if reverse then revSeps cache b else b) := by
    intro w
    cases reverse with
    | false => exact h w
    | true =>
      simp only [if_true]
      rw [mem_revSeps hc, mem_revSeps hc]
      simp only [List.mem_map, h]
  unfold msGen
  dsimp only
  rw [match0_set h']

/-- C38: for multisplit, whatever the options, the separators are a set: neither their order nor repetitions matter. -/
theorem C38_multisplit_set {cache : List (List α) → Option (List (List α))} (hc : CacheOK cache) {a b : List (List α)}
    (h : ∀ w, w ∈ a ↔ w ∈ b) (nl : α) (s : List α) (keep : Keep) (maxsplit : Option Int) (reverse separate : Bool)
    (strip : Strip) :
    multisplit nl cache s a keep maxsplit reverse separate strip =
      multisplit nl cache s b keep maxsplit reverse separate strip := by
  unfold multisplit
  rw [C38_multistrip_set h]
  simp only [nil_iff h, msGen_set hc h]

/-- The same for multipartition. -/
theorem C38_multipartition_set {cache : List (List α) → Option (List (List α))} (hc : CacheOK cache)
    {a b : List (List α)} (h : ∀ w, w ∈ a ↔ w ∈ b) (nl : α) (s : List α) (count : Int) (reverse separate : Bool) :
    multipartition nl cache s a count reverse separate = multipartition nl cache s b count reverse separate := by
  unfold multipartition
  rw [C38_multisplit_set hc h]

/-- Separators in another order, one of them twice, one a prefix of another. -/
example : (∀ w, w ∈ [['a'], ['a', 'b'], ['c']] ↔ w ∈ [['c'], ['a', 'b'], ['a'], ['c']]) ∧
    multisplit '\n' (fun _ => none) "xabycaz".toList [['c'], ['a', 'b'], ['a'], ['c']] .yes =
      .ok [.str "xab".toList, .str "yca".toList, .str "z".toList] :=
  ⟨by simp [or_comm, or_left_comm], by decide +kernel⟩

end Big.MS
