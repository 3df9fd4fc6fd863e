import Verif.Graph.GraphLemmas
/- Helper lemmas about the operations of a View. -/
namespace Big.Graph
variable {ν : Type} [DecidableEq ν]

/-- Number of predecessors of `n` in `g` that are not in `D`. -/
def oc (g : Graph ν) (D : List ν) (n : ν) : Nat :=
  g.keys.countP (fun d => decide (n ∈ g.succ d) && decide (d ∉ D))

theorem oc_pos {g : Graph ν} {D : List ν} {n : ν} :
    0 < oc g D n ↔ ∃ d ∈ g.keys, n ∈ g.succ d ∧ d ∉ D := by
  simp [oc, List.countP_pos_iff]

theorem oc_zero {g : Graph ν} {D : List ν} {n : ν} :
    oc g D n = 0 ↔ ∀ d ∈ g.keys, n ∈ g.succ d → d ∈ D := by
  simp [oc, List.countP_eq_zero]

theorem oc_congr {g : Graph ν} {D D' : List ν} (h : ∀ x, x ∈ D ↔ x ∈ D') (n : ν) :
    oc g D n = oc g D' n := by
  apply List.countP_congr; intro d _; simp [h]

/-- Invariants of a view that hold in every history. -/
structure WInv (g : Graph ν) (v : View ν) : Prop where
  nb : v.broken = false
  pr : ∀ n ∈ g.keys, ∃ k, v.pred n = some k
  rn : v.ready.Nodup
  rk : ∀ n ∈ v.ready, n ∈ g.keys ∧ n ∉ v.yielded ∧ n ∉ v.done
  rp : ∀ n ∈ v.ready, ∃ k, v.pred n = some k ∧ k ≤ 0
  yn : v.yielded.Nodup
  yk : ∀ n ∈ v.yielded, n ∈ g.keys ∧ n ∉ v.done
  dn : v.done.Nodup
  dk : ∀ n ∈ v.done, n ∈ g.keys
  mir : ∀ a b, (a, b) ∈ v.conf ↔ (b, a) ∈ v.rconf

/-- The counting invariant, relative to a set `D` of nodes regarded as done: the counts are exact but for
the nodes in `late`, for which they are too high. -/
structure CInv (late : ν → Prop) (g : Graph ν) (v : View ν) (D : List ν) : Prop where
  lb : ∀ n ∈ g.keys, n ∉ v.yielded → n ∉ v.done → ∀ k, v.pred n = some k →
        (oc g D n : Int) ≤ k ∧ (k = oc g D n ↔ ¬ late n)
  rd : ∀ n ∈ g.keys, n ∉ v.yielded → n ∉ v.done → v.pred n = some 0 → n ∈ v.ready

/-- The conflict table is what the documentation says. -/
def KInv (g : Graph ν) (v : View ν) : Prop :=
  ∀ a b, (a, b) ∈ v.conf ↔
    a ∈ g.keys ∧ b ∈ g.succ a ∧ (b ∈ v.yielded ∨ b ∈ v.done) ∧ a ∉ v.done

/-! ### markNodeDone -/

theorem markNodeDone_spec (S : List ν) (hS : S.Nodup) (v : View ν)
    (hp : ∀ s ∈ S, s ∉ v.yielded → s ∉ v.done → v.pred s ≠ none) :
    v.markNodeDone S = { v with
      pred := fun n => if n ∈ S ∧ n ∉ v.yielded ∧ n ∉ v.done then (v.pred n).map (· - 1) else v.pred n,
      ready := v.ready ++ S.filter (fun s => s ∉ v.yielded ∧ s ∉ v.done ∧ v.pred s = some 1) } := by
  induction S generalizing v with
  | nil => simp [View.markNodeDone]
  | cons s S ih =>
    simp only [List.nodup_cons] at hS
    unfold View.markNodeDone
    simp only [List.foldl_cons]
    by_cases hc : s ∈ v.yielded ∨ s ∈ v.done
    · rw [if_pos hc]
      have := ih hS.2 v (fun s hs => hp s (List.mem_cons_of_mem _ hs))
      unfold View.markNodeDone at this
      rw [this]
      congr 1
      · funext n
        by_cases hn : n = s
        · subst hn; grind
        · simp [hn]
      · rw [List.filter_cons_of_neg (by simp; grind)]
    · rw [if_neg hc]
      have hc' : s ∉ v.yielded ∧ s ∉ v.done := by simpa using hc
      obtain ⟨k, hk⟩ := Option.ne_none_iff_exists'.1 (hp s (by simp) hc'.1 hc'.2)
      simp only [hk]
      by_cases hz : k - 1 = 0
      · rw [if_pos hz]
        have := ih hS.2 { v with pred := upd v.pred s (some (k-1)), ready := v.ready ++ [s] } (by
          intro t ht h1 h2
          have : t ≠ s := by rintro rfl; exact hS.1 ht
          simp only [upd_ne _ _ this]
          exact hp t (by simp [ht]) h1 h2)
        unfold View.markNodeDone at this
        rw [this]
        congr 1
        · funext n
          by_cases hn : n = s
          · subst hn; simp [hS.1, hc'.1, hc'.2, hk]
          · simp [hn, upd_ne]
        · rw [List.filter_cons_of_pos (by simp [hc', hk]; omega)]
          simp only [List.append_assoc, List.singleton_append]
          congr 2
          apply List.filter_congr
          intro t ht
          have : t ≠ s := by rintro rfl; exact hS.1 ht
          simp [upd_ne _ _ this]
      · rw [if_neg hz]
        have := ih hS.2 { v with pred := upd v.pred s (some (k-1)) } (by
          intro t ht h1 h2
          have : t ≠ s := by rintro rfl; exact hS.1 ht
          simp only [upd_ne _ _ this]
          exact hp t (by simp [ht]) h1 h2)
        unfold View.markNodeDone at this
        rw [this]
        congr 1
        · funext n
          by_cases hn : n = s
          · subst hn; simp [hS.1, hc'.1, hc'.2, hk]
          · simp [hn, upd_ne]
        · rw [List.filter_cons_of_neg (by simp [hc', hk]; omega)]
          congr 1
          apply List.filter_congr
          intro t ht
          have : t ≠ s := by rintro rfl; exact hS.1 ht
          simp [upd_ne _ _ this]

/-- Marking in a well-formed view keeps it so; `S` are nodes. -/
theorem WInv.mark {g : Graph ν} {v : View ν} (w : WInv g v) (S : List ν) (hS : S.Nodup)
    (hk : ∀ s ∈ S, s ∈ g.keys) : WInv g (v.markNodeDone S) := by
  rw [markNodeDone_spec S hS v (fun s hs _ _ => by obtain ⟨k, hk⟩ := w.pr s (hk s hs); simp [hk])]
  constructor <;> simp only
  · exact w.nb
  · intro n hn
    obtain ⟨k, hk⟩ := w.pr n hn
    split <;> simp [hk]
  · rw [List.nodup_append]
    refine ⟨w.rn, hS.filter _, ?_⟩
    rintro a ha b hb rfl
    obtain ⟨k, h1, h2⟩ := w.rp a ha
    simp at hb
    rw [hb.2.2.2] at h1
    simp at h1; omega
  · intro n hn
    rcases List.mem_append.1 hn with hn | hn
    · exact w.rk n hn
    · simp at hn; exact ⟨hk n hn.1, hn.2.1, hn.2.2.1⟩
  · intro n hn
    rcases List.mem_append.1 hn with hn | hn
    · obtain ⟨k, h1, h2⟩ := w.rp n hn
      split
      · exact ⟨k - 1, by simp [h1], by omega⟩
      · exact ⟨k, h1, h2⟩
    · simp at hn
      rw [if_pos ⟨hn.1, hn.2.1, hn.2.2.1⟩]
      exact ⟨0, by simp [hn.2.2.2], by omega⟩
  · exact w.yn
  · exact w.yk
  · exact w.dn
  · exact w.dk
  · exact w.mir

/-- Marking adds the marked node to the set regarded as done. -/
theorem CInv.mark {late : ν → Prop} {g : Graph ν} {v : View ν} {D : List ν} (c : CInv late g v D)
    (w : WInv g v) (wf : WF g) {d : ν} (hd : d ∈ g.keys) (hD : d ∉ D) :
    CInv late g (v.markNodeDone (g.succ d)) (D ++ [d]) := by
  rw [markNodeDone_spec _ (wf.succNodup d hd) v
    (fun s hs _ _ => by obtain ⟨k, hk⟩ := w.pr s (wf.closed d hd s hs); simp [hk])]
  have hoc : ∀ n, (oc g D n : Int) = oc g (D ++ [d]) n + (if n ∈ g.succ d then 1 else 0) := by
    intro n
    unfold oc
    rw [countP_erase_nodup g.keys wf.nodup d hd, countP_erase_nodup g.keys wf.nodup d hd]
    have : List.countP (fun e => decide (n ∈ g.succ e) && decide (e ∉ D)) (g.keys.erase d) =
        List.countP (fun e => decide (n ∈ g.succ e) && decide (e ∉ D ++ [d])) (g.keys.erase d) := by
      apply List.countP_congr
      intro e he
      have : e ≠ d := by rintro rfl; exact absurd he (by simp [wf.nodup.mem_erase_iff])
      simp [this]
    rw [this]
    simp [hD]
    split <;> rfl
  constructor
  · intro n hn h1 h2 k hk
    simp only at hk h1 h2
    obtain ⟨k0, hk0⟩ := w.pr n hn
    have := c.lb n hn h1 h2 k0 hk0
    have h3 := hoc n
    by_cases hs : n ∈ g.succ d
    · rw [if_pos ⟨hs, h1, h2⟩, hk0] at hk
      rw [if_pos hs] at h3
      simp at hk
      refine ⟨by omega, ?_⟩
      rw [← this.2]
      omega
    · rw [if_neg (by grind), hk0] at hk
      rw [if_neg hs] at h3
      simp at hk
      refine ⟨by omega, ?_⟩
      rw [← this.2]
      omega
  · intro n hn h1 h2 hk
    simp only at hk h1 h2 ⊢
    by_cases hs : n ∈ g.succ d
    · rw [if_pos ⟨hs, h1, h2⟩] at hk
      obtain ⟨k0, hk0⟩ := w.pr n hn
      rw [hk0] at hk
      simp at hk
      have : k0 = 1 := by omega
      subst this
      exact List.mem_append.2 (.inr (by simp [hs, h1, h2, hk0]))
    · rw [if_neg (by grind)] at hk
      exact List.mem_append.2 (.inl (c.rd n hn h1 h2 hk))

/-! ### add -/

theorem addNodes_spec (nn : List ν) (v : View ν) :
    v.addNodes nn = { v with
      pred := fun n => if n ∈ nn then some 0 else v.pred n, ready := v.ready ++ nn } := by
  induction nn generalizing v with
  | nil => simp [View.addNodes]
  | cons a nn ih =>
    have := ih { v with pred := upd v.pred a (some 0), ready := v.ready ++ [a] }
    unfold View.addNodes at *
    simp only [List.foldl_cons]
    rw [this]
    congr 1
    · funext n
      by_cases hn : n ∈ nn
      · simp [hn]
      · by_cases ha : n = a
        · subst ha; simp [hn]
        · simp [hn, ha, upd_ne]
    · simp

/-- What a run of `_add_successor` calls for one successor does. -/
structure SuccSpec (v : View ν) (node : ν) (ns : List ν) (v' : View ν) : Prop where
  yielded : v'.yielded = v.yielded
  done : v'.done = v.done
  closed : v'.closed = v.closed
  broken : v'.broken = v.broken
  pred : ∀ n, v'.pred n =
    if n = node ∧ node ∉ v.done then (v.pred node).map (· + (ns.length : Int)) else v.pred n
  conf : ∀ a b, (a, b) ∈ v'.conf ↔ (a, b) ∈ v.conf ∨
    (b = node ∧ a ∈ ns ∧ a ∉ v.done ∧ (node ∈ v.yielded ∨ node ∈ v.done))
  rconf : ∀ a b, (b, a) ∈ v'.rconf ↔ (b, a) ∈ v.rconf ∨
    (b = node ∧ a ∈ ns ∧ a ∉ v.done ∧ (node ∈ v.yielded ∨ node ∈ v.done))
  ready : v'.ready = if (∃ k, v.pred node = some k ∧ k ≤ 0 ∧ 0 < k + (ns.length : Int)) ∧ node ∉ v.done
    then v.ready.erase node else v.ready

theorem addSuccessor_fold_spec (node : ν) (ns : List ν) (v : View ν) (k : Int)
    (hk : v.pred node = some k) :
    SuccSpec v node ns (ns.foldl (fun v s => v.addSuccessor s node) v) := by
  induction ns generalizing v k with
  | nil => constructor <;> simp <;> grind
  | cons s ns ih =>
    simp only [List.foldl_cons]
    -- the first step
    have h1 : SuccSpec v node [s] (v.addSuccessor s node) := by
      unfold View.addSuccessor
      by_cases hd : node ∈ v.done
      · by_cases hs : s ∈ v.done
        · constructor <;> simp [hd, hs]
        · constructor <;> simp [hd, hs] <;> grind
      · by_cases hs : s ∈ v.done ∨ node ∉ v.yielded
        · have : ¬ (¬ s ∈ v.done ∧ (node ∈ v.yielded ∨ node ∈ v.done)) := by grind
          simp only
          rw [if_neg this, if_neg hd, hk]
          by_cases hz : k = 0
          · subst hz
            constructor <;> simp [hk, upd, hd] <;> grind
          · have hz' : ¬ (k + 1 = 1) := by omega
            have hz2 : ¬ (k ≤ 0 ∧ 0 < k + 1) := by omega
            simp only [hz', if_false]
            constructor <;> simp [hk, upd, hd, hz2] <;> grind
        · have : (¬ s ∈ v.done ∧ (node ∈ v.yielded ∨ node ∈ v.done)) := by grind
          simp only
          rw [if_pos this, if_neg hd]
          simp only [hk]
          by_cases hz : k = 0
          · subst hz
            constructor <;> simp [hk, upd, hd] <;> grind
          · have hz' : ¬ (k + 1 = 1) := by omega
            have hz2 : ¬ (k ≤ 0 ∧ 0 < k + 1) := by omega
            simp only [hz', if_false]
            constructor <;> simp [hk, upd, hd, hz2] <;> grind
    have hk1 : ∃ k', (v.addSuccessor s node).pred node = some k' := by
      rw [h1.pred]; split <;> simp [hk]
    obtain ⟨k', hk'⟩ := hk1
    have h2 := ih (v.addSuccessor s node) k' hk'
    generalize v.addSuccessor s node = v1 at *
    generalize ns.foldl (fun v s => v.addSuccessor s node) v1 = v2 at *
    have hp1 := h1.pred
    have hp2 := h2.pred
    rw [h1.done] at hp2
    constructor
    · rw [h2.yielded, h1.yielded]
    · rw [h2.done, h1.done]
    · rw [h2.closed, h1.closed]
    · rw [h2.broken, h1.broken]
    · intro n
      rw [hp2, hp1, hp1 n, hk]
      by_cases hn : n = node ∧ node ∉ v.done
      · simp [hn]; omega
      · simp [hn]
    · intro a b
      rw [h2.conf, h1.conf, h1.done, h1.yielded]
      grind
    · intro a b
      rw [h2.rconf, h1.rconf, h1.done, h1.yielded]
      grind
    · rw [h2.ready, h1.ready, hp1, h1.done, hk]
      by_cases hd : node ∈ v.done
      · simp [hd]
      · simp [hd]
        by_cases hA : k ≤ 0 ∧ 0 < k + 1
        · have e1 : ¬ (k + 1 ≤ 0) := by omega
          have e2 : 0 < k + ((ns.length : Int) + 1) := by omega
          simp [hA, e2]
          grind
        · have : (k + 1 ≤ 0 ∧ 0 < k + 1 + (ns.length : Int)) ↔ (k ≤ 0 ∧ 0 < k + ((ns.length : Int) + 1)) := by
            omega
          rw [if_neg (c := k ≤ 0 ∧ 0 < k + 1) hA]
          simp only [this]

end Big.Graph
