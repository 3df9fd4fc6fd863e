import Verif.Graph.ViewLemmas
/- The view invariants are preserved by every operation. -/
namespace Big.Graph
variable {ν : Type} [DecidableEq ν]

theorem ite_or {α : Type} (p : Prop) [Decidable p] (a b : α) :
    (if p then a else b) = a ∨ (if p then a else b) = b := by
  by_cases h : p <;> simp [h]

/-- What add does to a view, in one statement. -/
theorem afterAdd_spec {g g' : Graph ν} {node : ν} {deps nn ns : List ν}
    (a : AddSpec g node deps g' nn ns) {v : View ν} (w : WInv g v) :
    SuccSpec { v with pred := fun n => if n ∈ nn then some 0 else v.pred n, ready := v.ready ++ nn }
      node ns (v.afterAdd node nn ns) := by
  unfold View.afterAdd
  rw [addNodes_spec]
  have hn := a.hnode
  rw [a.hkeys] at hn
  obtain ⟨k, hk⟩ : ∃ k, (if node ∈ nn then some 0 else v.pred node) = some k := by
    by_cases h : node ∈ nn
    · simp [h]
    · rcases List.mem_append.1 hn with h' | h'
      · simpa [h] using w.pr node h'
      · exact absurd h' h
  exact addSuccessor_fold_spec node ns _ k hk

theorem WInv.add {g g' : Graph ν} {node : ν} {deps nn ns : List ν}
    (a : AddSpec g node deps g' nn ns) {v : View ν} (w : WInv g v) :
    WInv g' (v.afterAdd node nn ns) := by
  have sp := afterAdd_spec a w
  generalize v.afterAdd node nn ns = v' at *
  have hkey : ∀ n, n ∈ g'.keys ↔ n ∈ g.keys ∨ n ∈ nn := by intro n; rw [a.hkeys]; simp
  have hpr : ∀ n ∈ g'.keys, ∃ k, (if n ∈ nn then some 0 else v.pred n) = some k := by
    intro n hn
    by_cases h : n ∈ nn
    · simp [h]
    · rcases (hkey n).1 hn with h' | h'
      · simpa [h] using w.pr n h'
      · exact absurd h' h
  have hp := sp.pred
  have hrd := sp.ready
  simp only at hp hrd
  have hrd' : v'.ready = (v.ready ++ nn).erase node ∨ v'.ready = v.ready ++ nn := by
    rw [hrd]; exact ite_or _ _ _
  have hsub : ∀ n ∈ v'.ready, n ∈ v.ready ++ nn := by
    intro n hn
    rcases hrd' with h | h <;> rw [h] at hn
    · exact List.mem_of_mem_erase hn
    · exact hn
  have hrn : (v.ready ++ nn).Nodup := by
    rw [List.nodup_append]
    refine ⟨w.rn, a.hnn, ?_⟩
    rintro x hx y hy rfl
    exact a.hnnd x hy (w.rk x hx).1
  have hmem : ∀ n ∈ v.ready ++ nn, ∃ k, (if n ∈ nn then some 0 else v.pred n) = some k ∧ k ≤ 0 := by
    intro n hn
    by_cases h : n ∈ nn
    · simp [h]
    · rcases List.mem_append.1 hn with h' | h'
      · simpa [h] using w.rp n h'
      · exact absurd h' h
  constructor
  · rw [sp.broken]; exact w.nb
  · intro n hn
    rw [hp]
    split
    · obtain ⟨k, hk⟩ := hpr node a.hnode
      simp [hk]
    · exact hpr n hn
  · rcases hrd' with h | h <;> rw [h]
    · exact hrn.erase _
    · exact hrn
  · intro n hn
    rw [sp.yielded, sp.done, hkey]
    rcases List.mem_append.1 (hsub n hn) with h | h
    · exact ⟨.inl (w.rk n h).1, (w.rk n h).2⟩
    · exact ⟨.inr h, fun hy => a.hnnd n h (w.yk n hy).1, fun hy => a.hnnd n h (w.dk n hy)⟩
  · intro n hn
    obtain ⟨k, hk, hk0⟩ := hmem n (hsub n hn)
    rw [hp]
    split
    · rename_i hc
      obtain ⟨rfl, hd⟩ := hc
      rw [hk]
      refine ⟨k + ns.length, by simp, ?_⟩
      rw [hrd] at hn
      by_cases h : 0 < k + (ns.length : Int)
      · rw [if_pos ⟨⟨k, hk, hk0, h⟩, hd⟩] at hn
        exact absurd hn (by simp [hrn.mem_erase_iff])
      · omega
    · exact ⟨k, hk, hk0⟩
  · rw [sp.yielded]; exact w.yn
  · intro n hn
    rw [sp.yielded] at hn
    rw [sp.done, hkey]
    exact ⟨.inl (w.yk n hn).1, (w.yk n hn).2⟩
  · rw [sp.done]; exact w.dn
  · intro n hn
    rw [sp.done] at hn
    rw [hkey]; exact .inl (w.dk n hn)
  · intro x y
    rw [sp.conf, sp.rconf]
    simp only [w.mir]

theorem oc_add {g g' : Graph ν} {node : ν} {deps nn ns : List ν} (wf : WF g)
    (a : AddSpec g node deps g' nn ns) (D : List ν) (n : ν) :
    oc g' D n = oc g D n + (if n = node then ns.countP (fun s => decide (s ∉ D)) else 0) := by
  have hnd : g'.keys.Nodup := (a.wf wf).nodup
  unfold oc
  have e1 : g'.keys.countP (fun d => decide (n ∈ g'.succ d) && decide (d ∉ D)) =
      g'.keys.countP (fun d => (decide (n ∈ base g d) && decide (d ∉ D)) ||
        (decide (n = node) && decide (d ∈ ns) && decide (d ∉ D))) := by
    apply List.countP_congr
    intro d hd
    simp only [Bool.and_eq_true, Bool.or_eq_true, decide_eq_true_eq]
    rw [a.hsucc d hd]
    grind
  rw [e1, countP_add_of_disjoint]
  · congr 1
    · rw [a.hkeys, List.countP_append]
      have : nn.countP (fun d => decide (n ∈ base g d) && decide (d ∉ D)) = 0 := by
        rw [List.countP_eq_zero]
        intro d hd
        simp [base, a.hnnd d hd]
      rw [this]
      apply List.countP_congr
      intro d hd
      simp [base, hd]
    · by_cases h : n = node
      · simp only [h, if_true, decide_true, Bool.true_and]
        rw [List.countP_eq_length_filter, List.countP_eq_length_filter]
        apply List.Perm.length_eq
        rw [List.perm_ext_iff_of_nodup (hnd.filter _) (a.hns.filter _)]
        intro s
        simp only [List.mem_filter, Bool.and_eq_true, decide_eq_true_eq]
        constructor
        · rintro ⟨_, h1, h2⟩; exact ⟨h1, h2⟩
        · rintro ⟨h1, h2⟩; exact ⟨(a.hnsk s h1).1, h1, h2⟩
      · simp [h]
  · intro d hd
    have := a.hnsk d
    simp only [Bool.and_eq_true, decide_eq_true_eq]
    rintro ⟨⟨h1, _⟩, ⟨rfl, h2⟩, _⟩
    exact (this h2).2.1 h1

theorem CInv.add {late late' : ν → Prop} {g g' : Graph ν} {node : ν} {deps nn ns : List ν} (wf : WF g)
    (a : AddSpec g node deps g' nn ns) {v : View ν} (w : WInv g v) (c : CInv late g v v.done)
    (hlk : ∀ n, late n → n ∈ g.keys)
    (hx : ∀ n, n ∉ v.yielded → n ∉ v.done → (late' n ↔ late n ∨ (n = node ∧ ∃ s ∈ ns, s ∈ v.done))) :
    CInv late' g' (v.afterAdd node nn ns) v.done := by
  have sp := afterAdd_spec a w
  generalize v.afterAdd node nn ns = v' at *
  have hp := sp.pred
  have hrd := sp.ready
  have hy := sp.yielded
  have hdn := sp.done
  simp only at hp hrd hy hdn
  have hoc := oc_add wf a v.done
  have hkey : ∀ n, n ∈ g'.keys ↔ n ∈ g.keys ∨ n ∈ nn := by intro n; rw [a.hkeys]; simp
  have hnew : ∀ n ∈ nn, oc g v.done n = 0 := by
    intro n hn
    rw [oc_zero]
    intro d hd hnd
    exact absurd (wf.closed d hd n hnd) (a.hnnd n hn)
  -- before the edges
  have hlb : ∀ n ∈ g'.keys, n ∉ v.yielded → n ∉ v.done → ∀ k,
      (if n ∈ nn then some 0 else v.pred n) = some k →
      (oc g v.done n : Int) ≤ k ∧ (k = oc g v.done n ↔ ¬ late n) := by
    intro n hn h1 h2 k hk
    by_cases h : n ∈ nn
    · simp [h] at hk; rw [hnew n h]; subst hk; simp; exact fun hl => a.hnnd n h (hlk n hl)
    · rw [if_neg h] at hk
      rcases (hkey n).1 hn with h' | h'
      · exact c.lb n h' h1 h2 k hk
      · exact absurd h' h
  have hrd0 : ∀ n ∈ g'.keys, n ∉ v.yielded → n ∉ v.done →
      (if n ∈ nn then some 0 else v.pred n) = some 0 → n ∈ v.ready ++ nn := by
    intro n hn h1 h2 hk
    by_cases h : n ∈ nn
    · simp [h]
    · rw [if_neg h] at hk
      rcases (hkey n).1 hn with h' | h'
      · simp [c.rd n h' h1 h2 hk]
      · exact absurd h' h
  have hcl : ns.countP (fun s => decide (s ∉ v.done)) ≤ ns.length := List.countP_le_length
  constructor
  · intro n hn h1 h2 k hk
    rw [hy] at h1
    rw [hdn] at h2
    rw [hp] at hk
    by_cases hnn : n = node
    · subst hnn
      rw [if_pos ⟨rfl, h2⟩] at hk
      obtain ⟨k0, hk0, hk1⟩ := Option.map_eq_some_iff.1 hk
      have := hlb n hn h1 h2 k0 hk0
      rw [hoc, if_pos rfl]
      refine ⟨by omega, ?_⟩
      have hns : ns.countP (fun s => decide (s ∉ v.done)) = ns.length ↔ ¬ ∃ s ∈ ns, s ∈ v.done := by
        rw [List.countP_eq_length]; simp
      rw [hx n h1 h2, not_or, ← this.2]
      simp only [true_and]
      rw [← hns]
      omega
    · rw [if_neg (by grind)] at hk
      rw [hoc, if_neg hnn, hx n h1 h2]
      simp only [hnn, false_and, or_false]
      exact hlb n hn h1 h2 k hk
  · intro n hn h1 h2 hk
    rw [hy] at h1
    rw [hdn] at h2
    rw [hp] at hk
    by_cases hnn : n = node
    · subst hnn
      rw [if_pos ⟨rfl, h2⟩] at hk
      obtain ⟨k0, hk0, hk1⟩ := Option.map_eq_some_iff.1 hk
      have := hlb n hn h1 h2 k0 hk0
      have hk2 : k0 = 0 := by omega
      subst hk2
      rw [hrd, if_neg]
      · exact hrd0 n hn h1 h2 hk0
      · rintro ⟨⟨k, e1, e2, e3⟩, _⟩
        rw [hk0] at e1
        simp at e1; omega
    · rw [if_neg (by grind)] at hk
      have := hrd0 n hn h1 h2 hk
      have hrd' : v'.ready = (v.ready ++ nn).erase node ∨ v'.ready = v.ready ++ nn := by
        rw [hrd]; exact ite_or _ _ _
      rcases hrd' with h | h <;> rw [h]
      · exact (List.mem_erase_of_ne hnn).2 this
      · exact this

theorem KInv.add {g g' : Graph ν} {node : ν} {deps nn ns : List ν} 
    (a : AddSpec g node deps g' nn ns) {v : View ν} (w : WInv g v) (c : KInv g v) :
    KInv g' (v.afterAdd node nn ns) := by
  have sp := afterAdd_spec a w
  generalize v.afterAdd node nn ns = v' at *
  intro x y
  rw [sp.conf, sp.yielded, sp.done, c x y]
  have hkey : ∀ n, n ∈ g'.keys ↔ n ∈ g.keys ∨ n ∈ nn := by intro n; rw [a.hkeys]; simp
  simp only
  constructor
  · rintro (⟨h1, h2, h3, h4⟩ | ⟨rfl, h1, h2, h3⟩)
    · have hx := (hkey x).2 (.inl h1)
      refine ⟨hx, ?_, h3, h4⟩
      rw [a.hsucc x hx]; simp [base, h1, h2]
    · have hx := (a.hnsk x h1).1
      refine ⟨hx, ?_, h3, h2⟩
      rw [a.hsucc x hx]; simp [h1]
  · rintro ⟨h1, h2, h3, h4⟩
    rw [a.hsucc x h1] at h2
    rcases List.mem_append.1 h2 with h | h
    · left
      unfold base at h
      split at h
      · exact ⟨by assumption, h, h3, h4⟩
      · simp at h
    · right
      split at h
      · simp at h; subst h; exact ⟨rfl, by assumption, h4, h3⟩
      · simp at h

/-! ### remove -/

theorem dropConflicts_spec (conf rconf : List (ν × ν)) (node : ν)
    (h : ∀ a b, (a, b) ∈ conf ↔ (b, a) ∈ rconf) :
    let r1 := dropConflicts conf rconf node
    let r2 := dropConflicts r1.2 r1.1 node
    (∀ a b, (a, b) ∈ r2.2 ↔ (a, b) ∈ conf ∧ a ≠ node ∧ b ≠ node) ∧
    (∀ a b, (b, a) ∈ r2.1 ↔ (b, a) ∈ rconf ∧ a ≠ node ∧ b ≠ node) := by
  have hv : ∀ (l : List (ν × ν)) (a : ν),
      (a ∈ (l.filter (fun p => p.1 = node)).map (·.2)) ↔ (node, a) ∈ l := by
    intro l a; simp
  constructor
  · intro a b
    simp only [dropConflicts, List.mem_filter, hv, decide_eq_true_eq]
    grind
  · intro a b
    simp only [dropConflicts, List.mem_filter, hv, decide_eq_true_eq]
    grind

theorem oc_remove {g g' : Graph ν} {x : ν} {ss : List ν} (wf : WF g) (r : RemSpec g x g' ss)
    (D : List ν) (n : ν) (hn : n ≠ x) :
    oc g D n = oc g' D n + (if n ∈ g.succ x ∧ x ∉ D then 1 else 0) := by
  unfold oc
  rw [countP_erase_nodup g.keys wf.nodup x r.hmem, r.hkeys]
  congr 1
  · apply List.countP_congr
    intro d hd
    simp only [Bool.and_eq_true, decide_eq_true_eq]
    rw [r.hsucc d (List.mem_of_mem_erase hd)]
    rw [(wf.succNodup d (List.mem_of_mem_erase hd)).mem_erase_iff]
    simp [hn]
  · simp

/-- The view after the conflict clean-up in `_remove_node`. -/
def View.dropConf (v : View ν) (node : ν) : View ν :=
  { v with conf := (dropConflicts (dropConflicts v.conf v.rconf node).2 (dropConflicts v.conf v.rconf node).1 node).2,
           rconf := (dropConflicts (dropConflicts v.conf v.rconf node).2 (dropConflicts v.conf v.rconf node).1 node).1 }

theorem removeNode_done {v : View ν} {x : ν} {ss : List ν} (hx : x ∈ v.done) :
    v.removeNode x ss = { v.dropConf x with done := v.done.erase x } := by
  unfold View.removeNode
  simp only
  rw [if_pos hx]
  rfl

/-- The view just before the successors are marked in `_remove_node`. -/
def View.cut (v : View ν) (x : ν) : View ν :=
  { v.dropConf x with ready := v.ready.erase x, yielded := v.yielded.erase x, pred := upd v.pred x none }

theorem removeNode_not_done {v : View ν} {x : ν} {ss : List ν} (hx : x ∉ v.done) {k : Int}
    (hk : v.pred x = some k) :
    v.removeNode x ss = (v.cut x).markNodeDone ss := by
  unfold View.removeNode
  simp only
  rw [if_neg hx]
  by_cases hr : x ∈ v.ready
  · simp only [hr, if_true, hk]; rfl
  · simp only [hr, if_false, hk]
    unfold View.cut
    rw [List.erase_of_not_mem hr]
    rfl

theorem cut_winv {g g' : Graph ν} {x : ν} {ss : List ν} (wf : WF g) (r : RemSpec g x g' ss)
    {v : View ν} (w : WInv g v) (hx : x ∉ v.done) : WInv g' (v.cut x) := by
  have hkey : ∀ n, n ∈ g'.keys ↔ n ∈ g.keys ∧ n ≠ x := by
    intro n; rw [r.hkeys, wf.nodup.mem_erase_iff]; grind
  have dc := dropConflicts_spec v.conf v.rconf x w.mir
  constructor <;> simp only [View.cut, View.dropConf]
  · exact w.nb
  · intro n hn
    rw [hkey] at hn
    rw [upd_ne _ _ hn.2]; exact w.pr n hn.1
  · exact w.rn.erase _
  · intro n hn
    rw [w.rn.mem_erase_iff] at hn
    obtain ⟨h1, h2, h3⟩ := w.rk n hn.2
    exact ⟨(hkey n).2 ⟨h1, hn.1⟩, fun h => h2 (List.mem_of_mem_erase h), h3⟩
  · intro n hn
    rw [w.rn.mem_erase_iff] at hn
    rw [upd_ne _ _ hn.1]; exact w.rp n hn.2
  · exact w.yn.erase _
  · intro n hn
    rw [w.yn.mem_erase_iff] at hn
    exact ⟨(hkey n).2 ⟨(w.yk n hn.2).1, hn.1⟩, (w.yk n hn.2).2⟩
  · exact w.dn
  · intro n hn
    exact (hkey n).2 ⟨w.dk n hn, fun h => hx (h ▸ hn)⟩
  · intro a b
    rw [dc.1, dc.2, w.mir]

theorem WInv.remove {g g' : Graph ν} {x : ν} {ss : List ν} (wf : WF g) (r : RemSpec g x g' ss)
    {v : View ν} (w : WInv g v) : WInv g' (v.removeNode x ss) := by
  have hkey : ∀ n, n ∈ g'.keys ↔ n ∈ g.keys ∧ n ≠ x := by
    intro n; rw [r.hkeys, wf.nodup.mem_erase_iff]; grind
  by_cases hx : x ∈ v.done
  · rw [removeNode_done hx]
    have dc := dropConflicts_spec v.conf v.rconf x w.mir
    constructor <;> simp only [View.dropConf]
    · exact w.nb
    · intro n hn
      exact w.pr n ((hkey n).1 hn).1
    · exact w.rn
    · intro n hn
      obtain ⟨h1, h2, h3⟩ := w.rk n hn
      exact ⟨(hkey n).2 ⟨h1, fun h => h3 (h ▸ hx)⟩, h2, fun h => h3 (List.mem_of_mem_erase h)⟩
    · exact w.rp
    · exact w.yn
    · intro n hn
      obtain ⟨h1, h2⟩ := w.yk n hn
      exact ⟨(hkey n).2 ⟨h1, fun h => h2 (h ▸ hx)⟩, fun h => h2 (List.mem_of_mem_erase h)⟩
    · exact w.dn.erase _
    · intro n hn
      rw [w.dn.mem_erase_iff] at hn
      exact (hkey n).2 ⟨w.dk n hn.2, hn.1⟩
    · intro a b
      rw [dc.1, dc.2, w.mir]
  · obtain ⟨k, hk⟩ := w.pr x r.hmem
    rw [removeNode_not_done hx hk]
    apply (cut_winv wf r w hx).mark
    · rw [r.hss]; exact (wf.succNodup x r.hmem).erase _
    · intro s hs
      rw [r.hss, (wf.succNodup x r.hmem).mem_erase_iff] at hs
      exact (hkey s).2 ⟨wf.closed x r.hmem s hs.2, hs.1⟩

/-- Fields of the view after `remove`. -/
theorem removeNode_fields {g g' : Graph ν} {x : ν} {ss : List ν} (wf : WF g) (r : RemSpec g x g' ss)
    {v : View ν} (w : WInv g v) :
    (∀ n, n ∈ (v.removeNode x ss).yielded ↔ n ∈ v.yielded ∧ n ≠ x) ∧
    (∀ n, n ∈ (v.removeNode x ss).done ↔ n ∈ v.done ∧ n ≠ x) ∧
    (∀ a b, (a, b) ∈ (v.removeNode x ss).conf ↔ (a, b) ∈ v.conf ∧ a ≠ x ∧ b ≠ x) ∧
    (v.removeNode x ss).closed = v.closed := by
  have dc := dropConflicts_spec v.conf v.rconf x w.mir
  by_cases hx : x ∈ v.done
  · rw [removeNode_done hx]
    simp only [View.dropConf]
    refine ⟨?_, ?_, dc.1, by trivial⟩
    · intro n
      constructor
      · intro h; exact ⟨h, fun e => (w.yk n h).2 (e ▸ hx)⟩
      · exact fun h => h.1
    · intro n; rw [w.dn.mem_erase_iff]; grind
  · obtain ⟨k, hk⟩ := w.pr x r.hmem
    have hS : ss.Nodup := by rw [r.hss]; exact (wf.succNodup x r.hmem).erase _
    rw [removeNode_not_done hx hk, markNodeDone_spec ss hS]
    · simp only [View.cut, View.dropConf]
      refine ⟨?_, ?_, dc.1, by trivial⟩
      · intro n; rw [w.yn.mem_erase_iff]; grind
      · intro n
        constructor
        · intro h; exact ⟨h, fun e => hx (e ▸ h)⟩
        · exact fun h => h.1
    · intro s hs h1 h2
      rw [r.hss, (wf.succNodup x r.hmem).mem_erase_iff] at hs
      simp only [View.cut]
      rw [upd_ne _ _ hs.1]
      obtain ⟨k, hk⟩ := w.pr s (wf.closed x r.hmem s hs.2)
      simp [hk]

theorem CInv.remove {late late' : ν → Prop} {g g' : Graph ν} {x : ν} {ss : List ν} (wf : WF g)
    (r : RemSpec g x g' ss) {v : View ν} (w : WInv g v) (c : CInv late g v v.done)
    (hl : ∀ n, n ≠ x → (late' n ↔ late n)) :
    CInv late' g' (v.removeNode x ss) (v.removeNode x ss).done := by
  have hkey : ∀ n, n ∈ g'.keys ↔ n ∈ g.keys ∧ n ≠ x := by
    intro n; rw [r.hkeys, wf.nodup.mem_erase_iff]; grind
  by_cases hx : x ∈ v.done
  · rw [removeNode_done hx]
    have hD : ∀ n, n ≠ x → oc g v.done n = oc g' (v.done.erase x) n := by
      intro n hn
      rw [oc_remove wf r _ n hn, if_neg (by simp [hx])]
      unfold oc
      rw [Nat.add_zero]
      apply List.countP_congr
      intro d hd
      simp only [Bool.and_eq_true, decide_eq_true_eq]
      rw [w.dn.mem_erase_iff]
      have := ((hkey d).1 hd).2
      grind
    constructor <;> simp only [View.dropConf]
    · intro n hn h1 h2 k hk
      obtain ⟨h3, h4⟩ := (hkey n).1 hn
      rw [← hD n h4, hl n h4]
      exact c.lb n h3 h1 (fun h => h2 ((List.mem_erase_of_ne h4).2 h)) k hk
    · intro n hn h1 h2 hk
      obtain ⟨h3, h4⟩ := (hkey n).1 hn
      exact c.rd n h3 h1 (fun h => h2 ((List.mem_erase_of_ne h4).2 h)) hk
  · obtain ⟨k, hk⟩ := w.pr x r.hmem
    have hS : ss.Nodup := by rw [r.hss]; exact (wf.succNodup x r.hmem).erase _
    have hSm : ∀ n, n ≠ x → (n ∈ ss ↔ n ∈ g.succ x) := by
      intro n hn; rw [r.hss, (wf.succNodup x r.hmem).mem_erase_iff]; simp [hn]
    rw [removeNode_not_done hx hk, markNodeDone_spec ss hS]
    · have ho := fun n hn => oc_remove wf r v.done n hn
      constructor <;> simp only [View.cut, View.dropConf]
      · intro n hn h1 h2 k hk
        obtain ⟨h3, h4⟩ := (hkey n).1 hn
        have h1' : n ∉ v.yielded := fun h => h1 ((List.mem_erase_of_ne h4).2 h)
        have ho' := ho n h4
        rw [upd_ne _ _ h4] at hk
        by_cases hs : n ∈ ss
        · simp only [hs, h1, h2, not_false_eq_true, and_self, if_true] at hk
          obtain ⟨k0, hk0, hk1⟩ := Option.map_eq_some_iff.1 hk
          have := c.lb n h3 h1' h2 k0 hk0
          rw [if_pos ⟨(hSm n h4).1 hs, hx⟩] at ho'
          refine ⟨by omega, ?_⟩
          rw [hl n h4, ← this.2]
          omega
        · simp only [hs, false_and, if_false] at hk
          have := c.lb n h3 h1' h2 k hk
          rw [if_neg (by grind)] at ho'
          refine ⟨by omega, ?_⟩
          rw [hl n h4, ← this.2]
          omega
      · intro n hn h1 h2 hk
        obtain ⟨h3, h4⟩ := (hkey n).1 hn
        have h1' : n ∉ v.yielded := fun h => h1 ((List.mem_erase_of_ne h4).2 h)
        rw [upd_ne _ _ h4] at hk
        by_cases hs : n ∈ ss
        · simp only [hs, h1, h2, not_false_eq_true, and_self, if_true] at hk
          obtain ⟨k0, hk0, hk1⟩ := Option.map_eq_some_iff.1 hk
          have : k0 = 1 := by omega
          subst this
          exact List.mem_append.2 (.inr (by simp [hs, h1, h2, hk0, upd_ne _ _ h4]))
        · simp only [hs, false_and, if_false] at hk
          have := c.rd n h3 h1' h2 hk
          exact List.mem_append.2 (.inl ((List.mem_erase_of_ne h4).2 this))
    · intro s hs h1 h2
      rw [r.hss, (wf.succNodup x r.hmem).mem_erase_iff] at hs
      simp only [View.cut]
      rw [upd_ne _ _ hs.1]
      obtain ⟨k, hk⟩ := w.pr s (wf.closed x r.hmem s hs.2)
      simp [hk]

theorem KInv.remove {g g' : Graph ν} {x : ν} {ss : List ν} (wf : WF g)
    (r : RemSpec g x g' ss) {v : View ν} (w : WInv g v) (c : KInv g v) :
    KInv g' (v.removeNode x ss) := by
  obtain ⟨f1, f2, f3, _⟩ := removeNode_fields wf r w
  have hkey : ∀ n, n ∈ g'.keys ↔ n ∈ g.keys ∧ n ≠ x := by
    intro n; rw [r.hkeys, wf.nodup.mem_erase_iff]; grind
  intro a b
  rw [f3, f1, f2, f2, hkey, c a b]
  constructor
  · rintro ⟨⟨h1, h2, h3, h4⟩, h5, h6⟩
    refine ⟨⟨h1, h5⟩, ?_, by grind, by grind⟩
    rw [r.hsucc a h1]; exact (List.mem_erase_of_ne h6).2 h2
  · rintro ⟨⟨h1, h5⟩, h2, h3, h4⟩
    rw [r.hsucc a h1, (wf.succNodup a h1).mem_erase_iff] at h2
    exact ⟨⟨h1, h2.2, by grind, by grind⟩, h5, h2.1⟩

end Big.Graph
