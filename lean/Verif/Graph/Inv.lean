import Verif.Graph.SysLemmas
import Verif.Graph.Spec
/- The invariant of reachable states. -/
namespace Big.Graph
variable {ν : Type} [DecidableEq ν]

/-- The invariant: the object's state against what the observer knows. -/
structure Inv (s : Sys ν) (o : Obs ν) : Prop where
  wf : WF s.g
  dirt : s.g.dirty = false → s.g.Acyclic
  gn : ∀ n, n ∈ s.g.keys ↔ o.node n
  ge : ∀ d n, s.g.Edge d n ↔ o.edge d n
  dfo : s.dflt.closed = false
  sto : s.stock.closed = false ∧ s.stock.yielded = [] ∧ s.stock.done = [] ∧ s.stock.conf = []
  stk : VOk True never s.g s.stock
  vs : ∀ h v, s.get h = some v → v.closed = false → VOk (o.seen h).clean (o.seen h).late s.g v ∧
    ∀ n, (n ∈ v.yielded ↔ (o.seen h).yielded n) ∧ (n ∈ v.done ↔ (o.seen h).done n)

theorem get_mapViews (s : Sys ν) (f : View ν → View ν) (hd : s.dflt.closed = false) (h : H) :
    (s.mapViews f).get h = (s.get h).map (fun v => if v.closed then v else f v) := by
  cases h with
  | dflt => simp [Sys.mapViews, Sys.get, hd]
  | user k => simp [Sys.mapViews, Sys.get]

theorem get_set (s : Sys ν) (h h' : H) (v w : View ν) (hg : s.get h = some w) :
    (s.set h v).get h' = if h' = h then some v else s.get h' := by
  cases h with
  | dflt => cases h' <;> simp [Sys.set, Sys.get]
  | user k =>
    cases h' with
    | dflt => simp [Sys.set, Sys.get]
    | user k' =>
      simp only [Sys.get] at hg
      have hk : k < s.user.length := by
        rw [List.getElem?_eq_some_iff] at hg; exact hg.1
      simp only [Sys.set, Sys.get, List.getElem?_set]
      by_cases hkk : k = k'
      · subst hkk; simp [hk]
      · have : ¬ k' = k := fun e => hkk e.symm
        simp [hkk, this]

theorem winv_init : WInv (Graph.empty : Graph ν) View.empty := by
  constructor <;> simp [Graph.empty, View.empty]

theorem vok_init (c : Prop) : VOk c never (Graph.empty : Graph ν) View.empty := by
  refine ⟨winv_init, by simp [SInv, View.empty], by simp [never],
    fun _ => ⟨⟨by simp [Graph.empty], by simp [Graph.empty]⟩, ?_⟩⟩
  intro a b; simp [Graph.empty, View.empty]

theorem inv_init : Inv (Sys.init : Sys ν) Obs.init := by
  constructor
  · exact WF.empty
  · intro _ n hn
    have : ∀ a b : ν, ¬ Relation.TransGen (Graph.empty : Graph ν).Edge a b := by
      intro a b hab
      cases hab with
      | single h => simp [Graph.Edge, Graph.empty] at h
      | tail _ h => simp [Graph.Edge, Graph.empty] at h
    exact this n n hn
  · simp [Sys.init, Graph.empty, Obs.init]
  · simp [Sys.init, Graph.empty, Obs.init, Graph.Edge]
  · rfl
  · simp [Sys.init, View.empty]
  · exact vok_init _
  · intro h v hv _
    cases h with
    | dflt =>
      simp [Sys.init, Sys.get] at hv
      subst hv
      exact ⟨vok_init _, by simp [View.empty, Obs.init, Seen.none]⟩
    | user k => simp [Sys.init, Sys.get] at hv

/-- Replacing one view (and the dirty flag). -/
theorem Inv.setView {s : Sys ν} {o : Obs ν} (i : Inv s o) {h : H} {v v' : View ν}
    {b : Bool} {sn : Seen ν} (hg : s.get h = some v)
    (hb : b = false → s.g.Acyclic) (hv' : v'.closed = false → VOk sn.clean sn.late s.g v' ∧
      ∀ n, (n ∈ v'.yielded ↔ sn.yielded n) ∧ (n ∈ v'.done ↔ sn.done n))
    (hd : h = .dflt → v'.closed = false) :
    Inv { s.set h v' with g := { s.g with dirty := b } } (o.put h sn) := by
  have hgr : ∀ h', ({ s.set h v' with g := { s.g with dirty := b } } : Sys ν).get h' =
      (s.set h v').get h' := by intro h'; cases h' <;> rfl
  have hdf : (s.set h v').dflt.closed = false := by
    cases h with
    | dflt => exact hd rfl
    | user k => exact i.dfo
  have hst : (s.set h v').stock = s.stock := by cases h <;> rfl
  constructor
  · exact dirty_wf b i.wf
  · exact hb
  · exact i.gn
  · exact i.ge
  · exact hdf
  · show (s.set h v').stock.closed = false ∧ (s.set h v').stock.yielded = [] ∧
      (s.set h v').stock.done = [] ∧ (s.set h v').stock.conf = []
    rw [hst]; exact i.sto
  · show VOk True never _ (s.set h v').stock
    rw [hst]; exact i.stk.dirty b
  · intro h' w hw hcl
    rw [hgr, get_set s h h' v' v hg] at hw
    by_cases he : h' = h
    · subst he
      simp at hw
      subst hw
      obtain ⟨h1, h2⟩ := hv' hcl
      refine ⟨by simpa [Obs.put] using h1.dirty b, ?_⟩
      simpa [Obs.put] using h2
    · rw [if_neg he] at hw
      obtain ⟨h1, h2⟩ := i.vs h' w hw hcl
      refine ⟨by simpa [Obs.put, he] using h1.dirty b, ?_⟩
      simpa [Obs.put, he] using h2

theorem Inv.putNone {s : Sys ν} {o : Obs ν} (i : Inv s o) {h : H} (hg : s.get h = none) (sn : Seen ν) :
    Inv s (o.put h sn) := by
  refine ⟨i.wf, i.dirt, i.gn, i.ge, i.dfo, i.sto, i.stk, ?_⟩
  intro h' v hv hcl
  have hne : h' ≠ h := by rintro rfl; rw [hg] at hv; simp at hv
  simpa [Obs.put, hne] using i.vs h' v hv hcl

theorem Inv.sameView {s : Sys ν} {o : Obs ν} (i : Inv s o) {h : H} {v v' : View ν}
    {b : Bool} (hg : s.get h = some v)
    (hb : b = false → s.g.Acyclic) (hv' : v'.closed = false → VOk (o.seen h).clean (o.seen h).late s.g v' ∧
      ∀ n, (n ∈ v'.yielded ↔ n ∈ v.yielded) ∧ (n ∈ v'.done ↔ n ∈ v.done))
    (hd : v'.closed = v.closed) :
    Inv { s.set h v' with g := { s.g with dirty := b } } o := by
  have e : o = o.put h (o.seen h) := by
    unfold Obs.put
    cases o with
    | mk a b f => congr 1; funext h'; by_cases hh : h' = h <;> simp [hh]
  rw [e]
  apply i.setView hg hb
  · intro hc
    have h0 := i.vs h v hg (hd ▸ hc)
    refine ⟨(hv' hc).1, fun n => ?_⟩
    rw [((hv' hc).2 n).1, ((hv' hc).2 n).2]
    exact h0.2 n
  · rintro rfl
    simp [Sys.get] at hg
    subst hg
    rw [hd]; exact i.dfo

theorem Sys.eta_dirty (s : Sys ν) (h : H) (v : View ν) :
    ({ s.set h v with g := { s.g with dirty := s.g.dirty } } : Sys ν) = s.set h v := by
  cases h <;> rfl

theorem Inv.step {s : Sys ν} {o : Obs ν} (i : Inv s o) {ord : List ν → List ν}
    (hord : ∀ l, (ord l).Perm l) (op : Op ν) :
    Inv (step ord s op).1 (observe o op (step ord s op).2) := by
  cases op with
  | add node deps =>
    have a := add_spec s.g node deps
    simp only [Big.Graph.step]
    generalize (s.g.add node deps).1 = g' at *
    generalize (s.g.add node deps).2.1 = nn at *
    generalize (s.g.add node deps).2.2 = ns at *
    have hkey : ∀ n, n ∈ g'.keys ↔ n ∈ s.g.keys ∨ n ∈ nn := by intro n; rw [a.hkeys]; simp
    have hedge : ∀ d n, g'.Edge d n ↔ s.g.Edge d n ∨ (n = node ∧ d ∈ deps) := by
      intro d n
      unfold Graph.Edge
      constructor
      · rintro ⟨h1, h2⟩
        rw [a.hsucc d h1] at h2
        rcases List.mem_append.1 h2 with h | h
        · left
          unfold base at h
          split at h
          · exact ⟨by assumption, h⟩
          · simp at h
        · right
          split at h
          · simp at h; exact ⟨h, (a.hnsk d (by assumption)).2.2⟩
          · simp at h
      · rintro (⟨h1, h2⟩ | ⟨rfl, h2⟩)
        · have hx := (hkey d).2 (.inl h1)
          refine ⟨hx, ?_⟩
          rw [a.hsucc d hx]; simp [base, h1, h2]
        · exact a.hdeps d h2
    have hns : ∀ d, d ∈ ns ↔ d ∈ deps ∧ ¬ o.edge d node := by
      intro d
      rw [← i.ge]
      constructor
      · intro hd
        obtain ⟨e1, e2, e3⟩ := a.hnsk d hd
        refine ⟨e3, ?_⟩
        rintro ⟨f1, f2⟩
        exact e2 (by simp [base, f1, f2])
      · rintro ⟨h1, h2⟩
        obtain ⟨h3, h4⟩ := a.hdeps d h1
        rw [a.hsucc d h3] at h4
        rcases List.mem_append.1 h4 with h | h
        · exfalso
          apply h2
          unfold base at h
          split at h
          · exact ⟨by assumption, h⟩
          · simp at h
        · split at h
          · assumption
          · simp at h
    constructor
    · exact a.wf i.wf
    · intro hdirty
      simp only [Sys.mapViews] at hdirty
      rw [a.hdirty] at hdirty
      simp at hdirty
      have hac := i.dirt hdirty.1
      simp only [Sys.mapViews]
      apply acyclic_mono _ hac
      intro p q hpq
      obtain ⟨h1, h2⟩ := hpq
      rw [a.hsucc p h1, hdirty.2] at h2
      simp at h2
      unfold base at h2
      split at h2
      · exact ⟨by assumption, h2⟩
      · simp at h2
    · intro n
      simp only [Sys.mapViews, observe]
      rw [hkey, ← i.gn]
      constructor
      · rintro (h | h)
        · exact .inl h
        · rcases a.hnnmem n h with h | h
          · exact .inr (.inl h)
          · exact .inr (.inr h)
      · rintro (h | rfl | h)
        · exact .inl h
        · exact (hkey n).1 a.hnode
        · exact (hkey n).1 (a.hdeps n h).1
    · intro d n
      simp only [Sys.mapViews, observe]
      rw [hedge, i.ge]
    · simp only [Sys.mapViews]
      rw [(afterAdd_spec a (i.vs .dflt s.dflt rfl i.dfo).1.w).closed]; exact i.dfo
    · obtain ⟨s1, s2, s3, s4⟩ := i.sto
      have sp := afterAdd_spec a i.stk.w
      simp only [Sys.mapViews]
      refine ⟨?_, ?_, ?_, ?_⟩
      · rw [sp.closed]; exact s1
      · rw [sp.yielded]; exact s2
      · rw [sp.done]; exact s3
      · rw [List.eq_nil_iff_forall_not_mem]
        rintro ⟨p, q⟩ hpq
        rw [sp.conf] at hpq
        simp [s2, s3, s4] at hpq
    · simp only [Sys.mapViews]
      apply i.stk.add i.wf a
      intro n
      rw [i.sto.2.2.1]; simp
    · intro h v hg hcl
      rw [get_mapViews _ _ (by exact i.dfo)] at hg
      obtain ⟨v0, hv0, rfl⟩ := Option.map_eq_some_iff.1 hg
      have hv0' : s.get h = some v0 := by cases h <;> exact hv0
      by_cases hc0 : v0.closed = true
      · simp [hc0] at hcl
      · have hc0' : v0.closed = false := by simpa using hc0
        obtain ⟨h1, h2⟩ := i.vs h v0 hv0' hc0'
        simp only [hc0', Bool.false_eq_true, if_false]
        refine ⟨h1.add i.wf a ?_, ?_⟩
        · intro n
          simp only [observe]
          rw [(h2 n).1, (h2 n).2]
          constructor
          · rintro (h | ⟨h3, h4, h5, d, h6, h7, h8⟩)
            · exact .inl h
            · exact .inr ⟨h3, h4, h5, d, (hns d).2 ⟨h6, h7⟩, (h2 d).2.2 h8⟩
          · rintro (h | ⟨h3, h4, h5, d, h6, h7⟩)
            · exact .inl h
            · exact .inr ⟨h3, h4, h5, d, ((hns d).1 h6).1, ((hns d).1 h6).2, (h2 d).2.1 h7⟩
        have sp := afterAdd_spec a h1.w
        rw [sp.yielded, sp.done]
        exact h2
  | remove node =>
    simp only [Big.Graph.step]
    rcases remove_spec s.g i.wf node with ⟨h1, h2⟩ | ⟨g', ss, h2, r⟩
    · simp only [h2, observe]; exact i
    · simp only [h2, observe]
      have hkey : ∀ n, n ∈ g'.keys ↔ n ∈ s.g.keys ∧ n ≠ node := by
        intro n; rw [r.hkeys, i.wf.nodup.mem_erase_iff]; grind
      have hedge : ∀ d n, g'.Edge d n ↔ s.g.Edge d n ∧ d ≠ node ∧ n ≠ node := by
        intro d n
        unfold Graph.Edge
        rw [hkey]
        constructor
        · rintro ⟨⟨h1, h2⟩, h3⟩
          rw [r.hsucc d h1, (i.wf.succNodup d h1).mem_erase_iff] at h3
          exact ⟨⟨h1, h3.2⟩, h2, h3.1⟩
        · rintro ⟨⟨h1, h3⟩, h2, h4⟩
          refine ⟨⟨h1, h2⟩, ?_⟩
          rw [r.hsucc d h1]; exact (List.mem_erase_of_ne h4).2 h3
      have hdf := i.vs .dflt s.dflt rfl i.dfo
      constructor
      · exact r.wf i.wf
      · intro hdirty
        simp only [Sys.mapViews] at hdirty
        rw [r.hdirty] at hdirty
        exact acyclic_mono (fun p q h => ((hedge p q).1 h).1) (i.dirt hdirty)
      · intro n; simp only [Sys.mapViews]; rw [hkey, i.gn]
      · intro d n; simp only [Sys.mapViews]; rw [hedge, i.ge]
      · simp only [Sys.mapViews]
        rw [(removeNode_fields i.wf r hdf.1.w).2.2.2]; exact i.dfo
      · obtain ⟨s1, s2, s3, s4⟩ := i.sto
        obtain ⟨f1, f2, f3, f4⟩ := removeNode_fields i.wf r i.stk.w
        simp only [Sys.mapViews]
        refine ⟨by rw [f4]; exact s1, ?_, ?_, ?_⟩
        · rw [List.eq_nil_iff_forall_not_mem]; intro n; rw [f1, s2]; simp
        · rw [List.eq_nil_iff_forall_not_mem]; intro n; rw [f2, s3]; simp
        · rw [List.eq_nil_iff_forall_not_mem]; rintro ⟨p, q⟩; rw [f3, s4]; simp
      · exact i.stk.remove i.wf r (by simp [never])
      · intro h v hg hcl
        rw [get_mapViews _ _ (by exact i.dfo)] at hg
        obtain ⟨v0, hv0, rfl⟩ := Option.map_eq_some_iff.1 hg
        have hv0' : s.get h = some v0 := by cases h <;> exact hv0
        by_cases hc0 : v0.closed = true
        · simp [hc0] at hcl
        · have hc0' : v0.closed = false := by simpa using hc0
          obtain ⟨h1, h2⟩ := i.vs h v0 hv0' hc0'
          simp only [hc0', Bool.false_eq_true, if_false]
          refine ⟨h1.remove i.wf r (fun _ => Iff.rfl), ?_⟩
          obtain ⟨f1, f2, _, _⟩ := removeNode_fields i.wf r h1.w
          intro n
          rw [f1, f2, (h2 n).1, (h2 n).2]
          exact ⟨Iff.rfl, Iff.rfl⟩
  | view =>
    simp only [Big.Graph.step, observe]
    obtain ⟨s1, s2, s3, s4⟩ := i.sto
    refine ⟨i.wf, i.dirt, i.gn, i.ge, i.dfo, i.sto, i.stk, ?_⟩
    intro h v hg hcl
    by_cases hh : h = .user s.user.length
    · subst hh
      simp [Sys.get] at hg
      subst hg
      refine ⟨by
        have h0 := i.stk
        unfold never at h0
        simpa [Obs.put, Seen.none] using h0, ?_⟩
      simp [Obs.put, s2, s3, Seen.none]
    · have : s.get h = some v := by
        cases h with
        | dflt => exact hg
        | user k =>
          simp only [Sys.get] at hg ⊢
          have hk : k ≠ s.user.length := fun e => hh (by rw [e])
          rw [List.getElem?_append] at hg
          split at hg
          · exact hg
          · have : k - s.user.length ≠ 0 := by omega
            rw [List.getElem?_singleton, if_neg this] at hg
            simp at hg
      have h2 := i.vs h v this hcl
      refine ⟨by simpa [Obs.put, hh] using h2.1, ?_⟩
      simpa [Obs.put, hh] using h2.2
  | copyView h0 =>
    simp only [Big.Graph.step]
    cases hg0 : s.get h0 with
    | none => simp only [observe]; exact i
    | some v0 =>
      simp only
      by_cases hc0 : v0.closed = true
      · rw [if_pos hc0]; simp only [observe]; exact i
      · rw [if_neg hc0]
        simp only [observe]
        have hv0 := i.vs h0 v0 hg0 (by simpa using hc0)
        refine ⟨i.wf, i.dirt, i.gn, i.ge, i.dfo, i.sto, i.stk, ?_⟩
        intro h v hg hcl
        by_cases hh : h = .user s.user.length
        · subst hh
          simp [Sys.get] at hg
          subst hg
          refine ⟨by simpa [Obs.put] using hv0.1, ?_⟩
          simpa [Obs.put] using hv0.2
        · have : s.get h = some v := by
            cases h with
            | dflt => exact hg
            | user k =>
              simp only [Sys.get] at hg ⊢
              have hk : k ≠ s.user.length := fun e => hh (by rw [e])
              rw [List.getElem?_append] at hg
              split at hg
              · exact hg
              · have : k - s.user.length ≠ 0 := by omega
                rw [List.getElem?_singleton, if_neg this] at hg
                simp at hg
          have h2 := i.vs h v this hcl
          refine ⟨by simpa [Obs.put, hh] using h2.1, ?_⟩
          simpa [Obs.put, hh] using h2.2
  | reset h =>
    simp only [Big.Graph.step]
    cases hg : s.get h with
    | none => simp only [observe]; exact i
    | some v =>
      simp only
      unfold View.reset
      by_cases hcl : v.closed = true
      · rw [if_pos hcl]
        simp only [observe]
        rw [← Sys.eta_dirty]
        exact i.sameView (b := s.g.dirty) hg i.dirt (fun h => by simp [hcl] at h) rfl
      · rw [if_neg hcl]
        simp only [observe]
        obtain ⟨s1, s2, s3, s4⟩ := i.sto
        have hcl' : v.closed = false := by simpa using hcl
        have hv := i.vs h v hg hcl'
        have hr : s.stock.rconf = [] := by
          rw [List.eq_nil_iff_forall_not_mem]
          rintro ⟨p, q⟩; rw [← i.stk.w.mir, s4]; simp
        have e : (View.mk s.stock.pred s.stock.ready [] [] [] [] v.closed v.broken : View ν)
            = s.stock := by
          have h1 := hv.1.w.nb
          have h2 := i.stk.w.nb
          cases hs : s.stock
          simp_all
        have hfin := i.setView (b := s.g.dirty) (sn := Seen.none) (v' := s.stock) hg i.dirt
          (fun _ => ⟨i.stk, by simp [s2, s3, Seen.none]⟩) (fun _ => s1)
        rw [e, ← Sys.eta_dirty]
        exact hfin
  | close k =>
    simp only [Big.Graph.step]
    cases hg : s.get (.user k) with
    | none => simp only [observe]; exact i
    | some v =>
      simp only
      unfold View.close
      by_cases hcl : v.closed = true
      · rw [if_pos hcl]
        simp only [observe]
        rw [← Sys.eta_dirty]
        exact i.sameView (b := s.g.dirty) hg i.dirt (fun h => by simp [hcl] at h) rfl
      · rw [if_neg hcl]
        simp only [observe]
        rw [← Sys.eta_dirty]
        exact i.setView (b := s.g.dirty) hg i.dirt (fun h => by simp at h) (fun h => by simp at h)
  | ready h =>
    simp only [Big.Graph.step]
    cases hg : s.get h with
    | none => simp only [observe]; exact i
    | some v =>
      simp only
      obtain ⟨⟨b, c1⟩, c2, c3⟩ := check_spec i.wf i.dirt hord
      rcases getReady_cases (g := s.g) (v := v) (ord := ord) with ⟨e, h1, _⟩ | ⟨hcl, hcf, ⟨h0, h1⟩ | ⟨h0, h1⟩⟩
      · rw [h1]
        simp only [observe]
        rw [← Sys.eta_dirty]
        exact i.sameView (b := s.g.dirty) hg i.dirt (fun hc => ⟨(i.vs h v hg hc).1, by simp⟩) rfl
      · rw [h1]
        simp only [observe]
        rw [c1] at c3 ⊢
        exact i.sameView hg c3 (fun hc => ⟨(i.vs h v hg hc).1, by simp⟩) rfl
      · rw [h1]
        simp only [observe]
        rw [c1] at c3 ⊢
        have hv := i.vs h v hg hcl
        refine i.setView hg c3 (fun _ => ⟨hv.1.took hcf, fun n => ?_⟩) (fun _ => hcl)
        rw [took_yielded hv.1.w]
        have hd : v.took.done = v.done := rfl
        rw [hd, List.mem_append, (hv.2 n).1, (hv.2 n).2]
        exact ⟨Iff.rfl, Iff.rfl⟩
  | done h nodes =>
    simp only [Big.Graph.step]
    cases hg : s.get h with
    | none =>
      simp only [observe]
      exact i.putNone hg _
    | some v =>
      simp only
      by_cases hcl : v.closed = true
      · have : v.setDone s.g nodes = (v, .error .valueError) := by simp [View.setDone, hcl]
        rw [this]
        simp only [observe]
        rw [← Sys.eta_dirty]
        exact i.setView (b := s.g.dirty) hg i.dirt (fun h => by simp [hcl] at h) (by
          rintro rfl
          simp [Sys.get] at hg
          subst hg
          exact i.dfo)
      have hcl' : v.closed = false := by simpa using hcl
      have hv := i.vs h v hg hcl'
      obtain ⟨f1, f2, f3, f4, f5, f6⟩ := doneLoop_fields s.g i.wf nodes v hv.1.w
      rcases setDone_cases i.wf hv.1.w nodes with ⟨e, _⟩ | ⟨_, _, ⟨_, e⟩ | ⟨hy, e⟩⟩
      · rw [e, hcl']
        simp only [observe, Bool.false_eq_true, if_false]
        rw [← Sys.eta_dirty]
        exact i.sameView (b := s.g.dirty) hg i.dirt (fun hc => ⟨hv.1, by simp⟩) rfl
      · have hok : VOk ((o.seen h).clean ∧ ∀ n, nodes.head? = some n → ¬ (o.seen h).yielded n)
            (o.seen h).late s.g (v.setDone s.g nodes).1 := by
          apply hv.1.setDone i.wf nodes (fun h => h.1)
          intro hcc
          rw [e]
          exact ⟨by simp, fun _ n hn hy => hcc.2 n hn ((hv.2 n).1.1 hy)⟩
        rw [e] at hok ⊢
        simp only [observe]
        rw [← Sys.eta_dirty]
        refine i.setView (b := s.g.dirty) hg i.dirt (fun hc => ⟨hok, fun n => ?_⟩) (fun _ => f5.trans hcl')
        rw [f2, f3]
        exact hv.2 n
      · have hok : VOk ((o.seen h).clean ∧ nodes.Nodup)
            (o.seen h).late s.g (v.setDone s.g nodes).1 := by
          apply hv.1.setDone i.wf nodes (fun h => h.1)
          intro hcc
          rw [e]
          exact ⟨fun _ => hcc.2, by simp⟩
        rw [e] at hok ⊢
        simp only [observe]
        rw [← Sys.eta_dirty]
        refine i.setView (b := s.g.dirty) hg i.dirt (fun _ => ⟨hok, fun n => ?_⟩)
          (fun _ => f5.trans hcl')
        have hd : n ∈ ((View.doneLoop s.g v nodes).1.finish nodes).done ↔ n ∈ v.done ∨ n ∈ nodes := by
          simp only [View.finish, List.mem_append, List.mem_eraseDups, List.mem_filter, f3]
          simp; grind
        have hyy : n ∈ ((View.doneLoop s.g v nodes).1.finish nodes).yielded ↔
            n ∈ v.yielded ∧ n ∉ nodes := by simp [View.finish, f2]
        rw [hd, hyy, (hv.2 n).1, (hv.2 n).2]
        exact ⟨Iff.rfl, Iff.rfl⟩
  | bool h =>
    simp only [Big.Graph.step]
    cases hg : s.get h with
    | none => simp only [observe]; exact i
    | some v =>
      simp only
      cases v.bool s.g <;> simp only [observe] <;> exact i
  | cycle =>
    simp only [Big.Graph.step, observe]
    obtain ⟨b, hb⟩ := cycle_graph s.g ord
    obtain ⟨_, _, c3⟩ := cycle_spec i.wf i.dirt hord
    rw [hb] at c3 ⊢
    refine ⟨dirty_wf b i.wf, c3, i.gn, i.ge, i.dfo, i.sto, i.stk.dirty b, ?_⟩
    intro h v hg hcl
    have hg' : s.get h = some v := by cases h <;> exact hg
    obtain ⟨h1, h2⟩ := i.vs h v hg' hcl
    exact ⟨h1.dirty b, h2⟩

theorem reach_inv {s : Sys ν} {o : Obs ν} (r : Reach s o) : Inv s o := by
  induction r with
  | init => exact inv_init
  | step ord hord op _ ih => exact ih.step hord op

end Big.Graph
