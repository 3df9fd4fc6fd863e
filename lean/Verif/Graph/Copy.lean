import Verif.Graph.Props
import Verif.Graph.CopyModel
/- C20, C108: TopologicalSorter.copy. -/
namespace Big.Graph
variable {ν : Type} [DecidableEq ν]

/-- Is this add or remove? -/
def Op.changes : Op ν → Bool
  | .add _ _ | .remove _ => true
  | _ => false

/-- Two graphs that differ at most in the dirty flag. -/
def SameBut (s s' : Sys ν) : Prop :=
  s'.dflt = s.dflt ∧ s'.stock = s.stock ∧ s'.user = s.user ∧ ∃ b, s'.g = { s.g with dirty := b }

theorem SameBut.get {s s' : Sys ν} (h : SameBut s s') (k : H) : s'.get k = s.get k := by
  obtain ⟨h1, h2, h3, _⟩ := h
  cases k <;> simp [Sys.get, h1, h3]

theorem SameBut.set {s s' : Sys ν} (h : SameBut s s') (k : H) (v : View ν) :
    SameBut (s.set k v) (s'.set k v) := by
  obtain ⟨h1, h2, h3, b, h4⟩ := h
  cases k with
  | dflt => exact ⟨rfl, h2, h3, b, h4⟩
  | user j => exact ⟨h1, h2, by simp [Sys.set, h3], b, h4⟩

/-- On an acyclic graph the dirty flag makes no difference to answers, nor (up to itself) to what
happens. -/
theorem same_step {s s' : Sys ν} {ord : List ν → List ν} (hord : ∀ l, (ord l).Perm l)
    (wf : WF s.g) (ha : s.g.Acyclic) (hs : SameBut s s') (op : Op ν) (hop : op.changes = false) :
    (step ord s' op).2 = (step ord s op).2 ∧ SameBut (step ord s op).1 (step ord s' op).1 ∧
    WF (step ord s op).1.g ∧ (step ord s op).1.g.Acyclic := by
  have hs0 := hs
  obtain ⟨e1, e2, e3, b, e4⟩ := hs
  have hk : s'.g.keys = s.g.keys := by rw [e4]
  have wf' : WF s'.g := by rw [e4]; exact dirty_wf b wf
  have ha' : s'.g.Acyclic := by rw [e4]; exact ha
  obtain ⟨⟨b1, c1⟩, d1, _⟩ := check_spec wf (fun _ => ha) hord
  obtain ⟨⟨b2, c2⟩, d2, _⟩ := check_spec wf' (fun _ => ha') hord
  have hz : (s.g.checkForCycles ord).2 = false := by
    cases h : (s.g.checkForCycles ord).2
    · rfl
    · exact absurd ha (d1.1 h)
  have hz' : (s'.g.checkForCycles ord).2 = false := by
    cases h : (s'.g.checkForCycles ord).2
    · rfl
    · exact absurd ha' (d2.1 h)
  have hout : ∀ h, op.on = some h → (step ord s' op).2 = (step ord s op).2 := fun h ho =>
    out_congr hord hord ho wf (fun _ => ha) (fun _ => ha') (hs0.get h) ⟨b, e4⟩
  have gset : ∀ (k : H) (v : View ν), (s.set k v).g = s.g := by intro k v; cases k <;> rfl
  have gset' : ∀ (k : H) (v : View ν), (s'.set k v).g = s'.g := by intro k v; cases k <;> rfl
  cases op with
  | add _ _ => simp [Op.changes] at hop
  | remove _ => simp [Op.changes] at hop
  | view =>
    refine ⟨by simp [step, e3], ⟨e1, e2, ?_, b, e4⟩, wf, ha⟩
    simp [step, e3, e2]
  | copyView h =>
    simp only [step, hs0.get h]
    cases s.get h with
    | none => exact ⟨rfl, hs0, wf, ha⟩
    | some v =>
      simp only
      split
      · exact ⟨rfl, hs0, wf, ha⟩
      · exact ⟨by rw [e3], ⟨e1, e2, by simp [e3], b, e4⟩, wf, ha⟩
  | reset h =>
    refine ⟨hout h rfl, ?_⟩
    simp only [step, hs0.get h, e2]
    cases s.get h with
    | none => exact ⟨hs0, wf, ha⟩
    | some v =>
      simp only
      rcases hr : v.reset s.stock with ⟨v', _ | _⟩ <;> simp only <;>
        exact ⟨hs0.set h v', by rw [gset]; exact wf, by rw [gset]; exact ha⟩
  | close k =>
    refine ⟨hout (.user k) rfl, ?_⟩
    simp only [step, hs0.get (.user k)]
    cases s.get (.user k) with
    | none => exact ⟨hs0, wf, ha⟩
    | some v =>
      simp only
      rcases hr : v.close with ⟨v', _ | _⟩ <;> simp only <;>
        exact ⟨hs0.set (.user k) v', by rw [gset]; exact wf, by rw [gset]; exact ha⟩
  | ready h =>
    refine ⟨hout h rfl, ?_⟩
    simp only [step, hs0.get h]
    cases s.get h with
    | none => exact ⟨hs0, wf, ha⟩
    | some v =>
      have key : ∀ (v' : View ν) (bx by' : Bool),
          SameBut ({ s.set h v' with g := { s.g with dirty := bx } })
            ({ s'.set h v' with g := { s'.g with dirty := by' } }) := by
        intro v' bx by'
        obtain ⟨f1, f2, f3, _⟩ := hs0.set h v'
        exact ⟨f1, f2, f3, by', by simp only; rw [e4]⟩
      rcases getReady_cases (g := s.g) (v := v) (ord := ord) with
        ⟨e, h3, h4⟩ | ⟨q1, q2, ⟨h0, h3⟩ | ⟨h0, h3⟩⟩
      · rcases getReady_cases (g := s'.g) (v := v) (ord := ord) with
          ⟨e', h3', h4'⟩ | ⟨q1', q2', _⟩
        · simp only [h3, h3']
          exact ⟨key v s.g.dirty s'.g.dirty, wf, ha⟩
        · rcases h4 with h4 | h4
          · rw [q1'] at h4; simp at h4
          · exact absurd q2' h4
      · rw [hz] at h0; simp at h0
      · rcases getReady_cases (g := s'.g) (v := v) (ord := ord) with
          ⟨e', h3', h4'⟩ | ⟨q1', q2', ⟨h0', h3'⟩ | ⟨h0', h3'⟩⟩
        · rcases h4' with h4 | h4
          · rw [q1] at h4; simp at h4
          · exact absurd q2 h4
        · rw [hz'] at h0'; simp at h0'
        · simp only [h3, h3', c1, c2]
          exact ⟨key v.took b1 b2, dirty_wf b1 wf, ha⟩
  | done h nodes =>
    refine ⟨hout h rfl, ?_⟩
    have hdl : ∀ (nodes : List ν) (v : View ν),
        View.doneLoop s'.g v nodes = View.doneLoop s.g v nodes := by
      intro nodes
      induction nodes with
      | nil => intro v; rfl
      | cons n nodes ih =>
        intro v; unfold View.doneLoop; rw [hk, show s'.g.succ = s.g.succ by rw [e4]]; simp only [ih]
    simp only [step, hs0.get h]
    cases s.get h with
    | none => exact ⟨hs0, wf, ha⟩
    | some v =>
      have : v.setDone s'.g nodes = v.setDone s.g nodes := by
        unfold View.setDone; simp only [hdl]
      simp only [this]
      rcases hr : v.setDone s.g nodes with ⟨v', _ | _⟩ <;> simp only <;>
        exact ⟨hs0.set h v', by rw [gset]; exact wf, by rw [gset]; exact ha⟩
  | bool h =>
    refine ⟨hout h rfl, ?_⟩
    simp only [step, hs0.get h]
    cases s.get h with
    | none => exact ⟨hs0, wf, ha⟩
    | some v =>
      have : v.bool s'.g = v.bool s.g := by unfold View.bool; rw [hk]
      simp only [this]
      cases v.bool s.g <;> exact ⟨hs0, wf, ha⟩
  | cycle =>
    have k1 := (cycle_spec wf (fun _ => ha) hord).1.2 ha
    have k2 := (cycle_spec wf' (fun _ => ha') hord).1.2 ha'
    obtain ⟨bx, hx⟩ := cycle_graph s.g ord
    obtain ⟨by', hy⟩ := cycle_graph s'.g ord
    simp only [step, k1, k2, hx, hy]
    exact ⟨trivial, ⟨e1, e2, e3, by', by simp only; rw [e4]⟩, dirty_wf bx wf, ha⟩

theorem step_keys (ord : List ν → List ν) (s : Sys ν) (op : Op ν) (h : op.changes = false) :
    (step ord s op).1.g.keys = s.g.keys := by
  cases op with
  | add _ _ => simp [Op.changes] at h
  | remove _ => simp [Op.changes] at h
  | cycle => obtain ⟨b, hb⟩ := cycle_graph s.g ord; simp only [step, hb]
  | ready hd =>
    simp only [step]
    cases s.get hd with
    | none => rfl
    | some v =>
      dsimp only
      have hk : (s.g.checkForCycles ord).1.keys = s.g.keys := by
        obtain ⟨b, hb⟩ := cycle_graph s.g ord
        unfold Graph.checkForCycles; split
        · simp only [hb]
        · rfl
      have : (v.getReady s.g ord).2.1.keys = s.g.keys := by
        unfold View.getReady
        split
        · rfl
        · split
          · rfl
          · dsimp only; split <;> exact hk
      rcases hr : v.getReady s.g ord with ⟨v', g', _ | _⟩ <;> (rw [hr] at this; exact this)
  | _ =>
    have gset : ∀ (k : H) (v : View ν), (s.set k v).g = s.g := by intro k v; cases k <;> rfl
    simp only [step] <;>
    first
      | rfl
      | (split <;> first | rfl | (split <;> first | rfl | rw [gset]))

/-! ### Telling views that know all nodes raises no KeyError -/

/-- The view knows all these nodes. -/
structure Knows (K : List ν) (v : View ν) : Prop where
  nb : v.broken = false
  pr : ∀ n ∈ K, v.pred n ≠ none

theorem each_true {β : Type} {f : View ν → β → View ν} {P : View ν → Prop} : ∀ {bs : List β} {v : View ν},
    (∀ b ∈ bs, ∀ v, P v → P (f v b) ∧ (f v b).broken = false) → P v →
    v.each f bs = (bs.foldl f v, true) ∧ P (bs.foldl f v)
  | [], v, _, h => ⟨rfl, h⟩
  | b :: bs, v, hf, h => by
    obtain ⟨h1, h2⟩ := hf b (by simp) v h
    unfold View.each
    rw [if_neg (by simp [h2])]
    exact each_true (fun b hb => hf b (by simp [hb])) h1

theorem mark_one_closed (v : View ν) (s : ν) : (v.markNodeDone [s]).closed = v.closed := by
  simp only [View.markNodeDone, List.foldl_cons, List.foldl_nil]
  split
  · rfl
  · split
    · rfl
    · split <;> rfl

theorem mark_one_pred (v : View ν) (s n : ν) (h : v.pred n ≠ none) : (v.markNodeDone [s]).pred n ≠ none := by
  simp only [View.markNodeDone, List.foldl_cons, List.foldl_nil]
  split
  · exact h
  · split
    · exact h
    · split <;> (simp only [upd]; split <;> simp [h])

theorem mark_one_nb (v : View ν) (s : ν) (hb : v.broken = false) (h : v.pred s ≠ none) :
    (v.markNodeDone [s]).broken = false := by
  simp only [View.markNodeDone, List.foldl_cons, List.foldl_nil]
  split
  · exact hb
  · split
    · rename_i h'; exact absurd h' h
    · split <;> exact hb

theorem mark_knows {K : List ν} {v : View ν} (k : Knows K v) {ss : List ν} (hs : ∀ s ∈ ss, s ∈ K) :
    v.mark ss = (v.markNodeDone ss, true) ∧ Knows K (v.markNodeDone ss) := by
  have e : ss.foldl (fun v s => v.markNodeDone [s]) v = v.markNodeDone ss := by
    unfold View.markNodeDone; simp only [List.foldl_cons, List.foldl_nil]
  have := each_true (P := Knows K) (f := fun (v : View ν) s => v.markNodeDone [s]) (bs := ss) (v := v)
    (fun b hb v h => ⟨⟨mark_one_nb v b h.nb (h.pr b (hs b hb)), fun n hn => mark_one_pred v b n (h.pr n hn)⟩,
      mark_one_nb v b h.nb (h.pr b (hs b hb))⟩) k
  rw [e] at this
  exact this

theorem addSucc_closed (v : View ν) (s node : ν) : (v.addSuccessor s node).closed = v.closed := by
  unfold View.addSuccessor
  dsimp only
  split <;> split <;> (try rfl) <;> (split <;> (try rfl) <;> (split <;> rfl))

theorem addSucc_pred (v : View ν) (s node n : ν) (h : v.pred n ≠ none) : (v.addSuccessor s node).pred n ≠ none := by
  unfold View.addSuccessor
  dsimp only
  split <;> split <;> (try exact h) <;> (split <;> (try exact h) <;> (split <;> (simp only [upd]; split <;> simp [h])))

theorem addSucc_nb (v : View ν) (s node : ν) (hb : v.broken = false) (h : v.pred node ≠ none) :
    (v.addSuccessor s node).broken = false := by
  unfold View.addSuccessor
  dsimp only
  split <;> split <;> (try exact hb) <;> (split <;> (try (rename_i h'; exact absurd h' h)) <;> (split <;> exact hb))

theorem addEdges_knows {K : List ν} {v : View ν} (k : Knows K v) {node : ν} (hn : node ∈ K) (ns : List ν) :
    v.addEdges node ns = (ns.foldl (fun v s => v.addSuccessor s node) v, true) ∧
    Knows K (ns.foldl (fun v s => v.addSuccessor s node) v) :=
  each_true (P := Knows K) (fun b _ v h =>
    ⟨⟨addSucc_nb v b node h.nb (h.pr node hn), fun n hn => addSucc_pred v b node n (h.pr n hn)⟩,
      addSucc_nb v b node h.nb (h.pr node hn)⟩) k

theorem addNodes_knows {K nn : List ν} {v : View ν} (k : Knows K v) : Knows (K ++ nn) (v.addNodes nn) := by
  rw [addNodes_spec]
  refine ⟨k.nb, fun n hn => ?_⟩
  dsimp only
  split
  · simp
  · rename_i h
    exact k.pr n (by simpa [h] using hn)

theorem addNodes_closed (v : View ν) (nn : List ν) : (v.addNodes nn).closed = v.closed := by
  rw [addNodes_spec]

theorem foldSucc_closed (node : ν) : ∀ (ns : List ν) (v : View ν),
    (ns.foldl (fun v s => v.addSuccessor s node) v).closed = v.closed
  | [], _ => rfl
  | s :: ns, v => by simp only [List.foldl_cons]; rw [foldSucc_closed node ns, addSucc_closed]

theorem mark_closed : ∀ (ss : List ν) (v : View ν), (v.markNodeDone ss).closed = v.closed
  | [], _ => rfl
  | s :: ss, v => by
    have e : v.markNodeDone (s :: ss) = (v.markNodeDone [s]).markNodeDone ss := by
      simp [View.markNodeDone]
    rw [e, mark_closed ss, mark_one_closed]

theorem removeX_knows {K K' : List ν} {v : View ν} (k : Knows K v) {x : ν} (hx : x ∈ K) (hK : ∀ n ∈ K', n ∈ K ∧ n ≠ x)
    {ss : List ν} (hs : ∀ s ∈ ss, s ∈ K') :
    v.removeX x ss = (v.removeNode x ss, true) ∧ Knows K' (v.removeNode x ss) ∧
      (v.removeNode x ss).closed = v.closed := by
  unfold View.removeX
  by_cases hd : x ∈ v.done
  · have e := removeNode_done (v := v) (x := x) (ss := []) hd
    have e' := removeNode_done (v := v) (x := x) (ss := ss) hd
    rw [e, e']
    dsimp only
    rw [if_neg (by simp [View.dropConf, k.nb]), if_pos hd]
    exact ⟨rfl, ⟨k.nb, fun n hn => k.pr n (hK n hn).1⟩, rfl⟩
  · obtain ⟨c, hc⟩ := Option.ne_none_iff_exists'.1 (k.pr x hx)
    rw [removeNode_not_done hd hc, removeNode_not_done hd hc]
    have kc : Knows K' (v.cut x) := ⟨k.nb, fun n hn => by
      simp only [View.cut, View.dropConf]
      rw [upd_ne _ _ (hK n hn).2]
      exact k.pr n (hK n hn).1⟩
    have e0 : (v.cut x).markNodeDone [] = v.cut x := rfl
    rw [e0]
    dsimp only
    rw [if_neg (by simp [kc.nb]), if_neg hd]
    obtain ⟨m1, m2⟩ := mark_knows kc hs
    exact ⟨m1, m2, by rw [mark_closed]; rfl⟩

/-! ### Telling all views -/

theorem tell_ok {f : View ν → View ν × Bool} {v : View ν} (h : v.closed = true ∨ (f v).2 = true) :
    tell f true v = (if v.closed then v else (f v).1, true) := by
  unfold tell
  cases hc : v.closed with
  | true => simp
  | false =>
    rw [hc] at h
    simp only [Bool.false_eq_true, false_or] at h
    simp only [Bool.not_false, Bool.and_self, if_true, Bool.false_eq_true, if_false]
    rw [← h]

theorem tellAll_ok {f : View ν → View ν × Bool} : ∀ {l : List (View ν)},
    (∀ v ∈ l, v.closed = true ∨ (f v).2 = true) →
    tellAll f true l = (l.map (fun v => if v.closed then v else (f v).1), true)
  | [], _ => rfl
  | v :: l, h => by
    unfold tellAll
    rw [tell_ok (h v (by simp))]
    dsimp only
    rw [tellAll_ok (fun v hv => h v (by simp [hv]))]
    rfl

/-- All views that the original tells. -/
def Two.told (t : Two ν) : List (View ν) :=
  t.orig.dflt :: t.orig.stock :: t.clone.dflt :: t.clone.stock :: t.orig.user

theorem tellOrig_ok {t : Two ν} {g : Graph ν} {f : View ν → View ν × Bool}
    (h : ∀ v ∈ t.told, v.closed = true ∨ (f v).2 = true)
    (hc : t.orig.dflt.closed = false ∧ t.orig.stock.closed = false ∧ t.clone.dflt.closed = false ∧
      t.clone.stock.closed = false) :
    t.tellOrig g f = (⟨({ t.orig with g := g } : Sys ν).mapViews (fun v => (f v).1), t.before,
      { t.clone with dflt := (f t.clone.dflt).1, stock := (f t.clone.stock).1 }, t.left⟩, true) := by
  have hu : ∀ v ∈ t.orig.user, v.closed = true ∨ (f v).2 = true := fun v hv => h v (by simp [Two.told, hv])
  unfold Two.tellOrig
  rw [tell_ok (h t.orig.dflt (by simp [Two.told]))]
  dsimp only
  rw [tell_ok (h t.orig.stock (by simp [Two.told]))]
  dsimp only
  rw [tellAll_ok (fun v hv => hu v (List.mem_of_mem_take hv))]
  dsimp only
  rw [tell_ok (h t.clone.dflt (by simp [Two.told]))]
  dsimp only
  rw [tell_ok (h t.clone.stock (by simp [Two.told]))]
  dsimp only
  rw [tellAll_ok (fun v hv => hu v (List.mem_of_mem_drop hv))]
  dsimp only
  rw [← List.map_append, List.take_append_drop]
  simp [hc, Sys.mapViews]

/-! ### The invariant -/

/-- The original is in a reachable state, and the views of the clone that it tells know its nodes. -/
structure Sound (t : Two ν) (o : Obs ν) : Prop where
  inv : Inv t.orig o
  dfo : t.clone.dflt.closed = false
  sto : t.clone.stock.closed = false
  dk : Knows t.orig.g.keys t.clone.dflt
  sk : Knows t.orig.g.keys t.clone.stock

theorem WInv.knows {g : Graph ν} {v : View ν} (w : WInv g v) : Knows g.keys v :=
  ⟨w.nb, fun n hn => by obtain ⟨k, hk⟩ := w.pr n hn; rw [hk]; simp⟩

theorem Sound.knows {t : Two ν} {o : Obs ν} (j : Sound t o) :
    ∀ v ∈ t.told, v.closed = true ∨ Knows t.orig.g.keys v := by
  intro v hv
  simp only [Two.told, List.mem_cons] at hv
  rcases hv with rfl | rfl | rfl | rfl | hv
  · exact .inr (j.inv.vs .dflt _ rfl j.inv.dfo).1.w.knows
  · exact .inr j.inv.stk.w.knows
  · exact .inr j.dk
  · exact .inr j.sk
  · cases hc : v.closed with
    | true => exact .inl rfl
    | false =>
      obtain ⟨k, hk, rfl⟩ := List.mem_iff_getElem.1 hv
      exact .inr (j.inv.vs (.user k) _ (by simp [Sys.get, hk]) hc).1.w.knows

theorem Sound.open {t : Two ν} {o : Obs ν} (j : Sound t o) :
    t.orig.dflt.closed = false ∧ t.orig.stock.closed = false ∧ t.clone.dflt.closed = false ∧
      t.clone.stock.closed = false := ⟨j.inv.dfo, j.inv.sto.1, j.dfo, j.sto⟩

theorem copy_sound {s : Sys ν} {o : Obs ν} (r : Reach s o) : Sound s.copy o := by
  have i := reach_inv r
  exact ⟨i, i.dfo, i.sto.1, (i.vs .dflt _ rfl i.dfo).1.w.knows, i.stk.w.knows⟩

theorem doneLoopX_eq {g : Graph ν} (wf : WF g) : ∀ {nodes : List ν} {v : View ν}, Knows g.keys v →
    View.doneLoopX g v nodes = ((View.doneLoop g v nodes).1,
      if (View.doneLoop g v nodes).2 then none else some .valueError)
  | [], v, _ => rfl
  | node :: nodes, v, k => by
    unfold View.doneLoopX View.doneLoop
    by_cases h1 : node ∈ g.keys
    · by_cases h2 : node ∈ v.yielded
      · obtain ⟨m1, m2⟩ := mark_knows k (ss := g.succ node) (wf.closed node h1)
        simp only [h1, h2, not_true_eq_false, if_false, m1, if_true]
        exact doneLoopX_eq wf m2
      · simp [h1, h2]
    · simp [h1]

theorem setDoneX_eq {g : Graph ν} (wf : WF g) {nodes : List ν} {v : View ν} (k : v.closed = true ∨ Knows g.keys v) :
    v.setDoneX g nodes = v.setDone g nodes := by
  unfold View.setDoneX View.setDone
  by_cases hc : v.closed = true
  · rw [if_pos hc, if_pos hc]
  · rw [if_neg hc, if_neg hc]
    have k := k.resolve_left hc
    split
    · rfl
    · rw [doneLoopX_eq wf k]
      dsimp only
      cases (View.doneLoop g v nodes).2 <;> simp

/-- All open views of a graph know its nodes. -/
def KnowAll (s : Sys ν) : Prop := ∀ h v, s.get h = some v → v.closed = true ∨ Knows s.g.keys v

theorem stepAlone_eq {s : Sys ν} (wf : WF s.g) (k : KnowAll s) (ord : List ν → List ν) (op : Op ν) :
    stepAlone ord s op = step ord s op := by
  cases op with
  | done h nodes =>
    simp only [stepAlone, step]
    cases hg : s.get h with
    | none => rfl
    | some v =>
      dsimp only
      rw [setDoneX_eq wf (k h v hg)]
      rcases v.setDone s.g nodes with ⟨v', _ | _⟩ <;> rfl
  | _ => rfl

theorem Inv.knowAll {s : Sys ν} {o : Obs ν} (i : Inv s o) : KnowAll s := by
  intro h v hg
  cases hc : v.closed with
  | true => exact .inl rfl
  | false => exact .inr (i.vs h v hg hc).1.w.knows

/-- A call on the original does what it would do if there were no copy. -/
theorem orig_step {t : Two ν} {o : Obs ν} (j : Sound t o) {ord : List ν → List ν} (hord : ∀ l, (ord l).Perm l)
    (op : Op ν) :
    (stepOrig ord t op).1.orig = (step ord t.orig op).1 ∧ (stepOrig ord t op).2 = (step ord t.orig op).2 ∧
    Sound (stepOrig ord t op).1 (observe o op (step ord t.orig op).2) := by
  have i' := j.inv.step hord op
  cases op with
  | add node deps =>
    have a := add_spec t.orig.g node deps
    simp only [stepOrig]
    rw [tellOrig_ok (fun v _ => .inr rfl) j.open]
    dsimp only
    have hk : ∀ {v : View ν}, Knows t.orig.g.keys v →
        Knows (t.orig.g.add node deps).1.keys (v.addNodes (t.orig.g.add node deps).2.1) := by
      intro v k; rw [a.hkeys]; exact addNodes_knows k
    have hj := j.knows
    have told' : ∀ v ∈ Two.told (⟨({ t.orig with g := (t.orig.g.add node deps).1 } : Sys ν).mapViews
          (fun v => v.addNodes (t.orig.g.add node deps).2.1), t.before,
          { t.clone with dflt := t.clone.dflt.addNodes (t.orig.g.add node deps).2.1,
                         stock := t.clone.stock.addNodes (t.orig.g.add node deps).2.1 }, t.left⟩ : Two ν),
        v.closed = true ∨ (v.addEdges node (t.orig.g.add node deps).2.2).2 = true := by
      intro v hv
      -- the views that are told now are those after addNodes
      have : ∃ w ∈ t.told, v = (if w.closed then w else w.addNodes (t.orig.g.add node deps).2.1) := by
        simp only [Two.told, Sys.mapViews, List.mem_cons, List.mem_map] at hv
        rcases hv with rfl | rfl | rfl | rfl | ⟨w, hw, rfl⟩
        · exact ⟨t.orig.dflt, by simp [Two.told], by simp [j.open.1]⟩
        · exact ⟨t.orig.stock, by simp [Two.told], by simp [j.open.2.1]⟩
        · exact ⟨t.clone.dflt, by simp [Two.told], by simp [j.dfo]⟩
        · exact ⟨t.clone.stock, by simp [Two.told], by simp [j.sto]⟩
        · exact ⟨w, by simp [Two.told, hw], rfl⟩
      obtain ⟨w, hw, rfl⟩ := this
      cases hc : w.closed with
      | true => left; simp [hc]
      | false =>
        right
        simp only [Bool.false_eq_true, if_false]
        rw [(addEdges_knows (hk ((hj w hw).resolve_left (by simp [hc]))) a.hnode _).1]
    rw [tellOrig_ok told' (by simp only [Sys.mapViews, addNodes_closed]; exact j.open)]
    · have hE := fun {v : View ν} (k : Knows t.orig.g.keys v) =>
        addEdges_knows (hk k) a.hnode (t.orig.g.add node deps).2.2
      have e : (({ ({ t.orig with g := (t.orig.g.add node deps).1 } : Sys ν).mapViews
            (fun v => v.addNodes (t.orig.g.add node deps).2.1) with g := (t.orig.g.add node deps).1 } : Sys ν).mapViews
            (fun v => (v.addEdges node (t.orig.g.add node deps).2.2).1)) = (step ord t.orig (.add node deps)).1 := by
        have hv : ∀ v ∈ t.told, v.closed = false →
            ((v.addNodes (t.orig.g.add node deps).2.1).addEdges node (t.orig.g.add node deps).2.2).1 =
              v.afterAdd node (t.orig.g.add node deps).2.1 (t.orig.g.add node deps).2.2 := by
          intro v hv hc
          rw [(hE ((hj v hv).resolve_left (by simp [hc]))).1]
          rfl
        simp only [step, Sys.mapViews, List.map_map]
        rw [hv _ (by simp [Two.told]) j.open.1, hv _ (by simp [Two.told]) j.open.2.1]
        congr 1
        apply List.map_congr_left
        intro v hm
        simp only [Function.comp]
        cases hc : v.closed with
        | true => simp [hc]
        | false =>
          simp only [Bool.false_eq_true, if_false, addNodes_closed, hc]
          exact hv v (by simp [Two.told, hm]) hc
      refine ⟨e, rfl, ⟨by rw [e]; exact i', ?_, ?_, ?_, ?_⟩⟩
      · dsimp only; rw [(hE j.dk).1, foldSucc_closed, addNodes_closed]; exact j.dfo
      · dsimp only; rw [(hE j.sk).1, foldSucc_closed, addNodes_closed]; exact j.sto
      · dsimp only; rw [(hE j.dk).1]; exact (hE j.dk).2
      · dsimp only; rw [(hE j.sk).1]; exact (hE j.sk).2
  | remove node =>
    simp only [stepOrig]
    rcases remove_spec t.orig.g j.inv.wf node with ⟨h1, h2⟩ | ⟨g', ss, h1, r⟩
    · simp only [step, h2] at i' ⊢
      exact ⟨trivial, trivial, ⟨i', j.dfo, j.sto, j.dk, j.sk⟩⟩
    · simp only [step, h1] at i' ⊢
      have wf' := r.wf j.inv.wf
      have hK : ∀ n ∈ g'.keys, n ∈ t.orig.g.keys ∧ n ≠ node := by
        intro n hn
        rw [r.hkeys] at hn
        exact ⟨List.mem_of_mem_erase hn, fun e => by subst e; exact (List.Nodup.not_mem_erase j.inv.wf.nodup) hn⟩
      have hss : ∀ s ∈ ss, s ∈ g'.keys := by
        intro s hs
        rw [r.hss] at hs
        have h1 := j.inv.wf.closed node r.hmem s (List.mem_of_mem_erase hs)
        have h2 : s ≠ node := fun e => by
          subst e; exact (List.Nodup.not_mem_erase (j.inv.wf.succNodup _ r.hmem)) hs
        rw [r.hkeys]; exact (List.mem_erase_of_ne h2).2 h1
      have hR := fun {v : View ν} (k : Knows t.orig.g.keys v) => removeX_knows k r.hmem hK hss
      rw [tellOrig_ok (fun v hv => (j.knows v hv).imp id (fun k => by rw [(hR k).1])) j.open]
      have e : (({ t.orig with g := g' } : Sys ν).mapViews (fun v => (v.removeX node ss).1)) =
          ({ t.orig with g := g' } : Sys ν).mapViews (fun v => v.removeNode node ss) := by
        have hv : ∀ v ∈ t.told, v.closed = false → (v.removeX node ss).1 = v.removeNode node ss := by
          intro v hv hc
          rw [(hR ((j.knows v hv).resolve_left (by simp [hc]))).1]
        simp only [Sys.mapViews]
        rw [hv _ (by simp [Two.told]) j.open.1, hv _ (by simp [Two.told]) j.open.2.1]
        congr 1
        apply List.map_congr_left
        intro v hm
        cases hc : v.closed with
        | true => simp
        | false => simp only [Bool.false_eq_true, if_false]; exact hv v (by simp [Two.told, hm]) hc
      refine ⟨e, rfl, ⟨by dsimp only; rw [e]; exact i', ?_, ?_, ?_, ?_⟩⟩
      · dsimp only; rw [(hR j.dk).1, (hR j.dk).2.2]; exact j.dfo
      · dsimp only; rw [(hR j.sk).1, (hR j.sk).2.2]; exact j.sto
      · dsimp only; rw [(hR j.dk).1]; exact (hR j.dk).2.1
      · dsimp only; rw [(hR j.sk).1]; exact (hR j.sk).2.1
  | _ =>
    simp only [stepOrig]
    rw [stepAlone_eq j.inv.wf j.inv.knowAll]
    refine ⟨rfl, rfl, ⟨i', j.dfo, j.sto, ?_, ?_⟩⟩
    all_goals
      dsimp only
      first
        | rw [step_keys ord t.orig _ rfl]; exact j.dk
        | rw [step_keys ord t.orig _ rfl]; exact j.sk

/-! ### Calls on the copy -/

/-- What calls on a graph do to its default and stock view: they stay open and know at least the nodes they knew. -/
structure Grew (v v' : View ν) : Prop where
  nb : v.broken = false → v'.broken = false
  cl : v'.closed = v.closed
  pr : ∀ n, v.pred n ≠ none → v'.pred n ≠ none

theorem Grew.refl (v : View ν) : Grew v v := ⟨id, rfl, fun _ h => h⟩
theorem Grew.trans {a b c : View ν} (h : Grew a b) (k : Grew b c) : Grew a c :=
  ⟨fun x => k.nb (h.nb x), k.cl.trans h.cl, fun n x => k.pr n (h.pr n x)⟩
theorem Grew.knows {K : List ν} {a b : View ν} (h : Grew a b) (k : Knows K a) : Knows K b :=
  ⟨h.nb k.nb, fun n hn => h.pr n (k.pr n hn)⟩

theorem mark_grew : ∀ {ss : List ν} {v : View ν}, v.broken = false → Grew v (v.mark ss).1
  | [], v, _ => Grew.refl v
  | s :: ss, v, hb => by
    unfold View.mark View.each
    split
    · exact ⟨fun _ => rfl, mark_one_closed v s, fun n h => mark_one_pred v s n h⟩
    · rename_i h
      have h1 : (v.markNodeDone [s]).broken = false := by simpa using h
      exact Grew.trans ⟨fun _ => h1, mark_one_closed v s, fun n h => mark_one_pred v s n h⟩ (mark_grew h1)

theorem doneLoopX_grew (g : Graph ν) : ∀ {nodes : List ν} {v : View ν}, v.broken = false →
    Grew v (View.doneLoopX g v nodes).1
  | [], v, _ => Grew.refl v
  | node :: nodes, v, hb => by
    have m := mark_grew (ss := g.succ node) hb
    unfold View.doneLoopX
    split
    · exact Grew.refl v
    · split
      · exact Grew.refl v
      · split
        · exact m.trans (doneLoopX_grew g (m.nb hb))
        · exact m

theorem setDoneX_grew (g : Graph ν) (nodes : List ν) {v : View ν} (hb : v.broken = false) :
    Grew v (v.setDoneX g nodes).1 := by
  have m := doneLoopX_grew g (nodes := nodes) hb
  unfold View.setDoneX
  split
  · exact Grew.refl v
  · split
    · exact Grew.refl v
    · dsimp only
      split
      · exact ⟨m.nb, m.cl, m.pr⟩
      · exact m

theorem getReady_grew (g : Graph ν) (ord : List ν → List ν) (v : View ν) : Grew v (v.getReady g ord).1 := by
  unfold View.getReady
  split
  · exact Grew.refl v
  · split
    · exact Grew.refl v
    · dsimp only
      split
      · exact Grew.refl v
      · exact ⟨id, rfl, fun _ h => h⟩

/-- A call that tells no view leaves the default and the stock view of a graph knowing the nodes they both knew. -/
theorem alone_knows {K : List ν} {s : Sys ν} (ord : List ν → List ν) (op : Op ν) (hc : op.changes = false)
    (dfo : s.dflt.closed = false) (sto : s.stock.closed = false) (dk : Knows K s.dflt) (sk : Knows K s.stock) :
    (stepAlone ord s op).1.dflt.closed = false ∧ (stepAlone ord s op).1.stock.closed = false ∧
    Knows K (stepAlone ord s op).1.dflt ∧ Knows K (stepAlone ord s op).1.stock := by
  have keep : ∀ (h : H) (v : View ν), s.get h = some v → ∀ v', (h = .dflt → v'.closed = false ∧ Knows K v') →
      (s.set h v').dflt.closed = false ∧ (s.set h v').stock.closed = false ∧ Knows K (s.set h v').dflt ∧
        Knows K (s.set h v').stock := by
    intro h v _ v' hv'
    cases h with
    | dflt => exact ⟨(hv' rfl).1, sto, (hv' rfl).2, sk⟩
    | user k => exact ⟨dfo, sto, dk, sk⟩
  have dfl : ∀ {h : H} {v : View ν}, s.get h = some v → h = .dflt → v = s.dflt := by
    rintro h v hg rfl; simpa [Sys.get] using hg.symm
  cases op with
  | add _ _ => simp [Op.changes] at hc
  | remove _ => simp [Op.changes] at hc
  | view => exact ⟨dfo, sto, dk, sk⟩
  | copyView h =>
    simp only [stepAlone, step]
    split
    · exact ⟨dfo, sto, dk, sk⟩
    · split <;> exact ⟨dfo, sto, dk, sk⟩
  | cycle => exact ⟨dfo, sto, dk, sk⟩
  | bool h =>
    simp only [stepAlone, step]
    split
    · exact ⟨dfo, sto, dk, sk⟩
    · split <;> exact ⟨dfo, sto, dk, sk⟩
  | close k =>
    simp only [stepAlone, step]
    cases hg : s.get (.user k) with
    | none => exact ⟨dfo, sto, dk, sk⟩
    | some v =>
      dsimp only
      rcases hr : v.close with ⟨v', _ | _⟩ <;> exact keep _ v hg v' (fun h => by cases h)
  | reset h =>
    simp only [stepAlone, step]
    cases hg : s.get h with
    | none => exact ⟨dfo, sto, dk, sk⟩
    | some v =>
      dsimp only
      have : h = .dflt → (v.reset s.stock).1.closed = false ∧ Knows K (v.reset s.stock).1 := by
        intro e
        have := dfl hg e
        subst this
        unfold View.reset
        rw [dfo]
        exact ⟨rfl, ⟨dk.nb, sk.pr⟩⟩
      rcases hr : v.reset s.stock with ⟨v', _ | _⟩ <;> (rw [hr] at this; exact keep h v hg v' this)
  | ready h =>
    simp only [stepAlone, step]
    cases hg : s.get h with
    | none => exact ⟨dfo, sto, dk, sk⟩
    | some v =>
      dsimp only
      have m := getReady_grew s.g ord v
      have : h = .dflt → (v.getReady s.g ord).1.closed = false ∧ Knows K (v.getReady s.g ord).1 := by
        intro e
        have := dfl hg e
        subst this
        exact ⟨m.cl.trans dfo, m.knows dk⟩
      rcases hr : v.getReady s.g ord with ⟨v', g', _ | _⟩ <;> (rw [hr] at this; exact keep h v hg v' this)
  | done h nodes =>
    simp only [stepAlone]
    cases hg : s.get h with
    | none => exact ⟨dfo, sto, dk, sk⟩
    | some v =>
      dsimp only
      have : h = .dflt → (v.setDoneX s.g nodes).1.closed = false ∧ Knows K (v.setDoneX s.g nodes).1 := by
        intro e
        have := dfl hg e
        subst this
        have m := setDoneX_grew s.g nodes (v := s.dflt) dk.nb
        exact ⟨m.cl.trans dfo, m.knows dk⟩
      rcases hr : v.setDoneX s.g nodes with ⟨v', _ | _⟩ <;> (rw [hr] at this; exact keep h v hg v' this)

theorem clone_step {t : Two ν} {o : Obs ν} (j : Sound t o) (ord : List ν → List ν) (op : Op ν) :
    (stepClone ord t op).1.orig = t.orig ∧ Sound (stepClone ord t op).1 o := by
  have al := fun hc => alone_knows ord op hc j.dfo j.sto j.dk j.sk
  cases op with
  | add node deps => exact ⟨rfl, ⟨j.inv, j.dfo, j.sto, j.dk, j.sk⟩⟩
  | remove node =>
    simp only [stepClone]
    cases t.clone.g.remove node with
    | error e => exact ⟨rfl, j⟩
    | ok r => exact ⟨rfl, ⟨j.inv, j.dfo, j.sto, j.dk, j.sk⟩⟩
  | _ =>
    obtain ⟨h1, h2, h3, h4⟩ := al rfl
    exact ⟨rfl, ⟨j.inv, h1, h2, h3, h4⟩⟩

/-! ### C20 -/

/-- C20: for every graph and every interleaving of calls, add and remove included: whatever is done to the copy,
the original answers as it would had there been no copy. -/
theorem C20_original_unaffected {s : Sys ν} {o : Obs ν} (r : Reach s o) {ord : List ν → List ν}
    (hord : ∀ l, (ord l).Perm l) (ops : List (Side × Op ν)) :
    ((runTwo ord s.copy ops).filter (·.1 = .orig)).map (·.2) =
      answers ord s ((ops.filter (·.1 = .orig)).map (·.2)) := by
  have key : ∀ (ops : List (Side × Op ν)) (t : Two ν) (o : Obs ν), Sound t o →
      ((runTwo ord t ops).filter (·.1 = .orig)).map (·.2) =
        answers ord t.orig ((ops.filter (·.1 = .orig)).map (·.2)) := by
    intro ops
    induction ops with
    | nil => intro t o _; simp [runTwo, answers]
    | cons p ops ih =>
      intro t o j
      obtain ⟨sd, op⟩ := p
      cases sd with
      | orig =>
        obtain ⟨e1, e2, j'⟩ := orig_step j hord op
        simp only [runTwo, stepTwo, List.filter_cons, decide_true, if_true, List.map_cons, answers, ih _ _ j', e1, e2]
      | clone =>
        obtain ⟨e, j'⟩ := clone_step j ord op
        simp only [runTwo, stepTwo, List.filter_cons, reduceCtorEq, decide_false, Bool.false_eq_true,
          if_false, ih _ _ j', e]
  exact key ops s.copy o (copy_sound r)

/-! ### C108 -/

/-- C108, as far as it holds: calls on the original other than add and remove do not change what the copy answers,
whatever is called on the copy. Missing: add and remove on the original, see `C108_violated_add_to_original`. -/
theorem C108_copy_unaffected_partial (s : Sys ν) (ord : List ν → List ν) (ops : List (Side × Op ν))
    (hops : ∀ op, (Side.orig, op) ∈ ops → op.changes = false) :
    (runTwo ord s.copy ops).filter (·.1 = .clone) =
      runTwo ord s.copy (ops.filter (·.1 = .clone)) := by
  have key : ∀ (ops : List (Side × Op ν)) (t t' : Two ν), t.clone = t'.clone → t.left = t'.left →
      (∀ op, (Side.orig, op) ∈ ops → op.changes = false) →
      (runTwo ord t ops).filter (·.1 = .clone) = runTwo ord t' (ops.filter (·.1 = .clone)) := by
    intro ops
    induction ops with
    | nil => intro t t' _ _ _; simp [runTwo]
    | cons p ops ih =>
      intro t t' ht hl hp
      obtain ⟨sd, op⟩ := p
      have hp' : ∀ op, (Side.orig, op) ∈ ops → op.changes = false := fun q hq => hp q (by simp [hq])
      cases sd with
      | orig =>
        have hop := hp op (by simp)
        have e : (stepOrig ord t op).1.clone = t.clone ∧ (stepOrig ord t op).1.left = t.left := by
          cases op <;> first | exact ⟨rfl, rfl⟩ | simp [Op.changes] at hop
        simp only [runTwo, stepTwo, List.filter_cons, reduceCtorEq, decide_false, Bool.false_eq_true,
          if_false]
        exact ih _ _ (e.1.trans ht) (e.2.trans hl) hp'
      | clone =>
        have e : (stepClone ord t op).1.clone = (stepClone ord t' op).1.clone ∧
            (stepClone ord t op).1.left = (stepClone ord t' op).1.left ∧
            (stepClone ord t op).2 = (stepClone ord t' op).2 := by
          cases op <;> simp only [stepClone, Two.tellClone, ht, hl] <;> first
            | exact ⟨rfl, rfl, rfl⟩
            | exact ⟨trivial, trivial, trivial⟩
            | (cases t'.clone.g.remove _ <;> simp [ht, hl])
        simp only [List.filter_cons, decide_true, if_true, runTwo, stepTwo]
        rw [e.2.2, ih _ _ e.1 e.2.1 hp']
  exact key ops s.copy s.copy rfl rfl hops

/-- C108, as far as it holds: from an acyclic graph, and as long as neither graph is given an add or
remove, calls on the original and on its copy may be interleaved in any way: the copy answers as the original would
have answered the copy's calls at the moment of copying (had it had no views but its own two). Missing: add and remove
after copying, and cyclic graphs, where the property is false (see the next theorems). -/
theorem C108_like_the_original_partial {s : Sys ν} {o : Obs ν} (r : Reach s o) (ha : o.Acyclic)
    {ord : List ν → List ν} (hord : ∀ l, (ord l).Perm l) (ops : List (Side × Op ν))
    (hops : ∀ p ∈ ops, p.2.changes = false) :
    ((runTwo ord s.copy ops).filter (·.1 = .clone)).map (·.2) =
        answers ord { s with user := [] } ((ops.filter (·.1 = .clone)).map (·.2)) := by
  have i := reach_inv r
  have key : ∀ (ops : List (Side × Op ν)) (t : Two ν) (u : Sys ν) (o : Obs ν), (∀ p ∈ ops, p.2.changes = false) →
      Inv u o → u.g.Acyclic → SameBut u t.clone →
      ((runTwo ord t ops).filter (·.1 = .clone)).map (·.2) =
        answers ord u ((ops.filter (·.1 = .clone)).map (·.2)) := by
    intro ops
    induction ops with
    | nil => intro t u o _ _ _ _; simp [runTwo, answers]
    | cons p ops ih =>
      intro t u o hp iu hac hsb
      obtain ⟨sd, op⟩ := p
      have hop : op.changes = false := hp (sd, op) (by simp)
      have hops' : ∀ q ∈ ops, q.2.changes = false := fun q hq => hp q (by simp [hq])
      cases sd with
      | orig =>
        have e : (stepOrig ord t op).1.clone = t.clone := by
          cases op <;> first | rfl | simp [Op.changes] at hop
        simp only [runTwo, stepTwo, List.filter_cons, reduceCtorEq, decide_false, Bool.false_eq_true, if_false]
        exact ih _ u o hops' iu hac (by rw [e]; exact hsb)
      | clone =>
        obtain ⟨_, _, _, b, hb⟩ := id hsb
        have hk : t.clone.g.keys = u.g.keys := by rw [hb]
        have hwf : WF t.clone.g := by rw [hb]; exact dirty_wf b iu.wf
        have hka : KnowAll t.clone := by
          intro h v hg
          rw [hsb.get] at hg
          rw [hk]
          exact iu.knowAll h v hg
        have e : (stepClone ord t op).1.clone = (step ord t.clone op).1 ∧
            (stepClone ord t op).2 = (step ord t.clone op).2 := by
          have := stepAlone_eq hwf hka ord op
          cases op <;> first
            | simp [Op.changes] at hop; done
            | (simp only [stepClone, this]; exact ⟨trivial, trivial⟩)
        obtain ⟨q1, q2, _, q4⟩ := same_step hord iu.wf hac hsb op hop
        simp only [runTwo, stepTwo, List.filter_cons, decide_true, if_true, List.map_cons, answers]
        rw [e.2, q1, ih _ _ _ hops' (iu.step hord op) q4 (by rw [e.1]; exact q2)]
  have iu : Inv ({ s with user := [] } : Sys ν) o :=
    ⟨i.wf, i.dirt, i.gn, i.ge, i.dfo, i.sto, i.stk, fun h v hg hc => by
      cases h with
      | dflt => exact i.vs .dflt v hg hc
      | user k => simp [Sys.get] at hg⟩
  exact key ops s.copy { s with user := [] } o hops iu ((edge_iff i).2 ha) ⟨rfl, rfl, rfl, false, rfl⟩

theorem tellClone_raises (g : Graph ν) (f : View ν → View ν × Bool) (t : Two ν) (v : View ν) (vs : List (View ν))
    (h1 : t.left = v :: vs) (h2 : v.closed = false) (h3 : (f v).2 = false) : (t.tellClone g f).2 = false := by
  have hfalse : ∀ (f : View ν → View ν × Bool) (l : List (View ν)), (tellAll f false l).2 = false := by
    intro f l
    induction l with
    | nil => rfl
    | cons v l ih => simp [tellAll, tell, ih]
  have h4 : tell f true v = f v := by simp [tell, h2]
  simp only [Two.tellClone, h1, tellAll, h4, h3, hfalse]

/-- C108 is false of the code, always: no node of the original can be removed from a copy: KeyError. -/
theorem C108_violated_remove {s : Sys ν} {o : Obs ν} (r : Reach s o) (ord : List ν → List ν) {n : ν} (hn : o.node n) :
    runTwo ord s.copy [(.clone, .remove n)] = [(.clone, .err .keyError)] := by
  have i := reach_inv r
  have hm : n ∈ s.g.keys := (i.gn n).2 hn
  rcases remove_spec s.copy.clone.g (dirty_wf false i.wf) n with ⟨h, _⟩ | ⟨g', ss, h, _⟩
  · exact absurd hm h
  · have e : ((View.empty : View ν).removeX n ss).2 = false := by
      simp [View.removeX, View.removeNode, View.empty, dropConflicts]
    have : (stepClone ord s.copy (.remove n)).2 = .err .keyError := by
      unfold stepClone
      dsimp only
      rw [h]
      dsimp only
      rw [tellClone_raises _ _ _ View.empty [View.empty] rfl rfl e]
      rfl
    simp only [runTwo, stepTwo, this]

/-- C108 is false of the code, always: no dependency can be added to a copy for a node it has from the original:
KeyError. -/
theorem C108_violated_add_dependency {s : Sys ν} {o : Obs ν} (r : Reach s o) (ord : List ν → List ν) {n d : ν}
    (hn : o.node n) (hd : ¬ o.edge d n) :
    runTwo ord s.copy [(.clone, .add n [d])] = [(.clone, .err .keyError)] := by
  have i := reach_inv r
  have hm : n ∈ s.g.keys := (i.gn n).2 hn
  have a := add_spec { s.g with dirty := false } n [d]
  have hbase : n ∉ base { s.g with dirty := false } d := by
    unfold base
    split
    · rename_i h
      intro hs
      exact hd ((i.ge d n).1 ⟨h, hs⟩)
    · simp
  have hns : ∃ l, (({ s.g with dirty := false } : Graph ν).add n [d]).2.2 = d :: l := by
    have h1 := (a.hdeps d (by simp))
    rw [a.hsucc d h1.1] at h1
    have : d ∈ (({ s.g with dirty := false } : Graph ν).add n [d]).2.2 := by
      by_cases h : d ∈ (({ s.g with dirty := false } : Graph ν).add n [d]).2.2
      · exact h
      · rw [if_neg h] at h1
        simp only [List.append_nil] at h1
        exact absurd h1.2 hbase
    cases hl : (({ s.g with dirty := false } : Graph ν).add n [d]).2.2 with
    | nil => rw [hl] at this; simp at this
    | cons x l =>
      have := (a.hnsk x (by rw [hl]; simp)).2.2
      simp only [List.mem_singleton] at this
      exact ⟨l, by rw [this]⟩
  obtain ⟨l, hl⟩ := hns
  have hnn : ∀ x ∈ (({ s.g with dirty := false } : Graph ν).add n [d]).2.1, x ≠ n := by
    intro x hx e
    subst e
    exact a.hnnd _ hx hm
  have hp : ((View.empty : View ν).addNodes (({ s.g with dirty := false } : Graph ν).add n [d]).2.1).pred n = none := by
    rw [addNodes_spec]
    dsimp only
    rw [if_neg (fun h => hnn _ h rfl)]
    rfl
  have e : (((View.empty : View ν).addNodes (({ s.g with dirty := false } : Graph ν).add n [d]).2.1).addEdges n
      (d :: l)).2 = false := by
    have hb : (((View.empty : View ν).addNodes (({ s.g with dirty := false } : Graph ν).add n [d]).2.1).addSuccessor d n).broken
        = true := by
      unfold View.addSuccessor
      rw [addNodes_spec] at hp ⊢
      simp only [View.empty, List.not_mem_nil, or_self, and_false, if_false] at hp ⊢
      rw [hp]
    unfold View.addEdges View.each
    rw [hb]
    rfl
  have hc : ((View.empty : View ν).addNodes (({ s.g with dirty := false } : Graph ν).add n [d]).2.1).closed = false := by
    rw [addNodes_closed]; rfl
  have : (stepClone ord s.copy (.add n [d])).2 = .err .keyError := by
    show outcome (Two.tellClone (Two.tellClone s.copy _ (fun v => (v.addNodes (s.copy.clone.g.add n [d]).2.1, true))).1
      (s.copy.clone.g.add n [d]).1 (fun v => v.addEdges n (s.copy.clone.g.add n [d]).2.2)).2 = _
    rw [tellClone_raises _ _ _ ((View.empty : View ν).addNodes (s.copy.clone.g.add n [d]).2.1)
      [(View.empty : View ν).addNodes (s.copy.clone.g.add n [d]).2.1] rfl hc (by rw [← hl] at e; exact e)]
    rfl
  simp only [runTwo, stepTwo, this]

/-- C108 is false of the code: a node added to the copy never becomes available from the copy. -/
theorem C108_violated_add_to_copy :
    (runTwo id (Sys.init : Sys Nat).copy
      [(.clone, .add 1 []), (.clone, .bool .dflt), (.clone, .ready .dflt)]) =
    [(.clone, .none), (.clone, .bool true), (.clone, .nodes [])] := by decide +kernel

/-- C108 is false of the code: a node added to the original is handed out by the copy, which does not
have it. -/
theorem C108_violated_add_to_original :
    (runTwo id (Sys.init : Sys Nat).copy
      [(.orig, .add 1 []), (.clone, .ready .dflt), (.clone, .remove 1)]) =
    [(.orig, .none), (.clone, .nodes [1]), (.clone, .err .valueError)] := by decide +kernel

/-- C108 is false of the code: the copy of a graph with a cycle denies having one. -/
theorem C108_violated_cycle :
    (runTwo id (run id (Sys.init : Sys Nat) [.add 1 [2], .add 2 [1]]).copy
      [(.clone, .cycle), (.orig, .cycle)]) =
    [(.clone, .cycle none), (.orig, .cycle (some [1, 2]))] := by decide +kernel

example : (runTwo id (run id (Sys.init : Sys Nat) [.add 1 [2], .add 3 [2]]).copy
      [(.clone, .ready .dflt), (.orig, .ready .dflt), (.orig, .done .dflt [2]), (.clone, .ready .dflt),
       (.orig, .ready .dflt), (.clone, .add 2 [3]), (.clone, .add 4 [2]), (.clone, .done .dflt [2]),
       (.orig, .remove 1), (.orig, .add 2 [4]), (.orig, .done .dflt [3]), (.orig, .bool .dflt)]) =
    [(.clone, .nodes [2]), (.orig, .nodes [2]), (.orig, .none), (.clone, .nodes []),
     (.orig, .nodes [1, 3]), (.clone, .err .keyError), (.clone, .none), (.clone, .err .keyError),
     (.orig, .none), (.orig, .none), (.orig, .err .runtimeError), (.orig, .err .runtimeError)] := by decide +kernel

end Big.Graph
