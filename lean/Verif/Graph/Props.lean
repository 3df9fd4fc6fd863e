import Verif.Graph.Inv
/- C11–C19 and C21: TopologicalSorter. -/
namespace Big.Graph
variable {ν : Type} [DecidableEq ν]

theorem edge_iff {s : Sys ν} {o : Obs ν} (i : Inv s o) :
    s.g.Acyclic ↔ o.Acyclic := by
  have : s.g.Edge = o.edge := by funext a b; exact propext (i.ge a b)
  unfold Graph.Acyclic Obs.Acyclic
  rw [this]

/-- What an answering `ready()` returned. -/
theorem ready_answer {s : Sys ν} {ord : List ν → List ν} {h : H} {l : List ν}
    (hr : (step ord s (.ready h)).2 = .nodes l) :
    ∃ v, s.get h = some v ∧ v.closed = false ∧ v.conf = [] ∧ v.ready = l ∧
      (s.g.checkForCycles ord).2 = false := by
  simp only [step] at hr
  cases hg : s.get h with
  | none => simp [hg] at hr
  | some v =>
    simp only [hg] at hr
    rcases getReady_cases (g := s.g) (v := v) (ord := ord) with
      ⟨e, h1, _⟩ | ⟨hcl, hcf, ⟨h0, h1⟩ | ⟨h0, h1⟩⟩
    · rw [h1] at hr; simp at hr
    · rw [h1] at hr; simp at hr
    · rw [h1] at hr; simp at hr
      exact ⟨v, rfl, hcl, hcf, hr, h0⟩

/-! ### C11 -/

/-- C11, for every view whose done() calls were clean since it was made or reset, whatever else happened:
whatever ready() returns depends only on nodes that were marked done in that view. -/
theorem C11_ready_after_predecessors_partial {s : Sys ν} {o : Obs ν} (r : Reach s o)
    {ord : List ν → List ν} {h : H} (hclean : (o.seen h).clean) {l : List ν} (hr : (step ord s (.ready h)).2 = .nodes l) :
    ∀ n ∈ l, ∀ d, o.edge d n → (o.seen h).done d := by
  have i := reach_inv r
  obtain ⟨v, hg, hcl, _, rfl, _⟩ := ready_answer hr
  obtain ⟨h1, h2⟩ := i.vs h v hg hcl
  intro n hn d hd
  obtain ⟨e1, e2⟩ := (i.ge d n).2 hd
  exact (h2 d).2.1 (ready_preds h1 hclean hn d e1 e2)

/-- The history add(3,1,2); ready() = (1,2); done(1,1). -/
def twice : Sys Nat :=
  run id Sys.init [.add 3 [1, 2], .ready .dflt, .done .dflt [1, 1]]

/-- Reachability helper for literal histories. -/
theorem reach_run (ops : List (Op ν)) (s : Sys ν) (o : Obs ν) (r : Reach s o) :
    ∃ o', Reach (run id s ops) o' := by
  induction ops generalizing s o with
  | nil => exact ⟨o, r⟩
  | cons op ops ih => exact ih _ _ (Reach.step id (fun _ => .refl _) op r)

/-- C11 is false of the code in general: after add(3, 1, 2), ready(), done(1, 1) — which raises
nothing — ready() returns 3 although 2 was not marked done. -/
theorem C11_violated_by_repeated_argument :
    ∃ (s : Sys Nat) (o : Obs Nat), Reach s o ∧ ∃ l n d,
      (step id s (.ready .dflt)).2 = .nodes l ∧ n ∈ l ∧ o.edge d n ∧ ¬ (o.seen .dflt).done d := by
  obtain ⟨o, r⟩ := reach_run
    [.add 3 [1, 2], .ready .dflt, .done .dflt [1, 1]] Sys.init Obs.init Reach.init
  refine ⟨_, o, r, [3], 3, 2, ?_, by simp, ?_, ?_⟩
  · decide +kernel
  · exact ((reach_inv r).ge 2 3).1 (by unfold Graph.Edge; decide +kernel)
  · rw [← ((reach_inv r).vs .dflt _ rfl (by decide +kernel)).2 2 |>.2]
    decide +kernel

/-! ### C12 -/

/-- C12: in every history, ready() returns distinct nodes of the graph, none of which that view has
handed out before (since it was made or reset, and since the node was last added). -/
theorem C12_yield_at_most_once {s : Sys ν} {o : Obs ν} (r : Reach s o)
    {ord : List ν → List ν} {h : H} {l : List ν} (hr : (step ord s (.ready h)).2 = .nodes l) :
    l.Nodup ∧ ∀ n ∈ l, o.node n ∧ ¬ (o.seen h).yielded n ∧ ¬ (o.seen h).done n := by
  have i := reach_inv r
  obtain ⟨v, hg, hcl, _, rfl, _⟩ := ready_answer hr
  obtain ⟨h1, h2⟩ := i.vs h v hg hcl
  refine ⟨h1.w.rn, fun n hn => ?_⟩
  obtain ⟨a, b, c⟩ := h1.w.rk n hn
  exact ⟨(i.gn n).1 a, fun h => b ((h2 n).1.2 h), fun h => c ((h2 n).2.2 h)⟩

/-! ### C14 -/

/-- C14: after every history, cycle() returns None exactly if no node depends on itself, and
otherwise a cycle: distinct nodes, each with an edge to the next and the last to the first. -/
theorem C14_cycle_sound_complete {s : Sys ν} {o : Obs ν} (r : Reach s o)
    {ord : List ν → List ν} (hord : ∀ l, (ord l).Perm l) :
    ∃ res, (step ord s .cycle).2 = .cycle res ∧ (res = none ↔ o.Acyclic) ∧
      ∀ c, res = some c → c ≠ [] ∧ c.Nodup ∧
        ∀ i (hi : i < c.length), o.edge c[i] (c[(i + 1) % c.length]'(Nat.mod_lt _ (by omega))) := by
  have i := reach_inv r
  obtain ⟨h1, h2, _⟩ := cycle_spec i.wf i.dirt hord
  refine ⟨_, rfl, h1.trans (edge_iff i), fun c hc => ?_⟩
  obtain ⟨a, b, e⟩ := h2 c hc
  exact ⟨a, b, fun j hj => (i.ge _ _).1 (e j hj)⟩

/-- C14, termination of the search loop as written: whenever cycle() gets to the depth-first search
its `while iterators` loop ends after finitely many turns by returning the cycle; it never exhausts
the stack, pops an empty list or trips its assertion. (The first loop is bounded by `kahn_spec`.) -/
theorem C14_search_terminates {s : Sys ν} {o : Obs ν} (r : Reach s o)
    {ord : List ν → List ν} (hord : ∀ l, (ord l).Perm l) (hd : s.g.dirty = true)
    (hk : (s.g.kahn ord).done.length ≠ s.g.keys.length) :
    ∃ N c, dfsRun s.g (s.g.kahn ord).done N
        ⟨[ord (s.g.keys.filter (· ∉ (s.g.kahn ord).done))], []⟩ = some (.found c) ∧
      (step ord s .cycle).2 = .cycle (some c) := by
  obtain ⟨N, c, h1, h2⟩ := cycle_loop (reach_inv r).wf hord hd hk
  exact ⟨N, c, h1, by simp [step, h2]⟩

/-- C14, termination of the first loop: it stops because nothing is ready, not for want of rounds. -/
theorem C14_counting_terminates {s : Sys ν} {o : Obs ν} (r : Reach s o)
    {ord : List ν → List ν} (hord : ∀ l, (ord l).Perm l) : (s.g.kahn ord).ready = [] :=
  (kahn_spec (reach_inv r).wf hord).2

example : (step id (run id (Sys.init : Sys Nat) [.add 1 [2], .add 2 [3], .add 3 [1], .add 4 [1]])
    .cycle).2 = .cycle (some [1, 3, 2]) := by decide +kernel
example : (step id (run id (Sys.init : Sys Nat) [.add 1 [2], .add 2 [3], .add 4 [1]])
    .cycle).2 = .cycle none := by decide +kernel

/-! ### C15, C16 -/

/-- C15: after every history the graph's nodes and edges are those added and not since removed, as
the observer computes them from the calls. -/
theorem C15_graph_is_union {s : Sys ν} {o : Obs ν} (r : Reach s o) :
    s.g.keys.Nodup ∧ (∀ n, n ∈ s.g.keys ↔ o.node n) ∧ (∀ d n, s.g.Edge d n ↔ o.edge d n) :=
  ⟨(reach_inv r).wf.nodup, (reach_inv r).gn, (reach_inv r).ge⟩

/-- C15: repeating or reordering dependencies in add makes no difference to nodes or edges. -/
theorem C15_repetition_irrelevant {s : Sys ν} {o : Obs ν} (r : Reach s o) (n : ν)
    (deps deps' : List ν) (hsame : ∀ d, d ∈ deps ↔ d ∈ deps') (ord : List ν → List ν)
    (hord : ∀ l, (ord l).Perm l) :
    (∀ m, m ∈ (step ord s (.add n deps)).1.g.keys ↔ m ∈ (step ord s (.add n deps')).1.g.keys) ∧
    (∀ d m, (step ord s (.add n deps)).1.g.Edge d m ↔ (step ord s (.add n deps')).1.g.Edge d m) := by
  have r1 := reach_inv (Reach.step ord hord (.add n deps) r)
  have r2 := reach_inv (Reach.step ord hord (.add n deps') r)
  constructor
  · intro m
    rw [r1.gn, r2.gn]
    simp only [observe, hsame]
  · intro d m
    rw [r1.ge, r2.ge]
    simp only [observe, hsame]

/-- C16: remove(n) of a node deletes it and its edges, and nothing else. -/
theorem C16_remove_exact {s : Sys ν} {o : Obs ν} (r : Reach s o) {ord : List ν → List ν}
    {n : ν} (hn : o.node n) :
    (step ord s (.remove n)).2 = .none ∧
    (∀ m, m ∈ (step ord s (.remove n)).1.g.keys ↔ m ∈ s.g.keys ∧ m ≠ n) ∧
    (∀ d m, (step ord s (.remove n)).1.g.Edge d m ↔ s.g.Edge d m ∧ d ≠ n ∧ m ≠ n) := by
  have i := reach_inv r
  rcases remove_spec s.g i.wf n with ⟨h1, _⟩ | ⟨g', ss, h2, rs⟩
  · exact absurd ((i.gn n).2 hn) h1
  · simp only [step, h2, Sys.mapViews]
    have hkey : ∀ m, m ∈ g'.keys ↔ m ∈ s.g.keys ∧ m ≠ n := by
      intro m; rw [rs.hkeys, i.wf.nodup.mem_erase_iff]; grind
    refine ⟨trivial, hkey, ?_⟩
    intro d m
    unfold Graph.Edge
    rw [hkey]
    constructor
    · rintro ⟨⟨h1, h2⟩, h3⟩
      rw [rs.hsucc d h1, (i.wf.succNodup d h1).mem_erase_iff] at h3
      exact ⟨⟨h1, h3.2⟩, h2, h3.1⟩
    · rintro ⟨⟨h1, h3⟩, h2, h4⟩
      refine ⟨⟨h1, h2⟩, ?_⟩
      rw [rs.hsucc d h1]; exact (List.mem_erase_of_ne h4).2 h3

/-- C16: remove of an absent node raises ValueError and changes nothing. -/
theorem C16_remove_absent {s : Sys ν} {o : Obs ν} (r : Reach s o) {ord : List ν → List ν}
    {n : ν} (hn : ¬ o.node n) : step ord s (.remove n) = (s, .err .valueError) := by
  have i := reach_inv r
  have : n ∉ s.g.keys := fun h => hn ((i.gn n).1 h)
  simp [step, Graph.remove, this]

/-- C16: the early-exit scan finds exactly the predecessors. -/
theorem C16_scan_finds_all {s : Sys ν} {o : Obs ν} (r : Reach s o) {n : ν} (hn : o.node n)
    (h0 : s.g.pc n ≠ 0) :
    ∀ d, d ∈ findPredecessors s.g n s.g.keys (s.g.pc n) ↔ o.edge d n := by
  have i := reach_inv r
  intro d
  rw [findPredecessors_eq s.g n s.g.keys _ (i.wf.pc n ((i.gn n).2 hn)) h0, ← i.ge]
  simp [Graph.Edge]

/-! ### progress: C17 and C13 -/

/-- Something is ready or outstanding in a clean view of an acyclic graph, or a late node whose
dependencies are all done is left. -/
theorem progress {late : ν → Prop} {g : Graph ν} {v : View ν} (h : VOk True late g v) (ha : g.Acyclic)
    {n : ν} (hn : n ∈ g.keys) (hd : n ∉ v.done) :
    ∃ m, m ∈ v.ready ∨ m ∈ v.yielded ∨
      (m ∈ g.keys ∧ m ∉ v.done ∧ late m ∧ ∀ d ∈ g.keys, m ∈ g.succ d → d ∈ v.done) := by
  apply Classical.byContradiction
  intro hno
  have hno' : ∀ m, m ∉ v.ready ∧ m ∉ v.yielded := by
    intro m
    exact ⟨fun h => hno ⟨m, .inl h⟩, fun h => hno ⟨m, .inr (.inl h)⟩⟩
  refine stuck_cycle (g := g) (fun m => m ∈ g.keys ∧ m ∉ v.done) (fun _ h => h.1) ?_ ⟨hn, hd⟩ ha
  rintro m ⟨hm, hmd⟩
  obtain ⟨k, hk⟩ := h.w.pr m hm
  have h1 := (h.cx trivial).1.lb m hm (hno' m).2 hmd k hk
  have h2 : k ≠ 0 := by
    rintro rfl
    exact (hno' m).1 ((h.cx trivial).1.rd m hm (hno' m).2 hmd hk)
  have h3 : 0 < oc g v.done m := by
    apply Classical.byContradiction
    intro h0
    have h0 : oc g v.done m = 0 := by omega
    have hl : late m := by
      apply Classical.byContradiction
      intro hl
      have := h1.2.2 hl
      omega
    exact hno ⟨m, .inr (.inr ⟨hm, hmd, hl, oc_zero.1 h0⟩)⟩
  obtain ⟨d, e1, e2, e3⟩ := oc_pos.1 h3
  exact ⟨d, ⟨e1, e2⟩, e1, e3⟩

theorem done_lt {g : Graph ν} (wf : WF g) {v : View ν} (w : WInv g v) :
    v.done.length < g.keys.length ↔ ∃ n ∈ g.keys, n ∉ v.done := by
  constructor
  · intro h
    apply Classical.byContradiction
    intro hno
    have := nodup_length_le wf.nodup (m := v.done) (fun x hx => by
      apply Classical.byContradiction
      intro hc; exact hno ⟨x, hx, hc⟩)
    omega
  · rintro ⟨n, hn, hd⟩
    have := nodup_length_le (l := n :: v.done) (m := g.keys) (List.nodup_cons.2 ⟨hd, w.dn⟩) (by
      intro x hx
      rcases List.mem_cons.1 hx with rfl | hx
      · exact hn
      · exact w.dk x hx)
    simp at this; omega

/-- The loop `while v: r = v.ready(); ...; v.done(*r)` from a view with nothing outstanding. -/
theorem staticLoop_spec {ord : List ν → List ν} (hord : ∀ l, (ord l).Perm l) (fuel : Nat)
    (late : ν → Prop) (g : Graph ν) (v : View ν) (wf : WF g) (hac : g.Acyclic) (hv : VOk True late g v)
    (hlate : ∀ n, late n → n ∈ v.done)
    (hcl : v.closed = false) (hcf : v.conf = []) (hy : v.yielded = [])
    (hf : g.keys.length < fuel + v.done.length) :
    (staticLoop ord fuel g v).2 = some (.ok ()) ∧ (staticLoop ord fuel g v).1.Nodup ∧
    (∀ n, n ∈ (staticLoop ord fuel g v).1 ↔ n ∈ g.keys ∧ n ∉ v.done) ∧
    (∀ p n q, (staticLoop ord fuel g v).1 = p ++ n :: q → ∀ d, g.Edge d n → d ∈ v.done ∨ d ∈ p) := by
  induction fuel generalizing g v with
  | zero => have := nodup_length_le hv.w.dn hv.w.dk; omega
  | succ fuel ih =>
    have hb : v.bool g = .ok (decide (v.done.length < g.keys.length)) := by
      simp [View.bool, hcl, hcf]
    unfold staticLoop
    rw [hb]
    by_cases hlt : v.done.length < g.keys.length
    · simp only [hlt, decide_true]
      obtain ⟨⟨b, c1⟩, c2, c3⟩ := check_spec wf (fun _ => hac) hord
      have hgr : v.getReady g ord = (v.took, { g with dirty := b }, .ok v.ready) := by
        rcases getReady_cases (g := g) (v := v) (ord := ord) with
          ⟨e, h1, h2⟩ | ⟨_, _, ⟨h0, h1⟩ | ⟨h0, h1⟩⟩
        · rcases h2 with h2 | h2
          · rw [hcl] at h2; simp at h2
          · exact absurd hcf h2
        · exact absurd hac (c2.1 h0)
        · rw [h1, c1]
      rw [hgr]
      simp only
      have htk := hv.took hcf
      have hty : v.took.yielded = v.ready := by rw [took_yielded hv.w, hy]; simp
      have wf' := dirty_wf b wf
      have htk' := htk.dirty b
      rcases setDone_cases wf' htk'.w v.ready with ⟨e, h2⟩ | ⟨_, _, ⟨⟨n, h1, h2⟩, _⟩ | ⟨hyy, e⟩⟩
      · rcases h2 with h2 | h2
        · have : v.took.closed = v.closed := rfl
          rw [this, hcl] at h2; simp at h2
        · exact absurd hcf h2
      · rw [hty] at h2; exact absurd h1 h2
      · rw [e]
        simp only
        have hok : VOk True late { g with dirty := b } (v.took.setDone { g with dirty := b } v.ready).1 :=
          htk'.setDone wf' v.ready (fun h => h) (fun _ => ⟨fun _ => hv.w.rn, by rw [e]; simp⟩)
        rw [e] at hok
        obtain ⟨f1, f2, f3, f4, f5, f6⟩ :=
          doneLoop_fields { g with dirty := b } wf' v.ready v.took htk'.w
        generalize hv2 : (View.doneLoop { g with dirty := b } v.took v.ready).1 = v1 at *
        have hdone : (v1.finish v.ready).done = v.done ++ v.ready := by
          have h0 : v1.done = v.done := f3
          have hfl : v.ready.filter (· ∉ v.done) = v.ready := by
            rw [List.filter_eq_self]; intro a ha; simp [(hv.w.rk a ha).2.2]
          unfold View.finish
          simp only [h0, hfl]
          congr 1
          have hnd : ∀ (m : Nat) (l : List ν), l.length ≤ m → l.Nodup → l.eraseDups = l := by
            intro m
            induction m with
            | zero => intro l hl _; have : l = [] := by simpa using hl
                      subst this; simp
            | succ m ih =>
              intro l hl hn
              cases l with
              | nil => simp
              | cons a l =>
                simp only [List.nodup_cons] at hn
                rw [List.eraseDups_cons]
                have : l.filter (fun b => !b == a) = l := by
                  rw [List.filter_eq_self]; intro x hx; simp; rintro rfl; exact hn.1 hx
                rw [this, ih l (by simp at hl; omega) hn.2]
          exact hnd _ _ (Nat.le_refl _) hv.w.rn
        have hyield : (v1.finish v.ready).yielded = [] := by
          unfold View.finish
          simp only [f2, hty]
          rw [List.filter_eq_nil_iff]
          intro a ha; simp [ha]
        have hne : v.ready ≠ [] := by
          obtain ⟨n, hn, hd⟩ := (done_lt wf hv.w).1 hlt
          obtain ⟨m, hm | hm | hm⟩ := progress hv hac hn hd
          · exact List.ne_nil_of_mem hm
          · rw [hy] at hm; simp at hm
          · exact absurd (hlate m hm.2.2.1) hm.2.1
        have hpos := List.length_pos_iff.2 hne
        obtain ⟨i1, i2, i3, i4⟩ := ih { g with dirty := b } (v1.finish v.ready) wf' hac hok
          (fun n hn => by rw [hdone]; simp [hlate n hn]) (f5.trans hcl) (f4.trans hcf) hyield (by rw [hdone]; simp; omega)
        rw [hdone] at i3 i4
        generalize hsl : staticLoop ord fuel { g with dirty := b } (v1.finish v.ready) = res at *
        refine ⟨i1, ?_, ?_, ?_⟩
        · rw [List.nodup_append]
          refine ⟨hv.w.rn, i2, ?_⟩
          rintro a ha c hc rfl
          have := ((i3 a).1 hc).2
          simp [ha] at this
        · intro n
          rw [List.mem_append, i3]
          constructor
          · rintro (h | ⟨h1, h2⟩)
            · exact ⟨(hv.w.rk n h).1, (hv.w.rk n h).2.2⟩
            · exact ⟨h1, fun h => h2 (by simp [h])⟩
          · rintro ⟨h1, h2⟩
            by_cases hr : n ∈ v.ready
            · exact .inl hr
            · exact .inr ⟨h1, by simp [h2, hr]⟩
        · intro p n q hpq d hd
          rcases List.append_eq_append_iff.1 hpq with ⟨a', e1, e2⟩ | ⟨c', e1, e2⟩
          · have := i4 a' n q e2 d hd
            rw [e1]
            simp only [List.mem_append] at this ⊢
            grind
          · cases c' with
            | nil =>
              simp at e2
              have := i4 [] n q (by simp [e2]) d hd
              simp only [List.append_nil] at e1
              rw [← e1]
              simpa using this
            | cons c0 c1 =>
              simp at e2
              have hnr : n ∈ v.ready := by rw [e1]; simp [e2.1]
              exact .inl (ready_preds hv trivial hnr d hd.1 hd.2)
    · simp only [hlt, decide_false]
      have hno : ∀ n, ¬ (n ∈ g.keys ∧ n ∉ v.done) := by
        intro n hn
        exact hlt ((done_lt wf hv.w).2 ⟨n, hn.1, hn.2⟩)
      refine ⟨by trivial, by simp, by simpa using hno, ?_⟩
      intro p n q h
      simp at h

/-- C13: whatever was done before, static_order() of an acyclic graph, consumed, ends normally having
yielded every node exactly once, each after all nodes it depends on. -/
theorem C13_static_order {s : Sys ν} {o : Obs ν} (r : Reach s o) (ha : o.Acyclic)
    {ord : List ν → List ν} (hord : ∀ l, (ord l).Perm l) :
    ∃ l, s.staticOrder ord = (l, some (.ok ())) ∧ l.Nodup ∧ (∀ n, n ∈ l ↔ o.node n) ∧
      ∀ p n q, l = p ++ n :: q → ∀ d, o.edge d n → d ∈ p := by
  have i := reach_inv r
  obtain ⟨s1, s2, s3, s4⟩ := i.sto
  obtain ⟨h1, h2, h3, h4⟩ := staticLoop_spec hord (s.g.keys.length + 2) never s.g s.stock i.wf
    ((edge_iff i).2 ha) i.stk (by simp [never]) s1 s4 s2 (by rw [s3]; simp)
  refine ⟨(s.staticOrder ord).1, ?_, h2, ?_, ?_⟩
  · exact Prod.ext rfl h1
  · intro n
    have := h3 n
    rw [s3] at this
    rw [← i.gn]
    simpa [Sys.staticOrder] using this
  · intro p n q hl d hd
    have := h4 p n q hl d ((i.ge d n).2 hd)
    rw [s3] at this
    simpa using this

/-- C13: on a graph with a cycle it raises CycleError before yielding anything. -/
theorem C13_static_order_cycle {s : Sys ν} {o : Obs ν} (r : Reach s o) (ha : ¬ o.Acyclic)
    {ord : List ν → List ν} (hord : ∀ l, (ord l).Perm l) :
    s.staticOrder ord = ([], some (.error .cycleError)) := by
  have i := reach_inv r
  obtain ⟨s1, s2, s3, s4⟩ := i.sto
  have hna : ¬ s.g.Acyclic := fun h => ha ((edge_iff i).1 h)
  have hne : s.g.keys ≠ [] := by
    intro he
    apply hna
    intro n hn
    cases hn with
    | single h => have := h.1; simp [he] at this
    | tail _ h => have := h.1; simp [he] at this
  have hpos := List.length_pos_iff.2 hne
  obtain ⟨_, c2, _⟩ := check_spec i.wf i.dirt hord
  unfold Sys.staticOrder staticLoop
  have hb : s.stock.bool s.g = .ok true := by
    simp [View.bool, s1, s4, s3, hpos]
  rw [hb]
  rcases getReady_cases (g := s.g) (v := s.stock) (ord := ord) with
    ⟨e, h1, h2⟩ | ⟨_, _, ⟨h0, h1⟩ | ⟨h0, h1⟩⟩
  · rcases h2 with h2 | h2
    · rw [s1] at h2; simp at h2
    · exact absurd s4 h2
  · simp only; rw [h1]
  · have := c2.2 hna
    rw [this] at h0; simp at h0

example : (run id (Sys.init : Sys Nat) [.add 1 [2], .add 2 [3, 5], .ready .dflt, .add 4 [1], .remove 5]
    ).staticOrder id = ([3, 2, 1, 4], some (.ok ())) := by rfl

/-- The view is usable: the handle exists and the view is not closed. -/
def Usable (s : Sys ν) (h : H) : Prop := ∃ v, s.get h = some v ∧ v.closed = false

theorem incoherent_iff {s : Sys ν} {o : Obs ν} (i : Inv s o) {h : H} (hclean : (o.seen h).clean)
    {v : View ν} (hg : s.get h = some v) (hcl : v.closed = false) : v.conf ≠ [] ↔ o.Incoherent h := by
  obtain ⟨h1, h2⟩ := i.vs h v hg hcl
  have k := (h1.cx hclean).2
  constructor
  · intro hne
    obtain ⟨⟨a, b⟩, hab⟩ := List.exists_mem_of_ne_nil _ hne
    obtain ⟨e1, e2, e3, e4⟩ := (k a b).1 hab
    refine ⟨a, b, (i.ge a b).1 ⟨e1, e2⟩, ?_, fun h => e4 ((h2 a).2.2 h)⟩
    exact e3.imp (h2 b).1.1 (h2 b).2.1
  · rintro ⟨y, z, e1, e2, e3⟩ hnil
    obtain ⟨f1, f2⟩ := (i.ge y z).2 e1
    have := (k y z).2 ⟨f1, f2, e2.imp (h2 z).1.2 (h2 z).2.2, fun h => e3 ((h2 y).2.1 h)⟩
    rw [hnil] at this; simp at this

/-- The same in one direction, whatever the done() calls were. -/
theorem incoherent_of {s : Sys ν} {o : Obs ν} (i : Inv s o) {h : H}
    {v : View ν} (hg : s.get h = some v) (hcl : v.closed = false) (hne : v.conf ≠ []) : o.Incoherent h := by
  obtain ⟨h1, h2⟩ := i.vs h v hg hcl
  obtain ⟨⟨a, b⟩, hab⟩ := List.exists_mem_of_ne_nil _ hne
  obtain ⟨e1, e2, e3, e4⟩ := h1.sk a b hab
  refine ⟨a, b, (i.ge a b).1 ⟨e1, e2⟩, ?_, fun h => e4 ((h2 a).2.2 h)⟩
  exact e3.imp (h2 b).1.1 (h2 b).2.1

/-- C21 (and C17), for every clean view: if it is coherent and the graph acyclic, ready() returns exactly the
nodes not handed out yet all of whose dependencies are done, but for the late ones: a node that got a
dependency on a node already done is never returned. -/
theorem C21_ready_exact_partial {s : Sys ν} {o : Obs ν} (r : Reach s o)
    {ord : List ν → List ν} (hord : ∀ l, (ord l).Perm l) {h : H} (hu : Usable s h)
    (hclean : (o.seen h).clean) (hco : ¬ o.Incoherent h) (ha : o.Acyclic) :
    ∃ l, (step ord s (.ready h)).2 = .nodes l ∧
      ∀ n, n ∈ l ↔ o.node n ∧ ¬ (o.seen h).yielded n ∧ ¬ (o.seen h).done n ∧
        (∀ d, o.edge d n → (o.seen h).done d) ∧ ¬ (o.seen h).late n := by
  have i := reach_inv r
  obtain ⟨v, hg, hcl⟩ := hu
  have hcf : v.conf = [] := Classical.byContradiction fun hne => hco (incoherent_of i hg hcl hne)
  obtain ⟨h1, h2⟩ := i.vs h v hg hcl
  obtain ⟨_, c2, _⟩ := check_spec i.wf i.dirt hord
  refine ⟨v.ready, ?_, ?_⟩
  · simp only [step, hg]
    rcases getReady_cases (g := s.g) (v := v) (ord := ord) with
      ⟨e, h3, h4⟩ | ⟨_, _, ⟨h0, h3⟩ | ⟨h0, h3⟩⟩
    · rcases h4 with h4 | h4
      · rw [hcl] at h4; simp at h4
      · exact absurd hcf h4
    · exact absurd ((edge_iff i).2 ha) (c2.1 h0)
    · rw [h3]
  · intro n
    constructor
    · intro hn
      obtain ⟨a, b, c⟩ := h1.w.rk n hn
      refine ⟨(i.gn n).1 a, fun h => b ((h2 n).1.2 h), fun h => c ((h2 n).2.2 h), fun d hd => ?_, ?_⟩
      · obtain ⟨e1, e2⟩ := (i.ge d n).2 hd
        exact (h2 d).2.1 (ready_preds h1 hclean hn d e1 e2)
      · obtain ⟨k, hk, hk0⟩ := h1.w.rp n hn
        have := (h1.cx hclean).1.lb n a b c k hk
        exact this.2.1 (by omega)
    · rintro ⟨e1, e2, e3, e4, e5⟩
      have hk := (i.gn n).2 e1
      have hny : n ∉ v.yielded := fun h => e2 ((h2 n).1.1 h)
      have hnd : n ∉ v.done := fun h => e3 ((h2 n).2.1 h)
      obtain ⟨k, hkk⟩ := h1.w.pr n hk
      have := ((h1.cx hclean).1.lb n hk hny hnd k hkk).2.2 e5
      have hz : oc s.g v.done n = 0 := by
        rw [oc_zero]
        intro d hd hdn
        exact (h2 d).2.2 (e4 d ((i.ge d n).1 ⟨hd, hdn⟩))
      rw [hz] at this
      exact (h1.cx hclean).1.rd n hk hny hnd (by rw [hkk, this]; rfl)

/-- C17, for every clean view: if a coherent view of an acyclic graph has a node that is not done, then
ready() returns something, or something is handed out and not done yet, or all that is left waits for late
nodes, one of which has all its dependencies done. -/
theorem C17_progress_partial {s : Sys ν} {o : Obs ν} (r : Reach s o)
    {ord : List ν → List ν} (hord : ∀ l, (ord l).Perm l) {h : H} (hu : Usable s h)
    (hclean : (o.seen h).clean) (hco : ¬ o.Incoherent h) (ha : o.Acyclic) {n : ν} (hn : o.node n)
    (hd : ¬ (o.seen h).done n) :
    (∃ l, (step ord s (.ready h)).2 = .nodes l ∧ l ≠ []) ∨
    (∃ m, (o.seen h).yielded m ∧ ¬ (o.seen h).done m) ∨
    (∃ m, o.node m ∧ ¬ (o.seen h).done m ∧ (o.seen h).late m ∧ ∀ d, o.edge d m → (o.seen h).done d) := by
  obtain ⟨l, hl, _⟩ := C21_ready_exact_partial r hord hu hclean hco ha
  have i := reach_inv r
  obtain ⟨v, hg, hcl, _, rfl, _⟩ := ready_answer hl
  obtain ⟨h1, h2⟩ := i.vs h v hg hcl
  have h1' : VOk True (o.seen h).late s.g v := ⟨h1.w, h1.sk, h1.lk, fun _ => h1.cx hclean⟩
  obtain ⟨m, hm | hm | ⟨e1, e2, e3, e4⟩⟩ :=
    progress h1' ((edge_iff i).2 ha) ((i.gn n).2 hn) (fun h => hd ((h2 n).2.1 h))
  · exact .inl ⟨_, hl, List.ne_nil_of_mem hm⟩
  · exact .inr (.inl ⟨m, (h2 m).1.1 hm, fun h => (h1.w.yk m hm).2 ((h2 m).2.2 h)⟩)
  · refine .inr (.inr ⟨m, (i.gn m).1 e1, fun h => e2 ((h2 m).2.2 h), e3, fun d hd => ?_⟩)
    obtain ⟨f1, f2⟩ := (i.ge d m).2 hd
    exact (h2 d).2.1 (e4 d f1 f2)

/-- C17, for every clean view without late nodes: with nothing outstanding, the loop
`while v: r = v.ready(); ...; v.done(*r)` on the view ends normally having handed out exactly the
nodes that were not done, in dependency order. -/
theorem C17_loop_finishes_partial {s : Sys ν} {o : Obs ν} (r : Reach s o)
    {ord : List ν → List ν} (hord : ∀ l, (ord l).Perm l) {h : H} {v : View ν} (hg : s.get h = some v)
    (hcl : v.closed = false) (hclean : (o.seen h).clean) (hco : ¬ o.Incoherent h) (ha : o.Acyclic)
    (hout : ∀ n, ¬ (o.seen h).yielded n) (hlate : ∀ n, (o.seen h).late n → (o.seen h).done n) :
    ∃ l, staticLoop ord (s.g.keys.length + 1) s.g v = (l, some (.ok ())) ∧ l.Nodup ∧
      (∀ n, n ∈ l ↔ o.node n ∧ ¬ (o.seen h).done n) ∧
      ∀ p n q, l = p ++ n :: q → ∀ d, o.edge d n → (o.seen h).done d ∨ d ∈ p := by
  have i := reach_inv r
  obtain ⟨h1, h2⟩ := i.vs h v hg hcl
  have hcf : v.conf = [] := Classical.byContradiction fun hne => hco (incoherent_of i hg hcl hne)
  have hy : v.yielded = [] := by
    rw [List.eq_nil_iff_forall_not_mem]
    intro n hn
    exact hout n ((h2 n).1.1 hn)
  have h1' : VOk True (o.seen h).late s.g v := ⟨h1.w, h1.sk, h1.lk, fun _ => h1.cx hclean⟩
  obtain ⟨a, b, c, e⟩ := staticLoop_spec hord (s.g.keys.length + 1) _ s.g v i.wf ((edge_iff i).2 ha) h1'
    (fun n hn => (h2 n).2.2 (hlate n hn)) hcl hcf hy (by omega)
  refine ⟨_, Prod.ext rfl a, b, ?_, ?_⟩
  · intro n
    rw [c n, i.gn, (h2 n).2]
  · intro p n q hl d hd
    have := e p n q hl d ((i.ge d n).2 hd)
    rwa [(h2 d).2] at this

/-- C17 is false of the code in general: add(1); ready(); done(1); add(2, 1). The view is clean and coherent,
the graph acyclic and 2 not done, yet nothing is outstanding and ready() returns nothing, for ever. -/
theorem C17_violated_by_late_edge :
    ∃ (s : Sys Nat) (o : Obs Nat), Reach s o ∧ o.Acyclic ∧ ¬ o.Incoherent .dflt ∧ (o.seen .dflt).clean ∧
      o.node 2 ∧ ¬ (o.seen .dflt).done 2 ∧ (∀ m, ¬ (o.seen .dflt).yielded m) ∧
      (step id s (.ready .dflt)).2 = .nodes [] ∧ (step id s (.bool .dflt)).2 = .bool true := by
  have r0 : Reach (Sys.init : Sys Nat) Obs.init := Reach.init
  have r1 := Reach.step id (fun _ => .refl _) (.add 1 []) r0
  have r2 := Reach.step id (fun _ => .refl _) (.ready .dflt) r1
  have r3 := Reach.step id (fun _ => .refl _) (.done .dflt [1]) r2
  have r4 := Reach.step id (fun _ => .refl _) (.add 2 [1]) r3
  have i := reach_inv r4
  have hv := i.vs .dflt _ rfl (by decide +kernel)
  have hclean : ((observe (observe (observe (observe Obs.init (.add 1 []) .none) (.ready .dflt) (.nodes [1]))
      (.done .dflt [1]) .none) (.add 2 [1]) .none).seen .dflt).clean := by
    simp [observe, Obs.put, Obs.init, Seen.none]
  refine ⟨_, _, r4, ?_, ?_, hclean, ?_, ?_, ?_, ?_, ?_⟩
  · rw [← edge_iff i, ← (cycle_spec i.wf i.dirt (ord := id) (fun _ => .refl _)).1]
    decide +kernel
  · rw [← incoherent_iff i hclean rfl (by decide +kernel)]
    decide +kernel
  · exact (i.gn 2).1 (by decide +kernel)
  · rw [← (hv.2 2).2]; decide +kernel
  · intro m
    rw [← (hv.2 m).1]
    have : ((step id (step id (step id (step id (Sys.init : Sys Nat) (.add 1 [])).1 (.ready .dflt)).1
      (.done .dflt [1])).1 (.add 2 [1])).1).dflt.yielded = [] := by decide +kernel
    rw [this]; simp
  · decide +kernel
  · decide +kernel

/-- C21 is false of the code in general: done(1, 9) raises ValueError because 9 is not a node, but has
already counted 1 as done; calling done(1) again then counts it twice and releases 3, which also
depends on 2. -/
theorem C21_violated_by_invalid_argument :
    ∃ (s : Sys Nat) (o : Obs Nat), Reach s o ∧ ∃ l n d,
      (step id s (.ready .dflt)).2 = .nodes l ∧ n ∈ l ∧ o.edge d n ∧ ¬ (o.seen .dflt).done d := by
  obtain ⟨o, r⟩ := reach_run
    [.add 3 [1, 2], .ready .dflt, .done .dflt [1, 9], .done .dflt [1]] Sys.init Obs.init Reach.init
  refine ⟨_, o, r, [3], 3, 2, ?_, by simp, ?_, ?_⟩
  · decide +kernel
  · exact ((reach_inv r).ge 2 3).1 (by unfold Graph.Edge; decide +kernel)
  · rw [← ((reach_inv r).vs .dflt _ rfl (by decide +kernel)).2 2 |>.2]
    decide +kernel

/-! ### C18 -/

/-- C87, for every clean view: bool(view) raises RuntimeError exactly if the view is incoherent. -/
theorem C87_bool_partial {s : Sys ν} {o : Obs ν} (r : Reach s o) {ord : List ν → List ν}
    {h : H} (hu : Usable s h) (hclean : (o.seen h).clean) :
    (step ord s (.bool h)).2 = .err .runtimeError ↔ o.Incoherent h := by
  obtain ⟨v, hg, hcl⟩ := hu
  rw [← incoherent_iff (reach_inv r) hclean hg hcl]
  simp only [step, hg, View.bool, hcl]
  by_cases hc : v.conf = [] <;> simp [hc]

/-- C87, for every clean view: ready() raises RuntimeError exactly if the view is incoherent. -/
theorem C87_ready_partial {s : Sys ν} {o : Obs ν} (r : Reach s o) {ord : List ν → List ν}
    {h : H} (hu : Usable s h) (hclean : (o.seen h).clean) :
    (step ord s (.ready h)).2 = .err .runtimeError ↔ o.Incoherent h := by
  obtain ⟨v, hg, hcl⟩ := hu
  rw [← incoherent_iff (reach_inv r) hclean hg hcl]
  simp only [step, hg, View.getReady, hcl]
  by_cases hc : v.conf = []
  · cases hz : (s.g.checkForCycles ord).2 <;> simp [hc, hz]
  · simp [hc]

/-- C87, for every clean view: done() raises RuntimeError exactly if the view is incoherent. -/
theorem C87_done_partial {s : Sys ν} {o : Obs ν} (r : Reach s o) {ord : List ν → List ν}
    {h : H} (hu : Usable s h) (hclean : (o.seen h).clean) (nodes : List ν) :
    (step ord s (.done h nodes)).2 = .err .runtimeError ↔ o.Incoherent h := by
  obtain ⟨v, hg, hcl⟩ := hu
  rw [← incoherent_iff (reach_inv r) hclean hg hcl]
  simp only [step, hg, View.setDone, hcl]
  by_cases hc : v.conf = []
  · cases hz : (View.doneLoop s.g v nodes).2 <;> simp [hc, hz]
  · simp [hc]

/-- C18, one direction in every history, clean or not: no call raises RuntimeError on a coherent view. -/
theorem C18_never_on_coherent {s : Sys ν} {o : Obs ν} (r : Reach s o) {ord : List ν → List ν}
    {h : H} (hu : Usable s h) (hco : ¬ o.Incoherent h) {op : Op ν}
    (ho : op = .bool h ∨ op = .ready h ∨ ∃ nodes, op = .done h nodes) :
    (step ord s op).2 ≠ .err .runtimeError := by
  obtain ⟨v, hg, hcl⟩ := hu
  have hc : v.conf = [] := Classical.byContradiction fun hne => hco (incoherent_of (reach_inv r) hg hcl hne)
  rcases ho with rfl | rfl | ⟨nodes, rfl⟩
  · simp [step, hg, View.bool, hcl, hc]
  · simp only [step, hg, View.getReady, hcl]
    cases hz : (s.g.checkForCycles ord).2 <;> simp [hc, hz]
  · simp only [step, hg, View.setDone, hcl]
    cases hz : (View.doneLoop s.g v nodes).2 <;> simp [hc, hz]

/-- C87, the other direction is false of the code in general: after add(3, 1, 2); ready(); done(1, 1);
ready() the view has handed out 3, which depends on 2, which is not done; bool(view) raises nothing. -/
theorem C87_violated_by_repeated_argument :
    ∃ (s : Sys Nat) (o : Obs Nat), Reach s o ∧ o.Incoherent .dflt ∧
      (step id s (.bool .dflt)).2 = .bool true := by
  obtain ⟨o, r⟩ := reach_run
    [.add 3 [1, 2], .ready .dflt, .done .dflt [1, 1], .ready .dflt] Sys.init Obs.init Reach.init
  have i := reach_inv r
  have hv := (i.vs .dflt _ rfl (by decide +kernel)).2
  refine ⟨_, o, r, ⟨2, 3, (i.ge 2 3).1 (by unfold Graph.Edge; decide +kernel), .inl ((hv 3).1.1 ?_),
    fun h => absurd ((hv 2).2.2 h) ?_⟩, ?_⟩ <;> decide +kernel

/-- C18: if every incoherent dependency involves n, removing n makes the view usable again. -/
theorem C18_remove_restores {s : Sys ν} {o : Obs ν} (r : Reach s o)
    {ord : List ν → List ν} (hord : ∀ l, (ord l).Perm l) {h : H} (hu : Usable s h) {n : ν} (hn : o.node n)
    (hall : ∀ y z, o.edge y z → ((o.seen h).yielded z ∨ (o.seen h).done z) →
      ¬ (o.seen h).done y → y = n ∨ z = n) :
    (step ord (step ord s (.remove n)).1 (.bool h)).2 ≠ .err .runtimeError := by
  have hout := (C16_remove_exact r (ord := ord) hn).1
  have r' := Reach.step ord hord (.remove n) r
  have hu' : Usable (step ord s (.remove n)).1 h := by
    obtain ⟨v, hg, hcl⟩ := hu
    have i := reach_inv r
    simp only [step] at hout ⊢
    rcases remove_spec s.g i.wf n with ⟨h1, h2⟩ | ⟨g', ss, h2, rs⟩
    · rw [h2] at hout; simp at hout
    · simp only [h2]
      refine ⟨v.removeNode n ss, ?_, ?_⟩
      · rw [get_mapViews _ _ (by exact i.dfo)]
        have hg' : ({ s with g := g' } : Sys ν).get h = some v := by cases h <;> exact hg
        rw [hg']; simp [hcl]
      · rw [(removeNode_fields i.wf rs (i.vs h v hg hcl).1.w).2.2.2]; exact hcl
  refine C18_never_on_coherent r' hu' ?_ (.inl rfl)
  rw [hout]
  simp only [observe]
  rintro ⟨y, z, ⟨e1, e2, e3⟩, e4, e5⟩
  have := hall y z e1 (e4.imp (fun h => h.1) (fun h => h.1)) (fun h => e5 ⟨h, e2⟩)
  exact this.elim e2 e3

/-! ### C19 -/

/-- The view an operation acts on, for operations on one view. -/
def Op.on : Op ν → Option H
  | .reset h | .ready h | .done h _ | .bool h => some h
  | .close k => some (.user k)
  | _ => none

theorem step_frame {s : Sys ν} {ord : List ν → List ν} {op : Op ν} {h h' : H} (ho : op.on = some h)
    (hne : h' ≠ h) :
    (step ord s op).1.get h' = s.get h' ∧ (step ord s op).1.stock = s.stock ∧
    ∃ b, (step ord s op).1.g = { s.g with dirty := b } := by
  have key : ∀ v v', s.get h = some v → (s.set h v').get h' = s.get h' ∧
      (s.set h v').stock = s.stock ∧ (s.set h v').g = s.g := by
    intro v v' hg
    refine ⟨by rw [get_set s h h' v' v hg, if_neg hne], ?_, ?_⟩ <;> cases h <;> rfl
  have get_g : ∀ (t : Sys ν) (g : Graph ν), ({ t with g := g } : Sys ν).get h' = t.get h' := by
    intro t g; cases h' <;> rfl
  cases op with
  | reset h0 =>
    simp only [Op.on, Option.some.injEq] at ho; subst ho
    simp only [step]
    cases hg : s.get h0 with
    | none => exact ⟨rfl, rfl, s.g.dirty, rfl⟩
    | some v =>
      simp only [View.reset]
      split <;> simp only <;>
        exact ⟨(key v _ hg).1, (key v _ hg).2.1, s.g.dirty, by rw [(key v _ hg).2.2]⟩
  | close k =>
    simp only [Op.on, Option.some.injEq] at ho; subst ho
    simp only [step]
    cases hg : s.get (.user k) with
    | none => exact ⟨rfl, rfl, s.g.dirty, rfl⟩
    | some v =>
      simp only [View.close]
      split <;> simp only <;>
        exact ⟨(key v _ hg).1, (key v _ hg).2.1, s.g.dirty, by rw [(key v _ hg).2.2]⟩
  | ready h0 =>
    simp only [Op.on, Option.some.injEq] at ho; subst ho
    simp only [step]
    cases hg : s.get h0 with
    | none => exact ⟨rfl, rfl, s.g.dirty, rfl⟩
    | some v =>
      have hch : ∃ b, (s.g.checkForCycles ord).1 = { s.g with dirty := b } := by
        unfold Graph.checkForCycles
        split
        · exact cycle_graph s.g ord
        · exact ⟨s.g.dirty, rfl⟩
      rcases getReady_cases (g := s.g) (v := v) (ord := ord) with
        ⟨e, h3, h4⟩ | ⟨_, _, ⟨h0, h3⟩ | ⟨h0, h3⟩⟩
      · simp only [h3]
        exact ⟨by rw [get_g]; exact (key v _ hg).1, (key v _ hg).2.1, s.g.dirty, rfl⟩
      · simp only [h3]
        exact ⟨by rw [get_g]; exact (key v _ hg).1, (key v _ hg).2.1, hch⟩
      · simp only [h3]
        exact ⟨by rw [get_g]; exact (key v _ hg).1, (key v _ hg).2.1, hch⟩
  | done h0 nodes =>
    simp only [Op.on, Option.some.injEq] at ho; subst ho
    simp only [step]
    cases hg : s.get h0 with
    | none => exact ⟨rfl, rfl, s.g.dirty, rfl⟩
    | some v =>
      simp only
      cases hr : v.setDone s.g nodes with
      | mk v' r =>
        cases r <;> simp only <;>
          exact ⟨(key v _ hg).1, (key v _ hg).2.1, s.g.dirty, by rw [(key v _ hg).2.2]⟩
  | bool h0 =>
    simp only [Op.on, Option.some.injEq] at ho; subst ho
    simp only [step]
    cases hg : s.get h0 with
    | none => exact ⟨rfl, rfl, s.g.dirty, rfl⟩
    | some v =>
      simp only
      cases v.bool s.g <;> exact ⟨rfl, rfl, s.g.dirty, rfl⟩
  | _ => simp [Op.on] at ho

/-- What a call on a view returns depends only on that view, the stock view, and the graph up to the
dirty flag (whose meaning is kept). -/
theorem out_congr {s s' : Sys ν} {ord ord' : List ν → List ν} (hord : ∀ l, (ord l).Perm l)
    (hord' : ∀ l, (ord' l).Perm l) {op : Op ν} {h : H} (ho : op.on = some h) (wf : WF s.g)
    (hd : s.g.dirty = false → s.g.Acyclic) (hd' : s'.g.dirty = false → s'.g.Acyclic)
    (hg : s'.get h = s.get h) (hgr : ∃ b, s'.g = { s.g with dirty := b }) :
    (step ord' s' op).2 = (step ord s op).2 := by
  obtain ⟨b, hb⟩ := hgr
  have hk : s'.g.keys = s.g.keys := by rw [hb]
  have hsu : s'.g.succ = s.g.succ := by rw [hb]
  have hac : s'.g.Acyclic ↔ s.g.Acyclic := by rw [hb]; exact dirty_acyclic _ _
  have wf' : WF s'.g := by rw [hb]; exact dirty_wf b wf
  have hcheck : (s'.g.checkForCycles ord').2 = (s.g.checkForCycles ord).2 := by
    have c := (check_spec wf hd hord).2.1
    have c' := (check_spec wf' hd' hord').2.1
    rw [hac] at c'
    cases h1 : (s'.g.checkForCycles ord').2 <;> cases h2 : (s.g.checkForCycles ord).2 <;>
      simp_all
  have hdl : ∀ (nodes : List ν) (v : View ν), View.doneLoop s'.g v nodes = View.doneLoop s.g v nodes := by
    intro nodes
    induction nodes with
    | nil => intro v; rfl
    | cons n nodes ih => intro v; unfold View.doneLoop; rw [hk, hsu]; simp only [ih]
  cases op with
  | reset h0 =>
    simp only [Op.on, Option.some.injEq] at ho; subst ho
    simp only [step, hg]
    cases s.get h0 with
    | none => rfl
    | some v => simp only [View.reset]; cases v.closed <;> rfl
  | close k =>
    simp only [Op.on, Option.some.injEq] at ho; subst ho
    simp only [step, hg]
    cases s.get (.user k) with
    | none => rfl
    | some v => simp only [View.close]; cases v.closed <;> rfl
  | ready h0 =>
    simp only [Op.on, Option.some.injEq] at ho; subst ho
    simp only [step, hg]
    cases s.get h0 with
    | none => rfl
    | some v =>
      simp only [View.getReady, hcheck]
      cases v.closed
      · by_cases hc : v.conf = []
        · cases (s.g.checkForCycles ord).2 <;> simp [hc]
        · simp [hc]
      · simp
  | done h0 nodes =>
    simp only [Op.on, Option.some.injEq] at ho; subst ho
    simp only [step, hg]
    cases s.get h0 with
    | none => rfl
    | some v =>
      have : v.setDone s'.g nodes = v.setDone s.g nodes := by
        unfold View.setDone; simp only [hdl]
      simp only [this]
      cases v.setDone s.g nodes with
      | mk v' r => cases r <;> rfl
  | bool h0 =>
    simp only [Op.on, Option.some.injEq] at ho; subst ho
    simp only [step, hg]
    cases s.get h0 with
    | none => rfl
    | some v =>
      have : v.bool s'.g = v.bool s.g := by unfold View.bool; rw [hk]
      simp only [this]
      cases v.bool s.g <;> rfl
  | _ => simp [Op.on] at ho

/-- C19: any number of reset/close/ready/done/bool calls on other views does not change what the next
call on a view returns. -/
theorem C19_views_independent {s : Sys ν} {o : Obs ν} (r : Reach s o)
    {ord ord' : List ν → List ν} (hord : ∀ l, (ord l).Perm l) (hord' : ∀ l, (ord' l).Perm l)
    {h : H} (ops : List (Op ν)) (hops : ∀ p ∈ ops, ∃ h', p.on = some h' ∧ h' ≠ h)
    {op : Op ν} (ho : op.on = some h) :
    (step ord' (run ord s ops) op).2 = (step ord s op).2 := by
  have key : ∀ (ops : List (Op ν)) (t : Sys ν) (ot : Obs ν), Reach t ot →
      (∀ p ∈ ops, ∃ h', p.on = some h' ∧ h' ≠ h) →
      (run ord t ops).get h = t.get h ∧ (∃ b, (run ord t ops).g = { t.g with dirty := b }) ∧
      ∃ ot', Reach (run ord t ops) ot' := by
    intro ops
    induction ops with
    | nil => intro t ot rt _; exact ⟨rfl, ⟨t.g.dirty, rfl⟩, ot, rt⟩
    | cons p ops ih =>
      intro t ot rt hp
      obtain ⟨h', h1, h2⟩ := hp p (by simp)
      obtain ⟨f1, _, b, f3⟩ := step_frame (s := t) (ord := ord) h1 (fun e => h2 e.symm)
      obtain ⟨i1, ⟨b', i2⟩, i3⟩ := ih (step ord t p).1 _ (Reach.step ord hord p rt)
        (fun q hq => hp q (by simp [hq]))
      simp only [run]
      exact ⟨i1.trans f1, ⟨b', by rw [i2, f3]⟩, i3⟩
  obtain ⟨k1, k2, o', k3⟩ := key ops s o r hops
  have i := reach_inv r
  exact out_congr hord hord' ho i.wf i.dirt (reach_inv k3).dirt k1 k2

/-- C19: after a successful reset a view is in exactly the state of a view newly returned by
graph.view(). -/
theorem C19_reset_is_fresh {s : Sys ν} {o : Obs ν} (r : Reach s o) {ord : List ν → List ν}
    {h : H} (hu : Usable s h) :
    (step ord s (.reset h)).2 = .none ∧
    ∃ v k, (step ord s (.reset h)).1.get h = some v ∧
      (step ord (step ord s (.reset h)).1 .view).2 = .handle k ∧
      (step ord (step ord s (.reset h)).1 .view).1.get (.user k) = some v := by
  have i := reach_inv r
  obtain ⟨v, hg, hcl⟩ := hu
  obtain ⟨s1, s2, s3, s4⟩ := i.sto
  have hv := i.vs h v hg hcl
  have hr : s.stock.rconf = [] := by
    rw [List.eq_nil_iff_forall_not_mem]
    rintro ⟨p, q⟩; rw [← i.stk.w.mir, s4]; simp
  have e : v.reset s.stock = (s.stock, .ok ()) := by
    have h1 := hv.1.w.nb
    have h2 := i.stk.w.nb
    unfold View.reset
    rw [if_neg (by simp [hcl])]
    cases hs : s.stock
    simp_all
  have e2 : step ord s (.reset h) = (s.set h s.stock, .none) := by
    simp only [step, hg, e]
  rw [e2]
  refine ⟨rfl, s.stock, (s.set h s.stock).user.length, ?_, rfl, ?_⟩
  · rw [get_set s h h s.stock v hg]; simp
  · have : (s.set h s.stock).stock = s.stock := by cases h <;> rfl
    simp [step, Sys.get, this]

/-! ### the hypotheses are met by non-trivial histories -/

/-- A history with a user view in the middle of its work. -/
def demo : List (Op Nat) :=
  [.add 3 [1, 2], .add 4 [3], .view, .ready (.user 0), .done (.user 0) [1], .ready .dflt,
    .done .dflt [2, 2], .add 5 [2]]

/-- The hypotheses of C11, C17, C18 and C21 are met by the view of `demo`: it is clean and coherent and has no
late node, though another view is neither clean nor free of late nodes. -/
theorem demo_reach : ∃ o, Reach (run id Sys.init demo) o ∧ (o.seen (.user 0)).clean ∧
    (∀ n, ¬ (o.seen (.user 0)).late n) ∧ ¬ (o.seen .dflt).clean ∧ (o.seen .dflt).late 5 := by
  have r0 : Reach (Sys.init : Sys Nat) Obs.init := Reach.init
  have r1 := Reach.step id (fun _ => .refl _) (.add 3 [1, 2]) r0
  have r2 := Reach.step id (fun _ => .refl _) (.add 4 [3]) r1
  have r3 := Reach.step id (fun _ => .refl _) .view r2
  have r4 := Reach.step id (fun _ => .refl _) (.ready (.user 0)) r3
  have r5 := Reach.step id (fun _ => .refl _) (.done (.user 0) [1]) r4
  have r6 := Reach.step id (fun _ => .refl _) (.ready .dflt) r5
  have r7 := Reach.step id (fun _ => .refl _) (.done .dflt [2, 2]) r6
  have r8 := Reach.step id (fun _ => .refl _) (.add 5 [2]) r7
  refine ⟨_, r8, ?_⟩
  have e : ∀ {o}, o = observe (observe (observe (observe (observe (observe (observe (observe Obs.init
      (.add 3 [1, 2]) .none) (.add 4 [3]) .none) .view (.handle 0)) (.ready (.user 0)) (.nodes [1, 2]))
      (.done (.user 0) [1]) .none) (.ready .dflt) (.nodes [1, 2])) (.done .dflt [2, 2]) .none)
      (.add 5 [2]) .none → (o.seen (.user 0)).clean ∧
      (∀ n, ¬ (o.seen (.user 0)).late n) ∧ ¬ (o.seen .dflt).clean ∧ (o.seen .dflt).late 5 := by
    rintro o rfl
    simp [observe, Obs.put, Obs.init, Seen.none]
  exact e rfl

example : (step id (run id Sys.init demo) (.ready (.user 0))).2 = .nodes [] ∧
    (step id (run id Sys.init (demo ++ [.done (.user 0) [2]])) (.ready (.user 0))).2 = .nodes [3, 5] := by
  decide +kernel

end Big.Graph
