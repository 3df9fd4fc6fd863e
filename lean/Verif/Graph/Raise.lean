import Verif.Graph.RaiseModel
import Verif.Graph.Props
/- C128: a call on a TopologicalSorter that raises. -/
namespace Big.Graph
variable {ν : Type} [DecidableEq ν]

theorem addLoopX_node (n : ν) (deps : List ν) (st : AddSt ν) :
    addLoopX n st (deps.map .node) = (deps.foldl (addLoopBody n) st, true) := by
  induction deps generalizing st with
  | nil => rfl
  | cons d ds ih => simp only [List.map_cons, addLoopX, List.foldl_cons, ih]

theorem addLoopX_bad (n : ν) (deps : List ν) (rest : List (Arg ν)) (st : AddSt ν) :
    addLoopX n st (deps.map .node ++ .unhashable :: rest) = (deps.foldl (addLoopBody n) st, false) := by
  induction deps generalizing st with
  | nil => rfl
  | cons d ds ih => simp only [List.map_cons, List.cons_append, addLoopX, List.foldl_cons, ih]

theorem nodesOf_map (l : List ν) : nodesOf (l.map Arg.node) = l := by
  induction l with
  | nil => rfl
  | cons a l ih => simp only [nodesOf, List.map_cons, List.filterMap_cons] at *; rw [ih]

theorem doneLoopA_node (g : Graph ν) (l : List ν) (v : View ν) :
    View.doneLoopA g v (l.map .node) =
      ((View.doneLoop g v l).1, if (View.doneLoop g v l).2 then .finished else .valueError) := by
  induction l generalizing v with
  | nil => rfl
  | cons a l ih =>
    simp only [List.map_cons, View.doneLoopA, View.doneLoop]
    split
    · rfl
    · split
      · rfl
      · exact ih _

theorem set_get (s : Sys ν) {h : H} {v : View ν} (hg : s.get h = some v) : s.set h v = s := by
  cases h with
  | dflt => simp only [Sys.get, Option.some.injEq] at hg; subst hg; rfl
  | user k =>
    simp only [Sys.get] at hg
    simp only [Sys.set]
    obtain ⟨hk, e⟩ := List.getElem?_eq_some_iff.1 hg
    subst e
    rw [List.set_getElem_self]

/-- C128: with hashable arguments these are the calls of Model.lean (C11-C21). -/
theorem C128_hashable (ord : List ν → List ν) (s : Sys ν) (op : Op ν) :
    xstep ord s op.x = ((step ord s op).1, .out (step ord s op).2) := by
  cases op with
  | add n deps =>
    simp only [Op.x, xstep, Sys.addX, addLoopX_node, step, Graph.add, if_true]
  | done h nodes =>
    simp only [Op.x, xstep, step]
    cases hg : s.get h with
    | none => rfl
    | some v =>
      simp only [View.setDone, doneLoopA_node, nodesOf_map]
      cases hc : v.closed
      · by_cases hk : v.conf = []
        · cases hz : (View.doneLoop s.g v nodes).2 <;> simp [hk]
        · simp [hk, set_get s hg]
      · simp [set_get s hg]
  | _ => rfl

/-- The arguments before the first that is not hashable. -/
def before (args : List (Arg ν)) : List ν :=
  nodesOf (args.takeWhile (· ≠ .unhashable))

theorem split_args (args : List (Arg ν)) :
    args = (before args).map .node ∨ ∃ rest, args = (before args).map .node ++ .unhashable :: rest := by
  induction args with
  | nil => exact .inl rfl
  | cons a args ih =>
    cases a with
    | unhashable => exact .inr ⟨args, rfl⟩
    | node n =>
      have e : before (.node n :: args) = n :: before args := by
        simp [before, nodesOf]
      rw [e]
      rcases ih with h | ⟨rest, h⟩
      · left; rw [List.map_cons, ← h]
      · right; refine ⟨rest, ?_⟩
        rw [List.map_cons, List.cons_append, ← h]

theorem before_node (l : List ν) : before (l.map Arg.node) = l := by
  induction l with
  | nil => rfl
  | cons a l ih => 
    have e : before (.node a :: l.map Arg.node) = a :: before (l.map .node) := by simp [before, nodesOf]
    rw [List.map_cons, e, ih]

theorem body_id {g : Graph ν} {n d : ν} (hk : d ∈ g.keys) (hs : n ∈ g.succ d) (st : AddSt ν) (hg : st.g = g) :
    addLoopBody n st d = st := by
  subst hg
  simp only [addLoopBody, hk, hs, if_true]

theorem fold_id {g : Graph ν} {n : ν} (deps : List ν) (hd : ∀ d ∈ deps, d ∈ g.keys ∧ n ∈ g.succ d) (st : AddSt ν)
    (hg : st.g = g) : deps.foldl (addLoopBody n) st = st := by
  induction deps with
  | nil => rfl
  | cons d ds ih =>
    rw [List.foldl_cons, body_id (hd d (by simp)).1 (hd d (by simp)).2 st hg]
    exact ih (fun x hx => hd x (by simp [hx]))

/-- The state before the loop of add. -/
def startSt (g : Graph ν) (n : ν) : AddSt ν :=
  let st0 : AddSt ν :=
    if n ∈ g.keys then ⟨g, 0, [], []⟩
    else ⟨{ g with keys := g.keys ++ [n], pc := upd g.pc n 0, succ := upd g.succ n [] }, 0, [n], []⟩
  { st0 with count := st0.g.pc n }

/-- What an add that raises leaves. -/
theorem addX_raise (s : Sys ν) (n : ν) (deps : List ν) (rest : List (Arg ν)) :
    s.addX (.node n) (deps.map .node ++ .unhashable :: rest) =
      ({ s with g := (deps.foldl (addLoopBody n) (startSt s.g n)).g }, false) := by
  simp only [Sys.addX, addLoopX_bad]
  rfl

theorem startSt_char (g : Graph ν) (n : ν) : AddChar g n (startSt g n) := addChar_init g n

/-- C128: what becomes of an add with an unhashable argument: it raises TypeError, and changes nothing exactly when
the first argument is the unhashable one, or the node is in the graph and depends already on all the arguments before
the unhashable one. -/
theorem C128_add {s : Sys ν} {o : Obs ν} (r : Reach s o) (ord : List ν → List ν) (node : Arg ν)
    (deps : List (Arg ν)) (hbad : node = .unhashable ∨ .unhashable ∈ deps) :
    (xstep ord s (.add node deps)).2 = .typeError ∧
    ((xstep ord s (.add node deps)).1 = s ↔
      ∀ n, node = .node n → o.node n ∧ ∀ d ∈ before deps, o.edge d n) := by
  have i := reach_inv r
  cases node with
  | unhashable => simp [xstep, Sys.addX]
  | node n =>
    simp only [reduceCtorEq, false_or] at hbad
    obtain ⟨rest, hr⟩ : ∃ rest, deps = (before deps).map .node ++ .unhashable :: rest := by
      rcases split_args deps with h | h
      · rw [h] at hbad
        simp at hbad
      · exact h
    have e1 : s.addX (.node n) deps = s.addX (.node n) ((before deps).map .node ++ .unhashable :: rest) := by
      rw [← hr]
    rw [addX_raise] at e1
    simp only [xstep, e1]
    refine ⟨by simp, ?_⟩
    obtain ⟨c, _, _, i4, _, _⟩ := addChar_loop s.g n (before deps) _ (startSt_char s.g n)
    constructor
    · intro hs m hm
      simp only [Arg.node.injEq] at hm; subst hm
      have hg := congrArg Sys.g hs
      simp only at hg
      rw [hg] at i4
      have hn := c.hnode
      rw [hg] at hn
      refine ⟨(i.gn n).1 hn, fun d hd => (i.ge d n).1 ⟨(i4 d hd).1, (i4 d hd).2⟩⟩
    · intro h
      obtain ⟨h1, h2⟩ := h n rfl
      have hk : n ∈ s.g.keys := (i.gn n).2 h1
      have hs : (startSt s.g n).g = s.g := by simp [startSt, hk]
      rw [fold_id (g := s.g) _ (fun d hd => by have := (i.ge d n).2 (h2 d hd); exact ⟨this.1, this.2⟩) _ hs, hs]

/-- C128: an add that raised has put the dependencies before the unhashable one into the graph without telling any
view, and adding them again does nothing. So for every view made before or after it, `n` does not wait for `d`. -/
theorem C128_failed_add_forgets {s : Sys ν} {o : Obs ν} (r : Reach s o) (ord : List ν → List ν) {n d : ν}
    (hn : o.node n) (hd : o.node d) :
    let s1 := (xstep ord s (.add (.node n) [.node d, .unhashable])).1
    let s2 := (xstep ord s1 (.add (.node n) [.node d])).1
    (s2.dflt = s.dflt ∧ s2.stock = s.stock ∧ s2.user = s.user) ∧
      (d ∈ s2.g.keys ∧ n ∈ s2.g.succ d) := by
  have i := reach_inv r
  have hk : n ∈ s.g.keys := (i.gn n).2 hn
  have hdk : d ∈ s.g.keys := (i.gn d).2 hd
  intro s1 s2
  have e1 : s1 = { s with g := ([d].foldl (addLoopBody n) (startSt s.g n)).g } := by
    have := addX_raise s n [d] []
    simp only [List.map_cons, List.map_nil, List.cons_append, List.nil_append] at this
    simp only [s1, xstep, this]
  obtain ⟨c, _, _, i4, _, _⟩ := addChar_loop s.g n [d] _ (startSt_char s.g n)
  have hk1 : n ∈ s1.g.keys := by rw [e1]; exact c.hnode
  have hd1 : d ∈ s1.g.keys ∧ n ∈ s1.g.succ d := by rw [e1]; exact i4 d (by simp)
  have e2 : s2 = ({ s1 with g := { s1.g with pc := upd s1.g.pc n (s1.g.pc n) } } : Sys ν).mapViews
      (fun v => v.afterAdd n [] []) := by
    simp only [s2, xstep, Sys.addX, addLoopX, hk1, if_true, addLoopBody, hd1]
  have ev : ∀ v : View ν, v.afterAdd n [] [] = v := fun v => rfl
  refine ⟨?_, ?_⟩
  · rw [e2]
    simp only [Sys.mapViews, ev, ite_self, List.map_id']
    rw [e1]
    exact ⟨rfl, rfl, rfl⟩
  · rw [e2]
    exact hd1

/-! ### done() -/

/-- What the loop of done has done after the nodes `p`. -/
def markAll (g : Graph ν) (v : View ν) (p : List ν) : View ν := p.foldl (fun v n => v.markNodeDone (g.succ n)) v

theorem mark_idle (v : View ν) (S : List ν) (h : ∀ x ∈ S, x ∈ v.yielded ∨ x ∈ v.done) : v.markNodeDone S = v := by
  induction S with
  | nil => rfl
  | cons a S ih =>
    unfold View.markNodeDone at *
    rw [List.foldl_cons, if_pos (h a (by simp))]
    exact ih (fun x hx => h x (by simp [hx]))

theorem markAll_idle (g : Graph ν) (v : View ν) (p : List ν)
    (h : ∀ n ∈ p, ∀ x ∈ g.succ n, x ∈ v.yielded ∨ x ∈ v.done) : markAll g v p = v := by
  induction p with
  | nil => rfl
  | cons a p ih =>
    unfold markAll at *
    rw [List.foldl_cons, mark_idle v _ (h a (by simp))]
    exact ih (fun x hx => h x (by simp [hx]))

theorem markAll_spec {g : Graph ν} (wf : WF g) (p : List ν) (hp : ∀ n ∈ p, n ∈ g.keys) (v : View ν) (w : WInv g v) :
    WInv g (markAll g v p) ∧ (markAll g v p).yielded = v.yielded ∧ (markAll g v p).done = v.done ∧
    ∀ x k, v.pred x = some k → ∃ k', (markAll g v p).pred x = some k' ∧ k' ≤ k ∧
      ((∃ n ∈ p, x ∈ g.succ n) → x ∉ v.yielded → x ∉ v.done → k' < k) := by
  induction p generalizing v with
  | nil => exact ⟨w, rfl, rfl, fun x k h => ⟨k, h, by omega, by simp⟩⟩
  | cons a p ih =>
    have hk := hp a (by simp)
    have hS := wf.succNodup a hk
    have w' := w.mark (g.succ a) hS (fun s hs => wf.closed a hk s hs)
    have ms := markNodeDone_spec (g.succ a) hS v (fun s hs _ _ => by
      obtain ⟨k, h⟩ := w.pr s (wf.closed a hk s hs); simp [h])
    obtain ⟨i1, i2, i3, i4⟩ := ih (fun n hn => hp n (by simp [hn])) _ w'
    have e : markAll g v (a :: p) = markAll g (v.markNodeDone (g.succ a)) p := rfl
    have hy : (v.markNodeDone (g.succ a)).yielded = v.yielded := by rw [ms]
    have hd : (v.markNodeDone (g.succ a)).done = v.done := by rw [ms]
    rw [e]
    refine ⟨i1, by rw [i2, hy], by rw [i3, hd], ?_⟩
    intro x k hxk
    have hpred : (v.markNodeDone (g.succ a)).pred x =
        if x ∈ g.succ a ∧ x ∉ v.yielded ∧ x ∉ v.done then some (k - 1) else some k := by
      rw [ms]; simp only [hxk, Option.map_some]
    by_cases hc : x ∈ g.succ a ∧ x ∉ v.yielded ∧ x ∉ v.done
    · rw [if_pos hc] at hpred
      obtain ⟨k', h1, h2, h3⟩ := i4 x _ hpred
      exact ⟨k', h1, by omega, fun _ _ _ => by omega⟩
    · rw [if_neg hc] at hpred
      obtain ⟨k', h1, h2, h3⟩ := i4 x _ hpred
      refine ⟨k', h1, h2, ?_⟩
      rintro ⟨n, hn, hx⟩ hxy hxd
      rcases List.mem_cons.1 hn with rfl | hn
      · exact absurd ⟨hx, hxy, hxd⟩ hc
      · exact h3 ⟨n, hn, hx⟩ (by rwa [hy]) (by rwa [hd])

/-- How the loop of done ends. -/
theorem doneLoopA_cases {g : Graph ν} (wf : WF g) (args : List (Arg ν)) (v : View ν) (w : WInv g v) :
    (∃ l, args = l.map .node ∧ (∀ n ∈ l, n ∈ v.yielded) ∧ View.doneLoopA g v args = (markAll g v l, .finished)) ∨
    (∃ p bad rest, args = p.map .node ++ bad :: rest ∧ (∀ n ∈ p, n ∈ v.yielded) ∧
      ((bad = .unhashable ∧ View.doneLoopA g v args = (markAll g v p, .typeError)) ∨
       (∃ b, bad = .node b ∧ b ∉ v.yielded ∧ View.doneLoopA g v args = (markAll g v p, .valueError)))) := by
  induction args generalizing v with
  | nil => exact .inl ⟨[], rfl, by simp, rfl⟩
  | cons a args ih =>
    cases a with
    | unhashable => exact .inr ⟨[], _, args, rfl, by simp, .inl ⟨rfl, rfl⟩⟩
    | node n =>
      by_cases hy : n ∈ v.yielded
      · have hk := (w.yk n hy).1
        have e : View.doneLoopA g v (.node n :: args) = View.doneLoopA g (v.markNodeDone (g.succ n)) args := by
          simp only [View.doneLoopA, hk, hy, not_true_eq_false, if_false]
        have hS := wf.succNodup n hk
        have w' := w.mark (g.succ n) hS (fun s hs => wf.closed n hk s hs)
        have ms := markNodeDone_spec (g.succ n) hS v (fun s hs _ _ => by
          obtain ⟨k, h⟩ := w.pr s (wf.closed n hk s hs); simp [h])
        have hye : (v.markNodeDone (g.succ n)).yielded = v.yielded := by rw [ms]
        have em : ∀ l, markAll g v (n :: l) = markAll g (v.markNodeDone (g.succ n)) l := fun _ => rfl
        rcases ih _ w' with ⟨l, h1, h2, h3⟩ | ⟨p, bad, rest, h1, h2, h3⟩
        · left
          refine ⟨n :: l, by rw [h1]; rfl, ?_, by rw [e, h3, em]⟩
          intro m hm
          rcases List.mem_cons.1 hm with rfl | hm
          · exact hy
          · rw [← hye]; exact h2 m hm
        · right
          refine ⟨n :: p, bad, rest, by rw [h1]; rfl, ?_, ?_⟩
          · intro m hm
            rcases List.mem_cons.1 hm with rfl | hm
            · exact hy
            · rw [← hye]; exact h2 m hm
          · rw [e, em]
            rw [hye] at h3
            exact h3
      · right
        refine ⟨[], .node n, args, rfl, by simp, .inr ⟨n, rfl, hy, ?_⟩⟩
        by_cases hk : n ∈ g.keys
        · simp only [View.doneLoopA, hk, hy, not_true_eq_false, not_false_eq_true, if_false, if_true]; rfl
        · simp only [View.doneLoopA, hk, not_false_eq_true, if_true]; rfl

/-- C128: a done() that raises although the view can be used has stopped at its first bad argument, and has changed
nothing exactly when all nodes that depend on one of the arguments before it were handed out already. -/
theorem C128_done {s : Sys ν} {o : Obs ν} (r : Reach s o) (ord : List ν → List ν) {h : H} (hu : Usable s h)
    (nodes : List (Arg ν)) (hr : (xstep ord s (.done h nodes)).2.raised)
    (hc : (xstep ord s (.done h nodes)).2 ≠ .out (.err .runtimeError)) :
    ∃ (p : List ν) (bad : Arg ν) (rest : List (Arg ν)), nodes = p.map .node ++ bad :: rest ∧ (∀ n ∈ p, (o.seen h).yielded n) ∧
      ((bad = .unhashable ∧ (xstep ord s (.done h nodes)).2 = .typeError) ∨
       (∃ b, bad = .node b ∧ ¬ (o.seen h).yielded b ∧
        (xstep ord s (.done h nodes)).2 = .out (.err .valueError))) ∧
      ((xstep ord s (.done h nodes)).1 = s ↔
        ∀ n ∈ p, ∀ x, o.edge n x → (o.seen h).yielded x ∨ (o.seen h).done x) := by
  have i := reach_inv r
  obtain ⟨v, hg, hcl⟩ := hu
  obtain ⟨vok, vyd⟩ := i.vs h v hg hcl
  have w := vok.w
  have hcf : v.conf = [] := by
    apply Classical.byContradiction
    intro hne
    exact hc (by simp [xstep, hg, hcl, hne])
  have key : ∀ p : List ν, (∀ n ∈ p, n ∈ v.yielded) → (s.set h (markAll s.g v p) = s ↔
      ∀ n ∈ p, ∀ x, o.edge n x → (o.seen h).yielded x ∨ (o.seen h).done x) := by
    intro p hp
    constructor
    · intro hs n hn x hx
      have e := (i.ge n x).2 hx
      have hm : markAll s.g v p = v := by
        have h1 := get_set s h h (markAll s.g v p) v hg
        rw [hs, hg, if_pos rfl] at h1
        exact (Option.some.inj h1).symm
      have hxk := i.wf.closed n e.1 x e.2
      obtain ⟨k, hk⟩ := w.pr x hxk
      obtain ⟨-, -, -, m4⟩ := markAll_spec i.wf p (fun n hn => (w.yk n (hp n hn)).1) v w
      obtain ⟨k', h1, _, h3⟩ := m4 x k hk
      rw [hm, hk] at h1
      have : k = k' := Option.some.inj h1
      apply Classical.byContradiction
      intro hno
      have hno1 : x ∉ v.yielded := fun h' => hno (.inl ((vyd x).1.1 h'))
      have hno2 : x ∉ v.done := fun h' => hno (.inr ((vyd x).2.1 h'))
      have := h3 ⟨n, hn, e.2⟩ hno1 hno2
      omega
    · intro hall
      rw [markAll_idle s.g v p, set_get s hg]
      intro n hn x hx
      have hk := (w.yk n (hp n hn)).1
      rcases hall n hn x ((i.ge n x).1 ⟨hk, hx⟩) with h' | h'
      · exact .inl ((vyd x).1.2 h')
      · exact .inr ((vyd x).2.2 h')
  rcases doneLoopA_cases i.wf nodes v w with ⟨l, h1, h2, h3⟩ | ⟨p, bad, rest, h1, h2, h3⟩
  · exfalso
    simp [xstep, hg, hcl, hcf, h3, XOut.raised] at hr
  · refine ⟨p, bad, rest, h1, fun n hn => (vyd n).1.1 (h2 n hn), ?_, ?_⟩
    · rcases h3 with ⟨h3, h4⟩ | ⟨b, h3, h4, h5⟩
      · left; refine ⟨h3, ?_⟩; simp [xstep, hg, hcl, hcf, h4]
      · right; refine ⟨b, h3, fun h' => h4 ((vyd b).1.2 h'), ?_⟩; simp [xstep, hg, hcl, hcf, h5]
    · rw [← key p h2]
      rcases h3 with ⟨h3, h4⟩ | ⟨b, h3, h4, h5⟩
      · simp [xstep, hg, hcl, hcf, h4]
      · simp [xstep, hg, hcl, hcf, h5]

/-- The calls for which C128 can fail: add with an unhashable dependency, and done with several arguments. -/
def XOp.Risky : XOp ν → Prop
  | .add node deps => node ≠ .unhashable ∧ .unhashable ∈ deps
  | .done _ nodes => 1 < nodes.length
  | .other (.done _ nodes) => 1 < nodes.length
  | _ => False

theorem check_same {g : Graph ν} {ord : List ν → List ν} (h : (g.checkForCycles ord).2 = true) :
    (g.checkForCycles ord).1 = g := by
  unfold Graph.checkForCycles at *
  split at h
  · rename_i hd
    rw [if_pos hd]
    simp only at h ⊢
    unfold Graph.cycle at *
    rw [if_neg (by simp [hd])] at h ⊢
    simp only at h ⊢
    split
    · rename_i h1; simp [h1] at h
    · rename_i h1
      simp only [h1, if_false] at h
      split
      · cases g; simp_all
      · rename_i h2; rw [h2] at h; simp at h
  · cases h

theorem raised_same_done {s : Sys ν} {o : Obs ν} (r : Reach s o) (ord : List ν → List ν) (h : H)
    (nodes : List (Arg ν)) (hr : (xstep ord s (.done h nodes)).2.raised) (hl : ¬ 1 < nodes.length) :
    (xstep ord s (.done h nodes)).1 = s := by
  by_cases hu : Usable s h
  · by_cases hc : (xstep ord s (.done h nodes)).2 = .out (.err .runtimeError)
    · obtain ⟨v, hg, hcl⟩ := hu
      by_cases hcf : v.conf = []
      · exfalso
        simp only [xstep, hg, hcl, hcf] at hc
        revert hc
        simp only [ne_eq, not_true_eq_false, if_false, Bool.false_eq_true]
        split <;> simp
      · simp [xstep, hg, hcl, hcf]
    · obtain ⟨p, bad, rest, h1, _, _, h4⟩ := C128_done r ord hu nodes hr hc
      have : p = [] := by
        rw [h1] at hl
        simp at hl
        cases p with
        | nil => rfl
        | cons => simp at hl; omega
      subst this
      exact h4.2 (by simp)
  · simp only [xstep]
    cases hg : s.get h with
    | none => rfl
    | some v =>
      have : v.closed = true := by
        cases hcl : v.closed
        · exact absurd ⟨v, hg, hcl⟩ hu
        · rfl
      simp [this]

/-- C128: in every reachable state a call that raises an exception has changed nothing, neither the graph nor
any view, unless it is an add with an unhashable dependency, or a done with several arguments. -/
theorem C128_raises_nothing_changed {s : Sys ν} {o : Obs ν} (r : Reach s o) (ord : List ν → List ν)
    (op : XOp ν) (hr : (xstep ord s op).2.raised) (hsafe : ¬ op.Risky) : (xstep ord s op).1 = s := by
  have i := reach_inv r
  cases op with
  | add node deps =>
    cases node with
    | unhashable => rfl
    | node n =>
      simp only [XOp.Risky, ne_eq, reduceCtorEq, not_false_eq_true, true_and] at hsafe
      exfalso
      rcases split_args deps with h | ⟨rest, h⟩
      · rw [h] at hr
        simp [xstep, Sys.addX, addLoopX_node, XOut.raised] at hr
      · exact hsafe (by rw [h]; simp)
  | remove node =>
    cases node with
    | unhashable => rfl
    | node n =>
      simp only [xstep, step] at hr ⊢
      cases he : s.g.remove n with
      | error e => rfl
      | ok x => simp [he, XOut.raised] at hr
  | done h nodes => exact raised_same_done r ord h nodes hr hsafe
  | other op =>
    cases op with
    | done h nodes =>
      have e := C128_hashable ord s (.done h nodes)
      have e' : xstep ord s (.other (.done h nodes)) = xstep ord s (.done h (nodes.map .node)) := by
        rw [show XOp.done h (nodes.map .node) = (Op.done h nodes).x from rfl, e]; rfl
      rw [e'] at hr ⊢
      exact raised_same_done r ord h _ hr (by simpa [XOp.Risky] using hsafe)
    | add n deps => simp [xstep, step, XOut.raised] at hr
    | remove n =>
      simp only [xstep, step] at hr ⊢
      cases he : s.g.remove n with
      | error e => rfl
      | ok x => simp [he, XOut.raised] at hr
    | view => simp [xstep, step, XOut.raised] at hr
    | cycle => simp [xstep, step, XOut.raised] at hr
    | copyView h =>
      simp only [xstep, step] at hr ⊢
      cases hg : s.get h with
      | none => rfl
      | some v =>
        simp only [hg] at hr ⊢
        cases hc : v.closed
        · simp [hc, XOut.raised] at hr
        · simp
    | reset h =>
      simp only [xstep, step] at hr ⊢
      cases hg : s.get h with
      | none => rfl
      | some v =>
        simp only [hg, View.reset] at hr ⊢
        cases hc : v.closed
        · simp [hc, XOut.raised] at hr
        · simp [set_get s hg]
    | close k =>
      simp only [xstep, step] at hr ⊢
      cases hg : s.get (.user k) with
      | none => rfl
      | some v =>
        simp only [hg, View.close] at hr ⊢
        cases hc : v.closed
        · simp [hc, XOut.raised] at hr
        · simp [set_get s hg]
    | bool h =>
      simp only [xstep, step] at hr ⊢
      cases hg : s.get h with
      | none => rfl
      | some v =>
        simp only
        cases v.bool s.g <;> rfl
    | ready h =>
      simp only [xstep, step] at hr ⊢
      cases hg : s.get h with
      | none => rfl
      | some v =>
        simp only [hg] at hr ⊢
        rcases getReady_cases (g := s.g) (v := v) (ord := ord) with
          ⟨e, h3, h4⟩ | ⟨_, _, ⟨h0, h3⟩ | ⟨h0, h3⟩⟩
        · simp [h3, set_get s hg]
        · simp [h3, set_get s hg, check_same h0]
        · simp [h3, XOut.raised] at hr

/-! ### Counterexamples -/

/-- The history add(1); add(2). -/
def pair : Sys Nat := run id Sys.init [.add 1 [], .add 2 []]

/-- C128 fails for add: after add(1), add(2), add(2, 1, []) raises TypeError; then add(2, 1) raises nothing, but ready()
hands out 2 together with 1, on which it depends. -/
theorem C128_counterexample_add :
    ∃ s o, Reach s o ∧ s = pair ∧
      (xstep id s (.add (.node 2) [.node 1, .unhashable])).2 = .typeError ∧
      (let s1 := (xstep id s (.add (.node 2) [.node 1, .unhashable])).1
       let s2 := (xstep id s1 (.add (.node 2) [.node 1])).1
       (xstep id s1 (.add (.node 2) [.node 1])).2 = .out .none ∧
       (xstep id s2 (.other (.ready .dflt))).2 = .out (.nodes [1, 2])) ∧
      -- without the call that raised:
      (let s2 := (xstep id s (.add (.node 2) [.node 1])).1
       (xstep id s2 (.other (.ready .dflt))).2 = .out (.nodes [1])) := by
  obtain ⟨o, r⟩ := reach_run [.add 1 [], .add 2 []] Sys.init Obs.init Reach.init
  exact ⟨pair, o, r, rfl, by decide +kernel, by decide +kernel, by decide +kernel⟩

/-- C128 fails for add, and then the loop documented for TopologicalSorter never ends: after add(1, []) raised, bool()
is True and ready() returns nothing, for ever. -/
theorem C128_counterexample_hang :
    (xstep id (Sys.init : Sys Nat) (.add (.node 1) [.unhashable])).2 = .typeError ∧
    (let s1 := (xstep id (Sys.init : Sys Nat) (.add (.node 1) [.unhashable])).1
     (xstep id s1 (.other (.bool .dflt))).2 = .out (.bool true) ∧
     (xstep id s1 (.other (.ready .dflt))).2 = .out (.nodes []) ∧
     (xstep id (xstep id s1 (.other (.ready .dflt))).1 (.other (.bool .dflt))).2 = .out (.bool true) ∧
     (xstep id (xstep id s1 (.other (.ready .dflt))).1 (.other (.ready .dflt))).2 = .out (.nodes [])) := by
  decide +kernel

/-- The history add(3, 1, 2); ready(). -/
def three : Sys Nat := run id Sys.init [.add 3 [1, 2], .ready .dflt]

/-- C128 fails for done: after add(3, 1, 2), ready() = (1, 2), done(1, 9) raises ValueError, but it has counted 1 as
done: after done(1), ready() hands out 3 though 2 is not done. -/
theorem C128_counterexample_done :
    ∃ s o, Reach s o ∧ s = three ∧
      (xstep id s (.done .dflt [.node 1, .node 9])).2 = .out (.err .valueError) ∧
      (let s1 := (xstep id s (.done .dflt [.node 1, .node 9])).1
       let s2 := (xstep id s1 (.done .dflt [.node 1])).1
       (xstep id s2 (.other (.ready .dflt))).2 = .out (.nodes [3])) ∧
      (let s2 := (xstep id s (.done .dflt [.node 1])).1
       (xstep id s2 (.other (.ready .dflt))).2 = .out (.nodes [])) := by
  obtain ⟨o, r⟩ := reach_run [.add 3 [1, 2], .ready .dflt] Sys.init Obs.init Reach.init
  exact ⟨three, o, r, rfl, by decide +kernel, by decide +kernel, by decide +kernel⟩

/-- The theorems are not about nothing: calls that raise in each of the ways. -/
example : (xstep id three (.remove .unhashable)).2 = .typeError ∧
    (xstep id three (.remove (.node 7))).2 = .out (.err .valueError) ∧
    (xstep id three (.done .dflt [.unhashable])).2 = .typeError ∧
    (xstep id three (.done .dflt [.node 3])).2 = .out (.err .valueError) ∧
    (xstep id three (.add (.node 3) [.node 1, .unhashable])).2 = .typeError ∧
    (xstep id (xstep id three (.add (.node 1) [.node 4])).1 (.other (.ready .dflt))).2 = .out (.err .runtimeError) ∧
    (xstep id (xstep id three (.add (.node 3) [.node 3])).1 (.other (.ready .dflt))).2 = .out (.err .cycleError) := by
  decide +kernel

end Big.Graph
