import Verif.Graph.Props
import Verif.Graph.GenModel
/- C133: static_order() interleaved with other calls. -/
namespace Big.Graph
variable {ν : Type} [DecidableEq ν]

/-! ### specification -/

/-- A call on the graph, watched by the observer of Spec.lean. -/
def watch (ord : List ν → List ν) (w : Sys ν × Obs ν) (op : Op ν) : (Sys ν × Obs ν) × Out ν :=
  (((step ord w.1 op).1, observe w.2 op (step ord w.1 op).2), (step ord w.1 op).2)

/-- The nodes the generator has given, after another call: a removed node is forgotten. -/
def forget (given : List ν) : Op ν → Out ν → List ν
  | .remove n, .none => given.filter (· ≠ n)
  | _, _ => given

/-- Whether a call edits the graph. -/
def Op.edits : Op ν → Bool
  | .add _ _ | .remove _ => true
  | _ => false

/-- What was given, after `next`. -/
def took (given : List ν) : Got ν → List ν
  | .yields n => given ++ [n]
  | _ => given

/-- The generator is in the middle of a tuple that ready() returned. -/
def Gen.inside : Gen ν → Bool
  | .paused _ _ (_ :: _) => true
  | _ => false

/-- The handle of the view the generator made. -/
def Gen.handle : Gen ν → Option H
  | .paused k _ _ => some (.user k)
  | _ => none

/-- Everything that can happen to a graph and one generator of static_order(): any history before it is made; then
calls of any kind, on the graph and on any view but the generator's own, to which the user has no reference, and
`next`s, in any order. `given` are the nodes it gave, in order, less those removed from the graph since; `edited`:
the graph was edited since the generator last asked ready(); `ever`: it was edited since the generator was made.
A `next` that does not come back ends the history. -/
inductive GReach : Sys ν → Obs ν → Gen ν → List ν → Bool → Bool → Prop
  | start {s : Sys ν} {o : Obs ν} (r : Reach s o) : GReach s o .fresh [] false false
  | call {s : Sys ν} {o : Obs ν} {gen : Gen ν} {given : List ν} {edited ever : Bool} (ord : List ν → List ν)
      (hord : ∀ l, (ord l).Perm l) (op : Op ν) (r : GReach s o gen given edited ever)
      (hop : op.on = none ∨ op.on ≠ gen.handle) :
      GReach (step ord s op).1 (observe o op (step ord s op).2) gen (forget given op (step ord s op).2)
        (edited || op.edits) (ever || op.edits)
  | next {s : Sys ν} {o : Obs ν} {gen : Gen ν} {given : List ν} {edited ever : Bool} (ord : List ν → List ν)
      (hord : ∀ l, (ord l).Perm l) (fuel : Nat) (r : GReach s o gen given edited ever)
      (hret : (gen.next (watch ord) (fuel + 1) (s, o)).2.2 ≠ .running) :
      GReach (gen.next (watch ord) (fuel + 1) (s, o)).1.1 (gen.next (watch ord) (fuel + 1) (s, o)).1.2
        (gen.next (watch ord) (fuel + 1) (s, o)).2.1 (took given (gen.next (watch ord) (fuel + 1) (s, o)).2.2)
        (gen.inside && edited) ever

/-- A node that may come next: not given yet, all its dependencies given, and none of them added to it when they
had already been given (and marked done) and it had not. -/
def Due (o : Obs ν) (h : H) (given : List ν) (n : ν) : Prop :=
  o.node n ∧ n ∉ given ∧ (∀ d, o.edge d n → d ∈ given) ∧ ¬ (o.seen h).late n

/-- How `next` goes on when everything given so far is marked done: it ends exactly if every node was given; else
it raises CycleError exactly if there is a cycle; else it yields a node that is due, and if there is none it never
comes back. -/
inductive GoesOn (o : Obs ν) (h : H) (given : List ν) : Got ν → Prop
  | stops (hall : ∀ n, o.node n → n ∈ given) : GoesOn o h given .stops
  | cyclic (hl : ∃ n, o.node n ∧ n ∉ given) (ha : ¬ o.Acyclic) : GoesOn o h given (.raises .cycleError)
  | yields (hl : ∃ n, o.node n ∧ n ∉ given) (ha : o.Acyclic) {n : ν} (hn : Due o h given n) :
      GoesOn o h given (.yields n)
  | stuck (hl : ∃ n, o.node n ∧ n ∉ given) (ha : o.Acyclic) (hn : ∀ n, ¬ Due o h given n) :
      GoesOn o h given .running

/-- Distinct nodes of the graph, each after all it depends on. -/
def Ordered (o : Obs ν) (given : List ν) : Prop :=
  given.Nodup ∧ (∀ n ∈ given, o.node n) ∧
    ∀ (p : List ν) (n : ν) (q : List ν), given = p ++ n :: q → ∀ d, o.edge d n → d ∈ p

/-! ### the view's calls, watched -/

theorem watch_reach {ord : List ν → List ν} (hord : ∀ l, (ord l).Perm l) {s : Sys ν} {o : Obs ν} (r : Reach s o)
    (op : Op ν) : Reach (watch ord (s, o) op).1.1 (watch ord (s, o) op).1.2 := Reach.step ord hord op r

theorem bool_call {s : Sys ν} {o : Obs ν} (r : Reach s o) {ord : List ν → List ν} {h : H} (hu : Usable s h)
    (hclean : (o.seen h).clean) :
    (o.Incoherent h → watch ord (s, o) (.bool h) = ((s, o), .err .runtimeError)) ∧
    (¬ o.Incoherent h → (∃ n, o.node n ∧ ¬ (o.seen h).done n) → watch ord (s, o) (.bool h) = ((s, o), .bool true)) ∧
    (¬ o.Incoherent h → (∀ n, o.node n → (o.seen h).done n) → watch ord (s, o) (.bool h) = ((s, o), .bool false)) := by
  obtain ⟨v, hg, hcl⟩ := hu
  have i := reach_inv r
  obtain ⟨h1, h2⟩ := i.vs h v hg hcl
  have hi := incoherent_iff i hclean hg hcl
  have hlt := done_lt i.wf h1.w
  refine ⟨fun hc => ?_, fun hc hn => ?_, fun hc hn => ?_⟩
  · have := hi.2 hc
    simp [watch, step, hg, View.bool, hcl, this, observe]
  · have hcf : v.conf = [] := Classical.byContradiction fun h => hc (hi.1 h)
    have : v.done.length < s.g.keys.length := hlt.2 (by
      obtain ⟨n, a, b⟩ := hn
      exact ⟨n, (i.gn n).2 a, fun h => b ((h2 n).2.1 h)⟩)
    simp [watch, step, hg, View.bool, hcl, hcf, this, observe]
  · have hcf : v.conf = [] := Classical.byContradiction fun h => hc (hi.1 h)
    have : ¬ v.done.length < s.g.keys.length := fun hl => by
      obtain ⟨n, a, b⟩ := hlt.1 hl
      exact b ((h2 n).2.2 (hn n ((i.gn n).1 a)))
    simp [watch, step, hg, View.bool, hcl, hcf, this, observe]

theorem ready_call {s : Sys ν} {o : Obs ν} (r : Reach s o) {ord : List ν → List ν}
    (hord : ∀ l, (ord l).Perm l) {h : H} (hu : Usable s h)
    (hclean : (o.seen h).clean) (hco : ¬ o.Incoherent h) :
    (¬ o.Acyclic → (watch ord (s, o) (.ready h)).2 = .err .cycleError) ∧
    (o.Acyclic → ∃ l, (watch ord (s, o) (.ready h)).2 = .nodes l ∧ l.Nodup ∧
      (watch ord (s, o) (.ready h)).1.2 = observe o (.ready h) (.nodes l) ∧
      Usable (watch ord (s, o) (.ready h)).1.1 h ∧
      ∀ n, n ∈ l ↔ o.node n ∧ ¬ (o.seen h).yielded n ∧ ¬ (o.seen h).done n ∧
        (∀ d, o.edge d n → (o.seen h).done d) ∧ ¬ (o.seen h).late n) := by
  have i := reach_inv r
  refine ⟨fun ha => ?_, fun ha => ?_⟩
  · obtain ⟨v, hg, hcl⟩ := hu
    have hcf : v.conf = [] := Classical.byContradiction fun hne => hco (incoherent_of i hg hcl hne)
    have hc := (check_spec i.wf i.dirt hord).2.1.2 (fun h => ha ((edge_iff i).1 h))
    simp [watch, step, hg, View.getReady, hcl, hcf, hc]
  · obtain ⟨l, hl, hm⟩ := C21_ready_exact_partial r hord hu hclean hco ha
    refine ⟨l, hl, (C12_yield_at_most_once r hl).1, ?_, ?_, hm⟩
    · show observe o _ (step ord s (.ready h)).2 = _
      rw [hl]
    · obtain ⟨v, hg, hcl⟩ := hu
      have hcf : v.conf = [] := Classical.byContradiction fun hne => hco (incoherent_of i hg hcl hne)
      show Usable (step ord s (.ready h)).1 h
      simp only [step, hg] at hl ⊢
      rcases getReady_cases (g := s.g) (v := v) (ord := ord) with
        ⟨e, h3, h4⟩ | ⟨_, _, ⟨h0, h3⟩ | ⟨h0, h3⟩⟩
      · rw [h3] at hl; simp at hl
      · rw [h3] at hl; simp at hl
      · rw [h3]
        refine ⟨v.took, ?_, by simpa [View.took] using hcl⟩
        have : ∀ g, ({ s.set h v.took with g := g } : Sys ν).get h = (s.set h v.took).get h := by
          intro g; cases h <;> rfl
        simp only [this]
        rw [get_set s h h _ v hg, if_pos rfl]

theorem done_call {s : Sys ν} {o : Obs ν} (r : Reach s o) {ord : List ν → List ν} {h : H} (hu : Usable s h)
    (hclean : (o.seen h).clean) (nodes : List ν) :
    (o.Incoherent h → (watch ord (s, o) (.done h nodes)).2 = .err .runtimeError) ∧
    (¬ o.Incoherent h → (∃ n ∈ nodes, ¬ (o.seen h).yielded n) →
      (watch ord (s, o) (.done h nodes)).2 = .err .valueError) ∧
    (¬ o.Incoherent h → (∀ n ∈ nodes, (o.seen h).yielded n) →
      (watch ord (s, o) (.done h nodes)).2 = .none ∧
      (watch ord (s, o) (.done h nodes)).1.2 = observe o (.done h nodes) .none ∧
      Usable (watch ord (s, o) (.done h nodes)).1.1 h) := by
  refine ⟨fun hc => (C87_done_partial r hu hclean nodes).2 hc, fun hc hn => ?_, fun hc hn => ?_⟩
  all_goals
    obtain ⟨v, hg, hcl⟩ := hu
    have i := reach_inv r
    obtain ⟨h1, h2⟩ := i.vs h v hg hcl
    have hcf : v.conf = [] := Classical.byContradiction fun hne => hc (incoherent_of i hg hcl hne)
    rcases setDone_cases i.wf h1.w nodes with ⟨_, e⟩ | ⟨_, _, ⟨⟨n, a, b⟩, e⟩ | ⟨a, e⟩⟩
  · exact absurd e (by simp [hcl, hcf])
  · simp [watch, step, hg, e]
  · obtain ⟨n, b, c⟩ := hn
    exact absurd ((h2 n).1.1 (a n b)) c
  · exact absurd e (by simp [hcl, hcf])
  · exact absurd ((h2 n).1.2 (hn n a)) b
  · have f := doneLoop_fields s.g i.wf nodes v h1.w
    refine ⟨by simp [watch, step, hg, e], by simp [watch, step, hg, e], ?_⟩
    refine ⟨(View.doneLoop s.g v nodes).1.finish nodes, ?_, ?_⟩
    · simp only [watch, step, hg, e]
      rw [get_set s h h _ v hg, if_pos rfl]
    · simp [View.finish, f]; exact hcl

theorem view_call {s : Sys ν} {o : Obs ν} (r : Reach s o) {ord : List ν → List ν} :
    ∃ k, (watch ord (s, o) .view).2 = .handle k ∧
      (watch ord (s, o) .view).1.2 = o.put (.user k) Seen.none ∧
      Usable (watch ord (s, o) .view).1.1 (.user k) := by
  refine ⟨s.user.length, rfl, rfl, s.stock, ?_, (reach_inv r).sto.1⟩
  simp [watch, step, Sys.get]

/-! ### other calls -/

theorem usable_frame {s : Sys ν} {o : Obs ν} (r : Reach s o) {ord : List ν → List ν} {h : H} (hu : Usable s h)
    {op : Op ν} (hop : op.on ≠ some h) : Usable (step ord s op).1 h := by
  have i := reach_inv r
  obtain ⟨v, hg, hcl⟩ := hu
  cases hon : op.on with
  | some h' =>
    have hne : h ≠ h' := by rintro rfl; exact hop hon
    exact ⟨v, by rw [(step_frame hon hne).1]; exact hg, hcl⟩
  | none =>
    have app : ∀ w, Usable ({ s with user := s.user ++ [w] } : Sys ν) h := by
      intro w
      refine ⟨v, ?_, hcl⟩
      cases h with
      | dflt => exact hg
      | user k =>
        simp only [Sys.get] at hg ⊢
        rw [List.getElem?_append_left (List.getElem?_eq_some_iff.1 hg).1]; exact hg
    have gg : ∀ g, ({ s with g := g } : Sys ν).get h = some v := by intro g; cases h <;> exact hg
    cases op with
    | add n deps =>
      have sp := afterAdd_spec (add_spec s.g n deps) (i.vs h v hg hcl).1.w
      refine ⟨v.afterAdd n (s.g.add n deps).2.1 (s.g.add n deps).2.2, ?_, ?_⟩
      · simp only [step]; rw [get_mapViews _ _ (by exact i.dfo), gg]; simp [hcl]
      · rw [sp.closed]; exact hcl
    | remove n =>
      simp only [step]
      rcases remove_spec s.g i.wf n with ⟨h1, h2⟩ | ⟨g', ss, h2, rs⟩
      · rw [h2]; exact ⟨v, hg, hcl⟩
      · simp only [h2]
        refine ⟨v.removeNode n ss, ?_, ?_⟩
        · rw [get_mapViews _ _ (by exact i.dfo), gg]; simp [hcl]
        · rw [(removeNode_fields i.wf rs (i.vs h v hg hcl).1.w).2.2.2]; exact hcl
    | view => exact app _
    | copyView h' =>
      simp only [step]
      cases hg' : s.get h' with
      | none => exact ⟨v, hg, hcl⟩
      | some v' =>
        simp only
        split
        · exact ⟨v, hg, hcl⟩
        · exact app _
    | cycle => exact ⟨v, gg _, hcl⟩
    | _ => simp [Op.on] at hon

/-- What other calls leave of what is known of a view. -/
theorem seen_frame {s : Sys ν} {o : Obs ν} {ord : List ν → List ν} {h : H} (hu : Usable s h)
    {op : Op ν} (hop : op.on ≠ some h) :
    ((observe o op (step ord s op).2).seen h).clean = (o.seen h).clean ∧
    ((∃ n, op = .remove n ∧ (step ord s op).2 = .none) ∨
      (∀ x, ((observe o op (step ord s op).2).seen h).yielded x ↔ (o.seen h).yielded x) ∧
      (∀ x, ((observe o op (step ord s op).2).seen h).done x ↔ (o.seen h).done x)) ∧
    (op.edits = false → (observe o op (step ord s op).2).node = o.node ∧
      (observe o op (step ord s op).2).edge = o.edge ∧
      (observe o op (step ord s op).2).seen h = o.seen h) := by
  have hk : ∀ k sn, h ≠ .user k → (o.put (.user k) sn).seen h = o.seen h := by
    intro k sn hne; simp [Obs.put, hne]
  have hput : ∀ h' sn, h ≠ h' → (o.put h' sn).seen h = o.seen h := by
    intro k sn hne; simp [Obs.put, hne]
  have hnew : h ≠ .user s.user.length := by
    rintro rfl
    obtain ⟨v, hg, _⟩ := hu
    simp [Sys.get] at hg
  cases op with
  | add n deps => simp [observe, Op.edits]
  | remove n =>
    cases hout : (step ord s (.remove n)).2 <;> simp [observe, Op.edits]
  | view => simp only [step, observe]; rw [hput _ _ hnew]; simp [Obs.put]
  | copyView h' =>
    simp only [step]
    cases hg' : s.get h' with
    | none => simp [observe]
    | some v' =>
      simp only
      split
      · simp [observe]
      · simp only [observe]; rw [hput _ _ hnew]; simp [Obs.put]
  | cycle => simp [observe, step]
  | bool h' =>
    cases (step ord s (.bool h')).2 <;> simp [observe]
  | done h' nodes =>
    simp only [Op.on, ne_eq, Option.some.injEq] at hop
    generalize (step ord s (.done h' nodes)).2 = out
    cases out with
    | none => simp only [observe]; rw [hput _ _ (fun e => hop e.symm)]; simp [Obs.put]
    | err e =>
      cases e <;> simp only [observe] <;> first
        | (rw [hput _ _ (fun e => hop e.symm)]; simp [Obs.put]; done)
        | simp
    | _ => simp [observe]
  | _ =>
    simp only [Op.on, ne_eq, Option.some.injEq] at hop
    generalize (step ord s _).2 = out
    cases out <;> simp only [observe] <;> first
      | (rw [hput _ _ (fun e => hop e.symm)]; simp [Obs.put]; done)
      | simp

/-! ### the invariant of the generator -/

/-- Nothing is handed out, and the nodes given are the nodes done. -/
structure Between (s : Sys ν) (o : Obs ν) (h : H) (given : List ν) : Prop where
  r : Reach s o
  us : Usable s h
  cl : (o.seen h).clean
  ye : ∀ x, ¬ (o.seen h).yielded x
  dn : ∀ x, (o.seen h).done x ↔ x ∈ given

/-- The generator is suspended: `pre` of the tuple `batch` has been given, `rest` has not. -/
structure Paused (s : Sys ν) (o : Obs ν) (h : H) (batch pre rest given : List ν) (edited : Bool) : Prop where
  r : Reach s o
  us : Usable s h
  cl : (o.seen h).clean
  nd : batch.Nodup
  sp : batch = pre ++ rest
  yb : ∀ x, (o.seen h).yielded x → x ∈ batch
  dg : ∀ x, (o.seen h).done x → x ∈ given
  bd : ∀ x ∈ batch, ¬ (o.seen h).done x
  gd : ∀ x ∈ given, (o.seen h).done x ∨ x ∈ pre
  pg : ∀ x ∈ pre, (o.seen h).yielded x → x ∈ given
  un : edited = false → ∀ x ∈ batch, (o.seen h).yielded x ∧ o.node x ∧ ∀ d, o.edge d x → (o.seen h).done d

/-- The same graph, and the same nodes done and late in the view. -/
structure Same (o o' : Obs ν) (h : H) : Prop where
  nd : o'.node = o.node
  eg : o'.edge = o.edge
  dn : (o'.seen h).done = (o.seen h).done
  lt : (o'.seen h).late = (o.seen h).late

theorem turns_left {ord : List ν → List ν} (hord : ∀ l, (ord l).Perm l) {k : Nat} {fuel : Nat}
    {s : Sys ν} {o : Obs ν} {given : List ν} (b : Between s o (.user k) given) (hc : ¬ o.Incoherent (.user k))
    (hl : ∃ n, o.node n ∧ n ∉ given) (ha : o.Acyclic) :
    (∃ x l, (turns (watch ord) k (fuel + 1) (s, o)).2 = (.paused k (x :: l) l, .yields x) ∧
      (∀ y, y ∈ x :: l ↔ Due o (.user k) given y) ∧
      Paused (turns (watch ord) k (fuel + 1) (s, o)).1.1 (turns (watch ord) k (fuel + 1) (s, o)).1.2 (.user k)
        (x :: l) [x] l (given ++ [x]) false ∧
      Same o (turns (watch ord) k (fuel + 1) (s, o)).1.2 (.user k)) ∨
    ((∀ n, ¬ Due o (.user k) given n) ∧ ∃ s' o', turns (watch ord) k (fuel + 1) (s, o) =
        turns (watch ord) k fuel (s', o') ∧
      Between s' o' (.user k) given ∧ ¬ o'.Incoherent (.user k) ∧ o'.node = o.node ∧ o'.edge = o.edge ∧
      (o'.seen (.user k)).late = (o.seen (.user k)).late) := by
  obtain ⟨n0, hn0, hg0⟩ := hl
  have e1 := (bool_call b.r (ord := ord) b.us b.cl).2.1 hc ⟨n0, hn0, fun h => hg0 ((b.dn _).1 h)⟩
  obtain ⟨l, e2, nd, e3, us, mem⟩ := (ready_call b.r hord b.us b.cl hc).2 ha
  have r2 := watch_reach hord b.r (.ready (.user k))
  have mem' : ∀ n, n ∈ l ↔ Due o (.user k) given n := by
    intro n
    rw [mem n]
    simp [Due, b.ye, b.dn]
  generalize hw : watch ord (s, o) (.ready (.user k)) = w at *
  obtain ⟨⟨s1, o1⟩, out⟩ := w
  simp only at e2 e3 us r2
  subst e2
  cases l with
  | cons x l =>
    left
    have et : turns (watch ord) k (fuel + 1) (s, o) = ((s1, o1), .paused k (x :: l) l, .yields x) := by
      simp only [turns, e1, hw]
    refine ⟨x, l, by rw [et], mem', ?_, by
      rw [et]; subst e3
      exact ⟨rfl, rfl, by simp [observe, Obs.put], by simp [observe, Obs.put]⟩⟩
    rw [et]
    subst e3
    constructor
    · exact r2
    · exact us
    · simpa [observe, Obs.put] using b.cl
    · exact nd
    · rfl
    · intro y hy; simpa [observe, Obs.put, b.ye] using hy
    · intro y hy
      have : (o.seen (.user k)).done y := by simpa [observe, Obs.put] using hy
      simp [(b.dn y).1 this]
    · intro y hy hd
      have : (o.seen (.user k)).done y := by simpa [observe, Obs.put] using hd
      exact ((mem y).1 hy).2.2.1 this
    · intro y hy
      rcases List.mem_append.1 hy with h | h
      · left; simpa [observe, Obs.put] using (b.dn y).2 h
      · exact .inr h
    · intro y hy _; simp at hy; simp [hy]
    · intro _ y hy
      have := (mem y).1 hy
      refine ⟨by simp only [observe, Obs.put, if_true]; exact .inr hy, this.1, ?_⟩
      simpa [observe, Obs.put] using this.2.2.2.1
  | nil =>
    right
    refine ⟨fun n hn => by simpa using (mem' n).2 hn, ?_⟩
    subst e3
    have cl1 : ((observe o (.ready (.user k)) (.nodes [])).seen (.user k)).clean := by
      simpa [observe, Obs.put] using b.cl
    have co1 : ¬ (observe o (.ready (.user k)) (.nodes [])).Incoherent (.user k) := by
      simpa [observe, Obs.put, Obs.Incoherent] using hc
    obtain ⟨d1, d2, d3⟩ := (done_call r2 (ord := ord) us cl1 []).2.2 co1 (by simp)
    have r3 := watch_reach hord r2 (.done (.user k) [])
    generalize hw2 : watch ord (s1, observe o (.ready (.user k)) (.nodes [])) (.done (.user k) []) = w2 at *
    obtain ⟨⟨s2, o2⟩, out2⟩ := w2
    simp only at d1 d2 d3 r3
    subst d1 d2
    refine ⟨s2, _, ?_, ⟨r3, d3, ?_, ?_, ?_⟩, ?_, rfl, rfl, ?_⟩
    · simp only [turns, e1, hw, hw2]
    · simpa [observe, Obs.put] using b.cl
    · simpa [observe, Obs.put] using b.ye
    · simpa [observe, Obs.put] using b.dn
    · simpa [observe, Obs.put, Obs.Incoherent] using hc
    · simp [observe, Obs.put]

theorem turns_running {ord : List ν → List ν} (hord : ∀ l, (ord l).Perm l) {k : Nat} (fuel : Nat) :
    ∀ {s : Sys ν} {o : Obs ν} {given : List ν}, Between s o (.user k) given → ¬ o.Incoherent (.user k) →
    (∃ n, o.node n ∧ n ∉ given) → o.Acyclic → (∀ n, ¬ Due o (.user k) given n) →
    (turns (watch ord) k fuel (s, o)).2.2 = .running := by
  induction fuel with
  | zero => intros; rfl
  | succ fuel ih =>
    intro s o given b hc hl ha hd
    rcases turns_left hord (fuel := fuel) b hc hl ha with ⟨x, l, _, h, _, _⟩ | ⟨_, s', o', e, b', c', e1, e2, e3⟩
    · exact absurd ((h x).1 (by simp)) (hd x)
    · rw [e]
      refine ih b' c' (by rw [e1]; exact hl) (by unfold Obs.Acyclic; rw [e2]; exact ha) ?_
      intro n
      unfold Due
      rw [e1, e2, e3]
      exact hd n

theorem turns_stops {ord : List ν → List ν} {k : Nat} (fuel : Nat)
    {s : Sys ν} {o : Obs ν} {given : List ν} (b : Between s o (.user k) given) (hc : ¬ o.Incoherent (.user k))
    (hall : ∀ n, o.node n → n ∈ given) :
    turns (watch ord) k (fuel + 1) (s, o) = ((s, o), .over, .stops) := by
  have e1 := (bool_call b.r (ord := ord) b.us b.cl).2.2 hc (fun n hn => (b.dn n).2 (hall n hn))
  simp only [turns, e1]

theorem turns_cycle {ord : List ν → List ν} (hord : ∀ l, (ord l).Perm l) {k : Nat} (fuel : Nat)
    {s : Sys ν} {o : Obs ν} {given : List ν} (b : Between s o (.user k) given) (hc : ¬ o.Incoherent (.user k))
    (hl : ∃ n, o.node n ∧ n ∉ given) (ha : ¬ o.Acyclic) :
    ∃ s', Reach s' o ∧
      turns (watch ord) k (fuel + 1) (s, o) = ((s', o), .over, .raises .cycleError) := by
  obtain ⟨n0, hn0, hg0⟩ := hl
  have e1 := (bool_call b.r (ord := ord) b.us b.cl).2.1 hc ⟨n0, hn0, fun h => hg0 ((b.dn _).1 h)⟩
  have e2 := (ready_call b.r hord b.us b.cl hc).1 ha
  have r2 := watch_reach hord b.r (.ready (.user k))
  have e3 : (watch ord (s, o) (.ready (.user k))).1.2 = o := by
    show observe o (.ready (.user k)) (watch ord (s, o) (.ready (.user k))).2 = o
    rw [e2]; rfl
  generalize hw : watch ord (s, o) (.ready (.user k)) = w at *
  obtain ⟨⟨s1, o1⟩, out⟩ := w
  simp only at e2 e3 r2
  subst e2 e3
  exact ⟨s1, r2, by simp only [turns, e1, hw]⟩

/-- In a view of a graph never edited since: nothing is late, and what is done depends only on what is done. -/
structure Quiet (o : Obs ν) (h : H) : Prop where
  lt : ∀ x, ¬ (o.seen h).late x
  dd : ∀ x, (o.seen h).done x → ∀ d, o.edge d x → (o.seen h).done d

/-- The invariant, by where the generator stands. -/
def Stands (s : Sys ν) (o : Obs ν) (given : List ν) (edited ever : Bool) : Gen ν → Prop
  | .fresh => given = []
  | .paused k batch rest => (∃ pre, Paused s o (.user k) batch pre rest given edited) ∧
      (ever = false → Quiet o (.user k))
  | .over => True

/-- The invariant. -/
structure GInv (s : Sys ν) (o : Obs ν) (gen : Gen ν) (given : List ν) (edited ever : Bool) : Prop where
  r : Reach s o
  ee : edited = true → ever = true
  od : ever = false → Ordered o given
  st : Stands s o given edited ever gen

theorem Ordered.snoc {o : Obs ν} {given : List ν} (h : Ordered o given) {n : ν} (hn : o.node n) (hg : n ∉ given)
    (hd : ∀ d, o.edge d n → d ∈ given) : Ordered o (given ++ [n]) := by
  refine ⟨?_, ?_, ?_⟩
  · rw [List.nodup_append]
    exact ⟨h.1, by simp, by rintro a ha b hb rfl; simp at hb; exact hg (hb ▸ ha)⟩
  · intro m hm
    rcases List.mem_append.1 hm with hm | hm
    · exact h.2.1 m hm
    · simp at hm; exact hm ▸ hn
  · intro p m q hpq d hdm
    rcases List.eq_nil_or_concat q with rfl | ⟨q', y, rfl⟩
    · have := List.append_inj' hpq (by simp)
      simp at this
      obtain ⟨rfl, rfl⟩ := this
      exact hd d hdm
    · rw [List.concat_eq_append] at hpq
      have : given ++ [n] = (p ++ m :: q') ++ [y] := by rw [hpq]; simp
      have := List.append_inj' this (by simp)
      exact h.2.2 p m q' this.1 d hdm

theorem forget_eq {given : List ν} {op : Op ν} {out : Out ν} (h : ¬ ∃ n, op = .remove n ∧ out = .none) :
    forget given op out = given := by
  unfold forget
  split
  · exact absurd ⟨_, rfl, rfl⟩ h
  · rfl

theorem obs_same {o : Obs ν} {op : Op ν} {out : Out ν} (he : op.edits = false) :
    (observe o op out).node = o.node ∧ (observe o op out).edge = o.edge := by
  cases op <;> simp [Op.edits] at he <;> cases out <;> try exact ⟨rfl, rfl⟩
  rename_i e
  cases e <;> exact ⟨rfl, rfl⟩

theorem GInv.call {s : Sys ν} {o : Obs ν} {gen : Gen ν} {given : List ν} {edited ever : Bool}
    (g : GInv s o gen given edited ever) {ord : List ν → List ν} (hord : ∀ l, (ord l).Perm l) (op : Op ν)
    (hop : op.on = none ∨ op.on ≠ gen.handle) :
    GInv (step ord s op).1 (observe o op (step ord s op).2) gen (forget given op (step ord s op).2)
      (edited || op.edits) (ever || op.edits) := by
  refine ⟨Reach.step ord hord op g.r, ?_, ?_, ?_⟩
  · intro h
    rcases Bool.or_eq_true_iff.1 h with h | h
    · simp [g.ee h]
    · simp [h]
  · intro h
    rw [Bool.or_eq_false_iff] at h
    obtain ⟨e1, e2⟩ := obs_same (o := o) (out := (step ord s op).2) h.2
    rw [forget_eq (by rintro ⟨n, rfl, _⟩; simp [Op.edits] at h)]
    unfold Ordered
    rw [e1, e2]
    exact g.od h.1
  · cases gen with
    | over => trivial
    | fresh =>
      have : given = [] := g.st
      subst this
      show forget [] op _ = []
      unfold forget; split <;> simp
    | paused k batch rest =>
      obtain ⟨⟨pre, P⟩, Q⟩ := g.st
      have hop' : op.on ≠ some (.user k) := by
        rcases hop with h | h
        · rw [h]; simp
        · exact h
      obtain ⟨f1, f2, f3⟩ := seen_frame (ord := ord) (o := o) P.us hop'
      have us := usable_frame g.r (ord := ord) P.us hop'
      refine ⟨⟨pre, ?_⟩, ?_⟩
      · have hun : (edited || op.edits) = false → ∀ x ∈ batch,
            ((observe o op (step ord s op).2).seen (.user k)).yielded x ∧
            (observe o op (step ord s op).2).node x ∧ ∀ d, (observe o op (step ord s op).2).edge d x →
            ((observe o op (step ord s op).2).seen (.user k)).done d := by
          intro h
          rw [Bool.or_eq_false_iff] at h
          obtain ⟨e1, e2, e3⟩ := f3 h.2
          rw [e1, e2, e3]
          exact P.un h.1
        by_cases hrem : ∃ n, op = .remove n ∧ (step ord s op).2 = .none
        · obtain ⟨n, rfl, hout⟩ := hrem
          have hr := Reach.step ord hord (.remove n) g.r
          rw [hout] at hun f1 hr ⊢
          refine ⟨hr, us, f1 ▸ P.cl, P.nd, P.sp, ?_, ?_, ?_, ?_, ?_, hun⟩
          · intro x hx; exact P.yb x hx.1
          · intro x hx
            have := P.dg x hx.1
            simp [forget, this, hx.2]
          · intro x hx h; exact P.bd x hx h.1
          · intro x hx
            simp only [forget, List.mem_filter, decide_eq_true_eq] at hx
            exact (P.gd x hx.1).imp (fun h => ⟨h, hx.2⟩) id
          · intro x hx h
            simp only [forget, List.mem_filter, decide_eq_true_eq]
            exact ⟨P.pg x hx h.1, h.2⟩
        · obtain ⟨hy, hd⟩ := f2.resolve_left hrem
          rw [forget_eq hrem]
          refine ⟨Reach.step ord hord _ g.r, us, f1 ▸ P.cl, P.nd, P.sp, ?_, ?_, ?_, ?_, ?_, hun⟩
          · intro x hx; exact P.yb x ((hy x).1 hx)
          · intro x hx; exact P.dg x ((hd x).1 hx)
          · intro x hx h; exact P.bd x hx ((hd x).1 h)
          · intro x hx; exact (P.gd x hx).imp (hd x).2 id
          · intro x hx h; exact P.pg x hx ((hy x).1 h)
      · intro h
        rw [Bool.or_eq_false_iff] at h
        obtain ⟨e1, e2, e3⟩ := f3 h.2
        have q := Q h.1
        exact ⟨by rw [e3]; exact q.lt, by rw [e2, e3]; exact q.dd⟩

/-- One `next`: what the loop does from a state between two tuples. -/
theorem turns_goes_on {ord : List ν → List ν} (hord : ∀ l, (ord l).Perm l) {k : Nat} (fuel : Nat)
    {s : Sys ν} {o : Obs ν} {given : List ν} (b : Between s o (.user k) given) (hc : ¬ o.Incoherent (.user k)) :
    GoesOn o (.user k) given (turns (watch ord) k (fuel + 1) (s, o)).2.2 := by
  by_cases hall : ∀ n, o.node n → n ∈ given
  · rw [turns_stops fuel b hc hall]; exact .stops hall
  · have hl : ∃ n, o.node n ∧ n ∉ given := by
      apply Classical.byContradiction
      intro h
      exact hall fun n hn => Classical.byContradiction fun hg => h ⟨n, hn, hg⟩
    by_cases ha : o.Acyclic
    · rcases turns_left hord (fuel := fuel) b hc hl ha with ⟨x, l, e, h, _, _⟩ | ⟨hd, _⟩
      · rw [e]; exact .yields hl ha ((h x).1 (by simp))
      · rw [turns_running hord (fuel + 1) b hc hl ha hd]; exact .stuck hl ha hd
    · obtain ⟨s', _, e⟩ := turns_cycle hord fuel b hc hl ha
      rw [e]; exact .cyclic hl ha

/-- After it, the generator stands as the invariant says. -/
theorem turns_stands {ord : List ν → List ν} (hord : ∀ l, (ord l).Perm l) {k : Nat} (fuel : Nat)
    {s : Sys ν} {o : Obs ν} {given : List ν} {ever : Bool} (b : Between s o (.user k) given)
    (hc : ¬ o.Incoherent (.user k)) (hq : ever = false → Quiet o (.user k) ∧ Ordered o given)
    (hret : (turns (watch ord) k (fuel + 1) (s, o)).2.2 ≠ .running) :
    GInv (turns (watch ord) k (fuel + 1) (s, o)).1.1 (turns (watch ord) k (fuel + 1) (s, o)).1.2
      (turns (watch ord) k (fuel + 1) (s, o)).2.1 (took given (turns (watch ord) k (fuel + 1) (s, o)).2.2)
      false ever := by
  by_cases hall : ∀ n, o.node n → n ∈ given
  · rw [turns_stops fuel b hc hall]
    exact ⟨b.r, by simp, fun h => (hq h).2, trivial⟩
  · have hl : ∃ n, o.node n ∧ n ∉ given := by
      apply Classical.byContradiction
      intro h
      exact hall fun n hn => Classical.byContradiction fun hg => h ⟨n, hn, hg⟩
    obtain ⟨n0, hn0, hg0⟩ := hl
    by_cases ha : o.Acyclic
    · rcases turns_left hord (fuel := fuel) b hc ⟨n0, hn0, hg0⟩ ha with ⟨x, l, e, h, P, S⟩ | ⟨hd, _⟩
      · generalize turns (watch ord) k (fuel + 1) (s, o) = T at *
        obtain ⟨⟨s1, o1⟩, T2⟩ := T
        simp only at e P S
        subst e
        have hx := (h x).1 (by simp)
        refine ⟨P.r, by simp, fun hv => ?_, ⟨_, P⟩, fun hv => ?_⟩
        · have := (hq hv).2.snoc hx.1 hx.2.1 hx.2.2.1
          unfold Ordered at this ⊢
          rw [S.nd, S.eg]
          exact this
        · have := (hq hv).1
          exact ⟨by rw [S.lt]; exact this.lt, by rw [S.dn, S.eg]; exact this.dd⟩
      · exact absurd (turns_running hord (fuel + 1) b hc ⟨n0, hn0, hg0⟩ ha hd) hret
    · obtain ⟨s', r', e⟩ := turns_cycle hord fuel b hc ⟨n0, hn0, hg0⟩ ha
      rw [e]
      exact ⟨r', by simp, fun h => (hq h).2, trivial⟩

/-- A view just made: between two tuples, nothing given. -/
theorem between_new {s : Sys ν} {o : Obs ν} (r : Reach s o) {ord : List ν → List ν} (hord : ∀ l, (ord l).Perm l) :
    ∃ k s', watch ord (s, o) .view = ((s', o.put (.user k) Seen.none), .handle k) ∧
      Between s' (o.put (.user k) Seen.none) (.user k) [] ∧
      ¬ (o.put (.user k) Seen.none).Incoherent (.user k) ∧ Quiet (o.put (.user k) Seen.none) (.user k) := by
  obtain ⟨k, e1, e2, e3⟩ := view_call r (ord := ord)
  have r2 := watch_reach hord r .view
  generalize watch ord (s, o) .view = w at *
  obtain ⟨⟨s1, o1⟩, out⟩ := w
  simp only at e1 e2 e3 r2
  subst e1 e2
  refine ⟨k, s1, rfl, ⟨r2, e3, ?_, ?_, ?_⟩, ?_, ⟨?_, ?_⟩⟩ <;>
    simp [Obs.put, Seen.none, Obs.Incoherent]

/-- The end of a tuple: done() is refused, or the generator is between two tuples. -/
theorem paused_end {s : Sys ν} {o : Obs ν} {k : Nat} {batch pre given : List ν} {edited ever : Bool}
    (P : Paused s o (.user k) batch pre [] given edited) (Q : ever = false → Quiet o (.user k))
    (ee : edited = true → ever = true)
    {ord : List ν → List ν} (hord : ∀ l, (ord l).Perm l) :
    (o.Incoherent (.user k) → (watch ord (s, o) (.done (.user k) batch)).2 = .err .runtimeError) ∧
    (¬ o.Incoherent (.user k) → (∃ x ∈ batch, ¬ (o.seen (.user k)).yielded x) →
      (watch ord (s, o) (.done (.user k) batch)).2 = .err .valueError) ∧
    (¬ o.Incoherent (.user k) → (∀ x ∈ batch, (o.seen (.user k)).yielded x) →
      ∃ s' o', watch ord (s, o) (.done (.user k) batch) = ((s', o'), .none) ∧
        Between s' o' (.user k) given ∧ ¬ o'.Incoherent (.user k) ∧ o'.node = o.node ∧ o'.edge = o.edge ∧
        (o'.seen (.user k)).late = (o.seen (.user k)).late ∧ (ever = false → Quiet o' (.user k))) := by
  obtain ⟨d1, d2, d3⟩ := done_call P.r (ord := ord) P.us P.cl batch
  refine ⟨d1, d2, fun hc hy => ?_⟩
  obtain ⟨e1, e2, e3⟩ := d3 hc hy
  have r2 := watch_reach hord P.r (.done (.user k) batch)
  generalize watch ord (s, o) (.done (.user k) batch) = w at *
  obtain ⟨⟨s1, o1⟩, out⟩ := w
  simp only at e1 e2 e3 r2
  subst e1 e2
  have hpre : pre = batch := by simpa using P.sp.symm
  subst hpre
  refine ⟨s1, _, rfl, ⟨r2, e3, ?_, ?_, ?_⟩, ?_, rfl, rfl, ?_, fun hv => ⟨?_, ?_⟩⟩
  · simp [observe, Obs.put]; exact ⟨P.cl, P.nd⟩
  · intro x; simp only [observe, Obs.put, if_true]; rintro ⟨a, b⟩; exact b (P.yb x a)
  · intro x
    simp only [observe, Obs.put, if_true]
    exact ⟨fun h => h.elim (P.dg x) (fun h => P.pg x h (hy x h)), P.gd x⟩
  · rintro ⟨y, z, a, b, c⟩
    simp only [observe, Obs.put, if_true] at a b c
    refine hc ⟨y, z, a, ?_, fun h => c (.inl h)⟩
    rcases b with ⟨b, _⟩ | b | b
    · exact .inl b
    · exact .inr b
    · exact .inl (hy z b)
  · simp [observe, Obs.put]
  · simpa [observe, Obs.put] using (Q hv).lt
  · intro x hx d hd
    simp only [observe, Obs.put, if_true] at hx hd ⊢
    rcases hx with hx | hx
    · exact .inl ((Q hv).dd x hx d hd)
    · have hed : edited = false := by cases edited <;> simp_all
      exact .inl ((P.un hed x hx).2.2 d hd)

theorem next_refused {ord : List ν → List ν} {w : Sys ν × Obs ν} {k : Nat} {batch : List ν} {fuel : Nat} {e : Err}
    (h : (watch ord w (.done (.user k) batch)).2 = .err e) :
    Gen.next (watch ord) fuel w (.paused k batch []) = ((watch ord w (.done (.user k) batch)).1, .over, .raises e) := by
  simp only [Gen.next]
  generalize watch ord w (.done (.user k) batch) = W at *
  obtain ⟨W1, W2⟩ := W
  simp only at h
  subst h
  rfl

theorem GInv.refused {s : Sys ν} {o : Obs ν} {k : Nat} {batch given : List ν} {edited ever : Bool}
    (g : GInv s o (.paused k batch []) given edited ever) {ord : List ν → List ν} (hord : ∀ l, (ord l).Perm l)
    {fuel : Nat} {e : Err} (h : (watch ord (s, o) (.done (.user k) batch)).2 = .err e) :
    GInv (Gen.next (watch ord) fuel (s, o) (.paused k batch [])).1.1
      (Gen.next (watch ord) fuel (s, o) (.paused k batch [])).1.2
      (Gen.next (watch ord) fuel (s, o) (.paused k batch [])).2.1
      (took given (Gen.next (watch ord) fuel (s, o) (.paused k batch [])).2.2) false ever := by
  rw [next_refused h]
  refine ⟨watch_reach hord g.r _, by simp, fun hv => ?_, trivial⟩
  obtain ⟨e1, e2⟩ := obs_same (o := o) (op := .done (.user k) batch)
    (out := (step ord s (.done (.user k) batch)).2) rfl
  unfold Ordered
  simp only [watch]
  rw [e1, e2]
  exact g.od hv

theorem GInv.next {s : Sys ν} {o : Obs ν} {gen : Gen ν} {given : List ν} {edited ever : Bool}
    (g : GInv s o gen given edited ever) {ord : List ν → List ν} (hord : ∀ l, (ord l).Perm l) (fuel : Nat)
    (hret : (gen.next (watch ord) (fuel + 1) (s, o)).2.2 ≠ .running) :
    GInv (gen.next (watch ord) (fuel + 1) (s, o)).1.1 (gen.next (watch ord) (fuel + 1) (s, o)).1.2
      (gen.next (watch ord) (fuel + 1) (s, o)).2.1 (took given (gen.next (watch ord) (fuel + 1) (s, o)).2.2)
      (gen.inside && edited) ever := by
  cases gen with
  | over => exact ⟨g.r, by simp [Gen.inside], g.od, trivial⟩
  | fresh =>
    have : given = [] := g.st
    subst this
    obtain ⟨k, s', e, b, c, q⟩ := between_new g.r hord
    simp only [Gen.next, e] at hret ⊢
    exact turns_stands hord fuel b c (fun _ => ⟨q, by simp [Ordered]⟩) hret
  | paused k batch rest =>
    obtain ⟨⟨pre, P⟩, Q⟩ := g.st
    cases rest with
    | nil =>
      obtain ⟨p1, p2, p3⟩ := paused_end P Q g.ee hord
      by_cases hc : o.Incoherent (.user k)
      · exact g.refused hord (p1 hc)
      · by_cases hy : ∀ x ∈ batch, (o.seen (.user k)).yielded x
        · obtain ⟨s', o', e, b, c, e1, e2, e3, q⟩ := p3 hc hy
          simp only [Gen.next, e] at hret ⊢
          refine turns_stands hord fuel b c (fun hv => ⟨q hv, ?_⟩) hret
          unfold Ordered
          rw [e1, e2]
          exact g.od hv
        · refine g.refused hord (p2 hc ?_)
          apply Classical.byContradiction
          intro h
          exact hy fun x hx => Classical.byContradiction fun hn => h ⟨x, hx, hn⟩
    | cons x rest =>
      simp only [Gen.next, took, Gen.inside, Bool.true_and]
      refine ⟨g.r, g.ee, fun hv => ?_, ⟨pre ++ [x], ?_⟩, Q⟩
      · have hed : edited = false := by
          cases edited
          · rfl
          · have := g.ee rfl; simp_all
        have hx : x ∈ batch := by rw [P.sp]; simp
        obtain ⟨u1, u2, u3⟩ := P.un hed x hx
        refine (g.od hv).snoc u2 ?_ (fun d hd => P.dg d (u3 d hd))
        intro hg
        rcases P.gd x hg with h | h
        · exact P.bd x hx h
        · have := P.nd
          rw [P.sp, List.nodup_append] at this
          exact this.2.2 x h x (by simp) rfl
      · refine ⟨P.r, P.us, P.cl, P.nd, by rw [P.sp]; simp, P.yb, ?_, P.bd, ?_, ?_, P.un⟩
        · intro y hy; simp [P.dg y hy]
        · intro y hy
          rcases List.mem_append.1 hy with h | h
          · exact (P.gd y h).imp id (by intro h; simp [h])
          · right; simp at h; simp [h]
        · intro y hy h
          rcases List.mem_append.1 hy with h' | h'
          · simp [P.pg y h' h]
          · simp at h'; simp [h']

theorem greach_inv {s : Sys ν} {o : Obs ν} {gen : Gen ν} {given : List ν} {edited ever : Bool}
    (g : GReach s o gen given edited ever) : GInv s o gen given edited ever := by
  induction g with
  | start r => exact ⟨r, by simp, by simp [Ordered], rfl⟩
  | call ord hord op _ hop ih => exact ih.call hord op hop
  | next ord hord fuel _ hret ih => exact ih.next hord fuel hret

/-! ### C133 -/

/-- C133: however the generator of static_order() is interleaved with other calls, even ones that edit the graph,
it yields no node twice (a node removed and added again is a new node). -/
theorem C133_once {s : Sys ν} {o : Obs ν} {gen : Gen ν} {given : List ν} {edited ever : Bool}
    (g : GReach s o gen given edited ever) {ord : List ν → List ν} (hord : ∀ l, (ord l).Perm l) {fuel : Nat} {n : ν}
    (hn : (gen.next (watch ord) (fuel + 1) (s, o)).2.2 = .yields n) : n ∉ given := by
  have i := greach_inv g
  cases gen with
  | over => simp [Gen.next] at hn
  | fresh =>
    have : given = [] := i.st
    simp [this]
  | paused k batch rest =>
    obtain ⟨⟨pre, P⟩, Q⟩ := i.st
    cases rest with
    | cons x rest =>
      simp only [Gen.next, Got.yields.injEq] at hn
      subst hn
      have hx : x ∈ batch := by rw [P.sp]; simp
      intro hg
      rcases P.gd x hg with h | h
      · exact P.bd x hx h
      · have := P.nd
        rw [P.sp, List.nodup_append] at this
        exact this.2.2 x h x (by simp) rfl
    | nil =>
      obtain ⟨p1, p2, p3⟩ := paused_end P Q i.ee hord
      by_cases hc : o.Incoherent (.user k)
      · rw [next_refused (p1 hc)] at hn; simp at hn
      · by_cases hy : ∃ x ∈ batch, ¬ (o.seen (.user k)).yielded x
        · rw [next_refused (p2 hc hy)] at hn; simp at hn
        · obtain ⟨s', o', e, b, c, e1, e2, e3, q⟩ := p3 hc (fun x hx => Classical.byContradiction fun h => hy ⟨x, hx, h⟩)
          simp only [Gen.next, e] at hn
          have := turns_goes_on hord fuel b c
          rw [hn] at this
          cases this with
          | yields _ _ hd => exact hd.2.1

/-- C133: what happens when the generator has given the whole tuple it got from its view. It raises RuntimeError
exactly if its view is incoherent (a dependency was added to a node already given, on one not yet given); else
ValueError exactly if a node of that tuple was removed since; else it goes on as documented at `GoesOn`. -/
theorem C133_resumes {s : Sys ν} {o : Obs ν} {k : Nat} {batch given : List ν} {edited ever : Bool}
    (g : GReach s o (.paused k batch []) given edited ever) {ord : List ν → List ν} (hord : ∀ l, (ord l).Perm l)
    (fuel : Nat) :
    (o.Incoherent (.user k) →
      ((Gen.paused k batch []).next (watch ord) (fuel + 1) (s, o)).2.2 = .raises .runtimeError) ∧
    (¬ o.Incoherent (.user k) → (∃ x ∈ batch, ¬ (o.seen (.user k)).yielded x) →
      ((Gen.paused k batch []).next (watch ord) (fuel + 1) (s, o)).2.2 = .raises .valueError) ∧
    (¬ o.Incoherent (.user k) → (∀ x ∈ batch, (o.seen (.user k)).yielded x) →
      GoesOn o (.user k) given ((Gen.paused k batch []).next (watch ord) (fuel + 1) (s, o)).2.2) := by
  have i := greach_inv g
  obtain ⟨⟨pre, P⟩, Q⟩ := i.st
  obtain ⟨p1, p2, p3⟩ := paused_end P Q i.ee hord
  refine ⟨fun hc => by rw [next_refused (p1 hc)], fun hc hy => by rw [next_refused (p2 hc hy)], fun hc hy => ?_⟩
  obtain ⟨s', o', e, b, c, e1, e2, e3, q⟩ := p3 hc hy
  simp only [Gen.next, e]
  have := turns_goes_on hord fuel b c
  have hdue : ∀ n, Due o' (.user k) given n ↔ Due o (.user k) given n := by
    intro n; unfold Due; rw [e1, e2, e3]
  have hac : o'.Acyclic ↔ o.Acyclic := by unfold Obs.Acyclic; rw [e2]
  generalize (turns (watch ord) k (fuel + 1) (s', o')).2.2 = got at *
  cases this with
  | stops h => rw [e1] at h; exact .stops h
  | cyclic h ha => rw [e1] at h; exact .cyclic h (fun h => ha (hac.2 h))
  | yields h ha hn => rw [e1] at h; exact .yields h (hac.1 ha) ((hdue _).1 hn)
  | stuck h ha hn => rw [e1] at h; exact .stuck h (hac.1 ha) (fun n hn' => hn n ((hdue n).2 hn'))

/-- C133: the first `next`, whatever happened to the graph between static_order() and it: StopIteration if the graph
has no node, CycleError if it has a cycle, else a node that depends on nothing. It always comes back. -/
theorem C133_first {s : Sys ν} {o : Obs ν} {given : List ν} {edited ever : Bool}
    (g : GReach s o .fresh given edited ever) {ord : List ν → List ν} (hord : ∀ l, (ord l).Perm l) (fuel : Nat) :
    ((∀ n, ¬ o.node n) → (Gen.fresh.next (watch ord) (fuel + 1) (s, o)).2.2 = .stops) ∧
    ((∃ n, o.node n) → ¬ o.Acyclic →
      (Gen.fresh.next (watch ord) (fuel + 1) (s, o)).2.2 = .raises .cycleError) ∧
    ((∃ n, o.node n) → o.Acyclic → ∃ n, (Gen.fresh.next (watch ord) (fuel + 1) (s, o)).2.2 = .yields n ∧
      o.node n ∧ ∀ d, ¬ o.edge d n) := by
  have i := greach_inv g
  obtain ⟨k, s', e, b, c, q⟩ := between_new i.r hord
  simp only [Gen.next, e]
  have hgo := turns_goes_on hord fuel b c
  generalize (turns (watch ord) k (fuel + 1) (s', o.put (.user k) Seen.none)).2.2 = got at *
  refine ⟨fun h0 => ?_, fun ⟨n, hn⟩ ha => ?_, fun ⟨n, hn⟩ ha => ?_⟩
  · cases hgo with
    | stops _ => rfl
    | cyclic h _ => obtain ⟨n, h, _⟩ := h; exact absurd h (h0 n)
    | yields h _ _ => obtain ⟨n, h, _⟩ := h; exact absurd h (h0 n)
    | stuck h _ _ => obtain ⟨n, h, _⟩ := h; exact absurd h (h0 n)
  · cases hgo with
    | stops h => exact absurd (h n hn) (by simp)
    | cyclic _ _ => rfl
    | yields _ h _ => exact absurd h ha
    | stuck _ h _ => exact absurd h ha
  · cases hgo with
    | stops h => exact absurd (h n hn) (by simp)
    | cyclic _ h => exact absurd ha h
    | yields _ _ h => exact ⟨_, rfl, h.1, fun d hd => by simpa using h.2.2.1 d hd⟩
    | stuck _ _ h =>
      exfalso
      rcases C17_progress_partial b.r hord b.us b.cl c ha hn (fun h => by simpa using (b.dn n).1 h) with
        ⟨l, e1, e2⟩ | ⟨m, e1, _⟩ | ⟨m, _, _, e1, _⟩
      · obtain ⟨m, hm⟩ := List.exists_mem_of_ne_nil _ e2
        have m1 := C11_ready_after_predecessors_partial b.r b.cl e1 m hm
        have m2 := (C12_yield_at_most_once b.r e1).2 m hm
        exact h m ⟨m2.1, by simp, fun d hd => (b.dn d).1 (m1 d hd), q.lt m⟩
      · exact b.ye m e1
      · exact q.lt m e1

/-- C133: a node is yielded when all it depends on was yielded, at the beginning of each tuple and, inside one, as
long as the graph was not edited since the tuple was taken. -/
theorem C133_after_dependencies {s : Sys ν} {o : Obs ν} {gen : Gen ν} {given : List ν} {edited ever : Bool}
    (g : GReach s o gen given edited ever) {ord : List ν → List ν} (hord : ∀ l, (ord l).Perm l) {fuel : Nat} {n : ν}
    (hn : (gen.next (watch ord) (fuel + 1) (s, o)).2.2 = .yields n) (he : gen.inside = false ∨ edited = false) :
    o.node n ∧ ∀ d, o.edge d n → d ∈ given := by
  have i := greach_inv g
  cases gen with
  | over => simp [Gen.next] at hn
  | fresh =>
    obtain ⟨f1, f2, f3⟩ := C133_first g hord fuel
    by_cases h0 : ∃ n, o.node n
    · by_cases ha : o.Acyclic
      · obtain ⟨m, e1, e2, e3⟩ := f3 h0 ha
        rw [hn] at e1
        simp only [Got.yields.injEq] at e1
        subst e1
        exact ⟨e2, fun d hd => absurd hd (e3 d)⟩
      · rw [f2 h0 ha] at hn; simp at hn
    · rw [f1 (fun n h => h0 ⟨n, h⟩)] at hn; simp at hn
  | paused k batch rest =>
    cases rest with
    | cons x rest =>
      obtain ⟨⟨pre, P⟩, Q⟩ := i.st
      simp only [Gen.next, Got.yields.injEq] at hn
      subst hn
      have hed : edited = false := he.resolve_left (by simp [Gen.inside])
      obtain ⟨_, u2, u3⟩ := P.un hed x (by rw [P.sp]; simp)
      exact ⟨u2, fun d hd => P.dg d (u3 d hd)⟩
    | nil =>
      obtain ⟨p1, p2, p3⟩ := C133_resumes g hord fuel
      by_cases hc : o.Incoherent (.user k)
      · rw [p1 hc] at hn; simp at hn
      · by_cases hy : ∃ x ∈ batch, ¬ (o.seen (.user k)).yielded x
        · rw [p2 hc hy] at hn; simp at hn
        · have := p3 hc (fun x hx => Classical.byContradiction fun h => hy ⟨x, hx, h⟩)
          rw [hn] at this
          cases this with
          | yields _ _ h => exact ⟨h.1, h.2.2.1⟩

/-- C133: even inside a tuple of a graph edited since, as long as the node was not removed and the view is
coherent. -/
theorem C133_after_dependencies_edited {s : Sys ν} {o : Obs ν} {k : Nat} {batch rest : List ν} {n : ν}
    {given : List ν} {edited ever : Bool}
    (g : GReach s o (.paused k batch (n :: rest)) given edited ever) (hy : (o.seen (.user k)).yielded n)
    (hc : ¬ o.Incoherent (.user k)) : o.node n ∧ ∀ d, o.edge d n → d ∈ given := by
  have i := greach_inv g
  obtain ⟨⟨pre, P⟩, Q⟩ := i.st
  obtain ⟨v, hg, hcl⟩ := P.us
  have ii := reach_inv i.r
  obtain ⟨h1, h2⟩ := ii.vs _ v hg hcl
  refine ⟨(ii.gn n).1 (h1.w.yk n ((h2 n).1.2 hy)).1, fun d hd => P.dg d ?_⟩
  exact Classical.byContradiction fun hnd => hc ⟨d, n, hd, .inl hy, hnd⟩

/-- C133: if the graph was not edited since static_order() was called, whatever else was called in between, the
nodes given so far are distinct nodes of the graph, each after all it depends on. -/
theorem C133_undisturbed_order {s : Sys ν} {o : Obs ν} {gen : Gen ν} {given : List ν} {edited : Bool}
    (g : GReach s o gen given edited false) : Ordered o given := (greach_inv g).od rfl

/-- C133: and if it has no cycle, each `next` comes back: it yields, or ends when every node was given. -/
theorem C133_undisturbed_ends {s : Sys ν} {o : Obs ν} {gen : Gen ν} {given : List ν} {edited : Bool}
    (g : GReach s o gen given edited false) {ord : List ν → List ν} (hord : ∀ l, (ord l).Perm l) (fuel : Nat)
    (ha : o.Acyclic) (hgen : gen ≠ .over) :
    (∃ n, (gen.next (watch ord) (fuel + 1) (s, o)).2.2 = .yields n) ∨
    ((gen.next (watch ord) (fuel + 1) (s, o)).2.2 = .stops ∧ ∀ n, o.node n → n ∈ given) := by
  have i := greach_inv g
  cases gen with
  | over => exact absurd rfl hgen
  | fresh =>
    obtain ⟨f1, f2, f3⟩ := C133_first g hord fuel
    by_cases h0 : ∃ n, o.node n
    · obtain ⟨n, e, _⟩ := f3 h0 ha; exact .inl ⟨n, e⟩
    · exact .inr ⟨f1 (fun n h => h0 ⟨n, h⟩), fun n h => absurd ⟨n, h⟩ h0⟩
  | paused k batch rest =>
    cases rest with
    | cons x rest => exact .inl ⟨x, rfl⟩
    | nil =>
      obtain ⟨⟨pre, P⟩, Q⟩ := i.st
      have hed : edited = false := by
        cases edited
        · rfl
        · simpa using i.ee rfl
      have q := Q rfl
      have hun := P.un hed
      have hc : ¬ o.Incoherent (.user k) := by
        rintro ⟨y, z, e1, e2, e3⟩
        rcases e2 with e2 | e2
        · exact e3 ((hun z (P.yb z e2)).2.2 y e1)
        · exact e3 (q.dd z e2 y e1)
      obtain ⟨_, _, p3⟩ := paused_end P Q i.ee hord
      obtain ⟨s', o', e, b, c, e1, e2, e3, q'⟩ := p3 hc (fun x hx => (hun x hx).1)
      have hgo := (C133_resumes g hord fuel).2.2 hc (fun x hx => (hun x hx).1)
      generalize (Gen.next (watch ord) (fuel + 1) (s, o) (.paused k batch [])).2.2 = got at *
      cases hgo with
      | stops h => exact .inr ⟨rfl, h⟩
      | cyclic _ h => exact absurd ha h
      | yields _ _ h => exact .inl ⟨_, rfl⟩
      | stuck hl _ h =>
        exfalso
        obtain ⟨n, hn, hg⟩ := hl
        have ha' : o'.Acyclic := by unfold Obs.Acyclic; rw [e2]; exact ha
        rcases C17_progress_partial b.r hord b.us b.cl c ha' (n := n) (by rw [e1]; exact hn)
          (fun h => hg ((b.dn n).1 h)) with ⟨l, f1, f2⟩ | ⟨m, f1, _⟩ | ⟨m, _, _, f1, _⟩
        · obtain ⟨m, hm⟩ := List.exists_mem_of_ne_nil _ f2
          have m1 := C11_ready_after_predecessors_partial b.r b.cl f1 m hm
          have m2 := (C12_yield_at_most_once b.r f1).2 m hm
          rw [e2] at m1
          rw [e1] at m2
          exact h m ⟨m2.1, fun hm' => m2.2.2 ((b.dn m).2 hm'), fun d hd => (b.dn d).1 (m1 d hd), q.lt m⟩
        · exact b.ye m f1
        · exact (q' rfl).lt m f1

/-- C133: a `next` that has not come back after some turns of its loop never does. -/
theorem C133_stuck_forever {s : Sys ν} {o : Obs ν} {gen : Gen ν} {given : List ν} {edited ever : Bool}
    (g : GReach s o gen given edited ever) {ord ord' : List ν → List ν} (hord : ∀ l, (ord l).Perm l)
    (hord' : ∀ l, (ord' l).Perm l) {fuel : Nat}
    (hr : (gen.next (watch ord) (fuel + 1) (s, o)).2.2 = .running) (fuel' : Nat) :
    (gen.next (watch ord') (fuel' + 1) (s, o)).2.2 = .running := by
  cases gen with
  | over => simp [Gen.next] at hr
  | fresh =>
    exfalso
    obtain ⟨f1, f2, f3⟩ := C133_first g hord fuel
    by_cases h0 : ∃ n, o.node n
    · by_cases ha : o.Acyclic
      · obtain ⟨n, e, _⟩ := f3 h0 ha; rw [hr] at e; simp at e
      · rw [f2 h0 ha] at hr; simp at hr
    · rw [f1 (fun n h => h0 ⟨n, h⟩)] at hr; simp at hr
  | paused k batch rest =>
    cases rest with
    | cons x rest => simp [Gen.next] at hr
    | nil =>
      obtain ⟨p1, p2, p3⟩ := C133_resumes g hord fuel
      by_cases hc : o.Incoherent (.user k)
      · rw [p1 hc] at hr; simp at hr
      · by_cases hy : ∃ x ∈ batch, ¬ (o.seen (.user k)).yielded x
        · rw [p2 hc hy] at hr; simp at hr
        · have hy' : ∀ x ∈ batch, (o.seen (.user k)).yielded x :=
            fun x hx => Classical.byContradiction fun h => hy ⟨x, hx, h⟩
          have h1 := p3 hc hy'
          have h2 := (C133_resumes g hord' fuel').2.2 hc hy'
          rw [hr] at h1
          generalize (Gen.next (watch ord') (fuel' + 1) (s, o) (.paused k batch [])).2.2 = got at *
          cases h1 with
          | stuck hl ha hn =>
            cases h2 with
            | stuck => rfl
            | stops h => obtain ⟨n, a, b⟩ := hl; exact absurd (h n a) b
            | cyclic _ h => exact absurd ha h
            | yields _ _ h => exact absurd h (hn _)

/-- Watching changes nothing: the graph and the generator go on as they would unwatched. -/
theorem turns_watched (ord : List ν → List ν) (k fuel : Nat) (s : Sys ν) (o : Obs ν) :
    (turns (watch ord) k fuel (s, o)).1.1 = (turns (step ord) k fuel s).1 ∧
    (turns (watch ord) k fuel (s, o)).2 = (turns (step ord) k fuel s).2 := by
  induction fuel generalizing s o with
  | zero => exact ⟨rfl, rfl⟩
  | succ fuel ih =>
    simp only [turns, watch]
    rcases hs1 : step ord s (.bool (.user k)) with ⟨s1, o1⟩
    cases o1 with
    | bool b =>
      cases b
      · exact ⟨rfl, rfl⟩
      · simp only
        rcases hs2 : step ord s1 (.ready (.user k)) with ⟨s2, o2⟩
        cases o2 with
        | nodes l =>
          cases l with
          | cons x l => exact ⟨rfl, rfl⟩
          | nil =>
            simp only
            rcases hs3 : step ord s2 (.done (.user k) []) with ⟨s3, o3⟩
            cases o3 <;> first | exact ⟨rfl, rfl⟩ | exact ih _ _
        | _ => exact ⟨rfl, rfl⟩
    | _ => exact ⟨rfl, rfl⟩

/-- C133: `next` does the same to the graph with its views, unwatched, as the theorems above say of it watched. -/
theorem C133_watched (ord : List ν → List ν) (fuel : Nat) (s : Sys ν) (o : Obs ν) (gen : Gen ν) :
    (gen.next (watch ord) fuel (s, o)).1.1 = (gen.next (step ord) fuel s).1 ∧
    (gen.next (watch ord) fuel (s, o)).2 = (gen.next (step ord) fuel s).2 := by
  cases gen with
  | over => exact ⟨rfl, rfl⟩
  | fresh => exact turns_watched ord _ fuel _ _
  | paused k batch rest =>
    cases rest with
    | cons x rest => exact ⟨rfl, rfl⟩
    | nil =>
      simp only [Gen.next, watch]
      rcases hs : step ord s (.done (.user k) batch) with ⟨s1, o1⟩
      cases o1 <;> first | exact ⟨rfl, rfl⟩ | exact turns_watched ord k fuel _ _

/-- C133, what a user may not expect: add(2, 1); g = static_order(); next(g) is 1, next(g) is 2; then add(3, 1), a
dependency on a node already given. The graph has no cycle and its view no conflict, yet next(g) never comes back. -/
theorem C133_late_node_hangs :
    ∃ (s : Sys Nat) (o : Obs Nat) (gen : Gen Nat), GReach s o gen [1, 2] true true ∧ o.Acyclic ∧
      ∀ fuel, (gen.next (watch id) (fuel + 1) (s, o)).2.2 = .running := by
  have r1 := Reach.step id (fun _ => .refl _) (.add 2 [1]) (Reach.init : Reach (Sys.init : Sys Nat) Obs.init)
  have g1 := GReach.start r1
  have g2 := GReach.next id (fun _ => .refl _) 0 g1 (by rw [(C133_watched _ _ _ _ _).2]; decide +kernel)
  have g3 := GReach.next id (fun _ => .refl _) 0 g2 (by
    rw [(C133_watched _ _ _ _ _).2, (C133_watched _ _ _ _ _).1, (C133_watched _ _ _ _ _).2]; decide +kernel)
  have g4 := GReach.call id (fun _ => .refl _) (.add 3 [1]) g3 (.inl rfl)
  refine ⟨_, _, _, g4, ?_, ?_⟩
  · rw [← edge_iff (reach_inv (greach_inv g4).r),
      ← (cycle_spec (reach_inv (greach_inv g4).r).wf (reach_inv (greach_inv g4).r).dirt (ord := id) (fun _ => .refl _)).1]
    decide +kernel
  · refine C133_stuck_forever g4 (fun _ => .refl _) (fun _ => .refl _) (fuel := 0) ?_
    rw [(C133_watched _ _ _ _ _).2]
    decide +kernel

/-- A generator driven by literals: `none` is `next`, `some op` another call; the answers of the `next`s. -/
def drive : Sys Nat → Gen Nat → List (Option (Op Nat)) → List (Got Nat)
  | _, _, [] => []
  | s, gen, some op :: l => drive (step id s op).1 gen l
  | s, gen, none :: l =>
    let r := gen.next (step id) 3 s
    r.2.2 :: drive r.1 r.2.1 l

/-- add(3, 1, 2), then the generator; in between: nothing; another view taken through its paces; a node removed
before it is given; a dependency of a given node on a new one; a cycle. -/
example : drive Sys.init .fresh [some (.add 3 [1, 2]), none, none, none, none] =
      [.yields 1, .yields 2, .yields 3, .stops] ∧
    drive Sys.init .fresh [some (.add 3 [1, 2]), none, some (.ready .dflt), some (.done .dflt [1, 1]), none, none,
      some (.reset .dflt), none] = [.yields 1, .yields 2, .yields 3, .stops] ∧
    drive Sys.init .fresh [some (.add 3 [1, 2]), none, some (.remove 2), none, none, none] =
      [.yields 1, .yields 2, .raises .valueError, .stops] ∧
    drive Sys.init .fresh [some (.add 3 [1, 2]), none, none, some (.remove 2), none] =
      [.yields 1, .yields 2, .raises .valueError] ∧
    drive Sys.init .fresh [some (.add 3 [1, 2]), none, none, some (.add 1 [4]), none] =
      [.yields 1, .yields 2, .raises .runtimeError] ∧
    drive Sys.init .fresh [some (.add 3 [1, 2]), none, none, some (.add 4 [3]), some (.add 3 [4]), none] =
      [.yields 1, .yields 2, .raises .cycleError] ∧
    drive Sys.init .fresh [some (.add 3 [1, 2]), none, none, none, some (.add 4 [3]), none, none] =
      [.yields 1, .yields 2, .yields 3, .yields 4, .stops] := by decide +kernel

end Big.Graph
