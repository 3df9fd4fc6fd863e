import Verif.Graph.Model
/- Helper lemmas about Graph.add and Graph.remove. -/
namespace Big.Graph
variable {ν : Type} [DecidableEq ν]

@[simp] theorem upd_same {β : Type} (f : ν → β) (a : ν) (b : β) : upd f a b a = b := by simp [upd]
theorem upd_ne {β : Type} (f : ν → β) {a x : ν} (b : β) (h : x ≠ a) : upd f a b x = f x := by
  simp [upd, h]

/-- Well-formed graph: the dict invariants. -/
structure WF (g : Graph ν) : Prop where
  nodup : g.keys.Nodup
  succNodup : ∀ d ∈ g.keys, (g.succ d).Nodup
  closed : ∀ d ∈ g.keys, ∀ n ∈ g.succ d, n ∈ g.keys
  pc : ∀ n ∈ g.keys, g.pc n = (g.keys.countP (fun d => decide (n ∈ g.succ d)) : Nat)

theorem WF.empty : WF (Graph.empty : Graph ν) := by
  constructor <;> simp [Graph.empty]

/-- Successors of `d` in `g`, none if `d` is not a node. -/
def base (g : Graph ν) (d : ν) : List ν := if d ∈ g.keys then g.succ d else []

/-- Predecessor count of `n`, 0 if not a node. -/
def basePc (g : Graph ν) (n : ν) : Int := if n ∈ g.keys then g.pc n else 0

/-- Loop invariant of add. -/
structure AddChar (g : Graph ν) (node : ν) (st : AddSt ν) : Prop where
  hkeys : st.g.keys = g.keys ++ st.newNodes
  hnn : st.newNodes.Nodup
  hnnd : ∀ d ∈ st.newNodes, d ∉ g.keys
  hnode : node ∈ st.g.keys
  hns : st.newSuccs.Nodup
  hnsk : ∀ d ∈ st.newSuccs, d ∈ st.g.keys ∧ node ∉ base g d
  hsucc : ∀ d ∈ st.g.keys, st.g.succ d = base g d ++ (if d ∈ st.newSuccs then [node] else [])
  hpc : ∀ n ∈ st.g.keys, st.g.pc n = basePc g n
  hcount : st.count = basePc g node + st.newSuccs.length
  hdirty : st.g.dirty = (g.dirty || !st.newSuccs.isEmpty)

theorem addChar_init (g : Graph ν) (node : ν) :
    let st0 : AddSt ν :=
      if node ∈ g.keys then ⟨g, 0, [], []⟩
      else ⟨{ g with keys := g.keys ++ [node], pc := upd g.pc node 0, succ := upd g.succ node [] },
            0, [node], []⟩
    AddChar g node { st0 with count := st0.g.pc node } := by
  intro st0
  by_cases h : node ∈ g.keys
  · have : st0 = ⟨g, 0, [], []⟩ := by simp [st0, h]
    rw [this]
    constructor <;> simp_all [base, basePc]
  · have : st0 = ⟨{ g with keys := g.keys ++ [node], pc := upd g.pc node 0,
                            succ := upd g.succ node [] }, 0, [node], []⟩ := by simp [st0, h]
    rw [this]
    constructor <;> simp_all [base, basePc]
    · rintro d (hd | rfl)
      · have : d ≠ node := by rintro rfl; exact h hd
        simp [upd_ne _ _ this, hd]
      · simp [h]
    · rintro d (hd | rfl)
      · have : d ≠ node := by rintro rfl; exact h hd
        simp [upd_ne _ _ this, hd]
      · simp [h]

theorem addChar_body (g : Graph ν) (node : ν) (st : AddSt ν) (d : ν) (h : AddChar g node st) :
    AddChar g node (addLoopBody node st d) ∧ d ∈ (addLoopBody node st d).g.keys ∧
    node ∈ (addLoopBody node st d).g.succ d ∧
    (∀ x ∈ st.g.keys, x ∈ (addLoopBody node st d).g.keys) ∧
    (∀ x y, y ∈ st.g.keys → x ∈ st.g.succ y → x ∈ (addLoopBody node st d).g.succ y) ∧
    (∀ x ∈ (addLoopBody node st d).newSuccs, x ∈ st.newSuccs ∨ x = d) ∧
    (∀ x ∈ (addLoopBody node st d).newNodes, x ∈ st.newNodes ∨ x = d) := by
  -- first half: make sure d is a node
  let st1 : AddSt ν := if d ∈ st.g.keys then st else
    { st with g := { st.g with keys := st.g.keys ++ [d], pc := upd st.g.pc d 0,
                               succ := upd st.g.succ d [] },
              newNodes := st.newNodes ++ [d] }
  have hb : addLoopBody node st d = (if node ∈ st1.g.succ d then st1
    else { g := { st1.g with dirty := true, succ := upd st1.g.succ d (st1.g.succ d ++ [node]) },
           count := st1.count + 1, newNodes := st1.newNodes,
           newSuccs := st1.newSuccs ++ [d] }) := rfl
  have h1 : AddChar g node st1 ∧ d ∈ st1.g.keys ∧ (∀ x ∈ st.g.keys, x ∈ st1.g.keys) ∧
      (∀ y, y ∈ st.g.keys → st1.g.succ y = st.g.succ y) ∧ st1.newSuccs = st.newSuccs ∧
      (∀ x ∈ st1.newNodes, x ∈ st.newNodes ∨ x = d) := by
    by_cases hd : d ∈ st.g.keys
    · have : st1 = st := by simp [st1, hd]
      rw [this]
      exact ⟨h, hd, fun _ h => h, fun _ _ => rfl, rfl, fun _ h => .inl h⟩
    · have : st1 = AddSt.mk ⟨st.g.keys ++ [d], upd st.g.pc d 0, upd st.g.succ d [], st.g.dirty⟩
          st.count (st.newNodes ++ [d]) st.newSuccs := by
        simp [st1, hd]
      rw [this]
      have hk : ∀ x ∈ st.g.keys, x ≠ d := by rintro x hx rfl; exact hd hx
      have hdk : d ∉ g.keys := by intro h'; apply hd; rw [h.hkeys]; simp [h']
      have hdn : d ∉ st.newNodes := by intro h'; apply hd; rw [h.hkeys]; simp [h']
      have hds : d ∉ st.newSuccs := fun h' => hd (h.hnsk d h').1
      refine ⟨?_, by simp, by simp; intro x hx; exact .inl hx, ?_, rfl, by simp⟩
      · constructor
        · simp [h.hkeys]
        · simp only [List.nodup_append, h.hnn]
          refine ⟨trivial, by simp, ?_⟩
          rintro x hx y hy rfl
          simp at hy; exact hdn (hy ▸ hx)
        · intro x hx
          simp at hx
          rcases hx with hx | rfl
          · exact h.hnnd x hx
          · exact hdk
        · simp [h.hnode]
        · exact h.hns
        · intro x hx
          exact ⟨by simp [(h.hnsk x hx).1], (h.hnsk x hx).2⟩
        · intro x hx
          simp at hx
          rcases hx with hx | rfl
          · simp only
            rw [show (upd st.g.succ d [] x) = st.g.succ x from upd_ne _ _ (hk x hx)]
            exact h.hsucc x hx
          · simp [base, hdk, hds]
        · intro x hx
          simp at hx
          rcases hx with hx | rfl
          · simp only
            rw [show (upd st.g.pc d 0 x) = st.g.pc x from upd_ne _ _ (hk x hx)]
            exact h.hpc x hx
          · simp [basePc, hdk]
        · exact h.hcount
        · exact h.hdirty
      · intro y hy
        exact upd_ne _ _ (hk y hy)
  obtain ⟨c, hd, hkeys, hsucc, hns, hnn⟩ := h1
  rw [hb]
  by_cases hm : node ∈ st1.g.succ d
  · rw [if_pos hm]
    exact ⟨c, hd, hm, hkeys, fun x y hy hx => by rw [hsucc y hy]; exact hx,
      fun x hx => .inl (hns ▸ hx), hnn⟩
  · rw [if_neg hm]
    have hdn : d ∉ st1.newSuccs := by
      intro h'
      apply hm
      rw [c.hsucc d hd]; simp [h']
    have hbase : st1.g.succ d = base g d := by rw [c.hsucc d hd]; simp [hdn]
    refine ⟨?_, hd, by simp, hkeys, ?_, ?_, hnn⟩
    · constructor
      · exact c.hkeys
      · exact c.hnn
      · exact c.hnnd
      · exact c.hnode
      · simp only [List.nodup_append, c.hns]
        refine ⟨trivial, by simp, ?_⟩
        rintro x hx y hy rfl
        simp at hy; exact hdn (hy ▸ hx)
      · intro x hx
        simp at hx
        rcases hx with hx | rfl
        · exact c.hnsk x hx
        · exact ⟨hd, by rw [← hbase]; exact hm⟩
      · intro x hx
        by_cases hxd : x = d
        · subst hxd; simp [hbase]
        · simp only
          rw [upd_ne _ _ hxd, c.hsucc x hx]
          simp [hxd]
      · exact c.hpc
      · simp [c.hcount]; omega
      · simp
    · intro x y hy hx
      by_cases hyd : y = d
      · subst hyd; simp [hsucc y hy, hx]
      · have : upd st1.g.succ d (st1.g.succ d ++ [node]) y = st1.g.succ y := upd_ne _ _ hyd
        show x ∈ upd st1.g.succ d (st1.g.succ d ++ [node]) y
        rw [this, hsucc y hy]; exact hx
    · intro x hx
      simp at hx
      rcases hx with hx | hx
      · exact .inl (hns ▸ hx)
      · exact .inr hx

theorem addChar_loop (g : Graph ν) (node : ν) (deps : List ν) (st : AddSt ν)
    (h : AddChar g node st) :
    AddChar g node (deps.foldl (addLoopBody node) st) ∧
    (∀ x ∈ st.g.keys, x ∈ (deps.foldl (addLoopBody node) st).g.keys) ∧
    (∀ x y, y ∈ st.g.keys → x ∈ st.g.succ y → x ∈ (deps.foldl (addLoopBody node) st).g.succ y) ∧
    (∀ d ∈ deps, d ∈ (deps.foldl (addLoopBody node) st).g.keys ∧
      node ∈ (deps.foldl (addLoopBody node) st).g.succ d) ∧
    (∀ x ∈ (deps.foldl (addLoopBody node) st).newSuccs, x ∈ st.newSuccs ∨ x ∈ deps) ∧
    (∀ x ∈ (deps.foldl (addLoopBody node) st).newNodes, x ∈ st.newNodes ∨ x ∈ deps) := by
  induction deps generalizing st with
  | nil => exact ⟨h, fun _ h => h, fun _ _ _ h => h, by simp, by simp, by simp⟩
  | cons d deps ih =>
    obtain ⟨b1, b2, b3, b4, b5, b6, b7⟩ := addChar_body g node st d h
    obtain ⟨i1, i2, i3, i4, i5, i6⟩ := ih (addLoopBody node st d) b1
    simp only [List.foldl_cons]
    refine ⟨i1, fun x hx => i2 x (b4 x hx), fun x y hy hx => i3 x y (b4 y hy) (b5 x y hy hx), ?_, ?_, ?_⟩
    · intro x hx
      rcases List.mem_cons.1 hx with rfl | hx
      · exact ⟨i2 _ b2, i3 _ _ b2 b3⟩
      · exact i4 x hx
    · intro x hx
      rcases i5 x hx with h' | h'
      · rcases b6 x h' with h' | rfl
        · exact .inl h'
        · simp
      · simp [h']
    · intro x hx
      rcases i6 x hx with h' | h'
      · rcases b7 x h' with h' | rfl
        · exact .inl h'
        · simp
      · simp [h']

/-- Everything the callers need to know about `Graph.add`. -/
structure AddSpec (g : Graph ν) (node : ν) (deps : List ν) (g' : Graph ν) (nn ns : List ν) : Prop where
  hkeys : g'.keys = g.keys ++ nn
  hnn : nn.Nodup
  hnnd : ∀ d ∈ nn, d ∉ g.keys
  hnnmem : ∀ d ∈ nn, d = node ∨ d ∈ deps
  hnode : node ∈ g'.keys
  hdeps : ∀ d ∈ deps, d ∈ g'.keys ∧ node ∈ g'.succ d
  hns : ns.Nodup
  hnsk : ∀ d ∈ ns, d ∈ g'.keys ∧ node ∉ base g d ∧ d ∈ deps
  hsucc : ∀ d ∈ g'.keys, g'.succ d = base g d ++ (if d ∈ ns then [node] else [])
  hpc : ∀ n ∈ g'.keys, g'.pc n = basePc g n + (if n = node then (ns.length : Int) else 0)
  hdirty : g'.dirty = (g.dirty || !ns.isEmpty)

theorem add_spec (g : Graph ν) (node : ν) (deps : List ν) :
    AddSpec g node deps (g.add node deps).1 (g.add node deps).2.1 (g.add node deps).2.2 := by
  have h0 := addChar_init g node
  simp only at h0
  have hnn0 : ∀ x ∈ (if node ∈ g.keys then (⟨g, 0, [], []⟩ : AddSt ν)
    else ⟨{ g with keys := g.keys ++ [node], pc := upd g.pc node 0, succ := upd g.succ node [] },
          0, [node], []⟩).newNodes, x = node := by split <;> simp
  have hns0 : (if node ∈ g.keys then (⟨g, 0, [], []⟩ : AddSt ν)
    else ⟨{ g with keys := g.keys ++ [node], pc := upd g.pc node 0, succ := upd g.succ node [] },
          0, [node], []⟩).newSuccs = [] := by split <;> simp
  unfold Graph.add
  simp only
  generalize (if node ∈ g.keys then (⟨g, 0, [], []⟩ : AddSt ν)
    else ⟨{ g with keys := g.keys ++ [node], pc := upd g.pc node 0, succ := upd g.succ node [] },
          0, [node], []⟩) = st0 at *
  obtain ⟨c, _, _, i4, i5, i6⟩ := addChar_loop g node deps _ h0
  generalize hst : List.foldl (addLoopBody node)
    { st0 with count := st0.g.pc node } deps = st at *
  constructor
  · exact c.hkeys
  · exact c.hnn
  · exact c.hnnd
  · intro d hd
    rcases i6 d hd with h | h
    · exact .inl (hnn0 d h)
    · exact .inr h
  · exact c.hnode
  · exact i4
  · exact c.hns
  · intro d hd
    refine ⟨(c.hnsk d hd).1, (c.hnsk d hd).2, ?_⟩
    rcases i5 d hd with h | h
    · rw [hns0] at h; simp at h
    · exact h
  · exact c.hsucc
  · intro n hn
    simp only
    by_cases h : n = node
    · subst h; simp [c.hcount]
    · rw [upd_ne _ _ h, c.hpc n hn]; simp [h]
  · exact c.hdirty

theorem countP_mem_nodup (l ns : List ν) (hl : l.Nodup) (hns : ns.Nodup) (hsub : ∀ x ∈ ns, x ∈ l) :
    l.countP (fun d => decide (d ∈ ns)) = ns.length := by
  rw [List.countP_eq_length_filter]
  apply List.Perm.length_eq
  rw [List.perm_ext_iff_of_nodup (hl.filter _) hns]
  intro a
  simp
  exact hsub a

theorem countP_add_of_disjoint (l : List ν) (p q : ν → Bool)
    (h : ∀ x ∈ l, ¬ (p x = true ∧ q x = true)) :
    l.countP (fun x => p x || q x) = l.countP p + l.countP q := by
  induction l with
  | nil => simp
  | cons a l ih =>
    have := ih (fun x hx => h x (List.mem_cons_of_mem _ hx))
    have ha := h a List.mem_cons_self
    simp only [List.countP_cons, this]
    cases hp : p a <;> cases hq : q a <;> simp_all <;> omega

theorem AddSpec.wf {g : Graph ν} {node : ν} {deps : List ν} {g' : Graph ν} {nn ns : List ν}
    (h : AddSpec g node deps g' nn ns) (w : WF g) : WF g' := by
  have hnd : g'.keys.Nodup := by
    rw [h.hkeys]
    refine List.nodup_append.2 ⟨w.nodup, h.hnn, ?_⟩
    rintro a ha b hb rfl
    exact h.hnnd a hb ha
  have hbase : ∀ d x, x ∈ base g d → x ∈ g.keys := by
    intro d x hx
    unfold base at hx
    split at hx
    · exact w.closed d (by assumption) x hx
    · simp at hx
  constructor
  · exact hnd
  · intro d hd
    rw [h.hsucc d hd]
    have hb : (base g d).Nodup := by
      unfold base; split
      · exact w.succNodup d (by assumption)
      · simp
    split
    · refine List.nodup_append.2 ⟨hb, by simp, ?_⟩
      intro a ha b hb' hab
      simp at hb'
      subst hb'; subst hab
      exact (h.hnsk d (by assumption)).2.1 ha
    · simpa using hb
  · intro d hd n hn
    rw [h.hsucc d hd] at hn
    rcases List.mem_append.1 hn with hn | hn
    · rw [h.hkeys]; simp [hbase d n hn]
    · split at hn
      · simp at hn; subst hn; exact h.hnode
      · simp at hn
  · intro n hn
    rw [h.hpc n hn]
    have e1 : (g'.keys.countP (fun d => decide (n ∈ base g d)) : Int) = basePc g n := by
      rw [h.hkeys, List.countP_append]
      have z : nn.countP (fun d => decide (n ∈ base g d)) = 0 := by
        rw [List.countP_eq_zero]
        intro d hd
        simp [base, h.hnnd d hd]
      rw [z]
      unfold basePc
      by_cases hk : n ∈ g.keys
      · rw [if_pos hk, w.pc n hk]
        congr 1
        rw [Nat.add_zero]
        apply List.countP_congr
        intro d hd
        simp [base, hd]
      · rw [if_neg hk]
        have : g.keys.countP (fun d => decide (n ∈ base g d)) = 0 := by
          rw [List.countP_eq_zero]
          intro d hd
          simp only [decide_eq_true_eq]
          exact fun hx => hk (hbase d n hx)
        omega
    by_cases hn' : n = node
    · subst hn'
      have e2 : g'.keys.countP (fun d => decide (n ∈ g'.succ d)) =
          g'.keys.countP (fun d => decide (n ∈ base g d) || decide (d ∈ ns)) := by
        apply List.countP_congr
        intro d hd
        rw [h.hsucc d hd]
        by_cases hds : d ∈ ns <;> simp [hds]
      rw [e2, countP_add_of_disjoint]
      · rw [countP_mem_nodup _ _ hnd h.hns (fun x hx => (h.hnsk x hx).1)]
        simp; omega
      · intro x hx
        simp only [decide_eq_true_eq]
        exact fun hx => (h.hnsk x hx.2).2.1 hx.1
    · have e2 : g'.keys.countP (fun d => decide (n ∈ g'.succ d)) =
          g'.keys.countP (fun d => decide (n ∈ base g d)) := by
        apply List.countP_congr
        intro d hd
        rw [h.hsucc d hd]
        by_cases hds : d ∈ ns <;> simp [hds, hn']
      rw [e2]; simp [hn']; omega

/-! ### remove -/

/-- The early exit never stops too soon: with the right count the scan finds all predecessors. -/
theorem findPredecessors_eq (g : Graph ν) (node : ν) (l : List ν) (c : Int)
    (hc : c = (l.countP (fun d => decide (node ∈ g.succ d)) : Nat)) (h0 : c ≠ 0) :
    findPredecessors g node l c = l.filter (fun d => decide (node ∈ g.succ d)) := by
  induction l generalizing c with
  | nil => simp at hc; omega
  | cons n rest ih =>
    unfold findPredecessors
    by_cases hn : node ∈ g.succ n
    · simp only [hn, if_true]
      rw [List.countP_cons_of_pos (by simpa using hn)] at hc
      by_cases h1 : c - 1 = 0
      · rw [if_pos h1]
        have : rest.countP (fun d => decide (node ∈ g.succ d)) = 0 := by omega
        rw [List.countP_eq_zero] at this
        rw [List.filter_cons_of_pos (by simpa using hn), List.filter_eq_nil_iff.2 this]
      · rw [if_neg h1, List.filter_cons_of_pos (by simpa using hn), ih (c-1) (by omega) h1]
    · simp only [hn, if_false]
      rw [List.countP_cons_of_neg (by simpa using hn)] at hc
      rw [List.filter_cons_of_neg (by simpa using hn), ih c hc h0]

theorem foldl_erase_spec (node : ν) (ps : List ν) (hps : ps.Nodup) (f : ν → List ν) (d : ν) :
    ps.foldl (fun f n => upd f n ((f n).erase node)) f d =
      if d ∈ ps then (f d).erase node else f d := by
  induction ps generalizing f with
  | nil => simp
  | cons p ps ih =>
    simp only [List.nodup_cons] at hps
    simp only [List.foldl_cons]
    rw [ih hps.2]
    by_cases hd : d ∈ ps
    · have : d ≠ p := by rintro rfl; exact hps.1 hd
      simp [hd, upd_ne _ _ this]
    · by_cases hdp : d = p
      · subst hdp; simp [hd]
      · simp [hd, hdp, upd_ne _ _ hdp]

theorem foldl_dec_spec (ss : List ν) (hss : ss.Nodup) (f : ν → Int) (d : ν) :
    ss.foldl (fun f n => upd f n (f n - 1)) f d = if d ∈ ss then f d - 1 else f d := by
  induction ss generalizing f with
  | nil => simp
  | cons p ps ih =>
    simp only [List.nodup_cons] at hss
    simp only [List.foldl_cons]
    rw [ih hss.2]
    by_cases hd : d ∈ ps
    · have : d ≠ p := by rintro rfl; exact hss.1 hd
      simp [hd, upd_ne _ _ this]
    · by_cases hdp : d = p
      · subst hdp; simp [hd]
      · simp [hd, hdp, upd_ne _ _ hdp]

/-- Everything the callers need to know about a successful `Graph.remove`. -/
structure RemSpec (g : Graph ν) (x : ν) (g' : Graph ν) (ss : List ν) : Prop where
  hmem : x ∈ g.keys
  hkeys : g'.keys = g.keys.erase x
  hsucc : ∀ d ∈ g.keys, g'.succ d = (g.succ d).erase x
  hss : ss = (g.succ x).erase x
  hpc : ∀ n ∈ g'.keys, g'.pc n = if n ∈ ss then g.pc n - 1 else g.pc n
  hdirty : g'.dirty = g.dirty

theorem remove_spec (g : Graph ν) (w : WF g) (x : ν) :
    (x ∉ g.keys ∧ g.remove x = .error .valueError) ∨
    ∃ g' ss, g.remove x = .ok (g', ss) ∧ RemSpec g x g' ss := by
  by_cases hx : x ∈ g.keys
  · right
    unfold Graph.remove
    simp only [hx, not_true_eq_false, if_false]
    refine ⟨_, _, rfl, ?_⟩
    have hp : (if g.pc x = 0 then [] else findPredecessors g x g.keys (g.pc x))
        = g.keys.filter (fun d => decide (x ∈ g.succ d)) := by
      by_cases h0 : g.pc x = 0
      · rw [if_pos h0]
        have := w.pc x hx
        rw [h0] at this
        have : g.keys.countP (fun d => decide (x ∈ g.succ d)) = 0 := by omega
        rw [List.countP_eq_zero] at this
        exact (List.filter_eq_nil_iff.2 this).symm
      · rw [if_neg h0]
        exact findPredecessors_eq g x g.keys _ (w.pc x hx) h0
    have hs : ∀ d ∈ g.keys, (g.keys.filter (fun d => decide (x ∈ g.succ d))).foldl
        (fun f n => upd f n ((f n).erase x)) g.succ d = (g.succ d).erase x := by
      intro d hd
      rw [foldl_erase_spec x _ (w.nodup.filter _)]
      split
      · rfl
      · rename_i h
        simp [hd] at h
        rw [List.erase_of_not_mem h]
    rw [hp]
    constructor
    · exact hx
    · rfl
    · exact hs
    · exact hs x hx
    · intro n hn
      simp only
      rw [foldl_dec_spec]
      rw [hs x hx]
      exact (w.succNodup x hx).erase _
    · rfl
  · left
    exact ⟨hx, by simp [Graph.remove, hx]⟩

theorem countP_erase_nodup (l : List ν) (hl : l.Nodup) (x : ν) (hx : x ∈ l) (p : ν → Bool) :
    l.countP p = (l.erase x).countP p + (if p x then 1 else 0) := by
  have := List.perm_cons_erase hx
  rw [this.countP_eq p, List.countP_cons]

theorem RemSpec.wf {g g' : Graph ν} {x : ν} {ss : List ν} (h : RemSpec g x g' ss) (w : WF g) :
    WF g' := by
  have hk : ∀ d ∈ g'.keys, d ∈ g.keys ∧ d ≠ x := by
    intro d hd
    rw [h.hkeys] at hd
    exact ⟨List.mem_of_mem_erase hd, fun he => by
      subst he; exact absurd hd (by simp [w.nodup.mem_erase_iff])⟩
  constructor
  · rw [h.hkeys]; exact w.nodup.erase _
  · intro d hd
    rw [h.hsucc d (hk d hd).1]
    exact (w.succNodup d (hk d hd).1).erase _
  · intro d hd n hn
    rw [h.hsucc d (hk d hd).1, (w.succNodup d (hk d hd).1).mem_erase_iff] at hn
    rw [h.hkeys, w.nodup.mem_erase_iff]
    exact ⟨hn.1, w.closed d (hk d hd).1 n hn.2⟩
  · intro n hn
    obtain ⟨hng, hnx⟩ := hk n hn
    rw [h.hpc n hn, w.pc n hng, countP_erase_nodup g.keys w.nodup x h.hmem, h.hss]
    have e : g'.keys.countP (fun d => decide (n ∈ g'.succ d)) =
        (g.keys.erase x).countP (fun d => decide (n ∈ g.succ d)) := by
      rw [h.hkeys]
      apply List.countP_congr
      intro d hd
      simp only [decide_eq_true_eq]
      rw [h.hsucc d (List.mem_of_mem_erase hd),
        (w.succNodup d (List.mem_of_mem_erase hd)).mem_erase_iff]
      simp [hnx]
    rw [e]
    have e2 : n ∈ (g.succ x).erase x ↔ n ∈ g.succ x := by
      rw [(w.succNodup x h.hmem).mem_erase_iff]; simp [hnx]
    by_cases hc : n ∈ g.succ x
    · rw [if_pos (e2.2 hc)]; simp [hc]
    · rw [if_neg (fun h => hc (e2.1 h))]; simp [hc]

end Big.Graph
