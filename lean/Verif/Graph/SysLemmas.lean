import Verif.Graph.CycleLemmas
/- Invariants of a graph with its views. -/
namespace Big.Graph
variable {ν : Type} [DecidableEq ν]

theorem isCycle_not_acyclic {g : Graph ν} {c : List ν} (h : g.IsCycle c) : ¬ g.Acyclic := by
  obtain ⟨hne, _, he⟩ := h
  intro hac
  have hpos := List.length_pos_iff.2 hne
  have key : ∀ i (hi : i < c.length), i = 0 ∨ Relation.TransGen g.Edge c[0] c[i] := by
    intro i
    induction i with
    | zero => intro _; exact .inl rfl
    | succ i ih =>
      intro hi
      right
      have h1 := he i (by omega)
      simp only [Nat.mod_eq_of_lt hi] at h1
      rcases ih (by omega) with h | h
      · subst h; exact .single h1
      · exact .tail h h1
  have hl := he (c.length - 1) (by omega)
  have e : (c.length - 1 + 1) % c.length = 0 := by
    rw [Nat.sub_add_cancel hpos]; exact Nat.mod_self _
  simp only [e] at hl
  rcases key (c.length - 1) (by omega) with h | h
  · have h0 : c[c.length - 1]'(by omega) = c[0] := by congr 1
    rw [h0] at hl
    exact hac _ (.single hl)
  · exact hac _ (.tail h hl)

theorem cycle_graph (g : Graph ν) (ord : List ν → List ν) :
    ∃ b, (g.cycle ord).1 = { g with dirty := b } := by
  unfold Graph.cycle
  split
  · exact ⟨g.dirty, rfl⟩
  · simp only
    split
    · exact ⟨_, rfl⟩
    · split <;> exact ⟨_, rfl⟩

theorem kahn_closed {g : Graph ν} (wf : WF g) {ord : List ν → List ν} (hord : ∀ l, (ord l).Perm l) :
    ∀ d ∈ g.keys, d ∉ (g.kahn ord).done → ∀ n ∈ g.succ d, n ∉ (g.kahn ord).done := by
  intro d hd hdn n hn hnd
  have := (kahn_spec wf hord).1.dz n hnd
  rw [oc_zero] at this
  exact hdn (this d hd hn)

theorem explore_top {g : Graph ν} (wf : WF g) {ord : List ν → List ν} (hord : ∀ l, (ord l).Perm l) :
    (∀ c, explore g (g.keys.length + 1) [] (ord (g.keys.filter (· ∉ (g.kahn ord).done))) = some c →
      g.IsCycle c) ∧
    (explore g (g.keys.length + 1) [] (ord (g.keys.filter (· ∉ (g.kahn ord).done))) = none →
      g.Acyclic) := by
  have hm : ∀ x, x ∈ ord (g.keys.filter (· ∉ (g.kahn ord).done)) ↔
      x ∈ g.keys ∧ x ∉ (g.kahn ord).done := by
    intro x; rw [(hord _).mem_iff]; simp
  have sp := explore_spec wf (g.keys.length + 1) []
    (ord (g.keys.filter (· ∉ (g.kahn ord).done))) (by simp) (by simp) (by intro i h; simp at h)
    (fun x hx => ⟨((hm x).1 hx).1, by simp⟩) (by simp)
  refine ⟨sp.1, fun h n hn => ?_⟩
  have hnk : n ∈ g.keys := by
    cases hn with
    | single h => exact h.1
    | tail h1 h2 => exact wf.closed _ h2.1 _ h2.2
  by_cases hd : n ∈ (g.kahn ord).done
  · exact acc_not_cycle ((kahn_spec wf hord).1.acc n hd) hn
  · have ha := sp.2 h n ((hm n).2 ⟨hnk, hd⟩)
    have : Relation.TransGen (fun b a => g.Edge a b) n n := by
      have key : ∀ a b, Relation.TransGen g.Edge a b →
          Relation.TransGen (fun b a => g.Edge a b) b a := by
        intro a b hab
        induction hab with
        | single h => exact .single h
        | tail _ h ih => exact .trans (.single h) ih
      exact key n n hn
    exact acc_not_cycle ha this

theorem cycle_spec {g : Graph ν} (wf : WF g) (hd : g.dirty = false → g.Acyclic)
    {ord : List ν → List ν} (hord : ∀ l, (ord l).Perm l) :
    ((g.cycle ord).2 = none ↔ g.Acyclic) ∧ (∀ c, (g.cycle ord).2 = some c → g.IsCycle c) ∧
    ((g.cycle ord).1.dirty = false → g.Acyclic) := by
  unfold Graph.cycle
  by_cases h : g.dirty = true
  · rw [if_neg (by simp [h])]
    simp only
    by_cases hk : (g.kahn ord).done.length = g.keys.length
    · rw [if_pos hk]
      have := (kahn_acyclic_iff wf hord).1 hk
      simp [this]
    · rw [if_neg hk]
      have hna : ¬ g.Acyclic := fun h => hk ((kahn_acyclic_iff wf hord).2 h)
      obtain ⟨e1, e2⟩ := explore_top wf hord
      split
      · rename_i c hc
        refine ⟨⟨by simp, fun h => absurd h hna⟩, ?_, by simp⟩
        rintro c' ⟨⟩
        exact e1 c hc
      · rename_i hc
        exact absurd (e2 hc) hna
  · have h' : g.dirty = false := by simpa using h
    rw [if_pos (by simp [h'])]
    simp [hd h', h']

/-- When the second phase is entered, the loop as written ends, with the answer of `cycle()`,
having raised nothing. -/
theorem cycle_loop {g : Graph ν} (wf : WF g) {ord : List ν → List ν} (hord : ∀ l, (ord l).Perm l)
    (hd : g.dirty = true) (hk : (g.kahn ord).done.length ≠ g.keys.length) :
    ∃ N c, dfsRun g (g.kahn ord).done N
        ⟨[ord (g.keys.filter (· ∉ (g.kahn ord).done))], []⟩ = some (.found c) ∧
      (g.cycle ord).2 = some c := by
  have hna : ¬ g.Acyclic := fun h => hk ((kahn_acyclic_iff wf hord).2 h)
  obtain ⟨e1, e2⟩ := explore_top wf hord
  have hm : ∀ x, x ∈ ord (g.keys.filter (· ∉ (g.kahn ord).done)) ↔
      x ∈ g.keys ∧ x ∉ (g.kahn ord).done := by
    intro x; rw [(hord _).mem_iff]; simp
  obtain ⟨N, hN⟩ := dfs_refines wf (g.kahn ord).done (kahn_closed wf hord) (g.keys.length + 1) []
    (ord (g.keys.filter (· ∉ (g.kahn ord).done))) (by simp) (by simp) (fun x hx => (hm x).1 hx) (by simp)
  unfold Graph.cycle
  rw [if_neg (by simp [hd])]
  simp only
  rw [if_neg hk]
  cases hc : explore g (g.keys.length + 1) [] (ord (g.keys.filter (· ∉ (g.kahn ord).done))) with
  | none => exact absurd (e2 hc) hna
  | some c =>
    refine ⟨N, c, ?_, rfl⟩
    have := hN [] 0
    rw [hc] at this
    simpa using this

theorem check_spec {g : Graph ν} (wf : WF g) (hd : g.dirty = false → g.Acyclic)
    {ord : List ν → List ν} (hord : ∀ l, (ord l).Perm l) :
    (∃ b, (g.checkForCycles ord).1 = { g with dirty := b }) ∧
    ((g.checkForCycles ord).2 = true ↔ ¬ g.Acyclic) ∧
    ((g.checkForCycles ord).1.dirty = false → g.Acyclic) := by
  have sp := cycle_spec wf hd hord
  unfold Graph.checkForCycles
  by_cases h : g.dirty = true
  · rw [if_pos h]
    refine ⟨cycle_graph g ord, ?_, sp.2.2⟩
    simp only
    rw [← sp.1]
    cases (g.cycle ord).2 <;> simp
  · have h' : g.dirty = false := by simpa using h
    rw [if_neg h]
    exact ⟨⟨g.dirty, rfl⟩, by simp [hd h'], hd⟩

theorem dirty_edge (g : Graph ν) (b : Bool) : ({ g with dirty := b } : Graph ν).Edge = g.Edge := rfl
theorem dirty_acyclic (g : Graph ν) (b : Bool) :
    ({ g with dirty := b } : Graph ν).Acyclic ↔ g.Acyclic := Iff.rfl
theorem dirty_wf {g : Graph ν} (b : Bool) (w : WF g) : WF { g with dirty := b } :=
  ⟨w.nodup, w.succNodup, w.closed, w.pc⟩
theorem dirty_winv {g : Graph ν} (b : Bool) {v : View ν} (w : WInv g v) :
    WInv { g with dirty := b } v :=
  ⟨w.nb, w.pr, w.rn, w.rk, w.rp, w.yn, w.yk, w.dn, w.dk, w.mir⟩
theorem dirty_cinv {g : Graph ν} (b : Bool) {x : ν → Prop} {v : View ν} {D : List ν} (w : CInv x g v D) :
    CInv x { g with dirty := b } v D :=
  ⟨w.lb, w.rd⟩
theorem dirty_kinv {g : Graph ν} (b : Bool) {v : View ν} (w : KInv g v) :
    KInv { g with dirty := b } v := w

theorem acyclic_mono {g g' : Graph ν} (h : ∀ a b, g'.Edge a b → g.Edge a b) (ha : g.Acyclic) :
    g'.Acyclic := by
  intro n hn
  apply ha n
  have : ∀ a b, Relation.TransGen g'.Edge a b → Relation.TransGen g.Edge a b := by
    intro a b hab
    induction hab with
    | single e => exact .single (h _ _ e)
    | tail _ e ih => exact .tail ih (h _ _ e)
  exact this n n hn

/-- Every entry of the conflict table is one the documentation has. -/
def SInv (g : Graph ν) (v : View ν) : Prop :=
  ∀ a b, (a, b) ∈ v.conf → a ∈ g.keys ∧ b ∈ g.succ a ∧ (b ∈ v.yielded ∨ b ∈ v.done) ∧ a ∉ v.done

/-- Per-view invariant: `c` — the view's history is clean; `x` — its late nodes. -/
structure VOk (c : Prop) (x : ν → Prop) (g : Graph ν) (v : View ν) : Prop where
  w : WInv g v
  sk : SInv g v
  lk : ∀ n, x n → n ∈ g.keys
  cx : c → CInv x g v v.done ∧ KInv g v

/-- No node. -/
def never : ν → Prop := fun _ => False

theorem VOk.dirty {c : Prop} {x : ν → Prop} {g : Graph ν} {v : View ν} (h : VOk c x g v) (b : Bool) :
    VOk c x { g with dirty := b } v :=
  ⟨dirty_winv b h.w, h.sk, h.lk, fun hc => ⟨dirty_cinv b (h.cx hc).1, dirty_kinv b (h.cx hc).2⟩⟩

theorem VOk.add {c : Prop} {x x' : ν → Prop} {g g' : Graph ν} {node : ν} {deps nn ns : List ν} (wf : WF g)
    (a : AddSpec g node deps g' nn ns) {v : View ν} (h : VOk c x g v)
    (hx : ∀ n, x' n ↔ x n ∨ (n = node ∧ n ∉ v.yielded ∧ n ∉ v.done ∧ ∃ s ∈ ns, s ∈ v.done)) :
    VOk c x' g' (v.afterAdd node nn ns) := by
  have hkey : ∀ n, n ∈ g'.keys ↔ n ∈ g.keys ∨ n ∈ nn := by intro n; rw [a.hkeys]; simp
  refine ⟨h.w.add a, ?_, ?_, fun hc => ⟨?_, (h.cx hc).2.add a h.w⟩⟩
  · have sp := afterAdd_spec a h.w
    intro p q hpq
    rw [sp.conf] at hpq
    rw [sp.yielded, sp.done]
    rcases hpq with hpq | ⟨rfl, h1, h2, h3⟩
    · obtain ⟨h1, h2, h3, h4⟩ := h.sk p q hpq
      have hx := (hkey p).2 (.inl h1)
      refine ⟨hx, ?_, h3, h4⟩
      rw [a.hsucc p hx]; simp [base, h1, h2]
    · have hx := (a.hnsk p h1).1
      refine ⟨hx, ?_, h3, h2⟩
      rw [a.hsucc p hx]; simp [h1]
  · intro n hn
    rcases (hx n).1 hn with h1 | ⟨rfl, _⟩
    · exact (hkey n).2 (.inl (h.lk n h1))
    · exact a.hnode
  · rw [(afterAdd_spec a h.w).done]
    refine (h.cx hc).1.add wf a h.w h.lk ?_
    intro n h1 h2
    rw [hx]
    simp [h1, h2]

theorem VOk.remove {c : Prop} {x x' : ν → Prop} {g g' : Graph ν} {n : ν} {ss : List ν} (wf : WF g)
    (r : RemSpec g n g' ss) {v : View ν} (h : VOk c x g v) (hx : ∀ m, x' m ↔ x m ∧ m ≠ n) :
    VOk c x' g' (v.removeNode n ss) := by
  have hkey : ∀ m, m ∈ g'.keys ↔ m ∈ g.keys ∧ m ≠ n := by
    intro m; rw [r.hkeys, wf.nodup.mem_erase_iff]; grind
  refine ⟨h.w.remove wf r, ?_, ?_, fun hc => ⟨(h.cx hc).1.remove wf r h.w (fun m hm => by rw [hx]; simp [hm]),
    (h.cx hc).2.remove wf r h.w⟩⟩
  · obtain ⟨f1, f2, f3, _⟩ := removeNode_fields wf r h.w
    intro p q hpq
    rw [f3] at hpq
    obtain ⟨h5, h6, h7⟩ := hpq
    obtain ⟨h1, h2, h3, h4⟩ := h.sk p q h5
    rw [f1, f2, f2, hkey]
    refine ⟨⟨h1, h6⟩, ?_, by grind, by grind⟩
    rw [r.hsucc p h1]; exact (List.mem_erase_of_ne h7).2 h2
  · intro m hm
    obtain ⟨h1, h2⟩ := (hx m).1 hm
    exact (hkey m).2 ⟨h.lk m h1, h2⟩

/-- What a successful `ready()` does to the view. -/
def View.took (v : View ν) : View ν :=
  { v with yielded := v.yielded ++ v.ready.filter (· ∉ v.yielded), ready := [] }

theorem took_yielded {g : Graph ν} {v : View ν} (w : WInv g v) :
    v.took.yielded = v.yielded ++ v.ready := by
  unfold View.took
  simp only
  congr 1
  rw [List.filter_eq_self]
  intro a ha
  simp [(w.rk a ha).2.1]

/-- ready() only yields nodes whose predecessors are all done. -/
theorem ready_preds {c : Prop} {x : ν → Prop} {g : Graph ν} {v : View ν} (h : VOk c x g v) (hc : c) {n : ν}
    (hn : n ∈ v.ready) : ∀ d ∈ g.keys, n ∈ g.succ d → d ∈ v.done := by
  obtain ⟨h1, h2, h3⟩ := h.w.rk n hn
  obtain ⟨k, hk, hk0⟩ := h.w.rp n hn
  have := ((h.cx hc).1.lb n h1 h2 h3 k hk).1
  rw [← oc_zero]
  omega

theorem VOk.took {c : Prop} {x : ν → Prop} {g : Graph ν} {v : View ν} (h : VOk c x g v) (hcf : v.conf = []) :
    VOk c x g v.took := by
  have hy := took_yielded h.w
  have hd : v.took.done = v.done := rfl
  have hp : v.took.pred = v.pred := rfl
  have hr : v.took.ready = [] := rfl
  have w := h.w
  constructor
  · constructor
    · exact w.nb
    · exact w.pr
    · rw [hr]; simp
    · rw [hr]; simp
    · rw [hr]; simp
    · rw [hy, List.nodup_append]
      exact ⟨w.yn, w.rn, fun a ha b hb e => (w.rk b hb).2.1 (e ▸ ha)⟩
    · intro n hn
      rw [hy] at hn
      rcases List.mem_append.1 hn with h' | h'
      · exact w.yk n h'
      · exact ⟨(w.rk n h').1, (w.rk n h').2.2⟩
    · exact w.dn
    · exact w.dk
    · exact w.mir
  · intro a b hab
    have h0 : v.took.conf = [] := hcf
    rw [h0] at hab; simp at hab
  · exact h.lk
  · intro hc
    obtain ⟨c1, k1⟩ := h.cx hc
    refine ⟨⟨?_, ?_⟩, ?_⟩
    · intro n hn h1 h2 k hk
      rw [hy] at h1
      exact c1.lb n hn (fun h => h1 (by simp [h])) h2 k hk
    · intro n hn h1 h2 hk
      rw [hy] at h1
      exact absurd (c1.rd n hn (fun h => h1 (by simp [h])) h2 hk) (fun h => h1 (by simp [h]))
    · intro a b
      have h0 : v.took.conf = [] := hcf
      have hk := k1 a b
      rw [h0, hy, hd]
      rw [hcf] at hk
      simp only [List.not_mem_nil, false_iff] at hk ⊢
      rintro ⟨h1, h2, h3, h4⟩
      rcases h3 with h3 | h3
      · rcases List.mem_append.1 h3 with h' | h'
        · exact hk ⟨h1, h2, .inl h', h4⟩
        · exact h4 (ready_preds h hc h' a h1 h2)
      · exact hk ⟨h1, h2, .inr h3, h4⟩

theorem getReady_cases {g : Graph ν} {v : View ν} {ord : List ν → List ν} :
    (∃ e, v.getReady g ord = (v, g, .error e) ∧ (v.closed = true ∨ v.conf ≠ [])) ∨
    (v.closed = false ∧ v.conf = [] ∧ ((g.checkForCycles ord).2 = true ∧
      v.getReady g ord = (v, (g.checkForCycles ord).1, .error .cycleError) ∨
      (g.checkForCycles ord).2 = false ∧
      v.getReady g ord = (v.took, (g.checkForCycles ord).1, .ok v.ready))) := by
  unfold View.getReady View.took
  cases hc : v.closed
  · by_cases hk : v.conf = []
    · right
      refine ⟨rfl, hk, ?_⟩
      cases hz : (g.checkForCycles ord).2 <;> simp [hk, hz]
    · left; simp [hk]
  · left; simp

/-! done() -/

theorem doneLoop_fields (g : Graph ν) (wf : WF g) (nodes : List ν) (v : View ν) (w : WInv g v) :
    WInv g (View.doneLoop g v nodes).1 ∧
    (View.doneLoop g v nodes).1.yielded = v.yielded ∧
    (View.doneLoop g v nodes).1.done = v.done ∧
    (View.doneLoop g v nodes).1.conf = v.conf ∧
    (View.doneLoop g v nodes).1.closed = v.closed ∧
    ((View.doneLoop g v nodes).2 = true ↔ ∀ n ∈ nodes, n ∈ v.yielded) := by
  induction nodes generalizing v with
  | nil => simp [View.doneLoop, w]
  | cons n nodes ih =>
    unfold View.doneLoop
    by_cases hk : n ∈ g.keys
    · rw [if_neg (by simpa using hk)]
      by_cases hy : n ∈ v.yielded
      · rw [if_neg (by simpa using hy)]
        have hS := wf.succNodup n hk
        have w' := w.mark (g.succ n) hS (fun s hs => wf.closed n hk s hs)
        obtain ⟨i1, i2, i3, i4, i5, i6⟩ := ih _ w'
        have ms := markNodeDone_spec (g.succ n) hS v (fun s hs _ _ => by
          obtain ⟨k, h⟩ := w.pr s (wf.closed n hk s hs); simp [h])
        refine ⟨i1, ?_, ?_, ?_, ?_, ?_⟩
        · rw [i2, ms]
        · rw [i3, ms]
        · rw [i4, ms]
        · rw [i5, ms]
        · rw [i6, ms]; simp [hy]
      · rw [if_pos hy]
        simp [w, hy]
    · rw [if_pos hk]
      refine ⟨w, rfl, rfl, rfl, rfl, ?_⟩
      simp
      intro h
      exact absurd (w.yk n h).1 hk

theorem doneLoop_cinv (g : Graph ν) (wf : WF g) {x : ν → Prop} (nodes : List ν) (v : View ν) (D : List ν)
    (w : WInv g v) (c : CInv x g v D) (hy : ∀ n ∈ nodes, n ∈ v.yielded) (hn : nodes.Nodup)
    (hD : ∀ n ∈ nodes, n ∉ D) : CInv x g (View.doneLoop g v nodes).1 (D ++ nodes) := by
  induction nodes generalizing v D with
  | nil => simpa [View.doneLoop] using c
  | cons n nodes ih =>
    simp only [List.nodup_cons] at hn
    have hyn := hy n (by simp)
    have hk := (w.yk n hyn).1
    unfold View.doneLoop
    rw [if_neg (by simpa using hk), if_neg (by simpa using hyn)]
    have hS := wf.succNodup n hk
    have w' := w.mark (g.succ n) hS (fun s hs => wf.closed n hk s hs)
    have ms := markNodeDone_spec (g.succ n) hS v (fun s hs _ _ => by
          obtain ⟨k, h⟩ := w.pr s (wf.closed n hk s hs); simp [h])
    have := ih _ (D ++ [n]) w' (c.mark w wf hk (hD n (by simp)))
      (by rw [ms]; exact fun m hm => hy m (by simp [hm])) hn.2 (by
        intro m hm
        have : m ≠ n := by rintro rfl; exact hn.1 hm
        simp [hD m (by simp [hm]), this])
    simpa using this

/-- The view after the loop of done() succeeded. -/
def View.finish (v : View ν) (nodes : List ν) : View ν :=
  { v with done := v.done ++ (nodes.filter (· ∉ v.done)).eraseDups,
           yielded := v.yielded.filter (· ∉ nodes) }

theorem eraseDups_nodup (n : Nat) : ∀ (l : List ν), l.length ≤ n → l.eraseDups.Nodup := by
  induction n with
  | zero => intro l hl; have : l = [] := by simpa using hl
            subst this; simp
  | succ n ih =>
    intro l hl
    cases l with
    | nil => simp
    | cons a l =>
      rw [List.eraseDups_cons, List.nodup_cons]
      refine ⟨by rw [List.mem_eraseDups]; simp, ?_⟩
      apply ih
      have := List.length_filter_le (fun b => !b == a) l
      simp at hl; omega

theorem VOk.finish {c : Prop} {x : ν → Prop} {g : Graph ν} {v : View ν} {nodes : List ν} (w : WInv g v)
    (hy : ∀ n ∈ nodes, n ∈ v.yielded) (lk : ∀ n, x n → n ∈ g.keys) (cf : v.conf = [])
    (hc : c → CInv x g v (v.done ++ nodes) ∧ KInv g v) :
    VOk c x g (v.finish nodes) := by
  have hd : ∀ n, n ∈ (v.finish nodes).done ↔ n ∈ v.done ∨ n ∈ nodes := by
    intro n
    simp only [View.finish, List.mem_append, List.mem_eraseDups, List.mem_filter]
    simp; grind
  have hyy : ∀ n, n ∈ (v.finish nodes).yielded ↔ n ∈ v.yielded ∧ n ∉ nodes := by
    intro n; simp [View.finish]
  have hun : ∀ n, n ∉ (v.finish nodes).yielded → n ∉ (v.finish nodes).done →
      n ∉ v.yielded ∧ n ∉ v.done := by
    intro n h1 h2
    rw [hyy] at h1
    rw [hd] at h2
    grind
  constructor
  · constructor
    · exact w.nb
    · exact w.pr
    · exact w.rn
    · intro n hn
      obtain ⟨h1, h2, h3⟩ := w.rk n hn
      rw [hd, hyy]
      exact ⟨h1, fun h => h2 h.1, fun h => h.elim h3 (fun h => h2 (hy n h))⟩
    · exact w.rp
    · exact w.yn.filter _
    · intro n hn
      rw [hyy] at hn
      rw [hd]
      obtain ⟨h1, h2⟩ := w.yk n hn.1
      exact ⟨h1, fun h => h.elim h2 hn.2⟩
    · unfold View.finish
      simp only
      rw [List.nodup_append]
      refine ⟨w.dn, eraseDups_nodup _ _ (Nat.le_refl _), ?_⟩
      rintro a ha b hb rfl
      rw [List.mem_eraseDups] at hb
      simp at hb
      exact hb.2 ha
    · intro n hn
      rw [hd] at hn
      exact hn.elim (w.dk n) (fun h => (w.yk n (hy n h)).1)
    · exact w.mir
  · intro a b hab
    have hcf : (v.finish nodes).conf = [] := cf
    rw [hcf] at hab; simp at hab
  · exact lk
  · intro hcc
    obtain ⟨c1, k1⟩ := hc hcc
    have hoc : ∀ n, oc g (v.finish nodes).done n = oc g (v.done ++ nodes) n := by
      intro n; apply oc_congr; intro m; rw [hd]; simp
    refine ⟨⟨?_, ?_⟩, ?_⟩
    · intro n hn h1 h2 k hk
      rw [hoc]
      exact c1.lb n hn (hun n h1 h2).1 (hun n h1 h2).2 k hk
    · intro n hn h1 h2 hk
      exact c1.rd n hn (hun n h1 h2).1 (hun n h1 h2).2 hk
    · intro a b
      have hcf : (v.finish nodes).conf = [] := cf
      have := k1 a b
      rw [cf] at this
      rw [hcf, hd, hd, hyy]
      simp only [List.not_mem_nil, false_iff] at this ⊢
      rintro ⟨h1, h2, h3, h4⟩
      apply this
      refine ⟨h1, h2, ?_, fun h => h4 (.inl h)⟩
      rcases h3 with h3 | h3 | h3
      · exact .inl h3.1
      · exact .inr h3
      · exact .inl (hy b h3)

theorem setDone_cases {g : Graph ν} (wf : WF g) {v : View ν} (w : WInv g v) (nodes : List ν) :
    (v.setDone g nodes = (v, .error (if v.closed then .valueError else .runtimeError)) ∧
      (v.closed = true ∨ v.conf ≠ [])) ∨
    (v.closed = false ∧ v.conf = [] ∧
      ((∃ n ∈ nodes, n ∉ v.yielded) ∧
        v.setDone g nodes = ((View.doneLoop g v nodes).1, .error .valueError) ∨
       (∀ n ∈ nodes, n ∈ v.yielded) ∧
        v.setDone g nodes = ((View.doneLoop g v nodes).1.finish nodes, .ok ()))) := by
  have hl := (doneLoop_fields g wf nodes v w).2.2.2.2.2
  unfold View.setDone View.finish
  cases hc : v.closed
  · by_cases hk : v.conf = []
    · right
      refine ⟨rfl, hk, ?_⟩
      cases hz : (View.doneLoop g v nodes).2
      · left
        rw [hz] at hl
        simp at hl
        simpa [hk, hz] using hl
      · right
        rw [hz] at hl
        simp at hl
        simpa [hk, hz] using hl
    · left; simp [hk]
  · left; simp

theorem VOk.setDone {c c' : Prop} {x : ν → Prop} {g : Graph ν} (wf : WF g) {v : View ν} (h : VOk c x g v)
    (nodes : List ν) (hcc' : c' → c)
    (hc : c' → ((v.setDone g nodes).2 = .ok () → nodes.Nodup) ∧
      ((v.setDone g nodes).2 = .error .valueError → ∀ n, nodes.head? = some n → n ∉ v.yielded)) :
    VOk c' x g (v.setDone g nodes).1 := by
  obtain ⟨f1, f2, f3, f4, f5, f6⟩ := doneLoop_fields g wf nodes v h.w
  rcases setDone_cases wf h.w nodes with ⟨e, _⟩ | ⟨_, hcf, ⟨⟨n, hn, hny⟩, e⟩ | ⟨hy, e⟩⟩
  · rw [e]; exact ⟨h.w, h.sk, h.lk, fun hcc => h.cx (hcc' hcc)⟩
  · rw [e]
    refine ⟨f1, ?_, h.lk, fun hcc => ?_⟩
    · intro a b hab
      rw [f4, hcf] at hab; simp at hab
    · have h2 := (hc hcc).2 (by rw [e])
      have e2 : (View.doneLoop g v nodes).1 = v := by
        cases nodes with
        | nil => rfl
        | cons m rest =>
          have := h2 m rfl
          unfold View.doneLoop
          simp [this]
      rw [e2]
      exact h.cx (hcc' hcc)
  · rw [e]
    apply VOk.finish f1 (by rw [f2]; exact hy) h.lk (by rw [f4]; exact hcf)
    intro hcc
    have h1 := (hc hcc).1 (by rw [e])
    obtain ⟨c1, k1⟩ := h.cx (hcc' hcc)
    refine ⟨?_, ?_⟩
    · rw [f3]
      exact doneLoop_cinv g wf nodes v v.done h.w c1 hy h1 (fun n hn => (h.w.yk n (hy n hn)).2)
    · intro a b
      rw [f4, f2, f3]; exact k1 a b

end Big.Graph
