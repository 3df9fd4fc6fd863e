import Verif.Graph.ViewLemmas2
/- Correctness of the cycle detector. -/
namespace Big.Graph
variable {ν : Type} [DecidableEq ν]

/-- There is an edge from `d` to `n` (n depends on d). -/
def Graph.Edge (g : Graph ν) (d n : ν) : Prop := d ∈ g.keys ∧ n ∈ g.succ d

/-- No node depends, directly or not, on itself. -/
def Graph.Acyclic (g : Graph ν) : Prop := ∀ n, ¬ Relation.TransGen g.Edge n n

/-- `c` lists the nodes of a cycle in order. -/
def Graph.IsCycle (g : Graph ν) (c : List ν) : Prop :=
  c ≠ [] ∧ c.Nodup ∧
  ∀ i (hi : i < c.length), g.Edge c[i] (c[(i + 1) % c.length]'(Nat.mod_lt _ (by omega)))

theorem nodup_length_le {l m : List ν} (h : l.Nodup) (hs : ∀ x ∈ l, x ∈ m) : l.length ≤ m.length := by
  induction l generalizing m with
  | nil => simp
  | cons a l ih =>
    simp only [List.nodup_cons] at h
    have := ih h.2 (m := m.erase a) (fun x hx => by
      have hxa : x ≠ a := by rintro rfl; exact h.1 hx
      exact (List.mem_erase_of_ne hxa).2 (hs x (by simp [hx])))
    have hm := hs a (by simp)
    rw [List.length_erase_of_mem hm] at this
    have := List.length_pos_of_mem hm
    simp; omega

/-! ### first phase -/

theorem kahnSucc_spec (S : List ν) (hS : S.Nodup) (c : ν → Int) (nx : List ν) :
    (∀ n, (kahnSucc (c, nx) S).1 n = if n ∈ S then c n - 1 else c n) ∧
    (∀ n, n ∈ (kahnSucc (c, nx) S).2 ↔ n ∈ nx ∨ (n ∈ S ∧ c n - 1 = 0)) ∧
    (nx.Nodup → (kahnSucc (c, nx) S).2.Nodup) := by
  induction S generalizing c nx with
  | nil => simp [kahnSucc]
  | cons s S ih =>
    simp only [List.nodup_cons] at hS
    unfold kahnSucc at *
    simp only [List.foldl_cons]
    have := ih hS.2 (upd c s (c s - 1))
      (if (upd c s (c s - 1)) s = 0 then (if s ∈ nx then nx else nx ++ [s]) else nx)
    obtain ⟨i1, i2, i3⟩ := this
    refine ⟨?_, ?_, ?_⟩
    · intro n
      rw [i1]
      by_cases h : n = s
      · subst h; simp [hS.1]
      · simp [h, upd_ne]
    · intro n
      rw [i2]
      by_cases h : n = s
      · subst h
        simp only [upd_same, hS.1, false_and, or_false, List.mem_cons, true_or, true_and]
        grind
      · rw [upd_ne _ _ h]
        simp only [upd_same, List.mem_cons, h, false_or]
        grind
    · intro hn
      apply i3
      simp only [upd_same]
      split
      · split
        · exact hn
        · rw [List.nodup_append]; grind
      · exact hn

/-- Invariant of the first phase. -/
structure KInvt (g : Graph ν) (k : Kahn ν) : Prop where
  dn : k.done.Nodup
  dk : ∀ n ∈ k.done, n ∈ g.keys
  cnt : ∀ n ∈ g.keys, k.counts n = oc g k.done n
  rn : k.ready.Nodup
  rd : ∀ n, n ∈ k.ready ↔ n ∈ g.keys ∧ n ∉ k.done ∧ oc g k.done n = 0
  dz : ∀ n ∈ k.done, oc g k.done n = 0
  acc : ∀ n ∈ k.done, Acc g.Edge n

theorem oc_append {g : Graph ν} (wf : WF g) {D : List ν} {d : ν} (hd : d ∈ g.keys) (hD : d ∉ D)
    (n : ν) : oc g D n = oc g (D ++ [d]) n + (if n ∈ g.succ d then 1 else 0) := by
  unfold oc
  rw [countP_erase_nodup g.keys wf.nodup d hd, countP_erase_nodup g.keys wf.nodup d hd]
  have : List.countP (fun e => decide (n ∈ g.succ e) && decide (e ∉ D)) (g.keys.erase d) =
      List.countP (fun e => decide (n ∈ g.succ e) && decide (e ∉ D ++ [d])) (g.keys.erase d) := by
    apply List.countP_congr
    intro e he
    have : e ≠ d := by rintro rfl; exact absurd he (by simp [wf.nodup.mem_erase_iff])
    simp [this]
  rw [this]
  simp [hD]

/-- The inner loop over the ready nodes, `D` being the nodes processed so far and before. -/
theorem kahn_inner {g : Graph ν} (wf : WF g) (B : List ν) (l : List ν) (hl : l.Nodup)
    (hlk : ∀ n ∈ l, n ∈ g.keys) (D : List ν) (hlD : ∀ n ∈ l, n ∉ D)
    (hB : ∀ n ∈ B, oc g D n = 0) (c : ν → Int) (nx : List ν)
    (hc : ∀ n ∈ g.keys, c n = oc g D n) (hnx : nx.Nodup)
    (hnxm : ∀ n, n ∈ nx ↔ n ∈ g.keys ∧ n ∉ B ∧ oc g D n = 0) :
    let r := l.foldl (fun st n => kahnSucc st (g.succ n)) (c, nx)
    (∀ n ∈ g.keys, r.1 n = oc g (D ++ l) n) ∧ r.2.Nodup ∧
    (∀ n, n ∈ r.2 ↔ n ∈ g.keys ∧ n ∉ B ∧ oc g (D ++ l) n = 0) := by
  induction l generalizing D c nx with
  | nil => simpa using ⟨hc, hnx, hnxm⟩
  | cons d l ih =>
    simp only [List.nodup_cons] at hl
    have hd := hlk d (by simp)
    have hdD := hlD d (by simp)
    obtain ⟨s1, s2, s3⟩ := kahnSucc_spec (g.succ d) (wf.succNodup d hd) c nx
    simp only [List.foldl_cons]
    have ho := oc_append wf hd hdD
    have := ih hl.2 (fun n hn => hlk n (by simp [hn])) (D ++ [d])
      (fun n hn => by
        have h1 : n ≠ d := by rintro rfl; exact hl.1 hn
        simp [hlD n (by simp [hn]), h1])
      (fun n hn => by have := ho n; have := hB n hn; omega)
      (kahnSucc (c, nx) (g.succ d)).1 (kahnSucc (c, nx) (g.succ d)).2
      (fun n hn => by
        rw [s1, hc n hn]
        have := ho n
        split <;> simp_all)
      (s3 hnx)
      (fun n => by
        rw [s2, hnxm]
        have h1 := ho n
        constructor
        · rintro (⟨h2, h3, h4⟩ | ⟨h2, h3⟩)
          · exact ⟨h2, h3, by omega⟩
          · have hk := wf.closed d hd n h2
            rw [hc n hk] at h3
            rw [if_pos h2] at h1
            exact ⟨hk, fun hb => by have := hB n hb; omega, by omega⟩
        · rintro ⟨h2, h3, h4⟩
          by_cases hs : n ∈ g.succ d
          · rw [if_pos hs] at h1
            right
            refine ⟨hs, ?_⟩
            rw [hc n h2]; omega
          · rw [if_neg hs] at h1
            left; exact ⟨h2, h3, by omega⟩)
    simpa using this

theorem KInvt.round {g : Graph ν} (wf : WF g) {ord : List ν → List ν} (hord : ∀ l, (ord l).Perm l)
    {k : Kahn ν} (h : KInvt g k) : KInvt g (kahnRound g ord k) ∧
      (kahnRound g ord k).done = k.done ++ k.ready := by
  have hp := hord k.ready
  have hdone : (kahnRound g ord k).done = k.done ++ k.ready := by
    unfold kahnRound
    simp only
    congr 1
    rw [List.filter_eq_self]
    intro a ha
    simp [((h.rd a).1 ha).2.1]
  have hin := kahn_inner wf (k.done ++ k.ready) (ord k.ready) (hp.nodup_iff.2 h.rn)
    (fun n hn => ((h.rd n).1 (hp.mem_iff.1 hn)).1) k.done
    (fun n hn => ((h.rd n).1 (hp.mem_iff.1 hn)).2.1)
    (fun n hn => by
      rcases List.mem_append.1 hn with h' | h'
      · exact h.dz n h'
      · exact ((h.rd n).1 h').2.2) k.counts []
    h.cnt (by simp) (by
      intro n
      have := h.rd n
      simp only [List.not_mem_nil, false_iff, List.mem_append]
      grind)
  simp only at hin
  obtain ⟨i1, i2, i3⟩ := hin
  have hcg : ∀ n, oc g (k.done ++ ord k.ready) n = oc g (k.done ++ k.ready) n := by
    intro n; apply oc_congr; intro x; simp [hp.mem_iff]
  have hmono : ∀ n, oc g k.done n = 0 → oc g (k.done ++ k.ready) n = 0 := by
    intro n
    simp only [oc_zero]
    intro h d hd hn
    exact List.mem_append.2 (.inl (h d hd hn))
  refine ⟨?_, hdone⟩
  constructor
  · rw [hdone, List.nodup_append]
    exact ⟨h.dn, h.rn, fun a ha b hb e => ((h.rd b).1 hb).2.1 (e ▸ ha)⟩
  · intro n hn
    rw [hdone] at hn
    rcases List.mem_append.1 hn with h' | h'
    · exact h.dk n h'
    · exact ((h.rd n).1 h').1
  · intro n hn
    rw [hdone, ← hcg]
    exact i1 n hn
  · exact i2
  · intro n
    rw [hdone]
    have := i3 n
    rw [hcg] at this
    exact this
  · intro n hn
    rw [hdone] at hn ⊢
    apply hmono
    rcases List.mem_append.1 hn with h' | h'
    · exact h.dz n h'
    · exact ((h.rd n).1 h').2.2
  · intro n hn
    rw [hdone] at hn
    rcases List.mem_append.1 hn with h' | h'
    · exact h.acc n h'
    · have := ((h.rd n).1 h').2.2
      rw [oc_zero] at this
      exact ⟨_, fun d hd => h.acc d (this d hd.1 hd.2)⟩

theorem kahnLoop_spec {g : Graph ν} (wf : WF g) {ord : List ν → List ν}
    (hord : ∀ l, (ord l).Perm l) (n : Nat) (k : Kahn ν) (h : KInvt g k)
    (hn : g.keys.length + 1 ≤ n + k.done.length) :
    KInvt g (kahnLoop g ord n k) ∧ (kahnLoop g ord n k).ready = [] := by
  induction n generalizing k with
  | zero =>
    have := nodup_length_le h.dn h.dk
    omega
  | succ n ih =>
    unfold kahnLoop
    split
    · exact ⟨h, by assumption⟩
    · rename_i hr
      obtain ⟨h1, h2⟩ := h.round wf hord
      apply ih _ h1
      rw [h2]
      have := List.length_pos_iff.2 hr
      simp; omega

theorem kahn_spec {g : Graph ν} (wf : WF g) {ord : List ν → List ν} (hord : ∀ l, (ord l).Perm l) :
    KInvt g (g.kahn ord) ∧ (g.kahn ord).ready = [] := by
  apply kahnLoop_spec wf hord
  · have hoc : ∀ n ∈ g.keys, g.pc n = oc g [] n := by
      intro n hn; rw [wf.pc n hn]; simp [oc]
    constructor
    · simp
    · simp
    · exact hoc
    · exact wf.nodup.filter _
    · intro n
      simp only [List.mem_filter, decide_eq_true_eq, List.not_mem_nil, not_false_eq_true, true_and]
      constructor
      · rintro ⟨h1, h2⟩; exact ⟨h1, by rw [hoc n h1] at h2; omega⟩
      · rintro ⟨h1, h2⟩; exact ⟨h1, by rw [hoc n h1]; omega⟩
    · simp
    · simp
  · simp

/-- `n` is not finished by the first phase: it waits for another such node. -/
theorem kahn_stuck {g : Graph ν} {k : Kahn ν} (h : KInvt g k) (hr : k.ready = []) {n : ν}
    (hn : n ∈ g.keys) (hd : n ∉ k.done) : ∃ d, g.Edge d n ∧ d ∉ k.done := by
  have h1 : oc g k.done n ≠ 0 := by
    intro h0
    have := (h.rd n).2 ⟨hn, hd, h0⟩
    rw [hr] at this
    simp at this
  obtain ⟨d, h2, h3, h4⟩ := oc_pos.1 (Nat.pos_of_ne_zero h1)
  exact ⟨d, ⟨h2, h3⟩, h4⟩

theorem acc_not_cycle {r : ν → ν → Prop} {n : ν} (h : Acc r n) : ¬ Relation.TransGen r n n := by
  have h' : Acc (Relation.TransGen r) n := h.transGen
  induction h' with
  | intro x _ ih => intro hx; exact ih x hx (h.inv_of_transGen hx) hx

/-- In a finite set where every member has a predecessor in the set there is a cycle. -/
theorem stuck_cycle {g : Graph ν} (U : ν → Prop) (hU : ∀ n, U n → n ∈ g.keys)
    (hp : ∀ n, U n → ∃ d, g.Edge d n ∧ U d) {n : ν} (hn : U n) : ¬ g.Acyclic := by
  intro hac
  have : ∀ m : Nat, ∃ l : List ν, ∃ x, (x :: l).Nodup ∧ l.length = m ∧ (∀ y ∈ x :: l, U y) ∧
      ∀ y ∈ l, Relation.TransGen g.Edge x y := by
    intro m
    induction m with
    | zero => exact ⟨[], n, by simp, rfl, by simpa using hn, by simp⟩
    | succ m ih =>
      obtain ⟨l, x, h1, h2, h3, h4⟩ := ih
      obtain ⟨d, h5, h6⟩ := hp x (h3 x (by simp))
      refine ⟨x :: l, d, ?_, by simp [h2], ?_, ?_⟩
      · rw [List.nodup_cons]
        refine ⟨?_, h1⟩
        intro hd
        rcases List.mem_cons.1 hd with rfl | hd
        · exact hac d (.single h5)
        · exact hac d (.trans (.single h5) (h4 d hd))
      · intro y hy
        rcases List.mem_cons.1 hy with rfl | hy
        · exact h6
        · exact h3 y hy
      · intro y hy
        rcases List.mem_cons.1 hy with rfl | hy
        · exact .single h5
        · exact .trans (.single h5) (h4 y hy)
  obtain ⟨l, x, h1, h2, h3, _⟩ := this g.keys.length
  have := nodup_length_le h1 (fun y hy => hU y (h3 y hy))
  simp at this; omega

theorem kahn_acyclic_iff {g : Graph ν} (wf : WF g) {ord : List ν → List ν}
    (hord : ∀ l, (ord l).Perm l) :
    (g.kahn ord).done.length = g.keys.length ↔ g.Acyclic := by
  obtain ⟨h, hr⟩ := kahn_spec wf hord
  constructor
  · intro hl n hn
    have hnk : n ∈ g.keys := by
      cases hn with
      | single h => exact h.1
      | tail h1 h2 => exact wf.closed _ h2.1 _ h2.2
    have hmem : n ∈ (g.kahn ord).done := by
      apply Classical.byContradiction
      intro hc
      have := nodup_length_le (l := n :: (g.kahn ord).done) (m := g.keys)
        (List.nodup_cons.2 ⟨hc, h.dn⟩) (by
          intro x hx
          rcases List.mem_cons.1 hx with rfl | hx
          · exact hnk
          · exact h.dk x hx)
      simp at this; omega
    exact acc_not_cycle (h.acc n hmem) hn
  · intro hac
    have hall : ∀ n ∈ g.keys, n ∈ (g.kahn ord).done := by
      intro n hn
      apply Classical.byContradiction
      intro hc
      exact stuck_cycle (fun n => n ∈ g.keys ∧ n ∉ (g.kahn ord).done) (fun n h => h.1)
        (fun n hh => by
          obtain ⟨d, h1, h2⟩ := kahn_stuck h hr hh.1 hh.2
          exact ⟨d, h1, h1.1, h2⟩) ⟨hn, hc⟩ hac
    have h1 := nodup_length_le h.dn h.dk
    have h2 := nodup_length_le wf.nodup hall
    omega

/-! ### the search -/

/-- Consecutive nodes of a path are joined by edges. -/
def Path (g : Graph ν) (p : List ν) : Prop :=
  ∀ i (h : i + 1 < p.length), g.Edge p[i] p[i+1]

/-- The nodes in `l` may follow the path `p`. -/
def Follows (g : Graph ν) (p l : List ν) : Prop :=
  ∀ x ∈ l, x ∈ g.keys ∧ ∀ (h : p ≠ []), g.Edge (p.getLast h) x

theorem path_snoc {g : Graph ν} {p l : List ν} {x : ν} (hp : Path g p) (hf : Follows g p l)
    (hx : x ∈ l) : Path g (p ++ [x]) := by
  intro i hi
  simp at hi
  by_cases h : i + 1 < p.length
  · rw [List.getElem_append_left (by omega), List.getElem_append_left h]
    exact hp i h
  · have hi' : i + 1 = p.length := by omega
    have hne : p ≠ [] := by rintro rfl; simp at hi'
    have := (hf x hx).2 hne
    rw [List.getLast_eq_getElem] at this
    rw [List.getElem_append_left (by omega), List.getElem_append_right (by omega)]
    simp [hi']
    have e : p.length - 1 = i := by omega
    simpa [e] using this

theorem follows_succ {g : Graph ν} (wf : WF g) {p : List ν} {x : ν} (hx : x ∈ g.keys) :
    Follows g (p ++ [x]) (g.succ x) := by
  intro y hy
  exact ⟨wf.closed x hx y hy, fun _ => by simpa using ⟨hx, hy⟩⟩

/-- A found cycle is a cycle. -/
theorem found_cycle {g : Graph ν} {p l : List ν} {x : ν} (hn : p.Nodup) (hp : Path g p)
    (hf : Follows g p l) (hx : x ∈ l) (hxp : x ∈ p) : g.IsCycle (p.drop (p.idxOf x)) := by
  have hi := List.idxOf_lt_length_iff.2 hxp
  have hne : p ≠ [] := List.ne_nil_of_mem hxp
  refine ⟨by simp; omega, hn.sublist (List.drop_sublist _ _), ?_⟩
  intro i hi'
  simp only [List.length_drop] at hi'
  by_cases h : i + 1 < p.length - p.idxOf x
  · have e : (i + 1) % (p.drop (p.idxOf x)).length = i + 1 := Nat.mod_eq_of_lt (by simpa using h)
    simp only [e, List.getElem_drop]
    have := hp (p.idxOf x + i) (by omega)
    simpa [Nat.add_assoc] using this
  · have e : (i + 1) % (p.drop (p.idxOf x)).length = 0 := by
      have : i + 1 = (p.drop (p.idxOf x)).length := by simp; omega
      rw [this]; exact Nat.mod_self _
    simp only [e, List.getElem_drop, Nat.add_zero]
    have e2 : p.idxOf x + i = p.length - 1 := by omega
    have := (hf x hx).2 hne
    rw [List.getLast_eq_getElem] at this
    simpa [e2] using this

theorem explore_nil (g : Graph ν) (d : Nat) (p : List ν) : explore g d p [] = none := by
  cases d <;> simp [explore]

theorem explore_cons (g : Graph ν) (d : Nat) (p : List ν) (node : ν) (more : List ν) :
    explore g (d + 1) p (node :: more) =
      if node ∈ p then some (p.drop (p.idxOf node))
      else match explore g d (p ++ [node]) (g.succ node) with
        | some c => some c
        | none => explore g (d + 1) p more := by
  simp only [explore, List.findSome?_cons]
  by_cases h : node ∈ p
  · simp [h]
  · simp only [h, if_false]
    cases explore g d (p ++ [node]) (g.succ node) <;> rfl

theorem explore_induct (g : Graph ν) {motive : Nat → List ν → List ν → Prop}
    (case1 : ∀ d p, motive d p [])
    (case2 : ∀ p x l, motive 0 p (x :: l))
    (case3 : ∀ d p node more, node ∈ p → motive (d + 1) p (node :: more))
    (case4 : ∀ d p node more, node ∉ p → ∀ c, explore g d (p ++ [node]) (g.succ node) = some c →
      motive d (p ++ [node]) (g.succ node) → motive (d + 1) p (node :: more))
    (case5 : ∀ d p node more, node ∉ p → explore g d (p ++ [node]) (g.succ node) = none →
      motive d (p ++ [node]) (g.succ node) → motive (d + 1) p more → motive (d + 1) p (node :: more))
    (d : Nat) (p l : List ν) : motive d p l := by
  induction d generalizing p l with
  | zero => cases l with
    | nil => exact case1 _ _
    | cons x l => exact case2 p x l
  | succ d ih =>
    induction l with
    | nil => exact case1 _ _
    | cons x l ihl =>
      by_cases h : x ∈ p
      · exact case3 d p x l h
      · cases hc : explore g d (p ++ [x]) (g.succ x) with
        | none => exact case5 d p x l h hc (ih _ _) ihl
        | some c => exact case4 d p x l h c hc (ih _ _)

/-- The search answers: a cycle, or everything below the given nodes is free of cycles. -/
theorem explore_spec {g : Graph ν} (wf : WF g) (depth : Nat) (p l : List ν) (hn : p.Nodup)
    (hpk : ∀ x ∈ p, x ∈ g.keys) (hp : Path g p) (hf : Follows g p l)
    (hd : g.keys.length + 1 ≤ depth + p.length) :
    (∀ c, explore g depth p l = some c → g.IsCycle c) ∧
    (explore g depth p l = none → ∀ x ∈ l, Acc (fun b a => g.Edge a b) x) := by
  induction depth, p, l using explore_induct g with
  | case1 => simp [explore_nil]
  | case2 p x l =>
    have := nodup_length_le hn hpk
    omega
  | case3 depth p node more hmem =>
    rw [explore_cons, if_pos hmem]
    refine ⟨?_, by simp⟩
    rintro c ⟨⟩
    exact found_cycle hn hp hf (by simp) hmem
  | case4 depth p node more hmem c hc ih =>
    have hk := (hf node (by simp)).1
    rw [explore_cons, if_neg hmem]
    simp only [hc]
    refine ⟨?_, by simp⟩
    rintro c' ⟨⟩
    refine (ih ?_ ?_ (path_snoc hp hf (by simp)) (follows_succ wf hk) (by simp; omega)).1 c hc
    · rw [List.nodup_append]; grind
    · intro x hx; simp at hx; rcases hx with hx | rfl
      · exact hpk x hx
      · exact hk
  | case5 depth p node more hmem hc ih1 ih2 =>
    have hk := (hf node (by simp)).1
    rw [explore_cons, if_neg hmem]
    simp only [hc]
    have i1 := ih1 (by rw [List.nodup_append]; grind) (by
      intro x hx; simp at hx; rcases hx with hx | rfl
      · exact hpk x hx
      · exact hk) (path_snoc hp hf (by simp)) (follows_succ wf hk) (by simp; omega)
    have i2 := ih2 hn hpk hp (fun x hx => hf x (by simp [hx])) (by omega)
    refine ⟨i2.1, ?_⟩
    intro hnone x hx
    rcases List.mem_cons.1 hx with rfl | hx
    · exact ⟨_, fun y hy => i1.2 hc y hy.2⟩
    · exact i2.2 hnone x hx

theorem dfsRun_succ (g : Graph ν) (done : List ν) (n : Nat) (s : Dfs ν) :
    dfsRun g done (n + 1) s = match dfsStep g done s with
      | .inr e => some e
      | .inl s' => dfsRun g done n s' := rfl

/-- The loop of cycle() does what the recursive search says. -/
theorem dfs_refines {g : Graph ν} (wf : WF g) (done : List ν)
    (hcl : ∀ d ∈ g.keys, d ∉ done → ∀ n ∈ g.succ d, n ∉ done)
    (depth : Nat) (p l : List ν) (hn : p.Nodup)
    (hpk : ∀ x ∈ p, x ∈ g.keys) (hf : ∀ x ∈ l, x ∈ g.keys ∧ x ∉ done)
    (hd : g.keys.length + 1 ≤ depth + p.length) :
    ∃ N, ∀ rest fuel, dfsRun g done (N + fuel) ⟨l :: rest, p⟩ =
      match explore g depth p l with
      | some c => some (.found c)
      | none => dfsRun g done fuel ⟨[] :: rest, p⟩ := by
  induction depth, p, l using explore_induct g with
  | case1 => exact ⟨0, by simp [explore_nil]⟩
  | case2 p x l =>
    have := nodup_length_le hn hpk
    omega
  | case3 depth p node more hmem =>
    refine ⟨1, fun rest fuel => ?_⟩
    rw [explore_cons, if_pos hmem, Nat.add_comm 1 fuel]
    simp [dfsRun, dfsStep, (hf node (by simp)).2, hmem]
  | case4 depth p node more hmem c hc ih =>
    have hk := hf node (by simp)
    obtain ⟨N, hN⟩ := ih (by rw [List.nodup_append]; grind) (by
      intro x hx; simp at hx; rcases hx with hx | rfl
      · exact hpk x hx
      · exact hk.1) (fun y hy => ⟨wf.closed node hk.1 y hy, hcl node hk.1 hk.2 y hy⟩) (by simp; omega)
    refine ⟨N + 1, fun rest fuel => ?_⟩
    rw [explore_cons, if_neg hmem]
    simp only [hc]
    rw [Nat.add_assoc, Nat.add_comm 1 fuel, ← Nat.add_assoc]
    simp only [dfsRun, dfsStep, hk.2, hmem, if_false]
    rw [hN, hc]
  | case5 depth p node more hmem hc ih1 ih2 =>
    have hk := hf node (by simp)
    obtain ⟨N, hN⟩ := ih1 (by rw [List.nodup_append]; grind) (by
      intro x hx; simp at hx; rcases hx with hx | rfl
      · exact hpk x hx
      · exact hk.1) (fun y hy => ⟨wf.closed node hk.1 y hy, hcl node hk.1 hk.2 y hy⟩) (by simp; omega)
    obtain ⟨M, hM⟩ := ih2 hn hpk (fun x hx => hf x (by simp [hx])) (by omega)
    refine ⟨N + (M + 1) + 1, fun rest fuel => ?_⟩
    rw [explore_cons, if_neg hmem]
    simp only [hc]
    rw [show N + (M + 1) + 1 + fuel = (N + ((M + fuel) + 1)) + 1 by omega]
    rw [dfsRun_succ]
    simp only [dfsStep, hk.2, hmem, if_false]
    rw [hN, hc]
    simp only [dfsRun_succ, dfsStep]
    rw [if_neg (by simp)]
    simp only [List.dropLast_concat]
    exact hM rest fuel

end Big.Graph
