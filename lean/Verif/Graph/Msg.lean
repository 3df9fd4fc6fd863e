import Verif.Graph.MsgModel
import Verif.Graph.Props
/-! # C18: what the RuntimeError for an incoherent view says -/
namespace Big.Graph
variable {ν : Type} [DecidableEq ν]

/-- The dependency of `z` on `y` is incoherent in this view: `z` was handed out or marked done, `y` is not done. -/
def Obs.Conflict (o : Obs ν) (h : H) (y z : ν) : Prop :=
  o.edge y z ∧ ((o.seen h).yielded z ∨ (o.seen h).done z) ∧ ¬ (o.seen h).done y

theorem mem_parts {v : View ν} {y z : ν} :
    (∃ zs, (y, zs) ∈ v.conflictParts ∧ z ∈ zs) ↔ (y, z) ∈ v.conf := by
  unfold View.conflictParts
  constructor
  · rintro ⟨zs, h1, h2⟩
    simp only [List.mem_map] at h1
    obtain ⟨a, _, e⟩ := h1
    simp only [Prod.mk.injEq] at e
    obtain ⟨rfl, rfl⟩ := e
    simp at h2
    exact h2
  · intro h
    refine ⟨_, List.mem_map.2 ⟨y, List.mem_eraseDups.2 (List.mem_map.2 ⟨_, h, rfl⟩), rfl⟩, ?_⟩
    simp [h]

theorem parts_nodup (v : View ν) : (v.conflictParts.map Prod.fst).Nodup := by
  unfold View.conflictParts
  rw [List.map_map]
  have : (Prod.fst ∘ fun node => (node, (v.conf.filter (·.1 = node)).map Prod.snd)) = (id : ν → ν) := rfl
  rw [this, List.map_id]
  exact eraseDups_nodup _ _ (Nat.le_refl _)

theorem parts_ne_nil {v : View ν} {y : ν} {zs : List ν} (h : (y, zs) ∈ v.conflictParts) : zs ≠ [] := by
  unfold View.conflictParts at h
  simp only [List.mem_map] at h
  obtain ⟨a, ha, e⟩ := h
  simp only [Prod.mk.injEq] at e
  obtain ⟨rfl, rfl⟩ := e
  rw [List.mem_eraseDups, List.mem_map] at ha
  obtain ⟨p, hp, rfl⟩ := ha
  intro h
  have : p ∈ v.conf.filter (·.1 = p.1) := by simp [hp]
  rw [List.map_eq_nil_iff] at h
  rw [h] at this; simp at this

/-- C18: whenever bool(view), view.ready() or view.done(...) raises RuntimeError, in any history, its message has one part
for each predecessor it names, each part names a predecessor and at least one successor, and everything it says is so:
the successor depends on the predecessor, is 'yielded' or 'done', and the predecessor is not 'done'. -/
theorem C18_message_true {s : Sys ν} {o : Obs ν} (r : Reach s o) {ord : List ν → List ν} {h : H} {v : View ν}
    (hg : s.get h = some v) {op : Op ν} (ho : op = .bool h ∨ op = .ready h ∨ ∃ nodes, op = .done h nodes)
    (he : (step ord s op).2 = .err .runtimeError) :
    ∃ parts, v.runtimeErrorParts = some parts ∧ parts ≠ [] ∧ (parts.map Prod.fst).Nodup ∧
      ∀ y zs, (y, zs) ∈ parts → zs ≠ [] ∧ ∀ z ∈ zs, o.Conflict h y z := by
  have i := reach_inv r
  have hcl : v.closed = false := by
    cases hc : v.closed with
    | false => rfl
    | true =>
      rcases ho with rfl | rfl | ⟨nodes, rfl⟩
      · simp [step, hg, View.bool, hc] at he
      · simp [step, hg, View.getReady, hc] at he
      · simp [step, hg, View.setDone, hc] at he
  have hne : v.conf ≠ [] := by
    intro hc
    rcases ho with rfl | rfl | ⟨nodes, rfl⟩
    · simp [step, hg, View.bool, hcl, hc] at he
    · simp only [step, hg, View.getReady, hcl] at he
      cases hz : (s.g.checkForCycles ord).2 <;> simp [hc, hz] at he
    · simp only [step, hg, View.setDone, hcl] at he
      cases hz : (View.doneLoop s.g v nodes).2 <;> simp [hc, hz] at he
  refine ⟨v.conflictParts, by simp [View.runtimeErrorParts, hcl, hne], ?_, parts_nodup v, fun y zs hm => ⟨parts_ne_nil hm, fun z hz => ?_⟩⟩
  · intro hnil
    obtain ⟨⟨a, b⟩, hab⟩ := List.exists_mem_of_ne_nil _ hne
    obtain ⟨zs, h1, _⟩ := mem_parts.2 hab
    rw [hnil] at h1; simp at h1
  · have hab := mem_parts.1 ⟨zs, hm, hz⟩
    obtain ⟨h1, h2⟩ := i.vs h v hg hcl
    obtain ⟨e1, e2, e3, e4⟩ := h1.sk y z hab
    exact ⟨(i.ge y z).1 ⟨e1, e2⟩, e3.imp (h2 z).1.1 (h2 z).2.1, fun h => e4 ((h2 y).2.2 h)⟩

/-- C87, for every clean view: the message also leaves nothing out. It names the successor and the predecessor of every
incoherent dependency. -/
theorem C87_message_complete_partial {s : Sys ν} {o : Obs ν} (r : Reach s o) {h : H} {v : View ν}
    (hg : s.get h = some v) (hcl : v.closed = false) (hclean : (o.seen h).clean) {y z : ν} (hc : o.Conflict h y z) :
    ∃ parts, v.runtimeErrorParts = some parts ∧ ∃ zs, (y, zs) ∈ parts ∧ z ∈ zs := by
  have i := reach_inv r
  obtain ⟨h1, h2⟩ := i.vs h v hg hcl
  obtain ⟨f1, f2⟩ := (i.ge y z).2 hc.1
  have hab : (y, z) ∈ v.conf :=
    ((h1.cx hclean).2 y z).2 ⟨f1, f2, hc.2.1.imp (h2 z).1.2 (h2 z).2.2, fun h => hc.2.2 ((h2 y).2.1 h)⟩
  refine ⟨v.conflictParts, ?_, mem_parts.2 hab⟩
  simp [View.runtimeErrorParts, hcl, List.ne_nil_of_mem hab]

/-- Nodes 1 and 4 are handed out; then both turn out to depend on 2, and 4 on 3. -/
example : let s := run id (Sys.init : Sys Nat) [.add 1 [], .add 4 [], .ready .dflt, .add 1 [2], .add 4 [2, 3]]
    (s.get .dflt).bind View.runtimeErrorParts = some [(3, [4]), (2, [4, 1])] ∧
    (step id s (.ready .dflt)).2 = .err .runtimeError := by decide +kernel

end Big.Graph
