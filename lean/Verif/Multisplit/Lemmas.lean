import Verif.Multisplit.Model
import Verif.Multisplit.Spec
/-! # The regular expressions of multisplit find the longest separators -/
namespace Big.MS
open Big.Rx Spec

variable {α R : Type} [DecidableEq α]

theorem lit_m : ∀ (w s : List α) (c : Caps α) (k : List α → Caps α → Option R),
    (lit w).m s c k = if w <+: s then k (s.drop w.length) c else none := by
  intro w
  induction w with
  | nil => intro s c k; simp [lit, Rx.m]
  | cons a w ih =>
    intro s c k
    cases s with
    | nil => simp [lit, Rx.m]
    | cons x s =>
      simp only [lit, Rx.m, ih, List.cons_prefix_cons]
      by_cases h : x = a
      · subst h; simp
      · have h' : a ≠ x := fun e => h e.symm
        simp [h, h']

/-- The alternation tries the separators in order. -/
theorem alts_m : ∀ (ws : List (List α)) (_ : ws ≠ []) (s : List α) (c : Caps α)
    (k : List α → Caps α → Option R),
    (alts ws).m s c k =
      ws.findSome? (fun w => if w <+: s then k (s.drop w.length) c else none) := by
  intro ws
  induction ws with
  | nil => intro h; exact absurd rfl h
  | cons w ws ih =>
    intro _ s c k
    cases ws with
    | nil =>
      simp only [alts, lit_m, List.findSome?_cons, List.findSome?_nil]
      split
      · cases k (List.drop w.length s) c <;> rfl
      · rfl
    | cons v ws =>
      rw [alts, Rx.m, lit_m, ih (by simp)]
      conv => rhs; rw [List.findSome?_cons]
      cases (if w <+: s then k (s.drop w.length) c else none) <;> simp

theorem mem_insertSep {w v : List α} : ∀ {l : List (List α)}, v ∈ insertSep w l ↔ v = w ∨ v ∈ l
  | [] => by simp [insertSep]
  | x :: l => by
    simp only [insertSep]
    split
    · simp
    · rw [List.mem_cons, mem_insertSep, List.mem_cons]; grind

theorem insertSep_sorted {w : List α} : ∀ {l : List (List α)},
    l.Pairwise (fun a b => b.length ≤ a.length) →
    (insertSep w l).Pairwise (fun a b => b.length ≤ a.length)
  | [], _ => by simp [insertSep]
  | x :: l, h => by
    simp only [insertSep]
    rw [List.pairwise_cons] at h
    split
    · rename_i hx
      rw [List.pairwise_cons, List.pairwise_cons]
      refine ⟨?_, h⟩
      intro y hy
      rcases List.mem_cons.1 hy with rfl | hy
      · exact hx
      · exact Nat.le_trans (h.1 y hy) hx
    · rename_i hx
      rw [List.pairwise_cons]
      refine ⟨?_, insertSep_sorted h.2⟩
      intro y hy
      rcases mem_insertSep.1 hy with rfl | hy
      · omega
      · exact h.1 y hy

theorem sortSeps_sorted : ∀ (seps : List (List α)),
    (sortSeps seps).Pairwise (fun a b => b.length ≤ a.length)
  | [] => .nil
  | w :: l => insertSep_sorted (sortSeps_sorted l)

theorem mem_sortSeps {w : List α} : ∀ {seps : List (List α)}, w ∈ sortSeps seps ↔ w ∈ seps
  | [] => by simp [sortSeps]
  | v :: l => by rw [sortSeps, mem_insertSep, mem_sortSeps, List.mem_cons]

theorem sortSeps_ne {seps : List (List α)} (h : seps ≠ []) : sortSeps seps ≠ [] := by
  intro e
  cases seps with
  | nil => exact h rfl
  | cons w _ =>
    have : w ∈ sortSeps (w :: ‹_›) := mem_sortSeps.2 (by simp)
    rw [e] at this; simp at this

/-- In a list sorted by decreasing length, the first prefix of `s` is the longest. -/
theorem findSome_longest {k : List α → Option R} (hk : ∀ x, (k x).isSome) (s : List α) :
    ∀ ws : List (List α), ws.Pairwise (fun a b => b.length ≤ a.length) →
      (∃ w, Longest ws w s ∧
        ws.findSome? (fun w => if w <+: s then k (s.drop w.length) else none)
          = k (s.drop w.length)) ∨
      (NoSep ws s ∧
        ws.findSome? (fun w => if w <+: s then k (s.drop w.length) else none) = none) := by
  intro ws
  induction ws with
  | nil => intro _; right; exact ⟨by simp [NoSep], rfl⟩
  | cons w ws ih =>
    intro hs
    rw [List.pairwise_cons] at hs
    by_cases hw : w <+: s
    · left
      refine ⟨w, ⟨by simp, hw, ?_⟩, ?_⟩
      · intro w' hw' _
        rcases List.mem_cons.1 hw' with rfl | h
        · simp
        · exact hs.1 _ h
      · simp only [List.findSome?_cons, hw, if_true]
        cases h : k (s.drop w.length) with
        | none => have := hk (s.drop w.length); rw [h] at this; simp at this
        | some y => rfl
    · rcases ih hs.2 with ⟨v, ⟨h1, h2, h3⟩, h4⟩ | ⟨h1, h2⟩
      · left
        refine ⟨v, ⟨by simp [h1], h2, ?_⟩, ?_⟩
        · intro w' hw' hp
          rcases List.mem_cons.1 hw' with rfl | h
          · exact absurd hp hw
          · exact h3 _ h hp
        · simp [List.findSome?_cons, hw, h4]
      · right
        refine ⟨?_, ?_⟩
        · intro w' hw' hp
          rcases List.mem_cons.1 hw' with rfl | h
          · exact hw hp
          · exact h1 _ h hp
        · simp [List.findSome?_cons, hw, h2]

theorem longest_sort {seps : List (List α)} {w s : List α} :
    Longest (sortSeps seps) w s ↔ Longest seps w s := by
  simp [Longest, mem_sortSeps]

theorem noSep_sort {seps : List (List α)} {s : List α} :
    NoSep (sortSeps seps) s ↔ NoSep seps s := by
  simp [NoSep, mem_sortSeps]

/-- The alternation with a continuation that always succeeds. -/
theorem alts_sort_m {seps : List (List α)} (hne : seps ≠ []) (s : List α) (c : Caps α)
    {k : List α → Caps α → Option R} (hk : ∀ x c, (k x c).isSome) :
    (∃ w, Longest seps w s ∧ (alts (sortSeps seps)).m s c k = k (s.drop w.length) c) ∨
    (NoSep seps s ∧ (alts (sortSeps seps)).m s c k = none) := by
  rw [alts_m _ (sortSeps_ne hne)]
  have := findSome_longest (k := fun x => k x c) (fun x => hk x c) s _ (sortSeps_sorted seps)
  simpa only [longest_sort, noSep_sort] using this

theorem drop_of_prefix {w s : List α} (h : w <+: s) : s = w ++ s.drop w.length := by
  obtain ⟨t, rfl⟩ := h; simp

theorem longest_pos {seps : List (List α)} {w s : List α} (he : [] ∉ seps) (h : Longest seps w s) :
    w ≠ [] := fun e => he (e ▸ h.1)

theorem mstar_isSome {f : List α → Caps α → (List α → Caps α → Option R) → Option R}
    {k : List α → Caps α → Option R} (hk : ∀ x c, (k x c).isSome) :
    ∀ n s c, (mstar f n s c k).isSome := by
  intro n
  cases n with
  | zero => intro s c; exact hk s c
  | succ n =>
    intro s c
    simp only [mstar]
    rw [Option.isSome_or, hk, Bool.or_true]

/-- Repetition takes a maximal run. -/
theorem star_run {seps : List (List α)} (hne : seps ≠ []) (he : [] ∉ seps)
    {k : List α → Caps α → Option R} (hk : ∀ x c, (k x c).isSome) :
    ∀ (n : Nat) (s : List α) (c : Caps α), s.length ≤ n →
      ∃ m rest, s = m ++ rest ∧ Run seps m rest ∧
        mstar (alts (sortSeps seps)).m n s c k = k rest c := by
  intro n
  induction n with
  | zero =>
    intro s c h
    have : s = [] := by simpa using h
    subst this
    refine ⟨[], [], rfl, .done ?_, rfl⟩
    intro w hw hp
    exact he (List.prefix_nil.1 hp ▸ hw)
  | succ n ih =>
    intro s c h
    simp only [mstar]
    -- the continuation only succeeds on shorter texts, which is all it is given
    rw [alts_m _ (sortSeps_ne hne)]
    have hcongr : (sortSeps seps).findSome? (fun w => if w <+: s then
          (fun s' c' => if s'.length < s.length then
            mstar (alts (sortSeps seps)).m n s' c' k else none) (s.drop w.length) c else none)
        = (sortSeps seps).findSome? (fun w => if w <+: s then
          (fun s' => mstar (alts (sortSeps seps)).m n s' c k) (s.drop w.length) else none) := by
      have : ∀ l : List (List α), (∀ w ∈ l, w ≠ []) → l.findSome? (fun w => if w <+: s then
          (fun s' c' => if s'.length < s.length then
            mstar (alts (sortSeps seps)).m n s' c' k else none) (s.drop w.length) c else none)
        = l.findSome? (fun w => if w <+: s then
          (fun s' => mstar (alts (sortSeps seps)).m n s' c k) (s.drop w.length) else none) := by
        intro l hl
        induction l with
        | nil => rfl
        | cons w l ihl =>
          rw [List.findSome?_cons, List.findSome?_cons, ihl (fun v hv => hl v (by simp [hv]))]
          by_cases hp : w <+: s
          · have hwl : 0 < w.length := List.length_pos_iff.2 (hl w (by simp))
            have hle := hp.length_le
            have : (s.drop w.length).length < s.length := by simp; omega
            simp only [hp, if_true, this]
          · simp only [hp, if_false]
      apply this
      intro w hw e
      exact he (e ▸ mem_sortSeps.1 hw)
    rw [hcongr]
    rcases findSome_longest (k := fun s' => mstar (alts (sortSeps seps)).m n s' c k)
      (fun x => mstar_isSome hk n x c) s _ (sortSeps_sorted seps) with ⟨w, hw, hr⟩ | ⟨hno, hr⟩
    · rw [hr]
      rw [longest_sort] at hw
      have hs := drop_of_prefix hw.2.1
      have hwl : 0 < w.length := List.length_pos_iff.2 (longest_pos he hw)
      obtain ⟨m, rest, h1, h2, h3⟩ := ih (s.drop w.length) c (by simp; omega)
      refine ⟨w ++ m, rest, ?_, .more ?_ h2, ?_⟩
      · rw [List.append_assoc, ← h1]; exact hs
      · rw [← h1, ← hs]; exact hw
      · rw [h3]
        have := hk rest c
        cases hkk : k rest c with
        | none => rw [hkk] at this; simp at this
        | some y => rfl
    · rw [noSep_sort] at hno
      rw [hr]
      exact ⟨[], s, rfl, .done hno, rfl⟩

/-- What the pattern matches at the start of `s`. -/
theorem match0_sepRe {seps : List (List α)} (hne : seps ≠ []) (he : [] ∉ seps) (separate : Bool)
    (s : List α) :
    (∃ m rest, s = m ++ rest ∧ SepAt seps separate m rest ∧
      match0 (sepRe seps separate) s = some (m, rest)) ∨
    (NoSep seps s ∧ match0 (sepRe seps separate) s = none) := by
  unfold match0 Rx.matchStart sepRe
  cases separate with
  | true =>
    rcases alts_sort_m hne s [] (k := fun s' c => some (c, s')) (by simp) with ⟨w, hw, hr⟩ | ⟨hno, hr⟩
    · left
      have hs := drop_of_prefix hw.2.1
      refine ⟨w, s.drop w.length, hs, ?_, ?_⟩
      · simp only [SepAt, if_true]; rw [← hs]; exact hw
      · simp only [if_true, hr, Option.map_some, List.length_drop]
        have := hw.2.1.length_le
        rw [show s.length - (s.length - w.length) = w.length by omega]
        rw [List.prefix_iff_eq_take.1 hw.2.1]
        simp
    · right; exact ⟨hno, by simp [hr]⟩
  | false =>
    have hsome : ∀ (x : List α) (c : Caps α), ((fun s' c' =>
        (Rx.star (alts (sortSeps seps))).m s' c' (fun s' c => some (c, s'))) x c).isSome :=
      fun x c => mstar_isSome (by simp) _ _ _
    simp only [Rx.plus, Rx.m, Bool.false_eq_true, if_false]
    rcases alts_sort_m hne s [] hsome with ⟨w, hw, hr⟩ | ⟨hno, hr⟩
    · left
      have hs := drop_of_prefix hw.2.1
      obtain ⟨m, rest, h1, h2, h3⟩ := star_run hne he
        (k := fun s' c => some (c, s')) (by simp) (s.drop w.length).length
        (s.drop w.length) [] (Nat.le_refl _)
      have hsm : s = (w ++ m) ++ rest := by rw [List.append_assoc, ← h1]; exact hs
      refine ⟨w ++ m, rest, hsm, ?_, ?_⟩
      · simp only [SepAt, Bool.false_eq_true, if_false]
        refine ⟨fun e => longest_pos he hw (List.append_eq_nil_iff.1 e).1, .more ?_ h2⟩
        rw [← h1, ← hs]; exact hw
      · simp only [Rx.m] at hr
        rw [hr, h3]
        simp only [Option.map_some, Option.some.injEq, Prod.mk.injEq, and_true]
        rw [show s.length - rest.length = (w ++ m).length by
          have := congrArg List.length hsm; simp only [List.length_append] at this ⊢; omega]
        have := congrArg (List.take (w ++ m).length) hsm
        rwa [List.take_left] at this
    · right
      simp only [Rx.m] at hr
      exact ⟨hno, by rw [hr]; rfl⟩

end Big.MS
