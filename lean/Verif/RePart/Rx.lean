import Verif.RePart.Props56
import Verif.Regex.First
/-! # The patterns for which C56 is exact: those with no anchors and no lookahead -/
namespace Big.RePart

open Big.Rx

variable {α : Type}

/-- A pattern with no anchors and no lookahead. -/
def NoLook : Rx α → Prop
  | .cls _ => True
  | .eps => True
  | .look _ => False
  | .seq a b => NoLook a ∧ NoLook b
  | .alt a b => NoLook a ∧ NoLook b
  | .star a => NoLook a
  | .grp _ a => NoLook a

/-- A pattern applied to a string. -/
def rxMatcher (r : Rx α) (s : List α) : Matcher where
  len := s.length
  at_ p q := if p ≤ q ∧ q ≤ s.length then r.m ((s.take q).drop p) [] (fun s' _ => some (q - s'.length)) else none
  adv p := r.m (s.drop p) [] (fun s' _ => if s'.length < (s.drop p).length then some (s.length - s'.length) else none)

/-! ### What a match depends on -/

/-- Results: `n` more than a bound, or the same. -/
def Rel (b : Nat) (x y : Option Nat) : Prop := (∃ n, x = some n ∧ b < n) ∨ (∃ n, y = some n ∧ b < n) ∨ x = y

theorem Rel.or {b : Nat} {x y x' y' : Option Nat} (h : Rel b x y) (h' : Rel b x' y') : Rel b (x.or x') (y.or y') := by
  rcases h with ⟨n, rfl, hn⟩ | ⟨n, rfl, hn⟩ | rfl
  · exact .inl ⟨n, rfl, hn⟩
  · exact .inr (.inl ⟨n, rfl, hn⟩)
  · cases x with
    | none => exact h'
    | some n => exact .inr (.inr rfl)

/-- No result, or more than the bound. -/
def Far (b : Nat) (x : Option Nat) : Prop := ∀ n, x = some n → b < n

theorem Far.rel {b : Nat} {x y : Option Nat} (h : Far b x) (h' : Far b y) : Rel b x y := by
  cases x with
  | some n => exact .inl ⟨n, rfl, h n rfl⟩
  | none =>
    cases y with
    | some n => exact .inr (.inl ⟨n, rfl, h' n rfl⟩)
    | none => exact .inr (.inr rfl)

theorem m_far {b : Nat} (r : Rx α) {m : Nat} {s : List α} (hs : s.length < m) {c : Caps α} {k : List α → Caps α → Option Nat}
    (hk : ∀ s c, s.length < m → Far b (k s c)) : Far b (r.m s c k) := by
  intro n hn
  obtain ⟨w, rest, c', rfl, -, h⟩ := r.m_sound s c k n hn
  exact hk rest _ (by simp at hs; omega) n h

theorem mstar_succ (a : Rx α) : ∀ (n : Nat) (s : List α) (c : Caps α) (k : List α → Caps α → Option Nat), s.length ≤ n →
    mstar a.m n s c k = mstar a.m (n + 1) s c k := by
  intro n
  induction n with
  | zero =>
    intro s c k h
    have : s = [] := List.length_eq_zero_iff.1 (by omega)
    subst this
    rw [mstar.eq_2]
    rw [a.m_none]
    · rfl
    · intro s' c'; simp
  | succ n ih =>
    intro s c k h
    rw [mstar.eq_2, mstar.eq_2]
    congr 2
    funext s' c'
    split
    · exact ih _ _ _ (by omega)
    · rfl

theorem mstar_add (a : Rx α) (s : List α) (c : Caps α) (k : List α → Caps α → Option Nat) (n : Nat) (h : s.length ≤ n) :
    mstar a.m s.length s c k = mstar a.m n s c k := by
  induction n with
  | zero => rw [show s.length = 0 by omega]
  | succ n ih =>
    by_cases hn : s.length ≤ n
    · rw [ih hn, mstar_succ a n s c k hn]
    · rw [show s.length = n + 1 by omega]

/-- The same text, followed by something else: the same result, unless it goes beyond the text. -/
theorem m_rel {b : Nat} (r : Rx α) (hr : NoLook r) (r1 r2 : List α) : ∀ (v : List α) (c1 c2 : Caps α) (k1 k2 : List α → Caps α → Option Nat),
    (∀ v', v' <:+ v → ∀ c1 c2, Rel b (k1 (v' ++ r1) c1) (k2 (v' ++ r2) c2)) →
    (∀ s c, s.length < r1.length → Far b (k1 s c)) → (∀ s c, s.length < r2.length → Far b (k2 s c)) →
    Rel b (r.m (v ++ r1) c1 k1) (r.m (v ++ r2) c2 k2) := by
  induction r with
  | cls p =>
    intro v c1 c2 k1 k2 hk hf1 hf2
    cases v with
    | cons x v =>
      simp only [List.cons_append, Rx.m]
      split
      · exact hk v (List.suffix_cons _ _) _ _
      · exact .inr (.inr rfl)
    | nil =>
      simp only [List.nil_append]
      refine Far.rel ?_ ?_
      · cases r1 with
        | nil => intro n hn; simp [Rx.m] at hn
        | cons x t =>
          simp only [Rx.m]
          split
          · exact hf1 _ _ (by simp)
          · intro n hn; simp at hn
      · cases r2 with
        | nil => intro n hn; simp [Rx.m] at hn
        | cons x t =>
          simp only [Rx.m]
          split
          · exact hf2 _ _ (by simp)
          · intro n hn; simp at hn
  | eps => intro v c1 c2 k1 k2 hk _ _; exact hk v (List.suffix_refl _) _ _
  | look p => exact absurd hr id
  | seq x y ihx ihy =>
    intro v c1 c2 k1 k2 hk hf1 hf2
    refine ihx hr.1 v c1 c2 _ _ ?_ ?_ ?_
    · intro v' hv' d1 d2
      exact ihy hr.2 v' d1 d2 _ _ (fun v'' hv'' => hk v'' (hv''.trans hv')) hf1 hf2
    · intro s c hs; exact m_far y hs hf1
    · intro s c hs; exact m_far y hs hf2
  | alt x y ihx ihy =>
    intro v c1 c2 k1 k2 hk hf1 hf2
    exact (ihx hr.1 v c1 c2 k1 k2 hk hf1 hf2).or (ihy hr.2 v c1 c2 k1 k2 hk hf1 hf2)
  | grp n x ih =>
    intro v c1 c2 k1 k2 hk hf1 hf2
    exact ih hr v c1 c2 _ _ (fun v' hv' d1 d2 => hk v' hv' _ _) (fun s c hs => hf1 s _ hs) (fun s c hs => hf2 s _ hs)
  | star x ih =>
    intro v c1 c2 k1 k2 hk hf1 hf2
    have key : ∀ (n : Nat) (v : List α), v.length ≤ n → ∀ (n1 n2 : Nat) (c1 c2 : Caps α), (v ++ r1).length ≤ n1 → (v ++ r2).length ≤ n2 →
        (∀ v', v' <:+ v → ∀ c1 c2, Rel b (k1 (v' ++ r1) c1) (k2 (v' ++ r2) c2)) →
        Rel b (mstar x.m (n1 + 1) (v ++ r1) c1 k1) (mstar x.m (n2 + 1) (v ++ r2) c2 k2) := by
      have hfar : ∀ (k : List α → Caps α → Option Nat) (m : Nat), (∀ s c, s.length < m → Far b (k s c)) →
          ∀ n s c, s.length < m → Far b (mstar x.m n s c k) := by
        intro k m hk n s c hs r hr
        obtain ⟨w, rest, c', rfl, -, h⟩ := mstar_sound (fun s c k y hy => x.m_sound s c k y hy) n s c k r hr
        exact hk rest _ (by simp at hs; omega) r h
      intro n
      induction n with
      | zero =>
        intro v hv n1 n2 c1 c2 h1 h2 hk
        have : v = [] := List.length_eq_zero_iff.1 (by omega)
        subst this
        rw [mstar.eq_2, mstar.eq_2]
        refine Rel.or (ih hr [] c1 c2 _ _ ?_ ?_ ?_) (hk _ (List.suffix_refl _) _ _)
        · intro v' hv' d1 d2
          have : v' = [] := by simpa using hv'
          subst this
          simp only [Nat.lt_irrefl, if_false]
          exact .inr (.inr rfl)
        · intro s c hs
          split
          · exact hfar k1 _ hf1 _ _ _ hs
          · intro n hn; simp at hn
        · intro s c hs
          split
          · exact hfar k2 _ hf2 _ _ _ hs
          · intro n hn; simp at hn
      | succ n ihn =>
        intro v hv n1 n2 c1 c2 h1 h2 hk
        rw [mstar.eq_2, mstar.eq_2]
        refine Rel.or (ih hr v c1 c2 _ _ ?_ ?_ ?_) (hk _ (List.suffix_refl _) _ _)
        · intro v' hv' d1 d2
          by_cases hl : v'.length < v.length
          · rw [if_pos (by simp; omega), if_pos (by simp; omega)]
            rw [mstar_succ x n1 (v' ++ r1) _ _ (by simp at h1 ⊢; omega), mstar_succ x n2 (v' ++ r2) _ _ (by simp at h2 ⊢; omega)]
            exact ihn v' (by omega) n1 n2 d1 d2 (by simp at h1 ⊢; omega) (by simp at h2 ⊢; omega)
              (fun v'' hv'' => hk v'' (hv''.trans hv'))
          · rw [if_neg (by simp; omega), if_neg (by simp; omega)]
            exact .inr (.inr rfl)
        · intro s c hs
          split
          · exact hfar k1 _ hf1 _ _ _ hs
          · intro n hn; simp at hn
        · intro s c hs
          split
          · exact hfar k2 _ hf2 _ _ _ hs
          · intro n hn; simp at hn
    show Rel b (mstar x.m _ _ _ _) (mstar x.m _ _ _ _)
    rw [mstar_succ _ _ _ _ _ (Nat.le_refl _), mstar_succ _ _ _ _ _ (Nat.le_refl _)]
    exact key v.length v (Nat.le_refl _) _ _ c1 c2 (Nat.le_refl _) (Nat.le_refl _) hk

/-- Renaming nothing changes nothing. -/
theorem inv_id (r : Rx α) : r.Inv id := by
  induction r with
  | cls p => intro x; rfl
  | eps => trivial
  | look p => intro s; simp
  | seq a b iha ihb => exact ⟨iha, ihb⟩
  | alt a b iha ihb => exact ⟨iha, ihb⟩
  | star a ih => exact ih
  | grp n a ih => exact ih

theorem ren_id (c : Caps α) : Caps.ren id c = c := by
  unfold Caps.ren; simp

/-- A result computed from what is left over. -/
theorem m_consumed (r : Rx α) (t : List α) (base : Nat) (hb : t.length ≤ base) :
    r.m t [] (fun s' _ => some (base - s'.length)) =
      (r.m t [] (fun s' _ => some (t.length - s'.length))).map (· + (base - t.length)) := by
  -- only what is left over of the text counts
  have h1 : ∀ f : Nat → Nat, r.m t [] (fun s' _ => some (f s'.length)) = (r.m t [] (fun s' _ => some s'.length)).map f := by
    intro f
    have := Rx.m_ren (f := id) f r (inv_id r) t [] (fun s' _ => some s'.length) (fun s' _ => some (f s'.length)) (by
      intro s c; simp)
    rw [List.map_id, ren_id] at this
    exact this
  rw [h1 (fun n => base - n), h1 (fun n => t.length - n)]
  cases h : r.m t [] (fun s' _ => some s'.length) with
  | none => rfl
  | some n =>
    obtain ⟨w, rest, c', hw, -, hk⟩ := r.m_sound _ _ _ _ h
    have hl := congrArg List.length hw
    simp at hk hl
    simp; omega

/-! ### The matcher -/

theorem rx_lawful (r : Rx α) (s : List α) : (rxMatcher r s).Lawful := by
  constructor
  · intro p q e h
    unfold rxMatcher at h
    dsimp only at h
    split at h
    · obtain ⟨w, rest, c', hw, -, h⟩ := r.m_sound _ _ _ _ h
      have hl := congrArg List.length hw
      simp at h hl
      omega
    · simp at h
  · intro p e h
    unfold rxMatcher at h ⊢
    dsimp only at h ⊢
    obtain ⟨w, rest, c', hw, -, h⟩ := r.m_sound _ _ _ _ h
    have hl := congrArg List.length hw
    split at h
    · simp at h hl; rename_i h2; simp at h2; omega
    · simp at h

theorem lang_nonempty {r : Rx α} {w : List α} {c : Caps α} (h : Lang r w c) (hn : r.nullable = false) : w ≠ [] := by
  induction h with
  | cls _ => simp
  | eps => simp [Rx.nullable] at hn
  | look => simp [Rx.nullable] at hn
  | seq _ _ ih1 ih2 =>
    simp [Rx.nullable] at hn
    intro h
    simp at h
    rcases Bool.eq_false_or_eq_true (Rx.nullable _) with h1 | h1
    · exact ih2 (hn h1) h.2
    · exact ih1 h1 h.1
  | altl _ ih => simp [Rx.nullable] at hn; exact ih hn.1
  | altr _ ih => simp [Rx.nullable] at hn; exact ih hn.2
  | star0 => simp [Rx.nullable] at hn
  | starS _ _ _ _ => simp [Rx.nullable] at hn
  | grp _ ih => simp [Rx.nullable] at hn; exact ih hn

/-- C93: a pattern with no anchors and no lookahead that cannot match the empty string is textual, so that
`C93_textual_exact` and `C93_textual_rexact` apply to it. -/
theorem C93_textual (r : Rx α) (hr : NoLook r) (hn : r.nullable = false) (s : List α) : Textual (rxMatcher r s) s := by
  refine ⟨rfl, ?_, ?_⟩
  · intro p q e h
    unfold rxMatcher at h
    dsimp only at h
    split at h
    · obtain ⟨w, rest, c', hw, hL, h⟩ := r.m_sound _ _ _ _ h
      have hl := congrArg List.length hw
      have := List.length_pos_iff.2 (lang_nonempty hL hn)
      simp at h hl
      omega
    · simp at h
  · intro p q e p' q' h hq hq' hpq hg
    have hle := (rx_lawful r s).at_le _ _ _ h
    have hglen := group_length s (p, e) hle.1 (by dsimp only; omega)
    dsimp only at hglen
    -- both texts start with what was matched
    have h1 : (s.take q).drop p = group s (p, e) ++ (s.take q).drop e := by
      have : group s (p, e) = ((s.take q).drop p).take (e - p) := by
        unfold group
        dsimp only
        rw [← List.drop_take, List.take_take, Nat.min_eq_left hle.2]
      rw [this]
      conv => rhs; rhs; rw [show e = p + (e - p) by omega, ← List.drop_drop]
      exact (List.take_append_drop _ _).symm
    have h2 : (s.take q').drop p' = group s (p, e) ++ (s.take q').drop (p' + (e - p)) := by
      have : group s (p, e) = ((s.take q').drop p').take (e - p) := by
        rw [← hg]
        unfold group
        dsimp only
        rw [List.take_drop, List.take_take, Nat.min_eq_left hpq]
      rw [this, ← List.drop_drop]
      exact (List.take_append_drop _ _).symm
    unfold rxMatcher at h ⊢
    dsimp only at h ⊢
    rw [if_pos ⟨by omega, hq⟩] at h
    rw [if_pos ⟨by omega, hq'⟩]
    -- count what was consumed
    have hl1 : ((s.take q).drop p).length = q - p := by simp; omega
    have hl2 : ((s.take q').drop p').length = q' - p' := by simp; omega
    have hc1 : ∀ (t : List α) (base : Nat), t.length ≤ base → r.m t [] (fun s' _ => some (base - s'.length)) =
        (r.m t [] (fun s' _ => some (t.length - s'.length))).map (· + (base - t.length)) := by
      intro t base hb
      exact m_consumed r t base hb
    rw [hc1 _ q (by omega)] at h
    rw [hc1 _ q' (by omega)]
    have hrel : Rel (e - p) (r.m ((s.take q).drop p) [] (fun s' _ => some (((s.take q).drop p).length - s'.length)))
        (r.m ((s.take q').drop p') [] (fun s' _ => some (((s.take q').drop p').length - s'.length))) := by
      rw [h1, h2]
      refine m_rel r hr _ _ (group s (p, e)) [] [] _ _ ?_ ?_ ?_
      · intro v' hv' _ _
        refine .inr (.inr ?_)
        simp only [List.length_append]
        congr 1
        omega
      · intro t _ ht n hn
        simp only [List.length_append, hglen] at hn
        simp at hn ht
        omega
      · intro t _ ht n hn
        simp only [List.length_append, hglen] at hn
        simp at hn ht
        omega
    cases hx : r.m ((s.take q).drop p) [] (fun s' _ => some (((s.take q).drop p).length - s'.length)) with
    | none => rw [hx] at h; simp at h
    | some x =>
      rw [hx] at h hrel
      have hxe : x + (q - ((s.take q).drop p).length) = e := by simpa using h
      rcases hrel with ⟨n, hn, hlt⟩ | ⟨n, hn, hlt⟩ | heq
      · cases hn; omega
      · rw [hn]
        exact ⟨n + (q' - ((s.take q').drop p').length), rfl, by omega⟩
      · rw [← heq]
        exact ⟨x + (q' - ((s.take q').drop p').length), rfl, by omega⟩

/-- The pattern `[0-9]+|,`, to show that the hypotheses can be met. -/
def numOrComma : Rx Char := .alt (.plus (.cls Char.isDigit)) (.cls (· == ','))

/-- An ordinary case. -/
example : NoLook numOrComma ∧ numOrComma.nullable = false ∧
    reRpartition (rxMatcher numOrComma "a12,b345".toList) "a12,b345".toList 2 =
      .ok [.text "a12".toList, .found (some (3, 4)), .text "b".toList, .found (some (5, 8)), .text []] := by
  refine ⟨⟨⟨trivial, trivial⟩, trivial⟩, rfl, by decide +kernel⟩

end Big.RePart
