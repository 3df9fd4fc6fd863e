import Verif.Regex.Basic
/- Which characters a match can start with; greedy matching of known texts. -/
namespace Big.Rx
variable {α R : Type}

/-- Can the pattern match without consuming? (an upper bound) -/
def Rx.nullable : Rx α → Bool
  | .cls _ => false
  | .eps => true
  | .look _ => true
  | .seq a b => a.nullable && b.nullable
  | .alt a b => a.nullable || b.nullable
  | .star _ => true
  | .grp _ a => a.nullable

/-- Characters a non-empty match can start with (an upper bound). -/
def Rx.first : Rx α → α → Bool
  | .cls p, x => p x
  | .eps, _ => false
  | .look _, _ => false
  | .seq a b, x => a.first x || (a.nullable && b.first x)
  | .alt a b, x => a.first x || b.first x
  | .star a, x => a.first x
  | .grp _ a, x => a.first x

/-- If the text starts with a character that starts no match, only empty matches remain. -/
theorem Rx.m_first (r : Rx α) (s : List α) (hs : ∀ x t, s = x :: t → r.first x = false) :
    ∀ (c : Caps α) (k : List α → Caps α → Option R),
      (∀ c', r.nullable = true → k s c' = none) → r.m s c k = none := by
  induction r with
  | cls p =>
    intro c k _
    cases s with
    | nil => rfl
    | cons x s => have : p x = false := hs x s rfl; simp [Rx.m, this]
  | eps => intro c k h; exact h _ rfl
  | look p => intro c k h; simp [Rx.m, h _ rfl]
  | seq a b iha ihb =>
    intro c k h
    have ha : ∀ x t, s = x :: t → a.first x = false := fun x t e => by
      have := hs x t e; simp only [Rx.first, Bool.or_eq_false_iff] at this; exact this.1
    refine iha ha _ _ (fun c' hn => ?_)
    refine ihb (fun x t e => ?_) _ _ (fun c'' hn' => h _ (by simp [Rx.nullable, hn, hn']))
    have := hs x t e
    simp only [Rx.first, Bool.or_eq_false_iff, hn, Bool.true_and] at this
    exact this.2
  | alt a b iha ihb =>
    intro c k h
    have ha : ∀ x t, s = x :: t → a.first x = false := fun x t e => by
      have := hs x t e; simp only [Rx.first, Bool.or_eq_false_iff] at this; exact this.1
    have hb : ∀ x t, s = x :: t → b.first x = false := fun x t e => by
      have := hs x t e; simp only [Rx.first, Bool.or_eq_false_iff] at this; exact this.2
    simp only [Rx.m]
    rw [iha ha _ _ (fun c' hn => h _ (by simp [Rx.nullable, hn])),
      ihb hb _ _ (fun c' hn => h _ (by simp [Rx.nullable, hn]))]
    rfl
  | star a ih =>
    intro c k h
    simp only [Rx.m]
    cases hl : s.length with
    | zero => exact h _ rfl
    | succ n =>
      simp only [mstar]
      rw [h c rfl, ih hs _ _ (fun c' _ => by simp [hl])]
      rfl
  | grp n a ih =>
    intro c k h
    exact ih hs _ _ (fun c' hn => h _ hn)

theorem m_fail {r : Rx α} {s : List α} (hn : r.nullable = false)
    (hs : ∀ x t, s = x :: t → r.first x = false) (c : Caps α) (k : List α → Caps α → Option R) :
    r.m s c k = none := r.m_first s hs c k (fun _ h => by rw [hn] at h; simp at h)

theorem opt_skip {r : Rx α} {s : List α} (hn : r.nullable = false)
    (hs : ∀ x t, s = x :: t → r.first x = false) (c : Caps α) (k : List α → Caps α → Option R) :
    (Rx.opt r).m s c k = k s c := by
  show (r.m s c k).or (k s c) = _
  rw [m_fail hn hs]; rfl

/-- An optional part that does match, followed by success. -/
theorem opt_take {r : Rx α} {s : List α} {c : Caps α} {k : List α → Caps α → Option R} {x : R}
    (h : r.m s c k = some x) : (Rx.opt r).m s c k = some x := by
  show (r.m s c k).or (k s c) = _
  rw [h]; rfl

/-- An optional part that leads nowhere. -/
theorem opt_back {r : Rx α} {s : List α} {c : Caps α} {k : List α → Caps α → Option R}
    (h : r.m s c k = none) : (Rx.opt r).m s c k = k s c := by
  show (r.m s c k).or (k s c) = _
  rw [h]; rfl

theorem m_plus_cons (p : α → Bool) (x : α) (s : List α) (c : Caps α)
    (k : List α → Caps α → Option R) :
    (Rx.plus (.cls p)).m (x :: s) c k = if p x then (Rx.star (.cls p)).m s c k else none := by
  simp only [Rx.plus, Rx.m]

theorem m_plus_cls {p : α → Bool} {k : List α → Caps α → Option R} {rest : List α} {c : Caps α}
    {w : List α} (hw : w ≠ []) (hp : ∀ x ∈ w, p x = true)
    (hrest : ∀ x t, rest = x :: t → p x = false) (hk : (k rest c).isSome) :
    (Rx.plus (.cls p)).m (w ++ rest) c k = k rest c := by
  cases w with
  | nil => exact absurd rfl hw
  | cons x w =>
    rw [List.cons_append, m_plus_cons, if_pos (hp x (by simp))]
    exact m_star_cls hrest hk w (fun y hy => hp y (by simp [hy]))

theorem m_plus_cls_none {p : α → Bool} {k : List α → Caps α → Option R} {rest : List α} {c : Caps α}
    {w : List α} (hp : ∀ x ∈ w, p x = true) (hrest : ∀ x t, rest = x :: t → p x = false)
    (hk : ∀ u v, w = u ++ v → k (v ++ rest) c = none) :
    (Rx.plus (.cls p)).m (w ++ rest) c k = none := by
  cases w with
  | nil =>
    cases rest with
    | nil => rfl
    | cons x t => rw [List.nil_append, m_plus_cons, hrest x t rfl]; rfl
  | cons x w =>
    rw [List.cons_append, m_plus_cons, if_pos (hp x (by simp))]
    exact m_star_cls_none hrest w (fun y hy => hp y (by simp [hy]))
      (fun u v e => hk (x :: u) v (by simp [e]))

/-- Greedy repetition over a known sequence of rounds. -/
theorem m_star_chunks {a : Rx α} {k : List α → Caps α → Option R} {rest : List α} {c : Caps α}
    (hend : ∀ k' : List α → Caps α → Option R, a.m rest c k' = none) (hk : (k rest c).isSome) :
    ∀ (chunks : List (List α)),
      (∀ u w v, chunks = u ++ w :: v → w ≠ [] ∧
        ∀ k' : List α → Caps α → Option R, (k' (v.flatten ++ rest) c).isSome →
          a.m (w ++ (v.flatten ++ rest)) c k' = k' (v.flatten ++ rest) c) →
      (Rx.star a).m (chunks.flatten ++ rest) c k = k rest c := by
  have key : ∀ (chunks : List (List α)) n, (chunks.flatten ++ rest).length ≤ n →
      (∀ u w v, chunks = u ++ w :: v → w ≠ [] ∧
        ∀ k' : List α → Caps α → Option R, (k' (v.flatten ++ rest) c).isSome →
          a.m (w ++ (v.flatten ++ rest)) c k' = k' (v.flatten ++ rest) c) →
      mstar a.m n (chunks.flatten ++ rest) c k = k rest c := by
    intro chunks
    induction chunks with
    | nil =>
      intro n _ _
      cases n with
      | zero => rfl
      | succ n => simp [mstar, hend]
    | cons w v ih =>
      intro n hn h
      obtain ⟨hw, ha⟩ := h [] w v rfl
      have hlen : 0 < w.length := List.length_pos_iff.2 hw
      cases n with
      | zero => simp at hn; simp [hn] at hlen
      | succ n =>
        have ih' := ih n (by simp at hn ⊢; omega) (fun u w' v' e => h (w :: u) w' v' (by simp [e]))
        simp only [List.flatten_cons, List.append_assoc, mstar]
        rw [ha]
        · rw [if_pos (by simp; omega), ih']
          cases h : k rest c with
          | none => rw [h] at hk; simp at hk
          | some y => rfl
        · rw [if_pos (by simp; omega), ih']; exact hk
  intro chunks h
  exact key chunks _ (Nat.le_refl _) h

theorem m_grp {n : String} {a : Rx α} {w rest : List α} {c c' : Caps α}
    {k : List α → Caps α → Option R}
    (h : ∀ k' : List α → Caps α → Option R, (k' rest c').isSome → a.m (w ++ rest) c k' = k' rest c')
    (hk : (k rest ((n, w) :: c')).isSome) :
    (Rx.grp n a).m (w ++ rest) c k = k rest ((n, w) :: c') := by
  simp only [Rx.m]
  have e : (w ++ rest).take ((w ++ rest).length - rest.length) = w := by simp
  rw [h]
  · rw [e]
  · rw [e]; exact hk

theorem m_seq (a b : Rx α) (s : List α) (c : Caps α) (k : List α → Caps α → Option R) :
    (Rx.seq a b).m s c k = a.m s c (fun s' c' => b.m s' c' k) := rfl

theorem m_alt (a b : Rx α) (s : List α) (c : Caps α) (k : List α → Caps α → Option R) :
    (Rx.alt a b).m s c k = (a.m s c k).or (b.m s c k) := rfl

theorem m_cls_cons (p : α → Bool) (x : α) (s : List α) (c : Caps α) (k : List α → Caps α → Option R) :
    (Rx.cls p).m (x :: s) c k = if p x then k s c else none := rfl

end Big.Rx
