/-
A small backtracking regular-expression engine with Python `re` semantics (greedy, leftmost
alternative first, captures), written in continuation-passing style: `rx.m s caps k` tries the ways
`rx` can match a prefix of `s` in Python's order of preference, and returns the first for which the
continuation `k` succeeds on what is left. Used to model the regular expressions in /repo/big.
Restriction: the body of a `star` is only followed if it consumed something (no pattern modelled
here has a body that can match the empty string).
-/
namespace Big.Rx

/-- Captured groups, most recently closed first. -/
abbrev Caps (α : Type) := List (String × List α)

/-- Patterns. `cls` is a literal or a character class, `look` a zero-width test of the remaining text
(such as `$`), `grp` a named group. -/
inductive Rx (α : Type) where
  | cls (p : α → Bool)
  | eps
  | look (p : List α → Bool)
  | seq (a b : Rx α)
  | alt (a b : Rx α)
  | star (a : Rx α)
  | grp (n : String) (a : Rx α)

variable {α R : Type}

/-- `a?` -/
def Rx.opt (a : Rx α) : Rx α := .alt a .eps
/-- `a+` -/
def Rx.plus (a : Rx α) : Rx α := .seq a (.star a)

/-- Greedy repetition; the counter bounds the number of rounds and is the length of the text. -/
def mstar (f : List α → Caps α → (List α → Caps α → Option R) → Option R) :
    Nat → List α → Caps α → (List α → Caps α → Option R) → Option R
  | 0, s, c, k => k s c
  | n + 1, s, c, k =>
    (f s c (fun s' c' => if s'.length < s.length then mstar f n s' c' k else none)).or (k s c)

/-- The matcher. -/
def Rx.m : Rx α → List α → Caps α → (List α → Caps α → Option R) → Option R
  | .cls p, s, c, k => match s with
    | [] => none
    | x :: s => if p x then k s c else none
  | .eps, s, c, k => k s c
  | .look p, s, c, k => if p s then k s c else none
  | .seq a b, s, c, k => a.m s c (fun s' c' => b.m s' c' k)
  | .alt a b, s, c, k => (a.m s c k).or (b.m s c k)
  | .star a, s, c, k => mstar a.m s.length s c k
  | .grp n a, s, c, k => a.m s c (fun s' c' => k s' ((n, s.take (s.length - s'.length)) :: c'))

/-- `re.match`: match at the start of the text; the groups and the rest of the text. -/
def Rx.matchStart (r : Rx α) (s : List α) : Option (Caps α × List α) :=
  r.m s [] (fun s' c => some (c, s'))

/-! ### what a match means -/

/-- `Lang r w c`: `r` can match exactly `w`, capturing `c` (conditions of `look` left out). -/
inductive Lang : Rx α → List α → Caps α → Prop
  | cls {p x} : p x = true → Lang (.cls p) [x] []
  | eps : Lang .eps [] []
  | look {p} : Lang (.look p) [] []
  | seq {a b w₁ w₂ c₁ c₂} : Lang a w₁ c₁ → Lang b w₂ c₂ → Lang (.seq a b) (w₁ ++ w₂) (c₂ ++ c₁)
  | altl {a b w c} : Lang a w c → Lang (.alt a b) w c
  | altr {a b w c} : Lang b w c → Lang (.alt a b) w c
  | star0 {a} : Lang (.star a) [] []
  | starS {a w₁ w₂ c₁ c₂} : Lang a w₁ c₁ → Lang (.star a) w₂ c₂ →
      Lang (.star a) (w₁ ++ w₂) (c₂ ++ c₁)
  | grp {n a w c} : Lang a w c → Lang (.grp n a) w ((n, w) :: c)

theorem or_some {a b : Option R} {x : R} (h : a.or b = some x) : a = some x ∨ b = some x := by
  cases a <;> simp_all

theorem mstar_sound {a : Rx α}
    (ih : ∀ (s : List α) (c : Caps α) (k : List α → Caps α → Option R) (x : R), a.m s c k = some x →
      ∃ w rest c', s = w ++ rest ∧ Lang a w c' ∧ k rest (c' ++ c) = some x) :
    ∀ (n : Nat) (s : List α) (c : Caps α) (k : List α → Caps α → Option R) (x : R),
      mstar a.m n s c k = some x →
      ∃ w rest c', s = w ++ rest ∧ Lang (.star a) w c' ∧ k rest (c' ++ c) = some x := by
  intro n
  induction n with
  | zero => intro s c k x h; exact ⟨[], s, [], rfl, .star0, h⟩
  | succ n ihn =>
    intro s c k x h
    rcases or_some h with h | h
    · obtain ⟨w, rest, c', rfl, hl, hk⟩ := ih _ _ _ _ h
      split at hk
      · obtain ⟨w2, rest2, c2, rfl, hl2, hk2⟩ := ihn _ _ _ _ hk
        exact ⟨w ++ w2, rest2, c2 ++ c', by simp, .starS hl hl2, by simpa using hk2⟩
      · simp at hk
    · exact ⟨[], s, [], rfl, .star0, h⟩

/-- Whatever the engine finds is a match. -/
theorem Rx.m_sound (r : Rx α) : ∀ (s : List α) (c : Caps α) (k : List α → Caps α → Option R) (x : R),
    r.m s c k = some x → ∃ w rest c', s = w ++ rest ∧ Lang r w c' ∧ k rest (c' ++ c) = some x := by
  induction r with
  | cls p =>
    intro s c k x h
    cases s with
    | nil => simp [Rx.m] at h
    | cons y s =>
      simp only [Rx.m] at h
      split at h
      · exact ⟨[y], s, [], rfl, .cls ‹_›, h⟩
      · simp at h
  | eps => intro s c k x h; exact ⟨[], s, [], rfl, .eps, h⟩
  | look p =>
    intro s c k x h
    simp only [Rx.m] at h
    split at h
    · exact ⟨[], s, [], rfl, .look, h⟩
    · simp at h
  | seq a b iha ihb =>
    intro s c k x h
    obtain ⟨w, rest, c', rfl, hl, hk⟩ := iha _ _ _ _ h
    obtain ⟨w2, rest2, c2, rfl, hl2, hk2⟩ := ihb _ _ _ _ hk
    exact ⟨w ++ w2, rest2, c2 ++ c', by simp, .seq hl hl2, by simpa using hk2⟩
  | alt a b iha ihb =>
    intro s c k x h
    rcases or_some h with h | h
    · obtain ⟨w, rest, c', rfl, hl, hk⟩ := iha _ _ _ _ h
      exact ⟨w, rest, c', rfl, .altl hl, hk⟩
    · obtain ⟨w, rest, c', rfl, hl, hk⟩ := ihb _ _ _ _ h
      exact ⟨w, rest, c', rfl, .altr hl, hk⟩
  | star a ih => intro s c k x h; exact mstar_sound ih _ _ _ _ _ h
  | grp n a ih =>
    intro s c k x h
    obtain ⟨w, rest, c', rfl, hl, hk⟩ := ih _ _ _ _ h
    refine ⟨w, rest, (n, w) :: c', rfl, .grp hl, ?_⟩
    simpa using hk

theorem mstar_none {f : List α → Caps α → (List α → Caps α → Option R) → Option R}
    {k : List α → Caps α → Option R} (hf : ∀ s c k', (∀ s' c', k' s' c' = none) → f s c k' = none)
    (hk : ∀ s' c', k s' c' = none) : ∀ n s c, mstar f n s c k = none := by
  intro n
  induction n with
  | zero => intro s c; exact hk s c
  | succ n ih =>
    intro s c
    simp only [mstar, hk, Option.or_none]
    apply hf
    intro s' c'
    split
    · exact ih _ _
    · rfl

/-- A pattern that can start with none of the texts `s` for which the continuation may succeed
fails. -/
theorem Rx.m_none (r : Rx α) : ∀ (s : List α) (c : Caps α) (k : List α → Caps α → Option R),
    (∀ s' c', k s' c' = none) → r.m s c k = none := by
  induction r with
  | cls p => intro s c k h; cases s <;> simp [Rx.m, h]
  | eps => intro s c k h; exact h _ _
  | look p => intro s c k h; simp [Rx.m, h]
  | seq a b iha ihb => intro s c k h; exact iha _ _ _ (fun s' c' => ihb _ _ _ h)
  | alt a b iha ihb => intro s c k h; simp [Rx.m, iha _ _ _ h, ihb _ _ _ h]
  | star a ih => intro s c k h; exact mstar_none ih h _ _ _
  | grp n a ih => intro s c k h; exact ih _ _ _ (fun s' c' => h _ _)

theorem mstar_cls_cons {p : α → Bool} {x : α} (hp : p x = true) (n : Nat) (s : List α) (c : Caps α)
    (k : List α → Caps α → Option R) :
    mstar (Rx.cls p).m (n + 1) (x :: s) c k = (mstar (Rx.cls p).m n s c k).or (k (x :: s) c) := by
  show ((Rx.cls p).m (x :: s) c _).or _ = _
  rw [show ∀ k', (Rx.cls p).m (R := R) (x :: s) c k' = k' s c from fun k' => by simp [Rx.m, hp]]
  simp

/-- Greedy repetition of a class over a stretch of such characters: takes all of it if what follows
cannot be taken too and the continuation then succeeds. -/
theorem m_star_cls {p : α → Bool} {k : List α → Caps α → Option R} {rest : List α} {c : Caps α}
    (hrest : ∀ x t, rest = x :: t → p x = false) (hk : (k rest c).isSome) :
    ∀ (w : List α), (∀ x ∈ w, p x = true) → (Rx.star (.cls p)).m (w ++ rest) c k = k rest c := by
  have key : ∀ (w : List α) n, w.length ≤ n → (∀ x ∈ w, p x = true) →
      mstar (Rx.cls p).m n (w ++ rest) c k = k rest c := by
    intro w
    induction w with
    | nil =>
      intro n _ _
      cases n with
      | zero => rfl
      | succ n =>
        cases rest with
        | nil => simp [mstar, Rx.m]
        | cons x t => simp [mstar, Rx.m, hrest x t rfl]
    | cons x w ih =>
      intro n hn hw
      cases n with
      | zero => simp at hn
      | succ n =>
        rw [List.cons_append, mstar_cls_cons (hw x (by simp))]
        rw [ih n (by simpa using hn) (fun y hy => hw y (by simp [hy]))]
        cases h : k rest c with
        | none => rw [h] at hk; simp at hk
        | some y => simp
  intro w hw
  exact key w _ (by simp) hw

/-- As `m_star_cls`, when the continuation fails on every shorter stretch. -/
theorem m_star_cls_none {p : α → Bool} {k : List α → Caps α → Option R} {rest : List α} {c : Caps α}
    (hrest : ∀ x t, rest = x :: t → p x = false) :
    ∀ (w : List α), (∀ x ∈ w, p x = true) →
      (∀ u v, w = u ++ v → k (v ++ rest) c = none) →
      (Rx.star (.cls p)).m (w ++ rest) c k = none := by
  have key : ∀ (w : List α) n, w.length ≤ n → (∀ x ∈ w, p x = true) →
      (∀ u v, w = u ++ v → k (v ++ rest) c = none) →
      mstar (Rx.cls p).m n (w ++ rest) c k = none := by
    intro w
    induction w with
    | nil =>
      intro n _ _ hk
      have h0 := hk [] [] rfl
      cases n with
      | zero => exact h0
      | succ n =>
        cases rest with
        | nil => simpa [mstar, Rx.m] using h0
        | cons x t => simpa [mstar, Rx.m, hrest x t rfl] using h0
    | cons x w ih =>
      intro n hn hw hk
      have h0 := hk [] (x :: w) rfl
      cases n with
      | zero => simp at hn
      | succ n =>
        rw [List.cons_append, mstar_cls_cons (hw x (by simp))]
        rw [ih n (by simpa using hn) (fun y hy => hw y (by simp [hy]))
          (fun u v huv => hk (x :: u) v (by simp [huv]))]
        simpa using h0
  intro w hw hk
  exact key w _ (by simp) hw hk

/-! ### renaming characters -/

/-- Every class and test of the pattern is unaffected by the renaming `f`. -/
def Rx.Inv (f : α → α) : Rx α → Prop
  | .cls p => ∀ x, p (f x) = p x
  | .eps => True
  | .look p => ∀ s : List α, p (s.map f) = p s
  | .seq a b => a.Inv f ∧ b.Inv f
  | .alt a b => a.Inv f ∧ b.Inv f
  | .star a => a.Inv f
  | .grp _ a => a.Inv f

/-- Rename in captured texts. -/
def Caps.ren (f : α → α) (c : Caps α) : Caps α := c.map (fun p => (p.1, p.2.map f))

/-- Renaming characters in a way the pattern does not notice renames the captured texts and changes
nothing else. -/
theorem Rx.m_ren {f : α → α} {S : Type} (F : R → S) (r : Rx α) (hr : r.Inv f) :
    ∀ (s : List α) (c : Caps α) (k : List α → Caps α → Option R) (k' : List α → Caps α → Option S),
      (∀ s c, k' (s.map f) (c.ren f) = (k s c).map F) →
      r.m (s.map f) (c.ren f) k' = (r.m s c k).map F := by
  induction r with
  | cls p =>
    intro s c k k' h
    cases s with
    | nil => rfl
    | cons x s =>
      have : p (f x) = p x := hr x
      simp only [List.map_cons, Rx.m, this]
      split
      · exact h _ _
      · rfl
  | eps => intro s c k k' h; exact h _ _
  | look p =>
    intro s c k k' h
    have : p (s.map f) = p s := hr s
    simp only [Rx.m, this]
    split
    · exact h _ _
    · rfl
  | seq a b iha ihb =>
    intro s c k k' h
    exact iha hr.1 _ _ _ _ (fun s c => ihb hr.2 _ _ _ _ h)
  | alt a b iha ihb =>
    intro s c k k' h
    simp only [Rx.m, iha hr.1 _ _ _ _ h, ihb hr.2 _ _ _ _ h]
    cases a.m s c k <;> simp
  | star a ih =>
    intro s c k k' h
    simp only [Rx.m, List.length_map]
    generalize s.length = n
    induction n generalizing s c with
    | zero => exact h _ _
    | succ n ihn =>
      simp only [mstar]
      rw [ih hr s c (fun s' c' => if s'.length < s.length then mstar a.m n s' c' k else none) _ ?_, h]
      · cases a.m s c _ <;> simp
      · intro s' c'
        simp only [List.length_map]
        split
        · exact ihn _ _
        · rfl
  | grp n a ih =>
    intro s c k k' h
    refine ih hr _ _ _ _ (fun s' c' => ?_)
    have := h s' ((n, s.take (s.length - s'.length)) :: c')
    simpa [Caps.ren, List.map_take] using this

end Big.Rx
