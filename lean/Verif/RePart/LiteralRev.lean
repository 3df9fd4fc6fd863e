import Verif.RePart.Literal
/-!
# C143: re_rpartition with one escaped separator, and multirpartition
-/
namespace Big.RePart
open Big.Rx
open Big.MS (match0 search splitLoop sepRe lit alts sortSeps)

variable {α : Type} [DecidableEq α]

/-! ### What reversed_re_finditer finds, for a literal text -/

/-- The matches of a text of length `L`, which is found where `Occ` says, from the right: each is the last one that ends
at or before the start of the one before. -/
inductive FromRight (Occ : Nat → Prop) (L : Nat) : Nat → List Span → Prop
  | nil {prev} : (∀ q, q + L ≤ prev → ¬ Occ q) → FromRight Occ L prev []
  | cons {prev p ys} : Occ p → p + L ≤ prev → (∀ q, p < q → q + L ≤ prev → ¬ Occ q) → FromRight Occ L p ys →
      FromRight Occ L prev ((p, p + L) :: ys)

theorem FromRight.unique {Occ : Nat → Prop} {L prev : Nat} {ys zs : List Span} (h : FromRight Occ L prev ys)
    (h' : FromRight Occ L prev zs) : ys = zs := by
  induction h generalizing zs with
  | nil hn =>
    cases h' with
    | nil _ => rfl
    | cons h1 h2 _ _ => exact absurd h1 (hn _ h2)
  | @cons prev p ys h1 h2 h3 h4 ih =>
    cases h' with
    | nil hn => exact absurd h1 (hn _ h2)
    | @cons _ q zs g1 g2 g3 g4 =>
      have : p = q := by
        rcases Nat.lt_trichotomy p q with h | h | h
        · exact absurd g1 (h3 q h g2)
        · exact h
        · exact absurd h1 (g3 p h h2)
      subst this
      rw [ih g4]

theorem FromRight.step {Occ : Nat → Prop} {L prev : Nat} {ys : List Span} (h : FromRight Occ L prev ys)
    (hn : ∀ q, q + L = prev + 1 → ¬ Occ q) : FromRight Occ L (prev + 1) ys := by
  cases h with
  | nil h =>
    refine .nil fun q hq => ?_
    by_cases he : q + L = prev + 1
    · exact hn q he
    · exact h q (by omega)
  | cons h1 h2 h3 h4 =>
    refine .cons h1 (by omega) (fun q hq hl => ?_) h4
    by_cases he : q + L = prev + 1
    · exact hn q he
    · exact h3 q hq (by omega)

/-- The matcher of a text of length `L`, found where `Occ` says. -/
structure LitMatcher (M : Matcher) (Occ : Nat → Prop) (L : Nat) : Prop where
  pos : 0 < L
  law : M.Lawful
  at_iff : ∀ p q e, q ≤ M.len → (M.at_ p q = some e ↔ Occ p ∧ e = p + L ∧ e ≤ q)
  le : ∀ p, Occ p → p + L ≤ M.len

/-- What holds when the loop goes round. -/
structure LoopInv (Occ : Nat → Prop) (L : Nat) (ms over : List Span) (prev : Nat) : Prop where
  ms_ok : ∀ t ∈ ms, t.2 = t.1 + L ∧ Occ t.1
  over_ok : ∀ t ∈ over, t.2 = t.1 + L ∧ Occ t.1
  all : ∀ p, Occ p → p + L ≤ prev → (p, p + L) ∈ over ∨ ∃ t ∈ ms, t.1 ≤ p ∧ p < t.2
  later : ∀ o ∈ over, ∀ t ∈ ms, t.2 ≤ o.1

theorem mem_truncate {M : Matcher} {Occ : Nat → Prop} {L : Nat} (hM : LitMatcher M Occ L) {prev : Nat} (hp : prev ≤ M.len)
    {over : List Span} (ho : ∀ t ∈ over, t.2 = t.1 + L ∧ Occ t.1) (t : Span) :
    t ∈ truncate M prev over ↔ t ∈ over ∧ t.2 ≤ prev := by
  unfold truncate
  rw [List.mem_filterMap]
  constructor
  · rintro ⟨u, hu, h⟩
    by_cases h1 : u.1 > prev
    · rw [if_pos h1] at h; simp at h
    · rw [if_neg h1] at h
      by_cases h2 : u.2 ≤ prev
      · rw [if_pos h2] at h
        simp only [Option.some.injEq] at h
        exact h ▸ ⟨hu, h2⟩
      · rw [if_neg h2] at h
        cases ha : M.at_ u.1 prev with
        | none => rw [ha] at h; simp at h
        | some e =>
          have := (hM.at_iff _ _ _ hp).1 ha
          have := (ho u hu).1
          omega
  · rintro ⟨h1, h2⟩
    have := (ho t h1).1
    exact ⟨t, h1, by rw [if_neg (by omega), if_pos h2]⟩

theorem mem_scan {M : Matcher} {Occ : Nat → Prop} {L : Nat} (hM : LitMatcher M Occ L) {prev : Nat} (hp : prev ≤ M.len)
    {t : Span} (ht : t.2 = t.1 + L ∧ Occ t.1) (htp : t.2 ≤ prev) (o : Span) :
    o ∈ scan M prev t ↔ o.2 = o.1 + L ∧ Occ o.1 ∧ t.1 ≤ o.1 ∧ o.1 < t.2 ∧ o.2 ≤ prev := by
  have hL := hM.pos
  unfold scan
  rw [List.mem_cons, List.mem_filterMap]
  constructor
  · rintro (rfl | ⟨p, hpm, h⟩)
    · exact ⟨ht.1, ht.2, by omega, by omega, htp⟩
    · rw [List.mem_range'_1] at hpm
      cases ha : M.at_ p prev with
      | none => rw [ha] at h; simp at h
      | some e =>
        rw [ha] at h
        simp only [Option.map_some, Option.some.injEq] at h
        subst h
        obtain ⟨h1, h2, h3⟩ := (hM.at_iff _ _ _ hp).1 ha
        exact ⟨h2, h1, by dsimp only; omega, by dsimp only; omega, h3⟩
  · rintro ⟨h1, h2, h3, h4, h5⟩
    by_cases he : o = t
    · exact .inl he
    · right
      have hne : t.1 ≠ o.1 := by
        intro h; apply he
        apply Prod.ext
        · exact h.symm
        · omega
      refine ⟨o.1, ?_, ?_⟩
      · rw [List.mem_range'_1]; omega
      · rw [(hM.at_iff o.1 prev o.2 hp).2 ⟨h2, h1, h5⟩]; rfl

/-- From the right, the loop finds the matches of a literal text. -/
theorem revLoop_literal {M : Matcher} {Occ : Nat → Prop} {L : Nat} (hM : LitMatcher M Occ L) : ∀ fuel ms over prev, prev ≤ M.len →
    MsInv M ms → OverInv M over → turns ms over < fuel →
      ∃ ys, revLoop M fuel ms over prev = .ok ys ∧ (LoopInv Occ L ms over prev → FromRight Occ L prev ys) := by
  have hL := hM.pos
  refine revLoop_ind hM.law ?_ ?_
  · intro ms over prev hp _ _ h1 h2 hI
    refine .nil fun p hpl hO => ?_
    rcases hI.all p hO hpl with h | ⟨t, ht, h3, h4⟩
    · have := (mem_truncate hM hp hI.over_ok _).2 ⟨h, hpl⟩
      rw [h1] at this; simp at this
    · have := (hI.ms_ok t ht).1
      exact popViable_none h2 t ht (by omega)
  · intro ms over prev over1 ms1 y rest ys hp hms hov hT hov1 hle hms1 hperm hdesc hP hI
    have hy1 : y ∈ over1 := hperm.subset (by simp)
    have hrest : ∀ o ∈ rest, o ∈ over1 := fun o ho => hperm.subset (by simp [ho])
    have hback : ∀ o ∈ over1, o = y ∨ o ∈ rest := fun o ho => by simpa using hperm.symm.subset ho
    have hmax : ∀ o ∈ rest, keyLe o y = true := (List.pairwise_cons.1 hdesc).1
    cases hT with
    | keep hne =>
      have hmem := mem_truncate hM hp hI.over_ok
      have hyo := (hmem y).1 hy1
      have hyok := hI.over_ok y hyo.1
      have hnone : ∀ q, y.1 < q → q + L ≤ prev → ¬ Occ q := by
        intro q hq hql hO
        rcases hI.all q hO hql with h | ⟨t, ht, h3, h4⟩
        · rcases hback _ ((hmem _).2 ⟨h, hql⟩) with h | h
          · rw [← h] at hq; simp at hq
          · have := (keyLe_iff _ _).1 (hmax _ h)
            dsimp only at this; omega
        · have := hI.later y hyo.1 t ht
          omega
      have hyeq : y = (y.1, y.1 + L) := Prod.ext rfl hyok.1
      rw [hyeq]
      refine .cons hyok.2 (by omega) hnone (hP ⟨hI.ms_ok, fun t ht => hI.over_ok t ((hmem t).1 (hrest t ht)).1, ?_, ?_⟩)
      · intro p hO hpl
        rcases hI.all p hO (by omega) with h | h
        · rcases hback _ ((hmem _).2 ⟨h, by dsimp only; omega⟩) with h | h
          · rw [← h] at hpl; dsimp only at hpl; omega
          · exact .inl h
        · exact .inr h
      · intro o ho t ht
        exact hI.later o ((hmem o).1 (hrest o ho)).1 t ht
    | fresh t _ htr hpop =>
      obtain ⟨p1, p2, p3⟩ := popViable_some hpop
      have htms : t ∈ ms := p2.subset (by simp)
      have hms1sub : ∀ u ∈ ms1, u ∈ ms := fun u hu => p2.subset (by simp [hu])
      have htok := hI.ms_ok t htms
      have hmem := mem_scan hM hp htok p1
      have hyo := (hmem y).1 hy1
      -- the matches that are left come before `t`
      have hbefore : ∀ u ∈ ms1, u.2 ≤ t.1 := by
        intro u hu
        have hd := (List.pairwise_cons.1 (hms.desc.sublist p2)).1 u hu
        have hnd := (List.nodup_cons.1 (hms.nodup.sublist p2)).1
        have hne : u ≠ t := fun h => hnd (h ▸ hu)
        have huok := hI.ms_ok u (hms1sub u hu)
        rcases hms.apart u (hms1sub u hu) t htms hne with h | h
        · exact h
        · have := (keyLe_iff _ _).1 hd
          omega
      have hcov : ∀ q, Occ q → q + L ≤ prev → (q, q + L) ∈ scan M prev t ∨ ∃ u ∈ ms1, u.1 ≤ q ∧ q < u.2 := by
        intro q hO hql
        rcases hI.all q hO hql with h | ⟨u, hu, h3, h4⟩
        · have := (mem_truncate hM hp hI.over_ok _).2 ⟨h, hql⟩
          rw [htr] at this; simp at this
        · have huok := hI.ms_ok u hu
          rcases p3 u hu (by omega) with rfl | h
          · exact .inl ((hmem _).2 ⟨rfl, hO, h3, h4, hql⟩)
          · exact .inr ⟨u, h, h3, h4⟩
      have hnone : ∀ q, y.1 < q → q + L ≤ prev → ¬ Occ q := by
        intro q hq hql hO
        rcases hcov q hO hql with h | ⟨u, hu, h3, h4⟩
        · rcases hback _ h with h | h
          · rw [← h] at hq; simp at hq
          · have := (keyLe_iff _ _).1 (hmax _ h)
            dsimp only at this; omega
        · have := hbefore u hu
          omega
      have hyeq : y = (y.1, y.1 + L) := Prod.ext rfl hyo.1
      rw [hyeq]
      refine .cons hyo.2.1 (by omega) hnone (hP ⟨fun u hu => hI.ms_ok u (hms1sub u hu), ?_, ?_, ?_⟩)
      · intro o ho
        have := (hmem o).1 (hrest o ho)
        exact ⟨this.1, this.2.1⟩
      · intro p hO hpl
        rcases hcov p hO (by omega) with h | h
        · rcases hback _ h with h | h
          · rw [← h] at hpl; dsimp only at hpl; omega
          · exact .inl h
        · exact .inr h
      · intro o ho u hu
        have h1 := ((hmem o).1 (hrest o ho)).2.2.1
        have h2 := hbefore u hu
        omega

theorem reversed_literal {M : Matcher} {Occ : Nat → Prop} {L : Nat} (hM : LitMatcher M Occ L) :
    ∃ ys, reversedFinditer M = .ok ys ∧ FromRight Occ L M.len ys := by
  have hL := hM.pos
  obtain ⟨ms, h1, h2, h3, h4⟩ := reversedFinditer_eq hM.law
  have hpos : ∀ p q e, q ≤ M.len → M.at_ p q = some e → p < e := by
    intro p q e hq h
    have := (hM.at_iff p q e hq).1 h
    omega
  have h00 : M.at_ 0 0 = none := by
    cases h : M.at_ 0 0 with
    | none => rfl
    | some e => have := (hM.at_iff 0 0 e (by omega)).1 h; omega
  have hd : doctored M = finditer M := by unfold doctored; rw [h00]; rfl
  rw [hd] at h1
  obtain ⟨ys, g1, g2⟩ := revLoop_literal hM (turns ms [] + 1) ms [] M.len (Nat.le_refl _) h2 ⟨by simp, by simp⟩ (by omega)
  have h40 := h4 0
  rw [Nat.add_zero, g1] at h40
  refine ⟨ys, h40, g2 ⟨?_, by simp, ?_, by simp⟩⟩
  · intro t ht
    have ht' := h1.subset ht
    have : M.at_ t.1 M.len = some t.2 := by
      have key : ∀ (fuel : Nat) (pos : Nat), ∀ t ∈ findFrom M fuel pos false, M.at_ t.1 M.len = some t.2 := by
        intro fuel
        induction fuel with
        | zero => intro pos t ht; simp [findFrom] at ht
        | succ fuel ih =>
          intro pos t ht
          rw [findFrom] at ht
          by_cases hgt : pos > M.len
          · rw [if_pos hgt] at ht; simp at ht
          · rw [if_neg hgt] at ht
            simp only [Bool.false_eq_true, if_false] at ht
            cases ha : M.at_ pos M.len with
            | none => rw [ha] at ht; exact ih _ t ht
            | some e =>
              rw [ha] at ht
              have hb : (e == pos) = false := by have := hpos _ _ _ (Nat.le_refl _) ha; simp; omega
              dsimp only at ht
              rw [hb] at ht
              rcases List.mem_cons.1 ht with rfl | ht
              · exact ha
              · exact ih _ t ht
      exact key _ _ t ht'
    have := (hM.at_iff _ _ _ (Nat.le_refl _)).1 this
    exact ⟨this.2.1, this.1⟩
  · intro p hO hpl
    right
    have key : ∀ (fuel pos : Nat), M.len + 1 - pos ≤ fuel → pos ≤ p → ∃ t ∈ findFrom M (fuel + 1) pos false, t.1 ≤ p ∧ p < t.2 := by
      intro fuel
      induction fuel with
      | zero => intro pos h1 h2; omega
      | succ fuel ih =>
        intro pos h1 h2
        rw [findFrom, if_neg (by omega)]
        simp only [Bool.false_eq_true, if_false]
        cases ha : M.at_ pos M.len with
        | none =>
          have hne : pos ≠ p := by
            rintro rfl
            rw [(hM.at_iff pos M.len _ (Nat.le_refl _)).2 ⟨hO, rfl, hpl⟩] at ha
            simp at ha
          exact ih (pos + 1) (by omega) (by omega)
        | some e =>
          have he := (hM.at_iff _ _ _ (Nat.le_refl _)).1 ha
          have hb : (e == pos) = false := by simp; omega
          dsimp only
          rw [hb]
          by_cases hpe : p < e
          · exact ⟨(pos, e), by simp, h2, hpe⟩
          · obtain ⟨t, ht, h⟩ := ih e (by omega) (by omega)
            exact ⟨t, by simp [ht], h⟩
    obtain ⟨t, ht, h⟩ := key (2 * M.len + 2) 0 (by omega) (by omega)
    exact ⟨t, h1.symm.subset ht, h⟩

/-! ### The literal text, and its mirror image -/

theorem prefix_take_drop {w s : List α} {p q : Nat} (hq : q ≤ s.length) (hw : w ≠ []) :
    w <+: (s.take q).drop p ↔ w <+: s.drop p ∧ p + w.length ≤ q := by
  have hwl := List.length_pos_iff.2 hw
  rw [List.drop_take]
  constructor
  · intro h
    have := h.length_le
    simp at this
    exact ⟨h.trans (List.take_prefix _ _), by omega⟩
  · rintro ⟨h, hl⟩
    rw [List.prefix_iff_eq_take] at h ⊢
    rw [List.take_take, Nat.min_eq_left (by omega)]
    exact h

theorem litMatcher {w : List α} (hw : w ≠ []) (s : List α) :
    LitMatcher (rxMatcher (lit w) s) (fun p => w <+: s.drop p) w.length := by
  have hwl := List.length_pos_iff.2 hw
  refine ⟨hwl, rx_lawful _ _, ?_, ?_⟩
  · intro p q e hq
    have hq' : q ≤ s.length := hq
    show (if p ≤ q ∧ q ≤ s.length then (lit w).m ((s.take q).drop p) [] (fun s' _ => some (q - s'.length)) else none) = some e ↔ _
    by_cases hpq : p ≤ q
    · rw [if_pos ⟨hpq, hq'⟩, Big.MS.lit_m]
      by_cases h : w <+: (s.take q).drop p
      · rw [if_pos h]
        obtain ⟨h1, h2⟩ := (prefix_take_drop hq' hw).1 h
        simp only [Option.some.injEq, List.length_drop, List.length_take, Nat.min_eq_left hq']
        constructor
        · intro h; exact ⟨h1, by omega, by omega⟩
        · rintro ⟨_, h, _⟩; omega
      · rw [if_neg h]
        constructor
        · intro h; simp at h
        · rintro ⟨h1, rfl, h2⟩; exact absurd ((prefix_take_drop hq' hw).2 ⟨h1, h2⟩) h
    · rw [if_neg (by omega)]
      constructor
      · intro h; simp at h
      · rintro ⟨h1, rfl, h2⟩; omega
  · intro p h
    have := h.length_le
    simp at this
    show p + w.length ≤ s.length
    omega

/-- A span of the reversed string. -/
def mir (n : Nat) (t : Span) : Span := (n - t.2, n - t.1)

omit [DecidableEq α] in
theorem reverse_slice (s : List α) {a b : Nat} (h : a ≤ b) (hb : b ≤ s.length) :
    ((s.reverse.take b).drop a).reverse = (s.take (s.length - a)).drop (s.length - b) := by
  apply List.ext_getElem
  · simp; omega
  · intro i h1 h2
    simp at h1 h2
    simp only [List.getElem_reverse, List.getElem_drop, List.getElem_take]
    congr 1
    simp
    omega

theorem mirror_occ {w s : List α} (hw : w ≠ []) (pos : Nat) :
    w.reverse <+: s.reverse.drop pos ↔ pos + w.length ≤ s.length ∧ w <+: s.drop (s.length - (pos + w.length)) := by
  have hwl := List.length_pos_iff.2 hw
  by_cases h : pos + w.length ≤ s.length
  · have h1 := reverse_slice s (a := pos) (b := pos + w.length) (by omega) h
    rw [List.prefix_iff_eq_take, List.prefix_iff_eq_take, List.length_reverse]
    have e1 : (s.reverse.drop pos).take w.length = (s.reverse.take (pos + w.length)).drop pos := by
      rw [List.drop_take, show pos + w.length - pos = w.length by omega]
    have e2 : (s.drop (s.length - (pos + w.length))).take w.length = (s.take (s.length - pos)).drop (s.length - (pos + w.length)) := by
      rw [List.drop_take, show s.length - pos - (s.length - (pos + w.length)) = w.length by omega]
    rw [e1, e2, ← h1]
    constructor
    · intro h'; exact ⟨h, by rw [← h', List.reverse_reverse]⟩
    · rintro ⟨-, h'⟩
      have h2 := congrArg List.reverse h'
      rw [List.reverse_reverse] at h2
      exact h2
  · constructor
    · intro h'
      have := h'.length_le
      simp at this
      omega
    · rintro ⟨h', -⟩; exact absurd h' h

theorem forward_mirror {w : List α} (hw : w ≠ []) (s : List α) : ∀ (fuel pos : Nat), pos ≤ s.length → s.length + 1 - pos ≤ fuel →
    FromRight (fun p => w <+: s.drop p) w.length (s.length - pos)
      ((findFrom (rxMatcher (lit w.reverse) s.reverse) (fuel + 1) pos false).map (mir s.length)) := by
  have hwl := List.length_pos_iff.2 hw
  have hM := litMatcher (w := w.reverse) (by simpa using hw) s.reverse
  have hlen : (rxMatcher (lit w.reverse) s.reverse).len = s.length := by show s.reverse.length = _; simp
  intro fuel
  induction fuel with
  | zero => intro pos h1 h2; omega
  | succ fuel ih =>
    intro pos h1 h2
    rw [findFrom, hlen, if_neg (by omega)]
    simp only [Bool.false_eq_true, if_false]
    have hat := fun e => hM.at_iff pos s.length e (by rw [hlen]; exact Nat.le_refl _)
    cases ha : (rxMatcher (lit w.reverse) s.reverse).at_ pos s.length with
    | none =>
      have hno : ¬ (pos + w.length ≤ s.length ∧ w <+: s.drop (s.length - (pos + w.length))) := by
        intro h
        have h' := (mirror_occ hw pos).2 h
        have := (hat (pos + w.length)).2 ⟨h', by simp, h.1⟩
        rw [ha] at this; simp at this
      dsimp only
      by_cases hend : pos = s.length
      · subst hend
        rw [findFrom, hlen, if_pos (by omega)]
        exact .nil fun q hq => by omega
      · have := ih (pos + 1) (by omega) (by omega)
        rw [show s.length - pos = s.length - (pos + 1) + 1 by omega]
        refine this.step fun q hq hO => hno ⟨by omega, ?_⟩
        rw [show s.length - (pos + w.length) = q by omega]
        exact hO
    | some e =>
      obtain ⟨b1, b2, b3⟩ := (hat e).1 ha
      rw [List.length_reverse] at b2
      obtain ⟨c1, c2⟩ := (mirror_occ hw pos).1 b1
      have hb : (e == pos) = false := by simp; omega
      dsimp only
      rw [hb, List.map_cons]
      have hm : mir s.length (pos, e) = (s.length - (pos + w.length), s.length - (pos + w.length) + w.length) := by
        show (s.length - e, s.length - pos) = _
        rw [b2]
        congr 1
        omega
      rw [hm]
      refine .cons c2 (by omega) (fun q hq hl => by omega) ?_
      rw [← b2]
      exact ih e (by omega) (by omega)

/-- For a literal text, reversed_re_finditer finds what finditer finds in the reversed string, for the reversed text. -/
theorem C143_reversed_finditer {w : List α} (hw : w ≠ []) (s : List α) :
    reversedFinditer (rxMatcher (lit w) s) =
      .ok ((finditer (rxMatcher (lit w.reverse) s.reverse)).map (fun t => (s.length - t.2, s.length - t.1))) := by
  obtain ⟨ys, h1, h2⟩ := reversed_literal (litMatcher hw s)
  have h3 := forward_mirror hw s (2 * s.length + 2) 0 (by omega) (by omega)
  rw [h1, h2.unique h3]
  have : (rxMatcher (lit w.reverse) s.reverse).len = s.length := by show s.reverse.length = _; simp
  unfold finditer
  rw [this]
  rfl

/-! ### The pieces -/

omit [DecidableEq α] in
theorem between_snoc_take (d : Nat) (m : Span) : ∀ (l : List Span) (s : List α) (p : Nat), (∀ t ∈ l, t.2 ≤ m.1) → (p ≤ m.1) → m.1 ≤ d →
    m.1 ≤ m.2 → m.2 ≤ d → (∀ t ∈ l, t.1 ≤ t.2) →
    between (s.take d) p (l ++ [m]) = between (s.take m.1) p l ++ [(s.take d).drop m.2] := by
  intro l
  induction l with
  | nil =>
    intro s p _ _ h1 h2 h3 _
    simp [between, List.take_take, Nat.min_eq_left h1]
  | cons t l ih =>
    intro s p ht hp h1 h2 h3 hle
    have h5 := ht t (by simp)
    have h6 := hle t (by simp)
    rw [List.cons_append, between, between, ih s t.2 (fun u hu => ht u (by simp [hu])) h5 h1 h2 h3 (fun u hu => hle u (by simp [hu]))]
    rw [List.take_take, List.take_take, Nat.min_eq_left (by omega), Nat.min_eq_left (by omega)]
    rfl

theorem strings_snoc (s : List α) (t : List α) (m : Span) : ∀ (ts : List (List α)) (ms : List Span), ts.length = ms.length + 1 →
    strings s (ts ++ [t]) (ms ++ [m]) = strings s ts ms ++ [group s m, t] := by
  intro ts ms
  induction ms generalizing ts with
  | nil =>
    intro h
    obtain ⟨u, rfl⟩ : ∃ u, ts = [u] := List.length_eq_one_iff.1 (by simpa using h)
    rfl
  | cons x ms ih =>
    intro h
    cases ts with
    | nil => simp at h
    | cons u ts =>
      have := ih ts (by simpa using h)
      simp only [strings, List.map_cons, List.cons_append, weave, List.map_append] at this ⊢
      rw [this]

theorem strings_mirror (s : List α) : ∀ (zs : List Span) (pos : Nat), pos ≤ s.length → From s.length pos zs →
    ((strings s.reverse (between s.reverse pos zs) zs).map List.reverse).reverse =
      strings s (between (s.take (s.length - pos)) 0 (zs.map (mir s.length)).reverse) (zs.map (mir s.length)).reverse := by
  intro zs
  induction zs with
  | nil =>
    intro pos hp _
    have := reverse_slice s (a := pos) (b := s.length) hp (Nat.le_refl _)
    rw [List.take_of_length_le (by simp)] at this
    simp [strings, between, weave, Elem.str, this]
  | cons m zs ih =>
    intro pos hp hF
    have hm := hF.1 m (by simp)
    have hnext := hF.tail (Nat.le_refl m.2)
    have hi := ih m.2 hm.2.2 hnext
    have e1 : ((s.reverse.take m.1).drop pos).reverse = (s.take (s.length - pos)).drop (s.length - m.1) :=
      reverse_slice s (by omega) (by omega)
    have e2 : (group s.reverse m).reverse = group s (mir s.length m) := reverse_slice s (by omega) (by omega)
    have hl : strings s.reverse (between s.reverse pos (m :: zs)) (m :: zs) =
        (s.reverse.take m.1).drop pos :: group s.reverse m :: strings s.reverse (between s.reverse m.2 zs) zs := rfl
    rw [hl, List.map_cons, List.map_cons, List.reverse_cons, List.reverse_cons, hi, e1, e2]
    rw [List.map_cons, List.reverse_cons, between_snoc_take, strings_snoc]
    · simp [mir]
    · simp [between_ne]
    · intro t ht
      simp only [List.mem_reverse, List.mem_map] at ht
      obtain ⟨u, hu, rfl⟩ := ht
      have := hnext.1 u hu
      show s.length - u.1 ≤ s.length - m.2
      omega
    · omega
    · show s.length - m.2 ≤ s.length - pos; omega
    · show s.length - m.2 ≤ s.length - m.1; omega
    · show s.length - m.1 ≤ s.length - pos; omega
    · intro t ht
      simp only [List.mem_reverse, List.mem_map] at ht
      obtain ⟨u, hu, rfl⟩ := ht
      have := hnext.1 u hu
      show s.length - u.2 ≤ s.length - u.1
      omega

theorem weave_rpad (s : List α) (ts : List (List α)) (ms : List Span) (k : Nat) (h : ts.length = ms.length + 1) :
    (weave (List.replicate k [] ++ ts) (List.replicate k none ++ ms.map some)).map (·.str s) =
      List.replicate (2 * k) [] ++ strings s ts ms := by
  induction k with
  | zero => rfl
  | succ k ih =>
    obtain ⟨t, ts', rfl⟩ : ∃ t ts', ts = t :: ts' := by cases ts with
      | nil => simp at h
      | cons t ts' => exact ⟨t, ts', rfl⟩
    rw [List.replicate_succ, List.replicate_succ, show 2 * (k + 1) = 2 * k + 1 + 1 by omega, List.replicate_succ, List.replicate_succ]
    show [] :: [] :: _ = [] :: [] :: _
    exact congrArg (fun x => [] :: [] :: x) ih

/-- **C143**: with one separator, re_rpartition returns what multirpartition returns. -/
theorem C143_rpartition (nl : α) {cache : List (List α) → Option (List (List α))} (hc : Big.MS.CacheOK cache) {w : List α}
    (hw : w ≠ []) (s : List α) (count : Nat) :
    ∃ els, reRpartition (rxMatcher (sepRe [w] true) s) s count = .ok els ∧
      Big.MS.multirpartition nl cache s [w] count false true = .ok (els.map (·.str s)) := by
  have hwr : w.reverse ≠ [] := by simpa using hw
  have hre : sepRe [w] true = lit w := rfl
  have hr : NoLook (lit w) := noLook_lit w
  have hn := nullable_lit hw
  have hrr : NoLook (lit w.reverse) := noLook_lit _
  have hnr := nullable_lit hwr
  have hlen : (rxMatcher (lit w.reverse) s.reverse).len = s.length := by show s.reverse.length = _; simp
  rw [hre]
  let zs := finditer (rxMatcher (lit w.reverse) s.reverse)
  have hys : reversedFinditer (rxMatcher (lit w) s) = .ok (zs.map (mir s.length)) := C143_reversed_finditer hw s
  have hF : From s.length 0 zs := hlen ▸ finditer_from (rx_lawful _ _)
  have hFt : From s.length 0 (zs.take count) :=
    ⟨fun t ht => hF.1 t (List.mem_of_mem_take ht), hF.2.sublist (List.take_sublist _ _)⟩
  refine ⟨_, C93_textual_rexact (rx_lawful _ s) s (C93_textual _ hr hn s) count hys, ?_⟩
  have hmir := strings_mirror s (zs.take count) 0 (by omega) hFt
  rw [Nat.sub_zero, List.take_length] at hmir
  have hms : Big.MS.multisplit nl cache s [w] .alternating (some (count : Int)) true true .no =
      .ok ((strings s (between s 0 ((zs.take count).map (mir s.length)).reverse) ((zs.take count).map (mir s.length)).reverse).map .str) := by
    rw [← hmir]
    unfold Big.MS.multisplit
    rw [if_neg (by simp), if_pos rfl]
    unfold Big.MS.msGen
    by_cases hc0 : count = 0
    · subst hc0
      simp [strings, between, weave, Elem.str]
    · rw [if_neg (by simp; omega)]
      have h1 : ((count : Int) = -1) = False := by simp
      have h2 : ((count : Int) = 0) = False := by simp; omega
      have hset : match0 (sepRe (Big.MS.revSeps cache [w]) true) = match0 (lit w.reverse) :=
        Big.MS.match0_set (b := [w.reverse]) (fun v => by rw [Big.MS.mem_revSeps hc]; simp) true
      have := splitLoop_strings hrr hnr s.reverse (s.length + 1) count 0 (by omega) (by simp) (2 * s.length + 2) (by simp; omega)
      simp only [List.drop_zero] at this
      simp only [Option.getD_some, h1, if_false, if_true, Big.MS.reSplit, h2, Int.toNat_natCast, Big.MS.emit, hset]
      simp only [ne_eq, reduceCtorEq, not_false_eq_true, decide_true, if_false, List.length_reverse]
      rw [this]
      show _ = Except.ok (((strings s.reverse (between s.reverse 0 ((findFrom _ (2 * (rxMatcher (lit w.reverse) s.reverse).len + 3) 0 false).take count))
        ((findFrom _ (2 * (rxMatcher (lit w.reverse) s.reverse).len + 3) 0 false).take count)).map List.reverse).reverse.map Big.MS.Item.str)
      rw [hlen]
  have hb := between_ne s 0 ((zs.take count).map (mir s.length)).reverse
  unfold Big.MS.multirpartition
  rw [Bool.not_false, Big.MS.C42_multipartition_is_multisplit s count true true _ hms, if_pos rfl, strings_length s _ _ hb]
  have hpad : (padTo count (zs.map (mir s.length))).reverse =
      List.replicate (count - zs.length) none ++ (((zs.take count).map (mir s.length)).reverse).map some := by
    unfold padTo
    rw [List.reverse_append, List.reverse_replicate, List.length_map, ← List.map_take, List.map_reverse]
  rw [hpad, List.length_map, ← List.map_take, weave_rpad s _ _ _ hb]
  congr 3
  simp only [List.length_reverse, List.length_map, List.length_take]
  omega

/-- C143, a counterexample for several separators from the right: multirpartition finds the separator that ends last. -/
theorem C143_rpartition_differs :
    let s := "abcde".toList
    let seps := ["bcde".toList, "ab".toList, "d".toList]
    reRpartition (rxMatcher (sepRe seps true) s) s 1 = .ok [.text "abc".toList, .found (some (3, 4)), .text "e".toList] ∧
    Big.MS.multirpartition '\n' (fun _ => none) s seps 1 false true = .ok ["a".toList, "bcde".toList, []] := by
  decide +kernel

/-- Ordinary cases. -/
example : Big.MS.multipartition '\n' (fun _ => none) "a--b-c".toList ["-".toList, "--".toList] 2 false true =
    .ok ["a".toList, "--".toList, "b".toList, "-".toList, "c".toList] ∧
    (rePartition (rxMatcher (sepRe ["-".toList, "--".toList] true) "a--b-c".toList) "a--b-c".toList 2).map
      (·.map (·.str "a--b-c".toList)) = .ok ["a".toList, "--".toList, "b".toList, "-".toList, "c".toList] := by decide +kernel
example : (reRpartition (rxMatcher (sepRe ["aa".toList] true) "aaaba".toList) "aaaba".toList 2) =
    .ok [.text [], .found none, .text "a".toList, .found (some (1, 3)), .text "ba".toList] := by decide +kernel

end Big.RePart
