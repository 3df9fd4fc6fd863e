import Verif.Delims.Props
/-!
# The loop of split_delimiters
-/
namespace Big.SD
open Big.MS Big.MS.Spec

variable {α : Type} [DecidableEq α] {E : Env α} {ds : Delims α}

/-- The open delimiters are `L`, innermost first. -/
structure Inv (ds : Delims α) (L : List (List α × Delim α)) (m : M α) : Prop where
  chain : m.current :: m.stack.map (·.1) = L.map some ++ [none]
  mem : ∀ kd ∈ L, kd ∈ ds

/-- No token is ever ignored. -/
def NoFlush (E : Env α) (ds : Delims α) : Prop :=
  ∀ st : State α, (∀ kd, st = some kd → kd ∈ ds) → ∀ t ∈ allTokens E ds, get E ds st t ≠ .flush

/-- All tokens are single characters. -/
def Single (E : Env α) (ds : Delims α) : Prop := ∀ t ∈ allTokens E ds, t.length = 1

/-- What a part of the loop does that starts with variables `m` and open delimiters `L`, and has the
string `F` left. -/
def GoOK (E : Env α) (ds : Delims α) (L : List (List α × Delim α)) (m : M α) (F : List α)
    (r : List (Tuple α) × Out α) : Prop :=
  match r.2 with
  | .finished m' =>
    (∃ L', Inv ds L' m' ∧
      ∀ tail, Nests ds (L'.map (·.1)) tail → Nests ds (L.map (·.1)) (r.1 ++ tail)) ∧
    joined r.1 ++ m'.buffer.flatten = m.buffer.flatten ++ F
  | .resplit m' =>
    (∃ L', Inv ds L' m' ∧
      ∀ tail, Nests ds (L'.map (·.1)) tail → Nests ds (L.map (·.1)) (r.1 ++ tail)) ∧
    m.consumed < m'.consumed ∧ ¬ Single E ds ∧
    ∃ tail, joined r.1 ++ m'.buffer.flatten ++ tail = m.buffer.flatten ++ F ∧
      m'.consumed + tail.length ≤ m.consumed + F.length ∧
      (NoFlush E ds → m'.consumed + tail.length = m.consumed + F.length)
  | .err e => e = .syntaxError ∧ Nests ds (L.map (·.1)) r.1 ∧ joined r.1 <+: m.buffer.flatten ++ F

theorem GoOK.trans {L L1 : List (List α × Delim α)} {m m1 : M α} {x F : List α} {ys : List (Tuple α)}
    {r : List (Tuple α) × Out α}
    (hn : ∀ tail, Nests ds (L1.map (·.1)) tail → Nests ds (L.map (·.1)) (ys ++ tail))
    (hj : joined ys ++ m1.buffer.flatten = m.buffer.flatten ++ x)
    (hc1 : m.consumed ≤ m1.consumed) (hc2 : m1.consumed ≤ m.consumed + x.length)
    (hc3 : NoFlush E ds → m1.consumed = m.consumed + x.length)
    (h : GoOK E ds L1 m1 F r) : GoOK E ds L m (x ++ F) (yielding ys r) := by
  obtain ⟨r1, r2⟩ := r
  cases r2 with
  | finished m' =>
    obtain ⟨⟨L', h1, h2⟩, h3⟩ := h
    refine ⟨⟨L', h1, fun tail ht => ?_⟩, ?_⟩
    · have := hn _ (h2 tail ht)
      simpa [yielding] using this
    · simp only [yielding, joined_append, List.append_assoc]
      dsimp only at h3
      rw [h3, ← List.append_assoc, hj, List.append_assoc]
  | resplit m' =>
    obtain ⟨⟨L', h1, h2⟩, h3, h4, tail, h5, h6, h7⟩ := h
    dsimp only at h5
    refine ⟨⟨L', h1, fun tail ht => ?_⟩, by omega, h4, tail, ?_, ?_, ?_⟩
    · have := hn _ (h2 tail ht)
      simpa [yielding] using this
    · simp only [yielding, joined_append, List.append_assoc]
      rw [← List.append_assoc, ← List.append_assoc, List.append_assoc, List.append_assoc]
      simp only [List.append_assoc] at h5
      rw [h5, ← List.append_assoc, hj, List.append_assoc]
    · rw [List.length_append]; omega
    · intro hf
      have := hc3 hf
      have := h7 hf
      rw [List.length_append]; omega
  | err e =>
    obtain ⟨h1, h2, h3⟩ := h
    refine ⟨h1, hn _ h2, ?_⟩
    simp only [yielding, joined_append]
    dsimp only at h3
    obtain ⟨z, hz⟩ := h3
    refine ⟨z, ?_⟩
    rw [List.append_assoc, hz, ← List.append_assoc, hj, List.append_assoc]

/-- A pair of multisplit: the text and the token, or the empty string at the end. -/
def PairOK (E : Env α) (ds : Delims α) (p : List α × List α) : Prop := p.2 = [] ∨ p.2 ∈ allTokens E ds

omit [DecidableEq α] in
theorem yielding_nil (r : List (Tuple α) × Out α) : yielding [] r = r := rfl

omit [DecidableEq α] in
theorem take_one {t : List α} (h : t ≠ []) : ∃ c r, t = c :: r ∧ t.take 1 = [c] := by
  cases t with
  | nil => exact absurd rfl h
  | cons c r => exact ⟨c, r, rfl, rfl⟩

theorem Inv.current {L : List (List α × Delim α)} {m : M α} (h : Inv ds L m) :
    ∀ kd, m.current = some kd → kd ∈ ds := by
  intro kd e
  have hc := h.chain
  rw [e] at hc
  cases L with
  | nil => simp at hc
  | cons a L =>
    simp only [List.map_cons, List.cons_append, List.cons.injEq, Option.some.injEq] at hc
    exact h.mem _ (by rw [hc.1]; simp)

theorem Inv.top {L : List (List α × Delim α)} {m : M α} (h : Inv ds L m) {kd}
    (e : m.current = some kd) : ∃ L', L = kd :: L' ∧ m.stack.map (·.1) = L'.map some ++ [none] := by
  have hc := h.chain
  rw [e] at hc
  cases L with
  | nil => simp at hc
  | cons a L =>
    simp only [List.map_cons, List.cons_append, List.cons.injEq, Option.some.injEq] at hc
    exact ⟨L, by rw [hc.1], hc.2⟩

/-- Openers are unique. -/
theorem OK.unique (h : OK E ds) {k : List α} {d d' : Delim α} (h1 : (k, d) ∈ ds) (h2 : (k, d') ∈ ds) :
    d = d' := by
  have a := withOpeners_mem ds (fun _ => none) h.nodup h1
  have b := withOpeners_mem ds (fun _ => none) h.nodup h2
  rw [a] at b
  simpa using b

theorem Inv.plain (h : OK E ds) {L : List (List α × Delim α)} {m : M α} (hi : Inv ds L m)
    (hq : ∀ kd, m.current = some kd → kd.2.quoting = false) (q : List α) (dq : Delim α)
    (h1 : (L.map (·.1)).head? = some q) (h2 : (q, dq) ∈ ds) : dq.quoting = false := by
  cases L with
  | nil => simp at h1
  | cons a L =>
    have hc := hi.chain
    simp only [List.map_cons, List.cons_append, List.cons.injEq] at hc
    have := hq a hc.1
    simp only [List.map_cons, List.head?_cons, Option.some.injEq] at h1
    have ha : (q, a.2) ∈ ds := by rw [← h1]; exact hi.mem a (by simp)
    rw [h.unique h2 ha]
    exact this

theorem go_spec (h : OK E ds) (hd : Disjoint ds) : ∀ (ps : List (List α × List α)),
    (∀ p ∈ ps, PairOK E ds p) → ∀ (L : List (List α × Delim α)) (m : M α), Inv ds L m →
    GoOK E ds L m (flat ps) (go E ds ps m)
  | [], _, L, m, hi => by
    refine ⟨⟨L, hi, fun tail ht => ht⟩, ?_⟩
    simp [go, joined, flat]
  | (s, dl) :: rest, hp, L, m, hi => by
    have ih := go_spec h hd rest (fun p hp' => hp p (by simp [hp']))
    have hdl : dl = [] ∨ dl ∈ allTokens E ds := hp (s, dl) (by simp)
    rw [flat_cons]
    unfold go
    by_cases h1 : (s.isEmpty && dl.isEmpty) = true
    · rw [if_pos h1]
      simp only [Bool.and_eq_true, List.isEmpty_iff] at h1
      obtain ⟨rfl, rfl⟩ := h1
      exact ih L m hi
    rw [if_neg h1]
    by_cases h2 : (!m.escaped.isEmpty && s.isEmpty) = true
    · rw [if_pos h2]
      simp only [Bool.and_eq_true, List.isEmpty_iff] at h2
      obtain ⟨_, rfl⟩ := h2
      have hne : dl ≠ [] := by
        rintro rfl; simp at h1
      obtain ⟨c, w, rfl, ht⟩ := take_one hne
      have hi' : Inv ds L (⟨m.current, m.stack, m.opn, m.buffer ++ [(c :: w).take 1], [], m.consumed + 1⟩ : M α) :=
        ⟨hi.chain, hi.mem⟩
      dsimp only
      by_cases h3 : (c :: w).length = 1
      · rw [if_pos h3]
        have hw : w = [] := by simpa using h3
        subst hw
        refine GoOK.trans (L1 := L) (ys := []) (x := [] ++ [c]) (fun _ h => h) ?_ ?_ ?_ ?_ (ih L _ hi')
        · simp [joined]
        · simp
        · simp
        · simp
      · rw [if_neg h3]
        refine ⟨⟨L, hi', fun _ h => h⟩, by simp, ?_, w ++ flat rest, ?_, ?_, ?_⟩
        · intro hs
          rcases hdl with e | e
          · simp at e
          · exact h3 (hs _ e)
        · simp [joined]
        · simp only [List.length_append, List.nil_append, List.length_cons]; omega
        · intro _
          simp only [List.length_append, List.nil_append, List.length_cons]; omega
    rw [if_neg h2]
    extract_lets m1
    have hi1 : Inv ds L m1 := ⟨hi.chain, hi.mem⟩
    have hb1 : m1.buffer.flatten = m.buffer.flatten ++ s := by simp [m1]
    have hc1 : m1.consumed = m.consumed + s.length := rfl
    clear_value m1
    -- it is enough to go on from m1
    suffices hs : GoOK E ds L m1 (dl ++ flat rest)
        (if dl.isEmpty = true then go E ds rest m1
        else match get E ds m1.current dl with
        | .push st => yielding [(m1.buffer.flatten, dl, [])] (go E ds rest (doPush m1 dl st))
        | a =>
          match handle m1 (resolve E ds m1.current dl a).2.1 (resolve E ds m1.current dl a).2.2
            (resolve E ds m1.current dl a).1 with
          | (ys, .error e) => (ys, .err e)
          | (ys, .ok (m', true)) => (ys, .resplit m')
          | (ys, .ok (m', false)) => yielding ys (go E ds rest m')) by
      have := GoOK.trans (m := m) (L := L) (L1 := L) (ys := []) (x := s) (fun _ h => h)
        (by rw [hb1]; simp [joined]) (by omega) (by omega) (fun _ => by omega) hs
      rw [List.append_assoc]
      exact this
    by_cases h3 : dl.isEmpty = true
    · rw [if_pos h3]
      have : dl = [] := by simpa using h3
      subst this
      exact ih L m1 hi1
    rw [if_neg h3]
    have hne : dl ≠ [] := by simpa using h3
    have hdl : dl ∈ allTokens E ds := by
      rcases hdl with e | e
      · exact absurd e hne
      · exact e
    have hcur := hi1.current
    rcases get_cases h hd hcur dl with ⟨d, hmem, hq, hg⟩ | ⟨hnp, hstep⟩
    · rw [hg]
      dsimp only
      refine GoOK.trans (L1 := (dl, d) :: L) (fun tail ht => ?_) ?_ ?_ ?_ ?_ (ih ((dl, d) :: L) _ ⟨?_, ?_⟩)
      · exact .opener hmem (hi1.plain h hq) ht
      · simp [joined, doPush]
      · simp [doPush]
      · simp [doPush]
      · simp [doPush]
      · simp only [doPush, List.map_cons, List.cons_append, hi1.chain]
      · intro kd hkd
        rcases List.mem_cons.1 hkd with rfl | hkd
        · exact hmem
        · exact hi1.mem kd hkd
    · generalize hx : resolve E ds m1.current dl (get E ds m1.current dl) = x at hstep
      have hgo : (match get E ds m1.current dl with
        | .push st => yielding [(m1.buffer.flatten, dl, [])] (go E ds rest (doPush m1 dl st))
        | a =>
          match handle m1 (resolve E ds m1.current dl a).2.1 (resolve E ds m1.current dl a).2.2
            (resolve E ds m1.current dl a).1 with
          | (ys, .error e) => (ys, .err e)
          | (ys, .ok (m', true)) => (ys, .resplit m')
          | (ys, .ok (m', false)) => yielding ys (go E ds rest m')) =
          (match handle m1 x.2.1 x.2.2 x.1 with
          | (ys, .error e) => (ys, .err e)
          | (ys, .ok (m', true)) => (ys, .resplit m')
          | (ys, .ok (m', false)) => yielding ys (go E ds rest m')) := by
        subst hx
        cases hg : get E ds m1.current dl with
        | push st => exact absurd hg (hnp st)
        | _ => rfl
      rw [hgo]
      clear hgo hx
      cases hstep with
      | @pop kd b w e1 e2 e3 =>
        obtain ⟨L', rfl, hst⟩ := hi1.top e1
        have hkd : kd ∈ ds := hi1.mem kd (by simp)
        have hcne := close_ne h hkd
        cases hs : m1.stack with
        | nil => rw [hs] at hst; simp at hst
        | cons co stack =>
          obtain ⟨c, o⟩ := co
          have hi2 : Inv ds L' (⟨c, stack, o, [], m1.escaped, m1.consumed + kd.2.close.length⟩ : M α) :=
            ⟨by rw [hs] at hst; exact hst, fun kd' hk => hi1.mem kd' (by simp [hk])⟩
          have hn : ∀ tail, Nests ds (L'.map (·.1)) tail →
              Nests ds ((kd :: L').map (·.1)) ([(m1.buffer.flatten, [], kd.2.close)] ++ tail) :=
            fun tail ht => .closer (d := kd.2) hkd ht
          simp only [handle, hs]
          cases b with
          | true =>
            dsimp only
            refine ⟨⟨L', hi2, hn⟩, ?_, ?_, w ++ flat rest, ?_, ?_, ?_⟩
            · have := List.length_pos_iff.2 hcne
              dsimp only; omega
            · intro hsg
              have h1 := hsg _ hdl
              have h2 : w ≠ [] := e3.1 rfl
              have := List.length_pos_iff.2 hcne
              have := List.length_pos_iff.2 h2
              rw [e2, List.length_append] at h1
              omega
            · rw [e2]; simp [joined]
            · rw [e2]; simp only [List.length_append]; omega
            · intro _
              rw [e2]; simp only [List.length_append]; omega
          | false =>
            have hw : w = [] := by
              apply Decidable.byContradiction; intro hn; simpa using e3.2 hn
            subst hw
            simp only [List.append_nil] at e2
            subst e2
            dsimp only
            exact GoOK.trans hn (by simp [joined]) (by simp) (by simp) (by simp) (ih L' _ hi2)
      | @escape kd b w e1 hq e2 e3 =>
        have hkd : kd ∈ ds := hcur kd e1
        have hene : kd.2.escape ≠ [] := by rw [Ne, h.esc hkd, hq]; simp
        have hi2 : Inv ds L (⟨m1.current, m1.stack, m1.opn, m1.buffer ++ [kd.2.escape], kd.2.escape, m1.consumed + kd.2.escape.length⟩ : M α) :=
          ⟨hi1.chain, hi1.mem⟩
        simp only [handle]
        cases b with
        | true =>
          dsimp only
          refine ⟨⟨L, hi2, fun _ h => h⟩, ?_, ?_, w ++ flat rest, ?_, ?_, ?_⟩
          · have := List.length_pos_iff.2 hene
            dsimp only; omega
          · intro hsg
            have h1 := hsg _ hdl
            have h2 : w ≠ [] := e3.1 rfl
            have := List.length_pos_iff.2 hene
            have := List.length_pos_iff.2 h2
            rw [e2, List.length_append] at h1
            omega
          · rw [e2]; simp [joined]
          · rw [e2]; simp only [List.length_append]; omega
          · intro _
            rw [e2]; simp only [List.length_append]; omega
        | false =>
          have hw : w = [] := by
            apply Decidable.byContradiction; intro hn; simpa using e3.2 hn
          subst hw
          simp only [List.append_nil] at e2
          subst e2
          dsimp only
          exact GoOK.trans (L1 := L) (fun _ h => h) (by simp [joined]) (by simp) (by simp) (by simp)
            (ih L _ hi2)
      | flush e =>
        have hi2 : Inv ds L (⟨m1.current, m1.stack, m1.opn, m1.buffer ++ [dl], m1.escaped, m1.consumed⟩ : M α) :=
          ⟨hi1.chain, hi1.mem⟩
        simp only [handle]
        exact GoOK.trans (L1 := L) (fun _ h => h) (by simp [joined]) (by simp) (by simp)
          (fun hf => absurd e (hf _ hcur _ hdl)) (ih L _ hi2)
      | @flush1 kd e1 hq _ hnc hnes hov =>
        have hkd : kd ∈ ds := hcur kd e1
        have hi2 : Inv ds L (⟨m1.current, m1.stack, m1.opn, m1.buffer ++ [dl.take 1], m1.escaped, m1.consumed + 1⟩ : M α) :=
          ⟨hi1.chain, hi1.mem⟩
        simp only [handle]
        obtain ⟨c, w, rfl, ht⟩ := take_one hne
        refine ⟨⟨L, hi2, fun _ h => h⟩, by simp, ?_, w ++ flat rest, ?_, ?_, ?_⟩
        · intro hsg
          obtain ⟨x, hx, hx'⟩ := hov
          have hw : w = [] := by simpa using hsg _ hdl
          subst hw
          have hx : x = c := by simpa using hx
          subst hx
          rcases List.mem_append.1 hx' with hx' | hx'
          · have hl : kd.2.close.length = 1 := hsg _ (by
              unfold allTokens delimiterTokens closers
              simp only [List.mem_append, List.mem_map]
              exact .inl (.inl (.inr ⟨kd, hkd, rfl⟩)))
            obtain ⟨y, hy⟩ := List.length_eq_one_iff.1 hl
            rw [hy] at hx' hnc
            simp only [List.mem_singleton] at hx'
            exact hnc (by rw [hx'])
          · have hl : kd.2.escape.length = 1 := hsg _ (by
              unfold allTokens delimiterTokens escapes
              simp only [List.mem_append, List.mem_map, List.mem_filter]
              exact .inl (.inr ⟨kd, ⟨hkd, hq⟩, rfl⟩))
            obtain ⟨y, hy⟩ := List.length_eq_one_iff.1 hl
            rw [hy] at hx' hnes
            simp only [List.mem_singleton] at hx'
            exact hnes (by rw [hx'])
        · simp [joined]
        · simp only [List.length_append, List.length_cons]; omega
        · intro _
          simp only [List.length_append, List.length_cons]; omega
      | illegal _ => exact ⟨rfl, .nil, by simp [joined, handle]⟩
      | illegalNewline _ => exact ⟨rfl, .nil, by simp [joined, handle]⟩

end Big.SD
