import Verif.Quoted.Main
/-!
# C76: splitting quoted strings piece by piece with `state` (big/text.py:1828-2133)

The docstring (text.py:1979-1999): "if you were parsing multiple lines individually, and you wanted to
begin a new line continuing the state from the previous line -- pass in the appropriate quote delimiter".
-/
namespace Big.SQ
open Big.MS Big.MS.Spec

variable {α : Type} [DecidableEq α] {E : Env α}

/-! ### Specification -/

/-- No separator straddles the cut between `a` and `b`: none starts in `a` and ends in `b`. -/
def NoStraddle (seps : List (List α)) (a b : List α) : Prop :=
  ∀ p q, p ≠ [] → q ≠ [] → p ++ q ∈ seps → ¬ (p <:+ a ∧ q <+: b)

/-- The quote still open after the tuples `ys`, if `state` was open before (empty: none). -/
def endState (state : List α) (ys : List (Tuple α)) : List α :=
  match ys.getLast? with
  | none => []
  | some (l, _, c) => if c ≠ [] then [] else if l ≠ [] then l else if ys.length = 1 then state else []

/-- The tuples of the first piece, then those of the second. Texts that meet at the cut are joined, if
both are unquoted or both are inside the same quotes; if splitting the second piece raises an exception
before it yields anything, the quoted text at the end of the first is lost. -/
def continued (state : List α) (ya yb : List (Tuple α)) : List (Tuple α) :=
  match ya.getLast? with
  | some (l, t, []) =>
    if endState state ya = [] then
      match yb with
      | ([], u, []) :: ys => ya.dropLast ++ ([], t ++ u, []) :: ys
      | _ => ya ++ yb
    else
      match yb with
      | (_, u, c) :: ys => ya.dropLast ++ (l, t ++ u, c) :: ys
      | [] => ya.dropLast
  | _ => ya ++ yb

/-! ### Joining the pieces of two strings -/

/-- The pieces of `a ++ b`. -/
def joinP : List (List α) → List (List α) → List (List α)
  | [n], m :: r => (n ++ m) :: r
  | n :: w :: rest, l => n :: w :: joinP rest l
  | _, l => l

omit [DecidableEq α] in
theorem joinP_flatten : ∀ (la lb : List (List α)), la.length % 2 = 1 → lb ≠ [] →
    (joinP la lb).flatten = la.flatten ++ lb.flatten
  | [], _, h, _ => by simp at h
  | [n], lb, _, hb => by
    cases lb with
    | nil => exact absurd rfl hb
    | cons m r => simp [joinP]
  | n :: w :: rest, lb, h, hb => by
    have := joinP_flatten rest lb (by simp only [List.length_cons] at h; omega) hb
    simp [joinP, this]

omit [DecidableEq α] in
theorem pre_app {w x b : List α} (h : w <+: x ++ b) : w <+: x ∨ ∃ u, w = x ++ u ∧ u <+: b := by
  rcases List.prefix_or_prefix_of_prefix h (List.prefix_append x b) with h1 | ⟨u, rfl⟩
  · exact .inl h1
  · exact .inr ⟨u, rfl, (List.prefix_append_right_inj x).1 h⟩

omit [DecidableEq α] in
theorem noSep_append {seps : List (List α)} {x b : List α} (hx : x ≠ []) {a : List α} (ha : x <:+ a)
    (hc : NoStraddle seps a b) (h : NoSep seps x) : NoSep seps (x ++ b) := by
  intro w hw hp
  rcases pre_app hp with h1 | ⟨u, rfl, hu⟩
  · exact h w hw h1
  · by_cases e : u = []
    · subst e; exact h _ hw (by simp)
    · exact hc x u hx e hw ⟨ha, hu⟩

omit [DecidableEq α] in
theorem alternates_join {seps : List (List α)} (he : [] ∉ seps) : ∀ (la lb : List (List α)),
    Alternates seps true la → Alternates seps true lb → NoStraddle seps la.flatten lb.flatten →
    Alternates seps true (joinP la lb)
  | [], _, h, _, _ => h.elim
  | _, [], _, h, _ => h.elim
  | [n], m :: r, ha, hb, hc => by
    have hn : n = [n].flatten := by simp
    have key : ∀ x y, n = x ++ y → y ≠ [] → ∀ z, z <+: (m :: r).flatten → NoSep seps (y ++ z) := by
      intro x y e hy z hz
      refine noSep_append hy (a := [n].flatten) ?_ ?_ (ha x y e)
      · exact ⟨x, by rw [← hn, e]⟩
      · intro p q hp hq hm hh
        exact hc p q hp hq hm ⟨hh.1, hh.2.trans hz⟩
    cases r with
    | nil =>
      intro x y e
      rcases List.append_eq_append_iff.1 e with ⟨u, h1, h2⟩ | ⟨u, h1, h2⟩
      · exact hb u y h2
      · by_cases hu : u = []
        · subst hu; rw [List.nil_append] at h2; rw [h2]; exact hb [] m rfl
        · rw [h2]; exact key x u h1 hu m (by simp)
    | cons w rest =>
      refine ⟨?_, hb.2⟩
      intro x y e hy
      rcases List.append_eq_append_iff.1 e with ⟨u, h1, h2⟩ | ⟨u, h1, h2⟩
      · exact hb.1 u y h2 hy
      · by_cases hu : u = []
        · subst hu; rw [List.nil_append] at h2
          rw [h2]
          exact hb.1 [] m rfl (h2 ▸ hy)
        · rw [h2, List.append_assoc]
          exact key x u h1 hu _ (by simp)
  | n :: w :: rest, m :: r, ha, hb, hc => by
    have hodd : rest.length % 2 = 1 := alternates_odd rest ha.2.2
    have hfl := joinP_flatten rest (m :: r) hodd (by simp)
    have hlong : Longest seps w (w ++ rest.flatten) := by
      simpa only [SepAt, if_true] using ha.2.1
    have hw : w ≠ [] := fun e => he (e ▸ hlong.1)
    refine ⟨?_, ?_, alternates_join he rest (m :: r) ha.2.2 hb ?_⟩
    · intro x y e hy
      rw [hfl]
      have h1 : y ++ (w ++ (rest.flatten ++ (m :: r).flatten)) =
          (y ++ (w ++ rest.flatten)) ++ (m :: r).flatten := by simp
      rw [h1]
      refine noSep_append (by simp [hy]) ?_ hc (ha.1 x y e hy)
      exact ⟨x, by simp [e]⟩
    · simp only [SepAt, if_true]
      rw [hfl]
      refine ⟨hlong.1, List.prefix_append _ _, ?_⟩
      intro w' hw' hp
      rw [← List.append_assoc] at hp
      rcases pre_app hp with h1 | ⟨u, rfl, hu⟩
      · exact hlong.2.2 w' hw' h1
      · by_cases e : u = []
        · subst e; exact hlong.2.2 _ hw' (by simp)
        · exact absurd ⟨⟨n, by simp⟩, hu⟩ (hc _ u (by simp [hw]) e hw')
    · intro p q hp hq hm hh
      exact hc p q hp hq hm ⟨hh.1.trans ⟨n ++ w, by simp⟩, hh.2⟩

/-! ### The loop on the first piece -/

variable {all ml : List (List α)}

theorem loop_first (hall : [] ∉ all) (m : List α) (r : List (List α)) : ∀ (l : List (List α))
    (st quote : List α) (buffer : List (List α)) (ya : List (Tuple α)),
    l.length % 2 = 1 → (∀ w ∈ Spec.seps l, w ≠ []) → (∀ x ∈ buffer, x ≠ []) →
    (st = [] ∨ st = quote) → (quote ≠ [] → quote ∈ all) →
    loop E all ml st quote buffer (pairs l) = (ya, none) →
    ∃ Y st' q' B n, (∀ x ∈ B, x ≠ []) ∧ (st' = [] ∨ st' = q' ∧ st' = st ∧ Y = []) ∧
      (st ≠ [] → st' = [] → Y ≠ []) ∧ (quote ≠ [] → q' = [] → Y ≠ []) ∧
      (q' = [] → Y = [] ∨ ∃ x, Y.getLast? = some x ∧ x.2.2 ≠ []) ∧
      (q' ≠ [] → q' ∈ all) ∧ ¬ bad E ml q' (B.flatten ++ n) = true ∧
      ya = Y ++ (if B.flatten ++ n = [] ∧ q' = [] then []
        else [(if st'.isEmpty then q' else [], B.flatten ++ n, [])]) ∧
      loop E all ml st quote buffer (pairs (joinP l (m :: r))) =
        (Y ++ (loop E all ml st' q' B (pairs ((n ++ m) :: r))).1,
          (loop E all ml st' q' B (pairs ((n ++ m) :: r))).2)
  | [], _, _, _, _, h, _, _, _, _, _ => by simp at h
  | [n], st, quote, buffer, ya, _, _, hb, hst, hq, h => by
    refine ⟨[], st, quote, buffer, n, hb, ?_, fun h1 h2 => absurd h2 h1, fun h1 h2 => absurd h2 h1,
      fun _ => .inl rfl, hq, ?_⟩
    · rcases hst with h | h
      · exact .inl h
      · exact .inr ⟨h, rfl, rfl⟩
    have hfin : loop E all ml st quote buffer (pairs [n])
        = finish E ml st quote (addLiteral buffer n ++ [[]]) := by
      simp only [pairs, loop]
      by_cases hq : quote.isEmpty = true
      · rw [if_pos hq, if_pos (by simpa using hall)]
      · rw [if_neg hq, if_pos]
        intro h; apply hq; rw [← h]; rfl
    rw [hfin] at h
    have hbuf : (addLiteral buffer n ++ [[]]).flatten = buffer.flatten ++ n := by
      simp [addLiteral_flatten]
    unfold finish at h
    rw [if_neg (by simp), hbuf] at h
    dsimp only at h
    by_cases hany : (!(buffer.flatten ++ n).isEmpty || !quote.isEmpty) = true
    · rw [if_pos hany] at h
      by_cases hbad : bad E ml quote (buffer.flatten ++ n) = true
      · rw [if_pos hbad] at h; simp at h
      · rw [if_neg hbad] at h
        refine ⟨hbad, ?_, by simp [joinP]⟩
        simp only [Prod.mk.injEq, and_true] at h
        have hno : ¬ (buffer.flatten ++ n = [] ∧ quote = []) := by
          rintro ⟨h1, h2⟩
          rw [h1, h2] at hany
          simp at hany
        rw [← h, if_neg hno]
        rfl
    · rw [if_neg hany] at h
      simp only [Bool.or_eq_true, Bool.not_eq_true', not_or, Bool.not_eq_false, List.isEmpty_iff] at hany
      refine ⟨by simp [bad, hany.2], ?_, by simp [joinP]⟩
      simp only [Prod.mk.injEq, and_true] at h
      rw [← h, if_pos ⟨hany.1, hany.2⟩]
      rfl
  | n :: w :: rest, st, quote, buffer, ya, hodd, hsn, hb, hst, hq, h => by
    have hodd' : rest.length % 2 = 1 := by simp only [List.length_cons] at hodd; omega
    have hsn' : ∀ w ∈ Spec.seps rest, w ≠ [] := fun v hv => hsn v (by simp [Spec.seps, hv])
    have hwne : w ≠ [] := hsn w (by simp [Spec.seps])
    have hne' : ∀ x ∈ addLiteral buffer n ++ [w], x ≠ [] := by
      intro x hx
      rcases List.mem_append.1 hx with hx | hx
      · exact addLiteral_ne buffer n hb x hx
      · rw [List.mem_singleton.1 hx]; exact hwne
    simp only [joinP]
    by_cases hq0 : quote = []
    · subst hq0
      have hst0 : st = [] := by rcases hst with h | h <;> exact h
      subst hst0
      by_cases hw : w ∈ all
      · by_cases hbe : (addLiteral buffer n).isEmpty = true
        · have hloop : ∀ x, loop E all ml [] [] buffer (pairs (n :: w :: x))
              = loop E all ml [] w [] (pairs x) := by
            intro x
            simp only [pairs, loop]
            rw [if_pos (show ([] : List α).isEmpty = true from rfl), if_neg (by simpa using hw), if_pos hbe]
          rw [hloop] at h ⊢
          obtain ⟨Y, st', q', B, n', g1, g2, g3, g4, g5, g6⟩ := loop_first hall m r rest [] w [] ya hodd'
            hsn' (by simp) (.inl rfl) (fun _ => hw) h
          refine ⟨Y, st', q', B, n', g1, g2, g3, fun h => absurd rfl h, ?_, g6⟩
          intro e
          rcases g5 e with h1 | h1
          · exact absurd h1 (g4 hwne e)
          · exact .inr h1
        · have hloop : ∀ x, loop E all ml [] [] buffer (pairs (n :: w :: x))
              = (([], (addLiteral buffer n).flatten, []) :: (loop E all ml [] w [] (pairs x)).1,
                  (loop E all ml [] w [] (pairs x)).2) := by
            intro x
            simp only [pairs, loop]
            rw [if_pos (show ([] : List α).isEmpty = true from rfl), if_neg (by simpa using hw), if_neg hbe]
          rw [hloop] at h ⊢
          simp only [Prod.mk.injEq] at h
          obtain ⟨Y, st', q', B, n', g1, g2, g3, g4, g5, g6, g7, g8, g9⟩ := loop_first hall m r rest []
            w [] (loop E all ml [] w [] (pairs rest)).1 hodd' hsn' (by simp) (.inl rfl) (fun _ => hw) (Prod.ext rfl h.2)
          refine ⟨([], (addLiteral buffer n).flatten, []) :: Y, st', q', B, n', g1, ?_,
            fun h => absurd rfl h, fun h => absurd rfl h, ?_, g6, g7, ?_, ?_⟩
          · rcases g2 with h | ⟨_, h, _⟩ <;> exact .inl h
          · intro e
            right
            have hY := g4 hwne e
            rcases g5 e with h1 | ⟨x, h1, h2⟩
            · exact absurd h1 hY
            · refine ⟨x, ?_, h2⟩
              cases Y with
              | nil => exact absurd rfl hY
              | cons y ys => rw [List.getLast?_cons_cons]; exact h1
          · rw [← h.1, g8]; rfl
          · rw [g9]; rfl
      · have hloop : ∀ x, loop E all ml [] [] buffer (pairs (n :: w :: x))
            = loop E all ml [] [] (addLiteral buffer n ++ [w]) (pairs x) := by
          intro x
          simp only [pairs, loop]
          rw [if_pos (show ([] : List α).isEmpty = true from rfl), if_pos (by simpa using hw)]
        rw [hloop] at h ⊢
        exact loop_first hall m r rest [] [] _ ya hodd' hsn' hne' hst hq h
    · by_cases hw : w = quote
      · subst hw
        by_cases hbad : bad E ml w (addLiteral buffer n).flatten = true
        · have hloop : loop E all ml st w buffer (pairs (n :: w :: rest)) = ([], some .syntaxError) := by
            simp only [pairs, loop]
            rw [if_neg (by simpa using hq0), if_neg (by simp), if_pos hbad]
          rw [hloop] at h
          simp at h
        · have hloop : ∀ x, loop E all ml st w buffer (pairs (n :: w :: x))
              = ((if st.isEmpty then w else [], (addLiteral buffer n).flatten, w)
                  :: (loop E all ml [] [] [] (pairs x)).1, (loop E all ml [] [] [] (pairs x)).2) := by
            intro x
            simp only [pairs, loop]
            rw [if_neg (by simpa using hq0), if_neg (by simp), if_neg hbad]
          rw [hloop] at h ⊢
          simp only [Prod.mk.injEq] at h
          obtain ⟨Y, st', q', B, n', g1, g2, g3, g4, g5, g6, g7, g8, g9⟩ := loop_first hall m r rest []
            [] [] (loop E all ml [] [] [] (pairs rest)).1 hodd' hsn' (by simp) (.inl rfl) (fun h => absurd rfl h) (Prod.ext rfl h.2)
          refine ⟨(if st.isEmpty then w else [], (addLiteral buffer n).flatten, w) :: Y, st', q', B, n',
            g1, ?_, by simp, by simp, ?_, g6, g7, ?_, ?_⟩
          · rcases g2 with h | ⟨_, h, _⟩ <;> exact .inl h
          · intro e
            right
            rcases g5 e with h1 | ⟨x, h1, h2⟩
            · subst h1; exact ⟨_, rfl, hwne⟩
            · refine ⟨x, ?_, h2⟩
              cases Y with
              | nil => simp at h1
              | cons y ys => rw [List.getLast?_cons_cons]; exact h1
          · rw [← h.1, g8]; rfl
          · rw [g9]; rfl
      · have hloop : ∀ x, loop E all ml st quote buffer (pairs (n :: w :: x))
            = loop E all ml st quote (addLiteral buffer n ++ [w]) (pairs x) := by
          intro x
          simp only [pairs, loop]
          rw [if_neg (by simpa using hq0), if_pos hw]
        rw [hloop] at h ⊢
        exact loop_first hall m r rest st quote _ ya hodd' hsn' hne' hst hq h

/-! ### The loop on the second piece -/

theorem bad_append {brk : α → Bool} (hbrk : ∀ t, multi E t = t.any brk) {q ta : List α}
    (hq : q ≠ []) (h : ¬ bad E ml q ta = true) (t : List α) : bad E ml q (ta ++ t) = bad E ml q t := by
  unfold bad at h ⊢
  rw [hbrk] at h ⊢
  rw [hbrk]
  by_cases hm : q ∈ ml
  · simp [hm]
  · by_cases ht : t = []
    · subst ht
      simpa [hq, hm] using h
    · by_cases hta : ta = []
      · simp [hta]
      · simp [hq, hm, hta] at h
        have h0 : ta.any brk = false := by
          rw [List.any_eq_false]; intro x hx; simp [h x hx]
        have h1 : (ta ++ t).isEmpty = false := by simp [ht]
        have h2 : t.isEmpty = false := by simp [ht]
        rw [List.any_append, h0, h1, h2, Bool.false_or]

/-- Inside quotes. -/
def glueQ (lead ta : List α) (x : List (Tuple α) × Option Err) : List (Tuple α) × Option Err :=
  match x.1 with
  | (_, u, c) :: ys => ((lead, ta ++ u, c) :: ys, x.2)
  | [] => ([], x.2)

theorem loop_q {q : List α} (hq : q ≠ []) (st x v : List α) (B : List (List α))
    (ps : List (List α × List α)) : loop E all ml st q B ((x, v) :: ps) =
      if v = q then
        if bad E ml q (addLiteral B x).flatten = true then ([], some .syntaxError)
        else ((if st.isEmpty then q else [], (addLiteral B x).flatten, q) ::
          (loop E all ml [] [] [] ps).1, (loop E all ml [] [] [] ps).2)
      else loop E all ml st q (addLiteral B x ++ [v]) ps := by
  rw [loop]
  dsimp only
  rw [if_neg (by simpa using hq)]
  by_cases hv : v = q
  · rw [if_neg (fun h => h hv), if_pos hv]
  · rw [if_pos hv, if_neg hv]

theorem finish_q {q : List α} (hq : q ≠ []) (st : List α) {B : List (List α)} (hB : B ≠ []) :
    finish E ml st q B =
      if bad E ml q B.flatten = true then ([], some .syntaxError)
      else ([(if st.isEmpty then q else [], B.flatten, [])], none) := by
  unfold finish
  rw [if_neg (by simpa using hB)]
  dsimp only
  have : (!q.isEmpty) = true := by simpa using hq
  rw [this, Bool.or_true, if_pos rfl]

theorem loop_quoted {brk : α → Bool} (hbrk : ∀ t, multi E t = t.any brk) {q st' ta : List α}
    (hq : q ≠ []) (h : ¬ bad E ml q ta = true) : ∀ (ps : List (List α × List α)) (v x m : List α)
    (B B2 : List (List α)), B.flatten ++ x = ta ++ (B2.flatten ++ m) →
    loop E all ml st' q B ((x, v) :: ps) =
      glueQ (if st'.isEmpty then q else []) ta (loop E all ml q q B2 ((m, v) :: ps)) := by
  have hqe : ¬ q.isEmpty = true := by simpa using hq
  intro ps
  induction ps with
  | nil =>
    intro v x m B B2 hB
    have hfx : (addLiteral B x).flatten = ta ++ (addLiteral B2 m).flatten := by
      rw [addLiteral_flatten, addLiteral_flatten, hB]
    have hf2 : (addLiteral B x ++ [v]).flatten = ta ++ (addLiteral B2 m ++ [v]).flatten := by
      simp [hfx]
    rw [loop_q hq st' x v B, loop_q hq q m v B2]
    by_cases hv : v = q
    · rw [if_pos hv, if_pos hv, hfx, bad_append hbrk hq h]
      split
      · rfl
      · rfl
    · rw [if_neg hv, if_neg hv]
      simp only [loop]
      rw [finish_q hq _ (by simp), finish_q hq _ (by simp), hf2, bad_append hbrk hq h]
      split
      · rfl
      · rfl
  | cons p ps ih =>
    intro v x m B B2 hB
    have hfx : (addLiteral B x).flatten = ta ++ (addLiteral B2 m).flatten := by
      rw [addLiteral_flatten, addLiteral_flatten, hB]
    rw [loop_q hq st' x v B, loop_q hq q m v B2]
    by_cases hv : v = q
    · rw [if_pos hv, if_pos hv, hfx, bad_append hbrk hq h]
      split
      · rfl
      · rfl
    · rw [if_neg hv, if_neg hv]
      obtain ⟨p1, p2⟩ := p
      refine ih p2 p1 p1 _ _ ?_
      simp [hfx]

/-- Outside quotes. -/
def glueU (ta : List α) (x : List (Tuple α) × Option Err) : List (Tuple α) × Option Err :=
  if ta = [] then x
  else match x.1 with
    | ([], u, []) :: ys => (([], ta ++ u, []) :: ys, x.2)
    | ys => (([], ta, []) :: ys, x.2)

/-- A quoted string that starts in this piece has a leading quote. -/
theorem loop_lead {q : List α} (hq : q ≠ []) : ∀ (ps : List (List α × List α)) (B : List (List α))
    (y : Tuple α), (loop E all ml [] q B ps).1.head? = some y → y.1 = q := by
  intro ps
  induction ps with
  | nil =>
    intro B y h
    simp only [loop, finish] at h
    split at h
    · simp at h
    · split at h
      · split at h
        · simp at h
        · simp at h; rw [← h]
      · simp at h
  | cons p ps ih =>
    intro B y h
    obtain ⟨x, v⟩ := p
    rw [loop] at h
    dsimp only at h
    rw [if_neg (by simpa using hq)] at h
    split at h
    · exact ih _ _ h
    · split at h
      · simp at h
      · simp at h; rw [← h]

theorem glueU_cons {ta : List α} (hta : ta ≠ []) {x : List (Tuple α) × Option Err}
    (h : ∀ y, x.1.head? = some y → y.1 ≠ []) : glueU ta x = (([], ta, []) :: x.1, x.2) := by
  unfold glueU
  rw [if_neg hta]
  split
  · rename_i u ys he
    exact absurd rfl (h ([], u, []) (by rw [he]; rfl))
  · rfl

theorem loop_unquoted (hall : [] ∉ all) (ta : List α) : ∀ (r : List (List α)) (x m : List α)
    (B B2 : List (List α)), (∀ w ∈ Spec.seps (m :: r), w ≠ []) → (m :: r).length % 2 = 1 →
    (∀ z ∈ B, z ≠ []) → (∀ z ∈ B2, z ≠ []) → B.flatten ++ x = ta ++ (B2.flatten ++ m) →
    loop E all ml [] [] B (pairs (x :: r)) = glueU ta (loop E all ml [] [] B2 (pairs (m :: r)))
  | [], x, m, B, B2, _, _, h1, h2, hB => by
    have hf : ∀ (C : List (List α)) (y : List α), loop E all ml [] [] C (pairs [y]) =
        (if C.flatten ++ y = [] then [] else [([], C.flatten ++ y, [])], none) := by
      intro C y
      simp only [pairs, loop]
      rw [if_pos (show ([] : List α).isEmpty = true from rfl), if_pos (by simpa using hall)]
      unfold finish
      rw [if_neg (by simp)]
      have hbuf : (addLiteral C y ++ [[]]).flatten = C.flatten ++ y := by simp [addLiteral_flatten]
      rw [hbuf]
      dsimp only
      by_cases e : C.flatten ++ y = []
      · rw [e]; simp
      · have : (C.flatten ++ y).isEmpty = false := by
          rw [List.isEmpty_eq_false_iff]; exact e
        rw [this, if_neg e]
        simp [bad]
    rw [hf, hf, hB]
    by_cases hta : ta = []
    · simp [glueU, hta]
    · by_cases hm : B2.flatten ++ m = []
      · simp [glueU, hta, hm]
      · rw [if_neg hm]
        simp [glueU, hta]
  | [_], _, _, _, _, _, h, _, _, _ => by simp at h
  | v :: m' :: r, x, m, B, B2, hsn, hodd, h1, h2, hB => by
    have hv : v ≠ [] := hsn v (by simp [Spec.seps])
    have hfx : (addLiteral B x).flatten = ta ++ (addLiteral B2 m).flatten := by
      rw [addLiteral_flatten, addLiteral_flatten, hB]
    have n1 := addLiteral_ne B x h1
    have n2 := addLiteral_ne B2 m h2
    have open1 : ∀ (C : List (List α)) (y : List α), (∀ z ∈ addLiteral C y, z ≠ []) → v ∈ all →
        loop E all ml [] [] C (pairs (y :: v :: m' :: r)) =
          ((if (addLiteral C y).flatten = [] then [] else [([], (addLiteral C y).flatten, [])]) ++
            (loop E all ml [] v [] (pairs (m' :: r))).1, (loop E all ml [] v [] (pairs (m' :: r))).2) := by
      intro C y hC hw
      rw [show pairs (y :: v :: m' :: r) = (y, v) :: pairs (m' :: r) from rfl, loop]
      dsimp only
      rw [if_pos (show ([] : List α).isEmpty = true from rfl), if_neg (by simpa using hw)]
      by_cases e : (addLiteral C y).flatten = []
      · rw [if_pos (by rw [flatten_nil_of hC e]; rfl), if_pos e]; rfl
      · rw [if_neg (by intro h; apply e; rw [List.isEmpty_iff.1 h]; rfl), if_neg e]; rfl
    by_cases hw : v ∈ all
    · rw [open1 B x n1 hw, open1 B2 m n2 hw, hfx]
      by_cases hta : ta = []
      · simp [glueU, hta]
      · by_cases hm : (addLiteral B2 m).flatten = []
        · rw [if_neg (by simp [hta]), if_pos hm, hm]
          rw [glueU_cons hta]
          · simp
          · intro y hy e
            have := loop_lead (E := E) (all := all) (ml := ml) hv (pairs (m' :: r)) [] y (by simpa using hy)
            exact hv (this ▸ e)
        · rw [if_neg (by simp [hta]), if_neg hm]
          simp [glueU, hta]
    · have step : ∀ (C : List (List α)) (y : List α), loop E all ml [] [] C (pairs (y :: v :: m' :: r)) =
          loop E all ml [] [] (addLiteral C y ++ [v]) (pairs (m' :: r)) := by
        intro C y
        rw [show pairs (y :: v :: m' :: r) = (y, v) :: pairs (m' :: r) from rfl, loop]
        dsimp only
        rw [if_pos (show ([] : List α).isEmpty = true from rfl), if_pos (by simpa using hw)]
      rw [step, step]
      refine loop_unquoted hall ta r m' m' _ _ (fun w h => hsn w (by simp [Spec.seps, h]))
        (by simp only [List.length_cons] at hodd ⊢; omega) ?_ ?_ (by simp [hfx])
      · intro z hz
        rcases List.mem_append.1 hz with hz | hz
        · exact n1 z hz
        · rw [List.mem_singleton.1 hz]; exact hv
      · intro z hz
        rcases List.mem_append.1 hz with hz | hz
        · exact n2 z hz
        · rw [List.mem_singleton.1 hz]; exact hv

/-! ### The function -/

/-- What a call that is accepted does, and which calls are accepted. -/
theorem call_eq (hc : CacheOK E.cache) (hsort : ∀ l w, w ∈ E.sort l ↔ w ∈ l) {quotes ml : List (List α)}
    {escape : List α} {a state : List α} {r} (h : splitQuotedStrings E a quotes escape ml state = .ok r) :
    [] ∉ quotes ++ ml ∧ [] ∉ Separators quotes ml escape ∧ (state ≠ [] → state ∈ quotes ++ ml) ∧
    ∀ s state', (state' ≠ [] → state' ∈ quotes ++ ml) → ∃ L,
      Splits (Separators quotes ml escape) true false s L ∧
      splitQuotedStrings E s quotes escape ml state' =
        .ok (loop E (quotes ++ ml) ml state' state' [] (pairs L)) := by
  unfold splitQuotedStrings at h
  by_cases h1 : (quotes.any List.isEmpty || ml.any List.isEmpty) = true
  · rw [if_pos h1] at h; simp at h
  rw [if_neg h1] at h
  by_cases h2 : (quotes ++ ml).isEmpty = true
  · rw [if_pos h2] at h; simp at h
  rw [if_neg h2] at h
  by_cases h3 : (!state.isEmpty && !(quotes ++ ml).contains state) = true
  · rw [if_pos h3] at h; simp at h
  rw [if_neg h3] at h
  by_cases h4 : (repeated quotes || repeated ml) = true
  · rw [if_pos h4] at h; simp at h
  rw [if_neg h4] at h
  by_cases h5 : (quotes.any (fun q => ml.contains q)) = true
  · rw [if_pos h5] at h; simp at h
  rw [if_neg h5] at h
  have hall : [] ∉ quotes ++ ml := by
    intro hm
    apply h1
    rw [Bool.or_eq_true]
    rcases List.mem_append.1 hm with hm | hm
    · left; exact List.any_eq_true.2 ⟨[], hm, rfl⟩
    · right; exact List.any_eq_true.2 ⟨[], hm, rfl⟩
  have hmem : ∀ w, w ∈ separators E quotes ml escape ↔ w ∈ Separators quotes ml escape := by
    intro w
    unfold separators
    rw [hsort]
    unfold Separators
    by_cases he : escape = []
    · subst he; simp
    · rw [if_neg he, if_neg (by simpa using he)]
  have he' : [] ∉ Separators quotes ml escape := by
    unfold Separators
    rw [List.mem_append]
    rintro (hm | hm)
    · exact hall hm
    · by_cases he : escape = []
      · rw [if_pos he] at hm; simp at hm
      · rw [if_neg he] at hm
        simp only [List.mem_append, List.mem_map, List.append_eq_nil_iff, List.mem_singleton] at hm
        rcases hm with ⟨_, _, h, _⟩ | h
        · exact he h
        · exact he (List.append_eq_nil_iff.1 h.symm).1
  have he : [] ∉ separators E quotes ml escape := by rw [hmem]; exact he'
  have hne : separators E quotes ml escape ≠ [] := by
    intro hn
    have : ∀ w, w ∉ quotes ++ ml := by
      intro w hw
      have : w ∈ separators E quotes ml escape := (hmem w).2 (List.mem_append.2 (.inl hw))
      rw [hn] at this
      simp at this
    apply h2
    cases hl : quotes ++ ml with
    | nil => rfl
    | cons a l => exact absurd (by rw [hl]; simp) (this a)
  have hstate : ∀ state' : List α, ¬ (!state'.isEmpty && !(quotes ++ ml).contains state') = true ↔
      (state' ≠ [] → state' ∈ quotes ++ ml) := by
    intro state'
    rw [Bool.and_eq_true, Bool.not_eq_true', Bool.not_eq_true', List.isEmpty_eq_false_iff]
    simp only [not_and, Bool.not_eq_false, List.contains_iff_mem]
  refine ⟨hall, he', (hstate state).1 h3, ?_⟩
  intro s state' hs
  obtain ⟨L, hL, _, _, _, hp⟩ := C38_multisplit_splits_exactly (nl := E.nl) hc hne he s false true
    (some (-1)) (.inr rfl)
  obtain ⟨hL1, hL2⟩ := hL
  simp only [Bool.false_eq_true, if_false] at hL2
  refine ⟨L, ⟨hL1, by simpa using alternates_congr hmem L hL2⟩, ?_⟩
  unfold splitQuotedStrings
  rw [if_neg h1, if_neg h2, if_neg ((hstate state').2 hs), if_neg h4, if_neg h5, hp]
  simp only [List.map_map]
  have hpo : (pairOf ∘ fun x : List α × List α => Item.pair x.1 x.2) = id := by funext x; rfl
  rw [hpo, List.map_id]

/-- C76: for every string, quote marks (of any length), escape and initial state, and every way to cut the
string in two that cuts no quote mark and no escape sequence in two: if split_quoted_strings takes the
first piece and raises nothing, then the second piece can be split with `state` set to the quote left
open, and this gives what splitting the whole string at once gives. `brk` are the line breaks of
`splitlines`. -/
theorem C76_resume (hc : CacheOK E.cache) (hsort : ∀ l w, w ∈ E.sort l ↔ w ∈ l) {brk : α → Bool}
    (hbrk : ∀ t, multi E t = t.any brk) (a b : List α) (quotes ml : List (List α))
    (escape state : List α) (hcut : NoStraddle (Separators quotes ml escape) a b) (ya : List (Tuple α))
    (ha : splitQuotedStrings E a quotes escape ml state = .ok (ya, none)) :
    ∃ yb err, splitQuotedStrings E b quotes escape ml (endState state ya) = .ok (yb, err) ∧
      splitQuotedStrings E (a ++ b) quotes escape ml state = .ok (continued state ya yb, err) := by
  obtain ⟨hall, he, hst, call⟩ := call_eq hc hsort ha
  obtain ⟨La, a1, a2⟩ := call a state hst
  have a1' : Alternates (Separators quotes ml escape) true La := by simpa using a1.2
  rw [ha] at a2
  simp only [Except.ok.injEq] at a2
  obtain ⟨Lab, c1, c2⟩ := call (a ++ b) state hst
  have key : ∀ Lb, Splits (Separators quotes ml escape) true false b Lb → Lab = joinP La Lb := by
    intro Lb hb
    have hb' : Alternates (Separators quotes ml escape) true Lb := by simpa using hb.2
    have hbne : Lb ≠ [] := by rintro rfl; exact hb'
    refine C38_splits_unique c1 ⟨?_, ?_⟩
    · rw [joinP_flatten La Lb (alternates_odd La a1') hbne, a1.1, hb.1]
    · simp only [Bool.false_eq_true, if_false]
      exact alternates_join he La Lb a1' hb' (by rw [a1.1, hb.1]; exact hcut)
  have hsep : ∀ L s, Splits (Separators quotes ml escape) true false s L → ∀ w ∈ Spec.seps L, w ≠ [] := by
    intro L s hL w hw e
    have := C38_separator_pieces he hL w hw
    simp only [if_true] at this
    exact he (e ▸ this)
  -- the state after the first piece does not depend on the second
  have fst : ∀ m r, ∃ Y st' q' B n, _ := fun m r => loop_first (E := E) (ml := ml) hall m r La state state
    [] ya (alternates_odd La a1') (hsep La a a1) (by simp) (.inr rfl) hst a2.symm
  have hend : ∀ (Y : List (Tuple α)) (st' q' t : List α), (st' = [] ∨ st' = q' ∧ st' = state ∧ Y = []) →
      (state ≠ [] → st' = [] → Y ≠ []) → (state ≠ [] → q' = [] → Y ≠ []) →
      (q' = [] → Y = [] ∨ ∃ x, Y.getLast? = some x ∧ x.2.2 ≠ []) →
      ya = Y ++ (if t = [] ∧ q' = [] then [] else [(if st'.isEmpty then q' else [], t, [])]) →
      endState state ya = q' := by
    intro Y st' q' t g2 g3 g4 g5 g8
    rw [g8]
    by_cases hx : t = [] ∧ q' = []
    · rw [if_pos hx, List.append_nil]
      rcases g5 hx.2 with rfl | ⟨⟨x1, x2, x3⟩, hx1, hx2⟩
      · simp [endState, hx.2]
      · simp only [ne_eq] at hx2
        simp [endState, hx1, hx2, hx.2]
    · rw [if_neg hx]
      unfold endState
      rw [List.getLast?_concat]
      dsimp only
      rw [if_neg (by simp)]
      by_cases hq : q' = []
      · subst hq
        have hst' : st' = [] := by rcases g2 with h | ⟨h, _⟩ <;> exact h
        subst hst'
        rw [if_neg (by simp)]
        by_cases hl : (Y ++ [(if ([] : List α).isEmpty = true then ([] : List α) else [], t,
            ([] : List α))]).length = 1
        · rw [if_pos hl]
          have hY : Y = [] := by simpa using hl
          by_cases hs : state = []
          · exact hs
          · exact absurd hY (g4 hs rfl)
        · rw [if_neg hl]
      · rcases g2 with h | ⟨h1, h2, h3⟩
        · rw [h, if_pos (by simpa using hq)]; rfl
        · have hs : st' ≠ [] := h1 ▸ hq
          rw [if_neg (by simp [hs]), h3, if_pos (by rfl), ← h2, h1]
  have hmem : endState state ya ≠ [] → endState state ya ∈ quotes ++ ml := by
    obtain ⟨Y, st', q', B, n, g1, g2, g3, g4, g5, g6, g7, g8, g9⟩ := fst [] []
    rw [hend Y st' q' _ g2 g3 g4 g5 g8]
    exact g6
  obtain ⟨Lb, b1, b2⟩ := call b (endState state ya) hmem
  refine ⟨_, _, b2, ?_⟩
  have b1' : Alternates (Separators quotes ml escape) true Lb := by simpa using b1.2
  have hlab := key Lb b1
  cases Lb with
  | nil => exact b1'.elim
  | cons m r =>
    obtain ⟨Y, st', q', B, n, g1, g2, g3, g4, g5, g6, g7, g8, g9⟩ := fst m r
    have hes := hend Y st' q' _ g2 g3 g4 g5 g8
    rw [c2, hlab, g9]
    congr 1
    rw [hes]
    unfold continued
    rw [hes]
    by_cases hq : q' = []
    · subst hq
      have hst' : st' = [] := by rcases g2 with h | ⟨h, _⟩ <;> exact h
      subst hst'
      rw [loop_unquoted hall (B.flatten ++ n) r (n ++ m) m B [] (hsep _ _ b1) (alternates_odd _ b1') g1
        (by simp) (by simp)]
      by_cases ht : B.flatten ++ n = []
      · rw [if_pos ⟨ht, rfl⟩, List.append_nil] at g8
        subst g8
        unfold glueU
        rw [if_pos ht]
        rcases g5 rfl with rfl | ⟨⟨x1, x2, x3⟩, hx1, hx2⟩
        · rfl
        · rw [hx1]
          cases x3 with
          | nil => exact absurd rfl hx2
          | cons c x3 => rfl
      · rw [if_neg (fun h => ht h.1)] at g8
        rw [g8, List.getLast?_concat]
        simp only [List.dropLast_concat, if_true]
        unfold glueU
        rw [if_neg ht]
        split
        · rfl
        · simp
    · rw [if_neg (fun h => hq h.2)] at g8
      rw [g8, List.getLast?_concat]
      simp only [List.dropLast_concat, if_neg hq]
      have hl : ∃ v ps, ∀ x, pairs (x :: r) = (x, v) :: ps := by
        cases r with
        | nil => exact ⟨[], [], fun _ => rfl⟩
        | cons v r => exact ⟨v, pairs r, fun _ => rfl⟩
      obtain ⟨v, ps, hp⟩ := hl
      rw [hp, hp, loop_quoted hbrk hq g7 ps v (n ++ m) m B [] (by simp)]
      unfold glueQ
      split
      · rfl
      · simp

/-- C76, line by line: a cut after a character that occurs in no quote mark and not in the escape (the line
break, say) is always allowed. -/
theorem C76_line_by_line (hc : CacheOK E.cache) (hsort : ∀ l w, w ∈ E.sort l ↔ w ∈ l) {brk : α → Bool}
    (hbrk : ∀ t, multi E t = t.any brk) (a b : List α) (c : α) (quotes ml : List (List α))
    (escape state : List α) (hq : ∀ w ∈ quotes ++ ml, c ∉ w) (he : c ∉ escape) (ya : List (Tuple α))
    (ha : splitQuotedStrings E (a ++ [c]) quotes escape ml state = .ok (ya, none)) :
    ∃ yb err, splitQuotedStrings E b quotes escape ml (endState state ya) = .ok (yb, err) ∧
      splitQuotedStrings E (a ++ [c] ++ b) quotes escape ml state = .ok (continued state ya yb, err) := by
  refine C76_resume hc hsort hbrk (a ++ [c]) b quotes ml escape state ?_ ya ha
  intro p q hp hq0 hm ⟨h1, _⟩
  have hcp : c ∈ p := by
    obtain ⟨t, ht⟩ := h1
    have h0 := congrArg List.getLast? ht
    rw [List.getLast?_append, List.getLast?_concat, List.getLast?_eq_some_getLast hp] at h0
    simp only [Option.some_or, Option.some.injEq] at h0
    rw [← h0]
    exact List.getLast_mem hp
  have hcw : ∀ w ∈ Separators quotes ml escape, c ∉ w := by
    intro w hw
    unfold Separators at hw
    rcases List.mem_append.1 hw with hw | hw
    · exact hq w hw
    · by_cases e : escape = []
      · rw [if_pos e] at hw; simp at hw
      · rw [if_neg e] at hw
        rcases List.mem_append.1 hw with hw | hw
        · obtain ⟨u, hu, rfl⟩ := List.mem_map.1 hw
          intro hmem
          rcases List.mem_append.1 hmem with h | h
          · exact he h
          · exact hq u (List.mem_append.2 (.inl hu)) h
        · rw [List.mem_singleton.1 hw]
          intro hmem
          rcases List.mem_append.1 hmem with h | h <;> exact he h
  exact hcw _ hm (List.mem_append.2 (.inl hcp))


/-! ### Examples -/

/-- For `strEnv` of the examples, `hbrk` holds. -/
theorem strEnv_brk (t : List Char) : multi strEnv t = t.any (fun c => c == '\n' || c == '\r') := by
  rcases List.eq_nil_or_concat t with rfl | ⟨l, c, rfl⟩
  · rfl
  · have h : ∀ l : List Char, decide ((l.filter (fun c => c == '\n' || c == '\r')).length + 1 > 1) =
        l.any (fun c => c == '\n' || c == '\r') := by
      intro l
      rw [Bool.eq_iff_iff, decide_eq_true_eq, List.any_eq_true]
      constructor
      · intro h
        have h : 0 < (l.filter (fun c => c == '\n' || c == '\r')).length := by omega
        obtain ⟨x, hx⟩ := List.exists_mem_of_length_pos h
        exact ⟨x, (List.mem_filter.1 hx).1, (List.mem_filter.1 hx).2⟩
      · rintro ⟨x, hx, hp⟩
        have := List.length_pos_of_mem
          (List.mem_filter (p := fun c => c == '\n' || c == '\r').2 ⟨hx, hp⟩)
        omega
    have h1 := h l
    have h2 := h [c]
    unfold multi strEnv
    simp only [List.concat_eq_append, List.getLast?_concat, Option.toList_some, List.any_append]
    rw [if_neg (by simp), if_neg (by simp), List.dropLast_concat, h1, List.dropLast_concat, h2]

/-- A string continued over two lines: the quote `"""` is still open after the first, `state` continues it. -/
example :
    splitQuotedStrings strEnv "a \"\"\"b'c\n".toList ["'".toList] ['\\'] ["\"\"\"".toList] []
      = .ok ([([], "a ".toList, []), ("\"\"\"".toList, "b'c\n".toList, [])], none) ∧
    endState [] [([], "a ".toList, []), ("\"\"\"".toList, "b'c\n".toList, [])] = "\"\"\"".toList ∧
    splitQuotedStrings strEnv "d\"\"\" 'e".toList ["'".toList] ['\\'] ["\"\"\"".toList] "\"\"\"".toList
      = .ok ([([], "d".toList, "\"\"\"".toList), ([], " ".toList, []), ("'".toList, "e".toList, [])], none) ∧
    splitQuotedStrings strEnv "a \"\"\"b'c\nd\"\"\" 'e".toList ["'".toList] ['\\'] ["\"\"\"".toList] []
      = .ok ([([], "a ".toList, []), ("\"\"\"".toList, "b'c\nd".toList, "\"\"\"".toList), ([], " ".toList, []),
          ("'".toList, "e".toList, [])], none) := by
  refine ⟨?_, ?_, ?_, ?_⟩ <;> decide +kernel

end Big.SQ
