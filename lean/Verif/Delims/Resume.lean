import Verif.Delims.Single
/-!
# C75: splitting piece by piece with `state` (big/text.py:2677-2781)

The README (and the docstring, text.py:2700-2706) say that `state` makes split_delimiters behave as if it
had already seen those opening delimiters. Then a text can be split piece by piece.
-/
namespace Big.SD
open Big.MS Big.MS.Spec

variable {α : Type} [DecidableEq α] {E : Env α} {ds : Delims α}

/-! ### Specification -/

/-- The delimiters open after these tuples, if `st` were open before (outermost first). -/
def levels : List (List α) → List (Tuple α) → List (List α)
  | st, [] => st
  | st, (_, o, c) :: ys => levels (if o ≠ [] then st ++ [o] else if c ≠ [] then st.dropLast else st) ys

/-- The tuples `ys`, with the text `t` before them. If there are none the text is a tuple of its own, but
if there are none because of an exception, the text is lost. -/
def glue (t : List α) (ys : List (Tuple α)) (err : Option Err) : List (Tuple α) :=
  match ys with
  | (u, o, c) :: ys => (t ++ u, o, c) :: ys
  | [] => if t = [] ∨ err ≠ none then [] else [(t, [], [])]

/-- The tuples of the first piece, then those of the second. A text at the end of the first piece is
joined to the first text of the second. -/
def continued (ya yb : List (Tuple α)) (err : Option Err) : List (Tuple α) :=
  match ya.getLast? with
  | some (t, [], []) => ya.dropLast ++ glue t yb err
  | _ => ya ++ yb

/-! ### Proofs -/

theorem parse_glue (newlines : List (List α)) (t : List α) : ∀ (b : List α) (L : List (List α × Delim α))
    (e : Bool) (u : List α), parse newlines ds L e (t ++ u) b =
      (glue t (parse newlines ds L e u b).1 (parse newlines ds L e u b).2, (parse newlines ds L e u b).2) := by
  intro b
  induction b with
  | nil =>
    intro L e u
    cases e <;> by_cases hu : u = [] <;> by_cases ht : t = [] <;> simp [parse, glue, hu, ht]
  | cons c cs ih =>
    intro L e u
    cases e with
    | true => simp only [parse, List.append_assoc]; exact ih _ _ _
    | false =>
      cases L with
      | nil =>
        simp only [parse]
        cases opened ds c with
        | some kd => simp [glue]
        | none =>
          dsimp only
          split
          · simp [glue]
          · rw [List.append_assoc]; exact ih _ _ _
      | cons kd L =>
        obtain ⟨k, d⟩ := kd
        simp only [parse]
        split
        · split
          · rw [List.append_assoc]; exact ih _ _ _
          · split
            · simp [glue]
            · split
              · simp [glue]
              · rw [List.append_assoc]; exact ih _ _ _
        · split
          · simp [glue]
          · cases opened ds c with
            | some kd => simp [glue]
            | none =>
              dsimp only
              split
              · simp [glue]
              · rw [List.append_assoc]; exact ih _ _ _

/-- The open delimiters: known ones, and only the innermost quotes. -/
def Good (ds : Delims α) (L : List (List α × Delim α)) : Prop :=
  (∀ kd ∈ L, kd ∈ ds ∧ kd.1 ≠ []) ∧ ∀ kd ∈ L.tail, kd.2.quoting = false

theorem opened_mem {c : α} {kd} (h : opened ds c = some kd) : kd ∈ ds ∧ kd.1 = [c] := by
  unfold opened at h
  exact ⟨List.mem_of_find?_eq_some h, by simpa using List.find?_some h⟩

theorem parse_append (newlines : List (List α)) (b : List α) : ∀ (a : List α)
    (L : List (List α × Delim α)) (e : Bool) (text : List α) (ya : List (Tuple α)), Good ds L →
    parse newlines ds L e text a = (ya, none) →
    ∃ L' text' Y, Good ds L' ∧ levels (L.map (·.1)).reverse Y = (L'.map (·.1)).reverse ∧
      (∀ y ∈ Y, y.2.1 ≠ [] ∨ y.2.2 ≠ []) ∧
      ya = Y ++ (if text' = [] then [] else [(text', [], [])]) ∧
      parse newlines ds L e text (a ++ b) =
        (Y ++ (parse newlines ds L' false text' b).1, (parse newlines ds L' false text' b).2) := by
  intro a
  induction a with
  | nil =>
    intro L e text ya hL h
    cases e with
    | true => simp [parse] at h
    | false =>
      refine ⟨L, text, [], hL, rfl, by simp, ?_, by simp⟩
      simp only [parse, Bool.false_eq_true, if_false] at h
      split at h <;> simp_all
  | cons c cs ih =>
    intro L e text ya hL h
    have tuple : ∀ (L1 : List (List α × Delim α)) (o cl : List α), Good ds L1 → (o ≠ [] ∨ cl ≠ []) →
        (if o ≠ [] then (L.map (·.1)).reverse ++ [o] else if cl ≠ [] then (L.map (·.1)).reverse.dropLast
          else (L.map (·.1)).reverse) = (L1.map (·.1)).reverse →
        ((text, o, cl) :: (parse newlines ds L1 false [] cs).1, (parse newlines ds L1 false [] cs).2) =
          (ya, none) →
        ∃ L' text' Y, Good ds L' ∧ levels (L.map (·.1)).reverse Y = (L'.map (·.1)).reverse ∧
          (∀ y ∈ Y, y.2.1 ≠ [] ∨ y.2.2 ≠ []) ∧
          ya = Y ++ (if text' = [] then [] else [(text', [], [])]) ∧
          ((text, o, cl) :: (parse newlines ds L1 false [] (cs ++ b)).1,
            (parse newlines ds L1 false [] (cs ++ b)).2) =
            (Y ++ (parse newlines ds L' false text' b).1, (parse newlines ds L' false text' b).2) := by
      intro L1 o cl hL1 hoc hlev h1
      simp only [Prod.mk.injEq] at h1
      obtain ⟨L', text', Y, g1, g2, g3, g4, g5⟩ :=
        ih L1 false [] (parse newlines ds L1 false [] cs).1 hL1 (Prod.ext rfl h1.2)
      refine ⟨L', text', (text, o, cl) :: Y, g1, ?_, ?_, ?_, ?_⟩
      · rw [levels, hlev, g2]
      · intro y hy
        rcases List.mem_cons.1 hy with rfl | hy
        · exact hoc
        · exact g3 y hy
      · rw [← h1.1, g4, List.cons_append]
      · rw [g5]; rfl
    cases e with
    | true =>
      simp only [parse] at h
      simpa only [List.cons_append, parse] using ih _ _ _ _ hL h
    | false =>
      cases L with
      | nil =>
        simp only [List.cons_append, parse] at h ⊢
        cases ho : opened ds c with
        | some kd =>
          rw [ho] at h
          obtain ⟨m1, m2⟩ := opened_mem ho
          refine tuple [kd] [c] [] ⟨?_, by simp⟩ (.inl (by simp)) ?_ h
          · intro x hx; rw [List.mem_singleton.1 hx]; exact ⟨m1, by simp [m2]⟩
          · simp [m2]
        | none =>
          rw [ho] at h
          dsimp only at h ⊢
          split at h
          · simp at h
          · rename_i hn; rw [if_neg hn]; exact ih _ _ _ _ hL h
      | cons kd L =>
        obtain ⟨k, d⟩ := kd
        have hpop : Good ds L := by
          refine ⟨fun x hx => hL.1 x (by simp [hx]), fun x hx => hL.2 x (List.mem_of_mem_tail hx)⟩
        simp only [List.cons_append, parse] at h ⊢
        by_cases hq : d.quoting = true
        · rw [if_pos hq] at h ⊢
          split at h
          · rename_i h1; rw [if_pos h1]; exact ih _ _ _ _ hL h
          · rename_i h1
            rw [if_neg h1]
            split at h
            · rename_i h2
              rw [if_pos h2]
              exact tuple L [] [c] hpop (.inr (by simp)) (by simp) h
            · rename_i h2
              rw [if_neg h2]
              split at h
              · simp at h
              · rename_i h3; rw [if_neg h3]; exact ih _ _ _ _ hL h
        · rw [if_neg hq] at h ⊢
          split at h
          · rename_i h2
            rw [if_pos h2]
            exact tuple L [] [c] hpop (.inr (by simp)) (by simp) h
          · rename_i h2
            rw [if_neg h2]
            cases ho : opened ds c with
            | some kd =>
              rw [ho] at h
              obtain ⟨m1, m2⟩ := opened_mem ho
              refine tuple (kd :: (k, d) :: L) [c] [] ⟨?_, ?_⟩ (.inl (by simp)) ?_ h
              · intro x hx
                rcases List.mem_cons.1 hx with rfl | hx
                · exact ⟨m1, by simp [m2]⟩
                · exact hL.1 x hx
              · intro x hx
                rcases List.mem_cons.1 hx with rfl | hx
                · simpa using hq
                · exact hL.2 x hx
              · simp [m2]
            | none =>
              rw [ho] at h
              dsimp only at h ⊢
              split at h
              · simp at h
              · rename_i hn; rw [if_neg hn]; exact ih _ _ _ _ hL h

theorem key_inj : ∀ {ds : Delims α}, (ds.map (·.1)).Nodup → ∀ {x y}, x ∈ ds → y ∈ ds → x.1 = y.1 → x = y
  | d :: ds, hnd, x, y, hx, hy, h => by
    simp only [List.map_cons, List.nodup_cons] at hnd
    rcases List.mem_cons.1 hx with rfl | hx' <;> rcases List.mem_cons.1 hy with rfl | hy'
    · rfl
    · exact absurd (List.mem_map.2 ⟨y, hy', h.symm⟩) hnd.1
    · exact absurd (List.mem_map.2 ⟨x, hx', h⟩) hnd.1
    · exact key_inj hnd.2 hx' hy' h

theorem keys_inj (hnd : (ds.map (·.1)).Nodup) : ∀ {L L' : List (List α × Delim α)},
    (∀ kd ∈ L, kd ∈ ds) → (∀ kd ∈ L', kd ∈ ds) → L.map (·.1) = L'.map (·.1) → L = L'
  | [], [], _, _, _ => rfl
  | [], _ :: _, _, _, h => by simp at h
  | _ :: _, [], _, _, h => by simp at h
  | x :: L, y :: L', h1, h2, h => by
    simp only [List.map_cons, List.cons.injEq] at h
    have hx := h1 x (by simp)
    have hy := h2 y (by simp)
    have : x = y := by
      exact key_inj hnd hx hy h.1
    rw [this, keys_inj hnd (fun kd hk => h1 kd (by simp [hk])) (fun kd hk => h2 kd (by simp [hk])) h.2]

/-- C75: with single-character delimiters, if split_delimiters takes `a` and raises nothing, then the rest
of the text can be split with `state` set to the delimiters left open, and this gives what splitting the
whole text at once gives. -/
theorem C75_resume (hc : CacheOK E.cache) (h : OK E ds) (hnl : ∀ n ∈ E.newlines, n.length = 1)
    (h1 : ∀ kd ∈ ds, kd.1.length = 1 ∧ kd.2.close.length = 1 ∧ kd.2.escape.length ≤ 1)
    (a b : List α) (state : List (List α)) (ya : List (Tuple α))
    (ha : splitDelimiters E a ds state = .ok (ya, none)) :
    ∃ yb err, splitDelimiters E b ds (levels state ya) = .ok (yb, err) ∧
      splitDelimiters E (a ++ b) ds state = .ok (continued ya yb err, err) := by
  obtain ⟨w1, w2, w3, w4, w5⟩ := (C48_raises_iff h a state).2.1 ⟨_, ha⟩
  obtain ⟨L, l1, l2, l3⟩ := C48_single_character_parser hc h hnl h1 a state _ ha
  obtain ⟨r2, hr2⟩ := (C48_raises_iff h (a ++ b) state).2.2 ⟨w1, w2, w3, w4, w5⟩
  obtain ⟨L2, k1, k2, k3⟩ := C48_single_character_parser hc h hnl h1 (a ++ b) state _ hr2
  have : L2 = L := keys_inj h.nodup k2 l2 (by rw [k1, l1])
  subst this
  have hkey : ∀ kd ∈ ds, kd.1 ≠ [] := by
    intro kd hk e
    have := (h1 kd hk).1
    rw [e] at this
    simp at this
  have good : Good ds L2 := by
    refine ⟨fun kd hk => ⟨l2 kd hk, hkey kd (l2 kd hk)⟩, fun kd hk => ?_⟩
    refine w5 kd.1 ?_ kd.2 (l2 kd (List.mem_of_mem_tail hk))
    have : kd.1 ∈ (L2.map (·.1)).tail := by rw [← List.map_tail]; exact List.mem_map.2 ⟨kd, hk, rfl⟩
    rw [l1] at this
    simpa using this
  obtain ⟨L', text', Y, g1, g2, g3, g4, g5⟩ := parse_append E.newlines b a L2 false [] ya good l3.symm
  have hst : state = (L2.map (·.1)).reverse := by rw [l1, List.reverse_reverse]
  have hlev : levels state ya = (L'.map (·.1)).reverse := by
    have happ : ∀ (Y : List (Tuple α)) st t, levels st (Y ++ (if t = [] then [] else [(t, [], [])])) =
        levels st Y := by
      intro Y
      induction Y with
      | nil => intro st t; split <;> simp [levels]
      | cons y Y ih => intro st t; obtain ⟨_, _, _⟩ := y; simp only [List.cons_append, levels]; exact ih _ _
    rw [g4, happ, hst, g2]
  obtain ⟨r3, hr3⟩ := (C48_raises_iff h b (levels state ya)).2.2 (by
    refine ⟨w1, w2, w3, ?_, ?_⟩
    · intro k hk
      rw [hlev] at hk
      simp only [List.mem_reverse, List.mem_map] at hk
      obtain ⟨kd, hk, rfl⟩ := hk
      exact mem_openers.2 ⟨kd.2, (g1.1 kd hk).1⟩
    · intro k hk d hd
      rw [hlev] at hk
      rw [List.dropLast_reverse, List.mem_reverse, ← List.map_tail] at hk
      obtain ⟨kd, hk', rfl⟩ := List.mem_map.1 hk
      have := key_inj h.nodup (g1.1 kd (List.mem_of_mem_tail hk')).1 hd rfl
      have h2 := g1.2 kd hk'
      rw [this] at h2
      exact h2)
  obtain ⟨L3, m1, m2, m3⟩ := C48_single_character_parser hc h hnl h1 b _ _ hr3
  have : L3 = L' := keys_inj h.nodup m2 (fun kd hk => (g1.1 kd hk).1) (by
    rw [m1, hlev, List.reverse_reverse])
  subst this
  refine ⟨r3.1, r3.2, hr3, ?_⟩
  rw [hr2, k3, g5]
  have hg := parse_glue (ds := ds) E.newlines text' b L3 false []
  rw [List.append_nil] at hg
  rw [hg, ← m3]
  congr 2
  unfold continued
  rw [g4]
  by_cases ht : text' = []
  · subst ht
    have hglue : glue [] r3.1 r3.2 = r3.1 := by
      unfold glue
      split
      · rename_i hx; rw [hx]; simp
      · rename_i hx; rw [hx]; simp
    simp only [if_true, List.append_nil, hglue]
    split
    · rename_i t hl
      have := g3 _ (List.mem_of_getLast? hl)
      simp at this
    · rfl
  · simp [ht]

/-! ### Cases -/

/-- A text split in three pieces. -/
example : splitDelimiters strEnv "f(a[".toList defaultDelims [] =
      .ok ([("f".toList, "(".toList, []), ("a".toList, "[".toList, [])], none) ∧
    levels [] [("f".toList, "(".toList, []), ("a".toList, "[".toList, [])] = [['('], ['[']] ∧
    splitDelimiters strEnv "x]y".toList defaultDelims [['('], ['[']] =
      .ok ([("x".toList, [], "]".toList), ("y".toList, [], [])], none) ∧
    levels [['('], ['[']] [("x".toList, [], "]".toList), ("y".toList, [], [])] = [['(']] ∧
    continued [("x".toList, [], "]".toList), ("y".toList, [], [])] [("z".toList, [], ")".toList)] none =
      [("x".toList, [], "]".toList), ("yz".toList, [], ")".toList)] := by
  refine ⟨?_, rfl, ?_, rfl, rfl⟩ <;> decide +kernel

end Big.SD
