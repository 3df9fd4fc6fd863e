import Verif.Lines.Props
/-!
# C66: lines_strip_line_comments
-/
namespace Big.Lines
open Big.MS
open Big.MS.Spec

variable {α μ : Type} [DecidableEq α] {E : Env α}

/-! ### specification -/

/-- No marker occurs in `seg`. -/
def NoMarker (markers : List (List α)) (seg : List α) : Prop := ∀ a b, seg = a ++ b → NoSep markers b

/-- `m` is the first marker in `seg`, between `x` and `y`: no marker starts earlier, and `m` is the
longest that starts there. -/
def CutAt (markers : List (List α)) (seg x m y : List α) : Prop :=
  seg = x ++ (m ++ y) ∧ Longest markers m (m ++ y) ∧
  ∀ x1 x2, x = x1 ++ x2 → x2 ≠ [] → NoSep markers (x2 ++ (m ++ y))

/-- The 3-tuples (leading quote, text, trailing quote) that `line` consists of, when the quote `st` is
open at its start. -/
def Tuples (E : Env α) (a : Comments α) (st line : List α) (T : List (Big.SQ.Tuple α)) : Prop :=
  (a.quotes = [] ∧ a.multilineQuotes = [] ∧ T = [([], line, [])]) ∨
  (¬ (a.quotes = [] ∧ a.multilineQuotes = []) ∧
    Big.SQ.splitQuotedStrings E.sq line a.quotes a.escape a.multilineQuotes st = .ok (T, none))

/-- The texts of the tuples that are not quoted have no marker: those with no leading quote, except the
first one if a quote is open at the start. -/
def NoneUnquoted (markers : List (List α)) (st : List α) (T : List (Big.SQ.Tuple α)) : Prop :=
  ∀ (i : Nat) (seg trail : List α), T[i]? = some ([], seg, trail) → (i ≠ 0 ∨ st = []) → NoMarker markers seg

/-- The quote open after a line: the leading quote of its last tuple if that has no trailing quote; or
`st`, if the line is all in that quote. -/
def openAfter (st : List α) (T : List (Big.SQ.Tuple α)) : List α :=
  match T.getLast? with
  | none => st
  | some (lead, _, trail) =>
    if trail ≠ [] then [] else if lead ≠ [] then lead else if T.length = 1 then st else []

/-! ### proof -/

theorem splitComment_spec {markers : List (List α)} (hne : markers ≠ []) (he : [] ∉ markers) (seg : List α) :
    (splitComment markers seg = [seg] ∧ NoMarker markers seg) ∨
    ∃ x m y, splitComment markers seg = [x, m, y] ∧ CutAt markers seg x m y := by
  have hm : Matches markers true (match0 (sepRe markers true)) := fun s => match0_sepRe hne he true s
  obtain ⟨l, h1, h2, -, h4⟩ := reSplit_spec hm he seg
  have h5 := (h4 1 (by decide)).1
  unfold splitComment
  rw [h5]
  match l, h1, h2 with
  | [], h, _ => simp [Alternates] at h
  | [n], h, h2 =>
    simp only [List.flatten_cons, List.flatten_nil, List.append_nil] at h2
    subst h2
    exact .inl ⟨rfl, h⟩
  | n :: w :: rest, h, h2 =>
    refine .inr ⟨n, w, rest.flatten, rfl, ?_, ?_, h.1⟩
    · rw [← h2]; simp
    · simpa [SepAt] using h.2.1

theorem rejoin_cons (x : Big.SQ.Tuple α) (l : List (Big.SQ.Tuple α)) :
    Big.SQ.rejoin (x :: l) = x.1 ++ x.2.1 ++ x.2.2 ++ Big.SQ.rejoin l := rfl

theorem rejoin_append (l l' : List (Big.SQ.Tuple α)) :
    Big.SQ.rejoin (l ++ l') = Big.SQ.rejoin l ++ Big.SQ.rejoin l' := by simp [Big.SQ.rejoin]

/-- The leading and trailing quote of the last tuple. -/
def lastQuotes (d : List α × List α) (T : List (Big.SQ.Tuple α)) : List α × List α :=
  match T.getLast? with
  | none => d
  | some x => (x.1, x.2.2)

omit [DecidableEq α] in
theorem lastQuotes_cons (d : List α × List α) (x : Big.SQ.Tuple α) (T : List (Big.SQ.Tuple α)) :
    lastQuotes d (x :: T) = lastQuotes (x.1, x.2.2) T := by
  unfold lastQuotes
  rw [List.getLast?_cons]
  cases T.getLast? <;> rfl

theorem scan_closed {markers : List (List α)} (hne : markers ≠ []) (he : [] ∉ markers) (line : List α) :
    ∀ (T : List (Big.SQ.Tuple α)) (lead trail : List α), (∀ x ∈ T, x.1 = [] → x.2.2 = []) →
    (∃ pre seg post x m y, T = pre ++ ([], seg, []) :: post ∧ CutAt markers seg x m y ∧
      NoneUnquoted markers [] pre ∧
      scan markers line [] lead trail T none = .ok (.comment [] (m ++ y ++ Big.SQ.rejoin post))) ∨
    (NoneUnquoted markers [] T ∧
      scan markers line [] lead trail T none
        = .ok (.noComment [] (lastQuotes (lead, trail) T).1 (lastQuotes (lead, trail) T).2))
  | [], lead, trail, _ => by
    right
    exact ⟨by intro i seg tr h; simp at h, rfl⟩
  | (l, seg, t) :: T, lead, trail, hT => by
    have ih := scan_closed hne he line T l t (fun x hx => hT x (by simp [hx]))
    unfold scan
    have hcons : ∀ P : List (Big.SQ.Tuple α), (l = [] → NoMarker markers seg) → NoneUnquoted markers [] P →
        NoneUnquoted markers [] ((l, seg, t) :: P) := by
      intro P h1 h2 i s tr hi _
      cases i with
      | zero =>
        simp only [List.getElem?_cons_zero, Option.some.injEq, Prod.mk.injEq] at hi
        rw [← hi.2.1]; exact h1 hi.1
      | succ i => exact h2 i s tr (by simpa using hi) (.inr rfl)
    have lift : (l = [] → NoMarker markers seg) →
        (∃ pre seg' post x m y, (l, seg, t) :: T = pre ++ ([], seg', []) :: post ∧ CutAt markers seg' x m y ∧
          NoneUnquoted markers [] pre ∧
          scan markers line [] l t T none = .ok (.comment [] (m ++ y ++ Big.SQ.rejoin post))) ∨
        (NoneUnquoted markers [] ((l, seg, t) :: T) ∧
          scan markers line [] l t T none
            = .ok (.noComment [] (lastQuotes (lead, trail) ((l, seg, t) :: T)).1
                (lastQuotes (lead, trail) ((l, seg, t) :: T)).2)) := by
      intro hseg
      rcases ih with ⟨pre, seg', post, x, m, y, g1, g2, g3, g4⟩ | ⟨g1, g2⟩
      · exact .inl ⟨(l, seg, t) :: pre, seg', post, x, m, y, by rw [g1]; rfl, g2, hcons _ hseg g3, g4⟩
      · exact .inr ⟨hcons _ hseg g1, by rw [g2, lastQuotes_cons]⟩
    by_cases hl : l = []
    · rw [if_neg (by simp [hl]), if_neg (by simp)]
      have ht := hT _ (List.mem_cons_self ..) hl
      dsimp only at ht
      rcases splitComment_spec hne he seg with ⟨h1, h2⟩ | ⟨x, m, y, h1, h2⟩
      · rw [h1]
        exact lift (fun _ => h2)
      · rw [h1]
        left
        refine ⟨[], seg, T, x, m, y, by rw [hl, ht]; rfl, h2, by intro i s tr h; simp at h, ?_⟩
        simp [Big.SQ.rejoin]
    · rw [if_pos (by simpa using hl)]
      exact lift (fun h => absurd h hl)

section Loop
variable {Q : Big.SQ.Env α} {all ml : List (List α)}

theorem finish_closed (quote : List α) (buffer : List (List α)) :
    ∀ x ∈ (Big.SQ.finish Q ml [] quote buffer).1, x.1 = [] → x.2.2 = [] := by
  unfold Big.SQ.finish
  intro x hx
  split at hx
  · simp at hx
  · dsimp only at hx
    split at hx
    · split at hx
      · simp at hx
      · simp only [List.mem_singleton] at hx; subst hx; simp
    · simp at hx

/-- Once no quote is left open from before, a tuple with no leading quote has no trailing quote. -/
theorem loop_closed : ∀ (ps : List (List α × List α)) (quote : List α) (buffer : List (List α)),
    ∀ x ∈ (Big.SQ.loop Q all ml [] quote buffer ps).1, x.1 = [] → x.2.2 = []
  | [], quote, buffer => by
    unfold Big.SQ.loop; exact finish_closed _ _
  | (l, w) :: ps, quote, buffer => by
    unfold Big.SQ.loop
    dsimp only
    intro x hx
    split at hx
    · split at hx
      · exact loop_closed _ _ _ x hx
      · split at hx
        · exact loop_closed _ _ _ x hx
        · rcases List.mem_cons.1 hx with rfl | hx
          · simp
          · exact loop_closed _ _ _ x hx
    · rename_i hq
      split at hx
      · exact loop_closed _ _ _ x hx
      · split at hx
        · simp at hx
        · rcases List.mem_cons.1 hx with rfl | hx
          · intro h; simp at h; simp [h] at hq
          · exact loop_closed _ _ _ x hx

/-- While a quote is open from before: either the whole text is one tuple, or the first tuple ends the
quote. -/
theorem loop_open (st : List α) (hst : st ≠ []) : ∀ (ps : List (List α × List α)) (buffer : List (List α)),
    ps ≠ [] ∨ buffer ≠ [] →
    (∃ e, (Big.SQ.loop Q all ml st st buffer ps) = ([], some e)) ∨
    (∃ t, (Big.SQ.loop Q all ml st st buffer ps) = ([([], t, [])], none)) ∨
    (∃ t rest, (Big.SQ.loop Q all ml st st buffer ps).1 = ([], t, st) :: rest ∧
      ∀ x ∈ rest, x.1 = [] → x.2.2 = [])
  | [], buffer, h => by
    unfold Big.SQ.loop Big.SQ.finish
    have hb : buffer ≠ [] := by rcases h with h | h; exact absurd rfl h; exact h
    rw [if_neg (by simpa using hb)]
    dsimp only
    rw [if_pos (by simp [hst])]
    split
    · exact .inl ⟨_, rfl⟩
    · refine .inr (.inl ⟨buffer.flatten, ?_⟩)
      rw [if_neg (by simpa using hst)]
  | (l, w) :: ps, buffer, _ => by
    unfold Big.SQ.loop
    dsimp only
    rw [if_neg (by simpa using hst)]
    by_cases hw : w = st
    · rw [if_neg (by simpa using hw)]
      split
      · exact .inl ⟨_, rfl⟩
      · refine .inr (.inr ⟨(Big.SQ.addLiteral buffer l).flatten, (Big.SQ.loop Q all ml [] [] [] ps).1, ?_, ?_⟩)
        · rw [if_neg (by simpa using hst)]
        · exact loop_closed _ _ _
    · rw [if_pos hw]
      exact loop_open st hst ps _ (.inr (by simp))

end Loop

/-- How the tuples of a line can look. -/
theorem tuples_shape (hc : CacheOK E.sq.cache) (hsort : ∀ l w, w ∈ E.sq.sort l ↔ w ∈ l)
    (quotes ml : List (List α)) (escape st line : List α) (T : List (Big.SQ.Tuple α)) (e : Option Big.SQ.Err)
    (h : Big.SQ.splitQuotedStrings E.sq line quotes escape ml st = .ok (T, e)) :
    (st = [] → ∀ x ∈ T, x.1 = [] → x.2.2 = []) ∧
    (st ≠ [] → (e ≠ none ∧ T = []) ∨ (e = none ∧ T = [([], line, [])]) ∨
      ∃ t rest, T = ([], t, st) :: rest ∧ ∀ x ∈ rest, x.1 = [] → x.2.2 = []) := by
  obtain ⟨L, -, -, hj, -⟩ := Big.SQ.C47_split_quoted_strings hc hsort line quotes ml escape st (T, e) h
  unfold Big.SQ.splitQuotedStrings at h
  by_cases h1 : (quotes.any List.isEmpty || ml.any List.isEmpty) = true
  · rw [if_pos h1] at h; simp at h
  rw [if_neg h1] at h
  by_cases h2 : (quotes ++ ml).isEmpty = true
  · rw [if_pos h2] at h; simp at h
  rw [if_neg h2] at h
  split at h
  · simp at h
  split at h
  · simp at h
  split at h
  · simp at h
  have hne : Big.SQ.separators E.sq quotes ml escape ≠ [] := by
    obtain ⟨q, hq⟩ : ∃ q, q ∈ quotes ++ ml := by
      cases hx : quotes ++ ml with
      | nil => rw [hx] at h2; simp at h2
      | cons q l => exact ⟨q, by simp⟩
    have : q ∈ Big.SQ.separators E.sq quotes ml escape := by
      unfold Big.SQ.separators
      rw [hsort]; exact List.mem_append_left _ hq
    intro h0; rw [h0] at this; simp at this
  have hnil : [] ∉ Big.SQ.separators E.sq quotes ml escape := by
    unfold Big.SQ.separators
    rw [hsort]
    intro h0
    rcases List.mem_append.1 h0 with h0 | h0
    · apply h1
      rcases List.mem_append.1 h0 with h0 | h0
      · simp only [Bool.or_eq_true]; exact .inl (List.any_eq_true.2 ⟨[], h0, rfl⟩)
      · simp only [Bool.or_eq_true]; exact .inr (List.any_eq_true.2 ⟨[], h0, rfl⟩)
    · split at h0
      · simp at h0
      · rename_i hesc
        simp at h0 hesc
        simp [hesc] at h0
  obtain ⟨l, hl, -, -, -, hp⟩ := C38_multisplit_splits_exactly (nl := E.sq.nl) hc hne hnil line false true
    (some (-1)) (.inr rfl)
  rw [hp] at h
  simp only [Except.ok.injEq] at h
  have hps : (List.map Big.SQ.pairOf (List.map (fun x : List α × List α => Item.pair x.1 x.2) (pairs l)))
      = pairs l := by
    rw [List.map_map, show (Big.SQ.pairOf ∘ fun x : List α × List α => Item.pair x.1 x.2) = id from rfl,
      List.map_id]
  rw [hps] at h
  have hpne : pairs l ≠ [] := by
    have hodd := splits_odd hl
    match l, hodd with
    | [], h => simp at h
    | [_], _ => simp [pairs]
    | _ :: _ :: _, _ => simp [pairs]
  refine ⟨?_, ?_⟩
  · rintro rfl
    have := loop_closed (Q := E.sq) (all := quotes ++ ml) (ml := ml) (pairs l) [] []
    rw [h] at this
    exact this
  · intro hst
    have := loop_open (Q := E.sq) (all := quotes ++ ml) (ml := ml) st hst (pairs l) [] (.inl hpne)
    rw [h] at this
    rcases this with ⟨e', he⟩ | ⟨t, ht⟩ | h3
    · simp only [Prod.mk.injEq] at he
      exact .inl ⟨by rw [he.2]; simp, he.1⟩
    · simp only [Prod.mk.injEq] at ht
      right; left
      refine ⟨ht.2, ?_⟩
      have hj' := hj ht.2
      rw [ht.1] at hj' ⊢
      simp at hj'
      rw [hj']
    · exact .inr (.inr h3)

/-- The last tuple tells what quote is open. -/
theorem openAfter_closed (T : List (Big.SQ.Tuple α)) :
    openAfter [] T = if (lastQuotes ([], []) T).2 = [] then (lastQuotes ([], []) T).1 else [] := by
  unfold openAfter lastQuotes
  cases h : T.getLast? with
  | none => rfl
  | some x =>
    obtain ⟨l, s, t⟩ := x
    dsimp only
    by_cases ht : t = []
    · rw [if_neg (by simpa using ht), if_pos ht]
      by_cases hl : l = []
      · rw [if_neg (by simpa using hl)]; simp [hl]
      · rw [if_pos hl]
    · rw [if_pos ht, if_neg ht]

theorem tuples_join (hc : CacheOK E.sq.cache) (hsort : ∀ l w, w ∈ E.sq.sort l ↔ w ∈ l) {a : Comments α}
    {st line : List α} {T : List (Big.SQ.Tuple α)} (hT : Tuples E a st line T) : Big.SQ.rejoin T = line := by
  rcases hT with ⟨-, -, rfl⟩ | ⟨-, h⟩
  · simp [Big.SQ.rejoin]
  · obtain ⟨L, -, -, hj, -⟩ := Big.SQ.C47_split_quoted_strings hc hsort _ _ _ _ _ _ h
    exact hj rfl

theorem scan_spec (hc : CacheOK E.sq.cache) (hsort : ∀ l w, w ∈ E.sq.sort l ↔ w ∈ l) (a : Comments α)
    (hne : a.markers ≠ []) (he : [] ∉ a.markers) (st : List α) (hst : st ≠ [] → st ∈ a.multilineQuotes)
    (line : List α) (T : List (Big.SQ.Tuple α)) (hT : Tuples E a st line T) :
    (∃ pre seg post x m y, T = pre ++ ([], seg, []) :: post ∧ (st ≠ [] → pre ≠ []) ∧
      CutAt a.markers seg x m y ∧ NoneUnquoted a.markers st pre ∧
      scan a.markers line st [] [] T none = .ok (.comment [] (m ++ y ++ Big.SQ.rejoin post))) ∨
    (NoneUnquoted a.markers st T ∧
      ∃ s l t, scan a.markers line st [] [] T none = .ok (.noComment s l t) ∧
        (if l ≠ [] ∧ t = [] then l else s) = openAfter st T ∧
        (s = [] ∨ s = st)) := by
  by_cases h0 : st = []
  · subst h0
    have hcl : ∀ x ∈ T, x.1 = [] → x.2.2 = [] := by
      rcases hT with ⟨-, -, rfl⟩ | ⟨-, h⟩
      · simp
      · exact (tuples_shape hc hsort _ _ _ _ _ _ _ h).1 rfl
    rcases scan_closed hne he line T [] [] hcl with ⟨pre, seg, post, x, m, y, g1, g2, g3, g4⟩ | ⟨g1, g2⟩
    · exact .inl ⟨pre, seg, post, x, m, y, g1, by simp, g2, g3, g4⟩
    · refine .inr ⟨g1, _, _, _, g2, ?_, ?_⟩
      · rw [openAfter_closed]
        generalize lastQuotes ([], []) T = lq
        by_cases ht : lq.2 = []
        · by_cases hl : lq.1 = []
          · simp [ht, hl]
          · simp [ht, hl]
        · simp [ht]
      · exact .inl rfl
  · have hq : ¬ (a.quotes = [] ∧ a.multilineQuotes = []) := by
      rintro ⟨-, h⟩
      have := hst h0
      rw [h] at this; simp at this
    rcases hT with ⟨h1, h2, -⟩ | ⟨-, h⟩
    · exact absurd ⟨h1, h2⟩ hq
    rcases (tuples_shape hc hsort _ _ _ _ _ _ _ h).2 h0 with ⟨h1, -⟩ | ⟨-, rfl⟩ | ⟨t, rest, rfl, hcl⟩
    · exact absurd rfl h1
    · right
      refine ⟨?_, st, [], [], ?_, ?_, ?_⟩
      · intro i seg tr hi hor
        cases i with
        | zero => rcases hor with h | h; exact absurd rfl h; exact absurd h h0
        | succ i => simp at hi
      · simp [scan, h0]
      · simp [openAfter]
      · exact .inr rfl
    · have hstep : scan a.markers line st [] [] (([], t, st) :: rest) none
          = scan a.markers line [] [] st rest none := by
        conv => lhs; unfold scan
        simp [h0]
      rw [hstep]
      have hnu : ∀ P : List (Big.SQ.Tuple α), NoneUnquoted a.markers [] P →
          NoneUnquoted a.markers st (([], t, st) :: P) := by
        intro P hP i seg tr hi hor
        cases i with
        | zero => rcases hor with h | h; exact absurd rfl h; exact absurd h h0
        | succ i => exact hP i seg tr (by simpa using hi) (.inr rfl)
      rcases scan_closed hne he line rest [] st hcl with ⟨pre, seg, post, x, m, y, g1, g2, g3, g4⟩ | ⟨g1, g2⟩
      · exact .inl ⟨([], t, st) :: pre, seg, post, x, m, y, by rw [g1]; rfl, by simp, g2, hnu _ g3, g4⟩
      · refine .inr ⟨hnu _ g1, _, _, _, g2, ?_, ?_⟩
        · unfold openAfter lastQuotes
          rw [List.getLast?_cons]
          cases hr : rest.getLast? with
          | none =>
            simp [h0]
          | some x =>
            have hlen : rest.length ≠ 0 := by
              intro h; rw [List.length_eq_zero_iff.1 h] at hr; simp at hr
            obtain ⟨l1, s1, t1⟩ := x
            simp only [Option.getD_some, List.length_cons, Nat.add_eq_right, hlen, if_false]
            by_cases ht : t1 = []
            · by_cases hl : l1 = []
              · simp [ht, hl]
              · simp [ht, hl]
            · simp [ht]
        · exact .inl rfl

theorem segmentsOf_eq (a : Comments α) (st line : List α) (T : List (Big.SQ.Tuple α)) :
    Tuples E a st line T ↔ segmentsOf E a st line = .ok (T, none) := by
  unfold Tuples segmentsOf
  by_cases h : a.quotes = [] ∧ a.multilineQuotes = []
  · rw [if_pos (by simp [h.1, h.2])]
    simp only [h.1, h.2, and_self, not_true_eq_false, false_and, or_false, true_and, Except.ok.injEq,
      Prod.mk.injEq, and_true]
    exact eq_comm
  · rw [if_neg (by simpa [Bool.and_eq_true] using h)]
    have h1 : ¬ (a.quotes = [] ∧ a.multilineQuotes = [] ∧ T = [([], line, [])]) := by
      rintro ⟨h1, h2, -⟩; exact h ⟨h1, h2⟩
    simp only [h1, h, not_false_eq_true, true_and, false_or]
    cases Big.SQ.splitQuotedStrings E.sq line a.quotes a.escape a.multilineQuotes st <;> simp

/-- C66, one line: `st` is the multiline quote open at its start, `T` the tuples it consists of. If an
unquoted text has a comment marker, the line is cut at the first one: what is before stays, the rest
goes to `trailing`, and no quote is open. Otherwise the line is unchanged; it is an error if it ends in
a quote that is not multiline, else the quote it ends in is open. -/
theorem C66_line_comment (hc : CacheOK E.sq.cache) (hsort : ∀ l w, w ∈ E.sq.sort l ↔ w ∈ l) (a : Comments α)
    (hne : a.markers ≠ []) (he : [] ∉ a.markers) (st : List α) (hst : st ≠ [] → st ∈ a.multilineQuotes)
    (p : Pair α μ) (hw : Whole p) (T : List (Big.SQ.Tuple α)) (hT : Tuples E a st p.2 T) :
    (∃ pre seg post x m y q, T = pre ++ ([], seg, []) :: post ∧ (st ≠ [] → pre ≠ []) ∧
      CutAt a.markers seg x m y ∧ NoneUnquoted a.markers st pre ∧
      commentOne E a st p = .ok (q, []) ∧ Same E p q ∧
      q.2 = Big.SQ.rejoin pre ++ x ∧
      (q.2 ≠ [] → q.1 = { p.1 with trailing := m ++ y ++ Big.SQ.rejoin post ++ p.1.trailing })) ∨
    (NoneUnquoted a.markers st T ∧
      (if openAfter st T = [] ∨ openAfter st T ∈ a.multilineQuotes
       then commentOne E a st p = .ok (p, openAfter st T)
       else commentOne E a st p = .error .syntaxError)) := by
  have hseg := (segmentsOf_eq (E := E) a st p.2 T).1 hT
  have hj := tuples_join hc hsort hT
  obtain ⟨info, line⟩ := p
  dsimp only at hseg hj hT
  rcases scan_spec hc hsort a hne he st hst line T hT with
    ⟨pre, seg, post, x, m, y, g1, g2, g3, g4, g5⟩ | ⟨g1, s, l, t, g2, g3, g4⟩
  · left
    have hm : m ≠ [] := fun h => he (h ▸ g3.2.1.1)
    have hline : line = (Big.SQ.rejoin pre ++ x) ++ (m ++ y ++ Big.SQ.rejoin post) := by
      rw [← hj, g1, rejoin_append, rejoin_cons, g3.1]; simp
    generalize hb : m ++ y ++ Big.SQ.rejoin post = b at hline g5
    have hbne : b ≠ [] := by rw [← hb]; simp [hm]
    subst hline
    obtain ⟨q, k1, k2, k3⟩ := clipTrailing_spec hw b rfl (fun h => absurd h hbne)
    refine ⟨pre, seg, post, x, m, y, q, g1, g2, g3, g4, ?_, k2, k3, ?_⟩
    · unfold commentOne
      simp only [hseg, bind, Except.bind]
      rw [g5]
      dsimp only
      rw [k1]
    · intro hq
      unfold clipTrailing at k1
      have h1 : sliceTo (Big.SQ.rejoin pre ++ x ++ b) (-(b.length : Int)) = Big.SQ.rejoin pre ++ x := by
        unfold sliceTo
        have := List.length_pos_iff.2 hbne
        generalize Big.SQ.rejoin pre ++ x = z
        rw [if_neg (by omega)]; simp
      dsimp only at k1
      rw [h1, if_neg (by rw [← k3]; simpa using hq)] at k1
      simp only [Option.getD_some, Except.ok.injEq] at k1
      rw [← k1, hb]
  · right
    refine ⟨g1, ?_⟩
    have hone : commentOne E a st (info, line) = if l ≠ [] ∧ t = [] then
        (if l ∉ a.multilineQuotes then .error .syntaxError else .ok ((info, line), l))
        else .ok ((info, line), s) := by
      unfold commentOne
      simp only [hseg, bind, Except.bind]
      rw [g2]
      dsimp only
      by_cases h : l ≠ [] ∧ t = []
      · rw [if_pos (by simp [h.1, h.2]), if_pos h]
      · rw [if_neg (by simpa using h), if_neg h]
    rw [hone, ← g3]
    by_cases h : l ≠ [] ∧ t = []
    · simp only [if_pos h]
      by_cases hml : l ∈ a.multilineQuotes
      · rw [if_pos (.inr hml), if_neg (by simpa using hml)]
      · rw [if_neg (by simp [h.1, hml]), if_pos hml]
    · simp only [if_neg h]
      have hs : s = [] ∨ s ∈ a.multilineQuotes := by
        rcases g4 with g4 | g4
        · exact .inl g4
        · by_cases hs : s = []
          · exact .inl hs
          · exact .inr (g4 ▸ hst (g4 ▸ hs))
      rw [if_pos hs]
      trivial

/-- The errors of one line. -/
theorem commentOne_cases (hc : CacheOK E.sq.cache) (hsort : ∀ l w, w ∈ E.sq.sort l ↔ w ∈ l) (a : Comments α)
    (hne : a.markers ≠ []) (he : [] ∉ a.markers) (st : List α) (hst : st ≠ [] → st ∈ a.multilineQuotes)
    (p : Pair α μ) (hw : Whole p) :
    commentOne E a st p = .error .valueError ∨ commentOne E a st p = .error .syntaxError ∨
    ∃ q st', commentOne E a st p = .ok (q, st') ∧ Same E p q ∧ (st' ≠ [] → st' ∈ a.multilineQuotes) := by
  cases hs : segmentsOf E a st p.2 with
  | error e =>
    left
    have : e = .valueError := by
      unfold segmentsOf at hs
      split at hs
      · simp at hs
      · split at hs
        · simp at hs; exact hs.symm
        · simp at hs
    unfold commentOne
    simp only [hs, bind, Except.bind, this]
  | ok r =>
    obtain ⟨T, e⟩ := r
    cases e with
    | none =>
      have hT := (segmentsOf_eq (E := E) a st p.2 T).2 hs
      rcases C66_line_comment hc hsort a hne he st hst p hw T hT with
        ⟨pre, seg, post, x, m, y, q, -, -, -, -, h1, h2, -⟩ | ⟨-, h⟩
      · exact .inr (.inr ⟨q, [], h1, h2, by simp⟩)
      · split at h
        · rename_i ho
          refine .inr (.inr ⟨p, _, h, .refl hw, fun h' => ?_⟩)
          rcases ho with ho | ho
          · exact absurd ho h'
          · exact ho
        · exact .inr (.inl h)
    | some e =>
      right; left
      have hscan : scan a.markers p.2 st [] [] T (some e) = .error .syntaxError := by
        have hcl : ∀ (P : List (Big.SQ.Tuple α)) (l t : List α),
            scan a.markers p.2 [] l t P (some e) = .error .syntaxError := by
          intro P
          induction P with
          | nil => intro l t; rfl
          | cons z P ih =>
            intro l t
            obtain ⟨zl, zs, zt⟩ := z
            unfold scan
            by_cases hzl : zl = []
            · rw [if_neg (by simp [hzl]), if_neg (by simp)]
              rcases splitComment_spec hne he zs with ⟨h1, -⟩ | ⟨x, m, y, h1, -⟩
              · rw [h1]; exact ih _ _
              · rw [h1]
            · rw [if_pos (by simpa using hzl)]; exact ih _ _
        by_cases h0 : st = []
        · rw [h0]; exact hcl _ _ _
        · have hs' := hs
          unfold segmentsOf at hs'
          split at hs'
          · simp at hs'
          · split at hs'
            · simp at hs'
            · rename_i r hr
              simp only [Except.ok.injEq] at hs'
              subst hs'
              rcases (tuples_shape hc hsort _ _ _ _ _ _ _ hr).2 h0 with ⟨-, rfl⟩ | ⟨h, -⟩ | ⟨t, rest, rfl, -⟩
              · rfl
              · cases h
              · unfold scan
                simp [h0, hcl]
      unfold commentOne
      simp only [hs, bind, Except.bind]
      rw [hscan]

end Big.Lines
