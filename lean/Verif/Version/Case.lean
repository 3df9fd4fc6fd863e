import Verif.Version.Props
/-!
# C25: letter case
-/
namespace Big.Version
open Big.Rx

/-- Two strings that differ only in the case of letters (Python's re.IGNORECASE counts the dotted and
the dotless I, the long s and the Kelvin sign as letters of the pattern too). -/
def SameButCase (s t : List Char) : Prop := s.map fold = t.map fold

/-- The fields of two versions are the same, the local labels up to letter case. -/
def SameFields (a b : Ver) : Prop :=
  a.epoch = b.epoch ∧ a.release = b.release ∧ a.level = b.level ∧ a.serial = b.serial ∧
  a.post = b.post ∧ a.dev = b.dev ∧
  a.loc.map (List.map (List.map fold)) = b.loc.map (List.map (List.map fold))

/-! ## fold -/

theorem lookup_mem {c d : Char} : ∀ {l : List (Char × Char)}, l.lookup c = some d → (c, d) ∈ l
  | [], h => by simp at h
  | (a, b) :: l, h => by
    rw [List.lookup_cons] at h
    by_cases e : c = a
    · subst e; simp at h; subst h; simp
    · have : (c == a) = false := by simpa using e
      rw [this] at h
      exact List.mem_cons_of_mem _ (lookup_mem h)

theorem fold_cases (c : Char) : fold c = c ∨ (c, fold c) ∈ foldTable := by
  unfold fold
  cases h : foldTable.lookup c with
  | none => left; rfl
  | some d => right; exact lookup_mem h

/-- A test that holds of no character of the table, nor of what it is folded to, ignores case. -/
theorem inv_of_table (p : Char → Bool) (h : ∀ x ∈ foldTable, p x.2 = p x.1) (c : Char) :
    p (fold c) = p c := by
  rcases fold_cases c with e | e
  · rw [e]
  · exact h _ e

theorem fold_fold (c : Char) : fold (fold c) = fold c := by
  rcases fold_cases c with e | e
  · rw [e]; exact e
  · have key : ∀ x ∈ foldTable, fold x.2 = x.2 := by decide +kernel
    exact key _ e

theorem isWs_fold (c : Char) : isWs (fold c) = isWs c := inv_of_table isWs (by decide +kernel) c
theorem isSep_fold (c : Char) : isSep (fold c) = isSep c := inv_of_table isSep (by decide +kernel) c
theorem isDig_fold (c : Char) : isDig (fold c) = isDig c := inv_of_table isDig (by decide +kernel) c
theorem isLocalChar_fold (c : Char) : isLocalChar (fold c) = isLocalChar c := by
  unfold isLocalChar; rw [fold_fold, isDig_fold]

theorem lit_inv (l : Char) : (lit l).Inv fold := by
  intro c; show (fold (fold c) == l) = (fold c == l); rw [fold_fold]
theorem word_inv : ∀ w : List Char, (word w).Inv fold
  | [] => trivial
  | l :: w => ⟨lit_inv l, word_inv w⟩
theorem digits_inv : digits.Inv fold := ⟨isDig_fold, isDig_fold⟩
theorem sepO_inv : sepO.Inv fold := ⟨isSep_fold, trivial⟩
theorem numO_inv (g : String) : (numO g).Inv fold := ⟨digits_inv, trivial⟩

theorem eol_inv : eol.Inv fold := by
  intro s
  have key : ∀ x : Char, (fold x == '\n') = (x == '\n') :=
    inv_of_table (· == '\n') (by decide +kernel)
  match s with
  | [] => rfl
  | [x] =>
    have := key x
    show (([fold x] : List Char) == [] || [fold x] == ['\n']) = ([x] == [] || [x] == ['\n'])
    simp only [Bool.beq_eq_decide_eq] at this ⊢
    simp at this ⊢
    exact this
  | x :: y :: s => simp

theorem versionR_inv : versionR.Inv fold := by
  refine ⟨isWs_fold, ⟨lit_inv _, trivial⟩, ⟨⟨digits_inv, lit_inv _⟩, trivial⟩,
    ⟨digits_inv, lit_inv _, digits_inv⟩, ⟨⟨sepO_inv, ?_, sepO_inv, numO_inv _⟩, trivial⟩,
    ⟨⟨⟨lit_inv _, digits_inv⟩, sepO_inv, ?_, sepO_inv, numO_inv _⟩, trivial⟩,
    ⟨⟨sepO_inv, word_inv _, sepO_inv, numO_inv _⟩, trivial⟩,
    ⟨⟨lit_inv _, ⟨isLocalChar_fold, isLocalChar_fold⟩, isSep_fold, isLocalChar_fold, isLocalChar_fold⟩,
      trivial⟩, isWs_fold, eol_inv⟩
  · exact ⟨word_inv _, word_inv _, word_inv _, word_inv _, word_inv _, word_inv _, word_inv _,
      word_inv _⟩
  · exact ⟨word_inv _, word_inv _, word_inv _⟩

theorem match_fold (s : List Char) :
    versionR.matchStart (s.map fold) =
      (versionR.matchStart s).map fun x => (x.1.ren fold, x.2.map fold) := by
  unfold Rx.matchStart
  exact Rx.m_ren (fun x : Caps Char × List Char => (x.1.ren fold, x.2.map fold)) versionR
    versionR_inv s [] _ _ (fun s c => rfl)

theorem lookup_ren (f : Char → Char) (c : Caps Char) (g : String) :
    (c.ren f).lookup g = (c.lookup g).map (List.map f) := by
  induction c with
  | nil => rfl
  | cons x c ih =>
    show List.lookup g ((x.1, x.2.map f) :: Caps.ren f c) = _
    rw [List.lookup_cons, List.lookup_cons]
    cases g == x.1
    · exact ih
    · rfl

/-! ## reading the groups -/

theorem isNum_fold {w : List Char} (h : IsNum w) : w.map fold = w := by
  refine (List.map_congr_left (g := id) (fun x hx => ?_)).trans (List.map_id w)
  have key : ∀ x ∈ digitList, fold x = x := by decide +kernel
  exact key x (by simpa [isDig] using h.2 x hx)

theorem splitDot_fold (s : List Char) : splitDot (s.map fold) = (splitDot s).map (List.map fold) := by
  induction s with
  | nil => rfl
  | cons x s ih =>
    have hx : fold x = '.' ↔ x = '.' := by
      have : (fold x == '.') = (x == '.') := inv_of_table (· == '.') (by decide +kernel) x
      constructor
      · intro h; rw [h] at this; simpa using this.symm
      · intro h; rw [h] at this ⊢; simpa using this
    simp only [List.map_cons, splitDot, ih]
    by_cases h : x = '.'
    · rw [if_pos (hx.2 h), if_pos h]; rfl
    · rw [if_neg (fun e => h (hx.1 e)), if_neg h]
      cases splitDot s <;> rfl

theorem toDot_fold (c : Char) : fold (toDot c) = toDot (fold c) := by
  have k1 : (fold c == '-') = (c == '-') := inv_of_table (· == '-') (by decide +kernel) c
  have k2 : (fold c == '_') = (c == '_') := inv_of_table (· == '_') (by decide +kernel) c
  by_cases h1 : c = '-'
  · subst h1; decide +kernel
  · by_cases h2 : c = '_'
    · subst h2; decide +kernel
    · have e1 : fold c ≠ '-' := by intro e; rw [e] at k1; simp at k1; exact h1 k1
      have e2 : fold c ≠ '_' := by intro e; rw [e] at k2; simp at k2; exact h2 k2
      simp [toDot, h1, h2, e1, e2]

theorem normLevel_ne_final {l : List Char} {v : Level} (h : normLevel l = some v) : v ≠ .final := by
  unfold normLevel at h
  repeat' split at h
  all_goals first | cases h | skip
  all_goals simp

theorem normLevel_lower {l : List Char} {v : Level} (h : normLevel l = some v) : l.map fold = l := by
  unfold normLevel at h
  split at h
  · rename_i e; rcases e with rfl | rfl <;> decide +kernel
  · split at h
    · rename_i e; rcases e with rfl | rfl <;> decide +kernel
    · split at h
      · rename_i e; rcases e with rfl | rfl | rfl | rfl <;> decide +kernel
      · cases h

/-- What is made of the groups of any match. -/
theorem ofGroups_match {s : List Char} {c : Caps Char} {rest : List Char}
    (h : versionR.matchStart s = some (c, rest)) :
    ofGroups c = (match (match c.lookup "pre_l" with
        | none => some Level.final | some l => normLevel l) with
      | none => .error .assertionError
      | some level => .ok ⟨(c.lookup "epoch").map toNat,
          (trim ((splitDot ((c.lookup "release").getD [])).map toNat)).map Int.ofNat, level,
          (c.lookup "pre_n").map toNat,
          ((c.lookup "post_n1").or (c.lookup "post_n2")).map toNat,
          (c.lookup "dev_n").map toNat,
          (c.lookup "local").map (fun l => splitDot (l.map toDot))⟩) := by
  obtain ⟨cl, cd, cp, cr, ce, c1, hl, hd, hp, hr, ⟨s0, l0, hs0, hl0, rfl⟩, he, rfl⟩ := match_groups h
  rcases hl with rfl | ⟨sl, ll, hsl, hll, rfl⟩ <;>
  rcases hd with rfl | ⟨_, rfl⟩ | ⟨_, _, _, rfl⟩ <;>
  rcases hp with rfl | ⟨_, _, rfl⟩ | ⟨_, rfl⟩ | ⟨_, _, _, rfl⟩ <;>
  rcases hr with rfl | ⟨pl, _, rfl⟩ | ⟨_, pl, _, _, rfl⟩ <;>
  rcases he with rfl | ⟨_, _, rfl⟩ <;>
  simp [ofGroups, List.lookup] <;>
  (cases hn : normLevel pl with
   | none => rfl
   | some lv => simp [normLevel_ne_final hn])

/-- The numbers among the groups have no case. -/
theorem groups_num {s : List Char} {c : Caps Char} {rest : List Char}
    (h : versionR.matchStart s = some (c, rest)) :
    (∀ g ∈ ["epoch", "release", "pre_n", "post_n1", "post_n2", "dev_n"],
      (c.lookup g).map (List.map fold) = c.lookup g) ∧
    ∀ l, c.lookup "pre_l" = some l → IsLabel l := by
  obtain ⟨cl, cd, cp, cr, ce, c1, hl, hd, hp, hr, ⟨s0, l0, hs0, hl0, rfl⟩, he, rfl⟩ := match_groups h
  have hrel : (renderRel s0 l0).map fold = renderRel s0 l0 := by
    unfold renderRel
    rw [List.map_append, isNum_fold hs0, List.map_flatten, List.map_map]
    congr 2
    apply List.map_congr_left
    intro x hx
    have hd : fold '.' = '.' := by decide +kernel
    simp [isNum_fold (hl0 x hx), hd]
  simp only [List.forall_mem_cons, List.not_mem_nil, false_implies, implies_true, and_true]
  rcases hl with rfl | ⟨sl, ll, hsl, hll, rfl⟩ <;>
  rcases hd with rfl | ⟨_, rfl⟩ | ⟨_, _, hd, rfl⟩ <;>
  rcases hp with rfl | ⟨_, hp, rfl⟩ | ⟨_, rfl⟩ | ⟨_, _, hp, rfl⟩ <;>
  rcases hr with rfl | ⟨pl, hr, rfl⟩ | ⟨_, pl, hr', hr, rfl⟩ <;>
  rcases he with rfl | ⟨_, he, rfl⟩ <;>
  simp [List.lookup, hrel, isNum_fold, *]

theorem parse_match {s : List Char} {c : Caps Char} {rest : List Char}
    (h : versionR.matchStart s = some (c, rest)) : parse s = ofGroups c := by
  unfold parse; rw [h]

theorem parse_none {s : List Char} (h : versionR.matchStart s = none) :
    parse s = .error .valueError := by
  unfold parse; rw [h]

/-- Reading the lower-case form of a string that matches. -/
theorem parse_fold {s : List Char} {c : Caps Char} {rest : List Char}
    (h : versionR.matchStart s = some (c, rest)) :
    ∃ v, parse (s.map fold) = .ok v ∧
      (parse s = .error .assertionError ∧ v.level ≠ .final ∨
       ∃ v', parse s = .ok v' ∧ SameFields v' v) := by
  have h' : versionR.matchStart (s.map fold) = some (c.ren fold, rest.map fold) := by
    rw [match_fold, h]; rfl
  obtain ⟨hn, hlab⟩ := groups_num h
  simp only [List.forall_mem_cons, List.not_mem_nil, false_implies, implies_true, and_true] at hn
  obtain ⟨n1, n2, n3, n4, n5, n6⟩ := hn
  rw [parse_match h, parse_match h', ofGroups_match h, ofGroups_match h']
  simp only [lookup_ren, n1, n2, n3, n4, n5, n6]
  have hloc : ∀ o : Option (List Char),
      (o.map (fun l => splitDot (l.map toDot))).map (List.map (List.map fold)) =
      ((o.map (List.map fold)).map (fun l => splitDot (l.map toDot))).map
        (List.map (List.map fold)) := by
    intro o
    cases o with
    | none => rfl
    | some l =>
      simp only [Option.map_some, Option.some.injEq]
      rw [← splitDot_fold, ← splitDot_fold, List.map_map, List.map_map, List.map_map]
      congr 1
      apply List.map_congr_left
      intro x _
      simp only [Function.comp_apply]
      rw [toDot_fold, toDot_fold, fold_fold]
  cases hp : c.lookup "pre_l" with
  | none =>
    simp only [Option.map_none]
    exact ⟨_, rfl, .inr ⟨_, rfl, rfl, rfl, rfl, rfl, rfl, rfl, hloc _⟩⟩
  | some l =>
    obtain ⟨p, hpl⟩ := hlab l hp
    simp only [Option.map_some, hpl, normLevel_text]
    refine ⟨_, rfl, ?_⟩
    cases hl : normLevel l with
    | none => exact .inl ⟨rfl, level_ne_final p⟩
    | some lv =>
      have e := normLevel_lower hl
      rw [hpl] at e
      subst e
      rw [normLevel_text] at hl
      cases hl
      exact .inr ⟨_, rfl, rfl, rfl, rfl, rfl, rfl, rfl, hloc _⟩

theorem sameFields_symm {a b : Ver} (h : SameFields a b) : SameFields b a := by
  obtain ⟨h1, h2, h3, h4, h5, h6, h7⟩ := h
  exact ⟨h1.symm, h2.symm, h3.symm, h4.symm, h5.symm, h6.symm, h7.symm⟩

theorem sameFields_trans {a b c : Ver} (h : SameFields a b) (k : SameFields b c) : SameFields a c := by
  obtain ⟨h1, h2, h3, h4, h5, h6, h7⟩ := h
  obtain ⟨k1, k2, k3, k4, k5, k6, k7⟩ := k
  exact ⟨h1.trans k1, h2.trans k2, h3.trans k3, h4.trans k4, h5.trans k5, h6.trans k6, h7.trans k7⟩

/-! ## C25 -/

/-- C25, letter case: of two strings that differ only in letter case, both are
refused as not being versions or none is; if both give versions, these have the same fields (local
labels keep their case); and if one of them gives a version without pre-release, so does the other.
With a pre-release one of them may raise AssertionError (`C110_violated_case`). -/
theorem C25_case (s t : List Char) (h : SameButCase s t) :
    (parse s = .error .valueError ↔ parse t = .error .valueError) ∧
    (∀ v w, parse s = .ok v → parse t = .ok w → SameFields v w) ∧
    (∀ v, parse s = .ok v → v.level = .final → ∃ w, parse t = .ok w ∧ SameFields v w) := by
  have key : ∀ u : List Char,
      (parse u = .error .valueError ∧ parse (u.map fold) = .error .valueError) ∨
      ∃ v, parse (u.map fold) = .ok v ∧
        (parse u = .error .assertionError ∧ v.level ≠ .final ∨
         ∃ v', parse u = .ok v' ∧ SameFields v' v) := by
    intro u
    cases hm : versionR.matchStart u with
    | none =>
      refine .inl ⟨parse_none hm, parse_none ?_⟩
      rw [match_fold, hm]; rfl
    | some x => exact .inr (parse_fold (c := x.1) (rest := x.2) hm)
  have ks := key s
  have kt := key t
  rw [show s.map fold = t.map fold from h] at ks
  rcases ks with ⟨s1, s2⟩ | ⟨v, s1, s2⟩
  · rcases kt with ⟨t1, t2⟩ | ⟨w, t1, t2⟩
    · rw [s1, t1]; exact ⟨Iff.rfl, by simp, by simp⟩
    · rw [t1] at s2; cases s2
  · rcases kt with ⟨t1, t2⟩ | ⟨w, t1, t2⟩
    · rw [t2] at s1; cases s1
    · rw [s1] at t1
      cases t1
      rcases s2 with ⟨s2, s3⟩ | ⟨v', s2, s3⟩ <;> rcases t2 with ⟨t2, t3⟩ | ⟨w', t2, t3⟩ <;>
        rw [s2, t2]
      · simp
      · simp
      · refine ⟨by simp, by simp, ?_⟩
        intro u hu hf
        cases hu
        exact absurd (s3.2.2.1 ▸ hf) t3
      · refine ⟨by simp, ?_, ?_⟩
        · intro a b ha hb
          cases ha; cases hb
          exact sameFields_trans s3 (sameFields_symm t3)
        · intro a ha _
          cases ha
          exact ⟨w', rfl, sameFields_trans s3 (sameFields_symm t3)⟩

/-- C25: a string without capitals is refused with ValueError or gives a version: the AssertionError
comes from capitals alone. -/
theorem C25_lower_case_never_asserts (s : List Char) (h : s.map fold = s) :
    parse s = .error .valueError ∨ ∃ v, parse s = .ok v := by
  cases hm : versionR.matchStart s with
  | none => exact .inl (parse_none hm)
  | some x =>
    obtain ⟨v, hv, _⟩ := parse_fold (c := x.1) (rest := x.2) hm
    rw [h] at hv
    exact .inr ⟨v, hv⟩

/-- C25: versions with the same fields and no local label are ==. -/
theorem C25_same_fields_equal (a b : Ver) (h : SameFields a b) (hl : a.loc = none) :
    a.eq b = true := by
  obtain ⟨h1, h2, h3, h4, h5, h6, h7⟩ := h
  have : b.loc = none := by
    rw [hl] at h7
    cases hb : b.loc with
    | none => rfl
    | some l => rw [hb] at h7; simp at h7
  exact key_congr (by rw [h1]) h2 h3 (by rw [h4]) h5 h6 (by rw [hl, this])

example : SameButCase "1.0.POST2.Dev3".toList "1.0.post2.dev3".toList := by
  unfold SameButCase; decide +kernel
example : ∃ v, parse "1.0.POST2.Dev3".toList = .ok v ∧ v.level = .final ∧ v.post = some 2 ∧
    v.dev = some 3 :=
  ⟨⟨none, [1], .final, none, some 2, some 3, none⟩, by decide +kernel⟩

end Big.Version
