import Verif.Version.Props
/-!
# Exactly when C23, C25 and C26 hold

`C23_violated`, `C110_violated_post` and `C26_violated` give one example each. Here are the exact conditions.
-/
namespace Big.Version

/-! ### C23 -/

theorem optEq {x y : Option Nat} (h : x.getD 0 = y.getD 0) :
    x = y ∨ (x = none ∧ y = some 0) ∨ (x = some 0 ∧ y = none) := by
  revert h; cases x <;> cases y <;> simp <;> omega

/-- C23, exactly: versions that compare equal have the same hash, whatever the hashes of the fields are, if and only if
they have the same local label and either both or none of "epoch given or absent alike" and "serial given or absent
alike" hold (the two differences cancel out, as the hash is an exclusive or). -/
theorem C23_hash_iff (a b : Ver) (e : a.eq b = true) :
    (∀ h : Hashes, a.hash h = b.hash h) ↔ a.loc = b.loc ∧ (a.epoch = b.epoch ↔ a.serial = b.serial) := by
  obtain ⟨e1, e2, e3, e4, e5, e6, e7⟩ := (eq_spec a b).1 e
  clear e7
  constructor
  · intro hh
    have hl : a.loc = b.loc := by
      have := hh ⟨fun _ => 0, fun _ => 0, fun _ => 0, fun l => if l = a.loc then 1 else 0⟩
      simp only [Ver.hash, Nat.xor_zero, Nat.zero_xor, if_true] at this
      split at this
      · rename_i h; exact h.symm
      · cases this
    refine ⟨hl, ?_⟩
    have := hh ⟨fun o => if o = none then 1 else 0, fun _ => 0, fun _ => 0, fun _ => 0⟩
    simp only [Ver.hash, Nat.xor_zero, e5, e6] at this
    clear hh e e2 e3 e5 e6 hl
    revert this e1 e4
    generalize a.epoch = x
    generalize b.epoch = y
    generalize a.serial = s
    generalize b.serial = t
    generalize b.post = p
    generalize b.dev = q
    intro e1 e4
    rcases optEq e1 with rfl | ⟨rfl, rfl⟩ | ⟨rfl, rfl⟩ <;> rcases optEq e4 with rfl | ⟨rfl, rfl⟩ | ⟨rfl, rfl⟩ <;>
      cases p <;> cases q <;> try (simp; done)
    all_goals (simp; try (split <;> decide))
  · rintro ⟨hl, hs⟩ h
    have lc : ∀ x y z : Nat, x ^^^ (y ^^^ z) = y ^^^ (x ^^^ z) := fun x y z => by
      rw [← Nat.xor_assoc, Nat.xor_comm x y, Nat.xor_assoc]
    have cc : ∀ x z : Nat, x ^^^ (x ^^^ z) = z := fun x z => by
      rw [← Nat.xor_assoc, Nat.xor_self, Nat.zero_xor]
    unfold Ver.hash
    rw [e2, e3, e5, e6, hl]
    clear e e2 e3 e5 e6 hl
    revert hs e1 e4
    generalize a.epoch = x
    generalize b.epoch = y
    generalize a.serial = s
    generalize b.serial = t
    intro e1 e4
    rcases optEq e1 with rfl | ⟨rfl, rfl⟩ | ⟨rfl, rfl⟩ <;> rcases optEq e4 with rfl | ⟨rfl, rfl⟩ | ⟨rfl, rfl⟩ <;>
      simp [Nat.xor_assoc, Nat.xor_comm, lc, cc]

/-- The case where both differences are there: the hashes agree. -/
example : ∃ a b : Ver, a.eq b = true ∧ a.epoch ≠ b.epoch ∧ a.serial ≠ b.serial ∧ ∀ h : Hashes, a.hash h = b.hash h := by
  refine ⟨⟨none, [1], .rc, some 0, none, none, none⟩, ⟨some 0, [1], .rc, none, none, none, none⟩, by decide +kernel,
    by decide, by decide, (C23_hash_iff _ _ (by decide +kernel)).2 (by decide)⟩

/-! ### C25 -/

/-- C110, exactly: every way of writing a version with lower-case labels is accepted, and the result is the version
PEP 440 says it is if and only if no post or dev label lacks its number. -/
theorem C110_normalises_iff (w : Written) (h : w.Ok) :
    ∃ v, parse w.render = .ok v ∧ (v.eq w.meaning = true ↔ w.Numbered) := by
  refine ⟨w.code, parse_render h, fun e => ?_, code_eq_meaning⟩
  obtain ⟨_, _, _, _, e5, e6, _⟩ := (eq_spec _ _).1 e
  constructor
  · intro p hp
    simp only [Written.code, Written.meaning, hp, Option.bind_some, Option.map_some] at e5
    cases hn : p.num with
    | none => rw [hn] at e5; simp at e5
    | some _ => rfl
  · intro p hp
    simp only [Written.code, Written.meaning, hp, Option.bind_some, Option.map_some] at e6
    cases hn : p.num with
    | none => rw [hn] at e6; simp at e6
    | some _ => rfl

example : ∃ w : Written, w.Ok ∧ ¬ w.Numbered ∧ w.render = "1.0.post".toList :=
  ⟨{ rel := ['1'], rels := [['0']], post := some (.word ⟨some '.', .post, none, none⟩) }, by
    constructor <;> simp [IsNum, Part.Ok, Post.Ok] <;> decide +kernel, by simp [Written.Numbered], by decide +kernel⟩

/-! ### C26 -/

theorem segKey_inj_nl {s t : List Char} (hs : s.getLast? = some '\n') (ht : IsSeg t)
    (h : (if t ≠ [] ∧ t.all isDig then LKey.num (toNat t) else .text t) =
      (if s ≠ [] ∧ s.all isDig then LKey.num (toNat s) else .text s)) : False := by
  have hm : '\n' ∈ s := List.mem_of_getLast? hs
  rw [if_neg (c := s ≠ [] ∧ s.all isDig = true)] at h
  · split at h
    · cases h
    · cases h
      have := ht.2 _ hm
      revert this; decide +kernel
  · rintro ⟨_, h2⟩
    have := List.all_eq_true.1 h2 _ hm
    revert this; decide

/-- C26, exactly: the str of a version made from keywords can be read back as an equal version if and only if its
release has no negative number and no zero at the end (but for a release of one number), it has no serial on a final
release, and its local segments are letters and digits (the code lets a newline at the end pass). -/
theorem C26_keywords_iff (k : Kw) (v : Ver) (h : ofKw k = .ok v) :
    (∃ t v', v.str = .ok t ∧ parse t = .ok v' ∧ v'.eq v = true) ↔
    (∀ n ∈ k.release, 0 ≤ n) ∧ (k.release.getLast? = some 0 → k.release.length = 1) ∧
    (k.level.getD .final = .final → k.serial.getD 0 = 0) ∧
    (∀ l ∈ k.loc, ∀ s ∈ l, ∀ c ∈ s, asciiAlnum c = true) := by
  refine ⟨?_, fun ⟨h₁, h₂, h₃, h₄⟩ => C26_keywords_survive k v h h₁ h₂ h₃ h₄⟩
  rintro ⟨t, v', hs, hp, he⟩
  have hc := parse_canonical hp
  obtain ⟨f1, f2, f3, f4, f5, f6, f7⟩ := C26_fields k v h
  have hkey : v'.key = v.key := by simpa [Ver.eq] using he
  have hrel : v'.release = v.release := congrArg Key.release hkey
  obtain ⟨l, l1, l2, l3⟩ := hc.release
  have hk : k.release = l.map Int.ofNat := by rw [← f2, ← hrel, l1]
  refine ⟨?_, ?_, ?_, ?_⟩
  · intro n hn
    rw [hk] at hn
    obtain ⟨m, _, rfl⟩ := List.mem_map.1 hn
    exact Int.natCast_nonneg m
  · intro hlast
    rw [hk, List.getLast?_map] at hlast
    rw [hk, List.length_map]
    cases hl : l.reverse with
    | nil => simp at hl; exact absurd hl l2
    | cons x r =>
      have hle : l = r.reverse ++ [x] := by rw [← List.reverse_reverse l, hl]; simp
      have hx : x = 0 := by
        rw [hle] at hlast
        simpa using hlast
      subst hx
      unfold dropTrailingZeros at l3
      rw [hl] at l3
      have hdw : List.dropWhile (fun x => decide (x = 0)) (0 :: r) = r.dropWhile (fun x => decide (x = 0)) := by
        simp
      rw [hdw] at l3
      split at l3
      · rw [← l3]; rfl
      · have hlen := congrArg List.length l3
        have hd : (r.dropWhile (fun x => decide (x = 0))).length ≤ r.length :=
          (List.dropWhile_sublist _).length_le
        rw [hle] at hlen
        simp at hlen
        omega
  · intro hf
    unfold Ver.str at hs
    split at hs
    · cases hs
    · rename_i hn
      rw [f3, hf] at hn
      have ht : truthy v.serial = [] := by
        by_cases hh : truthy v.serial = []
        · exact hh
        · exact absurd ⟨rfl, hh⟩ hn
      cases hser : v.serial with
      | none => rw [hser] at f4; simp at f4
      | some n =>
        rw [hser] at f4 ht
        simp only [Option.map_some, Option.some.injEq] at f4
        rw [← f4]
        cases n with
        | zero => rfl
        | succ n =>
          simp [truthy, natStr, Nat.toDigits_ne_nil] at ht
  · intro l hl s hsl c hcs
    have hl' : k.loc = some l := hl
    have hbad : badLoc k.loc = false := by
      unfold ofKw at h
      split at h
      · cases h
      · split at h
        · cases h
        · rename_i hb; simpa using hb
    rw [hl'] at hbad
    simp only [badLoc, Bool.or_eq_false_iff, decide_eq_false_iff_not, Bool.not_eq_false'] at hbad
    have hv := List.all_eq_true.1 hbad.2 s hsl
    unfold validSegment at hv
    dsimp only at hv
    split at hv
    · exfalso
      rename_i hnl
      have hloc := congrArg Key.loc hkey
      have hvl : v.loc = some l := by rw [f7, hl']
      simp only [Ver.key, hvl, Option.getD_some] at hloc
      obtain ⟨i, hi, his⟩ := List.getElem_of_mem hsl
      have hi' := congrArg (·[i]?) hloc
      simp only [List.getElem?_map, List.getElem?_eq_getElem hi, his, Option.map_some] at hi'
      cases hvp : (v'.loc.getD [])[i]? with
      | none => rw [hvp] at hi'; simp at hi'
      | some t =>
        rw [hvp] at hi'
        simp only [Option.map_some, Option.some.injEq] at hi'
        have ht : IsSeg t := by
          cases hv' : v'.loc with
          | none => rw [hv'] at hvp; simp at hvp
          | some l' =>
            rw [hv'] at hvp
            exact (hc.loc l' hv').2 t (List.mem_of_getElem? hvp)
        exact segKey_inj_nl hnl ht hi'
    · simp only [Bool.and_eq_true] at hv
      exact List.all_eq_true.1 hv.2 c hcs

end Big.Version
