import Verif.Version.AccessModel
import Verif.Version.Props
/-!
# C71: accessors, operators and sys.version_info
-/
namespace Big.Version

/-! ## Specification -/

/-- The n-th number of a release, 0 beyond its end ("safe" indexing). -/
def safe (l : List Int) (n : Nat) : Int := l[n]?.getD 0

/-- The release levels of sys.version_info and those of a Version. -/
def PyLevel.meaning : PyLevel → Level
  | .alpha => .alpha | .beta => .beta | .candidate => .rc | .final => .final

/-- The place of a release level in time. -/
def PyLevel.rank : PyLevel → Nat
  | .alpha => 0 | .beta => 1 | .candidate => 2 | .final => 3

/-- Python's own order on sys.version_info: tuple comparison (the names of the levels happen to be
in alphabetical order). -/
inductive InfoLt : VersionInfo → VersionInfo → Prop
  | major {a b} : a.major < b.major → InfoLt a b
  | minor {a b} : a.major = b.major → a.minor < b.minor → InfoLt a b
  | micro {a b} : a.major = b.major → a.minor = b.minor → a.micro < b.micro → InfoLt a b
  | level {a b} : a.major = b.major → a.minor = b.minor → a.micro = b.micro →
      a.releaselevel.rank < b.releaselevel.rank → InfoLt a b
  | serial {a b} : a.major = b.major → a.minor = b.minor → a.micro = b.micro →
      a.releaselevel = b.releaselevel → a.serial < b.serial → InfoLt a b

/-! ## Accessors -/

/-- Stripping trailing zeros does not change number n, with 0 for those that are not there. -/
theorem safe_dropTrailingZeros (l : List Nat) (n : Nat) :
    safe ((dropTrailingZeros l).map Int.ofNat) n = (l[n]?.getD 0 : Nat) := by
  have key : ∃ k, l = (l.reverse.dropWhile (· = 0)).reverse ++ List.replicate k 0 := by
    refine ⟨(l.reverse.takeWhile (· = 0)).length, ?_⟩
    have h : l.reverse = l.reverse.takeWhile (· = 0) ++ l.reverse.dropWhile (· = 0) :=
      List.takeWhile_append_dropWhile.symm
    have h0 : l.reverse.takeWhile (· = 0) =
        List.replicate (l.reverse.takeWhile (· = 0)).length 0 := by
      rw [List.eq_replicate_iff]
      refine ⟨rfl, fun b hb => ?_⟩
      have := List.all_takeWhile (l := l.reverse) (p := fun x : Nat => decide (x = 0))
      simpa using List.all_eq_true.1 this b hb
    have h2 := congrArg List.reverse h
    rw [List.reverse_reverse, List.reverse_append, h0, List.reverse_replicate] at h2
    simpa using h2
  obtain ⟨k, hk⟩ := key
  unfold safe dropTrailingZeros
  generalize (l.reverse.dropWhile (· = 0)).reverse = m at hk ⊢
  subst hk
  split
  · rename_i hm
    subst hm
    simp only [List.nil_append, List.map_cons, List.map_nil]
    rw [List.getElem?_replicate]
    cases n <;> simp <;> split <;> rfl
  · by_cases hn : n < m.length
    · simp [List.getElem?_append_left hn, hn]
    · rw [List.getElem?_append_right (by omega), List.getElem?_replicate]
      simp only [List.getElem?_map]
      rw [List.getElem?_eq_none (by omega)]
      simp
      split <;> rfl

theorem accessors_safe (v : Ver) (h : v.release ≠ []) :
    v.major = some (safe v.release 0) ∧ v.minor = some (safe v.release 1) ∧
    v.micro = some (safe v.release 2) := by
  obtain ⟨a, l, hl⟩ : ∃ a l, v.release = a :: l := by
    cases hv : v.release with
    | nil => exact absurd hv h
    | cons a l => exact ⟨a, l, rfl⟩
  unfold Ver.major Ver.minor Ver.micro safe
  rw [hl]
  refine ⟨rfl, ?_, ?_⟩
  · cases l <;> simp
  · rcases l with _ | ⟨b, _ | ⟨c, l⟩⟩ <;> simp

theorem dropTrailingZeros_ne (l : List Nat) : dropTrailingZeros l ≠ [] := by
  unfold dropTrailingZeros; split <;> simp_all

/-- C71: for every written version that is accepted, `major`, `minor` and `micro` are the first three
numbers as written, 0 for those that are missing, although `release` itself has no trailing zeros;
`release_level` is the level of the label; `serial`, `post` and `dev` are the numbers written after
their labels, None if there is none. -/
theorem C71_accessors (w : Written) (h : w.Ok) :
    ∃ v, parse w.render = .ok v ∧
      v.major = some (toNat w.rel : Nat) ∧
      v.minor = some (((w.rels.map toNat)[0]?.getD 0 : Nat) : Int) ∧
      v.micro = some (((w.rels.map toNat)[1]?.getD 0 : Nat) : Int) ∧
      (v.release.length = 1 ∨ v.release.getLast? ≠ some 0) ∧
      v.level = (match w.pre with | none => .final | some p => p.label.level) ∧
      v.serial = w.pre.bind (fun p => p.num.map toNat) ∧
      (∀ p, w.post = some (.word p) → v.post = p.num.map toNat) ∧
      (w.post = none → v.post = none) ∧
      v.dev = w.dev.bind (fun p => p.num.map toNat) := by
  refine ⟨w.code, parse_render h, ?_, ?_, ?_, ?_, rfl, rfl, ?_, ?_, rfl⟩
  · rw [(accessors_safe w.code (by simp [Written.code, dropTrailingZeros_ne])).1]
    show some (safe ((dropTrailingZeros _).map Int.ofNat) 0) = _
    rw [safe_dropTrailingZeros]; rfl
  · rw [(accessors_safe w.code (by simp [Written.code, dropTrailingZeros_ne])).2.1]
    show some (safe ((dropTrailingZeros _).map Int.ofNat) 1) = _
    rw [safe_dropTrailingZeros]; simp
  · rw [(accessors_safe w.code (by simp [Written.code, dropTrailingZeros_ne])).2.2]
    show some (safe ((dropTrailingZeros _).map Int.ofNat) 2) = _
    rw [safe_dropTrailingZeros]; simp
  · show ((dropTrailingZeros _).map Int.ofNat).length = 1 ∨ _
    simp only [Written.code]
    unfold dropTrailingZeros
    split
    · left; rfl
    · rename_i hd
      right
      rw [List.getLast?_map, List.getLast?_reverse]
      generalize ((w.rel :: w.rels).map toNat).reverse = m at hd ⊢
      have := List.head?_dropWhile_not (fun x : Nat => decide (x = 0)) m
      cases hh : (m.dropWhile (· = 0)).head? with
      | none => simp
      | some x =>
        rw [hh] at this
        simp at this
        simp only [Option.map_some, ne_eq, Option.some.injEq]
        intro e
        have : (x : Int) = 0 := e
        omega
  · intro p hp; simp [Written.code, hp]
  · intro hp; simp [Written.code, hp]

/-- C71: versions that are == agree in `release`, `major`, `minor`, `micro`, `release_level`, `post` and
`dev`; and in `epoch` and `serial` up to None meaning 0. -/
theorem C71_equal_versions_agree (a b : Ver) (h : a.eq b = true) :
    a.release = b.release ∧ a.major = b.major ∧ a.minor = b.minor ∧ a.micro = b.micro ∧
    a.level = b.level ∧ a.post = b.post ∧ a.dev = b.dev ∧
    a.epoch.getD 0 = b.epoch.getD 0 ∧ a.serial.getD 0 = b.serial.getD 0 := by
  obtain ⟨h1, h2, h3, h4, h5, h6, _⟩ := (eq_spec a b).1 h
  simp [Ver.major, Ver.minor, Ver.micro, *]

/-! ## Operators -/

/-- C101: of `<`, `==` and `>` exactly one answers True, and `!=` is the opposite of
`==`. `<=` and `>=` always raise (`C101_no_le_ge`). -/
theorem C101_operators (a b : Ver) :
    (operate .lt a b = .yes ∧ operate .eq a b = .no ∧ operate .gt a b = .no ∨
     operate .lt a b = .no ∧ operate .eq a b = .yes ∧ operate .gt a b = .no ∨
     operate .lt a b = .no ∧ operate .eq a b = .no ∧ operate .gt a b = .yes) ∧
    (operate .ne a b = .yes ↔ operate .eq a b = .no) ∧
    (operate .gt a b = operate .lt b a) := by
  have := C22_trichotomy a b
  simp only [operate, Answer.ofBool]
  rcases this with ⟨h1, h2, h3⟩ | ⟨h1, h2, h3⟩ | ⟨h1, h2, h3⟩ <;> simp [h1, h2, h3]

/-- C101 fails for the other two comparisons: `a <= b` and `a >= b` raise TypeError for all versions. -/
theorem C101_no_le_ge (a b : Ver) :
    operate .le a b = .typeError ∧ operate .ge a b = .typeError := ⟨rfl, rfl⟩

/-! ## sys.version_info -/

/-- sys.version_info, written as a version. -/
def VersionInfo.written (i : VersionInfo) : Written where
  rel := natStr i.major
  rels := [natStr i.minor, natStr i.micro]
  pre := match i.releaselevel with
    | .final => none
    | .alpha => some ⟨none, .alpha, none, if i.serial = 0 then none else some (natStr i.serial)⟩
    | .beta => some ⟨none, .beta, none, if i.serial = 0 then none else some (natStr i.serial)⟩
    | .candidate => some ⟨none, .rc, none, if i.serial = 0 then none else some (natStr i.serial)⟩

theorem written_render (i : VersionInfo) : i.written.render = i.text := by
  obtain ⟨a, b, c, l, s⟩ := i
  cases l <;> by_cases hs : s = 0 <;>
    simp [VersionInfo.written, Written.render, VersionInfo.text, Part.render, PreLabel.text,
      PyLevel.text, hs]

theorem written_ok (i : VersionInfo) : i.written.Ok := by
  obtain ⟨a, b, c, l, s⟩ := i
  have hp : ∀ (lab : PreLabel), (⟨none, lab, none, if s = 0 then none else some (natStr s)⟩ :
      Part PreLabel).Ok := by
    intro lab
    refine ⟨by simp, by simp, ?_⟩
    intro n hn
    by_cases hs : s = 0
    · simp [hs] at hn
    · simp [hs] at hn; subst hn; exact natStr_isNum s
  constructor
  · simp [VersionInfo.written]
  · simp [VersionInfo.written]
  · simp [VersionInfo.written]
  · exact natStr_isNum a
  · intro r hr
    simp only [VersionInfo.written, List.mem_cons, List.not_mem_nil, or_false] at hr
    rcases hr with rfl | rfl <;> exact natStr_isNum _
  · intro p h
    cases l <;> simp only [VersionInfo.written, Option.mem_def, Option.some.injEq, reduceCtorEq] at h <;>
      (subst h; exact hp _)
  · simp [VersionInfo.written]
  · simp [VersionInfo.written]
  · simp [VersionInfo.written]
  · simp [VersionInfo.written]
  · simp [VersionInfo.written]

/-- The version made of sys.version_info. -/
theorem ofVersionInfo_eq (i : VersionInfo) : ofVersionInfo i = .ok
    ⟨none, (dropTrailingZeros [i.major, i.minor, i.micro]).map Int.ofNat, i.releaselevel.meaning,
      (if i.releaselevel = .final ∨ i.serial = 0 then none else some i.serial), none, none, none⟩ := by
  unfold ofVersionInfo
  rw [← written_render, parse_render (written_ok i)]
  obtain ⟨a, b, c, l, s⟩ := i
  cases l <;> by_cases hs : s = 0 <;>
    simp [Written.code, VersionInfo.written, toNat_natStr, PyLevel.meaning, PreLabel.level, hs]

/-- C71: `Version(sys.version_info)` is accepted for every sys.version_info, and its major, minor,
micro and release level are those of sys.version_info ('candidate' being 'rc'), and so is its serial
(None for 0) unless it is a final release. -/
theorem C71_version_info (i : VersionInfo) :
    ∃ v, ofVersionInfo i = .ok v ∧ v.major = some (i.major : Int) ∧ v.minor = some (i.minor : Int) ∧
      v.micro = some (i.micro : Int) ∧ v.level = i.releaselevel.meaning ∧
      (i.releaselevel ≠ .final → v.serial.getD 0 = i.serial) ∧
      (i.releaselevel = .final → v.serial = none) ∧
      v.epoch = none ∧ v.post = none ∧ v.dev = none ∧ v.loc = none := by
  refine ⟨_, ofVersionInfo_eq i, ?_, ?_, ?_, rfl, ?_, ?_, rfl, rfl, rfl, rfl⟩
  · rw [(accessors_safe _ (by simp [dropTrailingZeros_ne])).1]
    show some (safe ((dropTrailingZeros _).map Int.ofNat) 0) = _
    rw [safe_dropTrailingZeros]; rfl
  · rw [(accessors_safe _ (by simp [dropTrailingZeros_ne])).2.1]
    show some (safe ((dropTrailingZeros _).map Int.ofNat) 1) = _
    rw [safe_dropTrailingZeros]; rfl
  · rw [(accessors_safe _ (by simp [dropTrailingZeros_ne])).2.2]
    show some (safe ((dropTrailingZeros _).map Int.ofNat) 2) = _
    rw [safe_dropTrailingZeros]; rfl
  · intro h
    by_cases hs : i.serial = 0 <;> simp [h, hs]
  · intro h; simp [h]

/-- Releases of three numbers without trailing zeros compare as the three numbers do. -/
theorem release3 (a b : List Nat) (ha : a.length = 3) (hb : b.length = 3) :
    ((dropTrailingZeros a).map Int.ofNat = (dropTrailingZeros b).map Int.ofNat ↔ a = b) ∧
    ((dropTrailingZeros a).map Int.ofNat < (dropTrailingZeros b).map Int.ofNat ↔ a < b) := by
  match a, ha, b, hb with
  | [a0, a1, a2], _, [b0, b1, b2], _ =>
    have d : ∀ x y z : Nat, dropTrailingZeros [x, y, z] =
        if z ≠ 0 then [x, y, z] else if y ≠ 0 then [x, y] else [x] := by
      intro x y z
      unfold dropTrailingZeros
      by_cases hz : z = 0 <;> by_cases hy : y = 0 <;> by_cases hx : x = 0 <;>
        simp [List.dropWhile, hx, hy, hz]
    rw [d, d]
    by_cases ha2 : a2 = 0 <;> by_cases hb2 : b2 = 0 <;> by_cases ha1 : a1 = 0 <;>
      by_cases hb1 : b1 = 0 <;>
      simp [ha2, hb2, ha1, hb1, List.cons_lt_cons_iff] <;> omega

/-- C71: versions made of sys.version_info are ordered as sys.version_info is (Python numbers the
serial of final releases 0). -/
theorem C71_version_info_order (i j : VersionInfo) (v w : Ver) (hi : ofVersionInfo i = .ok v)
    (hj : ofVersionInfo j = .ok w) (fi : i.releaselevel = .final → i.serial = 0)
    (fj : j.releaselevel = .final → j.serial = 0) :
    (v.lt w = true ↔ InfoLt i j) ∧ (v.eq w = true ↔ i = j) := by
  rw [ofVersionInfo_eq] at hi hj
  cases hi
  cases hj
  obtain ⟨r1, r2⟩ := release3 [i.major, i.minor, i.micro] [j.major, j.minor, j.micro] rfl rfl
  have hser : ∀ k : VersionInfo, (k.releaselevel = .final → k.serial = 0) →
      (if k.releaselevel = .final ∨ k.serial = 0 then none else some k.serial).getD 0 = k.serial := by
    intro k hk
    by_cases h : k.releaselevel = .final
    · simp [h, hk h]
    · by_cases hs : k.serial = 0 <;> simp [h, hs]
  have hlev : ∀ a b : PyLevel, (a.meaning = b.meaning ↔ a = b) ∧
      (a.meaning.rank < b.meaning.rank ↔ a.rank < b.rank) := by
    intro a b; cases a <;> cases b <;> decide
  constructor
  · rw [C22_order_is_documented]
    constructor
    · intro h
      cases h with
      | epoch h => simp at h
      | release _ h =>
        have h := r2.1 h
        simp only [List.cons_lt_cons_iff, List.lt_irrefl, and_false, or_false] at h
        rcases h with h | ⟨h1, h | ⟨h2, h⟩⟩
        · exact .major h
        · exact .minor h1 h
        · exact .micro h1 h2 h
      | level _ h2 h =>
        have h2 := r1.1 h2
        simp only [List.cons.injEq, and_true] at h2
        exact .level h2.1 h2.2.1 h2.2.2 ((hlev _ _).2.1 h)
      | serial _ h2 h3 h =>
        have h2 := r1.1 h2
        simp only [List.cons.injEq, and_true] at h2
        simp only [hser i fi, hser j fj] at h
        exact .serial h2.1 h2.2.1 h2.2.2 ((hlev _ _).1.1 h3) h
      | post _ _ _ _ h => cases h
      | dev _ _ _ _ _ h => cases h
      | loc _ _ _ _ _ _ h => simp [Ver.segs] at h
    · intro h
      cases h with
      | major h =>
        exact .release rfl (r2.2 (by simp [List.cons_lt_cons_iff, h]))
      | minor h1 h => exact .release rfl (r2.2 (by simp [List.cons_lt_cons_iff, h1, h]))
      | micro h1 h2 h => exact .release rfl (r2.2 (by simp [List.cons_lt_cons_iff, h1, h2, h]))
      | level h1 h2 h3 h => exact .level rfl (r1.2 (by simp [h1, h2, h3])) ((hlev _ _).2.2 h)
      | serial h1 h2 h3 h4 h =>
        exact .serial rfl (r1.2 (by simp [h1, h2, h3])) ((hlev _ _).1.2 h4)
          (by simp only [hser i fi, hser j fj]; exact h)
  · rw [C22_eq_is_documented]
    simp only [hser i fi, hser j fj, r1, (hlev _ _).1, true_and]
    obtain ⟨a, b, c, l, s⟩ := i
    obtain ⟨a', b', c', l', s'⟩ := j
    simp only [Ver.segs, VersionInfo.mk.injEq, List.cons.injEq, and_true]
    exact ⟨fun ⟨⟨h1, h2, h3⟩, h4, h5⟩ => ⟨h1, h2, h3, h4, h5⟩,
      fun ⟨h1, h2, h3, h4, h5⟩ => ⟨⟨h1, h2, h3⟩, h4, h5⟩⟩

/-! ## The release_level keyword -/

/-- C101 fails for the keyword: the README says release_level "must be one of" 'a', 'b' and 'rc'; the
first two raise ValueError whatever the other arguments. -/
theorem C101_level_keyword (k : Kw) :
    ofKwText k (some "a".toList) = .error .valueError ∧
    ofKwText k (some "b".toList) = .error .valueError ∧
    (ofKwText ⟨none, [1], none, none, none, none, none⟩ (some "rc".toList)).isOk = true ∧
    (ofKwText ⟨none, [1], none, none, none, none, none⟩ (some "alpha".toList)).isOk = true := by
  refine ⟨?_, ?_, by decide +kernel, by decide +kernel⟩
  · have : levelOfKw (some "a".toList) = .error .valueError := by decide +kernel
    unfold ofKwText; rw [this]
  · have : levelOfKw (some "b".toList) = .error .valueError := by decide +kernel
    unfold ofKwText; rw [this]

/-! ## Examples -/

example : (VersionInfo.mk 3 0 0 .candidate 2).text = "3.0.0rc2".toList := by decide +kernel
example : ofVersionInfo (VersionInfo.mk 3 0 0 .candidate 2) =
    .ok ⟨none, [3], .rc, some 2, none, none, none⟩ := ofVersionInfo_eq _
example : InfoLt ⟨3, 9, 0, .beta, 4⟩ ⟨3, 9, 0, .candidate, 1⟩ :=
  .level rfl rfl rfl (by decide)
example : ∃ w : Written, w.Ok ∧ w.render = "1.0.5.0".toList :=
  ⟨⟨[], none, none, ['1'], [['0'], ['5'], ['0']], none, none, none, none, []⟩, by
    constructor <;> simp [IsNum] <;> decide +kernel, by decide +kernel⟩
example : (Ver.mk none [1, 0, 5] .final none none none none).minor = some 0 ∧
    (Ver.mk none [1] .final none none none none).micro = some 0 := by decide

end Big.Version
