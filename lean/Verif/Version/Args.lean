import Verif.Version.ArgsModel
import Verif.Version.Access
/-!
# C121: the arguments of Version; repr
-/
namespace Big.Version

/-! ## Specification: the documented forms -/

/-- An int or None. -/
def pyOpt : Option Int → Py
  | none => .pyNone
  | some n => .int n

/-- The names of the release levels; None is allowed. -/
def pyLevel : Option Level → Py
  | none => .pyNone
  | some .alpha => .str "alpha".toList
  | some .beta => .str "beta".toList
  | some .rc => .str "rc".toList
  | some .final => .str "final".toList

/-- A tuple of strings, or None. -/
def pyLocal : Option (List (List Char)) → Py
  | none => .pyNone
  | some l => .tuple (l.map .str)

/-- The keyword arguments as objects of the documented types. -/
def Kw.py (k : Kw) : PyKw where
  epoch := pyOpt k.epoch
  release := .tuple (k.release.map .int)
  level := pyLevel k.level
  serial := pyOpt k.serial
  post := pyOpt k.post
  dev := pyOpt k.dev
  loc := pyLocal k.loc

/-! ## Lemmas -/

theorem isNone_iff {x : Py} : x.isNone = true ↔ x = .pyNone := by cases x <;> simp [Py.isNone]

theorem nonneg_pyOpt (o : Option Int) : (pyOpt o).nonnegOrNone = nonneg o := by cases o <;> rfl
theorem nat_pyOpt (o : Option Int) : (pyOpt o).nat = o.map Int.toNat := by cases o <;> rfl

theorem of_nonneg {x : Py} (h : x.nonnegOrNone = true) : ∃ o, x = pyOpt o := by
  cases x with
  | pyNone => exact ⟨none, rfl⟩
  | int n => exact ⟨some n, rfl⟩
  | _ => cases h

theorem of_ints {xs : List Py} (h : xs.all Py.isInt = true) : ∃ l : List Int, xs = l.map .int := by
  induction xs with
  | nil => exact ⟨[], rfl⟩
  | cons x xs ih =>
    simp only [List.all_cons, Bool.and_eq_true] at h
    obtain ⟨l, rfl⟩ := ih h.2
    cases x with
    | int n => exact ⟨n :: l, rfl⟩
    | _ => cases h.1

theorem of_segments {xs : List Py} (h : xs.all Py.segmentOk = true) : ∃ l : List (List Char), xs = l.map .str := by
  induction xs with
  | nil => exact ⟨[], rfl⟩
  | cons x xs ih =>
    simp only [List.all_cons, Bool.and_eq_true] at h
    obtain ⟨l, rfl⟩ := ih h.2
    cases x with
    | str n => exact ⟨n :: l, rfl⟩
    | _ => cases h.1

theorem all_int (l : List Int) : (l.map Py.int).all Py.isInt = true := by
  rw [List.all_eq_true]; simp [Py.isInt]

theorem ints_tuple (l : List Int) : (Py.tuple (l.map .int)).ints = l := by
  unfold Py.ints
  induction l with
  | nil => rfl
  | cons n l ih => simpa using ih

theorem strs_tuple (l : List (List Char)) : (Py.tuple (l.map .str)).strs = some l := by
  unfold Py.strs
  congr 1
  induction l with
  | nil => rfl
  | cons n l ih => simpa using ih

theorem segment_empty (s : List Char) : (Py.str s).segmentOk = validSegment s := by
  cases s with
  | nil => decide
  | cons c s => simp [Py.segmentOk]

theorem localOk_py (o : Option (List (List Char))) : (pyLocal o).localOk = !badLoc o := by
  cases o with
  | none => rfl
  | some l =>
    have h : (l.map Py.str).all Py.segmentOk = l.all validSegment := by
      rw [List.all_map]; congr 1; funext s; exact segment_empty s
    simp only [pyLocal, Py.localOk, badLoc, h]
    cases l with
    | nil => rfl
    | cons s l => simp

theorem level_py (o : Option Level) : (pyLevel o).level = some (o.getD .final) := by
  cases o with
  | none => rfl
  | some l => cases l <;> decide +kernel

theorem of_level {x : Py} {l : Level} (h : x.level = some l) : ∃ o, x = pyLevel o := by
  cases x with
  | pyNone => exact ⟨none, rfl⟩
  | str s =>
    simp only [Py.level] at h
    split at h
    · rename_i e; subst e; exact ⟨some .alpha, rfl⟩
    · split at h
      · rename_i e; subst e; exact ⟨some .beta, rfl⟩
      · split at h
        · rename_i e; subst e; exact ⟨some .rc, rfl⟩
        · split at h
          · rename_i e; subst e; exact ⟨some .final, rfl⟩
          · cases h
  | _ => cases h

/-- The documented keyword arguments are treated as C26 says. -/
theorem fromKeywords_py (k : Kw) : fromKeywords k.py = ofKw k := by
  unfold fromKeywords ofKw Kw.py
  simp only [Py.isNone, Bool.false_eq_true, if_false, nonneg_pyOpt, nat_pyOpt, level_py, localOk_py, ints_tuple,
    Py.releaseOk, all_int, Bool.and_true, Bool.not_not]
  have hl : (pyLocal k.loc).strs = k.loc := by
    cases h : k.loc with
    | none => rfl
    | some l => exact strs_tuple l
  rw [hl]
  cases h1 : nonneg k.epoch <;> simp only [Bool.not_false, Bool.not_true, if_true, Bool.false_eq_true, if_false,
    not_false_eq_true, true_or, not_true_eq_false, false_or]
  cases h2 : k.release with
  | nil => simp
  | cons r rs =>
    simp only [List.map_cons, List.isEmpty_cons, Bool.false_eq_true, if_false, reduceCtorEq, false_or]
    cases h3 : nonneg k.serial <;> cases h4 : nonneg k.post <;> cases h5 : nonneg k.dev <;> simp

theorem fromKeywords_ok {k : PyKw} {v : Ver} (h : fromKeywords k = .ok v) : ∃ kw : Kw, k = kw.py := by
  unfold fromKeywords at h
  split at h
  · cases h
  rename_i h1
  split at h
  · cases h
  rename_i h2
  split at h
  · cases h
  rename_i h3
  split at h
  · cases h
  rename_i l h4
  split at h
  · cases h
  rename_i h5
  split at h
  · cases h
  rename_i h6
  split at h
  · cases h
  rename_i h7
  split at h
  · cases h
  rename_i h8
  simp only [Bool.not_eq_true', Bool.not_eq_false] at h2 h3 h5 h6 h7 h8
  obtain ⟨e, he⟩ := of_nonneg h2
  obtain ⟨s, hs⟩ := of_nonneg h5
  obtain ⟨p, hp⟩ := of_nonneg h6
  obtain ⟨d, hd⟩ := of_nonneg h7
  obtain ⟨lv, hl⟩ := of_level h4
  have hr : ∃ r : List Int, k.release = .tuple (r.map .int) := by
    cases hr : k.release with
    | tuple xs =>
      rw [hr] at h3
      simp only [Py.releaseOk, Bool.and_eq_true] at h3
      obtain ⟨r, rfl⟩ := of_ints h3.2
      exact ⟨r, rfl⟩
    | _ => rw [hr] at h3; cases h3
  have hc : ∃ o, k.loc = pyLocal o := by
    cases hc : k.loc with
    | pyNone => exact ⟨none, rfl⟩
    | tuple xs =>
      rw [hc] at h8
      simp only [Py.localOk, Bool.and_eq_true] at h8
      obtain ⟨r, rfl⟩ := of_segments h8.2
      exact ⟨some r, rfl⟩
    | _ => rw [hc] at h8; cases h8
  obtain ⟨r, hr⟩ := hr
  obtain ⟨o, hc⟩ := hc
  refine ⟨⟨e, r, lv, s, p, d, o⟩, ?_⟩
  cases k
  simp only at *
  subst he hs hp hd hl hr hc
  rfl

theorem fromKeywords_error {k : PyKw} {e : Err} (h : fromKeywords k = .error e) : e = .valueError := by
  unfold fromKeywords at h
  repeat' split at h
  all_goals first | (cases h; rfl) | cases h

/-- No keyword argument. -/
theorem allNone_iff (k : PyKw) : (k.epoch.isNone && k.release.isNone && k.level.isNone && k.serial.isNone &&
    k.post.isNone && k.dev.isNone && k.loc.isNone) = true ↔ k = {} := by
  simp only [Bool.and_eq_true, isNone_iff]
  constructor
  · rintro ⟨⟨⟨⟨⟨⟨h1, h2⟩, h3⟩, h4⟩, h5⟩, h6⟩, h7⟩
    cases k
    simp only at *
    subst h1 h2 h3 h4 h5 h6 h7
    rfl
  · rintro rfl
    simp

/-! ## The theorems -/

/-- **C121**: exactly which calls construct a Version, and which one: a str that can be parsed, or sys.version_info,
without any keyword argument; or keyword arguments of the documented types, without a str. -/
theorem C121_construct_iff (s : Py) (k : PyKw) (v : Ver) :
    construct s k = .ok v ↔
      (∃ t, s = .str t ∧ k = {} ∧ parse t = .ok v) ∨
      (∃ i, s = .info i ∧ k = {} ∧ ofVersionInfo i = .ok v) ∨
      (s = .pyNone ∧ ∃ kw : Kw, k = kw.py ∧ ofKw kw = .ok v) := by
  unfold construct
  cases hs : s.isNone with
  | true =>
    rw [isNone_iff.mp hs]
    simp only [if_true]
    constructor
    · intro h
      obtain ⟨kw, rfl⟩ := fromKeywords_ok h
      rw [fromKeywords_py] at h
      exact .inr (.inr ⟨by trivial, kw, rfl, h⟩)
    · rintro (⟨t, h, _⟩ | ⟨t, h, _⟩ | ⟨_, kw, rfl, h⟩)
      · cases h
      · cases h
      · rw [fromKeywords_py]; exact h
  | false =>
    have hne : s ≠ .pyNone := by rintro rfl; cases hs
    simp only [Bool.false_eq_true, if_false]
    cases hk : (k.epoch.isNone && k.release.isNone && k.level.isNone && k.serial.isNone && k.post.isNone &&
        k.dev.isNone && k.loc.isNone) with
    | false =>
      have hk' : k ≠ {} := fun e => by rw [(allNone_iff k).mpr e] at hk; cases hk
      simp only [Bool.not_false, if_true]
      constructor
      · intro h; cases h
      · rintro (⟨t, _, h, _⟩ | ⟨t, _, h, _⟩ | ⟨h, _⟩)
        · exact absurd h hk'
        · exact absurd h hk'
        · exact absurd h hne
    | true =>
      have hk' : k = {} := (allNone_iff k).mp hk
      simp only [Bool.not_true, Bool.false_eq_true, if_false]
      constructor
      · intro h
        cases s with
        | info i => exact .inr (.inl ⟨i, rfl, hk', h⟩)
        | str t => exact .inl ⟨t, rfl, hk', h⟩
        | _ => cases h
      · rintro (⟨t, rfl, _, h⟩ | ⟨t, rfl, _, h⟩ | ⟨h, _⟩)
        · exact h
        · exact h
        · exact absurd h hne

/-- **C121**: every other call raises ValueError; but for strings that raise AssertionError (those of C110). -/
theorem C121_refuses (s : Py) (k : PyKw) (e : Err) (h : construct s k = .error e) :
    e = .valueError ∨ (e = .assertionError ∧ k = {} ∧ ∃ t, s = .str t ∧ parse t = .error .assertionError) := by
  unfold construct at h
  split at h
  · exact .inl (fromKeywords_error h)
  · split at h
    · cases h; exact .inl rfl
    · rename_i hk
      simp only [Bool.not_eq_true', Bool.not_eq_false] at hk
      have hk' := (allNone_iff k).mp hk
      cases s with
      | info i =>
        obtain ⟨v, hv, _⟩ := C71_version_info i
        unfold ofVersionInfo at hv
        have h' : parse i.text = .error e := h
        rw [hv] at h'; cases h'
      | str t =>
        cases e with
        | valueError => exact .inl rfl
        | assertionError => exact .inr ⟨rfl, hk', _, rfl, h⟩
      | _ => cases h; exact .inl rfl

/-- Calls of each kind. -/
example : (construct (.str "1.0".toList) {}).isOk = true ∧
    (construct (.str "1.0".toList) { epoch := .int 0 }).isOk = false ∧
    (construct .pyNone { release := .tuple [.int 1, .int 2] }).isOk = true ∧
    (construct .pyNone { release := .tuple [.int 1, .str "2".toList] }).isOk = false ∧
    (construct (.tuple [.int 1]) {}).isOk = false ∧ (construct .pyNone {}).isOk = false := by decide +kernel

/-! ### repr -/

/-- The characters of which the text of a parsed Version consists. -/
def Good (c : Char) : Prop := isLocalChar c = true ∨ c = '!' ∨ c = '.' ∨ c = '+'

theorem good_digit {c : Char} (h : isDig c = true) : Good c := .inl (by unfold isLocalChar; rw [h, Bool.or_true])

theorem good_num (n : Nat) : ∀ c ∈ natStr n, Good c := fun c hc => good_digit ((natStr_isNum n).2 c hc)

theorem good_joinDot : ∀ {l : List (List Char)}, (∀ w ∈ l, ∀ c ∈ w, Good c) → ∀ c ∈ joinDot l, Good c
  | [], _, c, hc => by simp [joinDot] at hc
  | [w], h, c, hc => h w (by simp) c (by simpa [joinDot] using hc)
  | w :: x :: l, h, c, hc => by
    simp only [joinDot, List.mem_append, List.mem_cons] at hc
    rcases hc with hc | rfl | hc
    · exact h w (by simp) c hc
    · exact .inr (.inr (.inl rfl))
    · exact good_joinDot (l := x :: l) (fun w hw => h w (by simp [hw])) c hc

theorem good_truthy (o : Option Nat) : ∀ c ∈ truthy o, Good c := by
  intro c hc
  match o with
  | none => simp [truthy] at hc
  | some 0 => simp [truthy] at hc
  | some (n + 1) => exact good_num _ c hc

theorem good_str {v : Ver} (hv : Canonical v) {t : List Char} (h : v.str = .ok t) : ∀ c ∈ t, Good c := by
  unfold Ver.str at h
  split at h
  · cases h
  cases h
  intro c hc
  simp only [List.mem_append] at hc
  rcases hc with ((((hc | hc) | hc) | hc) | hc) | hc
  · split at hc
    · simp at hc
    · simp only [List.mem_append, List.mem_singleton] at hc
      rcases hc with hc | rfl
      · exact good_truthy _ c hc
      · exact .inr (.inl rfl)
  · obtain ⟨l, h1, _⟩ := hv.release
    refine good_joinDot ?_ c hc
    intro w hw
    rw [h1] at hw
    simp only [List.map_map, List.mem_map, Function.comp] at hw
    obtain ⟨n, _, rfl⟩ := hw
    exact good_num n
  · split at hc
    · simp at hc
    · simp only [List.mem_append] at hc
      rcases hc with hc | hc
      · have : ∀ l : Level, ∀ c ∈ l.str, isLocalChar c = true := by
          intro l; cases l <;> decide +kernel
        exact .inl (this _ c hc)
      · exact good_truthy _ c hc
  · unfold postStr at hc
    split at hc
    · simp at hc
    · rename_i n _
      rcases List.mem_append.mp hc with hc | hc
      · have : ∀ c ∈ ['.','p','o','s','t'], isLocalChar c = true ∨ c = '.' := by decide +kernel
        rcases this c hc with h | h
        · exact .inl h
        · exact .inr (.inr (.inl h))
      · exact good_num n c hc
  · unfold devStr at hc
    split at hc
    · simp at hc
    · rename_i n _
      rcases List.mem_append.mp hc with hc | hc
      · have : ∀ c ∈ ['.','d','e','v'], isLocalChar c = true ∨ c = '.' := by decide +kernel
        rcases this c hc with h | h
        · exact .inl h
        · exact .inr (.inr (.inl h))
      · exact good_num n c hc
  · cases hl : v.loc with
    | none => rw [hl] at hc; simp [locStr] at hc
    | some l =>
      rw [hl] at hc
      obtain ⟨h1, h2⟩ := hv.loc l hl
      cases l with
      | nil => exact absurd rfl h1
      | cons w l =>
        simp only [locStr, List.mem_cons] at hc
        rcases hc with rfl | hc
        · exact .inr (.inr (.inr rfl))
        · exact good_joinDot (fun w hw c hc => .inl ((h2 w hw).2 c hc)) c hc

/-- **C121**: the repr of a version that was parsed is `Version('...')`, with str() of it between the quotes, unescaped:
read back by Python it constructs an equal version. -/
theorem C121_repr (printable : Char → Bool) (esc : Char → List Char) (hp : ∀ c, Good c → printable c = true)
    (s : List Char) (v : Ver) (h : parse s = .ok v) :
    ∃ t v', v.str = .ok t ∧ v.repr printable esc = .ok ("Version('".toList ++ t ++ "')".toList) ∧
      construct (.str t) {} = .ok v' ∧ v'.eq v = true := by
  obtain ⟨t, v', h1, h2, h3⟩ := C24_str_roundtrip s v h
  have hg := good_str (parse_canonical h) h1
  refine ⟨t, v', h1, ?_, h2, h3⟩
  have hbad : ∀ c ∈ ['\'', '"', '\\', '\n', '\r', '\t'], ¬ Good c := by
    unfold Good
    decide +kernel
  have hq : t.contains '\'' = false := by
    cases hc : t.contains '\'' with
    | false => rfl
    | true => exact absurd (hg _ (by simpa using hc)) (hbad _ (by simp))
  have hflat : ∀ l : List Char, (∀ c ∈ l, Good c) → l.flatMap (fun c =>
      if c = '\'' ∨ c = '\\' then ['\\', c] else if c = '\n' then ['\\', 'n'] else if c = '\r' then ['\\', 'r']
      else if c = '\t' then ['\\', 't'] else if printable c then [c] else esc c) = l := by
    intro l hl
    induction l with
    | nil => rfl
    | cons c l ih =>
      have hc := hl c (by simp)
      have n1 : c ≠ '\'' := by rintro rfl; exact hbad _ (by simp) hc
      have n2 : c ≠ '\\' := by rintro rfl; exact hbad _ (by simp) hc
      have n3 : c ≠ '\n' := by rintro rfl; exact hbad _ (by simp) hc
      have n4 : c ≠ '\r' := by rintro rfl; exact hbad _ (by simp) hc
      have n5 : c ≠ '\t' := by rintro rfl; exact hbad _ (by simp) hc
      rw [List.flatMap_cons, ih (fun c hc => hl c (by simp [hc]))]
      simp [n1, n2, n3, n4, n5, hp c hc]
  unfold Ver.repr
  rw [h1]
  simp only [Except.map, reprStr, hq, Bool.false_and, Bool.false_eq_true, if_false]
  rw [hflat t hg]
  simp

example : ∃ v, parse " v1!2.3.0rc45+I.am ".toList = .ok v ∧
    v.repr (fun _ => true) (fun _ => []) = .ok "Version('1!2.3rc45+I.am')".toList :=
  ⟨⟨some 1, [2, 3], .rc, some 45, none, none, some ["I".toList, "am".toList]⟩, by decide +kernel, by decide +kernel⟩

end Big.Version
