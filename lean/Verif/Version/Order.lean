import Verif.Version.Model
/- C22 and C23: comparison and hashing of versions. -/
namespace Big.Version

/-! ### specification -/

/-- The words and numbers of a local version label: numbers for all-digit segments. -/
inductive Seg where
  | text (s : List Char) | num (n : Nat)
  deriving DecidableEq

/-- PEP 440: text sorts before numbers, text alphabetically, numbers numerically. -/
inductive SegLt : Seg → Seg → Prop
  | text {a b : List Char} : a < b → SegLt (.text a) (.text b)
  | textNum {a n} : SegLt (.text a) (.num n)
  | num {a b : Nat} : a < b → SegLt (.num a) (.num b)

/-- What the version's `.local` attribute amounts to. -/
def Ver.segs (v : Ver) : List Seg :=
  (v.loc.getD []).map (fun e => if e ≠ [] ∧ e.all isDig then .num (toNat e) else .text e)

/-- alpha < beta < rc < final -/
def Level.rank : Level → Nat
  | .alpha => 0 | .beta => 1 | .rc => 2 | .final => 3

/-- absent < any number -/
inductive PostLt : Option Nat → Option Nat → Prop
  | absent {n} : PostLt none (some n)
  | num {a b} : a < b → PostLt (some a) (some b)

/-- any number < absent -/
inductive DevLt : Option Nat → Option Nat → Prop
  | absent {n} : DevLt (some n) none
  | num {a b} : a < b → DevLt (some a) (some b)

/-- The documented order, field after field. `release` and local labels are compared
lexicographically, a proper prefix being smaller. -/
inductive SpecLt (a b : Ver) : Prop
  | epoch (h : a.epoch.getD 0 < b.epoch.getD 0)
  | release (h₁ : a.epoch.getD 0 = b.epoch.getD 0) (h : a.release < b.release)
  | level (h₁ : a.epoch.getD 0 = b.epoch.getD 0) (h₂ : a.release = b.release)
      (h : a.level.rank < b.level.rank)
  | serial (h₁ : a.epoch.getD 0 = b.epoch.getD 0) (h₂ : a.release = b.release)
      (h₃ : a.level = b.level) (h : a.serial.getD 0 < b.serial.getD 0)
  | post (h₁ : a.epoch.getD 0 = b.epoch.getD 0) (h₂ : a.release = b.release)
      (h₃ : a.level = b.level) (h₄ : a.serial.getD 0 = b.serial.getD 0) (h : PostLt a.post b.post)
  | dev (h₁ : a.epoch.getD 0 = b.epoch.getD 0) (h₂ : a.release = b.release)
      (h₃ : a.level = b.level) (h₄ : a.serial.getD 0 = b.serial.getD 0) (h₅ : a.post = b.post)
      (h : DevLt a.dev b.dev)
  | loc (h₁ : a.epoch.getD 0 = b.epoch.getD 0) (h₂ : a.release = b.release)
      (h₃ : a.level = b.level) (h₄ : a.serial.getD 0 = b.serial.getD 0) (h₅ : a.post = b.post)
      (h₆ : a.dev = b.dev) (h : List.Lex SegLt a.segs b.segs)

/-! ### lemmas -/

theorem lex_cc {α : Type} {r : α → α → Prop} {a b : α} {x y : List α} :
    List.Lex r (a :: x) (b :: y) ↔ r a b ∨ a = b ∧ List.Lex r x y := by
  constructor
  · intro h
    cases h with
    | rel h => exact .inl h
    | cons h => exact .inr ⟨rfl, h⟩
  · rintro (h | ⟨rfl, h⟩)
    · exact .rel h
    · exact .cons h

theorem tupleLt_iff {α : Type} [DecidableEq α] {lt : α → α → Bool} {r : α → α → Prop}
    (h : ∀ a b, lt a b = true ↔ r a b) (irr : ∀ a, ¬ r a a) :
    ∀ (x y : List α), tupleLt lt x y = true ↔ List.Lex r x y := by
  intro x
  induction x with
  | nil => intro y; cases y <;> simp [tupleLt]
  | cons a x ih =>
    intro y
    cases y with
    | nil => simp [tupleLt]
    | cons b y =>
      simp only [tupleLt, lex_cc]
      by_cases e : a = b
      · subst e; simp [ih, irr]
      · simp [e, h]

theorem lt_iff_lex {α : Type} [LT α] (x y : List α) : x < y ↔ List.Lex (· < ·) x y := Iff.rfl

/-- A component of a local version, as the specification has it. -/
def LKey.seg : LKey → Seg
  | .text s => .text s
  | .num n => .num n

theorem LKey.seg_inj {a b : LKey} (h : a.seg = b.seg) : a = b := by
  cases a <;> cases b <;> simp_all [LKey.seg]

theorem LKey.lt_iff (a b : LKey) : a.lt b = true ↔ SegLt a.seg b.seg := by
  have ht : ∀ x y : List Char, tupleLt (fun x y => decide (x < y)) x y = true ↔ x < y := fun x y => by
    rw [lt_iff_lex]; exact tupleLt_iff (by simp) (fun c => Char.lt_irrefl c) x y
  cases a <;> cases b <;> simp only [LKey.lt, LKey.seg, ht]
  · exact ⟨.text, fun h => by cases h; assumption⟩
  · exact ⟨fun _ => .textNum, fun _ => trivial⟩
  · exact ⟨fun h => by simp at h, fun h => by cases h⟩
  · simp only [decide_eq_true_eq]; exact ⟨.num, fun h => by cases h; assumption⟩

theorem SegLt.irrefl (a : Seg) : ¬ SegLt a a := by
  intro h
  cases h with
  | text h => exact List.lt_irrefl _ h
  | num h => exact Nat.lt_irrefl _ h

theorem segs_eq (v : Ver) : v.segs = v.key.loc.map LKey.seg := by
  simp only [Ver.segs, Ver.key, List.map_map]
  apply List.map_congr_left
  intro e _
  simp only [Function.comp]
  split <;> rfl

theorem lex_map_seg (x y : List LKey) :
    List.Lex SegLt (x.map LKey.seg) (y.map LKey.seg) ↔ List.Lex (fun a b => SegLt a.seg b.seg) x y := by
  induction x generalizing y with
  | nil => cases y <;> simp
  | cons a x ih =>
    cases y with
    | nil => simp
    | cons b y =>
      simp only [List.map_cons, lex_cc, ih]
      constructor
      · rintro (h | ⟨h, g⟩)
        · exact .inl h
        · exact .inr ⟨LKey.seg_inj h, g⟩
      · rintro (h | ⟨h, g⟩)
        · exact .inl h
        · exact .inr ⟨by rw [h], g⟩

theorem level_int_lt (a b : Level) : a.int < b.int ↔ a.rank < b.rank := by cases a <;> cases b <;> decide
theorem level_int_eq (a b : Level) : a.int = b.int ↔ a = b := by cases a <;> cases b <;> decide

theorem loc_lt_iff (a b : Ver) : tupleLt LKey.lt a.key.loc b.key.loc = true ↔
    List.Lex SegLt a.segs b.segs := by
  rw [segs_eq, segs_eq, lex_map_seg]
  exact tupleLt_iff (fun x y => LKey.lt_iff x y) (fun x => SegLt.irrefl _) _ _

theorem rel_lt_iff (a b : List Int) : tupleLt (fun x y => decide (x < y)) a b = true ↔ a < b := by
  rw [lt_iff_lex]
  exact tupleLt_iff (by simp) (fun c => Int.lt_irrefl c) _ _

theorem infLt_iff (a b : Option Nat) : infLt a b = true ↔ DevLt a b := by
  cases a <;> cases b <;> simp only [infLt]
  · exact ⟨fun h => by simp at h, fun h => by cases h⟩
  · exact ⟨fun h => by simp at h, fun h => by cases h⟩
  · exact ⟨fun _ => .absent, fun _ => trivial⟩
  · simp only [decide_eq_true_eq]; exact ⟨.num, fun h => by cases h; assumption⟩

/-- The number of the post release, -1 if there is none. -/
def postKey : Option Nat → Int
  | none => -1
  | some n => (n : Int)

theorem key_post (v : Ver) : v.key.post = postKey v.post := by
  show (match v.post with | none => (-1 : Int) | some n => (n : Int)) = _
  cases v.post <;> rfl

theorem postKey_eq {a b : Option Nat} : postKey a = postKey b ↔ a = b := by
  cases a <;> cases b <;> simp [postKey] <;> omega

theorem postKey_lt {a b : Option Nat} : postKey a < postKey b ↔ PostLt a b := by
  cases a <;> cases b <;> simp only [postKey]
  · exact ⟨fun h => by omega, fun h => by cases h⟩
  · exact ⟨fun _ => .absent, fun _ => by omega⟩
  · exact ⟨fun h => by omega, fun h => by cases h⟩
  · exact ⟨fun h => .num (by omega), fun h => by cases h; omega⟩

theorem lt_spec (a b : Ver) : a.lt b = true ↔ SpecLt a b := by
  unfold Ver.lt Key.lt
  rw [key_post, key_post]
  simp only [show a.key.epoch = a.epoch.getD 0 from rfl, show b.key.epoch = b.epoch.getD 0 from rfl,
    show a.key.release = a.release from rfl, show b.key.release = b.release from rfl,
    show a.key.level = a.level.int from rfl, show b.key.level = b.level.int from rfl,
    show a.key.serial = a.serial.getD 0 from rfl, show b.key.serial = b.serial.getD 0 from rfl,
    show a.key.dev = a.dev from rfl, show b.key.dev = b.dev from rfl, ne_eq, postKey_eq, level_int_eq]
  have relIrr : ∀ r : List Int, ¬ r < r := fun r => List.lt_irrefl r
  have devIrr : ∀ r, ¬ DevLt r r := by intro r h; cases h; omega
  have postIrr : ∀ r, ¬ PostLt r r := by intro r h; cases h; omega
  by_cases h1 : a.epoch.getD 0 = b.epoch.getD 0
  · by_cases h2 : a.release = b.release
    · by_cases h3 : a.level = b.level
      · by_cases h4 : a.serial.getD 0 = b.serial.getD 0
        · by_cases h5 : a.post = b.post
          · by_cases h6 : a.dev = b.dev
            · simp only [h1, h2, h3, h4, h5, h6, not_true, if_false, loc_lt_iff]
              refine ⟨.loc h1 h2 h3 h4 h5 h6, fun h => ?_⟩
              cases h with
              | epoch h => omega
              | release _ h => rw [h2] at h; exact absurd h (relIrr _)
              | level _ _ h => rw [h3] at h; omega
              | serial _ _ _ h => omega
              | post _ _ _ _ h => rw [h5] at h; exact absurd h (postIrr _)
              | dev _ _ _ _ _ h => rw [h6] at h; exact absurd h (devIrr _)
              | loc _ _ _ _ _ _ h => exact h
            · simp only [h1, h2, h3, h4, h5, h6, not_true, not_false_iff, if_true, if_false, infLt_iff]
              refine ⟨.dev h1 h2 h3 h4 h5, fun h => ?_⟩
              cases h with
              | epoch h => omega
              | release _ h => rw [h2] at h; exact absurd h (relIrr _)
              | level _ _ h => rw [h3] at h; omega
              | serial _ _ _ h => omega
              | post _ _ _ _ h => rw [h5] at h; exact absurd h (postIrr _)
              | dev _ _ _ _ _ h => exact h
              | loc _ _ _ _ _ h6' h => exact absurd h6' h6
          · simp only [h1, h2, h3, h4, h5, not_true, not_false_iff, if_true, if_false,
              decide_eq_true_eq, postKey_lt]
            refine ⟨.post h1 h2 h3 h4, fun h => ?_⟩
            cases h with
            | epoch h => omega
            | release _ h => rw [h2] at h; exact absurd h (relIrr _)
            | level _ _ h => rw [h3] at h; omega
            | serial _ _ _ h => omega
            | post _ _ _ _ h => exact h
            | dev _ _ _ _ h5' _ => exact absurd h5' h5
            | loc _ _ _ _ h5' _ _ => exact absurd h5' h5
        · simp only [h1, h2, h3, h4, not_true, not_false_iff, if_true, if_false, decide_eq_true_eq]
          refine ⟨.serial h1 h2 h3, fun h => ?_⟩
          cases h with
          | epoch h => omega
          | release _ h => rw [h2] at h; exact absurd h (relIrr _)
          | level _ _ h => rw [h3] at h; omega
          | serial _ _ _ h => exact h
          | post _ _ _ h' _ => exact absurd h' h4
          | dev _ _ _ h' _ _ => exact absurd h' h4
          | loc _ _ _ h' _ _ _ => exact absurd h' h4
      · simp only [h1, h2, h3, not_true, not_false_iff, if_true, if_false, decide_eq_true_eq,
          level_int_lt]
        refine ⟨.level h1 h2, fun h => ?_⟩
        cases h with
        | epoch h => omega
        | release _ h => rw [h2] at h; exact absurd h (relIrr _)
        | level _ _ h => exact h
        | serial _ _ h' _ => exact absurd h' h3
        | post _ _ h' _ _ => exact absurd h' h3
        | dev _ _ h' _ _ _ => exact absurd h' h3
        | loc _ _ h' _ _ _ _ => exact absurd h' h3
    · simp only [h1, h2, not_true, not_false_iff, if_true, if_false, rel_lt_iff]
      refine ⟨.release h1, fun h => ?_⟩
      cases h with
      | epoch h => omega
      | release _ h => exact h
      | level _ h' _ => exact absurd h' h2
      | serial _ h' _ _ => exact absurd h' h2
      | post _ h' _ _ _ => exact absurd h' h2
      | dev _ h' _ _ _ _ => exact absurd h' h2
      | loc _ h' _ _ _ _ _ => exact absurd h' h2
  · simp only [h1, not_false_iff, if_true, decide_eq_true_eq]
    refine ⟨.epoch, fun h => ?_⟩
    cases h with
    | epoch h => exact h
    | release h' _ => exact absurd h' h1
    | level h' _ _ => exact absurd h' h1
    | serial h' _ _ _ => exact absurd h' h1
    | post h' _ _ _ _ => exact absurd h' h1
    | dev h' _ _ _ _ _ => exact absurd h' h1
    | loc h' _ _ _ _ _ _ => exact absurd h' h1

theorem eq_spec (a b : Ver) : a.eq b = true ↔
    a.epoch.getD 0 = b.epoch.getD 0 ∧ a.release = b.release ∧ a.level = b.level ∧
    a.serial.getD 0 = b.serial.getD 0 ∧ a.post = b.post ∧ a.dev = b.dev ∧ a.segs = b.segs := by
  unfold Ver.eq
  rw [decide_eq_true_eq]
  have hseg : a.segs = b.segs ↔ a.key.loc = b.key.loc := by
    rw [segs_eq, segs_eq]
    exact List.map_inj_right (fun x y h => LKey.seg_inj h)
  rw [hseg, ← postKey_eq, ← key_post, ← key_post, ← level_int_eq]
  constructor
  · intro h
    exact ⟨congrArg Key.epoch h, congrArg Key.release h, congrArg Key.level h, congrArg Key.serial h,
      congrArg Key.post h, congrArg Key.dev h, congrArg Key.loc h⟩
  · rintro ⟨h1, h2, h3, h4, h5, h6, h7⟩
    show Key.mk a.key.epoch a.key.release a.key.level a.key.serial a.key.post a.key.dev a.key.loc =
      Key.mk b.key.epoch b.key.release b.key.level b.key.serial b.key.post b.key.dev b.key.loc
    have h1' : a.key.epoch = b.key.epoch := h1
    have h2' : a.key.release = b.key.release := h2
    have h3' : a.key.level = b.key.level := h3
    have h4' : a.key.serial = b.key.serial := h4
    have h6' : a.key.dev = b.key.dev := h6
    rw [h1', h2', h3', h4', h5, h6', h7]

theorem segTri (a b : Seg) : SegLt a b ∨ a = b ∨ SegLt b a := by
  cases a with
  | text a => cases b with
    | text b =>
      by_cases h : a < b
      · exact .inl (.text h)
      · by_cases g : b < a
        · exact .inr (.inr (.text g))
        · have := List.le_antisymm (as := a) (bs := b) (by simpa using g) (by simpa using h)
          exact .inr (.inl (by rw [this]))
    | num n => exact .inl .textNum
  | num a => cases b with
    | text b => exact .inr (.inr .textNum)
    | num b =>
      rcases Nat.lt_trichotomy a b with h | h | h
      · exact .inl (.num h)
      · exact .inr (.inl (by rw [h]))
      · exact .inr (.inr (.num h))

theorem segTrans {a b c : Seg} (h : SegLt a b) (g : SegLt b c) : SegLt a c := by
  cases h with
  | text h => cases g with
    | text g => exact .text (List.lt_trans h g)
    | textNum => exact .textNum
  | textNum => cases g; exact .textNum
  | num h => cases g; exact .num (by omega)

theorem lexTri {α : Type} {r : α → α → Prop} (t : ∀ a b, r a b ∨ a = b ∨ r b a) :
    ∀ x y : List α, List.Lex r x y ∨ x = y ∨ List.Lex r y x := by
  intro x
  induction x with
  | nil => intro y; cases y <;> simp
  | cons a x ih =>
    intro y
    cases y with
    | nil => simp
    | cons b y =>
      rcases t a b with h | h | h
      · exact .inl (.rel h)
      · subst h
        rcases ih y with h | h | h
        · exact .inl (.cons h)
        · exact .inr (.inl (by rw [h]))
        · exact .inr (.inr (.cons h))
      · exact .inr (.inr (.rel h))

theorem lexTrans {α : Type} {r : α → α → Prop} (t : ∀ a b c, r a b → r b c → r a c) :
    ∀ x y z : List α, List.Lex r x y → List.Lex r y z → List.Lex r x z := by
  intro x
  induction x with
  | nil => intro y z h g; cases g <;> first | exact .nil | (cases h)
  | cons a x ih =>
    intro y z h g
    cases h with
    | rel h => cases g with
      | rel g => exact .rel (t _ _ _ h g)
      | cons g => exact .rel h
    | cons h => cases g with
      | rel g => exact .rel g
      | cons g => exact .cons (ih _ _ h g)

theorem SpecLt.trans {a b c : Ver} (h : SpecLt a b) (g : SpecLt b c) : SpecLt a c := by
  have rt : ∀ {x y z : List Int}, x < y → y < z → x < z := fun h g => List.lt_trans h g
  have pt : ∀ {x y z : Option Nat}, PostLt x y → PostLt y z → PostLt x z := by
    intro x y z h g
    cases h <;> cases g
    · exact .absent
    · exact .num (by omega)
  have dt : ∀ {x y z : Option Nat}, DevLt x y → DevLt y z → DevLt x z := by
    intro x y z h g
    cases h <;> cases g
    · exact .absent
    · exact .num (by omega)
  have lt : ∀ {x y z : List Seg}, List.Lex SegLt x y → List.Lex SegLt y z → List.Lex SegLt x z :=
    fun h g => lexTrans (r := SegLt) (fun _ _ _ h g => segTrans h g) _ _ _ h g
  cases h <;> cases g <;>
    first
    | (apply SpecLt.epoch <;> omega)
    | (apply SpecLt.release <;> first | omega | (apply rt <;> assumption) | (simp_all; done))
    | (apply SpecLt.level <;> first | omega | (simp_all; done) | (simp_all; omega))
    | (apply SpecLt.serial <;> first | omega | (simp_all; done) | (simp_all; omega))
    | (apply SpecLt.post <;> first | omega | (apply pt <;> assumption) | (simp_all; done))
    | (apply SpecLt.dev <;> first | omega | (apply dt <;> assumption) | (simp_all; done))
    | (apply SpecLt.loc <;> first | omega | (apply lt <;> assumption) | (simp_all; done))

/-! ### C22 -/

/-- C22: `<` is the documented order. -/
theorem C22_order_is_documented (a b : Ver) : a.lt b = true ↔ SpecLt a b := lt_spec a b

/-- C22: `==` holds exactly when no field tells the versions apart. -/
theorem C22_eq_is_documented (a b : Ver) : a.eq b = true ↔
    a.epoch.getD 0 = b.epoch.getD 0 ∧ a.release = b.release ∧ a.level = b.level ∧
    a.serial.getD 0 = b.serial.getD 0 ∧ a.post = b.post ∧ a.dev = b.dev ∧ a.segs = b.segs :=
  eq_spec a b

/-- C22: of any two versions, exactly one of a<b, a==b, b<a holds. -/
theorem C22_trichotomy (a b : Ver) :
    (a.lt b = true ∧ a.eq b = false ∧ b.lt a = false) ∨
    (a.lt b = false ∧ a.eq b = true ∧ b.lt a = false) ∨
    (a.lt b = false ∧ a.eq b = false ∧ b.lt a = true) := by
  have irr : ∀ v : Ver, ¬ SpecLt v v := by
    intro v h
    cases h with
    | epoch h => omega
    | release _ h => exact absurd h (List.lt_irrefl _)
    | level _ _ h => omega
    | serial _ _ _ h => omega
    | post _ _ _ _ h => rw [← postKey_lt] at h; omega
    | dev _ _ _ _ _ h => revert h; generalize v.dev = d; intro h; cases h; omega
    | loc _ _ _ _ _ _ h =>
      have := (loc_lt_iff v v).2 h
      have key : ∀ l : List LKey, tupleLt LKey.lt l l = false := by
        intro l; induction l <;> simp_all [tupleLt]
      rw [key] at this; simp at this
  have asym : ∀ {u v : Ver}, SpecLt u v → SpecLt v u → False := fun h g => irr _ (h.trans g)
  have ltF : ∀ {u v : Ver}, ¬ SpecLt u v → u.lt v = false := fun {u v} h => by
    cases e : u.lt v
    · rfl
    · exact absurd ((lt_spec u v).1 e) h
  have eqLt : ∀ {u v : Ver}, u.eq v = true → u.key = v.key := fun {u v} h => by
    simpa [Ver.eq] using h
  have tri : SpecLt a b ∨ a.eq b = true ∨ SpecLt b a := by
    rw [eq_spec]
    rcases Nat.lt_trichotomy (a.epoch.getD 0) (b.epoch.getD 0) with h1 | h1 | h1
    · exact .inl (.epoch h1)
    · rcases lexTri (fun x y : Int => Int.lt_trichotomy x y) a.release b.release with h2 | h2 | h2
      · exact .inl (.release h1 h2)
      · rcases Nat.lt_trichotomy a.level.rank b.level.rank with h3 | h3 | h3
        · exact .inl (.level h1 h2 h3)
        · have h3 : a.level = b.level := by
            revert h3; cases a.level <;> cases b.level <;> decide
          rcases Nat.lt_trichotomy (a.serial.getD 0) (b.serial.getD 0) with h4 | h4 | h4
          · exact .inl (.serial h1 h2 h3 h4)
          · have pt : PostLt a.post b.post ∨ a.post = b.post ∨ PostLt b.post a.post := by
              rw [← postKey_lt, ← postKey_eq, ← postKey_lt]; omega
            rcases pt with h5 | h5 | h5
            · exact .inl (.post h1 h2 h3 h4 h5)
            · have dt : DevLt a.dev b.dev ∨ a.dev = b.dev ∨ DevLt b.dev a.dev := by
                cases a.dev with
                | none => cases b.dev with
                  | none => exact .inr (.inl rfl)
                  | some n => exact .inr (.inr .absent)
                | some m => cases b.dev with
                  | none => exact .inl .absent
                  | some n =>
                    rcases Nat.lt_trichotomy m n with h | h | h
                    · exact .inl (.num h)
                    · exact .inr (.inl (by rw [h]))
                    · exact .inr (.inr (.num h))
              rcases dt with h6 | h6 | h6
              · exact .inl (.dev h1 h2 h3 h4 h5 h6)
              · rcases lexTri segTri a.segs b.segs with h7 | h7 | h7
                · exact .inl (.loc h1 h2 h3 h4 h5 h6 h7)
                · exact .inr (.inl ⟨h1, h2, h3, h4, h5, h6, h7⟩)
                · exact .inr (.inr (.loc h1.symm h2.symm h3.symm h4.symm h5.symm h6.symm h7))
              · exact .inr (.inr (.dev h1.symm h2.symm h3.symm h4.symm h5.symm h6))
            · exact .inr (.inr (.post h1.symm h2.symm h3.symm h4.symm h5))
          · exact .inr (.inr (.serial h1.symm h2.symm h3.symm h4))
        · exact .inr (.inr (.level h1.symm h2.symm h3))
      · exact .inr (.inr (.release h1.symm h2))
    · exact .inr (.inr (.epoch h1))
  have ltEq : ∀ {u v : Ver}, SpecLt u v → u.eq v = false := fun {u v} h => by
    cases e : u.eq v
    · rfl
    · exfalso
      have hk := eqLt e
      have h2 := (lt_spec u v).2 h
      unfold Ver.lt at h2
      rw [hk] at h2
      exact irr v ((lt_spec v v).1 h2)
  have eqSym : ∀ {u v : Ver}, u.eq v = true → v.eq u = true := fun {u v} h => by
    simp only [Ver.eq, decide_eq_true_eq] at *; exact h.symm
  have eqIrr : ∀ {u v : Ver}, u.eq v = true → ¬ SpecLt u v := fun {u v} h g => by
    have := ltEq g; rw [h] at this; simp at this
  rcases tri with h | h | h
  · exact .inl ⟨(lt_spec a b).2 h, ltEq h, ltF (fun g => asym h g)⟩
  · exact .inr (.inl ⟨ltF (eqIrr h), h, ltF (eqIrr (eqSym h))⟩)
  · refine .inr (.inr ⟨ltF (fun g => asym h g), ?_, (lt_spec b a).2 h⟩)
    cases e : a.eq b
    · rfl
    · exact absurd h (eqIrr (eqSym e))

/-- C22: `<` is transitive. -/
theorem C22_transitive (a b c : Ver) (h : a.lt b = true) (g : b.lt c = true) : a.lt c = true :=
  (lt_spec a c).2 (((lt_spec a b).1 h).trans ((lt_spec b c).1 g))

/-- C22: `==` is an equivalence, and `<` does not tell equal versions apart. -/
theorem C22_eq_equivalence (a b c : Ver) :
    a.eq a = true ∧ (a.eq b = true → b.eq a = true) ∧
    (a.eq b = true → b.eq c = true → a.eq c = true) ∧
    (a.eq b = true → a.lt c = b.lt c ∧ c.lt a = c.lt b) := by
  simp only [Ver.eq, decide_eq_true_eq, Ver.lt]
  exact ⟨trivial, fun h => h.symm, fun h g => h.trans g, fun h => by rw [h]; exact ⟨rfl, rfl⟩⟩

/-- Versions written differently that are equal, and a chain through all the fields. -/
example :
    let v (s : String) := match parse s.toList with | .ok v => v | .error _ => ⟨none, [], .final, none, none, none, none⟩
    (v "1.0").eq (v "0!1.0.0") = true ∧
    ((v "1.0a1").lt (v "1.0a2.dev4") && (v "1.0a2.dev4").lt (v "1.0a2") && (v "1.0a2").lt (v "1.0a2-4")
      && (v "1.0a2-4").lt (v "1.0b1") && (v "1.0rc9").lt (v "1.0.dev1") && (v "1.0.dev1").lt (v "1.0")
      && (v "1.0").lt (v "1.0+abc.9") && (v "1.0+abc.9").lt (v "1.0+abc.10")
      && (v "1.0+abc.10").lt (v "1.0+1") && (v "1.0+1").lt (v "1.0.1") && (v "9").lt (v "1!0.1")) = true := by
  decide +kernel

/-! ### C23 -/

/-- C23: equal versions whose epoch, serial and local label are also written alike
have equal hashes. For versions that are equal although one has an epoch, serial or local label
in a form the other has not it is false (next theorem). -/
theorem C23_hash_written_alike (h : Hashes) (a b : Ver) (e : a.eq b = true)
    (h₁ : a.epoch.isSome = b.epoch.isSome) (h₂ : a.serial.isSome = b.serial.isSome)
    (h₃ : a.loc = b.loc) : a.hash h = b.hash h := by
  obtain ⟨e1, e2, e3, e4, e5, e6, _⟩ := (eq_spec a b).1 e
  have key : ∀ {x y : Option Nat}, x.isSome = y.isSome → x.getD 0 = y.getD 0 → x = y := by
    intro x y; cases x <;> cases y <;> simp
  unfold Ver.hash
  rw [key h₁ e1, key h₂ e4, e2, e3, e5, e6, h₃]

example : ∃ a b : Ver, a ≠ b ∧ a.eq b = true ∧ a.loc ≠ b.loc ∧ a.epoch = b.epoch :=
  ⟨⟨none, [1], .final, none, none, none, some [['0', '1']]⟩,
   ⟨none, [1], .final, none, none, none, some [['1']]⟩, by decide +kernel⟩

/-- C23 is false of the code: "1.0" and "0!1.0" are equal and their hashes differ (unless hash(None)
happens to be hash(0); in CPython hash(0) is 0 and hash(None) is not). -/
theorem C23_violated :
    ∃ a b : Ver, parse "1.0".toList = .ok a ∧ parse "0!1.0".toList = .ok b ∧ a.eq b = true ∧
      ∀ h : Hashes, h.int none ≠ h.int (some 0) → a.hash h ≠ b.hash h := by
  refine ⟨⟨none, [1], .final, none, none, none, none⟩, ⟨some 0, [1], .final, none, none, none, none⟩,
    by decide +kernel, by decide +kernel, by decide +kernel, ?_⟩
  intro h hne heq
  unfold Ver.hash at heq
  simp only [Nat.xor_assoc] at heq
  have cancel : ∀ {x y z : Nat}, x ^^^ z = y ^^^ z → x = y := fun {x y z} e => by
    have := congrArg (· ^^^ z) e
    simpa [Nat.xor_assoc] using this
  exact hne (cancel heq)

end Big.Version
