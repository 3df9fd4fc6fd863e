import Verif.Builtin.Model
/-! # C59: conversions to numbers -/
namespace Big.Builtin

/-! ### Lemmas -/

theorem tdiv_exact (m : Int) (k : Nat) : (m.tdiv (2 ^ k) * 2 ^ k = m) ↔ ∃ n : Int, m = n * 2 ^ k := by
  constructor
  · intro h; exact ⟨_, h.symm⟩
  · rintro ⟨n, rfl⟩
    have h : (2 : Int) ^ k ≠ 0 := by
      have : (0 : Int) < 2 ^ k := Int.pow_pos (by decide)
      omega
    rw [Int.mul_tdiv_cancel _ h]

/-- What get_int_or_float does with a float: an error for the infinities and NaN, the documented value otherwise. -/
theorem floatOrInt_ok {f : Fl} {v : Obj} : floatOrInt f = .ok v ↔ f.Finite ∧ Prefer f v := by
  cases f with
  | inf b =>
    simp only [floatOrInt, Fl.toInt]
    constructor
    · intro h; cases h
    · rintro ⟨⟨m, k, h⟩, -⟩; cases h
  | nan =>
    simp only [floatOrInt, Fl.toInt]
    constructor
    · intro h; cases h
    · rintro ⟨⟨m, k, h⟩, -⟩; cases h
  | fin m k =>
    simp only [floatOrInt, Fl.toInt, Fl.eqInt, beq_iff_eq]
    have h0 : (2 : Int) ^ k ≠ 0 := by
      have : (0 : Int) < 2 ^ k := Int.pow_pos (by decide)
      omega
    constructor
    · intro h
      refine ⟨⟨m, k, rfl⟩, ?_⟩
      split at h
      · rename_i he
        cases h
        exact .int ⟨m, k, rfl, he.symm⟩
      · rename_i he
        cases h
        refine .float ?_
        rintro n ⟨m', k', hf, hm⟩
        cases hf
        exact he ((tdiv_exact m k).2 ⟨n, hm⟩)
    · rintro ⟨-, h⟩
      cases h with
      | int h =>
        obtain ⟨m', k', hf, hm⟩ := h
        cases hf
        rw [if_pos ((tdiv_exact m k).2 ⟨_, hm⟩), hm, Int.mul_tdiv_cancel _ h0]
      | float h =>
        rw [if_neg]
        intro he
        exact h _ ⟨m, k, rfl, he.symm⟩

theorem floatOrInt_error {f : Fl} {e : Exc} : floatOrInt f = .error e ↔
    (∃ b, f = .inf b ∧ e = .overflowError) ∨ (f = .nan ∧ e = .valueError) := by
  cases f with
  | inf b => simp [floatOrInt, Fl.toInt, eq_comm]
  | nan => simp [floatOrInt, Fl.toInt, eq_comm]
  | fin m k =>
    simp only [floatOrInt, Fl.toInt]
    split <;> simp

/-! ### try and get -/

/-- C59: try_int is True exactly if int() succeeds, False exactly if it raises TypeError or ValueError, and
raises whatever else int() raises. -/
theorem C59_try_int (o : Obj) :
    (tryInt o = .ok true ↔ ∃ n, pyInt o = .ok n) ∧
    (tryInt o = .ok false ↔ pyInt o = .error .typeError ∨ pyInt o = .error .valueError) ∧
    (∀ e, tryInt o = .error e ↔ pyInt o = .error e ∧ e ≠ .typeError ∧ e ≠ .valueError) := by
  unfold tryInt
  cases pyInt o with
  | ok n => simp
  | error e => cases e <;> simp [caught] <;> intro e <;> rintro rfl <;> simp

/-- C59: the same for try_float. -/
theorem C59_try_float (conv : Int → Except Exc Fl) (o : Obj) :
    (tryFloat conv o = .ok true ↔ ∃ f, pyFloat conv o = .ok f) ∧
    (tryFloat conv o = .ok false ↔ pyFloat conv o = .error .typeError ∨ pyFloat conv o = .error .valueError) ∧
    (∀ e, tryFloat conv o = .error e ↔ pyFloat conv o = .error e ∧ e ≠ .typeError ∧ e ≠ .valueError) := by
  unfold tryFloat
  cases pyFloat conv o with
  | ok n => simp
  | error e => cases e <;> simp [caught] <;> intro e <;> rintro rfl <;> simp

/-- C59: get_int converts exactly if try_int is True, and returns the default, or o, exactly if try_int is False;
both raise the same. -/
theorem C59_get_int (o : Obj) (d : Option Obj) :
    (∀ n, pyInt o = .ok n → tryInt o = .ok true ∧ getInt o d = .ok (.int n)) ∧
    (tryInt o = .ok false → getInt o d = .ok (match d with | some x => x | none => o)) ∧
    (∀ e, tryInt o = .error e ↔ getInt o d = .error e) := by
  unfold tryInt getInt
  cases h : pyInt o with
  | ok n => simp
  | error e => cases e <;> cases d <;> simp [caught]

/-- C59: the same for get_float. -/
theorem C59_get_float (conv : Int → Except Exc Fl) (o : Obj) (d : Option Obj) :
    (∀ f, pyFloat conv o = .ok f → tryFloat conv o = .ok true ∧ getFloat conv o d = .ok (.float f)) ∧
    (tryFloat conv o = .ok false → getFloat conv o d = .ok (match d with | some x => x | none => o)) ∧
    (∀ e, tryFloat conv o = .error e ↔ getFloat conv o d = .error e) := by
  unfold tryFloat getFloat
  cases h : pyFloat conv o with
  | ok n => simp
  | error e => cases e <;> cases d <;> simp [caught]

/-- C96: try_int and get_int never raise if int() raises nothing but TypeError and ValueError. With
other exceptions they do, OverflowError for one; see `C96_int_of_inf`. -/
theorem C96_no_raise (o : Obj) (d : Option Obj)
    (h : ∀ e, pyInt o = .error e → e = .typeError ∨ e = .valueError) :
    (∃ b, tryInt o = .ok b) ∧ (∃ v, getInt o d = .ok v) := by
  unfold tryInt getInt
  cases hp : pyInt o with
  | ok n => exact ⟨⟨_, rfl⟩, ⟨_, rfl⟩⟩
  | error e => rcases h e hp with rfl | rfl <;> exact ⟨⟨_, rfl⟩, ⟨_, rfl⟩⟩

/-- C96, a disagreement: an infinity cannot be converted to an int, but try_int and get_int raise instead of
returning False and the default. -/
theorem C96_int_of_inf (b : Bool) (d : Option Obj) :
    tryInt (.float (.inf b)) = .error .overflowError ∧ getInt (.float (.inf b)) d = .error .overflowError := ⟨rfl, rfl⟩

/-! ### get_int_or_float -/

/-- C96: whatever get_int_or_float returns is what the docstring says, or the default in place of a NaN. -/
theorem C96_int_or_float (o : Obj) (d : Option Obj) (v : Obj) (h : getIntOrFloat o d = .ok v) :
    Doc o d v ∨ (∃ nm e, o = .other nm (.error e) (.ok .nan) ∧ v = d.getD o) := by
  cases o with
  | int n => cases h; exact .inl .int
  | float f => exact .inl (.float (floatOrInt_ok.1 h).2)
  | other nm i f =>
    simp only [getIntOrFloat] at h
    cases i with
    | ok n => cases h; exact .inl .toInt
    | error e =>
      dsimp only at h
      split at h
      · cases f with
        | error e' =>
          dsimp only at h
          split at h
          · cases h; exact .inl .default
          · cases h
        | ok f =>
          dsimp only at h
          cases hf : floatOrInt f with
          | ok w =>
            rw [hf] at h
            cases h
            exact .inl (.toFloat (floatOrInt_ok.1 hf).2)
          | error e' =>
            rw [hf] at h
            dsimp only at h
            split at h
            · rename_i hc
              rcases floatOrInt_error.1 hf with ⟨b, -, rfl⟩ | ⟨rfl, -⟩
              · simp [caught] at hc
              · cases h; exact .inr ⟨nm, e, rfl, rfl⟩
            · cases h
      · cases h

/-- C96: exactly when get_int_or_float raises, and what: for a float that is an infinity or NaN, for an object
with a conversion that raises something other than TypeError and ValueError, and for an object such as "inf"
that converts to an infinity. -/
theorem C96_int_or_float_raises (o : Obj) (d : Option Obj) (x : Exc) : getIntOrFloat o d = .error x ↔
    (∃ b, o = .float (.inf b) ∧ x = .overflowError) ∨ (o = .float .nan ∧ x = .valueError) ∨
    (∃ nm f, o = .other nm (.error x) f ∧ caught x = false) ∨
    (∃ nm e, o = .other nm (.error e) (.error x) ∧ caught e = true ∧ caught x = false) ∨
    (∃ nm e b, o = .other nm (.error e) (.ok (.inf b)) ∧ caught e = true ∧ x = .overflowError) := by
  cases o with
  | int n => simp [getIntOrFloat]
  | float f =>
    simp only [getIntOrFloat]
    rw [floatOrInt_error]
    simp
  | other nm i f =>
    cases i with
    | ok n => simp [getIntOrFloat]
    | error e =>
      by_cases hc : caught e = true
      · cases f with
        | error e' =>
          by_cases hc' : caught e' = true
          · simp only [getIntOrFloat, hc, hc', if_true]
            constructor
            · intro h; cases h
            · rintro (⟨b, h, -⟩ | ⟨h, -⟩ | ⟨_, _, h, h2⟩ | ⟨_, _, h, -, h2⟩ | ⟨_, _, _, h, -⟩)
              · cases h
              · cases h
              · cases h; rw [hc] at h2; cases h2
              · cases h; rw [hc'] at h2; cases h2
              · cases h
          · simp only [Bool.not_eq_true] at hc'
            simp only [getIntOrFloat, hc, hc', if_true, Bool.false_eq_true, if_false]
            constructor
            · intro h; cases h; exact .inr (.inr (.inr (.inl ⟨_, _, rfl, hc, hc'⟩)))
            · rintro (⟨b, h, -⟩ | ⟨h, -⟩ | ⟨_, _, h, h2⟩ | ⟨_, _, h, -, h2⟩ | ⟨_, _, _, h, -⟩)
              · cases h
              · cases h
              · cases h; rw [hc] at h2; cases h2
              · cases h; rfl
              · cases h
        | ok f =>
          simp only [getIntOrFloat, hc, if_true]
          cases hf : floatOrInt f with
          | ok w =>
            dsimp only
            obtain ⟨⟨m, k, rfl⟩, -⟩ := floatOrInt_ok.1 hf
            constructor
            · intro h; cases h
            · rintro (⟨b, h, -⟩ | ⟨h, -⟩ | ⟨_, _, h, h2⟩ | ⟨_, _, h, -, h2⟩ | ⟨_, _, _, h, -⟩)
              · cases h
              · cases h
              · cases h; rw [hc] at h2; cases h2
              · cases h
              · cases h
          | error e' =>
            dsimp only
            rcases floatOrInt_error.1 hf with ⟨b, rfl, rfl⟩ | ⟨rfl, rfl⟩
            · simp only [caught, Bool.false_eq_true, if_false]
              constructor
              · intro h; cases h; exact .inr (.inr (.inr (.inr ⟨_, _, b, rfl, hc, rfl⟩)))
              · rintro (⟨b, h, -⟩ | ⟨h, -⟩ | ⟨_, _, h, h2⟩ | ⟨_, _, h, -, h2⟩ | ⟨_, _, _, h, -, h2⟩)
                · cases h
                · cases h
                · cases h; cases x <;> simp [caught] at h2 hc
                · cases h
                · cases h2; rfl
            · simp only [caught, if_true]
              constructor
              · intro h; cases h
              · rintro (⟨b, h, -⟩ | ⟨h, -⟩ | ⟨_, _, h, h2⟩ | ⟨_, _, h, -, h2⟩ | ⟨_, _, _, h, -, h2⟩)
                · cases h
                · cases h
                · cases h; cases x <;> simp [caught] at h2 hc
                · cases h
                · cases h
      · simp only [Bool.not_eq_true] at hc
        simp only [getIntOrFloat, hc, Bool.false_eq_true, if_false]
        constructor
        · intro h; cases h; exact .inr (.inr (.inl ⟨_, _, rfl, hc⟩))
        · rintro (⟨b, h, -⟩ | ⟨h, -⟩ | ⟨_, _, h, h2⟩ | ⟨_, _, h, h1, h2⟩ | ⟨_, _, _, h, h1, h2⟩)
          · cases h
          · cases h
          · cases h; rfl
          · cases h; rw [hc] at h1; cases h1
          · cases h; rw [hc] at h1; cases h1

/-- C96: get_int_or_float returns the documented value, and nothing else, for every object whose
conversions raise only TypeError and ValueError and yield no infinity or NaN. For the rest it
may raise (`C96_int_or_float_raises`). -/
theorem C96_int_or_float_documented (o : Obj) (d : Option Obj)
    (h1 : ∀ f, o = .float f → f.Finite)
    (h2 : ∀ nm i f, o = .other nm i f → (∀ e, i = .error e → caught e = true) ∧ (∀ e, f = .error e → caught e = true) ∧
      ∀ x, f = .ok x → x.Finite) :
    ∃ v, getIntOrFloat o d = .ok v ∧ Doc o d v := by
  cases hg : getIntOrFloat o d with
  | ok v =>
    refine ⟨v, rfl, ?_⟩
    rcases C96_int_or_float o d v hg with h | ⟨nm, e, rfl, -⟩
    · exact h
    · obtain ⟨m, k, h⟩ := (h2 _ _ _ rfl).2.2 _ rfl
      cases h
  | error x =>
    exfalso
    rcases (C96_int_or_float_raises o d x).1 hg with ⟨b, rfl, -⟩ | ⟨rfl, -⟩ | ⟨nm, f, rfl, h⟩ | ⟨nm, e, rfl, -, h⟩ | ⟨nm, e, b, rfl, -⟩
    · obtain ⟨m, k, h⟩ := h1 _ rfl; cases h
    · obtain ⟨m, k, h⟩ := h1 _ rfl; cases h
    · rw [(h2 _ _ _ rfl).1 x rfl] at h; cases h
    · rw [(h2 _ _ _ rfl).2.1 x rfl] at h; cases h
    · obtain ⟨m, k, h⟩ := (h2 _ _ _ rfl).2.2 _ rfl; cases h

/-- The documented value is unique. -/
theorem C96_doc_unique (o : Obj) (d : Option Obj) (v w : Obj) (h : Doc o d v) (h' : Doc o d w) : v = w := by
  have hp : ∀ f v w, Prefer f v → Prefer f w → v = w := by
    intro f v w h h'
    cases h with
    | int h =>
      cases h' with
      | int h' =>
        obtain ⟨m, k, rfl, hm⟩ := h
        obtain ⟨m', k', hf, hm'⟩ := h'
        cases hf
        have h0 : (2 : Int) ^ k ≠ 0 := by
          have : (0 : Int) < 2 ^ k := Int.pow_pos (by decide)
          omega
        rw [hm] at hm'
        rw [Int.eq_of_mul_eq_mul_right h0 hm']
      | float h' => exact absurd h (h' _)
    | float h =>
      cases h' with
      | int h' => exact absurd h' (h _)
      | float _ => rfl
  cases h with
  | int => cases h'; rfl
  | float h => cases h' with | float h' => exact hp _ _ _ h h'
  | toInt => cases h'; rfl
  | toFloat h => cases h' with | toFloat h' => exact hp _ _ _ h h'
  | default => cases h'; rfl

/-! ### Examples -/

/-- The string "0.0" gives the int 0; the string "1.5" a float; "abc" the default. -/
example : getIntOrFloat (.other "0.0" (.error .valueError) (.ok (.fin 0 0))) none = .ok (.int 0) ∧
    getIntOrFloat (.other "1.5" (.error .valueError) (.ok (.fin 3 1))) none = .ok (.float (.fin 3 1)) ∧
    getIntOrFloat (.other "abc" (.error .valueError) (.error .valueError)) (some (.int 7)) = .ok (.int 7) ∧
    getIntOrFloat (.float (.fin (-8) 2)) none = .ok (.int (-2)) := ⟨rfl, rfl, rfl, rfl⟩

/-- C96: the counterexamples: float("inf"), float("nan"), "inf", with a default that is not returned. -/
theorem C96_counterexamples (d : Obj) :
    getIntOrFloat (.float (.inf false)) (some d) = .error .overflowError ∧
    getIntOrFloat (.float .nan) (some d) = .error .valueError ∧
    getIntOrFloat (.other "inf" (.error .valueError) (.ok (.inf false))) (some d) = .error .overflowError :=
  ⟨rfl, rfl, rfl⟩

end Big.Builtin
