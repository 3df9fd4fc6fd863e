import Verif.Lines.IterModel
/-! # C83: lines over any iterable -/
namespace Big.LinesIter

/-! ### Specification -/

/-- A line of text or of bytes with its linebreak, both of the same type; `whole` is both together. -/
inductive Line : Val → Val → Val → Prop
  | str (a e : List Char) : Line (.str a) (.str e) (.str (a ++ e))
  | bytes (a e : List UInt8) : Line (.bytes a) (.bytes e) (.bytes (a ++ e))

/-- `v` is a str; or bytes. -/
inductive IsLine : Bool → Val → Prop
  | str (t : List Char) : IsLine false (.str t)
  | bytes (t : List UInt8) : IsLine true (.bytes t)

/-- `v` is a pair, a tuple or list, of a line and its linebreak, of the type said; a linebreak may be None. -/
inductive IsPair : Bool → Val → Val → Val → Prop
  | str (a e : List Char) : IsPair false (.seq [.str a, .str e]) (.str a) (.str e)
  | bytes (a e : List UInt8) : IsPair true (.seq [.bytes a, .bytes e]) (.bytes a) (.bytes e)
  | strNone (a : List Char) : IsPair false (.seq [.str a, .none]) (.str a) (.str [])
  | bytesNone (a : List UInt8) : IsPair true (.seq [.bytes a, .none]) (.bytes a) (.bytes [])

/-- The lines that were returned. -/
def returned : List (Except Err Out) → List Out
  | [] => []
  | .ok o :: l => o :: returned l
  | .error _ :: l => returned l

/-! ### Lemmas -/

theorem next_ok {c : Int} {σ : State} {v : Val} {o : Out} (h : (next c σ v).1 = .ok o) :
    Line o.line o.lineEnd o.infoLine ∧ o.lineNumber = σ.lineNumber ∧ o.columnNumber = c ∧
      (next c σ v).2.lineNumber = σ.lineNumber + 1 := by
  have hadd : ∀ a e w e', (e.truthy = true → add a e = .ok w) → (¬ e.truthy = true → w = a) → lineInfo w e = .ok e' →
      Line a e' w := by
    intro a e w e' h1 h2 h3
    by_cases he : e.truthy = true
    · have h1 := h1 he
      unfold add at h1
      split at h1
      · cases h1; simp only [lineInfo] at h3; cases h3; exact .str _ _
      · cases h1; simp only [lineInfo] at h3; cases h3; exact .bytes _ _
      · cases h1; simp [lineInfo] at h3
      · simp at h1
    · have := h2 he
      subst this
      cases w <;> cases e <;> simp [lineInfo] at h3 <;> subst h3
      · rename_i t e'
        have : e' = [] := by simpa [Val.truthy] using he
        subst this
        have := Line.str t []
        simpa using this
      · rename_i t
        have := Line.str t []
        simpa using this
      · rename_i t e'
        have : e' = [] := by simpa [Val.truthy] using he
        subst this
        have := Line.bytes t []
        simpa using this
      · rename_i t
        have := Line.bytes t []
        simpa using this
  unfold next at h ⊢
  dsimp only at h ⊢
  cases h1 : (lineAndEnd σ.mode v).1 with
  | error e => rw [h1] at h; simp at h
  | ok p =>
    obtain ⟨a, e⟩ := p
    rw [h1] at h
    dsimp only at h ⊢
    by_cases hp : (lineAndEnd σ.mode v).2 = .pairs ∧ e.truthy = true
    · rw [if_pos hp] at h ⊢
      cases h2 : add a e with
      | error e => rw [h2] at h; simp at h
      | ok w =>
        rw [h2] at h
        dsimp only at h ⊢
        cases h3 : lineInfo w e with
        | error e => rw [h3] at h; simp at h
        | ok e' =>
          rw [h3] at h
          simp only [Except.ok.injEq] at h
          subst h
          exact ⟨hadd a e w e' (fun _ => h2) (fun h => absurd hp.2 h) h3, rfl, rfl, rfl⟩
    · rw [if_neg hp] at h ⊢
      dsimp only at h ⊢
      cases h3 : lineInfo a e with
      | error e => rw [h3] at h; simp at h
      | ok e' =>
        rw [h3] at h
        simp only [Except.ok.injEq] at h
        subst h
        refine ⟨hadd a e a e' (fun he => ?_) (fun _ => rfl) h3, rfl, rfl, rfl⟩
        -- not pairs, so that the end is empty
        exfalso
        apply hp
        refine ⟨?_, he⟩
        cases hm : σ.mode with
        | pairs => simp [lineAndEnd]
        | strings b =>
          rw [hm] at h1
          simp only [lineAndEnd, Except.ok.injEq, Prod.mk.injEq] at h1
          rw [← h1.2] at he
          cases b <;> simp [emptyOf, Val.truthy] at he
        | unknown =>
          rw [hm] at h1
          unfold lineAndEnd at h1 ⊢
          dsimp only at h1 ⊢
          split
          · rfl
          · rfl
          · split at h1
            · simp_all
            · simp_all
            · simp only [Except.ok.injEq, Prod.mk.injEq] at h1
              rw [← h1.2] at he
              cases hb : isBytes v <;> rw [hb] at he <;> simp [emptyOf, Val.truthy] at he

theorem next_error {c : Int} {σ : State} {v : Val} {e : Err} (h : (next c σ v).1 = .error e) :
    (next c σ v).2.lineNumber = σ.lineNumber := by
  unfold next at h ⊢
  dsimp only at h ⊢
  cases h1 : (lineAndEnd σ.mode v).1 with
  | error e => rfl
  | ok p =>
    obtain ⟨a, e⟩ := p
    rw [h1] at h
    dsimp only at h ⊢
    generalize (if (lineAndEnd σ.mode v).2 = .pairs ∧ e.truthy = true then add a e else .ok a) = x at h ⊢
    cases x with
    | error e => rfl
    | ok w =>
      dsimp only at h ⊢
      cases h3 : lineInfo w e with
      | error e => rfl
      | ok e' => rw [h3] at h; simp at h

/-! ### C83 -/

/-- C83: whatever the iterable yields, even if some of the calls raise: every line returned is a str or bytes object, the
end is of the same type, info.line is both together, and the lines returned are numbered without a gap from line_number on,
all with the same column_number. -/
theorem C83_well_formed (n c : Int) (vs : List Val) :
    (linesOver n c vs).length = vs.length ∧
    ∀ (i : Nat) (o : Out), (returned (linesOver n c vs))[i]? = some o →
      Line o.line o.lineEnd o.infoLine ∧ o.lineNumber = n + i ∧ o.columnNumber = c := by
  have key : ∀ (vs : List Val) (σ : State), (nexts c σ vs).length = vs.length ∧
      ∀ (i : Nat) (o : Out), (returned (nexts c σ vs))[i]? = some o →
        Line o.line o.lineEnd o.infoLine ∧ o.lineNumber = σ.lineNumber + i ∧ o.columnNumber = c := by
    intro vs
    induction vs with
    | nil => intro σ; exact ⟨rfl, by simp [nexts, returned]⟩
    | cons v vs ih =>
      intro σ
      obtain ⟨hl, ih⟩ := ih (next c σ v).2
      refine ⟨by simp [nexts, hl], ?_⟩
      intro i o ho
      simp only [nexts] at ho
      cases h : (next c σ v).1 with
      | error e =>
        rw [h] at ho
        simp only [returned] at ho
        have := ih i o ho
        rwa [next_error h] at this
      | ok o' =>
        rw [h] at ho
        obtain ⟨h1, h2, h3, h4⟩ := next_ok h
        simp only [returned] at ho
        cases i with
        | zero =>
          simp only [List.getElem?_cons_zero, Option.some.injEq] at ho
          subst ho
          exact ⟨h1, by simpa using h2, h3⟩
        | succ i =>
          simp only [List.getElem?_cons_succ] at ho
          obtain ⟨g1, g2, g3⟩ := ih i o ho
          rw [h4] at g2
          refine ⟨g1, ?_, g3⟩
          rw [g2]; omega
  exact key vs ⟨.unknown, n⟩

/-- C83: an iterable of str, or one of bytes, is taken line by line; the ends are empty. -/
theorem C83_strings (n c : Int) (b : Bool) (vs : List Val) (h : ∀ v ∈ vs, IsLine b v) :
    linesOver n c vs = vs.mapIdx (fun i v => .ok ⟨v, n + i, c, emptyOf b, v⟩) := by
  have step : ∀ (v : Val) (σ : State), IsLine b v → (σ.mode = .unknown ∨ σ.mode = .strings b) →
      next c σ v = (.ok ⟨v, σ.lineNumber, c, emptyOf b, v⟩, ⟨.strings b, σ.lineNumber + 1⟩) := by
    intro v σ hv hm
    obtain ⟨m, k⟩ := σ
    dsimp only at hm
    cases hv <;> rcases hm with rfl | rfl <;> rfl
  have key : ∀ (vs : List Val) (σ : State), (∀ v ∈ vs, IsLine b v) → (σ.mode = .unknown ∨ σ.mode = .strings b) →
      nexts c σ vs = vs.mapIdx (fun i v => .ok ⟨v, σ.lineNumber + i, c, emptyOf b, v⟩) := by
    intro vs
    induction vs with
    | nil => intro σ _ _; rfl
    | cons v vs ih =>
      intro σ h hm
      rw [nexts, step v σ (h v (by simp)) hm, ih _ (fun v hv => h v (by simp [hv])) (.inr rfl), List.mapIdx_cons]
      simp only [Int.natCast_zero, Int.add_zero, Int.natCast_add, Int.natCast_one, List.cons.injEq, true_and]
      congr 1
      funext i v
      rw [Int.add_assoc, Int.add_comm 1]
  exact key vs ⟨.unknown, n⟩ h (.inl rfl)

/-- The sum of a line and its end. -/
theorem pair_next {b : Bool} {v a e : Val} (c : Int) (σ : State) (hv : IsPair b v a e)
    (hm : σ.mode = .unknown ∨ σ.mode = .pairs) :
    ∃ w, Line a e w ∧ next c σ v = (.ok ⟨w, σ.lineNumber, c, e, a⟩, ⟨.pairs, σ.lineNumber + 1⟩) := by
  obtain ⟨m, k⟩ := σ
  dsimp only at hm
  cases hv with
  | str a e =>
    refine ⟨_, .str a e, ?_⟩
    cases e <;> rcases hm with rfl | rfl <;> simp [next, lineAndEnd, unpack, elements, Val.truthy, add, lineInfo]
  | bytes a e =>
    refine ⟨_, .bytes a e, ?_⟩
    cases e <;> rcases hm with rfl | rfl <;> simp [next, lineAndEnd, unpack, elements, Val.truthy, add, lineInfo]
  | strNone a =>
    refine ⟨_, .str a [], ?_⟩
    rcases hm with rfl | rfl <;> simp [next, lineAndEnd, unpack, elements, Val.truthy, lineInfo]
  | bytesNone a =>
    refine ⟨_, .bytes a [], ?_⟩
    rcases hm with rfl | rfl <;> simp [next, lineAndEnd, unpack, elements, Val.truthy, lineInfo]

/-- C83: an iterable of pairs is taken pair by pair: the first of a pair is the line, the second its end. -/
theorem C83_pairs (n c : Int) (vs : List Val) (h : ∀ v ∈ vs, ∃ b a e, IsPair b v a e) :
    ∀ (i : Nat) (v : Val), vs[i]? = some v → ∀ b a e, IsPair b v a e →
      ∃ w, Line a e w ∧ (linesOver n c vs)[i]? = some (.ok ⟨w, n + i, c, e, a⟩) := by
  have key : ∀ (vs : List Val) (σ : State), (∀ v ∈ vs, ∃ b a e, IsPair b v a e) → (σ.mode = .unknown ∨ σ.mode = .pairs) →
      ∀ (i : Nat) (v : Val), vs[i]? = some v → ∀ b a e, IsPair b v a e →
        ∃ w, Line a e w ∧ (nexts c σ vs)[i]? = some (.ok ⟨w, σ.lineNumber + i, c, e, a⟩) := by
    intro vs
    induction vs with
    | nil => intro σ _ _ i v hi; simp at hi
    | cons v vs ih =>
      intro σ h hm i v' hi b a e hv'
      cases i with
      | zero =>
        simp only [List.getElem?_cons_zero, Option.some.injEq] at hi
        subst hi
        obtain ⟨w, hw, he⟩ := pair_next c σ hv' hm
        exact ⟨w, hw, by simp [nexts, he]⟩
      | succ i =>
        simp only [List.getElem?_cons_succ] at hi
        obtain ⟨b0, a0, e0, h0⟩ := h v (by simp)
        obtain ⟨w0, _, he⟩ := pair_next c σ h0 hm
        obtain ⟨w, hw, hx⟩ := ih ⟨.pairs, σ.lineNumber + 1⟩ (fun v hv => h v (by simp [hv])) (.inr rfl) i v' hi b a e hv'
        refine ⟨w, hw, ?_⟩
        simp only [nexts, List.getElem?_cons_succ, he, hx]
        rw [show σ.lineNumber + 1 + (i : Int) = σ.lineNumber + ((i + 1 : Nat) : Int) by omega]
  intro i v hi b a e hv
  exact key vs ⟨.unknown, n⟩ h (.inl rfl) i v hi b a e hv

/-- C83: once a str has come, everything that is not a str is refused with TypeError; the same for bytes. -/
theorem C83_strings_only (n c : Int) (b : Bool) (v : Val) (vs : List Val) (hv : IsLine b v) :
    ∀ (i : Nat) (w : Val), vs[i]? = some w → ¬ IsLine b w →
      (linesOver n c (v :: vs))[i + 1]? = some (.error .typeError) := by
  have step : ∀ (w : Val) (σ : State), σ.mode = .strings b → (next c σ w).2.mode = .strings b ∧
      (¬ IsLine b w → (next c σ w).1 = .error .typeError) := by
    intro w σ hm
    obtain ⟨m, k⟩ := σ
    dsimp only at hm
    subst hm
    have hne : ¬ (Mode.strings b = .pairs ∧ (emptyOf b).truthy = true) := by simp
    have hx : next c ⟨.strings b, k⟩ w = match lineInfo w (emptyOf b) with
        | .error e => (.error e, ⟨.strings b, k⟩)
        | .ok e' => (.ok ⟨w, k, c, e', w⟩, ⟨.strings b, k + 1⟩) := by
      simp only [next, lineAndEnd, reduceCtorEq, false_and, if_false]
      cases lineInfo w (emptyOf b) <;> rfl
    rw [hx]
    constructor
    · cases lineInfo w (emptyOf b) <;> rfl
    · intro hw
      have : lineInfo w (emptyOf b) = .error .typeError := by
        cases w with
        | str t => cases b with
          | false => exact absurd (.str t) hw
          | true => rfl
        | bytes t => cases b with
          | true => exact absurd (.bytes t) hw
          | false => rfl
        | _ => cases b <;> rfl
      rw [this]
  have key : ∀ (vs : List Val) (σ : State), σ.mode = .strings b → ∀ (i : Nat) (w : Val), vs[i]? = some w → ¬ IsLine b w →
      (nexts c σ vs)[i]? = some (.error .typeError) := by
    intro vs
    induction vs with
    | nil => intro σ _ i w h; simp at h
    | cons x vs ih =>
      intro σ hm i w h hw
      cases i with
      | zero =>
        simp only [List.getElem?_cons_zero, Option.some.injEq] at h
        subst h
        simp [nexts, (step x σ hm).2 hw]
      | succ i =>
        simp only [List.getElem?_cons_succ] at h
        simp only [nexts, List.getElem?_cons_succ]
        exact ih _ (step x σ hm).1 i w h hw
  intro i w h hw
  simp only [linesOver, nexts, List.getElem?_cons_succ]
  refine key vs _ ?_ i w h hw
  cases hv <;> rfl

/-- C83: a first value that is not a str, bytes or a tuple or list of two is refused: with ValueError if it is a tuple or
list, with TypeError otherwise. -/
theorem C83_first (n c : Int) (v : Val) (vs : List Val) (h1 : ∀ b, ¬ IsLine b v) (h2 : ∀ a e, v ≠ .seq [a, e]) :
    (linesOver n c (v :: vs))[0]? = some (.error (match v with | .seq _ => .valueError | _ => .typeError)) := by
  cases v with
  | str t => exact absurd (.str t) (h1 _)
  | bytes t => exact absurd (.bytes t) (h1 _)
  | seq l =>
    match l, h2 with
    | [], _ => rfl
    | [a], _ => rfl
    | [a, e], h2 => exact absurd rfl (h2 a e)
    | _ :: _ :: _ :: _, _ => rfl
  | none => rfl
  | other b => rfl

/-- C105: once a pair has come, everything that is not a pair of a line and its end is refused, except that a str of two
characters passes for one. -/
theorem C105_pairs_only (n c : Int) (v : Val) (vs : List Val) (hv : ∃ b a e, IsPair b v a e) :
    ∀ (i : Nat) (w : Val), vs[i]? = some w → (¬ ∃ b a e, IsPair b w a e) → (∀ x y, w ≠ .str [x, y]) →
      ∃ e, (linesOver n c (v :: vs))[i + 1]? = some (.error e) := by
  have hmode : ∀ (w : Val) (σ : State), σ.mode = .pairs → (next c σ w).2.mode = .pairs := by
    intro w σ hm
    have hl : (lineAndEnd σ.mode w).2 = .pairs := by rw [hm]; rfl
    unfold next
    dsimp only
    split
    · exact hl
    · split
      · exact hl
      · split
        · exact hl
        · exact hl
  have herr : ∀ (w : Val) (σ : State), σ.mode = .pairs → (¬ ∃ b a e, IsPair b w a e) → (∀ x y, w ≠ .str [x, y]) →
      ∃ e, (next c σ w).1 = .error e := by
    intro w σ hm hw hs
    cases h : (next c σ w).1 with
    | error e => exact ⟨e, rfl⟩
    | ok o =>
      exfalso
      apply hw
      unfold next at h
      dsimp only at h
      rw [hm] at h
      have hl : lineAndEnd .pairs w = (unpack w, .pairs) := rfl
      rw [hl] at h
      dsimp only at h
      cases hu : unpack w with
      | error e => rw [hu] at h; simp at h
      | ok p =>
        obtain ⟨a, e⟩ := p
        rw [hu] at h
        dsimp only at h
        have hw' : w = .seq [a, e] := by
          unfold unpack at hu
          cases w with
          | seq l =>
            simp only [elements] at hu
            split at hu
            · simp at hu
            · rename_i h1; simp only [Except.ok.injEq] at h1 hu; simp only [Prod.mk.injEq] at hu; rw [h1, hu.1, hu.2]
            · simp at hu
          | str t =>
            match t with
            | [] => simp [elements] at hu
            | [_] => simp [elements] at hu
            | [x, y] => exact absurd rfl (hs x y)
            | _ :: _ :: _ :: _ => simp [elements] at hu
          | bytes t =>
            match t with
            | [] => simp [elements] at hu
            | [_] => simp [elements] at hu
            | [x, y] =>
              simp only [elements, List.map_cons, List.map_nil, Except.ok.injEq, Prod.mk.injEq] at hu
              rw [← hu.1, ← hu.2] at h
              split at h
              · simp at h
              · rename_i h1
                split at h1
                · simp [add] at h1
                · simp only [Except.ok.injEq] at h1
                  rw [← h1] at h
                  simp [lineInfo] at h
            | _ :: _ :: _ :: _ => simp [elements] at hu
          | none => simp [elements] at hu
          | other b => simp [elements] at hu
        subst hw'
        by_cases he : e.truthy = true
        · rw [if_pos ⟨rfl, he⟩] at h
          cases a <;> cases e <;> simp [add, lineInfo, Val.truthy] at h he
          · exact ⟨_, _, _, .str _ _⟩
          · exact ⟨_, _, _, .bytes _ _⟩
        · rw [if_neg (fun h => he h.2)] at h
          cases a <;> cases e <;> simp [lineInfo] at h
          · exact ⟨_, _, _, .str _ _⟩
          · exact ⟨_, _, _, .strNone _⟩
          · exact ⟨_, _, _, .bytes _ _⟩
          · exact ⟨_, _, _, .bytesNone _⟩
  have key : ∀ (vs : List Val) (σ : State), σ.mode = .pairs → ∀ (i : Nat) (w : Val), vs[i]? = some w →
      (¬ ∃ b a e, IsPair b w a e) → (∀ x y, w ≠ .str [x, y]) → ∃ e, (nexts c σ vs)[i]? = some (.error e) := by
    intro vs
    induction vs with
    | nil => intro σ _ i w h; simp at h
    | cons x vs ih =>
      intro σ hm i w h hw hs
      cases i with
      | zero =>
        simp only [List.getElem?_cons_zero, Option.some.injEq] at h
        subst h
        obtain ⟨e, he⟩ := herr x σ hm hw hs
        exact ⟨e, by simp [nexts, he]⟩
      | succ i =>
        simp only [List.getElem?_cons_succ] at h
        simp only [nexts, List.getElem?_cons_succ]
        exact ih _ (hmode x σ hm) i w h hw hs
  intro i w h hw hs
  simp only [linesOver, nexts, List.getElem?_cons_succ]
  refine key vs _ ?_ i w h hw hs
  obtain ⟨b, a, e, hv⟩ := hv
  obtain ⟨_, _, he⟩ := pair_next c ⟨.unknown, n⟩ hv (.inl rfl)
  rw [he]

/-- C105 fails there: after a pair, the str `ab` is taken for the line `a` that ends with `b`. -/
theorem C105_two_characters (n c : Int) (x y : Char) :
    (linesOver n c [.seq [.str [], .str ['\n']], .str [x, y]])[1]? =
      some (.ok ⟨.str [x, y], n + 1, c, .str [y], .str [x]⟩) := rfl

/-- The hypotheses hold: a file of two lines; and pairs, one with None. -/
example : ∀ v ∈ [Val.bytes [97, 10], .bytes [98]], IsLine true v := by
  intro v hv
  simp only [List.mem_cons, List.not_mem_nil, or_false] at hv
  rcases hv with rfl | rfl <;> exact .bytes _
example : ∀ v ∈ [Val.seq [.str ['a'], .str ['\n']], .seq [.str ['b'], .none]], ∃ b a e, IsPair b v a e := by
  intro v hv
  simp only [List.mem_cons, List.not_mem_nil, or_false] at hv
  rcases hv with rfl | rfl
  · exact ⟨_, _, _, .str _ _⟩
  · exact ⟨_, _, _, .strNone _⟩

end Big.LinesIter
