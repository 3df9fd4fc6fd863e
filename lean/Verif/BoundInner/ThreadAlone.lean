import Verif.BoundInner.ThreadModel
import Verif.BoundInner.Lemmas
/-! # A thread that is not disturbed does what Model.lean says -/
namespace Big.BoundInner

/-- `k` steps of the computation, with nothing else running. -/
def Prog.steps {α : Type} (o : Outer) : Nat → Prog α → State → Prog α × State
  | 0, p, S => (p, S)
  | k + 1, p, S => Prog.steps o k (p.next o S).1 (p.next o S).2

/-- After some steps, with nothing else running. -/
def Reaches {α : Type} (o : Outer) (p : Prog α) (S : State) (p' : Prog α) (S' : State) : Prop :=
  ∃ k, p.steps o k S = (p', S')

theorem steps_add {α : Type} (o : Outer) : ∀ (j k : Nat) (p : Prog α) (S : State),
    p.steps o (j + k) S = (p.steps o j S).1.steps o k (p.steps o j S).2
  | 0, k, p, S => by simp [Prog.steps]
  | j + 1, k, p, S => by
    rw [Nat.add_right_comm]
    exact steps_add o j k _ _

theorem Reaches.refl {α : Type} (o : Outer) (p : Prog α) (S : State) : Reaches o p S p S := ⟨0, rfl⟩

theorem Reaches.trans {α : Type} {o : Outer} {p p' p'' : Prog α} {S S' S'' : State} (h : Reaches o p S p' S')
    (h' : Reaches o p' S' p'' S'') : Reaches o p S p'' S'' := by
  obtain ⟨j, hj⟩ := h
  obtain ⟨k, hk⟩ := h'
  exact ⟨j + k, by rw [steps_add, hj]; exact hk⟩

theorem Reaches.step {α : Type} {o : Outer} {p p' : Prog α} {S S' : State}
    (h : Reaches o (p.next o S).1 (p.next o S).2 p' S') : Reaches o p S p' S' := by
  obtain ⟨k, hk⟩ := h
  exact ⟨k + 1, hk⟩

theorem steps_done {α : Type} (o : Outer) (r : Except Err α) (S : State) : ∀ k,
    (Prog.done r).steps o k S = (.done r, S)
  | 0 => rfl
  | k + 1 => steps_done o r S k

/-- What follows a computation, once it returned or raised. -/
def contin {α β : Type} (f : α → Prog β) : Except Err α → Prog β
  | .ok a => f a
  | .error e => .done (.error e)

theorem andThen_done {α β : Type} (r : Except Err α) (f : α → Prog β) : (Prog.done r).andThen f = contin f r := by
  cases r <;> rfl

theorem next_andThen {α β : Type} (o : Outer) (f : α → Prog β) (p : Prog α) (S : State) (h : ∀ r, p ≠ .done r) :
    (p.andThen f).next o S = ((p.next o S).1.andThen f, (p.next o S).2) := by
  cases p with
  | done r => exact absurd rfl (h r)
  | read => rfl
  | look => rfl
  | build b c xs k =>
    simp only [Prog.andThen, Prog.next]
    cases newClass o b c S xs <;> rfl
  | store => rfl

theorem Reaches.andThen {α β : Type} {o : Outer} {f : α → Prog β} {r : Except Err α} {S' : State} {p : Prog α} {S : State}
    (h : Reaches o p S (.done r) S') : Reaches o (p.andThen f) S (contin f r) S' := by
  obtain ⟨k, hk⟩ := h
  induction k generalizing p S with
  | zero => cases hk; rw [andThen_done]; exact .refl _ _ _
  | succ k ih =>
    by_cases hd : ∃ r, p = .done r
    · obtain ⟨r', rfl⟩ := hd
      rw [steps_done] at hk
      cases hk
      rw [andThen_done]; exact .refl _ _ _
    · refine Reaches.step ?_
      rw [next_andThen o f p S (fun r e => hd ⟨r, e⟩)]
      exact ih hk

/-- The computation `p` does what the sequential `m` does. -/
def Does {α : Type} (o : Outer) (p : Prog α) (m : State → M α) : Prop :=
  ∀ S, Reaches o p S (.done (m S).1) (m S).2

theorem lookupP_does {A : Attrs} {o : Outer} {gp : Bool → Cls → Prog Cls} {g : State → Outer → Bool → Cls → M Cls}
    (h : ∀ b c, Does o (gp b c) (fun S => g S o b c)) (name : String) :
    Does o (lookupP A gp o name) (fun S => lookup A g S o name) := by
  intro S
  refine Reaches.step ?_
  unfold lookup
  cases hd : S.dict o name with
  | some v => simp only [lookupP, Prog.next, hd]; exact .refl _ _ _
  | none =>
    simp only [lookupP, Prog.next, hd]
    cases hA : A o name with
    | none => exact .refl _ _ _
    | some a =>
      cases a with
      | plain v => exact .refl _ _ _
      | desc b c =>
        dsimp only
        refine (Reaches.andThen (h b c S)).trans ?_
        dsimp only
        cases hg : g S o b c with
        | mk r S' => cases r <;> exact .refl _ _ _

theorem stepP_does {o : Outer} {gp : String → Prog (Option Val)} {g : State → String → M (Option Val)}
    (h : ∀ n, Does o (gp n) (fun S => g S n)) (name : String) (b : Cls) :
    Does o (stepP gp name b) (fun S => step g name S b) := by
  intro S
  refine Reaches.step ?_
  simp only [stepP, Prog.next]
  unfold step
  by_cases hn : (S.info b).name ≠ name
  · rw [if_pos hn, if_pos hn]
    refine (Reaches.andThen (h _ S)).trans ?_
    dsimp only
    cases hg : g S (S.info b).name with
    | mk r S' =>
      cases r with
      | error e => exact .refl _ _ _
      | ok d =>
        cases d with
        | none => exact .refl _ _ _
        | some v =>
          show Reaches o ((isBoundVersionP v b).andThen _) S' _ _
          cases v with
          | other n => exact .refl _ _ _
          | cls w =>
            refine Reaches.step ?_
            simp only [isBoundVersionP, Prog.andThen, Prog.next, isBoundVersion]
            cases hb : (S'.info w).bases with
            | nil => exact .refl _ _ _
            | cons a bs =>
              simp only [andThen_done, contin]
              cases a == b <;> exact .refl _ _ _
  · rw [if_neg hn, if_neg hn]
    exact .refl _ _ _

theorem loopP_does {o : Outer} {gp : String → Prog (Option Val)} {g : State → String → M (Option Val)}
    (h : ∀ n, Does o (gp n) (fun S => g S n)) (name : String) : ∀ bs : List Cls,
    Does o (loopP gp name bs) (fun S => loop g name S bs)
  | [] => fun S => .refl _ _ _
  | b :: bs => by
    intro S
    unfold loopP loop
    refine (Reaches.andThen (stepP_does h name b S)).trans ?_
    dsimp only
    cases hs : step g name S b with
    | mk r S' =>
      cases r with
      | error e => exact .refl _ _ _
      | ok x =>
        refine (Reaches.andThen (loopP_does h name bs S')).trans ?_
        dsimp only
        cases hl : loop g name S' bs with
        | mk r S'' => cases r <;> exact .refl _ _ _

theorem wrap_eq (o : Outer) (b : Bool) (c : Cls) (S : State) (xs : List (Cls × Bool)) :
    wrap o b c S xs = match newClass o b c S xs with
      | none => (.error .typeError, S)
      | some r => (.ok S.heap.length, ⟨S.heap ++ [r], fun o' n => if o' = o ∧ n = (S.info c).name then some (.cls S.heap.length)
          else S.dict o' n, S.alive⟩) := by
  unfold wrap newClass
  dsimp only
  cases linearize (fun b => (S.info b).mro) S.heap.length (if (xs.any fun x => x.2) = true then c :: xs.map (·.1) else [c]) <;> rfl

theorem bindP_does (A : Attrs) (o : Outer) : ∀ (n : Nat) (b : Bool) (c : Cls),
    Does o (bindP A o n b c) (fun S => bind A n S o b c)
  | 0, _, _ => fun S => .refl _ _ _
  | n + 1, b, c => by
    intro S
    unfold bindP bind
    refine Reaches.step ?_
    simp only [Prog.next]
    refine (Reaches.andThen (loopP_does (g := fun S name => lookup A (bind A n) S o name)
      (fun nm => lookupP_does (fun b c => bindP_does A o n b c) nm) _ _ S)).trans ?_
    dsimp only
    have hgl : Grow S (loop (fun S name => lookup A (bind A n) S o name) (S.info c).name S (S.info c).bases).2 :=
      loop_rel (R := Grow) (I := fun _ => True) Grow.refl Grow.trans (fun _ _ => trivial)
        (fun S b _ _ _ => lookup_rel (R := Grow) Grow.refl fun b c _ _ => bind_grow A n S o b c) S trivial
    have hname : ((loop (fun S name => lookup A (bind A n) S o name) (S.info c).name S (S.info c).bases).2.info c).name
        = (S.info c).name := by
      by_cases hc : c < S.heap.length
      · rw [hgl.info hc]
      · have : S.info c = default := by
          unfold State.info
          rw [List.getD_eq_getElem?_getD, List.getElem?_eq_none (by omega)]; rfl
        rw [this]
        show ((State.info S c)).name = _
        rw [this]
    cases hl : loop (fun S name => lookup A (bind A n) S o name) (S.info c).name S (S.info c).bases with
    | mk r S' =>
      rw [hl] at hname
      cases r with
      | error e => exact .refl _ _ _
      | ok xs =>
        simp only [contin, wrap_eq]
        refine Reaches.step ?_
        simp only [Prog.next]
        cases hc : newClass o b c S' xs with
        | none => exact .refl _ _ _
        | some r =>
          refine Reaches.step ?_
          simp only [Prog.next, hname]
          exact .refl _ _ _

theorem getP_does (A : Attrs) (n : Nat) (o : Outer) (name : String) :
    Does o (getP A n o name) (fun S => get A n S o name) := by
  intro S
  unfold getP get
  refine (Reaches.andThen (lookupP_does (fun b c => bindP_does A o n b c) name S)).trans ?_
  dsimp only
  cases hl : lookup A (bind A n) S o name with
  | mk r S' =>
    cases r with
    | error e => exact .refl _ _ _
    | ok d => cases d <;> exact .refl _ _ _

end Big.BoundInner
