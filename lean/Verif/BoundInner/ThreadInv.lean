import Verif.BoundInner.ThreadModel
import Verif.BoundInner.All
/-! # Bound inner classes in several threads: what every step keeps -/
namespace Big.BoundInner

/-! ### Specification -/

/-- Before any thread looks at `o`: nothing is cached under the names of its decorated classes; these are attributes
under their own names; and no other attribute of `o` is a class that, by its first base, could be taken for a bound one. -/
structure Ready (A : Attrs) (S0 : State) (o : Outer) : Prop where
  empty : ∀ name, Desc A o name → S0.dict o name = none
  names : OwnNameOf A S0 o
  bases : ∀ c, c < S0.heap.length → ∀ k ∈ (S0.info c).bases, k < S0.heap.length
  others : ∀ name w, S0.dict o name = some (.cls w) ∨ A o name = some (.plain (.cls w)) →
    w < S0.heap.length ∧ ∀ d ∈ (S0.info w).bases.head?, (S0.info d).name ≠ name

/-- Among the bases of `c`, `k` is a decorated class (with another name than that of `c`). -/
def Replaced (A : Attrs) (S0 : State) (o : Outer) (c k : Cls) : Prop :=
  (S0.info k).name ≠ (S0.info c).name ∧ ∃ b, A o (S0.info k).name = some (.desc b k)

/-- `w` is a version, made since S0, of the decorated class `c`, bound to `o`: it has its name, and inherits from it
and from versions of its decorated bases. -/
inductive Version (A : Attrs) (S0 : State) (o : Outer) (S : State) : Bool → Cls → Cls → Prop where
  | mk (b : Bool) (c w : Cls) (bs : List Cls) (new : S0.heap.length ≤ w) (exist : w < S.heap.length)
    (hname : (S.info w).name = (S0.info c).name)
    (hinit : (S.info w).init = if b then .bind o c else .inherit)
    (hmro : ∃ r, (S.info w).mro = w :: r)
    (hbases : (S.info w).bases = c :: bs)
    (hno : (∀ k ∈ (S0.info c).bases, ¬ Replaced A S0 o c k) → bs = [])
    (hlen : (∃ k ∈ (S0.info c).bases, Replaced A S0 o c k) → bs.length = (S0.info c).bases.length)
    (hsame : ∀ (i : Nat) (k k' : Cls), (S0.info c).bases[i]? = some k → bs[i]? = some k' → ¬ Replaced A S0 o c k → k' = k)
    (hver : ∀ (i : Nat) (k k' : Cls) (b' : Bool), (S0.info c).bases[i]? = some k → bs[i]? = some k' → Replaced A S0 o c k →
      A o (S0.info k).name = some (.desc b' k) → Version A S0 o S b' k k') : Version A S0 o S b c w

/-! ### Rely and guarantee -/

/-- What is true of the memory as far as `o` is concerned, between any two steps; `V` is what was cached. -/
structure Ok (A : Attrs) (S0 : State) (o : Outer) (V : String → Option Val) (S : State) : Prop where
  ext : ∃ t, S.heap = S0.heap ++ t
  other : ∀ n, ¬ Desc A o n → S.dict o n = S0.dict o n
  entry : ∀ n b c v, A o n = some (.desc b c) → S.dict o n = some v → ∃ w, v = .cls w ∧ Version A S0 o S b c w
  keep : ∀ n v, V n = some v → S.dict o n = some v

/-- What other threads may do. -/
structure Rely (A : Attrs) (S0 : State) (o : Outer) (V : String → Option Val) (S S' : State) : Prop where
  ext : ∃ t, S'.heap = S.heap ++ t
  stay : ∀ n, S.dict o n ≠ none → S'.dict o n ≠ none
  ok : Ok A S0 o V S → Ok A S0 o V S'

variable {A : Attrs} {S0 : State} {o : Outer} {V : String → Option Val}

theorem Rely.refl (S : State) : Rely A S0 o V S S := ⟨⟨[], by simp⟩, fun _ h => h, id⟩

theorem Rely.trans {S S' S'' : State} (h : Rely A S0 o V S S') (h' : Rely A S0 o V S' S'') : Rely A S0 o V S S'' := by
  refine ⟨?_, fun n hn => h'.stay n (h.stay n hn), fun x => h'.ok (h.ok x)⟩
  obtain ⟨t, ht⟩ := h.ext
  obtain ⟨t', ht'⟩ := h'.ext
  exact ⟨t ++ t', by rw [ht', ht, List.append_assoc]⟩

theorem Version.mono {S S' : State} (hg : ∃ t, S'.heap = S.heap ++ t) {b : Bool} {c w : Cls} (h : Version A S0 o S b c w) :
    Version A S0 o S' b c w := by
  induction h with
  | mk b c w bs new exist hname hinit hmro hbases hno hlen hsame _ ih =>
    have e : S'.info w = S.info w := info_append hg exist
    refine .mk b c w bs new ?_ (by rw [e]; exact hname) (by rw [e]; exact hinit) (by rw [e]; exact hmro)
      (by rw [e]; exact hbases) hno hlen hsame ih
    obtain ⟨t, ht⟩ := hg
    rw [ht]; simp; omega

/-- Changes that do not concern the `__dict__` of `o`. -/
theorem Rely.apart {S S' : State} (hg : ∃ t, S'.heap = S.heap ++ t) (hd : ∀ n, S'.dict o n = S.dict o n) :
    Rely A S0 o V S S' := by
  refine ⟨hg, fun n h => by rw [hd]; exact h, fun x => ⟨?_, fun n hn => by rw [hd]; exact x.other n hn, ?_, fun n v hv => by rw [hd]; exact x.keep n v hv⟩⟩
  · obtain ⟨t, ht⟩ := x.ext
    obtain ⟨t', ht'⟩ := hg
    exact ⟨t ++ t', by rw [ht', ht, List.append_assoc]⟩
  · intro n b c v hA hv
    rw [hd] at hv
    obtain ⟨w, rfl, hw⟩ := x.entry n b c v hA hv
    exact ⟨w, rfl, hw.mono hg⟩

/-- Whatever the computation does between steps of other threads that keep to `R`: its own steps keep to `R`, and its
result is as `Q` says. -/
def WP {α : Type} (R : State → State → Prop) (o : Outer) (Q : State → Except Err α → Prop) : Prog α → State → Prop
  | .done r, S => ∀ S', R S S' → Q S' r
  | .read n k, S => ∀ S', R S S' → WP R o Q (k (S'.dict o n)) S'
  | .look c k, S => ∀ S', R S S' → WP R o Q (k (S'.info c)) S'
  | .build b c xs k, S => ∀ S', R S S' → (newClass o b c S' xs = none → WP R o Q (k (.error .typeError)) S') ∧
    ∀ r, newClass o b c S' xs = some r → R S' ⟨S'.heap ++ [r], S'.dict, S'.alive⟩ ∧
      WP R o Q (k (.ok S'.heap.length)) ⟨S'.heap ++ [r], S'.dict, S'.alive⟩
  | .store n w k, S => ∀ S', R S S' →
    R S' ⟨S'.heap, fun o' n' => if o' = o ∧ n' = n then some (.cls w) else S'.dict o' n', S'.alive⟩ ∧
    WP R o Q k ⟨S'.heap, fun o' n' => if o' = o ∧ n' = n then some (.cls w) else S'.dict o' n', S'.alive⟩

section
variable {α β : Type} {R : State → State → Prop}

theorem WP.stable (trans : ∀ {S S' S''}, R S S' → R S' S'' → R S S'') {Q : State → Except Err α → Prop} {p : Prog α}
    {S S' : State} (h : WP R o Q p S) (hr : R S S') : WP R o Q p S' := by
  cases p <;> exact fun S'' hr' => h S'' (trans hr hr')

theorem WP.next (refl : ∀ S, R S S) {Q : State → Except Err α → Prop} {p : Prog α} {S : State} (h : WP R o Q p S) :
    R S (p.next o S).2 ∧ WP R o Q (p.next o S).1 (p.next o S).2 := by
  cases p with
  | done r => exact ⟨refl S, h⟩
  | read n k => exact ⟨refl S, h S (refl S)⟩
  | look c k => exact ⟨refl S, h S (refl S)⟩
  | build b c xs k =>
    have := h S (refl S)
    simp only [Prog.next]
    cases hc : newClass o b c S xs with
    | none => exact ⟨refl S, this.1 hc⟩
    | some r => exact this.2 r hc
  | store n w k => exact h S (refl S)

theorem WP.andThen (refl : ∀ S, R S S) (trans : ∀ {S S' S''}, R S S' → R S' S'' → R S S'')
    {Q : State → Except Err α → Prop} {Q' : State → Except Err β → Prop} {f : α → Prog β}
    : ∀ {p : Prog α} {S : State}, WP R o Q p S → (∀ S' a, R S S' → Q S' (.ok a) → WP R o Q' (f a) S') →
    (∀ S' e, Q S' (.error e) → Q' S' (.error e)) → WP R o Q' (p.andThen f) S
  | .done (.ok a), S, h, hf, _ => hf S a (refl S) (h S (refl S))
  | .done (.error e), S, h, _, he => fun S' hr => he S' e (h S' hr)
  | .read n k, S, h, hf, he => fun S' hr => WP.andThen refl trans (h S' hr) (fun S'' a hr' => hf S'' a (trans hr hr')) he
  | .look c k, S, h, hf, he => fun S' hr => WP.andThen refl trans (h S' hr) (fun S'' a hr' => hf S'' a (trans hr hr')) he
  | .build b c xs k, S, h, hf, he => fun S' hr =>
    ⟨fun hc => WP.andThen refl trans ((h S' hr).1 hc) (fun S'' a hr' => hf S'' a (trans hr hr')) he,
     fun r hc => ⟨((h S' hr).2 r hc).1, WP.andThen refl trans ((h S' hr).2 r hc).2
       (fun S'' a hr' => hf S'' a (trans (trans hr ((h S' hr).2 r hc).1) hr')) he⟩⟩
  | .store n w k, S, h, hf, he => fun S' hr =>
    ⟨(h S' hr).1, WP.andThen refl trans (h S' hr).2 (fun S'' a hr' => hf S'' a (trans (trans hr (h S' hr).1) hr')) he⟩

end

/-! ### `__get__` keeps to it -/

/-- What `getattr(o, name, None)` gives. -/
def LookQ (A : Attrs) (S0 : State) (o : Outer) (V : String → Option Val) (name : String) (S : State) :
    Except Err (Option Val) → Prop
  | .error _ => V name = none
  | .ok d =>
    (∀ b c, A o name = some (.desc b c) → (∃ w, d = some (.cls w) ∧ Version A S0 o S b c w) ∧ S.dict o name ≠ none) ∧
    (∀ v, V name = some v → d = some v) ∧
    ∀ w, d = some (.cls w) → ¬ Desc A o name → S0.dict o name = some (.cls w) ∨ A o name = some (.plain (.cls w))

/-- What `__get__` gives. -/
def BindQ (A : Attrs) (S0 : State) (o : Outer) (b : Bool) (c : Cls) (S : State) : Except Err Cls → Prop
  | .error _ => True
  | .ok w => Version A S0 o S b c w ∧ S.dict o (S0.info c).name ≠ none

theorem lookupP_wp {S : State} (name : String) (hS : Ok A S0 o V S) {gp : Bool → Cls → Prog Cls}
    (h : ∀ S' b c, A o name = some (.desc b c) → V name = none → Rely A S0 o V S S' →
      WP (Rely A S0 o V) o (BindQ A S0 o b c) (gp b c) S')
    (hn : OwnNameOf A S0 o) :
    WP (Rely A S0 o V) o (LookQ A S0 o V name) (lookupP A gp o name) S := by
  intro S' hr
  have hS' := hr.ok hS
  cases hd : S'.dict o name with
  | some v =>
    intro S'' hr'
    have hS'' := hr'.ok hS'
    refine ⟨fun b c hA => ⟨?_, hr'.stay _ (by rw [hd]; exact nofun)⟩, ?_, ?_⟩
    · obtain ⟨w, rfl, hw⟩ := hS'.entry _ _ _ _ hA hd
      exact ⟨w, rfl, hw.mono hr'.ext⟩
    · intro u hu
      have := hS'.keep _ _ hu
      rw [hd] at this; exact this
    · intro w e hD
      cases e
      rw [hS'.other _ hD] at hd
      exact .inl hd
  | none =>
    have hV : V name = none := by
      cases hV : V name with
      | none => rfl
      | some u => rw [hS'.keep _ _ hV] at hd; cases hd
    dsimp only
    cases hA : A o name with
    | none =>
      intro S'' _
      exact ⟨fun b c h => (by rw [hA] at h; cases h), fun v hv => (by rw [hV] at hv; cases hv), fun w e => by cases e⟩
    | some a =>
      cases a with
      | plain v =>
        intro S'' _
        refine ⟨fun b c h => (by rw [hA] at h; cases h), fun v hv => (by rw [hV] at hv; cases hv), ?_⟩
        intro w e _
        cases e
        exact .inr hA
      | desc b c =>
        refine WP.andThen Rely.refl Rely.trans (h S' b c hA hV hr) ?_ (fun _ _ _ => hV)
        intro S'' w _ hQ S3 hr3
        refine ⟨?_, fun v hv => (by rw [hV] at hv; cases hv), fun w e hD => absurd ⟨b, c, hA⟩ hD⟩
        intro b' c' hA'
        rw [hA] at hA'
        cases hA'
        refine ⟨⟨w, rfl, hQ.1.mono hr3.ext⟩, hr3.stay _ ?_⟩
        rw [← (hn _ _ _ hA).2]
        exact hQ.2

/-- What a round of the loop gives, for the base `k` of `c`. -/
def StepOk (A : Attrs) (S0 : State) (o : Outer) (c k : Cls) (S : State) (x : Cls × Bool) : Prop :=
  (x.2 = true ↔ Replaced A S0 o c k) ∧ (x.2 = false → x.1 = k) ∧
  (x.2 = true → ∀ b, A o (S0.info k).name = some (.desc b k) → Version A S0 o S b k x.1)

theorem StepOk.mono {c k : Cls} {S S' : State} {x : Cls × Bool} (hg : ∃ t, S'.heap = S.heap ++ t)
    (h : StepOk A S0 o c k S x) : StepOk A S0 o c k S' x :=
  ⟨h.1, h.2.1, fun e b hb => (h.2.2 e b hb).mono hg⟩

/-- Either it raised, or the result is as `P` says. -/
def OkQ {α : Type} (P : State → α → Prop) (S : State) : Except Err α → Prop
  | .error _ => True
  | .ok a => P S a

theorem Version.head {S : State} {b : Bool} {c w : Cls} (h : Version A S0 o S b c w) : ∃ bs, (S.info w).bases = c :: bs := by
  cases h with
  | mk _ _ _ bs _ _ _ _ _ hbases => exact ⟨bs, hbases⟩

theorem isBoundVersionP_wp {S : State} {v : Val} {k : Cls} {P : State → Bool → Prop}
    (hP : ∀ S' is, Rely A S0 o V S S' → (is = true ↔ ∃ w bs, v = .cls w ∧ (S'.info w).bases = k :: bs) →
      ∀ S'', Rely A S0 o V S' S'' → P S'' is) :
    WP (Rely A S0 o V) o (OkQ P) (isBoundVersionP v k) S := by
  cases v with
  | other n =>
    intro S' hr
    exact hP S' false hr (by simp) S' (.refl S')
  | cls w =>
    intro S' hr
    dsimp only
    cases hb : (S'.info w).bases with
    | nil => exact fun _ _ => trivial
    | cons a bs =>
      intro S'' hr'
      refine hP S' (a == k) hr ?_ S'' hr'
      simp [hb]

theorem stepP_wp (hR : Ready A S0 o) {S : State} (hS : Ok A S0 o V S) {c k : Cls} (hk : k < S0.heap.length)
    {gp : String → Prog (Option Val)}
    (h : ∀ name S', Rely A S0 o V S S' → WP (Rely A S0 o V) o (LookQ A S0 o V name) (gp name) S') :
    WP (Rely A S0 o V) o (OkQ (StepOk A S0 o c k)) (stepP gp (S0.info c).name k) S := by
  intro S1 hr1
  have hS1 := hr1.ok hS
  have e1 : S1.info k = S0.info k := info_append hS1.ext hk
  rw [e1]
  dsimp only
  by_cases hn : (S0.info k).name ≠ (S0.info c).name
  · rw [if_pos hn]
    refine WP.andThen Rely.refl Rely.trans (h _ S1 hr1) ?_ (fun _ _ _ => trivial)
    intro S2 d hr2 hQ
    have hS2 := hr2.ok hS1
    -- what the attribute is, if it is a decorated class
    have notrep : (∀ b, A o (S0.info k).name ≠ some (.desc b k)) → ¬ Replaced A S0 o c k :=
      fun hx hy => by obtain ⟨b, hb⟩ := hy.2; exact hx b hb
    cases d with
    | none =>
      intro S3 _
      have : ¬ Replaced A S0 o c k := notrep fun b hb => by
        obtain ⟨⟨w, hw, _⟩, _⟩ := hQ.1 b k hb
        cases hw
      exact ⟨by simpa using this, fun _ => rfl, fun e => by cases e⟩
    | some v =>
      refine WP.andThen Rely.refl Rely.trans
        (isBoundVersionP_wp (k := k) (P := fun S is => (is = true → ∃ w, v = .cls w) ∧
          ∀ w, v = .cls w → StepOk A S0 o c k S (if is then (w, true) else (k, false))) ?_) ?_ (fun _ _ _ => trivial)
      · intro S3 is hr3 his S4 hr4
        refine ⟨fun e => by obtain ⟨w, _, hw, _⟩ := his.1 e; exact ⟨w, hw⟩, ?_⟩
        intro w e
        subst e
        by_cases hD : Desc A o (S0.info k).name
        · obtain ⟨b, c', hA⟩ := hD
          obtain ⟨⟨w', hw', hver⟩, _⟩ := hQ.1 b c' hA
          cases hw'
          obtain ⟨bs, hbs⟩ := (hver.mono hr3.ext).head
          by_cases hc : c' = k
          · subst hc
            have : is = true := his.2 ⟨w, bs, rfl, hbs⟩
            subst this
            refine ⟨⟨fun _ => ⟨hn, b, hA⟩, fun _ => rfl⟩, fun e => (by cases e), fun _ b' hb' => ?_⟩
            rw [hA] at hb'
            cases hb'
            exact (hver.mono hr3.ext).mono hr4.ext
          · have : is = false := by
              cases is with
              | false => rfl
              | true =>
                obtain ⟨w', bs', hw', hbs'⟩ := his.1 rfl
                cases hw'
                rw [hbs] at hbs'
                cases hbs'
                exact absurd rfl hc
            subst this
            refine ⟨⟨fun e => (by cases e), fun hr => ?_⟩, fun _ => rfl, fun e => by cases e⟩
            obtain ⟨b', hb'⟩ := hr.2
            rw [hA] at hb'
            cases hb'
            exact absurd rfl hc
        · have hnr : ¬ Replaced A S0 o c k := notrep fun b hb => hD ⟨b, k, hb⟩
          obtain ⟨hw, hx⟩ := hR.others _ w (hQ.2.2 w rfl hD)
          have : is = false := by
            cases is with
            | false => rfl
            | true =>
              obtain ⟨w', bs', hw', hbs'⟩ := his.1 rfl
              cases hw'
              rw [info_append (hr3.ok hS2).ext hw] at hbs'
              exact absurd rfl (hx k (by rw [hbs']; rfl))
          subst this
          exact ⟨⟨fun e => (by cases e), fun hr => absurd hr hnr⟩, fun _ => rfl, fun e => by cases e⟩
      · intro S3 is hr3 his
        cases v with
        | other m =>
          cases is with
          | true => obtain ⟨w, hw⟩ := his.1 rfl; cases hw
          | false =>
            intro S4 hr4
            have : ¬ Replaced A S0 o c k := notrep fun b hb => by
              obtain ⟨⟨w, hw, _⟩, _⟩ := hQ.1 b k hb
              cases hw
            exact ⟨by simpa using this, fun _ => rfl, fun e => by cases e⟩
        | cls w =>
          have := his.2 w rfl
          cases is with
          | true => exact fun S4 hr4 => this.mono hr4.ext
          | false => exact fun S4 hr4 => this.mono hr4.ext
  · rw [if_neg hn]
    intro S2 _
    have : ¬ Replaced A S0 o c k := fun hr => hn hr.1
    exact ⟨by simpa using this, fun _ => rfl, fun e => by cases e⟩

/-- What the loop gives. -/
def LoopOk (A : Attrs) (S0 : State) (o : Outer) (c : Cls) (ks : List Cls) (S : State) (xs : List (Cls × Bool)) : Prop :=
  xs.length = ks.length ∧ ∀ (i : Nat) (k : Cls) (x : Cls × Bool), ks[i]? = some k → xs[i]? = some x → StepOk A S0 o c k S x

theorem LoopOk.mono {c : Cls} {ks : List Cls} {S S' : State} {xs : List (Cls × Bool)} (hg : ∃ t, S'.heap = S.heap ++ t)
    (h : LoopOk A S0 o c ks S xs) : LoopOk A S0 o c ks S' xs :=
  ⟨h.1, fun i k x hk hx => (h.2 i k x hk hx).mono hg⟩

theorem loopP_wp (hR : Ready A S0 o) {c : Cls} {gp : String → Prog (Option Val)} :
    ∀ (ks : List Cls) {S : State}, Ok A S0 o V S → (∀ k ∈ ks, k < S0.heap.length) →
    (∀ name S', Rely A S0 o V S S' → WP (Rely A S0 o V) o (LookQ A S0 o V name) (gp name) S') →
    WP (Rely A S0 o V) o (OkQ (LoopOk A S0 o c ks)) (loopP gp (S0.info c).name ks) S
  | [], S, _, _, _ => fun S' _ => ⟨rfl, fun i k x hk => by simp at hk⟩
  | k :: ks, S, hS, hk, h => by
    unfold loopP
    refine WP.andThen Rely.refl Rely.trans (stepP_wp (c := c) hR hS (hk k (.head _)) h) ?_ (fun _ _ _ => trivial)
    intro S1 x hr1 hx
    refine WP.andThen Rely.refl Rely.trans (loopP_wp hR (c := c) ks (hr1.ok hS) (fun j hj => hk j (.tail _ hj))
      (fun name S' hr => h name S' (hr1.trans hr))) ?_ (fun _ _ _ => trivial)
    intro S2 xs hr2 hxs S3 hr3
    refine ⟨by simp [hxs.1], ?_⟩
    intro i k' x' hk' hx'
    cases i with
    | zero =>
      cases hk'
      cases hx'
      exact (show StepOk A S0 o c k S1 x from hx).mono (hr2.trans hr3).ext
    | succ i => exact (hxs.2 i k' x' hk' hx').mono hr3.ext

theorem newClass_info {b : Bool} {c : Cls} {S : State} {xs : List (Cls × Bool)} {r : ClassRec}
    (h : newClass o b c S xs = some r) : r.name = (S.info c).name ∧
    r.bases = (if xs.any (·.2) then c :: xs.map (·.1) else [c]) ∧ (∃ m, r.mro = S.heap.length :: m) ∧
    r.init = if b then .bind o c else .inherit := by
  unfold newClass at h
  dsimp only at h
  cases hl : linearize (fun b => (S.info b).mro) S.heap.length (if xs.any (·.2) then c :: xs.map (·.1) else [c]) with
  | none => rw [hl] at h; cases h
  | some mro =>
    rw [hl] at h
    cases h
    obtain ⟨m, rfl, -, -⟩ := linearize_head hl
    exact ⟨rfl, rfl, ⟨m, rfl⟩, rfl⟩

theorem bindP_wp (hR : Ready A S0 o) : ∀ (n : Nat) {S : State} {name : String} {b : Bool} {c : Cls}, Ok A S0 o V S →
    A o name = some (.desc b c) → V name = none →
    WP (Rely A S0 o V) o (BindQ A S0 o b c) (bindP A o n b c) S
  | 0, _, _, _, _, _, _, _ => fun _ _ => trivial
  | n + 1, S, name, b, c, hS, hA, hV => by
    obtain ⟨hc, hname⟩ := hR.names _ _ _ hA
    intro S1 hr1
    have hS1 := hr1.ok hS
    have e1 : S1.info c = S0.info c := info_append hS1.ext hc
    rw [e1]
    refine WP.andThen Rely.refl Rely.trans (loopP_wp hR (c := c) _ hS1 (hR.bases c hc) ?_) ?_ (fun _ _ _ => trivial)
    · intro nm S' hr
      exact lookupP_wp nm (hr.ok hS1) (fun S'' b' c' hA' hV' hr' => bindP_wp hR n (hr'.ok (hr.ok hS1)) hA' hV') hR.names
    · intro S2 xs hr2 hxs S3 hr3
      refine ⟨fun _ => fun _ _ => trivial, ?_⟩
      intro r hr
      have hS3 := hr3.ok (hr2.ok hS1)
      obtain ⟨g1, g2, g3, g4⟩ := newClass_info hr
      have hx3 : LoopOk A S0 o c (S0.info c).bases S3 xs :=
        LoopOk.mono (S := S2) hr3.ext hxs
      have hgrow : ∃ t, (⟨S3.heap ++ [r], S3.dict, S3.alive⟩ : State).heap = S3.heap ++ t := ⟨[r], rfl⟩
      have hinfo : (⟨S3.heap ++ [r], S3.dict, S3.alive⟩ : State).info S3.heap.length = r := by
        unfold State.info
        dsimp only
        rw [List.getD_eq_getElem?_getD, List.getElem?_append_right (Nat.le_refl _)]
        simp
      have hN : S0.heap.length ≤ S3.heap.length := by
        obtain ⟨t, ht⟩ := hS3.ext
        rw [ht]; simp
      -- some base is replaced exactly if a round of the loop says so
      have hany : xs.any (·.2) = true ↔ ∃ k ∈ (S0.info c).bases, Replaced A S0 o c k := by
        rw [List.any_eq_true]
        constructor
        · rintro ⟨x, hx, hx2⟩
          obtain ⟨i, hi⟩ := List.getElem?_of_mem hx
          have hil : i < (S0.info c).bases.length := by
            rw [← hx3.1]
            exact (List.getElem?_eq_some_iff.1 hi).1
          exact ⟨(S0.info c).bases[i], List.getElem_mem hil,
            (hx3.2 i _ x (List.getElem?_eq_getElem hil) hi).1.1 hx2⟩
        · rintro ⟨k, hk, hrep⟩
          obtain ⟨i, hi⟩ := List.getElem?_of_mem hk
          have hil : i < xs.length := by
            rw [hx3.1]
            exact (List.getElem?_eq_some_iff.1 hi).1
          exact ⟨xs[i], List.getElem_mem hil, (hx3.2 i k _ hi (List.getElem?_eq_getElem hil)).1.2 hrep⟩
      have hver : Version A S0 o ⟨S3.heap ++ [r], S3.dict, S3.alive⟩ b c S3.heap.length := by
        refine .mk b c _ (if xs.any (·.2) then xs.map (·.1) else []) hN (by simp) ?_ ?_ ?_ ?_ ?_ ?_ ?_ ?_
        · rw [hinfo, g1, info_append hS3.ext hc]
        · rw [hinfo, g4]
        · rw [hinfo]; exact g3
        · rw [hinfo, g2]; split <;> rfl
        · intro hno
          rw [if_neg]
          intro hy
          obtain ⟨k, hk, hrep⟩ := hany.1 hy
          exact hno k hk hrep
        · intro hy
          rw [if_pos (hany.2 hy)]
          simpa using hx3.1
        · intro i k k' hk hk' hrep
          split at hk'
          · rw [List.getElem?_map] at hk'
            cases hxi : xs[i]? with
            | none => rw [hxi] at hk'; cases hk'
            | some x =>
              rw [hxi] at hk'
              cases hk'
              have := hx3.2 i k x hk hxi
              refine this.2.1 ?_
              cases hx2 : x.2 with
              | false => rfl
              | true => exact absurd (this.1.1 hx2) hrep
          · simp at hk'
        · intro i k k' b' hk hk' hrep hA'
          split at hk'
          · rw [List.getElem?_map] at hk'
            cases hxi : xs[i]? with
            | none => rw [hxi] at hk'; cases hk'
            | some x =>
              rw [hxi] at hk'
              cases hk'
              have := hx3.2 i k x hk hxi
              exact (this.2.2 (this.1.2 hrep) b' hA').mono hgrow
          · simp at hk'
      have hbuild : Rely A S0 o V S3 ⟨S3.heap ++ [r], S3.dict, S3.alive⟩ := .apart hgrow fun _ => rfl
      refine ⟨hbuild, ?_⟩
      intro S4 hr4
      have hS4 := hr4.ok (hbuild.ok hS3)
      have hver4 := hver.mono hr4.ext
      have hstore : Rely A S0 o V S4 ⟨S4.heap, fun o' n' => if o' = o ∧ n' = (S0.info c).name then
          some (.cls S3.heap.length) else S4.dict o' n', S4.alive⟩ := by
        refine ⟨⟨[], by simp⟩, ?_, ?_⟩
        · intro m hm
          dsimp only
          split
          · exact nofun
          · exact hm
        · intro _
          refine ⟨hS4.ext, ?_, ?_, ?_⟩
          · intro m hm
            dsimp only
            rw [if_neg]
            · exact hS4.other m hm
            · rintro ⟨-, rfl⟩
              rw [hname] at hm
              exact hm ⟨b, c, hA⟩
          · intro m b' c' v hA' hv
            dsimp only at hv
            split at hv
            · rename_i hcase
              cases hv
              rw [hcase.2, hname, hA] at hA'
              cases hA'
              exact ⟨_, rfl, hver4.mono ⟨[], by simp⟩⟩
            · obtain ⟨w, rfl, hw⟩ := hS4.entry m b' c' v hA' hv
              exact ⟨w, rfl, hw.mono ⟨[], by simp⟩⟩
          · intro m v hv
            dsimp only
            rw [if_neg]
            · exact hS4.keep m v hv
            · rintro ⟨-, rfl⟩
              rw [hname, hV] at hv
              cases hv
      refine ⟨hstore, ?_⟩
      intro S5 hr5
      refine ⟨hver4.mono (hstore.trans hr5).ext, hr5.stay _ ?_⟩
      dsimp only
      rw [if_pos ⟨rfl, rfl⟩]
      exact nofun

/-- What `o.name` gives. -/
def GetQ (A : Attrs) (S0 : State) (o : Outer) (V : String → Option Val) (name : String) (S : State) :
    Except Err Val → Prop
  | .error _ => V name = none
  | .ok v => (∀ b c, A o name = some (.desc b c) → (∃ w, v = .cls w ∧ Version A S0 o S b c w) ∧ S.dict o name ≠ none) ∧
      ∀ u, V name = some u → v = u

theorem getP_wp (hR : Ready A S0 o) (n : Nat) {S : State} (name : String) (hS : Ok A S0 o V S) :
    WP (Rely A S0 o V) o (GetQ A S0 o V name) (getP A n o name) S := by
  refine WP.andThen Rely.refl Rely.trans (lookupP_wp name hS (fun S' b c hA hV hr => bindP_wp hR n (hr.ok hS) hA hV) hR.names)
    ?_ (fun _ _ h => h)
  intro S' d hr hQ
  have hV : d = none → V name = none := by
    intro hd
    cases hV : V name with
    | none => rfl
    | some u => rw [hQ.2.1 u hV] at hd; cases hd
  cases d with
  | none => exact fun _ _ => hV rfl
  | some v =>
    intro S'' hr'
    refine ⟨fun b c hA => ?_, fun u hu => ?_⟩
    · obtain ⟨⟨w, hw, hver⟩, h2⟩ := hQ.1 b c hA
      cases hw
      exact ⟨⟨w, rfl, hver.mono hr'.ext⟩, hr'.stay _ h2⟩
    · have := hQ.2.1 u hu
      cases this
      rfl

/-- And directly, unless something is to stay cached. -/
theorem directP_wp (hR : Ready A S0 o) (n : Nat) {S : State} (name : String) (hS : Ok A S0 o V S)
    (hV : ∀ m, V m = none) :
    WP (Rely A S0 o V) o (GetQ A S0 o V name) (directP A n o name) S := by
  unfold directP
  cases hA : A o name with
  | none => exact fun _ _ => hV _
  | some a =>
    cases a with
    | plain v =>
      exact fun _ _ => ⟨fun b c h => (by rw [hA] at h; cases h), fun u hu => by rw [hV] at hu; cases hu⟩
    | desc b c =>
      dsimp only
      refine WP.andThen Rely.refl Rely.trans (bindP_wp hR n hS hA (hV _)) ?_ (fun _ _ _ => hV _)
      intro S' w hr hQ S'' hr'
      refine ⟨fun b' c' hA' => ?_, fun u hu => by rw [hV] at hu; cases hu⟩
      rw [hA] at hA'
      cases hA'
      refine ⟨⟨w, rfl, hQ.1.mono hr'.ext⟩, hr'.stay _ ?_⟩
      rw [← (hR.names _ _ _ hA).2]
      exact hQ.2

/-! ### Schedules -/

/-- The inner classes of `o` are accessed as attributes of `o` only. -/
def Attributes (o : Outer) (acts : List Act) : Prop := ∀ name, Act.direct o name ∉ acts

/-- What is true between any two steps, whatever the schedule; the first `L` accesses are over. -/
structure Good (A : Attrs) (S0 : State) (o : Outer) (V : String → Option Val) (L : Nat) (W : Threads) : Prop where
  ok : Ok A S0 o V W.state
  each : ∀ i a, W.accesses[i]? = some a → a.outer = o →
    (i < L ∧ ∃ r, a.prog = .done r) ∨ WP (Rely A S0 o V) o (GetQ A S0 o V a.name) a.prog W.state

theorem next_apart {α : Type} {o' : Outer} (ho : o ≠ o') (p : Prog α) (S : State) :
    (∃ t, (p.next o' S).2.heap = S.heap ++ t) ∧ ∀ n, (p.next o' S).2.dict o n = S.dict o n := by
  cases p with
  | done r => exact ⟨⟨[], by simp [Prog.next]⟩, fun _ => rfl⟩
  | read n k => exact ⟨⟨[], by simp [Prog.next]⟩, fun _ => rfl⟩
  | look c k => exact ⟨⟨[], by simp [Prog.next]⟩, fun _ => rfl⟩
  | build b c xs k =>
    simp only [Prog.next]
    cases newClass o' b c S xs with
    | none => exact ⟨⟨[], by simp⟩, fun _ => rfl⟩
    | some r => exact ⟨⟨[r], rfl⟩, fun _ => rfl⟩
  | store n w k =>
    refine ⟨⟨[], by simp [Prog.next]⟩, fun m => ?_⟩
    simp only [Prog.next]
    rw [if_neg fun e => ho e.1]

theorem act_good (hR : Ready A S0 o) {n L : Nat} {W : Threads} (hL : L ≤ W.accesses.length) (h : Good A S0 o V L W)
    (x : Act) (hx : (∀ m, V m = none) ∨ ∀ name, x ≠ .direct o name) : Good A S0 o V L (W.act A n x) ∧ L ≤ (W.act A n x).accesses.length := by
  cases x with
  | start o' name =>
    refine ⟨⟨h.ok, ?_⟩, by simp only [Threads.act]; simp; omega⟩
    intro i a ha ho
    simp only [Threads.act] at ha
    by_cases hi : i < W.accesses.length
    · rw [List.getElem?_append_left hi] at ha
      exact h.each i a ha ho
    · rw [List.getElem?_append_right (by omega)] at ha
      have : i - W.accesses.length = 0 := by
        have := (List.getElem?_eq_some_iff.1 ha).1
        simpa using this
      rw [this] at ha
      cases ha
      dsimp only at ho ⊢
      subst ho
      exact .inr (getP_wp hR n name h.ok)
  | direct o' name =>
    refine ⟨⟨h.ok, ?_⟩, by simp only [Threads.act]; simp; omega⟩
    intro i a ha ho
    simp only [Threads.act] at ha
    by_cases hi : i < W.accesses.length
    · rw [List.getElem?_append_left hi] at ha
      exact h.each i a ha ho
    · rw [List.getElem?_append_right (by omega)] at ha
      have : i - W.accesses.length = 0 := by
        have := (List.getElem?_eq_some_iff.1 ha).1
        simpa using this
      rw [this] at ha
      cases ha
      dsimp only at ho ⊢
      subst ho
      exact .inr (directP_wp hR n name h.ok (hx.resolve_right fun hx => hx name rfl))
  | die o' =>
    have hr : Rely A S0 o V W.state (W.act A n (.die o')).state := .apart ⟨[], by simp [Threads.act]⟩ fun _ => rfl
    refine ⟨⟨hr.ok h.ok, ?_⟩, hL⟩
    intro i a ha ho
    rcases h.each i a ha ho with h1 | h1
    · exact .inl h1
    · exact .inr (WP.stable (R := Rely A S0 o V) Rely.trans h1 hr)
  | go j =>
    simp only [Threads.act]
    cases hj : W.accesses[j]? with
    | none => exact ⟨h, hL⟩
    | some a =>
      dsimp only
      refine ⟨?_, by simpa using hL⟩
      have hr : Rely A S0 o V W.state (a.prog.next a.outer W.state).2 := by
        by_cases ho : o = a.outer
        · rcases h.each j a hj ho.symm with ⟨_, r, hd⟩ | h1
          · rw [hd]; exact .refl _
          · rw [← ho]; exact (h1.next Rely.refl).1
        · obtain ⟨h1, h2⟩ := next_apart ho a.prog W.state
          exact .apart h1 h2
      refine ⟨hr.ok h.ok, ?_⟩
      intro i a' ha' ho'
      dsimp only at ha' ⊢
      by_cases hij : j = i
      · subst hij
        rw [List.getElem?_set_self (List.getElem?_eq_some_iff.1 hj).1] at ha'
        cases ha'
        dsimp only at ho' ⊢
        rcases h.each j a hj ho' with ⟨hl, r, hd⟩ | h1
        · exact .inl ⟨hl, r, by rw [hd]; rfl⟩
        · rw [ho']
          exact .inr (h1.next Rely.refl).2
      · rw [List.getElem?_set_ne hij] at ha'
        rcases h.each i a' ha' ho' with h1 | h1
        · exact .inl h1
        · exact .inr (WP.stable (R := Rely A S0 o V) Rely.trans h1 hr)

theorem run_good (hR : Ready A S0 o) {n L : Nat} : ∀ (acts : List Act) {W : Threads}, L ≤ W.accesses.length →
    ((∀ m, V m = none) ∨ Attributes o acts) → Good A S0 o V L W → Good A S0 o V L (W.run A n acts)
  | [], _, _, _, h => h
  | x :: acts, W, hL, hx, h =>
    have := act_good hR (n := n) hL h x (hx.imp id fun hx name e => hx name (e ▸ .head _))
    run_good hR acts this.2 (hx.imp id fun hx name e => hx name (.tail _ e)) this.1

theorem Ready.ok (hR : Ready A S0 o) : Ok A S0 o (fun _ => none) S0 :=
  ⟨⟨[], by simp⟩, fun _ _ => rfl, fun n b c v hA hv => by rw [hR.empty n ⟨b, c, hA⟩] at hv; (cases hv), fun _ _ e => by cases e⟩

theorem start_good (hR : Ready A S0 o) (n : Nat) (acts : List Act) :
    Good A S0 o (fun _ => none) 0 ((⟨S0, []⟩ : Threads).run A n acts) :=
  run_good hR acts (Nat.zero_le _) (.inl fun _ => rfl) ⟨hR.ok, fun i a h => by simp at h⟩

/-- A result of an access is as it should be. -/
theorem Good.result {L : Nat} {W : Threads} (h : Good A S0 o V L W) {i : Nat} {a : Access} {v : Except Err Val}
    (ha : W.accesses[i]? = some a) (hi : L ≤ i) (ho : a.outer = o) (hv : a.result = some v) :
    GetQ A S0 o V a.name W.state v := by
  rcases h.each i a ha ho with ⟨hl, _⟩ | h1
  · omega
  · unfold Access.result at hv
    cases hp : a.prog with
    | done r =>
      rw [hp] at hv h1
      dsimp only at hv
      cases hv
      exact h1 W.state (.refl _)
    | read => rw [hp] at hv; cases hv
    | look => rw [hp] at hv; cases hv
    | build => rw [hp] at hv; cases hv
    | store => rw [hp] at hv; cases hv

end Big.BoundInner
