import Verif.Multisplit.ArgsModel
/-! # C74: what may be passed to multisplit and multistrip as separators -/
namespace Big.MS
variable {α : Type} [DecidableEq α]

/-! ### Specification -/

/-- An element of the type of `s`: str or bytes. -/
def Fits (K : Kind α) (l : List Elem) (seps : List (List α)) : Prop :=
  l.map K.elem = seps.map some

/-- The separators an argument stands for, by the documentation: None the whitespace of the type of
`s`, a str or bytes its characters, an iterable of the type of `s` its elements. -/
inductive StandsFor (K : Kind α) : SepArg → List (List α) → Prop
  | none : StandsFor K .none K.default
  | text {a t} : K.text a = some t → StandsFor K a (t.map (fun c => [c]))
  | coll {l seps} : Fits K l seps → StandsFor K (.coll l) seps
  | iter {l seps} : Fits K l seps → StandsFor K (.iter l) seps

/-- Is the argument an iterator, which can be iterated over only once? -/
def SepArg.isIter : SepArg → Bool
  | .iter _ => true
  | _ => false

/-- One of the two kinds of text. -/
inductive Proper : {α : Type} → Kind α → Prop
  | str : Proper strKind
  | bytes : Proper bytesKind

/-! ### Proofs -/

theorem checkElems_ok {K : Kind α} : ∀ {l : List Elem} {seps : List (List α)},
    checkElems K l = .ok seps ↔ Fits K l seps
  | [], seps => by
    cases seps <;> simp [checkElems, Fits]
  | o :: l, seps => by
    unfold checkElems
    cases ho : K.elem o with
    | none => cases seps <;> simp [Fits, ho]
    | some t =>
      cases seps with
      | nil => cases h : checkElems K l <;> simp [Fits, Except.map]
      | cons u seps =>
        have ih := checkElems_ok (K := K) (l := l) (seps := seps)
        unfold Fits at ih
        cases h : checkElems K l with
        | error e =>
          rw [h] at ih
          simp [Fits, Except.map, ho]
          intro _ hx; exact absurd (ih.2 hx) (by simp)
        | ok x =>
          rw [h] at ih
          simp only [Except.map, Except.ok.injEq, List.cons.injEq] at ih ⊢
          simp [Fits, ho, ih]

theorem checkElems_err {K : Kind α} {l : List Elem} {e : CallErr} (h : checkElems K l = .error e) :
    e = .typeError ∧ ∃ o ∈ l, K.elem o = none := by
  induction l with
  | nil => simp [checkElems] at h
  | cons o l ih =>
    unfold checkElems at h
    cases ho : K.elem o with
    | none => rw [ho] at h; simp at h; exact ⟨h.symm, o, by simp, ho⟩
    | some t =>
      rw [ho] at h
      cases hl : checkElems K l with
      | error e' =>
        rw [hl] at h
        simp [Except.map] at h
        subst h
        obtain ⟨h1, o', h2, h3⟩ := ih hl
        exact ⟨h1, o', by simp [h2], h3⟩
      | ok x => rw [hl] at h; simp [Except.map] at h

theorem proper_facts {K : Kind α} (hK : Proper K) :
    K.default ≠ [] ∧ K.text .none = none ∧ K.foreign .none = false ∧
    (∀ a t, K.text a = some t → K.foreign a = false) ∧
    (∀ l, K.text (.coll l) = none ∧ K.foreign (.coll l) = false) ∧
    (∀ l, K.text (.iter l) = none ∧ K.foreign (.iter l) = false) ∧
    (∀ b, K.text (.plain b) = none ∧ K.foreign (.plain b) = false) := by
  cases hK
  · refine ⟨by decide +kernel, rfl, rfl, ?_, fun _ => ⟨rfl, rfl⟩, fun _ => ⟨rfl, rfl⟩,
      fun _ => ⟨rfl, rfl⟩⟩
    intro a t h; cases a <;> first | rfl | simp [strKind] at h
  · refine ⟨by decide +kernel, rfl, rfl, ?_, fun _ => ⟨rfl, rfl⟩, fun _ => ⟨rfl, rfl⟩,
      fun _ => ⟨rfl, rfl⟩⟩
    intro a t h; cases a <;> first | rfl | simp [bytesKind] at h

theorem usedSeps_of {K : Kind α} (hK : Proper K) {a : SepArg} {seps : List (List α)}
    (h : StandsFor K a seps) (hne : seps ≠ []) (hi : a.isIter = false) : usedSeps K a = .ok seps := by
  obtain ⟨f1, f2, f3, f4, f5, f6, f7⟩ := proper_facts hK
  cases h with
  | none => simp [usedSeps, f2, f3]
  | @text _ t h =>
    have ht : t ≠ [] := by rintro rfl; simp at hne
    simp [usedSeps, f4 _ _ h, h, ht]
  | @coll l _ h =>
    have hl : l ≠ [] := by
      rintro rfl
      have := congrArg List.length h
      simp at this
      exact hne (List.length_eq_zero_iff.1 this.symm)
    simp [usedSeps, f5 l, hl, checkElems_ok.2 h]
  | iter => simp [SepArg.isIter] at hi

/-- C102, for str and for bytes: whatever stands for the separators, if it can be iterated over more
than once, multisplit does what it does with the tuple of them. For iterators this is
false (`C102_iterator_loses_separators`). -/
theorem C102_multisplit_separators {K : Kind α} (hK : Proper K) {a : SepArg}
    {seps : List (List α)} (h : StandsFor K a seps) (hne : seps ≠ []) (hi : a.isIter = false)
    (s : List α) (keep : Keep) (maxsplit : Option Int) (reverse separate : Bool) (strip : Strip) :
    multisplitCall K s a keep maxsplit reverse separate strip =
      (multisplit K.nl K.cache s seps keep maxsplit reverse separate strip).mapError
        (fun _ => .valueError) := by
  unfold multisplitCall
  rw [usedSeps_of hK h hne hi]
  cases seps with
  | nil => exact absurd rfl hne
  | cons w seps => rfl

/-- C74: an argument that stands for no separators, or for nothing, is refused, whatever the other
arguments: ValueError if it is empty or false, TypeError otherwise; in particular TypeError for str
separators of bytes, bytes separators of a str, or an iterable with any element not of the type of
`s`. -/
theorem C74_multisplit_refuses {K : Kind α} (hK : Proper K) (a : SepArg)
    (h : ∀ seps, StandsFor K a seps → seps = []) (hi : a ≠ .iter []) (s : List α) (keep : Keep)
    (maxsplit : Option Int) (reverse separate : Bool) (strip : Strip) :
    (StandsFor K a [] ∨ a = .plain false →
      multisplitCall K s a keep maxsplit reverse separate strip = .error .valueError) ∧
    (¬ (StandsFor K a [] ∨ a = .plain false) →
      multisplitCall K s a keep maxsplit reverse separate strip = .error .typeError) := by
  classical
  obtain ⟨f1, f2, f3, f4, f5, f6, f7⟩ := proper_facts hK
  have key : usedSeps K a =
      .error (if StandsFor K a [] ∨ a = .plain false then .valueError else .typeError) := by
    cases ht : K.text a with
    | some t =>
      have := h _ (.text ht)
      have ht0 : t = [] := by simpa using this
      subst ht0
      have hst : StandsFor K a [] := .text (t := []) ht
      simp [usedSeps, f4 _ _ ht, ht, hst]
    | none =>
      have nst : (∀ l, a ≠ .coll l) → (∀ l, a ≠ .iter l) → a ≠ .none → ¬ StandsFor K a [] := by
        intro n1 n2 n3 hs
        generalize hz : ([] : List (List α)) = z at hs
        cases hs with
        | none => exact n3 rfl
        | text h' => rw [ht] at h'; simp at h'
        | coll => exact n1 _ rfl
        | iter => exact n2 _ rfl
      cases a with
      | none => exact absurd (h _ .none) f1
      | str t =>
        have : ¬ StandsFor K (.str t) [] := nst (by simp) (by simp) (by simp)
        simp only [usedSeps, ht, this, reduceCtorEq, or_self, if_false]
        split <;> rfl
      | bytes t =>
        have : ¬ StandsFor K (.bytes t) [] := nst (by simp) (by simp) (by simp)
        simp only [usedSeps, ht, this, reduceCtorEq, or_self, if_false]
        split <;> rfl
      | plain b =>
        have : ¬ StandsFor K (.plain b) [] := nst (by simp) (by simp) (by simp)
        cases b <;> simp [usedSeps, f7, this]
      | coll l =>
        cases l with
        | nil =>
          have : StandsFor K (.coll []) [] := .coll (by simp [Fits])
          simp [usedSeps, f5, this]
        | cons o l =>
          have hn : ¬ StandsFor K (.coll (o :: l)) [] := by
            intro hs
            generalize hz : ([] : List (List α)) = z at hs
            cases hs with
            | text h' => rw [ht] at h'; simp at h'
            | coll h' => subst hz; simp [Fits] at h'
          simp only [usedSeps, f5, hn, reduceCtorEq, or_self, if_false]
          cases hc : checkElems K (o :: l) with
          | error e => simp [(checkElems_err hc).1]
          | ok x =>
            have := h _ (.coll (checkElems_ok.1 hc))
            subst this
            exact absurd (StandsFor.coll (checkElems_ok.1 hc)) hn
      | iter l =>
        cases l with
        | nil => exact absurd rfl hi
        | cons o l =>
          have hn : ¬ StandsFor K (.iter (o :: l)) [] := by
            intro hs
            generalize hz : ([] : List (List α)) = z at hs
            cases hs with
            | text h' => rw [ht] at h'; simp at h'
            | iter h' => subst hz; simp [Fits] at h'
          simp only [usedSeps, f6, hn, reduceCtorEq, or_self, if_false]
          cases hc : checkElems K (o :: l) with
          | error e => simp [(checkElems_err hc).1, Except.map]
          | ok x =>
            have := h _ (.iter (checkElems_ok.1 hc))
            subst this
            exact absurd (StandsFor.iter (checkElems_ok.1 hc)) hn
  unfold multisplitCall
  rw [key]
  exact ⟨fun hx => by rw [if_pos hx], fun hx => by rw [if_neg hx]⟩

/-- Each character apart, between two empty strings. -/
theorem splitEmpty_all (s : List α) :
    splitEmpty false 0 s = [] :: (s.map (fun c => [c]) ++ [[]]) := by
  have : ∀ s : List α, splitEmptyFrom false none s = s.map (fun c => [c]) ++ [[]] := by
    intro s
    induction s with
    | nil => rfl
    | cons c s ih => simp [splitEmptyFrom, ih]
  simp [splitEmpty, this]

/-- C102 is false of the code for iterators, such as generators: checking the elements uses the iterator
up, and the separators are not seen again. Whatever they are, the string is cut up into its
characters. -/
theorem C102_iterator_loses_separators {K : Kind α} (hK : Proper K) {l : List Elem}
    {seps : List (List α)} (h : Fits K l seps) (s : List α) (separate : Bool) :
    multisplitCall K s (.iter l) .no (some (-1)) false separate .no =
      .ok ((([] :: (s.map (fun c => [c]) ++ [[]])) : List (List α)).map .str) := by
  obtain ⟨f1, f2, f3, f4, f5, f6, f7⟩ := proper_facts hK
  have : usedSeps K (.iter l) = .ok [] := by
    simp [usedSeps, f6, checkElems_ok.2 h, Except.map]
  unfold multisplitCall
  rw [this]
  simp [msGenEmpty, emit, splitEmpty_all]

theorem splitEmptyFrom_lim : ∀ (n : Nat) (s : List α),
    splitEmptyFrom false (some n) s = (s.take n).map (fun c => [c]) ++ [s.drop n]
  | n, [] => by simp [splitEmptyFrom]
  | 0, c :: s => by simp [splitEmptyFrom]
  | n + 1, c :: s => by simp [splitEmptyFrom, splitEmptyFrom_lim n s]

/-- The same with maxsplit: one split before the first character, the others after the first characters, and none at
all if maxsplit is 0. -/
theorem C102_iterator_loses_separators_maxsplit {K : Kind α} (hK : Proper K) {l : List Elem}
    {seps : List (List α)} (h : Fits K l seps) (s : List α) (separate : Bool) :
    multisplitCall K s (.iter l) .no (some 0) false separate .no = .ok [.str s] ∧
    ∀ n : Nat, multisplitCall K s (.iter l) .no (some (n + 1)) false separate .no =
      .ok ((([] :: ((s.take n).map (fun c => [c]) ++ [s.drop n])) : List (List α)).map .str) := by
  obtain ⟨f1, f2, f3, f4, f5, f6, f7⟩ := proper_facts hK
  have : usedSeps K (.iter l) = .ok [] := by
    simp [usedSeps, f6, checkElems_ok.2 h, Except.map]
  constructor
  · unfold multisplitCall
    rw [this]
    simp [msGenEmpty]
  · intro n
    unfold multisplitCall
    rw [this]
    have h1 : ((n : Int) + 1) ≠ 0 := by omega
    have h2 : ((n : Int) + 1) ≠ -1 := by omega
    have h3 : ((n : Int) + 1).toNat = n + 1 := by omega
    simp [msGenEmpty, emit, splitEmpty, h1, h2, h3, splitEmptyFrom_lim]

/-- The same in one example: `multisplit("a,b", (",",))` and `multisplit("a,b", iter((",",)))`. -/
theorem C102_counterexample_iterator :
    multisplitCall strKind "a,b".toList (.coll [.str [',']]) .no (some (-1)) false false .no =
      .ok [.str ['a'], .str ['b']] ∧
    multisplitCall strKind "a,b".toList (.iter [.str [',']]) .no (some (-1)) false false .no =
      .ok [.str [], .str ['a'], .str [','], .str ['b'], .str []] := by
  constructor <;> decide +kernel

theorem go_ok {K : Kind α} : ∀ {l : List Elem} {seps : List (List α)},
    stripSeps.go K l = .ok seps ↔ Fits K l seps ∧ [] ∉ seps
  | [], seps => by
    cases seps <;> simp [stripSeps.go, Fits]
  | o :: l, seps => by
    unfold stripSeps.go
    cases ho : K.elem o with
    | none => cases seps <;> simp [Fits, ho]
    | some t =>
      by_cases ht : t = []
      · subst ht
        cases seps with
        | nil => simp [Fits]
        | cons u seps =>
          simp only [List.isEmpty_nil, if_true, reduceCtorEq, Fits, List.map_cons, ho,
            List.cons.injEq, Option.some.injEq, List.mem_cons, not_or, false_iff]
          rintro ⟨⟨rfl, _⟩, h, _⟩
          exact h rfl
      · have hte : t.isEmpty = false := by simpa using ht
        simp only [hte, Bool.false_eq_true, if_false]
        cases seps with
        | nil => cases h : stripSeps.go K l <;> simp [Fits, Except.map]
        | cons u seps =>
          have ih := go_ok (K := K) (l := l) (seps := seps)
          unfold Fits at ih
          cases h : stripSeps.go K l with
          | error e =>
            rw [h] at ih
            simp only [Except.map, reduceCtorEq, false_iff] at ih ⊢
            simp only [Fits, List.map_cons, ho, List.cons.injEq, Option.some.injEq, List.mem_cons,
              not_or]
            rintro ⟨⟨_, h1⟩, _, h2⟩
            exact ih ⟨h1, h2⟩
          | ok x =>
            rw [h] at ih
            simp only [Except.map, Except.ok.injEq, List.cons.injEq] at ih ⊢
            simp only [Fits, List.map_cons, ho, List.cons.injEq, Option.some.injEq, List.mem_cons,
              not_or]
            constructor
            · rintro ⟨rfl, rfl⟩
              obtain ⟨i1, i2⟩ := ih.1 rfl
              exact ⟨⟨rfl, i1⟩, fun e => ht e.symm, i2⟩
            · rintro ⟨⟨rfl, h1⟩, _, h2⟩
              exact ⟨rfl, ih.2 ⟨h1, h2⟩⟩

/-- C74: multistrip, which keeps what it checked, takes any iterable, iterators included. (It does not
take None.) -/
theorem C74_multistrip_separators {K : Kind α} (hK : Proper K) {a : SepArg} {seps : List (List α)}
    (h : StandsFor K a seps) (ha : a ≠ .none) (hne : seps ≠ []) (he : [] ∉ seps) (s : List α)
    (left right : Bool) :
    multistripCall K s a left right =
      (multistrip K.nl s seps left right).mapError (fun _ => .valueError) := by
  obtain ⟨f1, f2, f3, f4, f5, f6, f7⟩ := proper_facts hK
  have key : stripSeps K a = .ok seps := by
    cases h with
    | none => exact absurd rfl ha
    | @text _ t h =>
      have ht : t ≠ [] := by rintro rfl; simp at hne
      simp [stripSeps, f4 _ _ h, h, ht]
    | @coll l _ h =>
      have hl : l ≠ [] := by
        rintro rfl
        have := congrArg List.length h
        simp at this
        exact hne (List.length_eq_zero_iff.1 this.symm)
      simp [stripSeps, f5 l, hl, go_ok.2 ⟨h, he⟩]
    | @iter l _ h => simp [stripSeps, f6 l, go_ok.2 ⟨h, he⟩]
  unfold multistripCall multistrip
  rw [key]
  simp only [hne, he, if_false]
  split <;> simp [Except.mapError]

theorem go_err {K : Kind α} : ∀ {l : List Elem} {e : CallErr}, stripSeps.go K l = .error e →
    (e = .valueError ∧ ∃ o ∈ l, K.elem o = some []) ∨ (e = .typeError ∧ ∃ o ∈ l, K.elem o = none)
  | [], e, h => by simp [stripSeps.go] at h
  | o :: l, e, h => by
    unfold stripSeps.go at h
    cases ho : K.elem o with
    | none => rw [ho] at h; simp at h; exact .inr ⟨h.symm, o, by simp, ho⟩
    | some t =>
      rw [ho] at h
      by_cases ht : t = []
      · subst ht; simp at h; exact .inl ⟨h.symm, o, by simp, ho⟩
      · have hte : t.isEmpty = false := by simpa using ht
        simp only [hte, Bool.false_eq_true, if_false] at h
        cases hl : stripSeps.go K l with
        | error e' =>
          rw [hl] at h
          simp [Except.map] at h
          subst h
          rcases go_err hl with ⟨h1, o', h2, h3⟩ | ⟨h1, o', h2, h3⟩
          · exact .inl ⟨h1, o', by simp [h2], h3⟩
          · exact .inr ⟨h1, o', by simp [h2], h3⟩
        | ok x => rw [hl] at h; simp [Except.map] at h

/-- Does the argument have this element? -/
def SepArg.has : SepArg → Elem → Prop
  | .coll l, o => o ∈ l
  | .iter l, o => o ∈ l
  | _, _ => False

/-- C74: multistrip refuses what stands for no separators (an iterator that yields none apart), for an
empty separator, or for nothing. An argument that is false or has only elements of the right type gives
ValueError; one that is true and has no empty separator gives TypeError. (If it has both an empty
separator and an element of the wrong type, the first of them decides.) -/
theorem C74_multistrip_refuses {K : Kind α} (hK : Proper K) (a : SepArg)
    (h : ∀ seps, StandsFor K a seps → a ≠ .none → seps = [] ∨ [] ∈ seps) (hi : a ≠ .iter [])
    (s : List α) (left right : Bool) :
    (multistripCall K s a left right = .error .valueError ∨
      multistripCall K s a left right = .error .typeError) ∧
    ((∃ seps, StandsFor K a seps) ∨ a = .plain false →
      multistripCall K s a left right = .error .valueError) ∧
    ((¬ ∃ seps, StandsFor K a seps) → a ≠ .plain false → (∀ o, a.has o → K.elem o ≠ some []) →
      multistripCall K s a left right = .error .typeError) := by
  obtain ⟨f1, f2, f3, f4, f5, f6, f7⟩ := proper_facts hK
  have fitsElem : ∀ {l seps}, Fits K l seps → ∀ o ∈ l, K.elem o ≠ none := by
    intro l seps hf o ho hn
    have : none ∈ l.map K.elem := List.mem_map.2 ⟨o, ho, hn⟩
    rw [hf] at this
    simp at this
  have key : (∃ e, stripSeps K a = .error e) ∧
      ((∃ seps, StandsFor K a seps) ∨ a = .plain false → stripSeps K a = .error .valueError) ∧
      ((¬ ∃ seps, StandsFor K a seps) → a ≠ .plain false → (∀ o, a.has o → K.elem o ≠ some []) →
        stripSeps K a = .error .typeError) := by
    cases ht : K.text a with
    | some t =>
      have hst := StandsFor.text ht
      have h0 : t = [] := by
        by_cases h0 : t = []
        · exact h0
        · rcases h _ hst (by rintro rfl; rw [f2] at ht; simp at ht) with hx | hx
          · simpa using hx
          · simp at hx
      subst h0
      have : stripSeps K a = .error .valueError := by simp [stripSeps, f4 _ _ ht, ht]
      exact ⟨⟨_, this⟩, fun _ => this, fun hn => absurd ⟨_, hst⟩ hn⟩
    | none =>
      have nst : (∀ l, a ≠ .coll l) → (∀ l, a ≠ .iter l) → a ≠ .none →
          ¬ ∃ seps, StandsFor K a seps := by
        rintro n1 n2 n3 ⟨z, hs⟩
        cases hs with
        | none => exact n3 rfl
        | text h' => rw [ht] at h'; simp at h'
        | coll => exact n1 _ rfl
        | iter => exact n2 _ rfl
      cases a with
      | none =>
        have : stripSeps K .none = .error .valueError := by simp [stripSeps, f2, f3]
        exact ⟨⟨_, this⟩, fun _ => this, fun hn => absurd ⟨_, .none⟩ hn⟩
      | str t =>
        have : stripSeps K (.str t) = .error .typeError := by
          unfold stripSeps; rw [ht]; split <;> rfl
        exact ⟨⟨_, this⟩, fun hx => absurd hx (by simp [nst (by simp) (by simp) (by simp)]),
          fun _ _ _ => this⟩
      | bytes t =>
        have : stripSeps K (.bytes t) = .error .typeError := by
          unfold stripSeps; rw [ht]; split <;> rfl
        exact ⟨⟨_, this⟩, fun hx => absurd hx (by simp [nst (by simp) (by simp) (by simp)]),
          fun _ _ _ => this⟩
      | plain b =>
        have hn := nst (by simp) (by simp) (by simp)
        cases b
        · have : stripSeps K (.plain false) = .error .valueError := by simp [stripSeps, f7]
          exact ⟨⟨_, this⟩, fun _ => this, fun _ hx => absurd rfl hx⟩
        · have : stripSeps K (.plain true) = .error .typeError := by simp [stripSeps, f7]
          exact ⟨⟨_, this⟩, fun hx => absurd hx (by simp [hn]), fun _ _ _ => this⟩
      | coll l =>
        by_cases hl : l = []
        · subst hl
          have : stripSeps K (.coll []) = .error .valueError := by simp [stripSeps, f5]
          exact ⟨⟨_, this⟩, fun _ => this, fun hn => absurd ⟨[], .coll rfl⟩ hn⟩
        · have hs : stripSeps K (.coll l) = stripSeps.go K l := by simp [stripSeps, f5, hl]
          rw [hs]
          cases hg : stripSeps.go K l with
          | ok seps =>
            obtain ⟨g1, g2⟩ := go_ok.1 hg
            rcases h _ (.coll g1) (by simp) with rfl | hx
            · have := congrArg List.length g1
              simp at this
              exact absurd this hl
            · exact absurd hx g2
          | error e =>
            refine ⟨⟨_, rfl⟩, ?_, ?_⟩
            · rintro (⟨seps, hst⟩ | hx)
              · rcases go_err hg with ⟨rfl, _⟩ | ⟨_, o, h1, h2⟩
                · rfl
                · cases hst with
                  | text h' => rw [ht] at h'; simp at h'
                  | coll h' => exact absurd h2 (fitsElem h' o h1)
              · simp at hx
            · intro _ _ hne
              rcases go_err hg with ⟨_, o, h1, h2⟩ | ⟨rfl, _⟩
              · exact absurd h2 (hne o h1)
              · rfl
      | iter l =>
        have hs : stripSeps K (.iter l) = stripSeps.go K l := by simp [stripSeps, f6]
        rw [hs]
        cases hg : stripSeps.go K l with
        | ok seps =>
          obtain ⟨g1, g2⟩ := go_ok.1 hg
          rcases h _ (.iter g1) (by simp) with rfl | hx
          · have := congrArg List.length g1
            simp at this
            exact absurd (by rw [this]) hi
          · exact absurd hx g2
        | error e =>
          refine ⟨⟨_, rfl⟩, ?_, ?_⟩
          · rintro (⟨seps, hst⟩ | hx)
            · rcases go_err hg with ⟨rfl, _⟩ | ⟨_, o, h1, h2⟩
              · rfl
              · cases hst with
                | text h' => rw [ht] at h'; simp at h'
                | iter h' => exact absurd h2 (fitsElem h' o h1)
            · simp at hx
          · intro _ _ hne
            rcases go_err hg with ⟨_, o, h1, h2⟩ | ⟨rfl, _⟩
            · exact absurd h2 (hne o h1)
            · rfl
  have call : ∀ e, stripSeps K a = .error e → multistripCall K s a left right = .error e := by
    intro e he; unfold multistripCall; rw [he]
  obtain ⟨⟨e, k1⟩, k2, k3⟩ := key
  refine ⟨?_, fun hx => call _ (k2 hx), fun h1 h2 h3 => call _ (k3 h1 h2 h3)⟩
  cases e
  · exact .inl (call _ k1)
  · exact .inr (call _ k1)

/-- C102 is false of the code for an iterator that yields nothing: it is not refused, and a newline at
the end is stripped: `multistrip("x\n", iter(()))` is "x". -/
theorem C102_counterexample_empty_iterator :
    multistripCall strKind "x\n".toList (.iter []) true true = .ok ['x'] ∧
    multistripCall strKind "x\n".toList (.coll []) true true = .error .valueError := by
  constructor <;> decide +kernel

/-- C74: what None stands for is the whitespace of the type of `s`, with CR LF; an element counts as a
separator iff it is of the type of `s`, and then it stands for itself; likewise an argument that is one
str or bytes; and `$` knows the newline of that type. -/
theorem C74_kinds :
    (Lists strKind.default true PySpace ∧ ListsBytes bytesKind.default true ByteSpace) ∧
    (∀ o t, strKind.elem o = some t ↔ o = .str t) ∧
    (∀ o t, bytesKind.elem o = some t ↔ o = .bytes t) ∧
    (∀ a t, strKind.text a = some t ↔ a = .str t) ∧
    (∀ a t, bytesKind.text a = some t ↔ a = .bytes t) ∧
    (∀ a, strKind.foreign a = true ↔ ∃ t, a = .bytes t) ∧
    (∀ a, bytesKind.foreign a = true ↔ ∃ t, a = .str t) ∧
    strKind.nl.toNat = 10 ∧ bytesKind.nl.toNat = 10 ∧
    CacheOK strKind.cache ∧ CacheOK bytesKind.cache := by
  refine ⟨⟨C72_str_whitespace_tables.1, C72_bytes_tables.1⟩, ?_, ?_, ?_, ?_, ?_, ?_, rfl, rfl,
    C72_reversed_tables.1, C72_reversed_tables.2⟩
  · intro o t; cases o <;> simp [strKind]
  · intro o t; cases o <;> simp [bytesKind]
  · intro o t; cases o <;> simp [strKind]
  · intro o t; cases o <;> simp [bytesKind]
  · intro o; cases o <;> simp [strKind]
  · intro o; cases o <;> simp [bytesKind]

/-! ### Cases -/

example : StandsFor strKind (.str "ab".toList) [['a'], ['b']] := .text (t := "ab".toList) rfl
example : StandsFor bytesKind (.coll [.bytes [1, 2], .bytes [3]]) [[1, 2], [3]] := .coll rfl
example : multisplitCall bytesKind [1, 44, 2] (.bytes [44]) .yes (some (-1)) false true .no =
    .ok [.str [1, 44], .str [2]] := by decide +kernel
example : multisplitCall bytesKind [1, 44, 2] (.str [',']) .yes (some (-1)) false true .no =
    .error .typeError := by decide +kernel
example : multisplitCall strKind "a b\tc".toList .none .no (some (-1)) false true .no =
    .ok [.str ['a'], .str ['b'], .str ['c']] := by decide +kernel
example : multisplitCall strKind ['a'] (.coll [.str ['a'], .other]) .no (some (-1)) false true .no =
    .error .typeError := by decide +kernel

end Big.MS
