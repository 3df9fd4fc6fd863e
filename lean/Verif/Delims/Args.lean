import Verif.Delims.ArgsModel
import Verif.Delims.Cache
/-! # C122: Delimiter and split_delimiters take the documented arguments, and refuse anything else -/
namespace Big.SD
open Big.MS (CacheOK)

/-! ## Specification -/

/-- A Delimiter object that a program can have: one made by the constructor. -/
inductive Made : PyDelim → Prop
  | make {close escape multiline quoting d} (h : PyDelim.make (.inr close) escape multiline quoting = .ok d) : Made d
  | clone {d d' escape multiline quoting} (h : Made d) (h' : PyDelim.make (.inl d) escape multiline quoting = .ok d') :
      Made d'

/-- The delimiters that the argument `delimiters` stands for, according to the documentation: the default ones; or those
of a mapping from strings of the type of `s` to Delimiters with strings of the type of `s`. -/
def Documented (ks : Kind) (arg : TArg) (ds : Delims Char) : Prop :=
  ((arg = .omitted ∨ arg = .pyNone ∨ ∃ k items, arg = .mapping items ∧ items.Perm (typed k defaultDelims)) ∧ ds = defaultDelims) ∨
  arg = .mapping (typed ks ds)

/-- The open delimiters that `state` stands for. -/
def DocState (ks : Kind) (state : TState) (names : List (List Char)) : Prop :=
  (state = .falsy ∧ names = []) ∨
  (∃ s, state = .text ks s ∧ names = s.map fun c => [c]) ∨ (∃ k, state = .text k [] ∧ names = []) ∨
  state = .iter (names.map fun n => .obj (.ofKind ks n))

/-- A mapping has each key once, and the Delimiters in it were made by the constructor. -/
def Proper : TArg → Prop
  | .mapping items => (items.map (·.1)).Nodup ∧ ∀ x ∈ items, ∀ d, x.2 = .delim d → Made d
  | _ => True

/-! ## Lemmas -/

theorem text?_ofKind (k : Kind) (s : List Char) : (Obj.ofKind k s).text? k = some s := by cases k <;> rfl

theorem of_text? {k : Kind} {o : Obj} {s : List Char} (h : o.text? k = some s) : o = .ofKind k s := by
  cases k <;> cases o <;> first | (cases h; rfl) | cases h

theorem ofKind_inj {k : Kind} {s t : List Char} (h : Obj.ofKind k s = Obj.ofKind k t) : s = t := by
  cases k <;> (cases h; rfl)

/-- **C122**: a Delimiter that says it quotes has an escape, and one that does not has none; a false `multiline` goes with
quoting; a close delimiter is never a backslash. -/
theorem C122_delimiter {d : PyDelim} (h : Made d) : d.escape.bool = d.quoting ∧ (d.multiline = false → d.quoting = true) ∧
    d.close ≠ .str ['\\'] ∧ d.close ≠ .bytes ['\\'] := by
  induction h with
  | @make close escape multiline quoting d h =>
    unfold PyDelim.make at h
    dsimp only at h
    split at h
    · cases h
    split at h
    · cases h
    split at h
    · cases h
    rename_i h1 h2 h3
    cases h
    simp only [not_or] at h1
    simp only [bne_iff_ne, ne_eq, Decidable.not_not] at h2
    refine ⟨?_, ?_, h1.2, h1.1⟩
    · dsimp only
      cases he : escape.bool with
      | true => simp only [if_true]; rw [he] at h2 ⊢; exact h2
      | false =>
        rw [he] at h2
        simp only [Bool.false_eq_true, if_false]
        rw [← h2]
        cases close <;> rfl
    · dsimp only
      intro hm
      rw [hm] at h3
      simpa using h3
  | clone h h' ih =>
    unfold PyDelim.make at h'
    cases h'
    exact ih

/-- **C122**: exactly when Delimiter(...) is refused. -/
theorem C122_delimiter_iff (close escape : Obj) (multiline quoting : Bool) :
    (∃ d, PyDelim.make (.inr close) escape multiline quoting = .ok d) ↔
      close ≠ .str ['\\'] ∧ close ≠ .bytes ['\\'] ∧ escape.bool = quoting ∧ (multiline = false → quoting = true) := by
  unfold PyDelim.make
  dsimp only
  by_cases h1 : close = .bytes ['\\'] ∨ close = .str ['\\']
  · rw [if_pos h1]
    constructor
    · rintro ⟨d, h⟩; cases h
    · rintro ⟨h2, h3, _⟩; rcases h1 with h1 | h1 <;> contradiction
  · rw [if_neg h1]
    simp only [not_or] at h1
    cases escape.bool <;> cases quoting <;> cases multiline <;> simp [h1]

/-- **C122**: the attributes of a new Delimiter are the arguments; without quoting its escape is the empty string of the type of
`close`. -/
theorem C122_delimiter_value {k : Kind} {c : List Char} {escape : Obj} {multiline quoting : Bool} {d : PyDelim}
    (h : PyDelim.make (.inr (.ofKind k c)) escape multiline quoting = .ok d) :
    d = ⟨.ofKind k c, if quoting then escape else .ofKind k [], multiline, quoting⟩ := by
  unfold PyDelim.make at h
  dsimp only at h
  split at h
  · cases h
  split at h
  · cases h
  split at h
  · cases h
  rename_i h1 h2 h3
  cases h
  simp only [bne_iff_ne, ne_eq, Decidable.not_not] at h2
  rw [← h2]
  cases k <;> rfl

/-- **C122**: Delimiter(...) raises nothing but ValueError. Delimiter(close) alone makes a delimiter that nests, does not quote
and may go over lines, unless `close` is a backslash. -/
theorem C122_delimiter_defaults :
    (∀ (close : PyDelim ⊕ Obj) (escape : Obj) (multiline quoting : Bool) (e : ArgErr),
      PyDelim.make close escape multiline quoting = .error e → e = .valueError) ∧
    (∀ (k : Kind) (c : List Char), c ≠ ['\\'] →
      PyDelim.make (.inr (.ofKind k c)) = .ok ⟨.ofKind k c, .ofKind k [], true, false⟩) ∧
    ∀ k : Kind, PyDelim.make (.inr (.ofKind k ['\\'])) = .error .valueError := by
  refine ⟨?_, ?_, ?_⟩
  · intro close escape multiline quoting e h
    unfold PyDelim.make at h
    split at h
    · cases h
    · split at h
      · cases h; rfl
      split at h
      · cases h; rfl
      split at h
      · cases h; rfl
      · cases h
  · intro k c hc
    cases k <;> simp [PyDelim.make, Obj.ofKind, hc, Obj.bool]
  · intro k
    cases k <;> decide

/-- **C122**: two Delimiters are equal exactly if all their attributes are; equal ones have the same hash, so that they are the
same key of a dict; Delimiter(d), whatever the other arguments, and d.copy() are equal to d. -/
theorem C122_delimiter_equality :
    (∀ d e : PyDelim, d.eq e = true ↔
      d.close = e.close ∧ d.escape = e.escape ∧ d.quoting = e.quoting ∧ d.multiline = e.multiline) ∧
    (∀ (h : Obj → Nat) (hb : Bool → Nat) (d e : PyDelim), d.eq e = true → d.hash h hb = e.hash h hb) ∧
    (∀ d : PyDelim, ∃ e, d.copy = .ok e ∧ d.eq e = true) ∧
    ∀ (d : PyDelim) (escape : Obj) (multiline quoting : Bool), ∃ e, PyDelim.make (.inl d) escape multiline quoting = .ok e ∧
      d.eq e = true := by
  have h1 : ∀ d e : PyDelim, d.eq e = true ↔
      d.close = e.close ∧ d.escape = e.escape ∧ d.quoting = e.quoting ∧ d.multiline = e.multiline := by
    intro d e
    simp [PyDelim.eq, and_assoc]
  refine ⟨h1, ?_, ?_, ?_⟩
  · intro h hb d e he
    obtain ⟨a, b, c, d'⟩ := (h1 d e).1 he
    unfold PyDelim.hash
    rw [a, b, c, d']
  · intro d
    exact ⟨d, rfl, (h1 d d).2 ⟨rfl, rfl, rfl, rfl⟩⟩
  · intro d escape multiline quoting
    exact ⟨d, rfl, (h1 d d).2 ⟨rfl, rfl, rfl, rfl⟩⟩

/-- Two different ones, and a quoting one that is cloned. -/
example : (PyDelim.mk (.str [')']) (.str []) true false).eq ⟨.bytes [')'], .bytes [], true, false⟩ = false ∧
    (PyDelim.mk (.str ['x']) (.str ['\\']) false true).copy = .ok ⟨.str ['x'], .str ['\\'], false, true⟩ := by
  decide +kernel

theorem checkItem_ok {ks : Kind} {x : Obj × Val} {d} (h : checkItem ks x = .ok d) :
    x = (.ofKind ks d.1, .delim ⟨.ofKind ks d.2.close, .ofKind ks d.2.escape, d.2.multiline, d.2.quoting⟩) := by
  obtain ⟨k, v⟩ := x
  unfold checkItem at h
  dsimp only at h
  split at h
  · cases h
  · cases h
  rename_i k' dd hk
  split at h
  · cases h
  · cases h
  rename_i c e hc he
  have hx : (k, Val.delim dd) = (.ofKind ks k', .delim ⟨.ofKind ks c, .ofKind ks e, dd.multiline, dd.quoting⟩) := by
    rw [of_text? hk, ← of_text? hc, ← of_text? he]
  split at h <;> split at h <;> cases h <;> exact hx

theorem checkItems_ok {ks : Kind} : ∀ {items : List (Obj × Val)} {ds}, checkItems ks items = .ok ds → items = typed ks ds
  | [], ds, h => by cases h; rfl
  | x :: rest, ds, h => by
    unfold checkItems at h
    split at h
    · cases h
    rename_i d hd
    split at h
    · cases h
    rename_i ds' hds
    cases h
    rw [checkItem_ok hd, checkItems_ok hds]
    rfl

theorem checkItem_typed {ks : Kind} {d : List Char × Delim Char} (h : (!d.2.escape.isEmpty) = d.2.quoting) :
    checkItem ks (.ofKind ks d.1, .delim ⟨.ofKind ks d.2.close, .ofKind ks d.2.escape, d.2.multiline, d.2.quoting⟩)
      = .ok d := by
  unfold checkItem
  simp only [text?_ofKind]
  obtain ⟨k, c, e, m, q⟩ := d
  dsimp only at h ⊢
  cases q <;> cases he : e.isEmpty <;> simp_all

theorem ofKind_bool (k : Kind) (s : List Char) : (Obj.ofKind k s).bool = !s.isEmpty := by cases k <;> rfl

theorem checkItems_typed {ks : Kind} : ∀ {ds : Delims Char}, (∀ d ∈ ds, (!d.2.escape.isEmpty) = d.2.quoting) →
    checkItems ks (typed ks ds) = .ok ds
  | [], _ => rfl
  | d :: ds, h => by
    have h1 := checkItem_typed (ks := ks) (h d (by simp))
    have h2 := checkItems_typed (ks := ks) (fun x hx => h x (List.mem_cons_of_mem _ hx))
    show checkItems ks (_ :: typed ks ds) = _
    unfold checkItems
    rw [h1]
    dsimp only
    rw [h2]

/-- What the loop raises is a TypeError. -/
theorem checkItems_error {ks : Kind} : ∀ {items : List (Obj × Val)} {e}, (∀ x ∈ items, ∀ d, x.2 = .delim d → Made d) →
    checkItems ks items = .error e → e = .typeError
  | [], e, _, h => by cases h
  | x :: rest, e, hm, h => by
    unfold checkItems at h
    split at h
    · rename_i e' he
      cases h
      obtain ⟨k, v⟩ := x
      unfold checkItem at he
      dsimp only at he
      split at he
      · cases he; rfl
      · cases he; rfl
      rename_i k' dd hk
      split at he
      · cases he; rfl
      · cases he; rfl
      rename_i c e1 hc he1
      have hd := (C122_delimiter (hm (k, .delim dd) (by simp) dd rfl)).1
      rw [of_text? he1, ofKind_bool] at hd
      cases hq : dd.quoting <;> rw [hq] at hd he <;> cases hz : e1.isEmpty <;> simp_all
    · split at h
      · rename_i e' he
        cases h
        exact checkItems_error (fun x hx => hm x (List.mem_cons_of_mem _ hx)) he
      · cases h

theorem enterT_names (E : Env Char) (ks : Kind) (ds : Delims Char) : ∀ (names : List (List Char)) current stack,
    enterT E ks ds (names.map fun n => .obj (.ofKind ks n)) current stack =
      match enter E ds names current stack with
      | .ok r => .ok r
      | .error _ => .error .valueError
  | [], current, stack => rfl
  | n :: names, current, stack => by
    simp only [List.map_cons, enterT, text?_ofKind, enter]
    cases get E ds current n with
    | push st => exact enterT_names E ks ds names _ _
    | _ => rfl

theorem enter_error {E : Env Char} {ds : Delims Char} : ∀ {names : List (List Char)} {current stack e},
    enter E ds names current stack = .error e → e = .valueError
  | [], _, _, e, h => by cases h
  | n :: names, current, stack, e, h => by
    unfold enter at h
    split at h
    · exact enter_error h
    · cases h; rfl

theorem enterT_ok {E : Env Char} {ks : Kind} {ds : Delims Char} : ∀ {l : List Elem} {current stack r},
    enterT E ks ds l current stack = .ok r →
      ∃ names : List (List Char), l = names.map (fun n => .obj (.ofKind ks n)) ∧ enter E ds names current stack = .ok r
  | [], _, _, r, h => ⟨[], rfl, by cases h; rfl⟩
  | .unhashable :: _, _, _, r, h => by cases h
  | .obj o :: rest, current, stack, r, h => by
    unfold enterT at h
    split at h
    · cases h
    rename_i k hk
    split at h
    · rename_i st hs
      obtain ⟨names, e1, e2⟩ := enterT_ok h
      refine ⟨k :: names, ?_, ?_⟩
      · rw [of_text? hk, e1]; rfl
      · unfold enter; rw [hs]; exact e2
    · cases h

theorem enterT_error {E : Env Char} {ks : Kind} {ds : Delims Char} : ∀ {l : List Elem} {current stack e},
    enterT E ks ds l current stack = .error e → e = .valueError ∨ e = .typeError
  | [], _, _, e, h => by cases h
  | .unhashable :: _, _, _, e, h => by cases h; exact .inr rfl
  | .obj o :: rest, current, stack, e, h => by
    unfold enterT at h
    split at h
    · cases h; exact .inl rfl
    split at h
    · exact enterT_error h
    · cases h; exact .inl rfl

/-- From the tables on. -/
theorem withTables_iff {E : Env Char} {ks : Kind} {s : List Char} {ds : Delims Char} {state : TState}
    (h1 : ds.isEmpty = false) (h2 : [E.backslash] ∉ openers ds)
    (h3 : ((openers ds).any fun o => (nestedClosers ds).contains o) = false) (r) :
    withTables E ks s ds state = .ok r ↔ ∃ names, DocState ks state names ∧ splitDelimiters E s ds names = .ok r := by
  have hs : ∀ names, splitDelimiters E s ds names = .ok r ↔ ∃ c st, enter E ds names none [] = .ok (c, st) ∧
      run E ds s s.length (split E ds s) ⟨c, st, none, [], [], 0⟩ = r := by
    intro names
    unfold splitDelimiters
    rw [if_neg (by simp [h1]), if_neg h2, if_neg (by simp only [h3]; simp)]
    cases enter E ds names none [] with
    | error e => simp
    | ok p =>
      obtain ⟨c, st⟩ := p
      dsimp only
      constructor
      · intro h; cases h; exact ⟨c, st, rfl, rfl⟩
      · rintro ⟨c', st', h, rfl⟩; cases h; rfl
  have ht : withTables E ks s ds state = .ok r ↔ ∃ l, state.elems = some l ∧ ∃ c st, enterT E ks ds l none [] = .ok (c, st) ∧
      run E ds s s.length (split E ds s) ⟨c, st, none, [], [], 0⟩ = r := by
    unfold withTables
    cases state.elems with
    | none => simp
    | some l =>
      dsimp only
      cases he : enterT E ks ds l none [] with
      | error e => simp [he]
      | ok p =>
        obtain ⟨c, st⟩ := p
        dsimp only
        constructor
        · intro h; cases h; exact ⟨l, rfl, c, st, he, rfl⟩
        · rintro ⟨l', hl, c', st', h, rfl⟩; cases hl; rw [he] at h; cases h; rfl
  rw [ht]
  constructor
  · rintro ⟨l, hl, c, st, he, hr⟩
    obtain ⟨names, e1, e2⟩ := enterT_ok he
    refine ⟨names, ?_, (hs names).mpr ⟨c, st, e2, hr⟩⟩
    cases state with
    | falsy =>
      cases hl
      exact .inl ⟨rfl, by simpa using e1.symm⟩
    | notIterable => cases hl
    | iter l' => cases hl; exact .inr (.inr (.inr (by rw [e1])))
    | text k t =>
      cases hl
      have key : t = [] ∨ k = ks := by
        cases t with
        | nil => exact .inl rfl
        | cons c t =>
          cases names with
          | nil => simp at e1
          | cons n names =>
            simp only [List.map_cons, List.cons.injEq] at e1
            have := e1.1
            refine .inr ?_
            cases k <;> cases ks <;> first | rfl | (simp [Obj.ofKind] at this)
      rcases key with rfl | rfl
      · refine .inr (.inr (.inl ⟨k, rfl, ?_⟩))
        simpa using e1.symm
      · refine .inr (.inl ⟨t, rfl, ?_⟩)
        clear he hr e2 ht hs
        induction t generalizing names with
        | nil => simpa using e1.symm
        | cons c t ih =>
          cases names with
          | nil => simp at e1
          | cons n names =>
            simp only [List.map_cons, List.cons.injEq, Elem.obj.injEq] at e1
            rw [List.map_cons, ← ofKind_inj e1.1, ← ih names e1.2]
  · rintro ⟨names, hd, hr⟩
    obtain ⟨c, st, he, hr⟩ := (hs names).mp hr
    have hm : state.elems = some (names.map fun n => .obj (.ofKind ks n)) := by
      rcases hd with ⟨rfl, rfl⟩ | ⟨t, rfl, rfl⟩ | ⟨k, rfl, rfl⟩ | rfl
      · rfl
      · simp [TState.elems, Function.comp_def]
      · rfl
      · rfl
    refine ⟨_, hm, c, st, ?_, hr⟩
    rw [enterT_names, he]

theorem withTables_error {E : Env Char} {ks : Kind} {s : List Char} {ds : Delims Char} {state : TState} {e}
    (h : withTables E ks s ds state = .error e) : e = .valueError ∨ e = .typeError := by
  unfold withTables at h
  split at h
  · cases h; exact .inr rfl
  split at h
  · rename_i e' he; cases h; exact enterT_error he
  · cases h

/-- `==` with a default mapping. -/
theorem isDefault_iff {k : Kind} {items : List (Obj × Val)} (hn : (items.map (·.1)).Nodup) :
    isDefault k items = true ↔ items.Perm (typed k defaultDelims) := by
  unfold isDefault
  simp only [Bool.and_eq_true, decide_eq_true_eq, List.all_eq_true, List.contains_iff_mem]
  constructor
  · rintro ⟨h1, h2⟩
    refine perm_of_sub ?_ h1 h2
    unfold List.Nodup at hn ⊢
    rw [List.pairwise_map] at hn
    exact hn.imp fun hab e => hab (by rw [e])
  · intro h
    exact ⟨h.length_eq, fun x hx => h.mem_iff.1 hx⟩

theorem typed_keys (k : Kind) (ds : Delims Char) : (typed k ds).map (·.1) = (openers ds).map (.ofKind k) := by
  simp [typed, openers, Function.comp_def]

theorem perm_of_typed {k k' : Kind} {a b : Delims Char} (hb : b ≠ []) (hn : (openers a).Nodup)
    (h : (typed k a).Perm (typed k' b)) : k = k' ∧ a.Perm b := by
  have hk : k = k' := by
    cases a with
    | nil => have := h.length_eq; cases b <;> simp_all [typed]
    | cons x a =>
      have : (Obj.ofKind k x.1, Val.delim ⟨.ofKind k x.2.close, .ofKind k x.2.escape, x.2.multiline, x.2.quoting⟩) ∈
          typed k' b := h.mem_iff.1 (by simp [typed])
      simp only [typed, List.mem_map, Prod.mk.injEq] at this
      obtain ⟨y, _, hy, _⟩ := this
      cases k <;> cases k' <;> first | rfl | (simp [Obj.ofKind] at hy)
  subst hk
  refine ⟨rfl, ?_⟩
  refine perm_of_sub (nodup_of_openers hn) (by simpa [typed] using h.length_eq) fun x hx => ?_
  obtain ⟨y, hy, h'⟩ := List.mem_map.1 (h.mem_iff.1 (List.mem_map.2 ⟨x, hx, rfl⟩))
  suffices e : x = y by rw [e]; exact hy
  obtain ⟨k1, c1, e1, m1, q1⟩ := x
  obtain ⟨k2, c2, e2, m2, q2⟩ := y
  simp only [Prod.mk.injEq, Val.delim.injEq, PyDelim.mk.injEq] at h'
  obtain ⟨h1, h2, h3, h4, h5⟩ := h'
  rw [ofKind_inj h1, ofKind_inj h2, ofKind_inj h3, h4, h5]

/-! ## The theorems -/

/-- **C122**: exactly which calls of split_delimiters succeed: those whose arguments are documented ones; and then the result
is that of the delimiters and the state they stand for (the function of C48, C75, C78, C90). -/
theorem C122_accepts_iff {E : Kind → Env Char} (hb : ∀ k, (E k).backslash = '\\') (hc : ∀ k, CacheOK (E k).cache)
    (ks : Kind) (s : List Char) (arg : TArg) (state : TState) (hp : Proper arg) (r) :
    callT E ks s arg state = .ok r ↔
      ∃ ds names, Documented ks arg ds ∧ DocState ks state names ∧ splitDelimiters (E ks) s ds names = .ok r := by
  have hdef : ∀ r, withTables (E ks) ks s defaultDelims state = .ok r ↔
      ∃ names, DocState ks state names ∧ splitDelimiters (E ks) s defaultDelims names = .ok r :=
    withTables_iff rfl (by rw [hb]; decide) (by decide +kernel)
  cases arg with
  | omitted =>
    refine (hdef r).trans ⟨fun ⟨n, h1, h2⟩ => ⟨_, n, .inl ⟨.inl rfl, rfl⟩, h1, h2⟩, ?_⟩
    rintro ⟨ds, n, hd | hd, h1, h2⟩
    · rw [hd.2] at h2; exact ⟨n, h1, h2⟩
    · cases hd
  | pyNone =>
    refine (hdef r).trans ⟨fun ⟨n, h1, h2⟩ => ⟨_, n, .inl ⟨.inr (.inl rfl), rfl⟩, h1, h2⟩, ?_⟩
    rintro ⟨ds, n, hd | hd, h1, h2⟩
    · rw [hd.2] at h2; exact ⟨n, h1, h2⟩
    · cases hd
  | other t =>
    constructor
    · intro h; cases t <;> cases h
    · rintro ⟨ds, n, ⟨h | h | ⟨_, _, h, _⟩, _⟩ | h, _⟩ <;> cases h
  | mapping items =>
    obtain ⟨hn, hm⟩ := hp
    by_cases hi : ∃ k, items.Perm (typed k defaultDelims)
    · have hi' : (isDefault .str items || isDefault .bytes items) = true := by
        obtain ⟨k, hk⟩ := hi
        rw [Bool.or_eq_true]
        have := (isDefault_iff hn).2 hk
        cases k <;> simp [this]
      have hcall : callT E ks s (.mapping items) state = withTables (E ks) ks s defaultDelims state := by
        simp only [callT, hi', if_true]
      rw [hcall, hdef]
      constructor
      · rintro ⟨n, h1, h2⟩
        obtain ⟨k, hk⟩ := hi
        exact ⟨_, n, .inl ⟨.inr (.inr ⟨k, items, rfl, hk⟩), rfl⟩, h1, h2⟩
      · rintro ⟨ds, n, hd | hd, h1, h2⟩
        · rw [hd.2] at h2; exact ⟨n, h1, h2⟩
        · refine ⟨n, h1, ?_⟩
          have hd : items = typed ks ds := by cases hd; rfl
          obtain ⟨k, hk⟩ := hi
          rw [hd] at hk
          have hno : (openers ds).Nodup := by
            rw [hd, typed_keys] at hn
            unfold List.Nodup at hn ⊢
            rw [List.pairwise_map] at hn
            exact hn.imp fun hab e => hab (by rw [e])
          obtain ⟨_, hperm⟩ := perm_of_typed (by decide) hno hk
          rw [← C80_order (hc ks) hperm hno]
          exact h2
    · have hi' : (isDefault .str items || isDefault .bytes items) = false := by
        rw [Bool.or_eq_false_iff]
        constructor <;> rw [Bool.eq_false_iff] <;> exact fun hd => hi ⟨_, (isDefault_iff hn).1 hd⟩
      have hcall : callT E ks s (.mapping items) state = withMapping (E ks) ks s items state := by
        simp only [callT, hi', Bool.false_eq_true, if_false]
      rw [hcall]
      have hback : ∀ ds, (typed ks ds).any (fun x => decide (x.1 = .ofKind ks ['\\'])) = true ↔
          [(E ks).backslash] ∈ openers ds := by
        intro ds
        rw [hb, List.any_eq_true]
        simp only [typed, List.mem_map, decide_eq_true_eq, openers]
        constructor
        · rintro ⟨_, ⟨x, hx, rfl⟩, h⟩
          exact ⟨x, hx, ofKind_inj h⟩
        · rintro ⟨x, hx, h⟩
          exact ⟨_, ⟨x, hx, rfl⟩, by dsimp only; rw [h]⟩
      constructor
      · intro h
        unfold withMapping at h
        split at h
        · cases h
        rename_i g1
        split at h
        · cases h
        rename_i g2
        split at h
        · cases h
        rename_i ds g3
        split at h
        · cases h
        rename_i g4
        have he := checkItems_ok g3
        subst he
        rw [hback] at g2
        have g1' : ds.isEmpty = false := by
          cases ds with
          | nil => exact absurd rfl g1
          | cons => rfl
        obtain ⟨n, h1, h2⟩ := (withTables_iff g1' g2 (by simpa using g4) r).mp h
        exact ⟨ds, n, .inr rfl, h1, h2⟩
      · rintro ⟨ds, n, hd | hd, h1, h2⟩
        · obtain ⟨hd | hd | ⟨k, _, hd, hk⟩, _⟩ := hd
          · cases hd
          · cases hd
          · cases hd; exact absurd ⟨k, hk⟩ hi
        · cases hd
          have hs := h2
          unfold splitDelimiters at hs
          split at hs
          · cases hs
          rename_i g1
          split at hs
          · cases hs
          rename_i g2
          split at hs
          · cases hs
          rename_i g3
          have g1' : ds.isEmpty = false := by simpa using g1
          have g0 : (typed ks ds).isEmpty = false := by
            cases ds with
            | nil => exact absurd rfl g1
            | cons => rfl
          have hq : ∀ d ∈ ds, (!d.2.escape.isEmpty) = d.2.quoting := by
            intro d hd
            have := (C122_delimiter (hm _ (List.mem_map.2 ⟨d, hd, rfl⟩) _ rfl)).1
            rw [ofKind_bool] at this
            exact this
          unfold withMapping
          rw [if_neg (by simp [g0]), if_neg (by rw [hback]; exact g2), checkItems_typed hq]
          dsimp only
          rw [if_neg g3]
          exact (withTables_iff g1' g2 (by simpa using g3) r).mpr ⟨n, h1, h2⟩

/-- **C122**: every other call raises TypeError or ValueError (an object that is not a mapping also AttributeError), before the
generator is made; no assertion of the code fails. -/
theorem C122_refuses {E : Kind → Env Char} (ks : Kind) (s : List Char) (arg : TArg) (state : TState) (hp : Proper arg) (e)
    (h : callT E ks s arg state = .error e) :
    e = .typeError ∨ e = .valueError ∨ (e = .notMapping ∧ arg = .other true) := by
  have ht : ∀ {ds}, withTables (E ks) ks s ds state = .error e → e = .typeError ∨ e = .valueError ∨ (e = .notMapping ∧ arg = .other true) := by
    intro ds h
    rcases withTables_error h with h | h
    · exact .inr (.inl h)
    · exact .inl h
  cases arg with
  | omitted => exact ht h
  | pyNone => exact ht h
  | other t =>
    cases t
    · cases h; exact .inr (.inl rfl)
    · cases h; exact .inr (.inr ⟨rfl, rfl⟩)
  | mapping items =>
    unfold callT at h
    dsimp only at h
    split at h
    · exact ht h
    unfold withMapping at h
    split at h
    · cases h; exact .inr (.inl rfl)
    split at h
    · cases h; exact .inr (.inl rfl)
    split at h
    · rename_i e' he; cases h; exact .inl (checkItems_error hp.2 he)
    split at h
    · cases h; exact .inr (.inl rfl)
    · exact ht h

/-- **C122**: a mapping with a string, or a value, of the wrong type is refused with TypeError, unless a backslash makes it
ValueError. -/
theorem C122_type_error {E : Kind → Env Char} (ks : Kind) (s : List Char) (items : List (Obj × Val)) (state : TState)
    (hp : Proper (.mapping items)) (hne : items ≠ []) (hd : ∀ k, ¬ items.Perm (typed k defaultDelims))
    (hb : ∀ x ∈ items, x.1 ≠ .ofKind ks ['\\']) (hty : ∀ ds, items ≠ typed ks ds) :
    callT E ks s (.mapping items) state = .error .typeError := by
  have hi' : (isDefault .str items || isDefault .bytes items) = false := by
    rw [Bool.or_eq_false_iff]
    constructor <;> rw [Bool.eq_false_iff] <;> exact fun h => hd _ ((isDefault_iff hp.1).1 h)
  simp only [callT, hi', Bool.false_eq_true, if_false]
  unfold withMapping
  rw [if_neg (by simpa using hne), if_neg (by
    rw [List.any_eq_true]; rintro ⟨x, hx, h⟩; exact hb x hx (by simpa using h))]
  cases hc : checkItems ks items with
  | error e => rw [checkItems_error hp.2 hc]
  | ok ds => exact absurd (checkItems_ok hc) (hty ds)

/-! ## Examples -/

/-- `Delimiter('>')` and its like. -/
def angle (k : Kind) : PyDelim := ⟨.ofKind k ['>'], .ofKind k [], true, false⟩

theorem angle_made (k : Kind) : Made (angle k) := .make (close := .ofKind k ['>']) (escape := .str []) (multiline := true)
  (quoting := false) (by cases k <;> rfl)

example : Proper (.mapping [(.str ['<'], .delim (angle .str))]) ∧
    callT (fun _ => strEnv) .str "a<b".toList (.mapping [(.str ['<'], .delim (angle .str))]) .falsy
      = .ok ([("a".toList, "<".toList, []), ("b".toList, [], [])], none) ∧
    callT (fun _ => strEnv) .bytes "a<b".toList (.mapping [(.str ['<'], .delim (angle .str))]) .falsy = .error .typeError ∧
    callT (fun _ => strEnv) .str "a>b".toList (.mapping [(.str ['<'], .delim (angle .str))]) (.text .str ['<'])
      = .ok ([("a".toList, [], ">".toList), ("b".toList, [], [])], none) ∧
    callT (fun _ => strEnv) .str "a>b".toList (.mapping [(.str ['<'], .delim (angle .str))]) (.text .bytes ['<'])
      = .error .valueError := by
  refine ⟨⟨by decide, ?_⟩, by decide +kernel, by decide +kernel, by decide +kernel, by decide +kernel⟩
  intro x hx d hd
  simp only [List.mem_singleton] at hx
  subst hx
  cases hd
  exact angle_made .str

end Big.SD
