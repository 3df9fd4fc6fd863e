import Verif.Quoted.CallModel
/-! # C85: what may be passed to split_quoted_strings -/
namespace Big.SQ
open Big.MS (Elem CallErr)
variable {α : Type} [DecidableEq α]

/-! ### Specification -/

/-- One of the two types of strings. -/
inductive ProperQ : {α : Type} → QKind α → Prop
  | str : ProperQ strQ
  | bytes : ProperQ bytesQ

/-- The quote marks an argument lists, by the documentation: a string of the type of s its characters, an iterable of
strings of that type its elements. -/
inductive ListsQ (Q : QKind α) : QArg → List (List α) → Prop
  | text {a t} : Q.text a = some t → ListsQ Q a (t.map (fun c => [c]))
  | tuple {l ts} : l.map Q.elem = ts.map some → ListsQ Q (.tuple l) ts
  | coll {l ts} : l.map Q.elem = ts.map some → ListsQ Q (.coll l) ts
  | iter {l ts} : l.map Q.elem = ts.map some → ListsQ Q (.iter l) ts

/-- quotes: None, and the default argument itself, stand for the default of the type of s. -/
inductive QuotesAre (Q : QKind α) : QArg → List (List α) → Prop
  | none : QuotesAre Q .none Q.quotes
  | foreign : QuotesAre Q Q.foreignQuotes Q.quotes
  | listed {a ts} : ListsQ Q a ts → QuotesAre Q a ts

/-- multiline_quotes: None stands for none. -/
inductive MultilineAre (Q : QKind α) : QArg → List (List α) → Prop
  | none : MultilineAre Q .none []
  | listed {a ts} : ListsQ Q a ts → MultilineAre Q a ts

/-- escape: a string of the type of s; None, and the default argument itself, stand for the default of that type. -/
inductive EscapeIs (Q : QKind α) : QArg → List α → Prop
  | none : EscapeIs Q .none Q.escape
  | foreign : EscapeIs Q Q.foreignEscape Q.escape
  | text {a t} : Q.text a = some t → EscapeIs Q a t

/-- state: a string of the type of s; None and an empty string of any type stand for no state. -/
inductive StateIs (Q : QKind α) : QArg → List α → Prop
  | none : StateIs Q .none []
  | str : StateIs Q (.str []) []
  | bytes : StateIs Q (.bytes []) []
  | text {a t} : Q.text a = some t → StateIs Q a t

/-! ### Lemmas -/

theorem q_facts {Q : QKind α} (hQ : ProperQ Q) :
    Q.text .none = none ∧ Q.foreign .none = false ∧ Q.text Q.foreignQuotes = none ∧ Q.text Q.foreignEscape = none ∧
    (∃ l, Q.foreignQuotes = .tuple l ∧ ∀ ts : List (List α), l.map Q.elem ≠ ts.map some) ∧
    (∀ l, Q.text (.tuple l) = none ∧ Q.foreign (.tuple l) = false) ∧
    (∀ l, Q.text (.coll l) = none ∧ Q.foreign (.coll l) = false) ∧
    (∀ l, Q.text (.iter l) = none ∧ Q.foreign (.iter l) = false) ∧
    (∀ b, Q.text (.plain b) = none ∧ Q.foreign (.plain b) = false) ∧
    (∀ a t, Q.text a = some t → (a = .str [] ∨ a = .bytes [] ↔ t = []) ∧ a.truthy = !t.isEmpty ∧ a.isIter = false) ∧
    (∀ a, Q.text a = none → (a = .str [] ∨ a = .bytes []) → Q.foreign a = true) ∧
    (∀ a, Q.foreign a = true → a.isIter = false ∧ a ≠ .none ∧ a ≠ Q.foreignQuotes) := by
  cases hQ
  · refine ⟨rfl, rfl, rfl, rfl, ⟨_, rfl, ?_⟩, fun _ => ⟨rfl, rfl⟩, fun _ => ⟨rfl, rfl⟩, fun _ => ⟨rfl, rfl⟩,
      fun _ => ⟨rfl, rfl⟩, ?_, ?_, ?_⟩
    · intro ts h; cases ts <;> simp [strQ] at h
    · intro a t h
      cases a <;> simp [strQ] at h
      subst h
      simp [QArg.truthy, QArg.isIter]
    · intro a h h'
      rcases h' with rfl | rfl
      · simp [strQ] at h
      · rfl
    · intro a h
      cases a <;> simp [strQ] at h
      simp [QArg.isIter, strQ]
  · refine ⟨rfl, rfl, rfl, rfl, ⟨_, rfl, ?_⟩, fun _ => ⟨rfl, rfl⟩, fun _ => ⟨rfl, rfl⟩, fun _ => ⟨rfl, rfl⟩,
      fun _ => ⟨rfl, rfl⟩, ?_, ?_, ?_⟩
    · intro ts h; cases ts <;> simp [bytesQ] at h
    · intro a t h
      cases a <;> simp [bytesQ] at h
      subst h
      simp [QArg.truthy, QArg.isIter]
    · intro a h h'
      rcases h' with rfl | rfl
      · rfl
      · simp [bytesQ] at h
    · intro a h
      cases a <;> simp [bytesQ] at h
      simp [QArg.isIter, bytesQ]

theorem checkQuotes_ok {Q : QKind α} : ∀ {l : List Elem} {ts : List (List α)},
    l.map Q.elem = ts.map some → checkQuotes Q l = if [] ∈ ts then .error .valueError else .ok ts
  | [], [], _ => by simp [checkQuotes]
  | [], _ :: _, h => by simp at h
  | _ :: _, [], h => by simp at h
  | o :: l, t :: ts, h => by
    simp only [List.map_cons, List.cons.injEq] at h
    have ih := checkQuotes_ok h.2
    simp only [checkQuotes, h.1]
    by_cases ht : t = []
    · subst ht; simp
    · have ht' : ¬ ([] = t) := fun e => ht e.symm
      rw [if_neg (by simpa using ht), ih]
      by_cases hm : [] ∈ ts
      · rw [if_pos hm, if_pos (by simp [hm])]; rfl
      · rw [if_neg hm, if_neg (by simp [hm, ht'])]; rfl

theorem checkQuotes_fits {Q : QKind α} : ∀ {l : List Elem} {ts : List (List α)}, checkQuotes Q l = .ok ts →
    l.map Q.elem = ts.map some ∧ [] ∉ ts
  | [], ts, h => by simp [checkQuotes] at h; subst h; simp
  | o :: l, ts, h => by
    simp only [checkQuotes] at h
    cases ho : Q.elem o with
    | none => rw [ho] at h; simp at h
    | some t =>
      rw [ho] at h
      dsimp only at h
      by_cases ht : t = []
      · subst ht; simp at h
      · rw [if_neg (by simpa using ht)] at h
        cases hg : checkQuotes Q l with
        | error e => rw [hg] at h; simp [Except.map] at h
        | ok x =>
          rw [hg] at h
          simp only [Except.map, Except.ok.injEq] at h
          subst h
          obtain ⟨h1, h2⟩ := checkQuotes_fits hg
          refine ⟨by simp [ho, h1], ?_⟩
          simp only [List.mem_cons, not_or]
          exact ⟨fun e => ht e.symm, h2⟩

theorem elementsOf_lists {Q : QKind α} (hQ : ProperQ Q) {a : QArg} {ts : List (List α)} (h : ListsQ Q a ts) :
    elementsOf Q a = if [] ∈ ts then .error .valueError else .ok ts := by
  obtain ⟨f1, f2, f3, f4, f5, f6, f7, f8, f9, _⟩ := q_facts hQ
  cases h with
  | text h => simp [elementsOf, h]
  | @tuple l _ h => simp [elementsOf, f6 l, checkQuotes_ok h]
  | @coll l _ h => simp [elementsOf, f7 l, checkQuotes_ok h]
  | @iter l _ h => simp [elementsOf, f8 l, checkQuotes_ok h]

theorem lists_ne_none {Q : QKind α} (hQ : ProperQ Q) {a : QArg} {ts : List (List α)} (h : ListsQ Q a ts) :
    a ≠ .none ∧ a ≠ Q.foreignQuotes := by
  obtain ⟨f1, f2, f3, f4, ⟨l0, f5, f5'⟩, _⟩ := q_facts hQ
  cases h with
  | text h =>
    constructor
    · rintro rfl; rw [f1] at h; simp at h
    · rintro rfl; rw [f3] at h; simp at h
  | tuple h =>
    refine ⟨by simp, fun e => ?_⟩
    rw [f5] at e
    cases e
    exact f5' _ h
  | coll h => exact ⟨by simp, by rw [f5]; simp⟩
  | iter h => exact ⟨by simp, by rw [f5]; simp⟩

theorem quotesOf_are {Q : QKind α} (hQ : ProperQ Q) {a : QArg} {ts : List (List α)} (h : QuotesAre Q a ts)
    (hi : a.isIter = false) : quotesOf Q a = if [] ∈ ts then .error .valueError else .ok ts := by
  have hq : [] ∉ Q.quotes := by cases hQ <;> simp [strQ, bytesQ]
  cases h with
  | none => simp [quotesOf, hq]
  | foreign => simp [quotesOf, hq]
  | listed h =>
    have := lists_ne_none hQ h
    unfold quotesOf
    rw [if_neg (by simp [this]), elementsOf_lists hQ h]
    by_cases hm : [] ∈ ts
    · simp [hm, Except.map]
    · simp [hm, Except.map, hi]

theorem multilineOf_are {Q : QKind α} (hQ : ProperQ Q) {a : QArg} {ts : List (List α)} (h : MultilineAre Q a ts)
    (hi : a.isIter = false) : multilineOf Q a = if [] ∈ ts then .error .valueError else .ok ts := by
  cases h with
  | none => simp [multilineOf]
  | listed h =>
    have := lists_ne_none hQ h
    unfold multilineOf
    rw [if_neg this.1, elementsOf_lists hQ h]
    by_cases hm : [] ∈ ts
    · simp [hm, Except.map]
    · simp [hm, Except.map, hi]

theorem escapeOf_is {Q : QKind α} (hQ : ProperQ Q) {a : QArg} {t : List α} (h : EscapeIs Q a t) :
    escapeOf Q a = .right t := by
  obtain ⟨f1, f2, f3, f4, _⟩ := q_facts hQ
  cases h with
  | none => simp [escapeOf]
  | foreign => simp [escapeOf]
  | text h =>
    have h1 : a ≠ .none := by rintro rfl; rw [f1] at h; simp at h
    have h2 : a ≠ Q.foreignEscape := by rintro rfl; rw [f4] at h; simp at h
    simp [escapeOf, h1, h2, h]

theorem stateOf_is {Q : QKind α} (hQ : ProperQ Q) {a : QArg} {t : List α} (h : StateIs Q a t) (all : List (List α)) :
    stateOf Q all a = if t = [] ∨ t ∈ all then .ok t else .error .valueError := by
  obtain ⟨f1, f2, f3, f4, f5, f6, f7, f8, f9, f10, _⟩ := q_facts hQ
  cases h with
  | none => simp [stateOf]
  | str => simp [stateOf]
  | bytes => simp [stateOf]
  | text h =>
    have h1 : a ≠ .none := by rintro rfl; rw [f1] at h; simp at h
    have h2 := (f10 a t h).1
    unfold stateOf
    by_cases ht : t = []
    · rw [if_pos (.inr (h2.2 ht)), if_pos (.inl ht), ht]
    · rw [if_neg (by
        rintro (h' | h')
        · exact h1 h'
        · exact ht (h2.1 h')), h]
      simp [ht]

/-! ### C85 -/

/-- C85, for str and bytes: with the documented arguments, in whatever form they are given (but for iterators),
split_quoted_strings does what it does with the quotes, the escape, the multiline quotes and the state they stand for; C47
says what that is and which of those it refuses. -/
theorem C85_arguments {Q : QKind α} (hQ : ProperQ Q) (E : Env α) (s : List α) {quotes escape multiline state : QArg}
    {q ml : List (List α)} {e st : List α} (hq : QuotesAre Q quotes q) (he : EscapeIs Q escape e)
    (hm : MultilineAre Q multiline ml) (hs : StateIs Q state st) (hi : quotes.isIter = false ∧ multiline.isIter = false) :
    splitQuotedCall Q E s quotes escape multiline state =
      (splitQuotedStrings E s q e ml st).mapError (fun _ => .valueError) := by
  have h1 := quotesOf_are hQ hq hi.1
  have h2 := multilineOf_are hQ hm hi.2
  have h3 := escapeOf_is hQ he
  have h4 := stateOf_is hQ hs (q ++ ml)
  unfold splitQuotedCall
  rw [h1, h3]
  unfold splitQuotedStrings
  by_cases e1 : [] ∈ q
  · rw [if_pos e1, if_pos (by simp only [Bool.or_eq_true]; left; simpa using e1)]; rfl
  · rw [if_neg e1]
    dsimp only
    rw [if_neg (by simp [Escape.isRight]), h2]
    by_cases e2 : [] ∈ ml
    · rw [if_pos e2, if_pos (by simp only [Bool.or_eq_true]; right; simpa using e2)]; rfl
    · rw [if_neg e2]
      have e12 : ¬ (q.any List.isEmpty || ml.any List.isEmpty) = true := by
        simpa using ⟨e1, e2⟩
      rw [if_neg e12]
      dsimp only
      unfold finishCall
      by_cases e3 : (q ++ ml).isEmpty = true
      · rw [if_pos e3, if_pos e3]; rfl
      · rw [if_neg e3, if_neg e3, h4]
        by_cases e4 : st = [] ∨ st ∈ q ++ ml
        · rw [if_pos e4]
          have e4' : ¬ (!st.isEmpty && !(q ++ ml).contains st) = true := by
            rcases e4 with rfl | e4
            · simp
            · rw [List.contains_iff_mem.2 e4]; simp
          rw [if_neg e4']
          dsimp only
          unfold checkRepeats
          rw [hi.1, hi.2]
          simp only [Bool.false_eq_true, if_false]
          by_cases e5 : repeated q = true
          · rw [if_pos e5, if_pos (by simp [e5])]; rfl
          · rw [if_neg e5]
            by_cases e6 : repeated ml = true
            · rw [if_pos e6, if_pos (by simp [e6])]; rfl
            · rw [if_neg e6]
              have e56 : ¬ (repeated q || repeated ml) = true := by simp [e5, e6]
              by_cases e7 : q.any (fun x => ml.contains x) = true
              · rw [if_pos e7, if_neg e56, if_pos e7]; rfl
              · rw [if_neg e7, if_neg e56]
                dsimp only
                unfold startCall splitQuotedStrings
                simp only [if_neg e12, if_neg e3, if_neg e4', e5, e6, Bool.or_self, Bool.false_eq_true, if_false,
                  if_neg e7]
        · rw [if_neg e4, if_pos (by
            rw [not_or] at e4
            rw [Bool.and_eq_true]
            refine ⟨by simpa using e4.1, ?_⟩
            rw [Bool.not_eq_true', ← Bool.not_eq_true, List.contains_iff_mem]
            exact e4.2)]
          rfl

/-- What is accepted has the right types. -/
theorem elementsOf_ok {Q : QKind α} (hQ : ProperQ Q) {a : QArg} {ts : List (List α)} (h : elementsOf Q a = .ok ts) :
    ListsQ Q a ts ∨ Q.foreign a = true ∧ a.truthy = false ∧ ts = [] := by
  unfold elementsOf at h
  cases ht : Q.text a with
  | some t =>
    rw [ht] at h
    simp only [Except.ok.injEq] at h
    subst h
    exact .inl (.text ht)
  | none =>
    rw [ht] at h
    dsimp only at h
    by_cases hf : Q.foreign a = true
    · rw [if_pos hf] at h
      cases hb : a.truthy with
      | true => rw [hb] at h; simp at h
      | false => rw [hb] at h; simp at h; exact .inr ⟨hf, rfl, h⟩
    · rw [if_neg hf] at h
      cases a with
      | tuple l => exact .inl (.tuple (checkQuotes_fits h).1)
      | coll l => exact .inl (.coll (checkQuotes_fits h).1)
      | iter l => exact .inl (.iter (checkQuotes_fits h).1)
      | _ => simp at h

/-- C85: everything else is refused before anything is yielded: if a call goes through, then quotes and multiline_quotes list
strings of the type of s, or are the empty string of the other type; escape is of the type of s, or false, with multiline
quotes; state is of the type of s, or empty; and there was no iterator. -/
theorem C85_refuses_the_rest {Q : QKind α} (hQ : ProperQ Q) (E : Env α) (s : List α) {quotes escape multiline state : QArg}
    {r : List (Tuple α) × Option Err} (h : splitQuotedCall Q E s quotes escape multiline state = .ok r) :
    ((∃ q, QuotesAre Q quotes q) ∨ Q.foreign quotes = true ∧ quotes.truthy = false) ∧
    ((∃ ml, MultilineAre Q multiline ml) ∨ Q.foreign multiline = true ∧ multiline.truthy = false) ∧
    ((∃ e, EscapeIs Q escape e) ∨ escape.truthy = false ∧ multiline.truthy = true) ∧
    (∃ st, StateIs Q state st) ∧ quotes.isIter = false ∧ multiline.isIter = false := by
  obtain ⟨f1, f2, f3, f4, f5, f6, f7, f8, f9, f10, _⟩ := q_facts hQ
  have hesc : (∃ t, escapeOf Q escape = .right t ∧ EscapeIs Q escape t) ∨
      escapeOf Q escape = .falsy ∧ escape.truthy = false ∨ escapeOf Q escape = .wrong := by
    unfold escapeOf
    by_cases h0 : escape = .none ∨ escape = Q.foreignEscape
    · rw [if_pos h0]
      left
      rcases h0 with rfl | rfl
      · exact ⟨_, rfl, .none⟩
      · exact ⟨_, rfl, .foreign⟩
    · rw [if_neg h0]
      cases ht : Q.text escape with
      | some t => exact .inl ⟨t, rfl, .text ht⟩
      | none =>
        cases hb : escape.truthy with
        | true => exact .inr (.inr rfl)
        | false => exact .inr (.inl ⟨rfl, rfl⟩)
  unfold splitQuotedCall at h
  cases h1 : quotesOf Q quotes with
  | error e => rw [h1] at h; simp at h
  | ok q =>
    rw [h1] at h
    dsimp only at h
    have hq : (∃ q, QuotesAre Q quotes q) ∨ Q.foreign quotes = true ∧ quotes.truthy = false := by
      unfold quotesOf at h1
      by_cases h0 : quotes = .none ∨ quotes = Q.foreignQuotes
      · left
        rcases h0 with rfl | rfl
        · exact ⟨_, .none⟩
        · exact ⟨_, .foreign⟩
      · rw [if_neg h0] at h1
        cases h2 : elementsOf Q quotes with
        | error e => rw [h2] at h1; simp [Except.map] at h1
        | ok ts =>
          rcases elementsOf_ok hQ h2 with h3 | ⟨h3, h4, _⟩
          · exact .inl ⟨_, .listed h3⟩
          · exact .inr ⟨h3, h4⟩
    have hmlOf : ∀ ml, multilineOf Q multiline = .ok ml →
        (∃ ml, MultilineAre Q multiline ml) ∨ Q.foreign multiline = true ∧ multiline.truthy = false := by
      intro ml h1
      unfold multilineOf at h1
      by_cases h0 : multiline = .none
      · subst h0; exact .inl ⟨_, .none⟩
      · rw [if_neg h0] at h1
        cases h2 : elementsOf Q multiline with
        | error e => rw [h2] at h1; simp [Except.map] at h1
        | ok ts =>
          rcases elementsOf_ok hQ h2 with h3 | ⟨h3, h4, _⟩
          · exact .inl ⟨_, .listed h3⟩
          · exact .inr ⟨h3, h4⟩
    -- the rest of the function
    by_cases hc : (!multiline.truthy && !(escapeOf Q escape).isRight) = true
    · rw [if_pos hc] at h; simp at h
    · rw [if_neg hc] at h
      cases h2 : multilineOf Q multiline with
      | error e => rw [h2] at h; simp at h
      | ok ml =>
        rw [h2] at h
        dsimp only at h
        have hm := hmlOf ml h2
        unfold finishCall at h
        by_cases e3 : (q ++ ml).isEmpty = true
        · rw [if_pos e3] at h; simp at h
        · rw [if_neg e3] at h
          cases hst : stateOf Q (q ++ ml) state with
          | error e => rw [hst] at h; simp at h
          | ok st =>
            rw [hst] at h
            dsimp only at h
            have hs : ∃ st, StateIs Q state st := by
              unfold stateOf at hst
              by_cases h0 : state = .none ∨ state = .str [] ∨ state = .bytes []
              · rcases h0 with rfl | rfl | rfl
                · exact ⟨_, .none⟩
                · exact ⟨_, .str⟩
                · exact ⟨_, .bytes⟩
              · rw [if_neg h0] at hst
                cases ht : Q.text state with
                | none => rw [ht] at hst; simp at hst
                | some t => exact ⟨_, .text ht⟩
            cases hr : checkRepeats quotes multiline q ml with
            | some x => rw [hr] at h; simp at h
            | none =>
              rw [hr] at h
              dsimp only at h
              have hi : quotes.isIter = false ∧ multiline.isIter = false := by
                unfold checkRepeats at hr
                cases g1 : quotes.isIter <;> cases g2 : multiline.isIter <;> cases g3 : repeated q <;>
                  simp [g1, g2, g3] at hr ⊢
              refine ⟨hq, hm, ?_, hs, hi⟩
              rcases hesc with ⟨t, _, e2⟩ | ⟨e1, e2⟩ | e1
              · exact .inl ⟨t, e2⟩
              · refine .inr ⟨e2, ?_⟩
                rw [e1] at hc
                simpa [Escape.isRight] using hc
              · rw [e1] at h; simp [startCall] at h

/-- C85 fails for iterators, which are iterables: any call with one is refused. -/
theorem C85_iterators_are_refused {Q : QKind α} (hQ : ProperQ Q) (E : Env α) (s : List α) (quotes escape multiline state : QArg)
    (h : quotes.isIter = true ∨ multiline.isIter = true) :
    ∃ e, splitQuotedCall Q E s quotes escape multiline state = .error e := by
  cases hc : splitQuotedCall Q E s quotes escape multiline state with
  | error e => exact ⟨e, rfl⟩
  | ok r =>
    have := C85_refuses_the_rest hQ E s hc
    rcases h with h | h
    · rw [this.2.2.2.2.1] at h; simp at h
    · rw [this.2.2.2.2.2] at h; simp at h

/-- C85 fails: with multiline quotes an escape that is false is accepted whatever its type, and stands for no escape. -/
theorem C85_false_escape {Q : QKind α} (E : Env α) (s : List α) (quotes multiline state : QArg) {escape : QArg}
    (hm : multiline.truthy = true) (he : escape ≠ .none ∧ escape ≠ Q.foreignEscape) (ht : Q.text escape = none)
    (hf : escape.truthy = false) {a : QArg} (ha : Q.text a = some []) (ha' : a ≠ .none ∧ a ≠ Q.foreignEscape) :
    splitQuotedCall Q E s quotes escape multiline state = splitQuotedCall Q E s quotes a multiline state := by
  have h1 : escapeOf Q escape = .falsy := by simp [escapeOf, he, ht, hf]
  have h2 : escapeOf Q a = .right [] := by simp [escapeOf, ha', ha]
  unfold splitQuotedCall finishCall
  rw [h1, h2, hm]
  rfl

/-- C85 fails: an empty string of the other type is accepted as quotes, and stands for no quotes. -/
theorem C85_empty_of_the_other_type {Q : QKind α} (hQ : ProperQ Q) (E : Env α) (s : List α) (escape multiline state : QArg)
    {quotes : QArg} (h : Q.foreign quotes = true ∧ quotes.truthy = false) :
    splitQuotedCall Q E s quotes escape multiline state = splitQuotedCall Q E s (.tuple []) escape multiline state := by
  obtain ⟨f1, f2, f3, f4, ⟨l0, f5, f5'⟩, f6, f7, f8, f9, f10, f11, f12⟩ := q_facts hQ
  have hx := f12 _ h.1
  have ht : Q.text quotes = none := by
    have h1 := h.1
    cases hQ <;> cases quotes <;> simp [strQ, bytesQ] at h1 ⊢
  have h1 : quotesOf Q quotes = .ok [] := by
    unfold quotesOf elementsOf
    rw [if_neg (by simp [hx]), ht, hx.1]
    simp [h.1, h.2, Except.map]
  have h2 : quotesOf Q (.tuple []) = .ok [] := by
    unfold quotesOf elementsOf
    have : QArg.tuple [] ≠ Q.foreignQuotes := by cases hQ <;> simp [strQ, bytesQ]
    rw [if_neg (by simp [this]), (f6 []).1, (f6 []).2]
    rfl
  unfold splitQuotedCall finishCall checkRepeats
  rw [h1, h2, hx.1]
  rfl

/-- C85: an empty string of the other type is accepted as multiline_quotes too, and stands for no quotes. -/
theorem C85_empty_multiline_of_the_other_type {Q : QKind α} (hQ : ProperQ Q) (E : Env α) (s : List α)
    (quotes escape state : QArg) {multiline : QArg} (h : Q.foreign multiline = true ∧ multiline.truthy = false) :
    splitQuotedCall Q E s quotes escape multiline state = splitQuotedCall Q E s quotes escape (.tuple []) state := by
  obtain ⟨f1, f2, f3, f4, ⟨l0, f5, f5'⟩, f6, f7, f8, f9, f10, f11, f12⟩ := q_facts hQ
  have hx := f12 _ h.1
  have ht : Q.text multiline = none := by
    have h1 := h.1
    cases hQ <;> cases multiline <;> simp [strQ, bytesQ] at h1 ⊢
  have hn : multiline ≠ .none := by
    intro e
    have h1 := h.1
    cases hQ <;> subst e <;> simp [strQ, bytesQ] at h1
  have h1 : multilineOf Q multiline = .ok [] := by
    unfold multilineOf elementsOf
    rw [if_neg hn, ht, hx.1]
    simp [h.1, h.2, Except.map]
  have h2 : multilineOf Q (.tuple []) = .ok [] := by
    unfold multilineOf elementsOf
    rw [if_neg (by simp), (f6 []).1, (f6 []).2]
    rfl
  unfold splitQuotedCall finishCall checkRepeats
  rw [h1, h2, hx.1, h.2]
  rfl

/-- C85: the types, and the defaults: the quotation mark, the apostrophe and the backslash of the type of s; the arguments
that stand for them with the other type are the defaults of the function. -/
theorem C85_kinds :
    (∀ o t, strQ.elem o = some t ↔ o = .str t) ∧ (∀ o t, bytesQ.elem o = some t ↔ o = .bytes t) ∧
    (∀ a t, strQ.text a = some t ↔ a = .str t) ∧ (∀ a t, bytesQ.text a = some t ↔ a = .bytes t) ∧
    (∀ a, strQ.foreign a = true ↔ ∃ t, a = .bytes t) ∧ (∀ a, bytesQ.foreign a = true ↔ ∃ t, a = .str t) ∧
    strQ.quotes = ["\"".toList, "'".toList] ∧ strQ.escape = "\\".toList ∧
    bytesQ.quotes.map (·.map UInt8.toNat) = [[34], [39]] ∧ bytesQ.escape.map UInt8.toNat = [92] ∧
    bytesQ.foreignQuotes = .tuple [.str "\"".toList, .str "'".toList] ∧ bytesQ.foreignEscape = .str "\\".toList ∧
    strQ.foreignQuotes = .tuple [.bytes [34], .bytes [39]] ∧ strQ.foreignEscape = .bytes [92] := by
  refine ⟨?_, ?_, ?_, ?_, ?_, ?_, rfl, rfl, rfl, rfl, rfl, rfl, rfl, rfl⟩
  · intro o t; cases o <;> simp [strQ]
  · intro o t; cases o <;> simp [bytesQ]
  · intro o t; cases o <;> simp [strQ]
  · intro o t; cases o <;> simp [bytesQ]
  · intro o; cases o <;> simp [strQ]
  · intro o; cases o <;> simp [bytesQ]

/-- The hypotheses hold: bytes split with all defaults, which are str; quotes given as one str. -/
example : QuotesAre bytesQ (.tuple [.str ['"'], .str ['\'']]) [[34], [39]] ∧ EscapeIs bytesQ (.str ['\\']) [92] ∧
    MultilineAre bytesQ (.tuple []) [] ∧ StateIs bytesQ (.str []) [] :=
  ⟨.foreign, .foreign, .listed (.tuple rfl), .str⟩
example : QuotesAre strQ (.str ['|', '"']) [['|'], ['"']] :=
  .listed (ListsQ.text (Q := strQ) (t := ['|', '"']) rfl)
example : (QArg.plain false).truthy = false ∧ strQ.text (.plain false) = none ∧ strQ.text (.str []) = some [] ∧
    (QArg.tuple [.str ['|']]).truthy = true := ⟨rfl, rfl, rfl, rfl⟩

end Big.SQ
