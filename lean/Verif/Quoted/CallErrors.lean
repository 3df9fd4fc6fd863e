import Verif.Quoted.Args
import Verif.Quoted.Call
/-! # C85: which exception split_quoted_strings raises for an argument of the wrong type -/
namespace Big.SQ
open Big.MS (Elem SepArg Kind CallErr)
variable {α : Type} [DecidableEq α]

/-- Not quotes for a text of the type: no iterable; a string of the other type, not empty; or an iterable in which
something that is no string of that type comes before any empty one. -/
inductive NotQuotes (Q : QKind α) : QArg → Prop
  | plain (b : Bool) : NotQuotes Q (.plain b)
  | foreign {a} : Q.foreign a = true → a.truthy = true → NotQuotes Q a
  | among {a l o l'} : a = .tuple (l ++ o :: l') ∨ a = .coll (l ++ o :: l') ∨ a = .iter (l ++ o :: l') →
      (∀ x ∈ l, ∃ t, Q.elem x = some t ∧ t ≠ []) → Q.elem o = none → NotQuotes Q a

theorem checkQuotes_wrong {Q : QKind α} {o : Elem} {l' : List Elem} (ho : Q.elem o = none) : ∀ {l : List Elem},
    (∀ x ∈ l, ∃ t, Q.elem x = some t ∧ t ≠ []) → checkQuotes Q (l ++ o :: l') = .error .typeError
  | [], _ => by simp [checkQuotes, ho]
  | x :: l, h => by
    obtain ⟨t, h1, h2⟩ := h x (by simp)
    have ih := checkQuotes_wrong (l' := l') ho (l := l) (fun y hy => h y (by simp [hy]))
    rw [List.cons_append, checkQuotes, h1]
    dsimp only
    rw [if_neg (by simpa using h2), ih]
    rfl

theorem elementsOf_wrong {Q : QKind α} (hQ : ProperQ Q) {a : QArg} (h : NotQuotes Q a) :
    elementsOf Q a = .error .typeError ∧ a ≠ .none := by
  obtain ⟨f1, f2, f3, f4, f5, f6, f7, f8, f9, f10, f11, f12⟩ := q_facts hQ
  cases h with
  | plain b => simp [elementsOf, f9 b]
  | foreign h1 h2 =>
    have ht : Q.text a = none := by
      cases hQ <;> cases a <;> simp [strQ, bytesQ] at h1 ⊢
    refine ⟨?_, (f12 a h1).2.1⟩
    simp [elementsOf, ht, h1, h2]
  | @among _ l o l' h1 h2 h3 =>
    rcases h1 with rfl | rfl | rfl
    · simp [elementsOf, f6, checkQuotes_wrong h3 h2]
    · simp [elementsOf, f7, checkQuotes_wrong h3 h2]
    · simp [elementsOf, f8, checkQuotes_wrong h3 h2]

/-- C85: quotes of the wrong type raise TypeError, whatever the other arguments; multiline_quotes of the wrong type do if
the quotes are right. -/
theorem C85_wrong_quotes {Q : QKind α} (hQ : ProperQ Q) (E : Env α) (s : List α) (quotes escape multiline state : QArg) :
    (NotQuotes Q quotes → quotes ≠ Q.foreignQuotes →
      splitQuotedCall Q E s quotes escape multiline state = .error .typeError) ∧
    (∀ q, QuotesAre Q quotes q → [] ∉ q → quotes.isIter = false → NotQuotes Q multiline →
      splitQuotedCall Q E s quotes escape multiline state = .error .typeError) := by
  constructor
  · intro h hf
    obtain ⟨h1, h2⟩ := elementsOf_wrong hQ h
    unfold splitQuotedCall quotesOf
    rw [if_neg (by simp [h2, hf]), h1]
    rfl
  · intro q hq he hi h
    obtain ⟨h1, h2⟩ := elementsOf_wrong hQ h
    unfold splitQuotedCall
    rw [quotesOf_are hQ hq hi, if_neg he]
    dsimp only
    split
    · rfl
    · unfold multilineOf
      rw [if_neg h2, h1]
      rfl

/-- C85: an empty quote mark raises ValueError: among quotes whatever the other arguments, among multiline_quotes if
quotes and escape are right. -/
theorem C85_empty_quote {Q : QKind α} (hQ : ProperQ Q) (E : Env α) (s : List α) {quotes escape multiline : QArg}
    (state : QArg) {q : List (List α)} (hq : QuotesAre Q quotes q) (hi : quotes.isIter = false) :
    ([] ∈ q → splitQuotedCall Q E s quotes escape multiline state = .error .valueError) ∧
    (∀ ml e, [] ∉ q → EscapeIs Q escape e → MultilineAre Q multiline ml → [] ∈ ml → multiline.isIter = false →
      splitQuotedCall Q E s quotes escape multiline state = .error .valueError) := by
  constructor
  · intro h
    unfold splitQuotedCall
    rw [quotesOf_are hQ hq hi, if_pos h]
  · intro ml e h1 he h2 h3 h4
    unfold splitQuotedCall
    rw [quotesOf_are hQ hq hi, if_neg h1]
    dsimp only
    rw [escapeOf_is hQ he, if_neg (by simp [Escape.isRight]), multilineOf_are hQ h2 h4, if_pos h3]

/-- C85: if quotes and multiline_quotes are right, and there is one, no mark given twice, then an escape of the wrong type
(neither None, nor the default, nor false) raises TypeError, if the state is right; and a state of the wrong type, not
empty, does if the escape is right. -/
theorem C85_wrong_escape_or_state {Q : QKind α} (hQ : ProperQ Q) (E : Env α) (s : List α)
    {quotes escape multiline state : QArg} {q ml : List (List α)} (hq : QuotesAre Q quotes q)
    (hm : MultilineAre Q multiline ml) (hi : quotes.isIter = false ∧ multiline.isIter = false)
    (hne : q ++ ml ≠ []) (he : [] ∉ q ++ ml) (hd : (q ++ ml).Nodup) :
    (Q.text escape = none → escape ≠ .none → escape ≠ Q.foreignEscape → escape.truthy = true →
      (∃ st, StateIs Q state st ∧ (st = [] ∨ st ∈ q ++ ml)) →
      splitQuotedCall Q E s quotes escape multiline state = .error .typeError) ∧
    (∀ e, EscapeIs Q escape e → Q.text state = none → state ≠ .none → state ≠ .str [] → state ≠ .bytes [] →
      splitQuotedCall Q E s quotes escape multiline state = .error .typeError) := by
  obtain ⟨he1, he2⟩ : [] ∉ q ∧ [] ∉ ml := by simpa using he
  have hne' : ¬ (q ++ ml).isEmpty = true := by simpa using hne
  have hrep : ∀ l : List (List α), l.Nodup → repeated l = false := fun l => (repeated_iff l).2
  constructor
  · rintro h1 h2 h3 h4 ⟨st, h5, h6⟩
    have hw : escapeOf Q escape = .wrong := by
      unfold escapeOf; rw [if_neg (by simp [h2, h3]), h1]; simp [h4]
    unfold splitQuotedCall
    rw [quotesOf_are hQ hq hi.1, if_neg he1]
    dsimp only
    by_cases hc : (!multiline.truthy && !(escapeOf Q escape).isRight) = true
    · rw [if_pos hc]
    · rw [if_neg hc, multilineOf_are hQ hm hi.2, if_neg he2]
      dsimp only
      unfold finishCall
      rw [if_neg hne', stateOf_is hQ h5, if_pos h6]
      dsimp only
      have hd' := List.nodup_append.1 hd
      have hany : q.any (fun x => ml.contains x) = false := by
        rw [List.any_eq_false]
        intro x hx hcon
        exact hd'.2.2 x hx x (List.contains_iff_mem.1 hcon) rfl
      have : checkRepeats quotes multiline q ml = none := by
        unfold checkRepeats
        rw [hi.1, hi.2, hrep q hd'.1, hrep ml hd'.2.1, hany]
        rfl
      rw [this, hw]
      rfl
  · intro e h1 h2 h3 h4 h5
    unfold splitQuotedCall
    rw [quotesOf_are hQ hq hi.1, if_neg he1]
    dsimp only
    rw [escapeOf_is hQ h1, if_neg (by simp [Escape.isRight]), multilineOf_are hQ hm hi.2, if_neg he2]
    dsimp only
    unfold finishCall stateOf
    rw [if_neg hne', if_neg (by simp [h3, h4, h5]), h2]

/-- C85: an iterator of quote marks, the rest being as documented, raises TypeError; as quotes, without multiline_quotes,
ValueError (as if there were no quote marks). -/
theorem C85_iterator_error {Q : QKind α} (hQ : ProperQ Q) (E : Env α) (s : List α) {escape multiline : QArg}
    {l : List Elem} {q ml : List (List α)} {e : List α} (hq : ListsQ Q (.iter l) q) (he : EscapeIs Q escape e)
    (hm : MultilineAre Q multiline ml) (hi : multiline.isIter = false) (hq0 : [] ∉ q) (hm0 : [] ∉ ml) :
    splitQuotedCall Q E s (.iter l) escape multiline .none =
      .error (if ml.isEmpty then .valueError else .typeError) := by
  have h1 : quotesOf Q (.iter l) = .ok [] := by
    have := lists_ne_none hQ hq
    unfold quotesOf
    rw [if_neg (by simp [this]), elementsOf_lists hQ hq, if_neg hq0]
    rfl
  unfold splitQuotedCall
  rw [h1]
  dsimp only
  rw [escapeOf_is hQ he, if_neg (by simp [Escape.isRight]), multilineOf_are hQ hm hi, if_neg hm0]
  dsimp only
  unfold finishCall
  rw [List.nil_append]
  cases ml with
  | nil => rfl
  | cons x ml =>
    rw [if_neg (by simp)]
    simp [stateOf, checkRepeats, QArg.isIter]

/-- Something of each kind. -/
example : NotQuotes strQ (.coll [.str ['"'], .bytes [34]]) ∧ NotQuotes bytesQ (.str ['"']) ∧
    QuotesAre strQ (.tuple [.str ['<', '<'], .str ['"']]) [['<', '<'], ['"']] ∧ MultilineAre strQ (.str ['`']) [['`']] ∧
    EscapeIs strQ .none ['\\'] ∧ StateIs strQ (.str ['"']) ['"'] ∧ QuotesAre bytesQ bytesQ.foreignQuotes [[34], [39]] := by
  refine ⟨.among (l := [.str ['"']]) (o := .bytes [34]) (l' := []) (.inr (.inl rfl)) ?_ rfl, .foreign rfl rfl,
    .listed (.tuple rfl), .listed (.text (t := ['`']) rfl), .none, .text rfl, .foreign⟩
  intro x hx
  simp only [List.mem_singleton] at hx
  subst hx
  exact ⟨_, rfl, by simp⟩

end Big.SQ
