import Verif.Lines.MsgModel
import Verif.Lines.Strip
import Verif.Lines.Filters
/-! # C123, C124: the SyntaxErrors of lines_strip_line_comments say where the quote was opened -/
namespace Big.Lines
open Big.MS

variable {α μ : Type} [DecidableEq α] {E : Env α}

/-! ## Specification -/

/-- The exception without its message. -/
def MsgErr.plain : MsgErr α → Err
  | .unterminated _ _ _ => .syntaxError
  | .other e => e

/-- The quote `q` is opened in the line `p`, `before` its opening quote, and not closed in that line; `st` is the quote open
when the line starts. -/
def OpenedIn (E : Env α) (a : Comments α) (st : List α) (p : Pair α μ) (before q : List α) : Prop :=
  ∃ pre seg, Tuples E a st p.2 (pre ++ [(q, seg, [])]) ∧ q ≠ [] ∧ before = Big.SQ.rejoin pre

/-- The line is all inside the quote `q`. -/
def AllInside (E : Env α) (a : Comments α) (q : List α) (p : Pair α μ) : Prop := Tuples E a q p.2 [([], p.2, [])]

/-- The quote `q` is opened in line number `i` of `li`, after the text `before`, and not closed in that line, and all later
lines are inside it. -/
def LeftOpen (E : Env α) (a : Comments α) (li : List (Pair α μ)) (i : Nat) (p : Pair α μ) (before q : List α) : Prop :=
  li[i]? = some p ∧ (∃ st, OpenedIn E a st p before q) ∧ ∀ j p', i < j → li[j]? = some p' → AllInside E a q p'

/-! ## Lemmas -/

/-- The result without the columns. -/
def noCols : Except Err (Scan α × Int × Int) → Except Err (Scan α)
  | .ok r => .ok r.1
  | .error e => .error e

theorem scanM_error {markers : List (List α)} {line : List α} : ∀ {T : List (Big.SQ.Tuple α)} {e st l t c n},
    noCols (scanM markers line st l t c n T e) = scan markers line st l t T e
  | [], none, _, _, _, _, _ => rfl
  | [], some _, _, _, _, _, _ => rfl
  | (lead, seg, trail) :: T, e, st, l, t, c, n => by
    unfold scanM scan
    dsimp only
    by_cases h1 : (!lead.isEmpty) = true
    · rw [if_pos h1, if_pos h1]; exact scanM_error
    rw [if_neg h1, if_neg h1]
    by_cases h2 : (!st.isEmpty) = true
    · rw [if_pos h2, if_pos h2]
      by_cases h3 : (!trail.isEmpty) = true
      · rw [if_pos h3, if_pos h3]; exact scanM_error
      rw [if_neg h3, if_neg h3]
      by_cases h4 : seg ≠ line
      · rw [if_pos h4, if_pos h4]; rfl
      · rw [if_neg h4, if_neg h4]; exact scanM_error
    rw [if_neg h2, if_neg h2]
    match splitComment markers seg with
    | [] => exact scanM_error
    | [_] => exact scanM_error
    | _ :: f :: fields => cases e <;> rfl

/-- The length of the last tuple. -/
def lastLen (n : Int) (T : List (Big.SQ.Tuple α)) : Int :=
  match T.getLast? with
  | none => n
  | some x => tupleLen x

omit [DecidableEq α] in
theorem lastLen_cons (n : Int) (x : Big.SQ.Tuple α) (T : List (Big.SQ.Tuple α)) :
    lastLen n (x :: T) = lastLen (tupleLen x) T := by
  unfold lastLen
  rw [List.getLast?_cons]
  cases T.getLast? <;> rfl

omit [DecidableEq α] in
theorem rejoin_len (x : Big.SQ.Tuple α) (T : List (Big.SQ.Tuple α)) :
    ((Big.SQ.rejoin (x :: T)).length : Int) = tupleLen x + (Big.SQ.rejoin T).length := by
  simp [Big.SQ.rejoin, tupleLen]
  omega

/-- What the variables are after a line without a comment. -/
theorem scanM_noComment {markers : List (List α)} {line : List α} : ∀ {T : List (Big.SQ.Tuple α)} {e st l t c n s l' t' c' n'},
    scanM markers line st l t c n T e = .ok (.noComment s l' t', c', n') →
      c' = c + (Big.SQ.rejoin T).length ∧ n' = lastLen n T ∧ (l', t') = lastQuotes (l, t) T
  | [], none, st, l, t, c, n, s, l', t', c', n', h => by
    unfold scanM at h
    cases h
    simp [Big.SQ.rejoin, lastLen, lastQuotes]
  | [], some _, st, l, t, c, n, s, l', t', c', n', h => by
    unfold scanM at h
    cases h
  | (lead, seg, trail) :: T, e, st, l, t, c, n, s, l', t', c', n', h => by
    have fin : ∀ st', scanM markers line st' lead trail (c + tupleLen (lead, seg, trail)) (tupleLen (lead, seg, trail)) T e
        = .ok (.noComment s l' t', c', n') → c' = c + (Big.SQ.rejoin ((lead, seg, trail) :: T)).length ∧
          n' = lastLen n ((lead, seg, trail) :: T) ∧ (l', t') = lastQuotes (l, t) ((lead, seg, trail) :: T) := by
      intro st' h
      obtain ⟨h1, h2, h3⟩ := scanM_noComment h
      rw [rejoin_len, lastLen_cons, lastQuotes_cons]
      exact ⟨by omega, h2, h3⟩
    unfold scanM at h
    dsimp only at h
    split at h
    · exact fin _ h
    · split at h
      · split at h
        · exact fin _ h
        · split at h
          · cases h
          · exact fin _ h
      · split at h
        · cases e <;> cases h
        · exact fin _ h

/-- A comment is found only outside quotes. -/
theorem scanM_comment {markers : List (List α)} {line : List α} : ∀ {T : List (Big.SQ.Tuple α)} {e st l t c n s x c' n'},
    scanM markers line st l t c n T e = .ok (.comment s x, c', n') → s = []
  | [], none, st, l, t, c, n, s, x, c', n', h => by
    unfold scanM at h
    cases h
  | [], some _, st, l, t, c, n, s, x, c', n', h => by
    unfold scanM at h
    cases h
  | (lead, seg, trail) :: T, e, st, l, t, c, n, s, x, c', n', h => by
    unfold scanM at h
    dsimp only at h
    split at h
    · exact scanM_comment h
    · split at h
      · split at h
        · exact scanM_comment h
        · split at h
          · cases h
          · exact scanM_comment h
      · rename_i hs
        split at h
        · cases e
          · cases h; simpa using hs
          · cases h
        · exact scanM_comment h

/-- Outside quotes, no quote that was open before comes up. -/
theorem scanM_closed {markers : List (List α)} {line : List α} : ∀ {T : List (Big.SQ.Tuple α)} {e l t c n s l' t' c' n'},
    scanM markers line [] l t c n T e = .ok (.noComment s l' t', c', n') → s = []
  | [], none, l, t, c, n, s, l', t', c', n', h => by
    unfold scanM at h
    cases h; rfl
  | [], some _, l, t, c, n, s, l', t', c', n', h => by
    unfold scanM at h
    cases h
  | (lead, seg, trail) :: T, e, l, t, c, n, s, l', t', c', n', h => by
    unfold scanM at h
    dsimp only at h
    split at h
    · exact scanM_closed h
    · rw [if_neg (by simp)] at h
      split at h
      · cases e <;> cases h
      · exact scanM_closed h

theorem scanM_some {markers : List (List α)} {line : List α} : ∀ {T : List (Big.SQ.Tuple α)} {e st l t c n},
    scanM markers line st l t c n T (some e) = .error .syntaxError ∨ scanM markers line st l t c n T (some e) = .error .assertionError
  | [], e, st, l, t, c, n => .inl (by unfold scanM; rfl)
  | (lead, seg, trail) :: T, e, st, l, t, c, n => by
    unfold scanM
    dsimp only
    split
    · exact scanM_some
    · split
      · split
        · exact scanM_some
        · split
          · exact .inr rfl
          · exact scanM_some
      · split
        · exact .inl rfl
        · exact scanM_some

theorem scanM_not_some {markers : List (List α)} {line : List α} {T : List (Big.SQ.Tuple α)} {e st l t c n r}
    (h : scanM markers line st l t c n T (some e) = .ok r) : False := by
  rcases scanM_some (markers := markers) (line := line) (T := T) (e := e) (st := st) (l := l) (t := t) (c := c) (n := n)
    with h' | h'
  · rw [h'] at h; cases h
  · rw [h'] at h; cases h

theorem of_lastQuotes {T : List (Big.SQ.Tuple α)} {q : List α} (hq : q ≠ []) (h : (q, []) = lastQuotes ([], []) T) :
    ∃ pre seg, T = pre ++ [(q, seg, [])] := by
  unfold lastQuotes at h
  cases hl : T.getLast? with
  | none => rw [hl] at h; simp only [Prod.mk.injEq] at h; exact absurd h.1 hq
  | some x =>
    rw [hl] at h
    obtain ⟨pre, hp⟩ := List.getLast?_eq_some_iff.1 hl
    obtain ⟨l, s, t⟩ := x
    simp only [Prod.mk.injEq] at h
    exact ⟨pre, s, by rw [hp, h.1, h.2]⟩

theorem lastLen_append (n : Int) (pre : List (Big.SQ.Tuple α)) (x : Big.SQ.Tuple α) : lastLen n (pre ++ [x]) = tupleLen x := by
  simp [lastLen]

theorem rejoin_snoc (pre : List (Big.SQ.Tuple α)) (x : Big.SQ.Tuple α) :
    ((Big.SQ.rejoin (pre ++ [x])).length : Int) = (Big.SQ.rejoin pre).length + tupleLen x := by
  rw [rejoin_append, List.length_append]
  simp [Big.SQ.rejoin, tupleLen]
  omega

/-- One line that raises. -/
theorem oneM_error {a : Comments α} {t : Track α} {p : Pair α μ} {n c : Int} {q : List α}
    (h : commentOneM E a t p = .error (.unterminated n c q)) :
    ∃ before, OpenedIn E a t.state p before q ∧ q ∉ a.multilineQuotes ∧ n = p.1.lineNumber ∧
      c = p.1.columnNumber + before.length := by
  unfold commentOneM at h
  split at h
  · cases h
  rename_i T e hseg
  split at h
  · cases h
  · split at h <;> cases h
  rename_i st l tr col len hscan
  split at h
  · rename_i hlt
    split at h
    · rename_i hml
      cases h
      simp only [Bool.and_eq_true, Bool.not_eq_true', List.isEmpty_iff, List.isEmpty_eq_false_iff] at hlt
      cases e with
      | some e => exact (scanM_not_some hscan).elim
      | none =>
        have hT := (segmentsOf_eq (E := E) a t.state p.2 T).2 hseg
        obtain ⟨h1, h2, h3⟩ := scanM_noComment hscan
        rw [hlt.2] at h3
        obtain ⟨pre, seg, rfl⟩ := of_lastQuotes hlt.1 h3
        refine ⟨_, ⟨pre, seg, hT, hlt.1, rfl⟩, hml, rfl, ?_⟩
        rw [h1, h2, lastLen_append, rejoin_snoc]
        omega
    · cases h
  · cases h

/-- One line that does not. -/
theorem oneM_ok (hc : CacheOK E.sq.cache) (hsort : ∀ l w, w ∈ E.sq.sort l ↔ w ∈ l) {a : Comments α} {t t' : Track α}
    {p q : Pair α μ} (hst : t.state ≠ [] → t.state ∈ a.multilineQuotes) (h : commentOneM E a t p = .ok (q, t')) :
    t'.state = [] ∨
    (∃ before, OpenedIn E a t.state p before t'.state ∧ t'.state ∈ a.multilineQuotes ∧ t'.start = p.1.lineNumber ∧
      t'.col - t'.len = p.1.columnNumber + before.length) ∨
    (t'.state = t.state ∧ t.state ≠ [] ∧ AllInside E a t.state p ∧ t'.start = t.start ∧ t'.col - t'.len = p.1.columnNumber) := by
  unfold commentOneM at h
  split at h
  · cases h
  rename_i T e hseg
  split at h
  · cases h
  · rename_i st s col len hscan
    split at h
    · cases h
    · cases h
      exact .inl (scanM_comment hscan)
  rename_i st l tr col len hscan
  cases e with
  | some e => exact (scanM_not_some hscan).elim
  | none =>
    have hT := (segmentsOf_eq (E := E) a t.state p.2 T).2 hseg
    obtain ⟨h1, h2, h3⟩ := scanM_noComment hscan
    split at h
    · rename_i hlt
      split at h
      · cases h
      · rename_i hml
        cases h
        simp only [Bool.and_eq_true, Bool.not_eq_true', List.isEmpty_iff, List.isEmpty_eq_false_iff] at hlt
        rw [hlt.2] at h3
        obtain ⟨pre, seg, rfl⟩ := of_lastQuotes hlt.1 h3
        refine .inr (.inl ⟨_, ⟨pre, seg, hT, hlt.1, rfl⟩, by simpa using hml, rfl, ?_⟩)
        dsimp only
        rw [h1, h2, lastLen_append, rejoin_snoc]
        omega
    · cases h
      dsimp only
      by_cases h0 : t.state = []
      · rw [h0] at hscan
        exact .inl (scanM_closed hscan)
      · have hq : ¬ (a.quotes = [] ∧ a.multilineQuotes = []) := by
          rintro ⟨-, h⟩
          have := hst h0
          rw [h] at this; simp at this
        have hT' := hT
        rcases hT with ⟨g1, g2, -⟩ | ⟨-, hs⟩
        · exact absurd ⟨g1, g2⟩ hq
        rcases (tuples_shape hc hsort _ _ _ _ _ _ _ hs).2 h0 with ⟨g1, -⟩ | ⟨-, rfl⟩ | ⟨x, rest, rfl, -⟩
        · exact absurd rfl g1
        · right; right
          have hs' : st = t.state := by
            unfold scanM at hscan
            simp only [List.isEmpty_nil, Bool.not_true, Bool.false_eq_true, if_false] at hscan
            rw [if_pos (by simpa using h0), if_neg (by simp)] at hscan
            unfold scanM at hscan
            cases hscan
            rfl
          refine ⟨hs', h0, hT', rfl, ?_⟩
          rw [h1, h2]
          simp [lastLen, Big.SQ.rejoin, tupleLen]
        · left
          unfold scanM at hscan
          dsimp only at hscan
          rw [if_neg (by simp), if_pos (by simpa using h0), if_pos (by simpa using h0)] at hscan
          exact scanM_closed hscan

/-- The lines from some line on. -/
theorem loopM_spec (hc : CacheOK E.sq.cache) (hsort : ∀ l w, w ∈ E.sq.sort l ↔ w ∈ l) {a : Comments α} {n c : Int} {q : List α} :
    ∀ {li out : List (Pair α μ)} {t : Track α}, (t.state ≠ [] → t.state ∈ a.multilineQuotes) →
    commentLoopM E a t li none = (out, some (.unterminated n c q)) →
    (∃ i p before, n = p.1.lineNumber ∧
      ((q ∉ a.multilineQuotes ∧ li[i]? = some p ∧ (∃ st, OpenedIn E a st p before q) ∧ out.length = i ∧
          c = p.1.columnNumber + before.length) ∨
       (q ∈ a.multilineQuotes ∧ LeftOpen E a li i p before q ∧ out.length = li.length ∧
          ((i + 1 = li.length ∧ c = p.1.columnNumber + before.length) ∨
           (i + 1 < li.length ∧ ∃ last, li.getLast? = some last ∧ c = last.1.columnNumber))))) ∨
    (q = t.state ∧ q ≠ [] ∧ n = t.start ∧ out.length = li.length ∧ (∀ p ∈ li, AllInside E a q p) ∧
      c = match li.getLast? with | none => t.col - t.len | some last => last.1.columnNumber)
  | [], out, t, _, h => by
    unfold commentLoopM at h
    simp only [Prod.mk.injEq] at h
    obtain ⟨rfl, h⟩ := h
    split at h
    · cases h
    · rename_i hs
      cases h
      exact .inr ⟨rfl, by simpa using hs, rfl, rfl, by simp, rfl⟩
  | p :: rest, out, t, hst, h => by
    unfold commentLoopM at h
    cases hone : commentOneM E a t p with
    | error e =>
      rw [hone] at h
      cases h
      obtain ⟨before, h1, h2, h3, h4⟩ := oneM_error hone
      exact .inl ⟨0, p, before, h3, .inl ⟨h2, rfl, ⟨_, h1⟩, rfl, h4⟩⟩
    | ok r =>
      obtain ⟨p', t'⟩ := r
      rw [hone] at h
      dsimp only at h
      cases hr : commentLoopM E a t' rest none with
      | mk out' e' =>
        rw [hr] at h
        simp only [Prod.mk.injEq] at h
        obtain ⟨rfl, rfl⟩ := h
        have hcase := oneM_ok hc hsort hst hone
        have hst' : t'.state ≠ [] → t'.state ∈ a.multilineQuotes := by
          intro hne
          rcases hcase with h | ⟨_, _, h, _⟩ | ⟨h, _⟩
          · exact absurd h hne
          · exact h
          · rw [h] at hne ⊢; exact hst hne
        rcases loopM_spec hc hsort hst' hr with ⟨i, p1, before, h1, h2⟩ | ⟨h1, h2, h3, h4, h5, h6⟩
        · left
          refine ⟨i + 1, p1, before, h1, ?_⟩
          rcases h2 with ⟨g1, g2, g3, g4, g5⟩ | ⟨g1, ⟨g2, g3, g4⟩, g5, g6⟩
          · exact .inl ⟨g1, by simpa using g2, g3, by simp [g4], g5⟩
          · refine .inr ⟨g1, ⟨by simpa using g2, g3, ?_⟩, by simp [g5], ?_⟩
            · intro j p' hj hp
              cases j with
              | zero => omega
              | succ j => exact g4 j p' (by omega) (by simpa using hp)
            · rcases g6 with ⟨k1, k2⟩ | ⟨k1, last, k2, k3⟩
              · exact .inl ⟨by simp [k1], k2⟩
              · refine .inr ⟨by simpa using k1, last, ?_, k3⟩
                rw [List.getLast?_cons, k2]; rfl
        · rcases hcase with h | ⟨before, k1, k2, k3, k4⟩ | ⟨k1, k2, k3, k4, k5⟩
          · rw [h1, h] at h2; exact absurd rfl h2
          · left
            rw [← h1] at k1 k2
            refine ⟨0, p, before, by rw [h3, k3], .inr ⟨k2, ⟨rfl, ⟨_, k1⟩, ?_⟩, by simp [h4], ?_⟩⟩
            · intro j p1 hj hp
              cases j with
              | zero => omega
              | succ j => exact h5 p1 (List.mem_of_getElem? (by simpa using hp))
            · cases hl : rest.getLast? with
              | none =>
                rw [hl] at h6
                have : rest = [] := List.getLast?_eq_none_iff.1 hl
                exact .inl ⟨by simp [this], by rw [h6]; exact k4⟩
              | some last =>
                rw [hl] at h6
                refine .inr ⟨?_, last, by rw [List.getLast?_cons, hl]; rfl, h6⟩
                cases rest with
                | nil => simp at hl
                | cons => simp
          · right
            refine ⟨by rw [h1, k1], h2, by rw [h3, k4], by simp [h4], ?_, ?_⟩
            · intro p1 hp
              rcases List.mem_cons.1 hp with rfl | hp
              · rw [h1, k1]; exact k3
              · exact h5 p1 hp
            · rw [h6, List.getLast?_cons]
              cases rest.getLast? with
              | none => exact k5
              | some last => rfl

/-! ## The theorems -/

/-- The model with messages is the model of C66 with messages. -/
theorem loopM_plain (a : Comments α) : ∀ (li : List (Pair α μ)) (t : Track α) (e : Option Err),
    ((commentLoopM E a t li e).1, (commentLoopM E a t li e).2.map MsgErr.plain) = commentLoop E a t.state li e
  | [], t, some e => rfl
  | [], t, none => by
    unfold commentLoopM commentLoop
    cases t.state.isEmpty <;> rfl
  | p :: rest, t, e => by
    have hone : (match commentOneM E a t p with
        | .ok r => Except.ok (r.1, r.2.state)
        | .error e => .error e.plain) = commentOne E a t.state p := by
      unfold commentOneM commentOne
      simp only [bind, Except.bind]
      cases segmentsOf E a t.state p.2 with
      | error e => rfl
      | ok i =>
        obtain ⟨T, e'⟩ := i
        dsimp only
        rw [← scanM_error (c := p.1.columnNumber) (n := t.len)]
        cases scanM a.markers p.2 t.state [] [] p.1.columnNumber t.len T e' with
        | error e => rfl
        | ok r =>
          obtain ⟨s, c, n⟩ := r
          cases s with
          | comment st x =>
            dsimp only [noCols]
            cases clipTrailing p.1 p.2 x.length (some x) <;> rfl
          | noComment st l tr =>
            dsimp only [noCols]
            by_cases h1 : (!l.isEmpty && tr.isEmpty) = true
            · rw [if_pos h1, if_pos h1]
              by_cases h2 : l ∉ a.multilineQuotes
              · rw [if_pos h2, if_pos h2]; rfl
              · rw [if_neg h2, if_neg h2]
            · rw [if_neg h1, if_neg h1]
    unfold commentLoopM commentLoop
    rw [← hone]
    cases commentOneM E a t p with
    | error e' => rfl
    | ok r =>
      obtain ⟨q, t'⟩ := r
      dsimp only
      rw [← loopM_plain a rest t' e]

/-- The model with messages yields and raises what the model of C66 does. -/
theorem C123_same_as_C66 (a : Comments α) (li : Stream α μ) :
    ((stripCommentsM E a li).1, (stripCommentsM E a li).2.map MsgErr.plain) =
      Modifier.apply E li (.stripLineComments a) := by
  unfold stripCommentsM Modifier.apply
  dsimp only
  split
  · rfl
  · split
    · rename_i e he; rw [he]; rfl
    · rename_i r hr; rw [hr]; exact loopM_plain a li.1 _ li.2

/-- **C123**, exactly what the SyntaxError says: always the line in which the quote was opened that is open, and the quote. The
column is that of the opening quote if the quote is not a multiline one, or was opened in the last line; else it is the column
number of the last line. -/
theorem C123_message (hc : CacheOK E.sq.cache) (hsort : ∀ l w, w ∈ E.sq.sort l ↔ w ∈ l) (a : Comments α)
    (li : List (Pair α μ)) (out : List (Pair α μ)) (n c : Int) (q : List α)
    (h : stripCommentsM E a (li, none) = (out, some (.unterminated n c q))) :
    ∃ i p before, n = p.1.lineNumber ∧
      ((q ∉ a.multilineQuotes ∧ li[i]? = some p ∧ (∃ st, OpenedIn E a st p before q) ∧ out.length = i ∧
          c = p.1.columnNumber + before.length) ∨
       (q ∈ a.multilineQuotes ∧ LeftOpen E a li i p before q ∧ out.length = li.length ∧
          ((i + 1 = li.length ∧ c = p.1.columnNumber + before.length) ∨
           (i + 1 < li.length ∧ ∃ last, li.getLast? = some last ∧ c = last.1.columnNumber)))) := by
  unfold stripCommentsM at h
  split at h
  · cases h
  split at h
  · cases h
  rcases loopM_spec hc hsort (by simp) h with h | ⟨h1, h2, _⟩
  · exact h
  · exact absurd h1 h2

/-- **C123**, for quotes that may not span lines: the SyntaxError gives the line and the column of the opening quote. -/
theorem C123_single_line (hc : CacheOK E.sq.cache) (hsort : ∀ l w, w ∈ E.sq.sort l ↔ w ∈ l) (a : Comments α)
    (li : List (Pair α μ)) (out : List (Pair α μ)) (n c : Int) (q : List α)
    (h : stripCommentsM E a (li, none) = (out, some (.unterminated n c q))) (hq : q ∉ a.multilineQuotes) :
    ∃ p before, li[out.length]? = some p ∧ (∃ st, OpenedIn E a st p before q) ∧ n = p.1.lineNumber ∧
      c = p.1.columnNumber + before.length := by
  obtain ⟨i, p, before, h1, ⟨_, h2, h3, rfl, h4⟩ | ⟨h2, _⟩⟩ := C123_message hc hsort a li out n c q h
  · exact ⟨p, before, h2, h3, h1, h4⟩
  · exact absurd h2 hq

/-- **C124**, exactly when the column is right for a multiline quote: if it was opened in the last line, or in the column in which
the last line starts. -/
theorem C124_column_iff (hc : CacheOK E.sq.cache) (hsort : ∀ l w, w ∈ E.sq.sort l ↔ w ∈ l) (a : Comments α)
    (li : List (Pair α μ)) (out : List (Pair α μ)) (n c : Int) (q : List α)
    (h : stripCommentsM E a (li, none) = (out, some (.unterminated n c q))) (hq : q ∈ a.multilineQuotes) :
    ∃ i p before last, LeftOpen E a li i p before q ∧ n = p.1.lineNumber ∧ li.getLast? = some last ∧
      (c = p.1.columnNumber + before.length ↔
        i + 1 = li.length ∨ last.1.columnNumber = p.1.columnNumber + before.length) := by
  obtain ⟨i, p, before, h1, ⟨h2, _⟩ | ⟨_, h3, _, h4⟩⟩ := C123_message hc hsort a li out n c q h
  · exact absurd hq h2
  · rcases h4 with ⟨k1, k2⟩ | ⟨k1, last, k2, k3⟩
    · cases hl : li.getLast? with
      | none =>
        rw [List.getLast?_eq_none_iff.1 hl] at k1
        simp at k1
      | some last => exact ⟨i, p, before, last, h3, h1, rfl, by simp [k1, k2]⟩
    · refine ⟨i, p, before, last, h3, h1, k2, ?_⟩
      rw [k3]
      constructor
      · exact .inr
      · rintro (h | h)
        · omega
        · exact h

/-- **C124**, for a multiline quote opened in the last line. -/
theorem C124_column (hc : CacheOK E.sq.cache) (hsort : ∀ l w, w ∈ E.sq.sort l ↔ w ∈ l) (a : Comments α)
    (li : List (Pair α μ)) (out : List (Pair α μ)) (n c : Int) (q : List α)
    (h : stripCommentsM E a (li, none) = (out, some (.unterminated n c q))) (hq : q ∈ a.multilineQuotes) :
    ∃ i p before, LeftOpen E a li i p before q ∧ n = p.1.lineNumber ∧
      (i + 1 = li.length → c = p.1.columnNumber + before.length) := by
  obtain ⟨i, p, before, last, h1, h2, _, h3⟩ := C124_column_iff hc hsort a li out n c q h hq
  exact ⟨i, p, before, h1, h2, fun h => h3.2 (.inl h)⟩

/-- The lines of a text through lines_strip_line_comments: the exception. -/
def runMsgs (s : String) : Option (MsgErr Char) :=
  (stripCommentsM strEnv hash (lines (μ := Unit) strEnv 1 (.text s.toList none))).2

/-- The hypotheses of the theorems, and the message of C123: a quote that may not span lines, opened in line 2, column 5. -/
example : runMsgs "b\nx = 'a\nc" = some (.unterminated 2 5 ['\'']) ∧ CacheOK strEnv.sq.cache ∧
    ∀ l w, w ∈ strEnv.sq.sort l ↔ w ∈ l :=
  ⟨by decide +kernel, by intro _ _ h; simp [strEnv, Big.SQ.strEnv] at h, fun _ _ => Iff.rfl⟩

/-- The column is wrong: the quote opens in line 1, column 5. -/
theorem C124_counterexample_multiline : runMsgs "x = \"a\nb" = some (.unterminated 1 1 ['"']) ∧
    runMsgs "b\nx = \"a" = some (.unterminated 2 5 ['"']) ∧
    runMsgs "b\nx = 'a\nc" = some (.unterminated 2 5 ['\'']) := by decide +kernel

end Big.Lines
