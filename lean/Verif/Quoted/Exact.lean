import Verif.Quoted.Resume
/-!
# C89: where the quote mark can be in quoted text, for all quote marks
-/
namespace Big.SQ
open Big.MS Big.MS.Spec

variable {α : Type}

/-! ### specification -/

/-- `t`, followed by `k`, read from the left. Where a mark (one of `marks`) starts, the longest is read, as a
whole; elsewhere a single character is. No mark read is one that stops the reading. -/
inductive ReadsTo (marks : List (List α)) (stop : List α → Prop) : List α → List α → Prop
  | done {k} : ReadsTo marks stop [] k
  | char {x t k} : NoSep marks (x :: (t ++ k)) → ReadsTo marks stop t k → ReadsTo marks stop (x :: t) k
  | mark {w t k} : Longest marks w (w ++ (t ++ k)) → ¬ stop w → ReadsTo marks stop t k →
      ReadsTo marks stop (w ++ t) k

/-- `q` is not read in `t`, which ends where `q` is read (and `b` is `q`), or where the string ends. -/
def ReadsUntil (marks : List (List α)) (q t b after : List α) : Prop :=
  ReadsTo marks (· = q) t (b ++ after) ∧ (b = q ∧ Longest marks q (q ++ after) ∨ b = [] ∧ after = [])

/-- No quote mark is read in `t`, which ends where one is read, or where the string ends. -/
def ReadsUntilAny (marks all : List (List α)) (t after : List α) : Prop :=
  ReadsTo marks (· ∈ all) t after ∧ (after = [] ∨ ∃ w ∈ all, Longest marks w after)

/-- What the tuple `(a, t, b)`, read where `t` is followed by `b ++ after`, is; `st` is the quote open at the
start of the first tuple. -/
def TupleReads (marks all : List (List α)) (st a t b after : List α) : Prop :=
  (∃ q ∈ all, (a = q ∧ st = [] ∨ a = [] ∧ st = q) ∧ ReadsUntil marks q t b after) ∨
  (a = [] ∧ b = [] ∧ st = [] ∧ t ≠ [] ∧ ReadsUntilAny marks all t after)

/-! ### proof -/

section
variable {marks : List (List α)} {stop : List α → Prop}

theorem readsTo_append {k : List α} : ∀ {t u m : List α}, ReadsTo marks stop t m → m = u ++ k →
    ReadsTo marks stop u k → ReadsTo marks stop (t ++ u) k := by
  intro t u m h
  induction h with
  | done => intro _ h; exact h
  | char h1 _ ih =>
    intro e hu; subst e
    exact .char (by simpa using h1) (ih rfl hu)
  | mark h1 h2 _ ih =>
    intro e hu; subst e
    rw [List.append_assoc]
    exact .mark (by simpa using h1) h2 (ih rfl hu)

theorem readsTo_text : ∀ {n k : List α}, (∀ a b, n = a ++ b → b ≠ [] → NoSep marks (b ++ k)) →
    ReadsTo marks stop n k
  | [], _, _ => .done
  | x :: n, k, h => .char (h [] (x :: n) rfl (by simp))
      (readsTo_text (fun a b e hb => h (x :: a) b (by rw [e]; rfl) hb))

theorem readsTo_mark {w k : List α} (h : Longest marks w (w ++ k)) (hs : ¬ stop w) : ReadsTo marks stop w k := by
  have := ReadsTo.mark (stop := stop) (t := []) (k := k) (by simpa using h) hs .done
  simpa using this

end

variable [DecidableEq α] {E : Env α} {all ml : List (List α)} {marks : List (List α)}

/-- The whole of `S` is read as `out` says; `st` is the open quote whose leading mark is not part of `S`. -/
def OutReads (marks all : List (List α)) (st S : List α) (out : List (Tuple α)) : Prop :=
  ∀ xs a t b ys, out = xs ++ (a, t, b) :: ys → ∃ after,
    S = rejoin xs ++ (a ++ (t ++ (b ++ after))) ∧ TupleReads marks all (if xs = [] then st else []) a t b after

omit [DecidableEq α] in
theorem outReads_nil {st S : List α} : OutReads marks all st S [] := by
  intro xs a t b ys h; simp at h

omit [DecidableEq α] in
theorem outReads_cons {st S R a t b : List α} {out : List (Tuple α)} (hS : S = a ++ (t ++ (b ++ R)))
    (h0 : TupleReads marks all st a t b R) (h1 : OutReads marks all [] R out) :
    OutReads marks all st S ((a, t, b) :: out) := by
  intro xs a' t' b' ys h
  cases xs with
  | nil =>
    simp only [List.nil_append, List.cons.injEq, Prod.mk.injEq] at h
    obtain ⟨⟨rfl, rfl, rfl⟩, _⟩ := h
    exact ⟨R, by simpa [rejoin] using hS, by simpa using h0⟩
  | cons x xs =>
    simp only [List.cons_append, List.cons.injEq] at h
    obtain ⟨rfl, h⟩ := h
    obtain ⟨after, e, ht⟩ := h1 xs a' t' b' ys h
    refine ⟨after, ?_, by simpa using ht⟩
    rw [hS, e]
    simp [rejoin]

theorem loop_reads (hall : [] ∉ all) : ∀ (l : List (List α)) (st quote : List α) (buffer : List (List α)),
    Alternates marks true l → (∀ w ∈ Spec.seps l, w ≠ []) → (st = [] ∨ st = quote) →
    (∀ x ∈ buffer, x ≠ []) → (quote ≠ [] → quote ∈ all) →
    ReadsTo marks (if quote = [] then (· ∈ all) else (· = quote)) buffer.flatten l.flatten →
    OutReads marks all st (owed st quote ++ (buffer.flatten ++ l.flatten))
      (loop E all ml st quote buffer (pairs l)).1
  | [], _, _, _, halt, _, _, _, _, _ => halt.elim
  | [n], st, quote, buffer, halt, _, hst, _, hqa, hr => by
    have hfin : loop E all ml st quote buffer (pairs [n])
        = finish E ml st quote (addLiteral buffer n ++ [[]]) := by
      simp only [pairs, loop]
      by_cases hq : quote.isEmpty = true
      · rw [if_pos hq, if_pos (by simpa using hall)]
      · rw [if_neg hq, if_pos]
        intro h; apply hq; rw [← h]; rfl
    have hbuf : (addLiteral buffer n ++ [[]]).flatten = buffer.flatten ++ n := by
      simp [addLiteral_flatten]
    have hr' : ReadsTo marks (if quote = [] then (· ∈ all) else (· = quote)) (buffer.flatten ++ n) [] :=
      readsTo_append hr (by simp) (readsTo_text (fun a b e _ => by simpa using halt a b e))
    rw [hfin]
    unfold finish
    rw [if_neg (by simp), hbuf]
    dsimp only
    by_cases hany : (!(buffer.flatten ++ n).isEmpty || !quote.isEmpty) = true
    · rw [if_pos hany]
      by_cases hb : bad E ml quote (buffer.flatten ++ n) = true
      · rw [if_pos hb]; exact outReads_nil
      · rw [if_neg hb]
        refine outReads_cons (R := []) ?_ ?_ outReads_nil
        · simp [owed]
        · by_cases hq : quote = []
          · have hst' : st = [] := by rcases hst with h | h <;> simp [h, hq]
            right
            rw [if_pos hq] at hr'
            refine ⟨by simp [hst', hq], rfl, hst', ?_, hr', .inl rfl⟩
            subst hq; simpa using hany
          · left
            rw [if_neg hq] at hr'
            refine ⟨quote, hqa hq, ?_, by simpa using hr', .inr ⟨rfl, rfl⟩⟩
            by_cases h : st = []
            · left; simp [h]
            · right
              rcases hst with h' | h'
              · exact absurd h' h
              · exact ⟨by simp [h], h'⟩
    · rw [if_neg hany]; exact outReads_nil
  | n :: w :: rest, st, quote, buffer, halt, hsn, hst, hne, hqa, hr => by
    have hwne : w ≠ [] := hsn w (by simp [Spec.seps])
    have hsn' : ∀ w ∈ Spec.seps rest, w ≠ [] := fun v hv => hsn v (by simp [Spec.seps, hv])
    obtain ⟨hn, hw, hrest⟩ := halt
    have hw : Longest marks w (w ++ rest.flatten) := by simpa only [SepAt, if_true] using hw
    have hlit : (addLiteral buffer n).flatten = buffer.flatten ++ n := by simp [addLiteral_flatten]
    have hr' : ReadsTo marks (if quote = [] then (· ∈ all) else (· = quote)) (buffer.flatten ++ n)
        (w ++ rest.flatten) := readsTo_append hr (by simp) (readsTo_text hn)
    have hnelit : ∀ x ∈ addLiteral buffer n, x ≠ [] := addLiteral_ne buffer n hne
    have hnew : ∀ x ∈ addLiteral buffer n ++ [w], x ≠ [] := by
      intro z hz
      rcases List.mem_append.1 hz with hz | hz
      · exact hnelit z hz
      · rw [List.mem_singleton.1 hz]; exact hwne
    have hsum : buffer.flatten ++ (n :: w :: rest).flatten
        = (addLiteral buffer n ++ [w]).flatten ++ rest.flatten := by
      simp [addLiteral_flatten]
    simp only [pairs, loop]
    by_cases hq : quote = []
    · have hst' : st = [] := by rcases hst with h | h <;> simp [h, hq]
      subst hst'
      subst hq
      rw [if_pos (by rfl)]
      rw [if_pos rfl] at hr'
      by_cases ha : w ∈ all
      · rw [if_neg (by simpa using ha)]
        have ih := loop_reads hall rest [] w [] hrest hsn' (.inl rfl) (by simp)
          (fun _ => ha) (by simpa using ReadsTo.done)
        by_cases hb : (addLiteral buffer n).isEmpty = true
        · rw [if_pos hb]
          have hb' : addLiteral buffer n = [] := by simpa using hb
          rw [hsum, hb']
          simpa [owed] using ih
        · rw [if_neg hb]
          refine outReads_cons (R := w ++ rest.flatten) ?_ ?_ (by simpa [owed] using ih)
          · simp [owed, addLiteral_flatten]
          · right
            refine ⟨rfl, rfl, rfl, ?_, by rw [hlit]; exact hr', .inr ⟨w, ha, hw⟩⟩
            intro e
            exact hb (by rw [flatten_nil_of hnelit e]; rfl)
      · rw [if_pos (by simpa using ha)]
        rw [hsum]
        refine loop_reads hall rest [] [] _ hrest hsn' (.inl rfl) hnew (by simp) ?_
        rw [if_pos rfl, List.flatten_append, hlit]
        exact readsTo_append hr' (by simp) (by simpa using readsTo_mark hw ha)
    · rw [if_neg (by simpa using hq)]
      rw [if_neg hq] at hr'
      by_cases hwq : w = quote
      · rw [if_neg (by simpa using hwq)]
        subst hwq
        by_cases hb : bad E ml w (addLiteral buffer n).flatten = true
        · rw [if_pos hb]; exact outReads_nil
        · rw [if_neg hb]
          have ih := loop_reads hall rest [] [] [] hrest hsn' (.inl rfl) (by simp)
            (by simp) (by simpa using ReadsTo.done)
          refine outReads_cons (R := rest.flatten) ?_ ?_ (by simpa [owed] using ih)
          · simp [owed, addLiteral_flatten]
          · left
            refine ⟨w, hqa hwne, ?_, by rw [hlit]; exact hr', .inl ⟨rfl, hw⟩⟩
            by_cases h : st = []
            · left; simp [h]
            · right
              rcases hst with h' | h'
              · exact absurd h' h
              · exact ⟨by simp [h], h'⟩
      · rw [if_pos hwq]
        rw [hsum]
        refine loop_reads hall rest st quote _ hrest hsn' hst hnew hqa ?_
        rw [if_neg hq, List.flatten_append, hlit]
        exact readsTo_append hr' (by simp) (by simpa using readsTo_mark hw hwq)

/-- C89, exactly: whatever the string, the quote marks (overlapping or not), the escape and the state, let the
marks be the quote marks, and the escape followed by a mark of `quotes` or by itself. Reading the string from
the left from where a yielded text starts, always taking the longest mark: if the text is quoted by `q`, `q` is
not read until the text ends, and there it is read, or the string ends. So the text can contain its quote mark
only as part of an escape sequence or of another mark. If it is unquoted, no quote mark is read until the text ends, and
there one is, or the string ends. -/
theorem C89_exact (hc : CacheOK E.cache) (hsort : ∀ l w, w ∈ E.sort l ↔ w ∈ l)
    (s : List α) (quotes ml : List (List α)) (escape state : List α) (r)
    (h : splitQuotedStrings E s quotes escape ml state = .ok r)
    (xs ys : List (Tuple α)) (a t b : List α) (hx : r.1 = xs ++ (a, t, b) :: ys) :
    ∃ after, s = rejoin xs ++ (a ++ (t ++ (b ++ after))) ∧
      TupleReads (Separators quotes ml escape) (quotes ++ ml) (if xs = [] then state else []) a t b after := by
  obtain ⟨hall, he, hst, hcall⟩ := call_eq hc hsort h
  obtain ⟨L, hL, hr⟩ := hcall s state hst
  rw [hr] at h
  cases h
  have hseps := C38_separator_pieces he hL
  obtain ⟨hL1, hL2⟩ := hL
  simp only [Bool.false_eq_true, if_false] at hL2
  have := loop_reads (E := E) (ml := ml) hall L state state [] hL2
    (fun w hw => by
      have := hseps w hw
      simp only [if_true] at this
      intro e
      exact he (e ▸ this)) (.inr rfl) (by simp) hst ReadsTo.done xs a t b ys hx
  obtain ⟨after, e, ht⟩ := this
  refine ⟨after, ?_, ht⟩
  rw [← e, hL1]
  cases state <;> simp [owed]

omit [DecidableEq α] in
theorem longest_unique {w v s : List α} (h1 : Longest marks w s) (h2 : Longest marks v s) : w = v := by
  have e : w.length = v.length := Nat.le_antisymm (h2.2.2 w h1.1 h1.2.1) (h1.2.2 v h2.1 h2.2.1)
  exact (List.prefix_of_prefix_length_le h1.2.1 h2.2.1 (by omega)).eq_of_length e

omit [DecidableEq α] in
/-- C89: where quoted text ends is determined: there is only one way to read until `q`. -/
theorem C89_one_reading {q t b after t' b' after' : List α} (he : [] ∉ marks) (hq : q ≠ [])
    (h : ReadsUntil marks q t b after) (h' : ReadsUntil marks q t' b' after')
    (e : t ++ (b ++ after) = t' ++ (b' ++ after')) : t = t' ∧ b = b' ∧ after = after' := by
  obtain ⟨h1, h2⟩ := h
  obtain ⟨h1', h2'⟩ := h'
  generalize hk : b ++ after = k at h1 e
  generalize hk' : b' ++ after' = k' at h1' e
  have hend : ∀ {u m : List α}, ReadsTo marks (· = q) u m → u ≠ [] →
      (b = q ∧ Longest marks q (q ++ after) ∨ b = [] ∧ after = []) → b ++ after = u ++ m → False := by
    intro u m hu hne hb e
    rcases hb with ⟨rfl, hl⟩ | ⟨rfl, rfl⟩
    · cases hu with
      | done => exact hne rfl
      | char hn _ => exact hn _ hl.1 (by have := hl.2.1; rwa [e] at this)
      | mark hw hs _ =>
        rw [List.append_assoc] at e
        rw [e] at hl
        exact hs (longest_unique hw hl)
    · simp at e; exact hne e.1
  have hend' : ∀ {u m : List α}, ReadsTo marks (· = q) u m → u ≠ [] →
      (b' = q ∧ Longest marks q (q ++ after') ∨ b' = [] ∧ after' = []) → b' ++ after' = u ++ m → False := by
    intro u m hu hne hb e
    rcases hb with ⟨rfl, hl⟩ | ⟨rfl, rfl⟩
    · cases hu with
      | done => exact hne rfl
      | char hn _ => exact hn _ hl.1 (by have := hl.2.1; rwa [e] at this)
      | mark hw hs _ =>
        rw [List.append_assoc] at e
        rw [e] at hl
        exact hs (longest_unique hw hl)
    · simp at e; exact hne e.1
  have e0 := e
  clear e
  have key : ∀ {t m : List α}, ReadsTo marks (· = q) t m → ∀ {t' m' : List α}, ReadsTo marks (· = q) t' m' →
      m = k → m' = k' → t ++ m = t' ++ m' → t = t' := by
    intro t m ht
    induction ht with
    | done =>
      intro t' m' ht' em em' e
      cases t' with
      | nil => rfl
      | cons x t' =>
        subst em em'
        exact (hend ht' (by simp) h2 (by rw [hk]; exact e)).elim
    | @char x t m hn ht ih =>
      intro t' m' ht' em em' e
      subst em em'
      cases ht' with
      | done => exact (hend' (.char hn ht) (by simp) h2' (by rw [hk']; exact e.symm)).elim
      | char _ ht' =>
        simp only [List.cons_append, List.cons.injEq] at e
        rw [e.1, ih ht' rfl rfl e.2]
      | mark hw _ _ =>
        refine (hn _ hw.1 ?_).elim
        have e : x :: (t ++ m) = _ := e
        rw [e, List.append_assoc]
        exact List.prefix_append _ _
    | @mark w t m hw hs ht ih =>
      intro t' m' ht' em em' e
      subst em em'
      have hwne : w ≠ [] := fun e => he (e ▸ hw.1)
      cases ht' with
      | done =>
        exact (hend' (.mark hw hs ht) (by simp [hwne]) h2' (by rw [hk']; exact e.symm)).elim
      | char hn ht' =>
        refine (hn _ hw.1 ?_).elim
        have e : (w ++ t) ++ m = _ := e
        show w <+: _
        have : _ = w ++ t ++ m := e.symm
        rw [List.cons_append] at this
        rw [this, List.append_assoc]
        exact List.prefix_append _ _
      | mark hw' _ ht' =>
        rw [List.append_assoc, List.append_assoc] at e
        rw [e] at hw
        have := longest_unique hw hw'
        subst this
        rw [ih ht' rfl rfl (List.append_cancel_left e)]
  have ht := key h1 h1' rfl rfl e0
  subst ht
  have e := List.append_cancel_left e0
  subst hk hk'
  refine ⟨rfl, ?_⟩
  rcases h2 with ⟨rfl, h2⟩ | ⟨rfl, rfl⟩ <;> rcases h2' with ⟨rfl, h2'⟩ | ⟨rfl, rfl⟩
  · exact ⟨rfl, List.append_cancel_left e⟩
  · simp at e; exact absurd e.1 hq
  · simp at e; exact absurd e.1 hq
  · exact ⟨rfl, rfl⟩

/-- `'` and `'''`: the text `a'''b` quoted by `'`. -/
example : ReadsUntil (Separators ["'".toList, "'''".toList] [] ['\\']) "'".toList "a'''b".toList "'".toList [] := by
  refine ⟨?_, .inl ⟨rfl, ?_⟩⟩
  · refine .char (by unfold NoSep; decide) ?_
    refine .mark (w := "'''".toList) (t := ['b']) (by unfold Longest; decide) (by decide) ?_
    exact .char (by unfold NoSep; decide) .done
  · unfold Longest; decide

end Big.SQ
