import Verif.Multisplit.PatternModel
/-!
# C140: separators are taken literally, whatever characters they are made of
-/
namespace Big.MS
open Big.Rx
variable {α R : Type} [DecidableEq α]

/-- What is known of str and of bytes: ASCII characters have their ASCII codes, the codes are different, and the characters
that mean something in a regular expression are not white space. -/
structure Alphabet.Proper (A : Alphabet α) : Prop where
  inj : ∀ a b, A.code a = A.code b → a = b
  ascii : ∀ n, n < 128 → A.code (A.chr n) = n
  space : ∀ a, A.isSpace a = true → A.code a ∉ Re.special

theorem strAlphabet_proper : strAlphabet.Proper where
  inj := fun a b h => Char.ext (UInt32.toNat_inj.1 h)
  ascii := by
    intro n h
    have : n.isValidChar := Or.inl (by omega)
    show (Char.ofNat n).toNat = n
    simp [Char.ofNat, this, Char.toNat, Char.ofNatAux]
  space := by
    intro a h
    simp only [strAlphabet, decide_eq_true_eq] at h
    have : Re.special = [46, 92, 91, 123, 40, 41, 42, 43, 63, 94, 36, 124] := by decide
    rw [this]
    simp only [strAlphabet, List.mem_cons, List.not_mem_nil, or_false]
    omega

theorem bytesAlphabet_proper : bytesAlphabet.Proper where
  inj := fun a b h => UInt8.toNat_inj.1 h
  ascii := by
    intro n h
    show (UInt8.ofNat n).toNat = n
    simp; omega
  space := by
    intro a h
    simp only [bytesAlphabet, decide_eq_true_eq] at h
    have : Re.special = [46, 92, 91, 123, 40, 41, 42, 43, 63, 94, 36, 124] := by decide
    rw [this]
    simp only [bytesAlphabet, List.mem_cons, List.not_mem_nil, or_false]
    omega

/-- Two patterns that match the same texts, in the same order of preference, with the same groups. -/
def Equiv (a b : Rx α) : Prop :=
  ∀ (R : Type) (s : List α) (c : Caps α) (k : List α → Caps α → Option R), a.m s c k = b.m s c k

theorem Equiv.refl (a : Rx α) : Equiv a a := fun _ _ _ _ => rfl

theorem Equiv.seq {a b a' b' : Rx α} (h : Equiv a a') (h' : Equiv b b') : Equiv (.seq a b) (.seq a' b') := by
  intro R s c k
  simp only [Rx.m]
  rw [h]
  congr 1
  funext s c
  exact h' R s c k

theorem Equiv.alt {a b a' b' : Rx α} (h : Equiv a a') (h' : Equiv b b') : Equiv (.alt a b) (.alt a' b') := by
  intro R s c k
  simp only [Rx.m]
  rw [h, h']

theorem Equiv.star {a a' : Rx α} (h : Equiv a a') : Equiv (.star a) (.star a') := by
  intro R s c k
  simp only [Rx.m]
  have : (a.m : _ → _ → _ → Option R) = a'.m := by
    funext s c k; exact h R s c k
  rw [this]

theorem Equiv.plus {a a' : Rx α} (h : Equiv a a') : Equiv (.plus a) (.plus a') := h.seq h.star

theorem Equiv.grp {a a' : Rx α} (n : String) (h : Equiv a a') : Equiv (.grp n a) (.grp n a') := by
  intro R s c k
  simp only [Rx.m]
  exact h _ _ _ _

theorem Equiv.trans {a b c : Rx α} (h : Equiv a b) (h' : Equiv b c) : Equiv a c := by
  intro R s x k; rw [h, h']

theorem seq_eps (a : Rx α) : Equiv (.seq a .eps) a := by
  intro R s c k
  simp only [Rx.m]

/-! ### Reading -/
namespace Re
variable {A : Alphabet α} {nl : α}

theorem special_eq : special = [46, 92, 91, 123, 40, 41, 42, 43, 63, 94, 36, 124] := by decide

theorem escaped_eq : escaped = [40, 41, 91, 93, 123, 125, 63, 42, 43, 45, 124, 94, 36, 92, 46, 38, 126, 35, 32, 9, 10, 13,
    11, 12] := by decide

theorem code_chr' (hA : A.Proper) {n : Nat} (h : n < 128) : A.code (A.chr n) = n := hA.ascii n h

theorem code_chr (hA : A.Proper) {n : Nat} (h : n < 128 := by omega) : A.code (A.chr n) = n := hA.ascii n h

/-- Where items end: at the end, before a `|` or before a `)`. -/
def Ends (A : Alphabet α) : List α → Prop
  | [] => True
  | c :: _ => A.code c = 124 ∨ A.code c = 41

/-- No repetition follows. -/
def NoRep (A : Alphabet α) : List α → Prop
  | [] => True
  | c :: _ => A.code c ≠ 42 ∧ A.code c ≠ 43 ∧ A.code c ≠ 63

theorem Ends.noRep {r : List α} (h : Ends A r) : NoRep A r := by
  cases r with
  | nil => trivial
  | cons c r => simp only [Ends] at h; simp only [NoRep]; omega

theorem repeated_none {r : List α} (h : NoRep A r) (a : Rx α) : repeated A a r = (a, r) := by
  cases r with
  | nil => rfl
  | cons c r =>
    simp only [NoRep] at h
    simp [repeated, h.1, h.2.1, h.2.2]

theorem readSeq_end {n : Nat} {r : List α} (h : Ends A r) : readSeq A nl (n + 1) r = some (.eps, r) := by
  cases r with
  | nil => rfl
  | cons c r =>
    simp only [Ends] at h
    simp [readSeq, h]

/-- A literal character. -/
theorem readAtom_plain {c : α} (h : A.code c ∉ special) (n : Nat) (t : List α) :
    readAtom A nl (n + 1) c t = some (.cls (fun x => decide (x = c)), t) := by
  have h' := h
  rw [special_eq] at h'
  simp only [List.mem_cons, List.not_mem_nil, or_false, not_or] at h'
  simp [readAtom, h, h'.2.1, h'.2.2.2.2.1, h'.2.2.2.2.2.2.2.2.2.1, h'.2.2.2.2.2.2.2.2.2.2.1]

/-- An escaped character. -/
theorem readAtom_escaped (hA : A.Proper) {c : α} (h : A.code c ∈ escaped) (n : Nat) (t : List α) :
    readAtom A nl (n + 1) (A.chr 92) (c :: t) = some (.cls (fun x => decide (x = c)), t) := by
  rw [escaped_eq] at h
  simp only [List.mem_cons, List.not_mem_nil, or_false] at h
  have h1 : A.code c ≠ 115 := by omega
  have h2 : alnum (A.code c) = false := by
    simp only [alnum, Bool.or_eq_false_iff, Bool.and_eq_false_iff, decide_eq_false_iff_not]
    omega
  simp [readAtom, code_chr' hA, h1, h2]

theorem reEscape_noRep (hA : A.Proper) (w : List α) {r : List α} (h : Ends A r) : NoRep A (reEscape A w ++ r) := by
  cases w with
  | nil => exact h.noRep
  | cons c w =>
    unfold reEscape
    split
    · simp [NoRep, code_chr' hA]
    · rename_i hc
      rw [escaped_eq] at hc
      simp only [List.mem_cons, List.not_mem_nil, or_false, not_or] at hc
      simp only [NoRep, List.cons_append]
      omega

/-- An escaped text is read as that text. -/
theorem readSeq_escape (hA : A.Proper) {r : List α} (h : Ends A r) : ∀ (w : List α) (n : Nat),
    (reEscape A w).length < n → readSeq A nl n (reEscape A w ++ r) = some (lit w, r)
  | [], n, hn => by
    obtain ⟨n, rfl⟩ : ∃ m, n = m + 1 := ⟨n - 1, by simp [reEscape] at hn; omega⟩
    exact readSeq_end h
  | c :: w, n, hn => by
    unfold reEscape at hn ⊢
    by_cases hc : A.code c ∈ escaped
    · rw [if_pos hc] at hn ⊢
      simp only [List.length_cons] at hn
      obtain ⟨n, rfl⟩ : ∃ m, n = m + 1 + 1 := ⟨n - 2, by omega⟩
      have h92 : ¬ (A.code (A.chr 92) = 124 ∨ A.code (A.chr 92) = 41) := by rw [code_chr hA]; omega
      rw [List.cons_append, List.cons_append, readSeq, if_neg h92, readAtom_escaped hA hc]
      dsimp only
      rw [repeated_none (reEscape_noRep hA w h), readSeq_escape hA h w (n + 1) (by omega)]
      rfl
    · rw [if_neg hc] at hn ⊢
      simp only [List.length_cons] at hn
      obtain ⟨n, rfl⟩ : ∃ m, n = m + 1 + 1 := ⟨n - 2, by omega⟩
      have hs : A.code c ∉ special := by
        rw [escaped_eq] at hc; rw [special_eq]
        simp only [List.mem_cons, List.not_mem_nil, or_false, not_or] at hc ⊢
        omega
      have h1 : ¬ (A.code c = 124 ∨ A.code c = 41) := by
        rw [special_eq] at hs
        simp only [List.mem_cons, List.not_mem_nil, or_false, not_or] at hs
        omega
      rw [List.cons_append, readSeq, if_neg h1, readAtom_plain hs]
      dsimp only
      rw [repeated_none (reEscape_noRep hA w h), readSeq_escape hA h w (n + 1) (by omega)]
      rfl

/-- White space is read as it is. -/
theorem readSeq_spaces (hA : A.Proper) {r : List α} (h : Ends A r) : ∀ (w : List α) (n : Nat),
    (∀ c ∈ w, A.isSpace c = true) → w.length < n → readSeq A nl n (w ++ r) = some (lit w, r)
  | [], n, _, hn => by
    obtain ⟨n, rfl⟩ : ∃ m, n = m + 1 := ⟨n - 1, by simp at hn; omega⟩
    exact readSeq_end h
  | c :: w, n, hw, hn => by
    simp only [List.length_cons] at hn
    obtain ⟨n, rfl⟩ : ∃ m, n = m + 1 + 1 := ⟨n - 2, by omega⟩
    have hs := hA.space c (hw c (by simp))
    have h1 : ¬ (A.code c = 124 ∨ A.code c = 41) := by
      rw [special_eq] at hs
      simp only [List.mem_cons, List.not_mem_nil, or_false, not_or] at hs
      omega
    have h2 : NoRep A (w ++ r) := by
      cases w with
      | nil => exact h.noRep
      | cons d w =>
        have hs := hA.space d (hw d (by simp))
        rw [special_eq] at hs
        simp only [List.mem_cons, List.not_mem_nil, or_false, not_or] at hs
        simp only [List.cons_append, NoRep]
        omega
    rw [List.cons_append, readSeq, if_neg h1, readAtom_plain hs]
    dsimp only
    rw [repeated_none h2, readSeq_spaces hA h w (n + 1) (fun d hd => hw d (by simp [hd])) (by omega)]
    rfl

theorem str_group (A : Alphabet α) : A.str "(?:" = [A.chr 40, A.chr 63, A.chr 58] := rfl
theorem str_open (A : Alphabet α) : A.str "(" = [A.chr 40] := rfl
theorem str_close (A : Alphabet α) : A.str ")" = [A.chr 41] := rfl
theorem str_plus (A : Alphabet α) : A.str ")+" = [A.chr 41, A.chr 43] := rfl

/-- A group that does not capture. -/
theorem readAtom_group (hA : A.Proper) {n : Nat} {t r : List α} {a : Rx α}
    (h : readAlt A nl n (t ++ A.chr 41 :: r) = some (a, A.chr 41 :: r)) :
    readAtom A nl (n + 1) (A.chr 40) (A.chr 63 :: A.chr 58 :: (t ++ A.chr 41 :: r)) = some (a, r) := by
  simp [readAtom, code_chr' hA, h, closed]

/-- One separator, quoted. -/
theorem readSeq_quote (hA : A.Proper) {r : List α} (h : Ends A r) (w : List α) (n : Nat)
    (hn : (reQuote A w).length < n) : ∃ a, readSeq A nl n (reQuote A w ++ r) = some (a, r) ∧ Equiv a (lit w) := by
  unfold reQuote at hn ⊢
  by_cases h1 : (!(!w.isEmpty && w.all A.isSpace)) = true
  · rw [if_pos h1] at hn ⊢
    exact ⟨_, readSeq_escape hA h w n hn, .refl _⟩
  · rw [if_neg h1] at hn ⊢
    have hw : ∀ c ∈ w, A.isSpace c = true := by
      simp only [Bool.not_eq_true', Bool.not_eq_false, Bool.and_eq_true, List.all_eq_true] at h1
      exact h1.2
    by_cases h2 : w.length > 1
    · rw [if_pos h2] at hn ⊢
      simp only [str_group, str_close, List.length_append, List.length_cons, List.length_nil] at hn
      obtain ⟨n, rfl⟩ : ∃ m, n = m + 1 + 1 + 1 + 1 := ⟨n - 4, by omega⟩
      have hin : readAlt A nl (n + 1 + 1) (w ++ A.chr 41 :: r) = some (lit w, A.chr 41 :: r) := by
        rw [readAlt, readSeq_spaces hA (by simp [Ends, code_chr' hA]) w (n + 1) hw (by omega)]
        dsimp only
        rw [if_neg (by rw [code_chr hA]; omega)]
      refine ⟨.seq (lit w) .eps, ?_, seq_eps _⟩
      have ha := readAtom_group (nl := nl) hA hin
      have h40 : ¬ (A.code (A.chr 40) = 124 ∨ A.code (A.chr 40) = 41) := by rw [code_chr hA]; omega
      have : A.str "(?:" ++ w ++ A.str ")" ++ r = A.chr 40 :: (A.chr 63 :: A.chr 58 :: (w ++ A.chr 41 :: r)) := by
        simp [str_group, str_close]
      rw [this, readSeq, if_neg h40, ha]
      dsimp only
      rw [repeated_none h.noRep, readSeq_end h]
    · rw [if_neg h2] at hn ⊢
      exact ⟨_, readSeq_spaces hA h w n hw hn, .refl _⟩

/-- The separators, quoted, with `|` between them. -/
theorem readAlt_alts (hA : A.Proper) {r : List α} (h : r = [] ∨ ∃ t, r = A.chr 41 :: t) : ∀ (l : List (List α)) (n : Nat),
    (pipeJoin A (l.map (reQuote A))).length + 1 < n →
    ∃ a, readAlt A nl n (pipeJoin A (l.map (reQuote A)) ++ r) = some (a, r) ∧ Equiv a (alts l)
  | [], n, hn => by
    obtain ⟨n, rfl⟩ : ∃ m, n = m + 1 + 1 := ⟨n - 2, by simp [pipeJoin] at hn; omega⟩
    have he : Ends A r := by
      rcases h with rfl | ⟨t, rfl⟩
      · trivial
      · simp [Ends, code_chr' hA]
    refine ⟨.eps, ?_, .refl _⟩
    simp only [List.map_nil, pipeJoin, List.nil_append]
    rw [readAlt, readSeq_end he]
    rcases h with rfl | ⟨t, rfl⟩
    · rfl
    · simp [code_chr' hA]
  | [w], n, hn => by
    simp only [List.map_cons, List.map_nil, pipeJoin] at hn ⊢
    obtain ⟨n, rfl⟩ : ∃ m, n = m + 1 := ⟨n - 1, by omega⟩
    have he : Ends A r := by
      rcases h with rfl | ⟨t, rfl⟩
      · trivial
      · simp [Ends, code_chr' hA]
    obtain ⟨a, ha, hq⟩ := readSeq_quote (nl := nl) hA he w n (by omega)
    refine ⟨a, ?_, hq⟩
    rw [readAlt, ha]
    rcases h with rfl | ⟨t, rfl⟩
    · rfl
    · simp [code_chr' hA]
  | w :: v :: l, n, hn => by
    simp only [List.map_cons, pipeJoin, List.length_append, List.length_cons] at hn ⊢
    obtain ⟨n, rfl⟩ : ∃ m, n = m + 1 := ⟨n - 1, by omega⟩
    have he : Ends A (A.chr 124 :: (pipeJoin A ((v :: l).map (reQuote A)) ++ r)) := by simp [Ends, code_chr' hA]
    obtain ⟨a, ha, hq⟩ := readSeq_quote (nl := nl) hA he w n (by omega)
    obtain ⟨b, hb, hq'⟩ := readAlt_alts hA h (v :: l) n (by simp only [List.map_cons]; omega)
    refine ⟨.alt a b, ?_, hq.alt hq'⟩
    rw [readAlt, List.append_assoc, List.cons_append]
    simp only [List.map_cons] at ha hb
    rw [ha]
    dsimp only
    rw [if_pos (code_chr hA), hb]

/-- The pattern without the group of keep, in front of `r`. -/
theorem readSeq_seps (hA : A.Proper) (seps : List (List α)) {r : List α} (h : Ends A r) (n : Nat)
    (hn : (separatorsToRe A seps false false).length + 4 < n) :
    ∃ a, readSeq A nl n (separatorsToRe A seps false false ++ r) = some (a, r) ∧ Equiv a (sepRe seps false) := by
  have e : separatorsToRe A seps false false =
      A.chr 40 :: A.chr 63 :: A.chr 58 :: (pipeJoin A ((sortSeps seps).map (reQuote A)) ++ [A.chr 41, A.chr 43]) := by
    simp [separatorsToRe, str_group, str_plus]
  rw [e] at hn ⊢
  simp only [List.length_cons, List.length_append, List.length_nil] at hn
  obtain ⟨n, rfl⟩ : ∃ m, n = m + 1 + 1 := ⟨n - 2, by omega⟩
  obtain ⟨a, ha, hq⟩ := readAlt_alts (nl := nl) hA (r := A.chr 41 :: A.chr 43 :: r) (.inr ⟨_, rfl⟩) (sortSeps seps) n (by omega)
  have hat := readAtom_group (nl := nl) hA ha
  refine ⟨.seq (.plus a) .eps, ?_, (seq_eps _).trans ?_⟩
  · have h40 : ¬ (A.code (A.chr 40) = 124 ∨ A.code (A.chr 40) = 41) := by rw [code_chr hA]; omega
    rw [List.cons_append, readSeq, if_neg h40]
    have : A.chr 63 :: A.chr 58 :: (pipeJoin A ((sortSeps seps).map (reQuote A)) ++ [A.chr 41, A.chr 43]) ++ r =
        A.chr 63 :: A.chr 58 :: (pipeJoin A ((sortSeps seps).map (reQuote A)) ++ A.chr 41 :: A.chr 43 :: r) := by simp
    rw [this, hat]
    have hr : repeated A a (A.chr 43 :: r) = (.plus a, r) := by simp [repeated, code_chr' hA]
    dsimp only
    rw [hr, readSeq_end h]
  · simp only [sepRe]
    exact hq.plus

theorem readAlt_of_seq {n : Nat} {s r : List α} {a : Rx α} (h : readSeq A nl n s = some (a, r))
    (hr : r = [] ∨ ∃ c t, r = c :: t ∧ A.code c ≠ 124) : readAlt A nl (n + 1) s = some (a, r) := by
  rw [readAlt, h]
  rcases hr with rfl | ⟨c, t, rfl, hc⟩
  · rfl
  · simp [hc]

/-- The pattern without the group of keep, whole or before a `)`. -/
theorem readAlt_seps (hA : A.Proper) (seps : List (List α)) (separate : Bool) {r : List α}
    (h : r = [] ∨ ∃ t, r = A.chr 41 :: t) (n : Nat) (hn : (separatorsToRe A seps separate false).length + 5 < n) :
    ∃ a, readAlt A nl n (separatorsToRe A seps separate false ++ r) = some (a, r) ∧ Equiv a (sepRe seps separate) := by
  cases separate with
  | true =>
    have e : separatorsToRe A seps true false = pipeJoin A ((sortSeps seps).map (reQuote A)) := by
      simp [separatorsToRe]
    rw [e] at hn ⊢
    obtain ⟨a, ha, hq⟩ := readAlt_alts (nl := nl) hA h (sortSeps seps) n (by omega)
    exact ⟨a, ha, by simpa [sepRe] using hq⟩
  | false =>
    obtain ⟨n, rfl⟩ : ∃ m, n = m + 1 := ⟨n - 1, by omega⟩
    have he : Ends A r := by
      rcases h with rfl | ⟨t, rfl⟩
      · trivial
      · simp [Ends, code_chr' hA]
    obtain ⟨a, ha, hq⟩ := readSeq_seps (nl := nl) hA seps he n (by omega)
    refine ⟨a, readAlt_of_seq ha ?_, hq⟩
    rcases h with rfl | ⟨t, rfl⟩
    · exact .inl rfl
    · exact .inr ⟨_, _, rfl, by rw [code_chr hA]; omega⟩

end Re

/-- The pattern of the separators: with keep, in a group. -/
def patternOf (seps : List (List α)) (separate keep : Bool) : Rx α :=
  if keep then .grp "1" (sepRe seps separate) else sepRe seps separate

/-- **C140**: for all separators, whatever characters they are made of, the text that is handed to re is read by it as: the
separators, each as it is, the longest first, with "or" between them; repeated, unless separate is true; in a group, if
keep is true. -/
theorem C140_separators_are_literal {A : Alphabet α} (hA : A.Proper) (nl : α) (seps : List (List α)) (separate keep : Bool) :
    ∃ r, Re.read A nl (separatorsToRe A seps separate keep) = some r ∧ Equiv r (patternOf seps separate keep) := by
  cases keep with
  | false =>
    obtain ⟨a, ha, hq⟩ := Re.readAlt_seps (nl := nl) hA seps separate (r := []) (.inl rfl)
      (2 * (separatorsToRe A seps separate false).length + 10) (by omega)
    refine ⟨a, ?_, by simpa [patternOf] using hq⟩
    rw [List.append_nil] at ha
    rw [Re.read, ha]
  | true =>
    have e : separatorsToRe A seps separate true = A.chr 40 :: (separatorsToRe A seps separate false ++ [A.chr 41]) := by
      simp [separatorsToRe, Re.str_open, Re.str_close]
    rw [e]
    have hlen : 2 * (A.chr 40 :: (separatorsToRe A seps separate false ++ [A.chr 41])).length + 10 =
        2 * (separatorsToRe A seps separate false).length + 11 + 1 + 1 + 1 := by simp; omega
    obtain ⟨a, ha, hq⟩ := Re.readAlt_seps (nl := nl) hA seps separate (r := [A.chr 41]) (.inr ⟨_, rfl⟩)
      (2 * (separatorsToRe A seps separate false).length + 11) (by omega)
    have hne : ∀ d e t', separatorsToRe A seps separate false ++ [A.chr 41] = d :: e :: t' → A.code d ≠ 63 := by
      intro d e' t' hd hc
      -- a text that begins with `?` cannot be read
      have hd' : d = A.chr 63 := hA.inj _ _ (by rw [hc, Re.code_chr hA])
      subst hd'
      rw [hd] at ha
      have hx : ∀ n, Re.readAtom A nl n (A.chr 63) (e' :: t') = none := by
        intro n
        cases n with
        | zero => simp [Re.readAtom]
        | succ n =>
          have : (63 : Nat) ∈ Re.special := by rw [Re.special_eq]; decide
          simp [Re.readAtom, Re.code_chr' hA, this]
      rw [Re.readAlt, Re.readSeq, if_neg (by rw [Re.code_chr hA]; omega), hx] at ha
      simp at ha
    have hat : Re.readAtom A nl (2 * (separatorsToRe A seps separate false).length + 11 + 1) (A.chr 40)
        (separatorsToRe A seps separate false ++ [A.chr 41]) = some (.grp "1" a, []) := by
      rw [Re.readAtom.eq_def]; dsimp only; rw [if_neg (by rw [Re.code_chr hA]; omega), if_pos (Re.code_chr hA)]
      have hcl : Re.closed A (.grp "1") (Re.readAlt A nl (2 * (separatorsToRe A seps separate false).length + 11)
          (separatorsToRe A seps separate false ++ [A.chr 41])) = some (.grp "1" a, []) := by
        rw [ha]; simp [Re.closed, Re.code_chr' hA]
      match hm : separatorsToRe A seps separate false ++ [A.chr 41] with
      | [] => rw [hm] at hcl; exact hcl
      | [x] => rw [hm] at hcl; exact hcl
      | d :: e' :: t' =>
        rw [hm] at hcl
        dsimp only
        rw [if_neg (hne d e' t' hm)]
        exact hcl
    have hsq : Re.readSeq A nl (2 * (separatorsToRe A seps separate false).length + 11 + 1 + 1)
        (A.chr 40 :: (separatorsToRe A seps separate false ++ [A.chr 41])) = some (.seq (.grp "1" a) .eps, []) := by
      rw [Re.readSeq, if_neg (by rw [Re.code_chr hA]; omega), hat]
      rfl
    refine ⟨.seq (.grp "1" a) .eps, ?_, (seq_eps _).trans (by simpa [patternOf] using hq.grp "1")⟩
    rw [Re.read, hlen, Re.readAlt_of_seq hsq (.inl rfl)]

/-- **C140**, for multistrip (text.py:944-952): `^` and the pattern, matched at the start of the text, and the pattern and
`$`, are read as the pattern, and as the pattern followed by the test for the end. -/
theorem C140_strip_patterns {A : Alphabet α} (hA : A.Proper) (nl : α) (seps : List (List α)) :
    (∃ r, Re.read A nl (A.str "^" ++ separatorsToRe A seps false false) = some r ∧ Equiv r (sepRe seps false)) ∧
    (∃ r, Re.read A nl (separatorsToRe A seps false false ++ A.str "$") = some r ∧
      Equiv r (.seq (sepRe seps false) (.look (atEnd nl)))) := by
  constructor
  · have e : A.str "^" = [A.chr 94] := rfl
    rw [e]
    have hlen : 2 * ([A.chr 94] ++ separatorsToRe A seps false false).length + 10 =
        2 * (separatorsToRe A seps false false).length + 10 + 1 + 1 := by simp; omega
    obtain ⟨a, ha, hq⟩ := Re.readSeq_seps (nl := nl) hA seps (r := []) trivial
      (2 * (separatorsToRe A seps false false).length + 10) (by omega)
    rw [List.append_nil] at ha
    have hat : Re.readAtom A nl (2 * (separatorsToRe A seps false false).length + 9 + 1) (A.chr 94)
        (separatorsToRe A seps false false) = some (.look (fun _ => true), separatorsToRe A seps false false) := by
      rw [Re.readAtom.eq_def]; dsimp only; rw [if_neg (by rw [Re.code_chr hA]; omega), if_neg (by rw [Re.code_chr hA]; omega),
        if_pos (Re.code_chr hA)]
    have hnr : Re.NoRep A (separatorsToRe A seps false false) := by
      simp [separatorsToRe, Re.str_group, Re.NoRep, Re.code_chr' hA]
    have hsq : Re.readSeq A nl (2 * (separatorsToRe A seps false false).length + 10 + 1)
        (A.chr 94 :: separatorsToRe A seps false false) = some (.seq (.look (fun _ => true)) a, []) := by
      rw [Re.readSeq, if_neg (by rw [Re.code_chr hA]; omega), hat]
      dsimp only
      rw [Re.repeated_none hnr, ha]
    refine ⟨.seq (.look (fun _ => true)) a, ?_, ?_⟩
    · rw [Re.read, hlen, List.singleton_append, Re.readAlt_of_seq hsq (.inl rfl)]
    · intro R s c k
      simp only [Rx.m, if_true]
      exact hq R s c k
  · have e : A.str "$" = [A.chr 36] := rfl
    rw [e]
    -- the items after the separators
    have e2 : separatorsToRe A seps false false =
        A.chr 40 :: A.chr 63 :: A.chr 58 :: (pipeJoin A ((sortSeps seps).map (reQuote A)) ++ [A.chr 41, A.chr 43]) := by
      simp [separatorsToRe, Re.str_group, Re.str_plus]
    rw [e2]
    generalize hN : 2 * (A.chr 40 :: A.chr 63 :: A.chr 58 :: (pipeJoin A ((sortSeps seps).map (reQuote A)) ++
      [A.chr 41, A.chr 43]) ++ [A.chr 36]).length + 10 = N
    simp only [List.length_cons, List.length_append, List.length_nil] at hN
    obtain ⟨n, rfl⟩ : ∃ m, N = m + 1 + 1 + 1 := ⟨N - 3, by omega⟩
    obtain ⟨a, ha, hq⟩ := Re.readAlt_alts (nl := nl) hA (r := [A.chr 41, A.chr 43, A.chr 36]) (.inr ⟨_, rfl⟩)
      (sortSeps seps) n (by omega)
    have hat := Re.readAtom_group (nl := nl) hA ha
    have hdol : Re.readSeq A nl (n + 1) [A.chr 36] = some (.seq (.look (atEnd nl)) .eps, []) := by
      obtain ⟨n, rfl⟩ : ∃ m, n = m + 1 := ⟨n - 1, by omega⟩
      rw [Re.readSeq, if_neg (by rw [Re.code_chr hA]; omega), Re.readAtom, if_neg (by rw [Re.code_chr hA]; omega),
        if_neg (by rw [Re.code_chr hA]; omega), if_neg (by rw [Re.code_chr hA]; omega), if_pos (Re.code_chr hA)]
      rfl
    have hsq : Re.readSeq A nl (n + 1 + 1) (A.chr 40 :: (A.chr 63 :: A.chr 58 ::
        (pipeJoin A ((sortSeps seps).map (reQuote A)) ++ [A.chr 41, A.chr 43, A.chr 36]))) =
        some (.seq (.plus a) (.seq (.look (atEnd nl)) .eps), []) := by
      rw [Re.readSeq, if_neg (by rw [Re.code_chr hA]; omega), hat]
      have hr : Re.repeated A a [A.chr 43, A.chr 36] = (.plus a, [A.chr 36]) := by simp [Re.repeated, Re.code_chr' hA]
      dsimp only
      rw [hr, hdol]
    refine ⟨.seq (.plus a) (.seq (.look (atEnd nl)) .eps), ?_, ?_⟩
    · rw [Re.read]
      have : (A.chr 40 :: A.chr 63 :: A.chr 58 :: (pipeJoin A ((sortSeps seps).map (reQuote A)) ++
        [A.chr 41, A.chr 43]) ++ [A.chr 36]) = (A.chr 40 :: (A.chr 63 :: A.chr 58 ::
        (pipeJoin A ((sortSeps seps).map (reQuote A)) ++ [A.chr 41, A.chr 43, A.chr 36]))) := by simp
      have hN' : 2 * (A.chr 40 :: A.chr 63 :: A.chr 58 :: (pipeJoin A ((sortSeps seps).map (reQuote A)) ++
        [A.chr 41, A.chr 43]) ++ [A.chr 36]).length + 10 = n + 1 + 1 + 1 := by
        simp only [List.length_cons, List.length_append, List.length_nil]; omega
      rw [hN', this, Re.readAlt_of_seq hsq (.inl rfl)]
    · exact Equiv.seq (by simpa [sepRe] using hq.plus) (seq_eps _)

/-- **C140**, for lines_filter_line_comment_lines (text.py:3244-3265): `\s*` and the pattern are read as: white space, any
amount, and then the pattern. -/
theorem C140_comment_pattern {A : Alphabet α} (hA : A.Proper) (nl : α) (markers : List (List α)) :
    ∃ r, Re.read A nl (A.str "\\s*" ++ separatorsToRe A markers false false) = some r ∧
      Equiv r (.seq (.star (.cls A.isSpace)) (sepRe markers false)) := by
  have e : A.str "\\s*" = [A.chr 92, A.chr 115, A.chr 42] := rfl
  rw [e]
  have hlen : 2 * ([A.chr 92, A.chr 115, A.chr 42] ++ separatorsToRe A markers false false).length + 10 =
      2 * (separatorsToRe A markers false false).length + 14 + 1 + 1 := by simp; omega
  obtain ⟨a, ha, hq⟩ := Re.readSeq_seps (nl := nl) hA markers (r := []) trivial
    (2 * (separatorsToRe A markers false false).length + 14) (by omega)
  rw [List.append_nil] at ha
  have hat : Re.readAtom A nl (2 * (separatorsToRe A markers false false).length + 13 + 1) (A.chr 92)
      (A.chr 115 :: A.chr 42 :: separatorsToRe A markers false false) =
      some (.cls A.isSpace, A.chr 42 :: separatorsToRe A markers false false) := by
    rw [Re.readAtom, if_pos (Re.code_chr hA)]
    rw [if_pos (Re.code_chr hA)]
  have hsq : Re.readSeq A nl (2 * (separatorsToRe A markers false false).length + 14 + 1)
      (A.chr 92 :: A.chr 115 :: A.chr 42 :: separatorsToRe A markers false false) =
      some (.seq (.star (.cls A.isSpace)) a, []) := by
    rw [Re.readSeq, if_neg (by rw [Re.code_chr hA]; omega), hat]
    have hr : Re.repeated A (.cls A.isSpace) (A.chr 42 :: separatorsToRe A markers false false) =
        (.star (.cls A.isSpace), separatorsToRe A markers false false) := by simp [Re.repeated, Re.code_chr' hA]
    dsimp only
    rw [hr, ha]
  refine ⟨.seq (.star (.cls A.isSpace)) a, ?_, Equiv.seq (.refl _) hq⟩
  rw [Re.read, hlen]
  have : [A.chr 92, A.chr 115, A.chr 42] ++ separatorsToRe A markers false false =
    A.chr 92 :: A.chr 115 :: A.chr 42 :: separatorsToRe A markers false false := rfl
  rw [this, Re.readAlt_of_seq hsq (.inl rfl)]

/-- str and bytes are such alphabets; and separators full of characters that mean something in regular expressions. -/
example : strAlphabet.Proper ∧ bytesAlphabet.Proper ∧
    separatorsToRe strAlphabet ["\r\n".toList, "|".toList, "a.b".toList] false true =
      "((?:a\\.b|(?:\r\n)|\\|)+)".toList :=
  ⟨strAlphabet_proper, bytesAlphabet_proper, by decide +kernel⟩

end Big.MS
