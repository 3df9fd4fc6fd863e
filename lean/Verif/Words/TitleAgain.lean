import Verif.Words.TitleExact
import Verif.Words.ArgsModel
/-! # C136: gently_title applied again -/
namespace Big.Words

variable {α : Type} [DecidableEq α] {E : TitleEnv α} {apos quote : α → Bool}

/-- What upper-casing is assumed to do (as `str.upper` and `bytes.upper` do): the first character of the result
stays as it is when upper-cased, it is whitespace, a left parenthesis or a quote mark only if the character was;
a quote mark is not changed; it is D or O if the whole is, and then it is the whole; and there is no whitespace
or left parenthesis after it. -/
structure Settled (E : TitleEnv α) (apos quote : α → Bool) : Prop where
  first : ∀ c, ∃ d ds, E.upper c = d :: ds ∧ E.upper d = [d] ∧
    (E.space d = true ∨ d = E.lparen → E.space c = true ∨ c = E.lparen) ∧
    (apos d = true ∨ quote d = true → apos c = true ∨ quote c = true) ∧
    E.isDO (E.upper c) = E.isDO [d] ∧ (E.isDO (E.upper c) = true → ds = []) ∧
    ∀ x ∈ ds, ¬ (E.space x = true ∨ x = E.lparen)
  mark : ∀ c, apos c = true ∨ quote c = true → E.upper c = [c]

theorem gentlyLoop_inWord (ds r : List α) (h : ∀ x ∈ ds, ¬ (E.space x = true ∨ x = E.lparen)) :
    gentlyLoop E apos quote .inWord (ds ++ r) = ds ++ gentlyLoop E apos quote .inWord r := by
  induction ds with
  | nil => rfl
  | cons x ds ih =>
    have hx := h x (by simp)
    have : (E.space x || decide (x = E.lparen)) = false := by
      simp only [not_or] at hx
      simp [hx.1, hx.2]
    simp only [List.cons_append, gentlyLoop, gentlyStep, this, Bool.false_eq_true, if_false,
      List.nil_append]
    rw [ih (fun y hy => h y (by simp [hy]))]

theorem gentlyLoop_again (hS : Settled E apos quote) (s : List α) : ∀ st : TState,
    gentlyLoop E apos quote st (gentlyLoop E apos quote st s) = gentlyLoop E apos quote st s := by
  induction s with
  | nil => intro st; rfl
  | cons c s ih =>
    intro st
    -- a character that is not changed
    have same : ∀ st', gentlyStep E apos quote st c = ([c], st') →
        gentlyLoop E apos quote st (gentlyLoop E apos quote st (c :: s)) = gentlyLoop E apos quote st (c :: s) := by
      intro st' h
      simp only [gentlyLoop, h, List.cons_append, List.nil_append, ih]
    -- a character that is upper-cased, and then a word goes on
    have up : ∀ d ds, E.upper c = d :: ds → (∀ x ∈ ds, ¬ (E.space x = true ∨ x = E.lparen)) →
        gentlyStep E apos quote st c = (E.upper c, .inWord) → gentlyStep E apos quote st d = ([d], .inWord) →
        gentlyLoop E apos quote st (gentlyLoop E apos quote st (c :: s)) = gentlyLoop E apos quote st (c :: s) := by
      intro d ds h1 h2 h3 h4
      have h0 : gentlyLoop E apos quote st (c :: s) = d :: (ds ++ gentlyLoop E apos quote .inWord s) := by
        simp only [gentlyLoop, h3, h1, List.cons_append]
      rw [h0]
      conv => lhs; unfold gentlyLoop
      rw [h4]
      dsimp only
      rw [gentlyLoop_inWord _ _ h2, ih]
      rfl
    obtain ⟨d, ds, f1, f2, f3, f4, f5, f6, f7⟩ := hS.first c
    cases st with
    | inWord => exact same _ rfl
    | afterDO => exact same _ rfl
    | afterDOApos => exact up d ds f1 f7 rfl (by simp only [gentlyStep, f2])
    | afterQuote =>
      by_cases hq : (apos c || quote c) = true
      · exact same .afterQuote (by simp only [gentlyStep, hq, if_true])
      · have hq' : (apos d || quote d) = false := by
          cases h : (apos d || quote d) with
          | false => rfl
          | true =>
            simp only [Bool.or_eq_true] at h hq
            exact absurd (f4 h) hq
        exact up d ds f1 f7 (by simp only [gentlyStep]; rw [if_neg hq]) (by simp only [gentlyStep, hq', f2]; rfl)
    | afterSpace =>
      by_cases hsp : (E.space c || decide (c = E.lparen)) = true
      · exact same .afterSpace (by simp only [gentlyStep, hsp, if_true])
      · have hsd : (E.space d || decide (d = E.lparen)) = false := by
          cases h : (E.space d || decide (d = E.lparen)) with
          | false => rfl
          | true =>
            simp only [Bool.or_eq_true, decide_eq_true_eq] at h hsp
            exact absurd (f3 h) hsp
        have hsp' : (E.space c || decide (c = E.lparen)) = false := by simpa using hsp
        by_cases hq : (apos c || quote c) = true
        · have hm := hS.mark c (by simpa using hq)
          exact same .afterQuote (by simp only [gentlyStep, hsp', Bool.false_eq_true, if_false, hq, if_true, hm])
        · have hq' : (apos d || quote d) = false := by
            cases h : (apos d || quote d) with
            | false => rfl
            | true =>
              simp only [Bool.or_eq_true] at h hq
              exact absurd (f4 h) hq
          have hq2 : (apos c || quote c) = false := by simpa using hq
          by_cases hdo : E.isDO (E.upper c) = true
          · have hds := f6 hdo
            subst hds
            have h1 : gentlyStep E apos quote .afterSpace c = ([d], .afterDO) := by
              simp only [gentlyStep, hsp', Bool.false_eq_true, if_false, hq2, hdo, if_true]; rw [f1]
            have h2 : gentlyStep E apos quote .afterSpace d = ([d], .afterDO) := by
              rw [f5] at hdo
              simp only [gentlyStep, hsd, Bool.false_eq_true, if_false, hq', f2, hdo, if_true]
            simp only [gentlyLoop, h1, h2, List.cons_append, List.nil_append, ih]
          · refine up d ds f1 f7 ?_ ?_
            · simp only [gentlyStep, hsp', Bool.false_eq_true, if_false, hq2, hdo]
            · rw [f5] at hdo
              simp only [gentlyStep, hsd, Bool.false_eq_true, if_false, hq', f2, hdo]

/-- C136: gently_title of its own result, with the same quote marks, changes nothing. -/
theorem C136_gently_title_again (s t : List α) (a d : Option (List (List α)))
    (hS : ∀ apos quote, quoteTest E.defApos a = .ok apos → quoteTest E.defQuote d = .ok quote → Settled E apos quote)
    (h : gentlyTitle E s a d = .ok t) : gentlyTitle E t a d = .ok t := by
  unfold gentlyTitle at h ⊢
  cases h1 : quoteTest E.defApos a with
  | error e => rw [h1] at h; simp at h
  | ok apos =>
    rw [h1] at h
    cases h2 : quoteTest E.defQuote d with
    | error e => rw [h2] at h; simp at h
    | ok quote =>
      rw [h2] at h
      simp only [Except.ok.injEq] at h ⊢
      subst h
      exact gentlyLoop_again (hS apos quote h1 h2) s .afterSpace

theorem settled_bytes : Settled bytesTitle bytesTitle.defApos bytesTitle.defQuote := by
  have key : ∀ n : Fin 256, let c : UInt8 := UInt8.ofFin n
      ∃ d ∈ bytesTitle.upper c, bytesTitle.upper c = [d] ∧ bytesTitle.upper d = [d] ∧
        (bytesTitle.space d = true ∨ d = bytesTitle.lparen → bytesTitle.space c = true ∨ c = bytesTitle.lparen) ∧
        (bytesTitle.defApos d = true ∨ bytesTitle.defQuote d = true →
          bytesTitle.defApos c = true ∨ bytesTitle.defQuote c = true) ∧
        (bytesTitle.defApos c = true ∨ bytesTitle.defQuote c = true → bytesTitle.upper c = [c]) := by
    decide +kernel
  refine ⟨fun c => ?_, fun c h => ?_⟩
  · obtain ⟨d, _, h1, h2, h3, h4, _⟩ := key c.toFin
    exact ⟨d, [], h1, h2, h3, h4, congrArg bytesTitle.isDO h1, fun _ => rfl, by simp⟩
  · obtain ⟨d, _, h1, _, _, _, h5⟩ := key c.toFin
    exact h5 h

/-- C136: so for bytes, with the default quote marks, gently_title applied twice is gently_title. -/
theorem C136_gently_title_bytes (s t : List UInt8) (h : gentlyTitle bytesTitle s none none = .ok t) :
    gentlyTitle bytesTitle t none none = .ok t := by
  refine C136_gently_title_again s t none none ?_ h
  intro apos quote h1 h2
  simp only [quoteTest, Except.ok.injEq] at h1 h2
  subst h1; subst h2
  exact settled_bytes

/-- C136: with a lower-case letter as a quote mark the second time is not the same. -/
theorem C136_counterexample_letter_as_quote :
    gentlyTitle asciiTitle "xa".toList (some ["x".toList]) none = .ok "XA".toList ∧
    gentlyTitle asciiTitle "x xa a".toList (some ["x".toList]) none = .ok "X xa A".toList ∧
    gentlyTitle asciiTitle "X xa A".toList (some ["x".toList]) none = .ok "X XA A".toList := by decide +kernel

end Big.Words
