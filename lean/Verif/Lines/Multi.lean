import Verif.Lines.Args
import Verif.Quoted.Resume
/-!
# C132: multiline_quotes given as a str or bytes object
-/
namespace Big.Lines
open Big.MS (CacheOK)
open Big.MS.Spec (pairs Alternates)
variable {α μ : Type} [DecidableEq α]

/-- A leading quote is a quote. -/
theorem loop_leads {E : Big.SQ.Env α} {all ml : List (List α)} : ∀ (ps : List (List α × List α)) (state q : List α)
    (B : List (List α)), (q = [] ∨ q ∈ all) → ∀ x ∈ (Big.SQ.loop E all ml state q B ps).1, x.1 = [] ∨ x.1 ∈ all := by
  intro ps
  induction ps with
  | nil =>
    intro state q B hq x hx
    simp only [Big.SQ.loop, Big.SQ.finish] at hx
    split at hx
    · simp at hx
    · split at hx
      · split at hx
        · simp at hx
        · simp only [List.mem_singleton] at hx
          subst hx
          dsimp only
          split
          · exact hq
          · exact .inl rfl
      · simp at hx
  | cons p ps ih =>
    intro state q B hq x hx
    obtain ⟨y, v⟩ := p
    rw [Big.SQ.loop] at hx
    dsimp only at hx
    split at hx
    · split at hx
      · exact ih _ _ _ hq x hx
      · rename_i hv
        have hv : v ∈ all := by simpa using hv
        split at hx
        · exact ih _ _ _ (.inr hv) x hx
        · simp only [List.mem_cons] at hx
          rcases hx with hx | hx
          · subst hx; exact .inl rfl
          · exact ih _ _ _ (.inr hv) x hx
    · split at hx
      · exact ih _ _ _ hq x hx
      · split at hx
        · simp at hx
        · simp only [List.mem_cons] at hx
          rcases hx with hx | hx
          · subst hx
            dsimp only
            split
            · exact hq
            · exact .inl rfl
          · exact ih _ _ _ (.inl rfl) x hx

/-- A leading quote is one of quotes or multiline_quotes, and not of both. -/
theorem segments_leads {E : Env α} {a : Comments α} {state line : List α} {r} (h : segmentsOf E a state line = .ok r)
    {x : Big.SQ.Tuple α} (hx : x ∈ r.1) (hne : x.1 ≠ []) :
    x.1 ∈ a.quotes ++ a.multilineQuotes ∧ ∀ q ∈ a.quotes, q ∉ a.multilineQuotes := by
  unfold segmentsOf at h
  split at h
  · cases h
    simp only [List.mem_singleton] at hx
    subst hx
    exact absurd rfl hne
  · split at h
    · cases h
    · rename_i r' hr
      cases h
      unfold Big.SQ.splitQuotedStrings at hr
      split at hr
      · cases hr
      · split at hr
        · cases hr
        · split at hr
          · cases hr
          · rename_i hst
            split at hr
            · cases hr
            · split at hr
              · cases hr
              · rename_i h5
                split at hr
                · cases hr
                · cases hr
                  constructor
                  · have := loop_leads _ state state [] (by
                      by_cases hs : state = []
                      · exact .inl hs
                      · right
                        by_cases hm : state ∈ a.quotes ++ a.multilineQuotes
                        · exact hm
                        · exfalso; apply hst
                          have h1 : (a.quotes ++ a.multilineQuotes).contains state = false := by simpa using hm
                          rw [h1]
                          cases state <;> simp_all) x hx
                    rcases this with h | h
                    · exact absurd h hne
                    · exact h
                  · intro q hq hm
                    apply h5
                    exact List.any_eq_true.2 ⟨q, hq, by simpa using hm⟩

/-- C132, one half: if no quote occurs in the text `t`, then multiline_quotes=t is as good as the tuple of the characters
of t (C66 says what happens then: a quote that is not one of them does not span lines). -/
theorem C132_multiline_text (E : Env α) (li : Stream α μ) (markers quotes : List (List α)) (t escape : List α)
    (h : ∀ q ∈ quotes, ¬ q <:+: t) :
    stripMulti E li markers quotes (.text t) escape =
      stripMulti E li markers quotes (.tuple (t.map (fun c => [c]))) escape := by
  unfold stripMulti
  dsimp only [Multi.elems]
  cases hs : segmentsOf E ⟨markers, quotes, t.map (fun c => [c]), escape⟩ [] [E.sq.laden] with
  | error e => rfl
  | ok r =>
    dsimp only
    rw [loopT_eq, loopT_eq]
    · intro _ _ lead _ _
      exact has_tuple _ lead
    · rintro state line lead ⟨r, hr, x, hx, rfl⟩ hne
      obtain ⟨h1, h2⟩ := segments_leads hr hx hne
      dsimp only at h1 h2 ⊢
      rw [Multi.has, contains_iff]
      constructor
      · intro hin
        rcases List.mem_append.1 h1 with h1 | h1
        · exact absurd hin (h _ h1)
        · exact h1
      · intro hm
        simp only [List.mem_map] at hm
        obtain ⟨c, hc, e⟩ := hm
        rw [← e]
        obtain ⟨u, v, rfl⟩ := List.append_of_mem hc
        exact ⟨u, v, by simp⟩

/-- A line that is just a quote. -/
theorem segments_of_quote {E : Env α} (hc : CacheOK E.sq.cache) (hsort : ∀ l w, w ∈ E.sq.sort l ↔ w ∈ l)
    {a : Comments α} {s : List α} {r} (hok : segmentsOf E a [] s = .ok r) {q : List α} (hq : q ∈ a.quotes) :
    q ≠ [] ∧ segmentsOf E a [] q = .ok ([(q, [], [])], none) := by
  have hne : (a.quotes.isEmpty && a.multilineQuotes.isEmpty) = false := by
    cases h : a.quotes <;> simp_all
  unfold segmentsOf at hok ⊢
  rw [hne] at hok ⊢
  simp only [Bool.false_eq_true, if_false] at hok ⊢
  split at hok
  · cases hok
  · rename_i r' hr
    obtain ⟨hall, he, _, call⟩ := Big.SQ.call_eq hc hsort hr
    obtain ⟨L, ⟨hL1, hL2⟩, hL⟩ := call q [] (by simp)
    have hqne : q ≠ [] := fun h => hall (by rw [← h]; exact List.mem_append.2 (.inl hq))
    have hsep : q ∈ Big.SQ.Separators a.quotes a.multilineQuotes a.escape := by
      unfold Big.SQ.Separators
      exact List.mem_append.2 (.inl (List.mem_append.2 (.inl hq)))
    have hLq : L = [[], q, []] := by
      simp only [Bool.false_eq_true, if_false] at hL2
      match L, hL1, hL2 with
      | [n], hL1, hL2 =>
        simp only [List.flatten_cons, List.flatten_nil, List.append_nil] at hL1
        exact absurd (List.prefix_refl q) (by
          have := hL2 [] n rfl q hsep
          rwa [hL1] at this)
      | n :: w :: rest, hL1, hL2 =>
        obtain ⟨h1, h2, h3⟩ := hL2
        simp only [List.flatten_cons] at hL1
        have hn : n = [] := by
          apply Decidable.byContradiction
          intro hn
          have := h1 [] n rfl hn q hsep
          rw [hL1] at this
          exact this (List.prefix_refl q)
        subst hn
        simp only [List.nil_append] at hL1
        simp only [Big.MS.Spec.SepAt, if_true] at h2
        obtain ⟨_, _, h2⟩ := h2
        have hlen := h2 q hsep (by rw [hL1]; exact List.prefix_refl q)
        have hr : rest.flatten = [] := by
          have := congrArg List.length hL1
          simp only [List.length_append] at this
          exact List.eq_nil_of_length_eq_zero (by omega)
        rw [hr, List.append_nil] at hL1
        subst hL1
        match rest, h3, hr with
        | [m], _, hr => simp at hr; rw [hr]
        | m :: w' :: rest', h3, hr =>
          simp only [List.flatten_cons, List.append_eq_nil_iff] at hr
          obtain ⟨_, h4, _⟩ := h3
          simp only [Big.MS.Spec.SepAt, if_true] at h4
          exact absurd (hr.2.1 ▸ h4.1) he
    refine ⟨hqne, ?_⟩
    have hcont : (a.quotes ++ a.multilineQuotes).contains q = true := by simp [hq]
    rw [hL, hLq]
    have hq' : q.isEmpty = false := by cases q <;> simp_all
    simp [pairs, Big.SQ.loop, Big.SQ.finish, Big.SQ.addLiteral, Big.SQ.bad, hq, hq', hqne]

/-- C132, exactly: for arguments that are accepted, multiline_quotes=t is as good as the tuple of the characters of t, for all
lines, if and only if no quote occurs in t. -/
theorem C132_exactly [Nonempty (Info α μ)] (E : Env α) (hc : CacheOK E.sq.cache) (hsort : ∀ l w, w ∈ E.sq.sort l ↔ w ∈ l)
    (markers quotes : List (List α)) (t escape : List α)
    (hok : ∃ r, segmentsOf E ⟨markers, quotes, t.map (fun c => [c]), escape⟩ [] [E.sq.laden] = .ok r) :
    (∀ li : Stream α μ, stripMulti E li markers quotes (.text t) escape =
      stripMulti E li markers quotes (.tuple (t.map (fun c => [c]))) escape) ↔
    ∀ q ∈ quotes, ¬ q <:+: t := by
  constructor
  · intro h q hq hin
    obtain ⟨i⟩ := ‹Nonempty (Info α μ)›
    have := h ([(i, q)], none)
    obtain ⟨r, hr⟩ := hok
    obtain ⟨hqne, hs⟩ := segments_of_quote hc hsort hr (a := ⟨markers, quotes, t.map (fun c => [c]), escape⟩) hq
    have hdis : q ∉ t.map (fun c => [c]) := (segments_leads hs (x := (q, [], [])) (by simp) hqne).2 q hq
    have hq' : q.isEmpty = false := by cases q <;> simp_all
    have hscan : scan markers q [] [] [] [(q, [], [])] none = .ok (.noComment [] q []) := by
      simp [scan, hqne]
    have h1 : commentOneT (μ := μ) E ⟨markers, quotes, t.map (fun c => [c]), escape⟩ (.text t) [] (i, q) = .ok ((i, q), q) := by
      simp only [commentOneT, hs, bind, Except.bind, hscan, hq', Multi.has, (contains_iff q t).2 hin]
      rfl
    have h2 : commentOneT (μ := μ) E ⟨markers, quotes, t.map (fun c => [c]), escape⟩ (.tuple (t.map (fun c => [c]))) [] (i, q)
        = .error .syntaxError := by
      have : (t.map (fun c => [c])).contains q = false := by simpa using hdis
      simp only [commentOneT, hs, bind, Except.bind, hscan, hq', Multi.has, this]
      rfl
    simp [stripMulti, Multi.elems, hr, commentLoopT, h1, h2] at this
  · intro h li
    exact C132_multiline_text E li markers quotes t escape h

/-- A pair for the line. -/
def justLine (line : List Char) : Pair Char Unit :=
  (⟨line, 1, 1, [], [], [], 0, []⟩, line)

/-- C132 fails: with quotes=('ab',), a quoted string that starts with 'ab' may not span lines, and with multiline_quotes=('a',
'b', 'c') SyntaxError is raised if it does; with multiline_quotes='abc' it may. -/
theorem C132_counterexample :
    stripMulti strEnv ([justLine "abx".toList, justLine "yab".toList], none) ["#".toList] ["ab".toList]
      (.tuple ["a".toList, "b".toList, "c".toList]) [] = ([], some .syntaxError) ∧
    stripMulti strEnv ([justLine "abx".toList, justLine "yab".toList], none) ["#".toList] ["ab".toList]
      (.text "abc".toList) [] = ([justLine "abx".toList, justLine "yab".toList], none) := by
  constructor <;> rfl

/-- The hypotheses of C132_multiline_text and C132_exactly are met: quotes="'", multiline_quotes='"'. -/
example : (∀ q ∈ ["'".toList], ¬ q <:+: "\"".toList) ∧
    (∃ r, segmentsOf strEnv ⟨["#".toList], ["'".toList], "\"".toList.map (fun c => [c]), ['\\']⟩ [] [strEnv.sq.laden] = .ok r) := by
  refine ⟨by decide, _, rfl⟩

end Big.Lines
