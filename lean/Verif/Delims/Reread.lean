import Verif.Delims.Single
/-!
# C90 for delimiters of any length: no text is lost, but some may be read again
-/
namespace Big.SD
open Big.MS Big.MS.Spec

variable {α : Type}

/-! ### Specification -/

/-- The text `out` is what one gets reading `s` from `p` to its end, where one may at any time go back, though only
to a place after the one where one went on the last time. -/
inductive Rereads (s : List α) : Nat → List α → Prop
  | rest (p : Nat) : Rereads s p (s.drop p)
  | back {p k q : Nat} {out : List α} : p + k ≤ s.length → p < q → q ≤ p + k → Rereads s q out →
      Rereads s p ((s.drop p).take k ++ out)

theorem Rereads.sublist {s : List α} {p : Nat} {out : List α} (h : Rereads s p out) : (s.drop p).Sublist out := by
  induction h with
  | rest p => exact List.Sublist.refl _
  | @back p k q out h1 h2 h3 _ ih =>
    have e : s.drop p = (s.drop p).take k ++ s.drop (p + k) := by
      rw [← List.drop_drop, List.take_append_drop]
    have hs : (s.drop (p + k)).Sublist (s.drop q) := by
      have : s.drop (p + k) = (s.drop q).drop (p + k - q) := by rw [List.drop_drop]; congr 1; omega
      rw [this]
      exact List.drop_sublist _ _
    conv => lhs; rw [e]
    exact (List.Sublist.refl _).append (hs.trans ih)

variable [DecidableEq α] {E : Env α} {ds : Delims α}

theorem finish_joined {m : M α} : (finish m).2 = none → joined (finish m).1 = m.buffer.flatten := by
  unfold finish
  split
  · intro _
    have hb : m.buffer = [] := by simpa using ‹m.buffer.isEmpty = true›
    simp [joined, hb]
  · split
    · simp
    · split
      · intro _
        have hb : m.buffer.flatten = [] := by simpa only [List.isEmpty_iff] using ‹m.buffer.flatten.isEmpty = true›
        simp [joined, hb]
      · intro _; simp [joined]

theorem finish_prefix (m : M α) : joined (finish m).1 <+: m.buffer.flatten := by
  unfold finish
  split
  · simp [joined]
  · split
    · simp [joined]
    · split
      · simp [joined]
      · simp [joined]

theorem run_rereads (hc : CacheOK E.cache) (h : OK E ds) (hd : Disjoint ds) (hne : ds ≠ []) (text : List α) :
    ∀ (fuel : Nat) (ps : List (List α × List α)) (L : List (List α × Delim α)) (m : M α), Inv ds L m →
      (∀ p ∈ ps, PairOK E ds p) → flat ps = text.drop m.consumed → m.consumed ≤ text.length →
      text.length - m.consumed ≤ fuel →
      ∃ out, Rereads text m.consumed out ∧ joined (run E ds text fuel ps m).1 <+: m.buffer.flatten ++ out ∧
        ((run E ds text fuel ps m).2 = none → joined (run E ds text fuel ps m).1 = m.buffer.flatten ++ out) := by
  intro fuel
  induction fuel with
  | zero =>
    intro ps L m hi hp hfl hle hf
    have hg := go_spec h hd ps hp L m hi
    unfold run
    generalize go E ds ps m = r at hg
    obtain ⟨ys, o⟩ := r
    cases o with
    | finished m' =>
      refine ⟨_, .rest _, ?_, ?_⟩
      · dsimp only
        rw [joined_append, ← hfl, ← hg.2]
        exact List.prefix_append_right_inj _ |>.2 (finish_prefix m')
      · intro hn
        dsimp only at hn ⊢
        rw [joined_append, ← hfl, ← hg.2, finish_joined hn]
    | err e => exact ⟨_, .rest _, hfl ▸ hg.2.2, by simp⟩
    | resplit m' =>
      obtain ⟨_, h1, _, tail, _, h2, _⟩ := hg
      rw [hfl, List.length_drop] at h2
      omega
  | succ fuel ih =>
    intro ps L m hi hp hfl hle hf
    have hg := go_spec h hd ps hp L m hi
    unfold run
    generalize go E ds ps m = r at hg
    obtain ⟨ys, o⟩ := r
    cases o with
    | finished m' =>
      refine ⟨_, .rest _, ?_, ?_⟩
      · dsimp only
        rw [joined_append, ← hfl, ← hg.2]
        exact List.prefix_append_right_inj _ |>.2 (finish_prefix m')
      · intro hn
        dsimp only at hn ⊢
        rw [joined_append, ← hfl, ← hg.2, finish_joined hn]
    | err e => exact ⟨_, .rest _, hfl ▸ hg.2.2, by simp⟩
    | resplit m' =>
      obtain ⟨⟨L', hi', hn⟩, h1, hns, tail, hj, h2, h3⟩ := hg
      dsimp only at hj hn
      obtain ⟨_, _, _, hfl', hpo⟩ := split_spec hc h hne (text.drop m'.consumed)
      rw [hfl, List.length_drop] at h2
      obtain ⟨out, k1, k2, k3⟩ := ih _ L' m' hi' hpo hfl' (by omega) (by omega)
      -- what was read before
      have hk : joined ys ++ m'.buffer.flatten = m.buffer.flatten ++ (text.drop m.consumed).take (text.length - m.consumed - tail.length) := by
        rw [hfl] at hj
        have hsuf : tail <:+ text.drop m.consumed := by
          have h1 : tail <:+ m.buffer.flatten ++ text.drop m.consumed := ⟨_, hj⟩
          exact List.suffix_of_suffix_length_le h1 (List.suffix_append _ _) (by rw [List.length_drop]; omega)
        obtain ⟨u, hu⟩ := hsuf
        have hlen : u.length = text.length - m.consumed - tail.length := by
          have := congrArg List.length hu
          rw [List.length_append, List.length_drop] at this
          omega
        rw [← hu, ← List.append_assoc] at hj
        have := List.append_cancel_right hj
        rw [this, ← hu, ← hlen]
        simp
      refine ⟨_, .back (k := text.length - m.consumed - tail.length) (q := m'.consumed) (by omega) h1 (by omega) k1, ?_, ?_⟩
      · dsimp only
        rw [joined_append, ← List.append_assoc, ← hk, List.append_assoc]
        exact List.prefix_append_right_inj _ |>.2 k2
      · intro hnone
        dsimp only at hnone ⊢
        rw [joined_append, k3 hnone, ← List.append_assoc, hk, List.append_assoc]

theorem splitDelimiters_rereads (hc : CacheOK E.cache) (h : OK E ds) (s : List α) (state : List (List α)) (r)
    (hr : splitDelimiters E s ds state = .ok r) :
    ∃ out, Rereads s 0 out ∧ joined r.1 <+: out ∧ (r.2 = none → joined r.1 = out) := by
  unfold splitDelimiters at hr
  by_cases h1 : ds.isEmpty = true
  · rw [if_pos h1] at hr; simp at hr
  rw [if_neg h1] at hr
  by_cases h2 : [E.backslash] ∈ openers ds
  · rw [if_pos h2] at hr; simp at hr
  rw [if_neg h2] at hr
  by_cases h3 : ((openers ds).any (fun k => (nestedClosers ds).contains k)) = true
  · rw [if_pos h3] at hr; simp at hr
  rw [if_neg h3] at hr
  have hne : ds ≠ [] := by simpa using h1
  have hd : Disjoint ds := by
    intro k hk hk'
    exact h3 (List.any_eq_true.2 ⟨k, hk, by simpa using hk'⟩)
  cases he : enter E ds state none [] with
  | error e => rw [he] at hr; simp at hr
  | ok cs =>
    obtain ⟨c, st⟩ := cs
    rw [he] at hr
    simp only [Except.ok.injEq] at hr
    obtain ⟨L', hi, hL⟩ := enter_spec h hd state [] (⟨none, [], none, [], [], 0⟩ : M α)
      ⟨rfl, by simp⟩ c st he
    obtain ⟨_, _, _, hfl, hpo⟩ := split_spec hc h hne s
    have := run_rereads hc h hd hne s s.length (split E ds s) L' _ hi hpo (by simpa using hfl) (by simp) (by simp)
    rw [hr] at this
    simpa using this

/-- C90, for delimiters of any length: the strings of all tuples, joined, are the string read from its start to its end,
where one may go back and read some of it again; if SyntaxError is raised, a prefix of that. -/
theorem C90_rereads (hc : CacheOK E.cache) (h : OK E ds) (s : List α) (state : List (List α)) (r)
    (hr : splitDelimiters E s ds state = .ok r) :
    ∃ out, Rereads s 0 out ∧ joined r.1 <+: out ∧ (r.2 = none → joined r.1 = out) :=
  splitDelimiters_rereads hc h s state r hr

/-- C90, for delimiters of any length: no text is lost. If no exception is raised, the string is what is left of the
tuples' text if some of its characters are taken out; and it is exactly that text if and only if they are of the same
length. -/
theorem C90_nothing_lost (hc : CacheOK E.cache) (h : OK E ds) (s : List α) (state : List (List α)) (r)
    (hr : splitDelimiters E s ds state = .ok r) (hn : r.2 = none) :
    s.Sublist (joined r.1) ∧ (joined r.1 = s ↔ (joined r.1).length = s.length) := by
  obtain ⟨out, h1, -, h2⟩ := splitDelimiters_rereads hc h s state r hr
  have hs : s.Sublist (joined r.1) := by
    rw [h2 hn]
    simpa using h1.sublist
  refine ⟨hs, fun e => by rw [e], fun e => (hs.eq_of_length e.symm).symm⟩

/-- The hypotheses hold where text is read again (`C90_counterexample_text_duplicated`). -/
example : OK strEnv [("'".toList, quoteDelim "'"), ("{{".toList, plainDelim "}}")] where
  nodup := by decide
  made := by
    intro kd hk
    refine ⟨kd.2.close, kd.2.escape, kd.2.multiline, kd.2.quoting, ?_⟩
    simp only [List.mem_cons, List.not_mem_nil, or_false] at hk
    rcases hk with rfl | rfl <;> rfl
  noEmpty := by decide

/-- There, what is read is "'{{x\\{" and then, two characters back, "\\{{y'". -/
example : Rereads "'{{x\\{{y'".toList 0 "'{{x\\{\\{{y'".toList :=
  .back (k := 6) (q := 4) (by decide) (by decide) (by decide) (.rest 4)

end Big.SD
