import Verif.Delims.Loop
/-!
# C48: the theorems about split_delimiters
-/
namespace Big.SD
open Big.MS Big.MS.Spec

variable {α : Type} [DecidableEq α] {E : Env α} {ds : Delims α}

theorem seps_pairs : ∀ l : List (List α), ∀ p ∈ pairs l, p.2 = [] ∨ p.2 ∈ Spec.seps l
  | [], p, h => by simp [pairs] at h
  | [a], p, h => by simp [pairs] at h; exact .inl (by rw [h])
  | n :: w :: r, p, h => by
    simp only [pairs, List.mem_cons] at h
    rcases h with rfl | h
    · right; simp [Spec.seps]
    · rcases seps_pairs r p h with h | h
      · exact .inl h
      · right; simp [Spec.seps, h]

theorem tokens_ne (hne : ds ≠ []) : allTokens E ds ≠ [] := by
  cases ds with
  | nil => exact absurd rfl hne
  | cons a l => simp [allTokens, delimiterTokens, openers]

theorem split_spec (hc : CacheOK E.cache) (h : OK E ds) (hne : ds ≠ []) (s : List α) :
    ∃ L, Splits (allTokens E ds) true false s L ∧ split E ds s = pairs L ∧ flat (split E ds s) = s ∧
      ∀ p ∈ split E ds s, PairOK E ds p := by
  obtain ⟨L, hL, _, _, _, hp⟩ := C38_multisplit_splits_exactly (nl := E.nl) hc (tokens_ne hne) h.noEmpty s
    false true (some (-1)) (.inr rfl)
  have he : split E ds s = pairs L := by
    unfold split
    rw [hp]
    dsimp only
    rw [List.map_map]
    have hpo : (pairOf ∘ fun x : List α × List α => Item.pair x.1 x.2) = id := by funext x; rfl
    rw [hpo, List.map_id]
  refine ⟨L, hL, he, ?_, ?_⟩
  · rw [he]; unfold flat; rw [pairs_flatten]; exact hL.1
  · rw [he]
    intro p hp
    rcases seps_pairs L p hp with h' | h'
    · exact .inl h'
    · right
      simpa using C38_separator_pieces h.noEmpty hL p.2 h'

/-- What the outer loop should do, with `F` left of the text. -/
def RunOK (E : Env α) (ds : Delims α) (L : List (List α × Delim α)) (m : M α) (F : List α)
    (r : List (Tuple α) × Option Err) : Prop :=
  (r.2 = none ∨ r.2 = some .syntaxError) ∧ Nests ds (L.map (·.1)) r.1 ∧
  ((Single E ds ∨ NoFlush E ds) →
    joined r.1 <+: m.buffer.flatten ++ F ∧ (r.2 = none → joined r.1 = m.buffer.flatten ++ F))

theorem finish_spec {L : List (List α × Delim α)} {m m' : M α} {F : List α} {ys : List (Tuple α)}
    (hg : GoOK E ds L m F (ys, .finished m')) :
    RunOK E ds L m F (ys ++ (finish m').1, (finish m').2) := by
  obtain ⟨⟨L', hi', hn⟩, hj⟩ := hg
  dsimp only at hj hn
  unfold finish
  split
  · refine ⟨.inl rfl, hn [] .nil, fun _ => ?_⟩
    have hb : m'.buffer = [] := by simpa using ‹m'.buffer.isEmpty = true›
    rw [hb] at hj
    simp only [List.flatten_nil, List.append_nil] at hj
    simp [hj]
  · split
    · refine ⟨.inr rfl, hn [] .nil, fun _ => ⟨?_, by simp⟩⟩
      rw [← hj]; simp [joined]
    · split
      · refine ⟨.inl rfl, hn [] .nil, fun _ => ?_⟩
        have hb : m'.buffer.flatten = [] := by
          simpa only [List.isEmpty_iff] using ‹m'.buffer.flatten.isEmpty = true›
        rw [hb, List.append_nil] at hj
        simp [hj]
      · have hb : m'.buffer.flatten ≠ [] := by
          simpa only [List.isEmpty_iff] using ‹¬ m'.buffer.flatten.isEmpty = true›
        refine ⟨.inl rfl, hn _ (.text hb), fun _ => ?_⟩
        have : joined (ys ++ [(m'.buffer.flatten, [], [])]) = m.buffer.flatten ++ F := by
          rw [joined_append, ← hj]; simp [joined]
        simp [this]

/-- What the outer loop does. -/
theorem run_spec (hc : CacheOK E.cache) (h : OK E ds) (hd : Disjoint ds) (hne : ds ≠ []) (text : List α) :
    ∀ (fuel : Nat) (ps : List (List α × List α)) (L : List (List α × Delim α)) (m : M α), Inv ds L m →
      (∀ p ∈ ps, PairOK E ds p) → flat ps = text.drop m.consumed → m.consumed ≤ text.length →
      text.length - m.consumed ≤ fuel → RunOK E ds L m (flat ps) (run E ds text fuel ps m) := by
  intro fuel
  induction fuel with
  | zero =>
    intro ps L m hi hp hfl hle hf
    have hg := go_spec h hd ps hp L m hi
    unfold run
    generalize go E ds ps m = r at hg
    obtain ⟨ys, o⟩ := r
    cases o with
    | finished m' => exact finish_spec hg
    | err e =>
      obtain ⟨rfl, h2, h3⟩ := hg
      exact ⟨.inr rfl, h2, fun _ => ⟨h3, by simp⟩⟩
    | resplit m' =>
      obtain ⟨_, h1, _, tail, _, h2, _⟩ := hg
      rw [hfl, List.length_drop] at h2
      omega
  | succ fuel ih =>
    intro ps L m hi hp hfl hle hf
    have hg := go_spec h hd ps hp L m hi
    unfold run
    generalize go E ds ps m = r at hg
    obtain ⟨ys, o⟩ := r
    cases o with
    | finished m' => exact finish_spec hg
    | err e =>
      obtain ⟨rfl, h2, h3⟩ := hg
      exact ⟨.inr rfl, h2, fun _ => ⟨h3, by simp⟩⟩
    | resplit m' =>
      obtain ⟨⟨L', hi', hn⟩, h1, hns, tail, hj, h2, h3⟩ := hg
      dsimp only at hj hn
      obtain ⟨_, _, _, hfl', hpo⟩ := split_spec hc h hne (text.drop m'.consumed)
      rw [hfl, List.length_drop] at h2 h3
      obtain ⟨i1, i2, i3⟩ := ih _ L' m' hi' hpo hfl' (by omega) (by omega)
      refine ⟨i1, hn _ i2, fun hs => ?_⟩
      rcases hs with hs | hs
      · exact absurd hs hns
      obtain ⟨j1, j2⟩ := i3 (.inr hs)
      have htail : tail = text.drop m'.consumed := by
        have hlen := h3 hs
        rw [hfl] at hj
        have hsuf : tail <:+ text := by
          have e : m.buffer.flatten ++ text.drop m.consumed <:+ m.buffer.flatten ++ text.drop m.consumed :=
            List.suffix_rfl
          have h1 : tail <:+ m.buffer.flatten ++ text.drop m.consumed := ⟨_, hj⟩
          have h2 : text.drop m.consumed <:+ m.buffer.flatten ++ text.drop m.consumed := List.suffix_append _ _
          have h3 := List.suffix_of_suffix_length_le h1 h2 (by rw [List.length_drop]; omega)
          exact h3.trans (List.drop_suffix _ _)
        obtain ⟨u, hu⟩ := hsuf
        have : u.length = m'.consumed := by
          have := congrArg List.length hu
          rw [List.length_append] at this
          omega
        rw [← hu, ← this]; simp
      dsimp only
      rw [hfl'] at j1 j2
      rw [htail] at hj
      rw [joined_append]
      constructor
      · obtain ⟨z, hz⟩ := j1
        refine ⟨z, ?_⟩
        rw [List.append_assoc, hz, ← hj, List.append_assoc]
      · intro hnone
        rw [j2 hnone, ← hj, List.append_assoc]

theorem enter_spec (h : OK E ds) (hd : Disjoint ds) : ∀ (state : List (List α)) (L : List (List α × Delim α))
    (m : M α), Inv ds L m → ∀ c st, enter E ds state m.current m.stack = .ok (c, st) →
      ∃ L', Inv ds L' (⟨c, st, m.opn, m.buffer, m.escaped, m.consumed⟩ : M α) ∧
        L'.map (·.1) = state.reverse ++ L.map (·.1)
  | [], L, m, hi, c, st, he => by
    simp only [enter, Except.ok.injEq, Prod.mk.injEq] at he
    obtain ⟨rfl, rfl⟩ := he
    exact ⟨L, ⟨hi.chain, hi.mem⟩, by simp⟩
  | k :: rest, L, m, hi, c, st, he => by
    unfold enter at he
    rcases get_cases h hd hi.current k with ⟨d, hmem, hq, hg⟩ | ⟨hnp, _⟩
    · rw [hg] at he
      dsimp only at he
      obtain ⟨L', h1, h2⟩ := enter_spec h hd rest ((k, d) :: L)
        (⟨some (k, d), (m.current, none) :: m.stack, m.opn, m.buffer, m.escaped, m.consumed⟩ : M α)
        ⟨by simp [hi.chain], fun kd hk => by
          rcases List.mem_cons.1 hk with rfl | hk
          · exact hmem
          · exact hi.mem kd hk⟩ c st he
      exact ⟨L', h1, by rw [h2]; simp⟩
    · cases hg : get E ds m.current k with
      | push x => exact absurd hg (hnp x)
      | _ => rw [hg] at he; simp at he

theorem splitDelimiters_spec (hc : CacheOK E.cache) (h : OK E ds) (s : List α) (state : List (List α)) (r)
    (hr : splitDelimiters E s ds state = .ok r) :
    (r.2 = none ∨ r.2 = some .syntaxError) ∧ Nests ds state.reverse r.1 ∧
    ((Single E ds ∨ NoFlush E ds) → joined r.1 <+: s ∧ (r.2 = none → joined r.1 = s)) := by
  unfold splitDelimiters at hr
  by_cases h1 : ds.isEmpty = true
  · rw [if_pos h1] at hr; simp at hr
  rw [if_neg h1] at hr
  by_cases h2 : [E.backslash] ∈ openers ds
  · rw [if_pos h2] at hr; simp at hr
  rw [if_neg h2] at hr
  by_cases h3 : ((openers ds).any (fun k => (nestedClosers ds).contains k)) = true
  · rw [if_pos h3] at hr; simp at hr
  rw [if_neg h3] at hr
  have hne : ds ≠ [] := by simpa using h1
  have hd : Disjoint ds := by
    intro k hk hk'
    exact h3 (List.any_eq_true.2 ⟨k, hk, by simpa using hk'⟩)
  cases he : enter E ds state none [] with
  | error e => rw [he] at hr; simp at hr
  | ok cs =>
    obtain ⟨c, st⟩ := cs
    rw [he] at hr
    simp only [Except.ok.injEq] at hr
    obtain ⟨L', hi, hL⟩ := enter_spec h hd state [] (⟨none, [], none, [], [], 0⟩ : M α)
      ⟨rfl, by simp⟩ c st he
    obtain ⟨_, _, _, hfl, hpo⟩ := split_spec hc h hne s
    have := run_spec hc h hd hne s s.length (split E ds s) L' _ hi hpo (by simpa using hfl) (by simp) (by simp)
    rw [hr, hfl] at this
    obtain ⟨t1, t2, t3⟩ := this
    rw [hL] at t2
    exact ⟨t1, by simpa using t2, by simpa using t3⟩

/-- C48: for every string, delimiters (of any lengths) and initial state: the tuples nest. Every closer
matches the innermost open delimiter (of the string or of `state`), and there are no openers inside a
quoting delimiter. The only exception once iterating is SyntaxError; in particular the loop ends. -/
theorem C48_delimiters_nest (hc : CacheOK E.cache) (h : OK E ds) (s : List α) (state : List (List α)) (r)
    (hr : splitDelimiters E s ds state = .ok r) :
    Nests ds state.reverse r.1 ∧ (r.2 = none ∨ r.2 = some .syntaxError) :=
  let t := splitDelimiters_spec hc h s state r hr
  ⟨t.2.1, t.1⟩

/-- C90: joining all strings of all tuples recreates the string (or, if SyntaxError is raised, a prefix
of it), if the openers, closers and escapes are single characters. (For longer ones see `C90_rereads`.) -/
theorem C90_lossless_single_characters (hc : CacheOK E.cache) (h : OK E ds)
    (hnl : ∀ n ∈ E.newlines, n.length = 1)
    (h1 : ∀ kd ∈ ds, kd.1.length = 1 ∧ kd.2.close.length = 1 ∧ kd.2.escape.length ≤ 1)
    (s : List α) (state : List (List α)) (r) (hr : splitDelimiters E s ds state = .ok r) :
    joined r.1 <+: s ∧ (r.2 = none → joined r.1 = s) := by
  refine (splitDelimiters_spec hc h s state r hr).2.2 (.inl ?_)
  intro t ht
  unfold allTokens delimiterTokens openers closers escapes allNewlines at ht
  simp only [List.mem_append, List.mem_map, List.mem_filter] at ht
  rcases ht with ((⟨kd, hk, rfl⟩ | ⟨kd, hk, rfl⟩) | ⟨kd, ⟨hk, hq⟩, rfl⟩) | ht
  · exact (h1 kd hk).1
  · exact (h1 kd hk).2.1
  · have := (h1 kd hk).2.2
    have he : kd.2.escape ≠ [] := by rw [Ne, h.esc hk, hq]; simp
    have := List.length_pos_iff.2 he
    omega
  · split at ht
    · exact hnl t ht
    · simp at ht

/-- C90: and for delimiters of any length, if line breaks are allowed everywhere and every opener,
closer and escape has a character in common with each quoting delimiter's closer or escape; for example
if no delimiter quotes. -/
theorem C90_lossless_no_ignored_tokens (hc : CacheOK E.cache) (h : OK E ds)
    (hml : ∀ kd ∈ ds, kd.2.multiline = true)
    (hov : ∀ q ∈ ds, q.2.quoting = true → ∀ kd ∈ ds, ∀ t, (t = kd.1 ∨ t = kd.2.close ∨
      (t = kd.2.escape ∧ t ≠ [])) → ∃ c ∈ t, c ∈ q.2.close ∨ c ∈ q.2.escape)
    (s : List α) (state : List (List α)) (r) (hr : splitDelimiters E s ds state = .ok r) :
    joined r.1 <+: s ∧ (r.2 = none → joined r.1 = s) := by
  refine (splitDelimiters_spec hc h s state r hr).2.2 (.inr ?_)
  have hnl : allNewlines E ds = [] := by
    unfold allNewlines
    rw [if_neg]
    intro hh
    obtain ⟨kd, hk, hb⟩ := List.any_eq_true.1 hh
    rw [hml kd hk] at hb
    simp at hb
  intro st hst t ht
  have htd : t ∈ delimiterTokens ds := by
    unfold allTokens at ht
    rwa [hnl, List.append_nil] at ht
  have htc : ∃ kd ∈ ds, t = kd.1 ∨ t = kd.2.close ∨ (t = kd.2.escape ∧ t ≠ []) := by
    unfold delimiterTokens openers closers escapes at htd
    simp only [List.mem_append, List.mem_map, List.mem_filter] at htd
    rcases htd with (⟨kd, hk, rfl⟩ | ⟨kd, hk, rfl⟩) | ⟨kd, ⟨hk, hq⟩, rfl⟩
    · exact ⟨kd, hk, .inl rfl⟩
    · exact ⟨kd, hk, .inr (.inl rfl)⟩
    · exact ⟨kd, hk, .inr (.inr ⟨rfl, by rw [Ne, h.esc hk, hq]; simp⟩)⟩
  by_cases hq : ∃ kd, st = some kd ∧ kd.2.quoting = true
  · obtain ⟨kd, rfl, hq⟩ := hq
    have hk := hst kd rfl
    have he : kd.2.escape ≠ [] := by rw [Ne, h.esc hk, hq]; simp
    rw [get_quoting (k := kd.1) hq he]
    split
    · simp
    · split
      · simp
      · split
        · simp
        · unfold innerAct
          rw [if_pos ht]
          split
          · simp
          · split
            · simp
            · rw [if_pos]
              · simp
              · obtain ⟨kd', hk', ht'⟩ := htc
                obtain ⟨c, hc1, hc2⟩ := hov kd hk hq kd' hk' t ht'
                exact ⟨c, hc1, List.mem_append.2 hc2⟩
  · have hq' : ∀ kd, st = some kd → kd.2.quoting = false := by
      intro kd e
      cases hh : kd.2.quoting
      · rfl
      · exact absurd ⟨kd, e, hh⟩ hq
    by_cases ho : t ∈ openers ds
    · obtain ⟨d, hm⟩ := mem_openers.1 ho
      rw [get_opener h hq' hm]; simp
    · rw [get_plain (E := E) (plain_of h hst hq') ho]
      unfold truncOf
      split
      · simp
      · cases st with
        | none => simp [htd]
        | some kd =>
          dsimp only
          split
          · rename_i a ha
            split at ha
            · simp only [Option.some.injEq] at ha
              rw [← ha]; simp
            · simp at ha
          · simp [htd]

end Big.SD
