import Verif.Delims.MsgModel
import Verif.Delims.Single
/-!
# C78: what the SyntaxErrors of split_delimiters report
-/
namespace Big.SD
open Big.MS Big.MS.Spec

variable {α : Type} [DecidableEq α] {E : Env α} {ds : Delims α}

/-! ### specification -/

/-- What is wrong with the text, and where (`at` counts characters from 0). `skipped` is how many characters before it
are delimiters, escapes or line breaks that mean nothing where they stand. -/
inductive Problem (α : Type) where
  /-- a closing delimiter or escape that is not allowed there -/
  | illegal (at_ skipped : Nat) (c : α)
  /-- a line break inside the quotes opened by `opener`; `inText` if the opener is in the text, not in `state` -/
  | newline (at_ skipped : Nat) (c : α) (opener : List α) (inText : Bool)
  /-- the text ends in an escape -/
  | escape (c : α)
  deriving DecidableEq, Repr

/-- The character is a delimiter or an escape, or a line break if these matter to some delimiter. -/
def special (newlines : List (List α)) (ds : Delims α) (c : α) : Bool :=
  ds.any (fun kd => kd.1 == [c] || kd.2.close == [c] || kd.2.escape == [c]) ||
    (ds.any (fun kd => !kd.2.multiline) && newlines.contains [c])

/-- The first problem of a text, with single-character delimiters. The arguments are as for `parse`, the obvious parser
of C48, without the text: the open delimiters, innermost first, each with whether it was opened in the text; the
escape, if the next character is escaped; the index of the next character; the number of characters skipped so far. -/
def problem (newlines : List (List α)) (ds : Delims α) :
    List ((List α × Delim α) × Bool) → Option α → Nat → Nat → List α → Option (Problem α)
  | _, none, _, _, [] => none
  | _, some e, _, _, [] => some (.escape e)
  | L, some _, i, k, _ :: cs => problem newlines ds L none (i + 1) k cs
  | L, none, i, k, c :: cs =>
    let k' := if special newlines ds c then k + 1 else k
    let outside : Option (Problem α) :=
      match opened ds c with
      | some kd => problem newlines ds ((kd, true) :: L) none (i + 1) k cs
      | none =>
        if ∃ kd ∈ ds, kd.2.close = [c] ∨ kd.2.escape = [c] then some (.illegal i k c)
        else problem newlines ds L none (i + 1) k' cs
    match L with
    | [] => outside
    | ((o, d), t) :: L' =>
      if d.quoting then
        if d.escape = [c] then problem newlines ds L (some c) (i + 1) k cs
        else if d.close = [c] then problem newlines ds L' none (i + 1) k cs
        else if d.multiline = false ∧ [c] ∈ newlines then some (.newline i k c o t)
        else problem newlines ds L none (i + 1) k' cs
      else if d.close = [c] then problem newlines ds L' none (i + 1) k cs
      else outside

/-- The message the code gives for a problem. -/
def Problem.message : Problem α → Msg α
  | .illegal i k c => .illegal (i - k) [c]
  | .newline i k c o t => .newline (i - k) [c] (if t then some o else none)
  | .escape c => .escape [c]

/-- The message that would be right. -/
def Problem.rightMessage : Problem α → Msg α
  | .illegal i _ c => .illegal i [c]
  | .newline i _ c o _ => .newline i [c] (some o)
  | .escape c => .escape [c]

/-- What is skipped before a problem. -/
def Problem.skipped : Problem α → Nat
  | .illegal _ k _ => k
  | .newline _ k _ _ _ => k
  | .escape _ => 0

/-! ### the loop -/

/-- The message, if the loop does not resplit. -/
def finMsg (E : Env α) (ds : Delims α) (ps : List (List α × List α)) (m : M α) : Option (Msg α) :=
  match (go E ds ps m).2 with
  | .finished m' => finishMsg m'
  | .err _ => goMsg E ds ps m
  | .resplit _ => none

/-- `open` and the ones on the stack. -/
def Opens (L : List ((List α × Delim α) × Bool)) (m : M α) : Prop :=
  m.opn :: m.stack.map (·.2) = L.map (fun e => if e.2 then some e.1.1 else none) ++ [none]

theorem special_iff (h : OK E ds) (c : α) : special E.newlines ds c = true ↔ [c] ∈ allTokens E ds := by
  unfold special allTokens
  rw [Bool.or_eq_true, List.mem_append]
  have h1 : (ds.any fun kd => kd.1 == [c] || kd.2.close == [c] || kd.2.escape == [c]) = true ↔
      [c] ∈ delimiterTokens ds := by
    by_cases ho : [c] ∈ openers ds
    · obtain ⟨d, hm⟩ := mem_openers.1 ho
      constructor
      · intro _
        unfold delimiterTokens
        simp only [List.mem_append]
        exact .inl (.inl ho)
      · intro _
        exact List.any_eq_true.2 ⟨_, hm, by simp⟩
    · rw [closer_or_escape h ho, List.any_eq_true]
      constructor
      · rintro ⟨kd, hk, e⟩
        simp only [Bool.or_eq_true, beq_iff_eq] at e
        rcases e with (e | e) | e
        · exact absurd (mem_openers.2 ⟨kd.2, e ▸ hk⟩) ho
        · exact ⟨kd, hk, .inl e⟩
        · exact ⟨kd, hk, .inr e⟩
      · rintro ⟨kd, hk, e | e⟩
        · exact ⟨kd, hk, by simp [e]⟩
        · exact ⟨kd, hk, by simp [e]⟩
  rw [h1]
  unfold allNewlines
  rw [Bool.and_eq_true, List.contains_iff_mem]
  constructor
  · rintro (e | ⟨e1, e2⟩)
    · exact .inl e
    · right; rw [if_pos e1]; exact e2
  · rintro (e | e)
    · exact .inl e
    · right
      split at e
      · rename_i e1; exact ⟨e1, e⟩
      · simp at e

theorem special_false (h : OK E ds) {c : α} (hc : [c] ∉ allTokens E ds) : special E.newlines ds c = false := by
  cases hs : special E.newlines ds c with
  | false => rfl
  | true => exact absurd ((special_iff h c).1 hs) hc

theorem problem_text_one (h : OK E ds) {L : List ((List α × Delim α) × Bool)} (hL : ∀ e ∈ L, e.1 ∈ ds) {c : α}
    (hc : [c] ∉ allTokens E ds) (i k : Nat) (cs : List α) :
    problem E.newlines ds L none i k (c :: cs) = problem E.newlines ds L none (i + 1) k cs := by
  have hct : [c] ∉ delimiterTokens ds := fun hm => hc (List.mem_append.2 (.inl hm))
  have ho : [c] ∉ openers ds := fun hm => hct (by
    unfold delimiterTokens; simp only [List.mem_append]; exact .inl (.inl hm))
  have hno := opened_none.2 ho
  have hne : ¬ ∃ kd ∈ ds, kd.2.close = [c] ∨ kd.2.escape = [c] := fun e => hct ((closer_or_escape h ho).2 e)
  have hsp := special_false h hc
  conv => lhs; unfold problem
  simp only [hno, hsp, hne, if_false, Bool.false_eq_true]
  match L, hL with
  | [], _ => rfl
  | ((o, d), t) :: L, hL =>
    have hk : (o, d) ∈ ds := hL ((o, d), t) (by simp)
    have h1 : d.close ≠ [c] := fun e => hne ⟨_, hk, .inl e⟩
    have h2 : d.escape ≠ [c] := fun e => hne ⟨_, hk, .inr e⟩
    dsimp only
    by_cases hq : d.quoting = true
    · rw [if_pos hq, if_neg h2, if_neg h1, if_neg]
      rintro ⟨hm, hn⟩
      apply hc
      unfold allTokens allNewlines
      rw [if_pos (List.any_eq_true.2 ⟨(o, d), hk, by simp [hm]⟩)]
      exact List.mem_append.2 (.inr hn)
    · rw [if_neg hq, if_neg h1]

theorem problem_text (h : OK E ds) {L : List ((List α × Delim α) × Bool)} (hL : ∀ e ∈ L, e.1 ∈ ds) :
    ∀ (t : List α), (∀ c ∈ t, [c] ∉ allTokens E ds) → ∀ i k cs,
    problem E.newlines ds L none i k (t ++ cs) = problem E.newlines ds L none (i + t.length) k cs
  | [], _, i, k, cs => by simp
  | c :: t, ht, i, k, cs => by
    rw [List.cons_append, problem_text_one h hL (ht c (by simp)), problem_text h hL t (fun c hc => ht c (by simp [hc])),
      List.length_cons, show i + 1 + t.length = i + (t.length + 1) by omega]

theorem problem_escaped (L : List ((List α × Delim α) × Bool)) (e : α) (i k : Nat) (c : α) (cs : List α) (nls) :
    problem nls ds L (some e) i k (c :: cs) = problem nls ds L none (i + 1) k cs := by
  conv => lhs; unfold problem

theorem problem_text' (h : OK E ds) {L : List ((List α × Delim α) × Bool)} (hL : ∀ e ∈ L, e.1 ∈ ds)
    {t : List α} (hne : t ≠ []) (ht : ∀ c ∈ t, [c] ∉ allTokens E ds) (esc : Option α) (i k : Nat) (cs : List α) :
    problem E.newlines ds L esc i k (t ++ cs) = problem E.newlines ds L none (i + t.length) k cs := by
  cases esc with
  | none => exact problem_text h hL t ht i k cs
  | some e =>
    cases t with
    | nil => exact absurd rfl hne
    | cons c t =>
      rw [List.cons_append, problem_escaped, problem_text h hL t (fun c hc => ht c (by simp [hc])),
        List.length_cons, show i + 1 + t.length = i + (t.length + 1) by omega]

theorem finMsg_problem (h : OK E ds) (hd : Disjoint ds) (hsg : Single E ds) : ∀ (ps : List (List α × List α)),
    (∀ p ∈ ps, PairOK E ds p ∧ ∀ c ∈ p.1, [c] ∉ allTokens E ds) →
    ∀ (L : List ((List α × Delim α) × Bool)) (m : M α) (esc : Option α) (i k : Nat), Inv ds (L.map (·.1)) m → Opens L m →
    m.escaped = esc.toList → (m.escaped ≠ [] → m.buffer ≠ []) → m.consumed + k = i →
    finMsg E ds ps m = (problem E.newlines ds L esc i k (flat ps)).map Problem.message
  | [], _, L, m, esc, i, k, hi, ho, he, hb, hk => by
    have : finMsg E ds [] m = finishMsg m := by simp [finMsg, go]
    rw [this]
    unfold finishMsg
    cases esc with
    | none =>
      have : m.escaped = [] := he
      rw [this]
      simp [flat, problem]
    | some e =>
      have he : m.escaped = [e] := he
      have hbn : m.buffer ≠ [] := hb (by rw [he]; simp)
      rw [he, if_neg (by simpa using hbn)]
      simp [flat, problem, Problem.message]
  | (s, dl) :: rest, hp, L, m, esc, i, k, hi, ho, he, hb, hk => by
    have ih := finMsg_problem h hd hsg rest (fun p hp' => hp p (by simp [hp']))
    have hdl : dl = [] ∨ dl ∈ allTokens E ds := (hp (s, dl) (by simp)).1
    have hst : ∀ c ∈ s, [c] ∉ allTokens E ds := (hp (s, dl) (by simp)).2
    have hmem : ∀ e ∈ L, e.1 ∈ ds := fun e he' => hi.mem _ (List.mem_map.2 ⟨e, he', rfl⟩)
    rw [flat_cons]
    unfold finMsg go goMsg
    by_cases h1 : (s.isEmpty && dl.isEmpty) = true
    · rw [if_pos h1, if_pos h1]
      simp only [Bool.and_eq_true, List.isEmpty_iff] at h1
      obtain ⟨rfl, rfl⟩ := h1
      exact ih L m esc i k hi ho he hb hk
    rw [if_neg h1, if_neg h1]
    by_cases h2 : (!m.escaped.isEmpty && s.isEmpty) = true
    · rw [if_pos h2, if_pos h2]
      simp only [Bool.and_eq_true, List.isEmpty_iff] at h2
      obtain ⟨hesc, rfl⟩ := h2
      have hne : dl ≠ [] := by
        rintro rfl; simp at h1
      have hl : dl.length = 1 := by
        rcases hdl with e | e
        · exact absurd e hne
        · exact hsg _ e
      obtain ⟨c, rfl⟩ := List.length_eq_one_iff.1 hl
      dsimp only
      rw [if_pos (show ([c] : List α).length = 1 from rfl), if_pos (show ([c] : List α).length = 1 from rfl)]
      cases esc with
      | none => rw [he] at hesc; simp at hesc
      | some e =>
        show _ = (problem E.newlines ds L (some e) i k (c :: flat rest)).map _
        rw [problem_escaped]
        exact ih L _ none (i + 1) k (hi.of rfl rfl) ho rfl (by simp) (by dsimp only; omega)
    rw [if_neg h2, if_neg h2]
    extract_lets m1
    have hi1 : Inv ds (L.map (·.1)) m1 := ⟨hi.chain, hi.mem⟩
    have ho1 : Opens L m1 := ho
    have he1 : m1.escaped = [] := rfl
    have hk1 : m1.consumed + k = i + s.length := by
      show m.consumed + s.length + k = _
      omega
    clear_value m1
    have hpar : problem E.newlines ds L esc i k (s ++ dl ++ flat rest) =
        problem E.newlines ds L none (i + s.length) k (dl ++ flat rest) := by
      rw [List.append_assoc]
      by_cases hs : s = []
      · subst hs
        have : m.escaped = [] := by simpa using h2
        rw [he] at this
        have : esc = none := by cases esc <;> simp_all
        rw [this]; simp
      · exact problem_text' h hmem hs hst _ _ _ _
    rw [hpar]
    generalize i + s.length = i at hk1
    clear hk
    by_cases h3 : dl.isEmpty = true
    · rw [if_pos h3, if_pos h3]
      have : dl = [] := by simpa using h3
      subst this
      exact ih L m1 none i k hi1 ho1 he1 (by rw [he1]; simp) hk1
    rw [if_neg h3, if_neg h3]
    have hne : dl ≠ [] := by simpa using h3
    have hdl : dl ∈ allTokens E ds := by
      rcases hdl with e | e
      · exact absurd e hne
      · exact e
    obtain ⟨c, rfl⟩ := List.length_eq_one_iff.1 (hsg _ hdl)
    have hcur := hi1.current
    have hsp : special E.newlines ds c = true := (special_iff h c).2 hdl
    rw [List.singleton_append]
    conv => rhs; unfold problem
    rw [hsp]
    simp only [if_true]
    -- a token that is text
    have hflush : get E ds m1.current [c] = .flush →
        (match
          (match get E ds m1.current [c] with
          | .push st => yielding [(m1.buffer.flatten, [c], [])] (go E ds rest (doPush m1 [c] st))
          | a =>
            match handle m1 (resolve E ds m1.current [c] a).2.1 (resolve E ds m1.current [c] a).2.2
              (resolve E ds m1.current [c] a).1 with
            | (ys, .error e) => (ys, .err e)
            | (ys, .ok (m', true)) => (ys, .resplit m')
            | (ys, .ok (m', false)) => yielding ys (go E ds rest m')).2 with
          | .finished m' => finishMsg m'
          | .err _ =>
            (match get E ds m1.current [c] with
            | .push st => goMsg E ds rest (doPush m1 [c] st)
            | a =>
              match handle m1 (resolve E ds m1.current [c] a).2.1 (resolve E ds m1.current [c] a).2.2
                (resolve E ds m1.current [c] a).1 with
              | (_, .error _) => handleMsg m1 (resolve E ds m1.current [c] a).2.1 (resolve E ds m1.current [c] a).1
              | (_, .ok (_, true)) => none
              | (_, .ok (m', false)) => goMsg E ds rest m')
          | .resplit _ => none) = (problem E.newlines ds L none (i + 1) (k + 1) (flat rest)).map Problem.message := by
      intro hg
      rw [hg]
      simp only [resolve, handle]
      rw [yielding_nil]
      exact ih L _ none (i + 1) (k + 1) (hi1.of rfl rfl) ho1 he1 (by rw [he1]; simp) (by dsimp only; omega)
    -- inside a delimiter that does not quote, or outside
    have hplain : (∀ kd, m1.current = some kd → kd.2.quoting = false) →
        (∀ kd, m1.current = some kd → kd.2.close ≠ [c]) →
        (match
          (match get E ds m1.current [c] with
          | .push st => yielding [(m1.buffer.flatten, [c], [])] (go E ds rest (doPush m1 [c] st))
          | a =>
            match handle m1 (resolve E ds m1.current [c] a).2.1 (resolve E ds m1.current [c] a).2.2
              (resolve E ds m1.current [c] a).1 with
            | (ys, .error e) => (ys, .err e)
            | (ys, .ok (m', true)) => (ys, .resplit m')
            | (ys, .ok (m', false)) => yielding ys (go E ds rest m')).2 with
          | .finished m' => finishMsg m'
          | .err _ =>
            (match get E ds m1.current [c] with
            | .push st => goMsg E ds rest (doPush m1 [c] st)
            | a =>
              match handle m1 (resolve E ds m1.current [c] a).2.1 (resolve E ds m1.current [c] a).2.2
                (resolve E ds m1.current [c] a).1 with
              | (_, .error _) => handleMsg m1 (resolve E ds m1.current [c] a).2.1 (resolve E ds m1.current [c] a).1
              | (_, .ok (_, true)) => none
              | (_, .ok (m', false)) => goMsg E ds rest m')
          | .resplit _ => none) =
        (match opened ds c with
        | some kd => problem E.newlines ds ((kd, true) :: L) none (i + 1) k (flat rest)
        | none =>
          if ∃ kd ∈ ds, kd.2.close = [c] ∨ kd.2.escape = [c] then some (.illegal i k c)
          else problem E.newlines ds L none (i + 1) (k + 1) (flat rest)).map Problem.message := by
      intro hq hcl
      by_cases hop : [c] ∈ openers ds
      · obtain ⟨d, hm⟩ := mem_openers.1 hop
        rw [get_opener h hq hm, opened_some h hm]
        dsimp only
        refine Eq.trans ?_ (ih ((([c], d), true) :: L) (doPush m1 [c] ([c], d)) none (i + 1) k ⟨?_, ?_⟩ ?_ ?_ ?_ ?_)
        · rfl
        · simp only [doPush, List.map_cons, List.cons_append, hi1.chain]
        · intro kd hkd
          simp only [List.map_cons, List.mem_cons] at hkd
          rcases hkd with rfl | hkd
          · exact hm
          · exact hi1.mem kd hkd
        · unfold Opens at ho1 ⊢
          simp only [doPush, List.map_cons, ho1, List.cons_append, if_true]
        · exact he1
        · simp [doPush, he1]
        · simp only [doPush, List.length_singleton]; omega
      · rw [opened_none.2 hop]
        have hg := get_plain (E := E) (plain_of h hcur hq) hop
        rw [if_neg (by rintro ⟨kd, e1, e2⟩; exact hcl kd e1 e2)] at hg
        have : truncOf E ds m1.current [c] = none := by
          unfold truncOf
          cases hm : m1.current with
          | none => rfl
          | some kd =>
            dsimp only
            rw [if_neg]
            rintro ⟨_, hpre⟩
            exact hcl kd hm (prefix_single (close_ne h (hcur kd hm)) hpre)
        rw [this] at hg
        dsimp only at hg
        by_cases hdt : [c] ∈ delimiterTokens ds
        · rw [if_pos hdt] at hg
          rw [hg]
          dsimp only
          rw [if_pos ((closer_or_escape h hop).1 hdt)]
          simp only [resolve, handle, handleMsg, Option.map_some, Problem.message]
          rw [show i - k = m1.consumed by omega]
        · rw [if_neg hdt] at hg
          rw [hflush hg]
          dsimp only
          rw [if_neg (fun e => hdt ((closer_or_escape h hop).2 e))]
    -- closing
    have hclose : ∀ e L', L = e :: L' → get E ds m1.current [c] = .pop →
        (match
          (match get E ds m1.current [c] with
          | .push st => yielding [(m1.buffer.flatten, [c], [])] (go E ds rest (doPush m1 [c] st))
          | a =>
            match handle m1 (resolve E ds m1.current [c] a).2.1 (resolve E ds m1.current [c] a).2.2
              (resolve E ds m1.current [c] a).1 with
            | (ys, .error e) => (ys, .err e)
            | (ys, .ok (m', true)) => (ys, .resplit m')
            | (ys, .ok (m', false)) => yielding ys (go E ds rest m')).2 with
          | .finished m' => finishMsg m'
          | .err _ =>
            (match get E ds m1.current [c] with
            | .push st => goMsg E ds rest (doPush m1 [c] st)
            | a =>
              match handle m1 (resolve E ds m1.current [c] a).2.1 (resolve E ds m1.current [c] a).2.2
                (resolve E ds m1.current [c] a).1 with
              | (_, .error _) => handleMsg m1 (resolve E ds m1.current [c] a).2.1 (resolve E ds m1.current [c] a).1
              | (_, .ok (_, true)) => none
              | (_, .ok (m', false)) => goMsg E ds rest m')
          | .resplit _ => none) = (problem E.newlines ds L' none (i + 1) k (flat rest)).map Problem.message := by
      rintro e L' rfl hg
      have hch := hi1.chain
      have hop := ho1
      unfold Opens at hop
      simp only [List.map_cons, List.cons_append, List.cons.injEq] at hch hop
      rw [hg]
      cases hs : m1.stack with
      | nil => rw [hs] at hch; simp at hch
      | cons co stack =>
        obtain ⟨cc, o⟩ := co
        rw [hs] at hch hop
        simp only [resolve, handle, hs]
        exact ih L' (⟨cc, stack, o, [], m1.escaped, m1.consumed + [c].length⟩ : M α) none (i + 1) k
          ⟨hch.2, fun kd' hk => hi1.mem kd' (by simp [hk])⟩ hop.2 he1 (by rw [he1]; simp)
          (by dsimp only [List.length_singleton]; omega)
    cases L with
    | nil =>
      have hcn : m1.current = none := by
        have := hi1.chain
        simpa using (List.cons.inj this).1
      exact hplain (by rw [hcn]; simp) (by rw [hcn]; simp)
    | cons e L =>
      obtain ⟨kd, t⟩ := e
      have hcs : m1.current = some kd := by
        have := hi1.chain
        exact (List.cons.inj this).1
      have hk : kd ∈ ds := hi1.mem kd (by simp)
      dsimp only
      by_cases hq : kd.2.quoting = true
      · rw [if_pos hq]
        have hene : kd.2.escape ≠ [] := by rw [Ne, h.esc hk, hq]; simp
        have hg := get_quoting (E := E) (ds := ds) (k := kd.1) hq hene [c]
        rw [show (kd.1, kd.2) = kd from rfl, ← hcs] at hg
        by_cases e1 : kd.2.escape = [c]
        · rw [if_pos e1]
          rw [if_pos e1.symm] at hg
          rw [hg]
          simp only [resolve, handle]
          rw [yielding_nil]
          exact ih ((kd, t) :: L) _ (some c) (i + 1) k (hi1.of rfl rfl) ho1 rfl (by simp)
            (by dsimp only [List.length_singleton]; omega)
        rw [if_neg e1]
        rw [if_neg (fun e => e1 e.symm)] at hg
        by_cases e2 : kd.2.close = [c]
        · rw [if_pos e2]
          rw [if_pos e2.symm] at hg
          exact hclose (kd, t) L rfl hg
        rw [if_neg e2]
        rw [if_neg (fun e => e2 e.symm)] at hg
        by_cases e3 : kd.2.multiline = false ∧ [c] ∈ E.newlines
        · rw [if_pos e3]
          rw [if_pos e3] at hg
          rw [hg]
          have hop := ho1
          unfold Opens at hop
          simp only [List.map_cons, List.cons_append, List.cons.injEq] at hop
          simp only [resolve, handle, handleMsg, Option.map_some, Problem.message]
          rw [show i - k = m1.consumed by omega, hop.1]
        rw [if_neg e3]
        rw [if_neg e3] at hg
        have hfl : innerAct E ds kd.2 [c] = .flush := by
          unfold innerAct
          rw [if_pos hdl, if_neg (fun hp => e2 (prefix_single (close_ne h hk) hp)),
            if_neg (fun hp => e1 (prefix_single hene hp)), if_neg]
          rintro ⟨x, hx, hx'⟩
          have hx : x = c := by simpa using hx
          subst hx
          have hl1 : kd.2.close.length = 1 := hsg _ (List.mem_append.2 (.inl (mem_tokens_close hk)))
          have hl2 : kd.2.escape.length = 1 := hsg _ (List.mem_append.2 (.inl (mem_tokens_escape h hk hene)))
          obtain ⟨y, hy⟩ := List.length_eq_one_iff.1 hl1
          obtain ⟨z, hz⟩ := List.length_eq_one_iff.1 hl2
          rw [hy] at hx' e2
          rw [hz] at hx' e1
          simp only [List.cons_append, List.nil_append, List.mem_cons, List.not_mem_nil, or_false] at hx'
          rcases hx' with rfl | rfl
          · exact e2 rfl
          · exact e1 rfl
        rw [hfl] at hg
        exact hflush hg
      · rw [if_neg hq]
        have hq : kd.2.quoting = false := by simpa using hq
        by_cases e2 : kd.2.close = [c]
        · rw [if_pos e2]
          refine hclose (kd, t) L rfl ?_
          rw [hcs, ← e2, get_close h hd hk, if_neg]
          rw [(h.esc hk).2 hq]; exact close_ne h hk
        · rw [if_neg e2]
          refine hplain ?_ ?_
          · intro kd' e
            rw [hcs] at e
            cases e; exact hq
          · intro kd' e
            rw [hcs] at e
            cases e; exact e2

/-! ### entering `state` -/

theorem enter_none : ∀ (state : List (List α)) (current : State α) (stack : List (State α × Option (List α))) (c st),
    (∀ e ∈ stack, e.2 = none) → enter E ds state current stack = .ok (c, st) → ∀ e ∈ st, e.2 = none
  | [], current, stack, c, st, h, he => by
    simp only [enter, Except.ok.injEq, Prod.mk.injEq] at he
    obtain ⟨rfl, rfl⟩ := he
    exact h
  | k :: rest, current, stack, c, st, h, he => by
    unfold enter at he
    split at he
    · refine enter_none rest _ _ c st ?_ he
      intro e hm
      rcases List.mem_cons.1 hm with rfl | hm
      · rfl
      · exact h e hm
    · cases he

omit [DecidableEq α] in
theorem opens_false {L : List (List α × Delim α)} {m : M α} (hi : Inv ds L m) (ho : m.opn = none)
    (hs : ∀ e ∈ m.stack, e.2 = none) : Opens (L.map (fun kd => (kd, false))) m := by
  unfold Opens
  have hlen : m.stack.length = L.length := by
    have := congrArg List.length hi.chain
    simpa using this
  have h1 : m.stack.map (·.2) = List.replicate m.stack.length none := by
    apply List.ext_getElem
    · simp
    · intro n h1 h2
      simp only [List.getElem_map, List.getElem_replicate]
      exact hs _ (List.getElem_mem _)
  rw [h1, ho, hlen, List.map_map]
  have h2 : List.map ((fun e : (List α × Delim α) × Bool => if e.2 then some e.1.1 else none) ∘ fun kd => (kd, false)) L =
      List.replicate L.length none := by
    apply List.ext_getElem
    · simp
    · intro n h1 h2
      simp
  rw [h2, ← List.replicate_succ, ← List.replicate_succ']

theorem runMsg_problem (hc : CacheOK E.cache) (h : OK E ds) (hd : Disjoint ds) (hne : ds ≠ [])
    (hsg : Single E ds) (s : List α) (L : List ((List α × Delim α) × Bool)) (m : M α) (hi : Inv ds (L.map (·.1)) m)
    (ho : Opens L m) (hm : m.escaped = []) (hk : m.consumed = 0) (fuel : Nat) :
    runMsg E ds s fuel (split E ds s) m = (problem E.newlines ds L none 0 0 s).map Problem.message := by
  obtain ⟨Ls, hL, hp, hfl, hpo⟩ := split_spec hc h hne s
  have hno := C38_texts_contain_no_separator h.noEmpty hL
  have htx : ∀ (l : List (List α)), ∀ p ∈ pairs l, p.1 ∈ texts l := by
    intro l
    induction l using pairs.induct with
    | case1 => simp [pairs]
    | case2 n => simp [pairs, texts]
    | case3 n w r ih =>
      intro p hp
      simp only [pairs, List.mem_cons] at hp
      rcases hp with rfl | hp
      · simp [texts]
      · simp [texts, ih p hp]
  have hg := finMsg_problem h hd hsg (split E ds s) (fun p hp' => ⟨hpo p hp', fun c hc' hm => by
    rw [hp] at hp'
    refine hno p.1 (htx Ls p hp') [c] hm ?_
    obtain ⟨a, b, e⟩ := List.append_of_mem hc'
    exact ⟨a, b, by rw [e]; simp⟩⟩) L m none 0 0 hi ho (by rw [hm]; rfl) (by rw [hm]; simp) (by omega)
  rw [hfl] at hg
  have hgo := go_spec h hd (split E ds s) hpo (L.map (·.1)) m hi
  rw [← hg]
  unfold runMsg finMsg
  generalize hr : go E ds (split E ds s) m = r at hgo
  obtain ⟨ys, o⟩ := r
  cases o with
  | finished m' => rfl
  | err e => rfl
  | resplit m' => exact absurd hsg hgo.2.2.1

/-! ### the specification is that of C48 -/

/-- The obvious parser of C48 raises SyntaxError exactly if there is a problem. -/
theorem parse_problem (nls : List (List α)) (ds : Delims α) : ∀ (cs : List α) (L : List ((List α × Delim α) × Bool))
    (esc : Option α) (i k : Nat) (text : List α),
    (parse nls ds (L.map (·.1)) esc.isSome text cs).2 =
      if (problem nls ds L esc i k cs).isSome then some .syntaxError else none
  | [], L, esc, i, k, text => by
    cases esc with
    | none =>
      cases L <;> simp [parse, problem] <;> split <;> rfl
    | some e => cases L <;> simp [parse, problem]
  | c :: cs, L, some e, i, k, text => by
    rw [problem_escaped, ← parse_problem nls ds cs L none (i + 1) k (text ++ [c])]
    cases L <;> simp [parse]
  | c :: cs, [], none, i, k, text => by
    have ih := parse_problem nls ds cs
    show (parse nls ds [] false text (c :: cs)).2 = _
    conv => lhs; unfold parse
    conv => rhs; unfold problem
    dsimp only
    cases hop : opened ds c with
    | some kd => exact ih [(kd, true)] none (i + 1) k []
    | none =>
      dsimp only
      split
      · rfl
      · exact ih [] none (i + 1) _ _
  | c :: cs, ((o, d), t) :: L, none, i, k, text => by
    have ih := parse_problem nls ds cs
    show (parse nls ds ((o, d) :: L.map (·.1)) false text (c :: cs)).2 = _
    conv => lhs; unfold parse
    conv => rhs; unfold problem
    dsimp only
    split
    · split
      · exact ih (((o, d), t) :: L) (some c) (i + 1) k _
      · split
        · exact ih L none (i + 1) k []
        · split
          · rfl
          · exact ih (((o, d), t) :: L) none (i + 1) _ _
    · split
      · exact ih L none (i + 1) k []
      · cases hop : opened ds c with
        | some kd' => exact ih ((kd', true) :: ((o, d), t) :: L) none (i + 1) k []
        | none =>
          dsimp only
          split
          · rfl
          · exact ih (((o, d), t) :: L) none (i + 1) _ _

/-- Where the problem is said to be, is the character said to be the problem, and no more is skipped than came
before. -/
def Problem.Fits (s : List α) : Problem α → Prop
  | .illegal i k c => s[i]? = some c ∧ k ≤ i
  | .newline i k c _ _ => s[i]? = some c ∧ k ≤ i
  | .escape c => s.getLast? = some c

theorem problem_fits (nls : List (List α)) (ds : Delims α) : ∀ (cs pre : List α) (L : List ((List α × Delim α) × Bool))
    (esc : Option α) (k : Nat) (p : Problem α), k ≤ pre.length → (∀ e ∈ esc, pre.getLast? = some e) →
    problem nls ds L esc pre.length k cs = some p → p.Fits (pre ++ cs)
  | [], pre, L, esc, k, p, hk, he, h => by
    cases esc with
    | none => simp [problem] at h
    | some e =>
      simp only [problem, Option.some.injEq] at h
      subst h
      show (pre ++ []).getLast? = some e
      rw [List.append_nil]; exact he e rfl
  | c :: cs, pre, L, some e, k, p, hk, he, h => by
    rw [problem_escaped, show pre.length + 1 = (pre ++ [c]).length by simp] at h
    have := problem_fits nls ds cs (pre ++ [c]) L none k p (by simp; omega) (by simp) h
    simpa using this
  | c :: cs, pre, L, none, k, p, hk, he, h => by
    have ih : ∀ L esc k', k' ≤ k + 1 → (∀ e ∈ esc, e = c) →
        problem nls ds L esc (pre.length + 1) k' cs = some p → p.Fits (pre ++ c :: cs) := by
      intro L esc k' hk' he' h'
      rw [show pre.length + 1 = (pre ++ [c]).length by simp] at h'
      have := problem_fits nls ds cs (pre ++ [c]) L esc k' p (by simp; omega)
        (fun e hm => by rw [he' e hm]; simp) h'
      simpa using this
    have hkk : ∀ b : Bool, (if b then k + 1 else k) ≤ k + 1 := by intro b; cases b <;> simp
    have here : (pre ++ c :: cs)[pre.length]? = some c := by simp
    have hn : ∀ e ∈ (none : Option α), e = c := by intro e hm; cases hm
    have out : (match opened ds c with
        | some kd => problem nls ds ((kd, true) :: L) none (pre.length + 1) k cs
        | none =>
          if ∃ kd ∈ ds, kd.2.close = [c] ∨ kd.2.escape = [c] then some (.illegal pre.length k c)
          else problem nls ds L none (pre.length + 1) (if special nls ds c then k + 1 else k) cs) = some p →
        p.Fits (pre ++ c :: cs) := by
      intro h
      split at h
      · exact ih _ _ _ (by omega) hn h
      · split at h
        · cases h; exact ⟨here, hk⟩
        · exact ih _ _ _ (hkk _) hn h
    unfold problem at h
    dsimp only at h
    cases L with
    | nil => exact out h
    | cons e L =>
      obtain ⟨⟨o, d⟩, t⟩ := e
      dsimp only at h
      split at h
      · split at h
        · exact ih _ _ _ (by omega) (by intro e hm; cases hm; rfl) h
        · split at h
          · exact ih _ _ _ (by omega) hn h
          · split at h
            · cases h; exact ⟨here, hk⟩
            · exact ih _ _ _ (hkk _) hn h
      · split at h
        · exact ih _ _ _ (by omega) hn h
        · exact out h

/-! ### C78 -/

section Statements
variable (hc : CacheOK E.cache) (h : OK E ds) (hnl : ∀ n ∈ E.newlines, n.length = 1)
  (h1 : ∀ kd ∈ ds, kd.1.length = 1 ∧ kd.2.close.length = 1 ∧ kd.2.escape.length ≤ 1)
include hc h hnl h1

/-- C78, exactly: with single-character delimiters SyntaxError is raised if and only if the text has a problem, which is
in the text where it is said to be. The message gives the problem, but an index that is too small by the number of
characters skipped before it, and it names the quote mark around a line break only if that is in the text (not in
`state`). -/
theorem C78_message (s : List α) (state : List (List α)) (r) (hr : splitDelimiters E s ds state = .ok r) :
    ∃ L : List (List α × Delim α), L.map (·.1) = state.reverse ∧ (∀ kd ∈ L, kd ∈ ds) ∧
      (r.2 = none ∨ r.2 = some .syntaxError) ∧
      (r.2 = some .syntaxError ↔ (problem E.newlines ds (L.map (·, false)) none 0 0 s).isSome) ∧
      (∀ p, problem E.newlines ds (L.map (·, false)) none 0 0 s = some p → p.Fits s) ∧
      syntaxError E s ds state = (problem E.newlines ds (L.map (·, false)) none 0 0 s).map Problem.message := by
  have hsg : Single E ds := by
    intro t ht
    unfold allTokens delimiterTokens openers closers escapes allNewlines at ht
    simp only [List.mem_append, List.mem_map, List.mem_filter] at ht
    rcases ht with ((⟨kd, hk, rfl⟩ | ⟨kd, hk, rfl⟩) | ⟨kd, ⟨hk, hq⟩, rfl⟩) | ht
    · exact (h1 kd hk).1
    · exact (h1 kd hk).2.1
    · have := (h1 kd hk).2.2
      have he : kd.2.escape ≠ [] := by rw [Ne, h.esc hk, hq]; simp
      have := List.length_pos_iff.2 he
      omega
    · split at ht
      · exact hnl t ht
      · simp at ht
  obtain ⟨w1, _, hd, _, _⟩ := (C48_raises_iff h s state).2.1 ⟨_, hr⟩
  have hrr := hr
  unfold splitDelimiters at hr
  split at hr
  · cases hr
  split at hr
  · cases hr
  cases he : enter E ds state none [] with
  | error e => rw [he] at hr; simp at hr
  | ok cst =>
    obtain ⟨c, st⟩ := cst
    rw [he] at hr
    simp only [Except.ok.injEq] at hr
    obtain ⟨L, hi, hL⟩ := enter_spec h hd state [] (⟨none, [], none, [], [], 0⟩ : M α)
      ⟨rfl, by simp⟩ c st he
    have hr2 : r = parse E.newlines ds L false [] s := by
      rw [← hr]; exact run_parse hc h hd w1 hsg s L _ hi rfl rfl _
    have hLm : (L.map (·, false)).map (·.1) = L := by
      rw [List.map_map]; exact (List.map_congr_left (fun _ _ => rfl)).trans (List.map_id _)
    have hpp := parse_problem E.newlines ds s (L.map (·, false)) none 0 0 []
    rw [hLm, Option.isSome_none, ← hr2] at hpp
    refine ⟨L, by simpa using hL, hi.mem, ?_, ?_, ?_, ?_⟩
    · rw [hpp]; split
      · exact .inr rfl
      · exact .inl rfl
    · rw [hpp]; split <;> simp_all
    · intro p hp
      have := problem_fits E.newlines ds s [] (L.map (·, false)) none 0 p (by simp) (by simp) hp
      simpa using this
    · unfold syntaxError
      rw [he]
      refine runMsg_problem hc h hd w1 hsg s _ _ ?_ ?_ rfl rfl _
      · rw [hLm]; exact hi
      · exact opens_false hi rfl (enter_none state none [] c st (by simp) he)

end Statements

omit [DecidableEq α] in
/-- C78: so the message is right if and only if nothing was skipped before the problem and the quote mark around the line
break is in the text. -/
theorem C78_right_iff (s : List α) (p : Problem α) (hp : p.Fits s) :
    p.message = p.rightMessage ↔ p.skipped = 0 ∧ ∀ i k c o, p ≠ .newline i k c o false := by
  cases p with
  | illegal i k c =>
    have : k ≤ i := hp.2
    simp only [Problem.message, Problem.rightMessage, Problem.skipped, Msg.illegal.injEq, and_true]
    constructor
    · intro e; exact ⟨by omega, by simp⟩
    · rintro ⟨e, _⟩; omega
  | newline i k c o t =>
    have : k ≤ i := hp.2
    simp only [Problem.message, Problem.rightMessage, Problem.skipped, Msg.newline.injEq, true_and]
    cases t with
    | true => simp; omega
    | false => simp
  | escape c => simp [Problem.message, Problem.rightMessage, Problem.skipped]

theorem problem_nothing_skipped (h : OK E ds) (hq : ∀ kd ∈ ds, kd.2.quoting = false) : ∀ (cs : List α)
    (L : List ((List α × Delim α) × Bool)) (i : Nat) (p : Problem α), (∀ e ∈ L, e.1 ∈ ds) →
    problem E.newlines ds L none i 0 cs = some p → ∃ j c, p = .illegal j 0 c
  | [], L, i, p, hL, hp => by simp [problem] at hp
  | c :: cs, L, i, p, hL, hp => by
    have ih := problem_nothing_skipped h hq cs
    have out : (match opened ds c with
        | some kd => problem E.newlines ds ((kd, true) :: L) none (i + 1) 0 cs
        | none =>
          if ∃ kd ∈ ds, kd.2.close = [c] ∨ kd.2.escape = [c] then some (.illegal i 0 c)
          else problem E.newlines ds L none (i + 1) (if special E.newlines ds c then 0 + 1 else 0) cs) = some p →
        ∃ j c, p = .illegal j 0 c := by
      intro hp
      split at hp
      · rename_i kd hop
        refine ih _ _ p ?_ hp
        intro e he
        rcases List.mem_cons.1 he with rfl | he
        · exact List.mem_of_find?_eq_some hop
        · exact hL e he
      · rename_i hop
        split at hp
        · cases hp; exact ⟨_, _, rfl⟩
        · rename_i hno
          have hns : special E.newlines ds c = false := by
            apply special_false h
            unfold allTokens
            rw [List.mem_append]
            rintro (hm | hm)
            · exact hno ((closer_or_escape h (opened_none.1 hop)).1 hm)
            · unfold allNewlines at hm
              rw [if_neg] at hm
              · simp at hm
              · intro ha
                obtain ⟨kd, hk, hb⟩ := List.any_eq_true.1 ha
                have := h.ml hk (by simpa using hb)
                rw [hq kd hk] at this
                cases this
          rw [hns] at hp
          exact ih L _ p hL hp
    unfold problem at hp
    dsimp only at hp
    cases L with
    | nil => exact out hp
    | cons e L =>
      obtain ⟨⟨o, d⟩, t⟩ := e
      dsimp only at hp
      have hod : (o, d) ∈ ds := hL ((o, d), t) (by simp)
      rw [if_neg (by rw [hq _ hod]; decide)] at hp
      split at hp
      · exact ih _ _ p (fun e he => hL e (by simp [he])) hp
      · exact out hp

/-- C78: without quoting delimiters the message is right. With quoting ones it is wrong as
soon as a line break, or a delimiter inside quotes, comes before the problem (`C78_message`, `C78_violated`). -/
theorem C78_no_quotes (hc : CacheOK E.cache) (h : OK E ds) (hnl : ∀ n ∈ E.newlines, n.length = 1)
    (h1 : ∀ kd ∈ ds, kd.1.length = 1 ∧ kd.2.close.length = 1 ∧ kd.2.escape.length ≤ 1)
    (hq : ∀ kd ∈ ds, kd.2.quoting = false) (s : List α) (state : List (List α)) (r)
    (hr : splitDelimiters E s ds state = .ok r) (he : r.2 = some .syntaxError) :
    ∃ i c, s[i]? = some c ∧ syntaxError E s ds state = some (.illegal i [c]) := by
  obtain ⟨L, _, l2, _, l4, l5, l6⟩ := C78_message hc h hnl h1 s state r hr
  obtain ⟨p, hp⟩ := Option.isSome_iff_exists.1 (l4.1 he)
  obtain ⟨j, c, rfl⟩ := problem_nothing_skipped h hq s _ 0 p (by
    intro e he
    obtain ⟨kd, hk, rfl⟩ := List.mem_map.1 he
    exact l2 kd hk) hp
  refine ⟨j, c, (l5 _ hp).1, ?_⟩
  rw [l6, hp]
  rfl

/-- C78 is false of the code: in "a\n]" the illegal "]" is at index 2, the message says 1; in "'(' ]" it is at index 4,
the message says 3; and for a line break in a quoted string that `state` says is open, the message says that it is
inside delimiter None. -/
theorem C78_violated :
    problem strEnv.newlines defaultDelims [] none 0 0 "a\n]".toList = some (.illegal 2 1 ']') ∧
    syntaxError strEnv "a\n]".toList defaultDelims [] = some (.illegal 1 [']']) ∧
    problem strEnv.newlines defaultDelims [] none 0 0 "'(' ]".toList = some (.illegal 4 1 ']') ∧
    syntaxError strEnv "'(' ]".toList defaultDelims [] = some (.illegal 3 [']']) ∧
    syntaxError strEnv "a\n".toList defaultDelims [['"']] = some (.newline 1 ['\n'] none) ∧
    syntaxError strEnv "\"a\n".toList defaultDelims [] = some (.newline 2 ['\n'] (some ['"'])) := by
  decide +kernel

end Big.SD
