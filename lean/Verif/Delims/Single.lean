import Verif.Delims.Main
/-!
# C48: split_delimiters with single-character delimiters is the obvious parser
-/
namespace Big.SD
open Big.MS Big.MS.Spec

variable {α : Type} [DecidableEq α] {E : Env α} {ds : Delims α}

/-- The delimiter opened by the character `c`, if any. -/
def opened (ds : Delims α) (c : α) : Option (List α × Delim α) := ds.find? (fun kd => kd.1 == [c])

/-- The obvious parser, for single-character delimiters. Its arguments are the open delimiters
(innermost first), whether the next character is escaped, the text since the last delimiter, and the
characters left. -/
def parse (newlines : List (List α)) (ds : Delims α) :
    List (List α × Delim α) → Bool → List α → List α → List (Tuple α) × Option Err
  | _, esc, text, [] =>
    -- at the end: an escape must be followed by something; the remaining text is yielded
    if esc then ([], some .syntaxError)
    else if text = [] then ([], none) else ([(text, [], [])], none)
  | L, true, text, c :: cs => parse newlines ds L false (text ++ [c]) cs
  | (k, d) :: L, false, text, c :: cs =>
    if d.quoting then
      -- inside quotes only the escape, the closer and line breaks mean anything
      if d.escape = [c] then parse newlines ds ((k, d) :: L) true (text ++ [c]) cs
      else if d.close = [c] then
        let r := parse newlines ds L false [] cs
        ((text, [], [c]) :: r.1, r.2)
      else if d.multiline = false ∧ [c] ∈ newlines then ([], some .syntaxError)
      else parse newlines ds ((k, d) :: L) false (text ++ [c]) cs
    else if d.close = [c] then
      let r := parse newlines ds L false [] cs
      ((text, [], [c]) :: r.1, r.2)
    else
      match opened ds c with
      | some kd =>
        let r := parse newlines ds (kd :: (k, d) :: L) false [] cs
        ((text, [c], []) :: r.1, r.2)
      | none =>
        -- another delimiter's closer or escape
        if ∃ kd ∈ ds, kd.2.close = [c] ∨ kd.2.escape = [c] then ([], some .syntaxError)
        else parse newlines ds ((k, d) :: L) false (text ++ [c]) cs
  | [], false, text, c :: cs =>
    match opened ds c with
    | some kd =>
      let r := parse newlines ds [kd] false [] cs
      ((text, [c], []) :: r.1, r.2)
    | none =>
      if ∃ kd ∈ ds, kd.2.close = [c] ∨ kd.2.escape = [c] then ([], some .syntaxError)
      else parse newlines ds [] false (text ++ [c]) cs

/-- The result of the generator, if it does not resplit. -/
def fin (r : List (Tuple α) × Out α) : List (Tuple α) × Option Err :=
  match r.2 with
  | .finished m' => (r.1 ++ (finish m').1, (finish m').2)
  | .err e => (r.1, some e)
  | .resplit _ => (r.1, some .diverge)

omit [DecidableEq α] in
theorem fin_yielding (ys : List (Tuple α)) (r) : fin (yielding ys r) = (ys ++ (fin r).1, (fin r).2) := by
  obtain ⟨r1, r2⟩ := r
  cases r2 <;> simp [fin, yielding]

theorem opened_none {c : α} : opened ds c = none ↔ [c] ∉ openers ds := by
  simp only [opened, List.find?_eq_none, beq_iff_eq, openers, List.mem_map, not_exists, not_and]

theorem opened_some (h : OK E ds) {c : α} {d : Delim α} (hm : ([c], d) ∈ ds) :
    opened ds c = some ([c], d) := by
  cases ho : opened ds c with
  | none => exact absurd (mem_openers.2 ⟨d, hm⟩) (opened_none.1 ho)
  | some kd =>
    have h1 := List.find?_some ho
    have h2 := List.mem_of_find?_eq_some ho
    simp only [beq_iff_eq] at h1
    obtain ⟨k, d'⟩ := kd
    simp only at h1
    subst h1
    rw [h.unique h2 hm]

theorem mem_tokens_close {kd} (hk : kd ∈ ds) : kd.2.close ∈ delimiterTokens ds := by
  unfold delimiterTokens closers
  simp only [List.mem_append, List.mem_map]
  exact .inl (.inr ⟨kd, hk, rfl⟩)

theorem mem_tokens_escape (h : OK E ds) {kd} (hk : kd ∈ ds) (he : kd.2.escape ≠ []) :
    kd.2.escape ∈ delimiterTokens ds := by
  unfold delimiterTokens escapes
  simp only [List.mem_append, List.mem_map, List.mem_filter]
  refine .inr ⟨kd, ⟨hk, ?_⟩, rfl⟩
  rw [Ne, h.esc hk] at he
  simpa using he

theorem closer_or_escape (h : OK E ds) {c : α} (ho : [c] ∉ openers ds) :
    [c] ∈ delimiterTokens ds ↔ ∃ kd ∈ ds, kd.2.close = [c] ∨ kd.2.escape = [c] := by
  constructor
  · intro hm
    unfold delimiterTokens closers escapes at hm
    simp only [List.mem_append, List.mem_map, List.mem_filter] at hm
    rcases hm with (hm | ⟨kd, hk, e⟩) | ⟨kd, ⟨hk, _⟩, e⟩
    · exact absurd hm ho
    · exact ⟨kd, hk, .inl e⟩
    · exact ⟨kd, hk, .inr e⟩
  · rintro ⟨kd, hk, e | e⟩
    · rw [← e]; exact mem_tokens_close hk
    · rw [← e]; exact mem_tokens_escape h hk (by rw [e]; simp)

/-- A character that is not a token is text. -/
theorem parse_text_one (h : OK E ds) {L : List (List α × Delim α)} (hL : ∀ kd ∈ L, kd ∈ ds) {c : α}
    (hc : [c] ∉ allTokens E ds) (acc cs : List α) :
    parse E.newlines ds L false acc (c :: cs) = parse E.newlines ds L false (acc ++ [c]) cs := by
  have hct : [c] ∉ delimiterTokens ds := fun hm => hc (List.mem_append.2 (.inl hm))
  have ho : [c] ∉ openers ds := fun hm => hct (by
    unfold delimiterTokens; simp only [List.mem_append]; exact .inl (.inl hm))
  have hno := opened_none.2 ho
  have hne : ¬ ∃ kd ∈ ds, kd.2.close = [c] ∨ kd.2.escape = [c] := fun e => hct ((closer_or_escape h ho).2 e)
  match L, hL with
  | [], _ =>
    conv => lhs; unfold parse
    rw [hno]
    dsimp only
    rw [if_neg hne]
  | (k, d) :: L, hL =>
    have hk : (k, d) ∈ ds := hL _ (by simp)
    have h1 : d.close ≠ [c] := fun e => hne ⟨_, hk, .inl e⟩
    have h2 : d.escape ≠ [c] := fun e => hne ⟨_, hk, .inr e⟩
    conv => lhs; unfold parse
    by_cases hq : d.quoting = true
    · rw [if_pos hq, if_neg h2, if_neg h1, if_neg]
      rintro ⟨hm, hn⟩
      apply hc
      unfold allTokens allNewlines
      rw [if_pos (List.any_eq_true.2 ⟨(k, d), hk, by simp [hm]⟩)]
      exact List.mem_append.2 (.inr hn)
    · rw [if_neg hq, if_neg h1, hno]
      dsimp only
      rw [if_neg hne]

theorem parse_text (h : OK E ds) {L : List (List α × Delim α)} (hL : ∀ kd ∈ L, kd ∈ ds) :
    ∀ (t : List α), (∀ c ∈ t, [c] ∉ allTokens E ds) → ∀ acc cs,
    parse E.newlines ds L false acc (t ++ cs) = parse E.newlines ds L false (acc ++ t) cs
  | [], _, acc, cs => by simp
  | c :: t, ht, acc, cs => by
    rw [List.cons_append, parse_text_one h hL (ht c (by simp)), parse_text h hL t (fun c hc => ht c (by simp [hc]))]
    simp

theorem parse_escaped (L : List (List α × Delim α)) (acc : List α) (c : α) (cs : List α) (nls) :
    parse nls ds L true acc (c :: cs) = parse nls ds L false (acc ++ [c]) cs := by
  cases L <;> simp [parse]

theorem parse_text' (h : OK E ds) {L : List (List α × Delim α)} (hL : ∀ kd ∈ L, kd ∈ ds)
    {t : List α} (hne : t ≠ []) (ht : ∀ c ∈ t, [c] ∉ allTokens E ds) (esc : Bool) (acc cs : List α) :
    parse E.newlines ds L esc acc (t ++ cs) = parse E.newlines ds L false (acc ++ t) cs := by
  cases esc with
  | false => exact parse_text h hL t ht acc cs
  | true =>
    cases t with
    | nil => exact absurd rfl hne
    | cons c t =>
      rw [List.cons_append, parse_escaped, parse_text h hL t (fun c hc => ht c (by simp [hc]))]
      simp

theorem finish_parse {m : M α} (hb : m.escaped ≠ [] → m.buffer ≠ []) (L : List (List α × Delim α)) (nls) :
    finish m = parse nls ds L (!m.escaped.isEmpty) m.buffer.flatten [] := by
  have : ∀ (esc : Bool) (text : List α), parse nls ds L esc text [] = if esc then ([], some .syntaxError)
    else if text = [] then ([], none) else ([(text, [], [])], none) := by
    intro esc text; cases L <;> simp [parse]
  rw [this]
  unfold finish
  by_cases h1 : m.buffer.isEmpty = true
  · have h1' : m.buffer = [] := by simpa using h1
    have h2 : m.escaped = [] := by
      apply Decidable.byContradiction; intro hn; exact hb hn h1'
    simp [h1', h2]
  · rw [if_neg h1]
    by_cases h2 : (!m.escaped.isEmpty) = true
    · rw [if_pos h2, if_pos h2]
    · rw [if_neg h2, if_neg h2]
      simp only [List.isEmpty_iff]

theorem prefix_single {s : List α} {c : α} (hs : s ≠ []) (h : s <+: [c]) : s = [c] := by
  cases s with
  | nil => exact absurd rfl hs
  | cons a s =>
    obtain ⟨r, hr⟩ := h
    simp only [List.cons_append, List.cons.injEq, List.append_eq_nil_iff] at hr
    simp [hr.1, hr.2.1]

theorem Inv.of {L : List (List α × Delim α)} {m m' : M α} (hi : Inv ds L m) (h1 : m'.current = m.current)
    (h2 : m'.stack = m.stack) : Inv ds L m' := ⟨by rw [h1, h2]; exact hi.chain, hi.mem⟩

theorem go_parse (h : OK E ds) (hd : Disjoint ds) (hsg : Single E ds) : ∀ (ps : List (List α × List α)),
    (∀ p ∈ ps, PairOK E ds p ∧ ∀ c ∈ p.1, [c] ∉ allTokens E ds) →
    ∀ (L : List (List α × Delim α)) (m : M α), Inv ds L m → (m.escaped ≠ [] → m.buffer ≠ []) →
    fin (go E ds ps m) = parse E.newlines ds L (!m.escaped.isEmpty) m.buffer.flatten (flat ps)
  | [], _, L, m, hi, hb => by
    have : fin (go E ds [] m) = finish m := by simp [fin, go]
    rw [this]
    exact finish_parse hb L _
  | (s, dl) :: rest, hp, L, m, hi, hb => by
    have ih := go_parse h hd hsg rest (fun p hp' => hp p (by simp [hp']))
    have hdl : dl = [] ∨ dl ∈ allTokens E ds := (hp (s, dl) (by simp)).1
    have hst : ∀ c ∈ s, [c] ∉ allTokens E ds := (hp (s, dl) (by simp)).2
    rw [flat_cons]
    unfold go
    by_cases h1 : (s.isEmpty && dl.isEmpty) = true
    · rw [if_pos h1]
      simp only [Bool.and_eq_true, List.isEmpty_iff] at h1
      obtain ⟨rfl, rfl⟩ := h1
      exact ih L m hi hb
    rw [if_neg h1]
    by_cases h2 : (!m.escaped.isEmpty && s.isEmpty) = true
    · rw [if_pos h2]
      simp only [Bool.and_eq_true, List.isEmpty_iff] at h2
      obtain ⟨hesc, rfl⟩ := h2
      have hne : dl ≠ [] := by
        rintro rfl; simp at h1
      have hl : dl.length = 1 := by
        rcases hdl with e | e
        · exact absurd e hne
        · exact hsg _ e
      obtain ⟨c, rfl⟩ := List.length_eq_one_iff.1 hl
      dsimp only
      rw [if_pos (show ([c] : List α).length = 1 from rfl), hesc]
      refine Eq.trans (ih L _ (hi.of rfl rfl) (by simp)) ?_
      show _ = parse E.newlines ds L true m.buffer.flatten (c :: flat rest)
      rw [parse_escaped]
      simp
    rw [if_neg h2]
    extract_lets m1
    have hi1 : Inv ds L m1 := ⟨hi.chain, hi.mem⟩
    have hb1 : m1.buffer.flatten = m.buffer.flatten ++ s := by simp [m1]
    have he1 : m1.escaped = [] := rfl
    clear_value m1
    have hpar : parse E.newlines ds L (!m.escaped.isEmpty) m.buffer.flatten (s ++ dl ++ flat rest) =
        parse E.newlines ds L false m1.buffer.flatten (dl ++ flat rest) := by
      rw [hb1, List.append_assoc]
      by_cases hs : s = []
      · subst hs
        have : (!m.escaped.isEmpty) = false := by
          simpa using h2
        rw [this]; simp
      · exact parse_text' h hi.mem hs hst _ _ _
    rw [hpar]
    by_cases h3 : dl.isEmpty = true
    · rw [if_pos h3]
      have : dl = [] := by simpa using h3
      subst this
      rw [ih L m1 hi1 (by rw [he1]; simp), he1]
      rfl
    rw [if_neg h3]
    have hne : dl ≠ [] := by simpa using h3
    have hdl : dl ∈ allTokens E ds := by
      rcases hdl with e | e
      · exact absurd e hne
      · exact e
    obtain ⟨c, rfl⟩ := List.length_eq_one_iff.1 (hsg _ hdl)
    have hcur := hi1.current
    rw [List.singleton_append]
    -- inside a delimiter that does not quote, or outside
    have hplain : (∀ kd, m1.current = some kd → kd.2.quoting = false) →
        (∀ kd, m1.current = some kd → kd.2.close ≠ [c]) →
        fin (match get E ds m1.current [c] with
          | .push st => yielding [(m1.buffer.flatten, [c], [])] (go E ds rest (doPush m1 [c] st))
          | a =>
            match handle m1 (resolve E ds m1.current [c] a).2.1 (resolve E ds m1.current [c] a).2.2
              (resolve E ds m1.current [c] a).1 with
            | (ys, .error e) => (ys, .err e)
            | (ys, .ok (m', true)) => (ys, .resplit m')
            | (ys, .ok (m', false)) => yielding ys (go E ds rest m')) =
        (match opened ds c with
        | some kd =>
          ((m1.buffer.flatten, [c], []) :: (parse E.newlines ds (kd :: L) false [] (flat rest)).1,
            (parse E.newlines ds (kd :: L) false [] (flat rest)).2)
        | none =>
          if ∃ kd ∈ ds, kd.2.close = [c] ∨ kd.2.escape = [c] then ([], some .syntaxError)
          else parse E.newlines ds L false (m1.buffer.flatten ++ [c]) (flat rest)) := by
      intro hq hcl
      by_cases ho : [c] ∈ openers ds
      · obtain ⟨d, hm⟩ := mem_openers.1 ho
        rw [get_opener h hq hm, opened_some h hm]
        dsimp only
        rw [fin_yielding, ih (([c], d) :: L) (doPush m1 [c] ([c], d)) ⟨?_, ?_⟩ ?_]
        · simp [doPush, he1]
        · simp only [doPush, List.map_cons, List.cons_append, hi1.chain]
        · intro kd hkd
          rcases List.mem_cons.1 hkd with rfl | hkd
          · exact hm
          · exact hi1.mem kd hkd
        · simp [doPush, he1]
      · rw [opened_none.2 ho]
        have hg := get_plain (E := E) (plain_of h hcur hq) ho
        rw [if_neg (by rintro ⟨kd, e1, e2⟩; exact hcl kd e1 e2)] at hg
        have : truncOf E ds m1.current [c] = none := by
          unfold truncOf
          cases hm : m1.current with
          | none => rfl
          | some kd =>
            dsimp only
            rw [if_neg]
            rintro ⟨_, hpre⟩
            exact hcl kd hm (prefix_single (close_ne h (hcur kd hm)) hpre)
        rw [this] at hg
        dsimp only at hg
        dsimp only
        by_cases hdt : [c] ∈ delimiterTokens ds
        · rw [if_pos hdt] at hg
          rw [hg, if_pos ((closer_or_escape h ho).1 hdt)]
          simp [fin, resolve, handle]
        · rw [if_neg hdt] at hg
          rw [hg, if_neg (fun e => hdt ((closer_or_escape h ho).2 e))]
          simp only [resolve, handle]
          rw [yielding_nil]
          refine Eq.trans (ih L _ (hi1.of rfl rfl) (by rw [he1]; simp)) ?_
          simp [he1]
    -- closing
    have hclose : ∀ kd L', L = kd :: L' → get E ds m1.current [c] = .pop → kd.2.close = [c] →
        fin (match get E ds m1.current [c] with
          | .push st => yielding [(m1.buffer.flatten, [c], [])] (go E ds rest (doPush m1 [c] st))
          | a =>
            match handle m1 (resolve E ds m1.current [c] a).2.1 (resolve E ds m1.current [c] a).2.2
              (resolve E ds m1.current [c] a).1 with
            | (ys, .error e) => (ys, .err e)
            | (ys, .ok (m', true)) => (ys, .resplit m')
            | (ys, .ok (m', false)) => yielding ys (go E ds rest m')) =
        ((m1.buffer.flatten, [], [c]) :: (parse E.newlines ds L' false [] (flat rest)).1,
            (parse E.newlines ds L' false [] (flat rest)).2) := by
      rintro kd L' rfl hg hcl
      have hch := hi1.chain
      simp only [List.map_cons, List.cons_append, List.cons.injEq] at hch
      rw [hg]
      cases hs : m1.stack with
      | nil => rw [hs] at hch; simp at hch
      | cons co stack =>
        obtain ⟨cc, o⟩ := co
        have hi2 : Inv ds L' (⟨cc, stack, o, [], m1.escaped, m1.consumed + [c].length⟩ : M α) :=
          ⟨by rw [hs] at hch; exact hch.2, fun kd' hk => hi1.mem kd' (by simp [hk])⟩
        simp only [resolve, handle, hs]
        rw [fin_yielding, ih L' _ hi2 (by rw [he1]; simp)]
        simp [he1]
    cases L with
    | nil =>
      have hcn : m1.current = none := by
        have := hi1.chain
        simpa using (List.cons.inj this).1
      unfold parse
      refine hplain (by rw [hcn]; simp) (by rw [hcn]; simp)
    | cons kd L =>
      have hcs : m1.current = some kd := by
        have := hi1.chain
        exact (List.cons.inj this).1
      have hk : kd ∈ ds := hi1.mem kd (by simp)
      conv => rhs; unfold parse
      by_cases hq : kd.2.quoting = true
      · rw [if_pos hq]
        have he : kd.2.escape ≠ [] := by rw [Ne, h.esc hk, hq]; simp
        have hg := get_quoting (E := E) (ds := ds) (k := kd.1) hq he [c]
        rw [show (kd.1, kd.2) = kd from rfl, ← hcs] at hg
        by_cases e1 : kd.2.escape = [c]
        · rw [if_pos e1]
          rw [if_pos e1.symm] at hg
          rw [hg]
          simp only [resolve, handle]
          rw [yielding_nil]
          refine Eq.trans (ih (kd :: L) _ (hi1.of rfl rfl) (by simp)) ?_
          simp
        rw [if_neg e1]
        rw [if_neg (fun e => e1 e.symm)] at hg
        by_cases e2 : kd.2.close = [c]
        · rw [if_pos e2]
          rw [if_pos e2.symm] at hg
          exact hclose kd L rfl hg e2
        rw [if_neg e2]
        rw [if_neg (fun e => e2 e.symm)] at hg
        by_cases e3 : kd.2.multiline = false ∧ [c] ∈ E.newlines
        · rw [if_pos e3]
          rw [if_pos e3] at hg
          rw [hg]
          simp [fin, resolve, handle]
        rw [if_neg e3]
        rw [if_neg e3] at hg
        have hflush : innerAct E ds kd.2 [c] = .flush := by
          unfold innerAct
          rw [if_pos hdl, if_neg (fun hp => e2 (prefix_single (close_ne h hk) hp)),
            if_neg (fun hp => e1 (prefix_single he hp)), if_neg]
          rintro ⟨x, hx, hx'⟩
          have hx : x = c := by simpa using hx
          subst hx
          have hl1 : kd.2.close.length = 1 := hsg _ (List.mem_append.2 (.inl (mem_tokens_close hk)))
          have hl2 : kd.2.escape.length = 1 := hsg _ (List.mem_append.2 (.inl (mem_tokens_escape h hk he)))
          obtain ⟨y, hy⟩ := List.length_eq_one_iff.1 hl1
          obtain ⟨z, hz⟩ := List.length_eq_one_iff.1 hl2
          rw [hy] at hx' e2
          rw [hz] at hx' e1
          simp only [List.cons_append, List.nil_append, List.mem_cons, List.not_mem_nil, or_false] at hx'
          rcases hx' with rfl | rfl
          · exact e2 rfl
          · exact e1 rfl
        rw [hflush] at hg
        rw [hg]
        simp only [resolve, handle]
        rw [yielding_nil]
        refine Eq.trans (ih (kd :: L) _ (hi1.of rfl rfl) (by rw [he1]; simp)) ?_
        simp [he1]
      · rw [if_neg hq]
        have hq : kd.2.quoting = false := by simpa using hq
        by_cases e2 : kd.2.close = [c]
        · rw [if_pos e2]
          refine hclose kd L rfl ?_ e2
          rw [hcs, ← e2, get_close h hd hk, if_neg]
          rw [(h.esc hk).2 hq]; exact close_ne h hk
        · rw [if_neg e2]
          refine hplain ?_ ?_
          · intro kd' e
            rw [hcs] at e
            cases e; exact hq
          · intro kd' e
            rw [hcs] at e
            cases e; exact e2

theorem run_parse (hc : CacheOK E.cache) (h : OK E ds) (hd : Disjoint ds) (hne : ds ≠ [])
    (hsg : Single E ds) (s : List α) (L : List (List α × Delim α)) (m : M α) (hi : Inv ds L m)
    (hm : m.escaped = []) (hb : m.buffer = []) (fuel : Nat) :
    run E ds s fuel (split E ds s) m = parse E.newlines ds L false [] s := by
  obtain ⟨Ls, hL, hp, hfl, hpo⟩ := split_spec hc h hne s
  have hno := C38_texts_contain_no_separator h.noEmpty hL
  have htx : ∀ (l : List (List α)), ∀ p ∈ pairs l, p.1 ∈ texts l := by
    intro l
    induction l using pairs.induct with
    | case1 => simp [pairs]
    | case2 n => simp [pairs, texts]
    | case3 n w r ih =>
      intro p hp
      simp only [pairs, List.mem_cons] at hp
      rcases hp with rfl | hp
      · simp [texts]
      · simp [texts, ih p hp]
  have hg := go_parse h hd hsg (split E ds s) (fun p hp' => ⟨hpo p hp', fun c hc' hm => by
    rw [hp] at hp'
    refine hno p.1 (htx Ls p hp') [c] hm ?_
    obtain ⟨a, b, e⟩ := List.append_of_mem hc'
    exact ⟨a, b, by rw [e]; simp⟩⟩) L m hi (by rw [hm]; simp)
  rw [hm, hb, hfl] at hg
  have hgo := go_spec h hd (split E ds s) hpo L m hi
  have hrun : run E ds s fuel (split E ds s) m = fin (go E ds (split E ds s) m) := by
    unfold run fin
    generalize go E ds (split E ds s) m = r at hgo
    obtain ⟨ys, o⟩ := r
    cases o with
    | finished m' => rfl
    | err e => rfl
    | resplit m' => exact absurd hsg hgo.2.2.1
  rw [hrun, hg]
  rfl

/-- C48: with single-character delimiters and escapes, split_delimiters yields and raises exactly what the
obvious parser does. -/
theorem C48_single_character_parser (hc : CacheOK E.cache) (h : OK E ds)
    (hnl : ∀ n ∈ E.newlines, n.length = 1)
    (h1 : ∀ kd ∈ ds, kd.1.length = 1 ∧ kd.2.close.length = 1 ∧ kd.2.escape.length ≤ 1)
    (s : List α) (state : List (List α)) (r) (hr : splitDelimiters E s ds state = .ok r) :
    ∃ L : List (List α × Delim α), L.map (·.1) = state.reverse ∧ (∀ kd ∈ L, kd ∈ ds) ∧
      r = parse E.newlines ds L false [] s := by
  have hsg : Single E ds := by
    intro t ht
    unfold allTokens delimiterTokens openers closers escapes allNewlines at ht
    simp only [List.mem_append, List.mem_map, List.mem_filter] at ht
    rcases ht with ((⟨kd, hk, rfl⟩ | ⟨kd, hk, rfl⟩) | ⟨kd, ⟨hk, hq⟩, rfl⟩) | ht
    · exact (h1 kd hk).1
    · exact (h1 kd hk).2.1
    · have := (h1 kd hk).2.2
      have he : kd.2.escape ≠ [] := by rw [Ne, h.esc hk, hq]; simp
      have := List.length_pos_iff.2 he
      omega
    · split at ht
      · exact hnl t ht
      · simp at ht
  unfold splitDelimiters at hr
  by_cases h1 : ds.isEmpty = true
  · rw [if_pos h1] at hr; simp at hr
  rw [if_neg h1] at hr
  by_cases h2 : [E.backslash] ∈ openers ds
  · rw [if_pos h2] at hr; simp at hr
  rw [if_neg h2] at hr
  by_cases h3 : ((openers ds).any (fun k => (nestedClosers ds).contains k)) = true
  · rw [if_pos h3] at hr; simp at hr
  rw [if_neg h3] at hr
  have hne : ds ≠ [] := by simpa using h1
  have hd : Disjoint ds := by
    intro k hk hk'
    exact h3 (List.any_eq_true.2 ⟨k, hk, by simpa using hk'⟩)
  cases he : enter E ds state none [] with
  | error e => rw [he] at hr; simp at hr
  | ok cs =>
    obtain ⟨c, st⟩ := cs
    rw [he] at hr
    simp only [Except.ok.injEq] at hr
    obtain ⟨L', hi, hL⟩ := enter_spec h hd state [] (⟨none, [], none, [], [], 0⟩ : M α)
      ⟨rfl, by simp⟩ c st he
    refine ⟨L', by simpa using hL, hi.mem, ?_⟩
    rw [← hr]
    exact run_parse hc h hd hne hsg s L' _ hi rfl rfl _

/-- C48: split_delimiters itself raises only ValueError, and exactly if there are no delimiters, a
backslash opens, an opener also closes without quoting, or `state` is not a nesting of openers (all but
the last of which do not quote). -/
theorem C48_raises_iff (h : OK E ds) (s : List α) (state : List (List α)) :
    (∀ e, splitDelimiters E s ds state = .error e → e = .valueError) ∧
    ((∃ r, splitDelimiters E s ds state = .ok r) ↔
      ds ≠ [] ∧ [E.backslash] ∉ openers ds ∧ Disjoint ds ∧ (∀ k ∈ state, k ∈ openers ds) ∧
        ∀ k ∈ state.dropLast, ∀ d, (k, d) ∈ ds → d.quoting = false) := by
  have hdis : ((openers ds).any (fun k => (nestedClosers ds).contains k)) = true ↔ ¬ Disjoint ds := by
    simp only [List.any_eq_true, List.contains_iff_mem, Disjoint, Classical.not_forall,
      Decidable.not_not]
    grind
  have hent : Disjoint ds → ∀ (state : List (List α)) (st : State α) (stack),
      (∀ kd, st = some kd → kd ∈ ds) →
      (∀ e, enter E ds state st stack = .error e → e = .valueError) ∧
      ((∃ r, enter E ds state st stack = .ok r) ↔ (∀ k ∈ state, k ∈ openers ds) ∧
        (state ≠ [] → ∀ kd, st = some kd → kd.2.quoting = false) ∧
        ∀ k ∈ state.dropLast, ∀ d, (k, d) ∈ ds → d.quoting = false) := by
    intro hd state
    induction state with
    | nil => intro st stack _; simp [enter]
    | cons k rest ih =>
      intro st stack hst
      unfold enter
      rcases get_cases h hd hst k with ⟨d, hmem, hq, hg⟩ | ⟨hnp, _⟩
      · rw [hg]
        dsimp only
        obtain ⟨i1, i2⟩ := ih (some (k, d)) ((st, none) :: stack) (by
          intro kd e; cases e; exact hmem)
        refine ⟨i1, ?_⟩
        rw [i2]
        have hko : k ∈ openers ds := mem_openers.2 ⟨d, hmem⟩
        constructor
        · rintro ⟨a1, a2, a3⟩
          refine ⟨by simpa [hko] using a1, fun _ => hq, ?_⟩
          cases rest with
          | nil => simp
          | cons k2 rest =>
            intro k' hk' d' hd'
            rw [List.dropLast_cons_cons] at hk'
            rcases List.mem_cons.1 hk' with rfl | hk'
            · rw [h.unique hd' hmem]; exact a2 (by simp) (k', d) rfl
            · exact a3 k' hk' d' hd'
        · rintro ⟨a1, a2, a3⟩
          refine ⟨fun k hk => a1 k (by simp [hk]), ?_, ?_⟩
          · intro hne kd e
            cases e
            cases rest with
            | nil => exact absurd rfl hne
            | cons k2 rest => exact a3 k (by simp) d hmem
          · intro k' hk' d' hd'
            cases rest with
            | nil => simp at hk'
            | cons k2 rest => exact a3 k' (by rw [List.dropLast_cons_cons]; simp [hk']) d' hd'
      · have hno : ¬ ((∀ k' ∈ k :: rest, k' ∈ openers ds) ∧
            (k :: rest ≠ [] → ∀ kd, st = some kd → kd.2.quoting = false) ∧
            ∀ k' ∈ (k :: rest).dropLast, ∀ d, (k', d) ∈ ds → d.quoting = false) := by
          rintro ⟨a1, a2, _⟩
          obtain ⟨d, hm⟩ := mem_openers.1 (a1 k (by simp))
          exact hnp _ (get_opener h (a2 (by simp)) hm)
        cases hg : get E ds st k with
        | push x => exact absurd hg (hnp x)
        | _ =>
          dsimp only
          exact ⟨by simp, by simpa using hno⟩
  unfold splitDelimiters
  by_cases h1 : ds.isEmpty = true
  · rw [if_pos h1]
    have : ds = [] := by simpa using h1
    exact ⟨by simp, by simp [this]⟩
  rw [if_neg h1]
  have hne : ds ≠ [] := by simpa using h1
  by_cases h2 : [E.backslash] ∈ openers ds
  · rw [if_pos h2]; exact ⟨by simp, by simp [h2]⟩
  rw [if_neg h2]
  by_cases h3 : ((openers ds).any (fun k => (nestedClosers ds).contains k)) = true
  · rw [if_pos h3]; exact ⟨by simp, by simp [hdis.1 h3]⟩
  rw [if_neg h3]
  have hd : Disjoint ds := by
    apply Classical.byContradiction; intro hn; exact h3 (hdis.2 hn)
  obtain ⟨i1, i2⟩ := hent hd state none [] (by simp)
  cases he : enter E ds state none [] with
  | error e =>
    rw [he] at i1 i2
    have := i1 e rfl
    subst this
    refine ⟨by simp, ?_⟩
    simp only [reduceCtorEq, exists_false, false_iff] at i2
    simp only [reduceCtorEq, exists_false, false_iff]
    rintro ⟨_, _, _, a, b⟩
    exact i2 ⟨a, by simp, b⟩
  | ok cs =>
    rw [he] at i2
    obtain ⟨a, _, b⟩ := i2.1 ⟨_, rfl⟩
    refine ⟨by simp, ?_⟩
    simp only [Except.ok.injEq, exists_eq', true_iff]
    exact ⟨hne, h2, hd, a, b⟩

/-! ### examples -/

/-- str, with the line breaks `\n` and `\r` only. -/
def strEnv : Env Char := { nl := '\n', backslash := '\\', newlines := [['\n'], ['\r']], cache := fun _ => none }

/-- Example: a delimiter that is not quoting. -/
def plainDelim (c : String) : Delim Char := ⟨c.toList, [], true, false⟩
/-- Example: a quoting delimiter. -/
def quoteDelim (c : String) : Delim Char := ⟨c.toList, ['\\'], false, true⟩

/-- split_delimiters_default_delimiters (text.py:2240-2246). -/
def defaultDelims : Delims Char :=
  [(['('], plainDelim ")"), (['['], plainDelim "]"), (['{'], plainDelim "}"),
   (['\''], quoteDelim "'"), (['"'], quoteDelim "\"")]

/-- The hypotheses hold for the default delimiters. -/
theorem default_ok : OK strEnv defaultDelims where
  nodup := by decide
  made := by
    intro kd hk
    refine ⟨kd.2.close, kd.2.escape, kd.2.multiline, kd.2.quoting, ?_⟩
    simp only [defaultDelims, List.mem_cons, List.not_mem_nil, or_false] at hk
    rcases hk with rfl | rfl | rfl | rfl | rfl <;> rfl
  noEmpty := by decide

example : CacheOK strEnv.cache ∧ (∀ n ∈ strEnv.newlines, n.length = 1) ∧
    ∀ kd ∈ defaultDelims, kd.1.length = 1 ∧ kd.2.close.length = 1 ∧ kd.2.escape.length ≤ 1 :=
  ⟨by intro _ _ h; simp [strEnv] at h, by decide, by decide⟩

/-- The hypotheses of `C90_lossless_no_ignored_tokens`, with a multi-character delimiter. -/
example : OK strEnv [("<<".toList, plainDelim ">>"), ("<".toList, plainDelim ">")] where
  nodup := by decide
  made := by
    intro kd hk
    refine ⟨kd.2.close, kd.2.escape, kd.2.multiline, kd.2.quoting, ?_⟩
    simp only [List.mem_cons, List.not_mem_nil, or_false] at hk
    rcases hk with rfl | rfl <;> rfl
  noEmpty := by decide

example : splitDelimiters strEnv "a(b\"]\\\"\"c".toList defaultDelims []
    = .ok ([("a".toList, "(".toList, []), ("b".toList, "\"".toList, []),
        ("]\\\"".toList, [], "\"".toList), ("c".toList, [], [])], none) := by decide +kernel

example : splitDelimiters strEnv "a)b]c".toList defaultDelims [['['], ['(']]
    = .ok ([("a".toList, [], ")".toList), ("b".toList, [], "]".toList), ("c".toList, [], [])], none) := by
  decide +kernel

example : splitDelimiters strEnv "a(b]c".toList defaultDelims []
    = .ok ([("a".toList, "(".toList, [])], some .syntaxError) := by decide +kernel

/-- Resplitting: `>>` closes `<` twice. -/
example : splitDelimiters strEnv "<<<a>>>b".toList
    [("<<".toList, plainDelim ">>"), ("<".toList, plainDelim ">")] []
    = .ok ([([], "<<".toList, []), ([], "<".toList, []), ("a".toList, [], ">".toList),
        ([], [], ">>".toList), ("b".toList, [], [])], none) := by decide +kernel

/-- With multi-character delimiters text can be duplicated: a token ignored inside quotes is not counted
as consumed, so splitting again starts too early. Here `{{` is ignored, then an escaped `{{` makes it
split again. -/
theorem C90_counterexample_text_duplicated :
    splitDelimiters strEnv "'{{x\\{{y'".toList [("'".toList, quoteDelim "'"), ("{{".toList, plainDelim "}}")] []
      = .ok ([([], "'".toList, []), ("{{x\\{\\{{y".toList, [], "'".toList)], none) ∧
    joined [(([] : List Char), "'".toList, []), ("{{x\\{\\{{y".toList, [], "'".toList)] ≠ "'{{x\\{{y'".toList := by
  decide +kernel

end Big.SD
