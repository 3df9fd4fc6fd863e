import Verif.Delims.Model
/-!
# The actions of each state
-/
namespace Big.SD

variable {α : Type} [DecidableEq α] {E : Env α} {ds : Delims α}

/-- The delimiters are a mapping (no key twice) of Delimiter objects, with no empty token. -/
structure OK (E : Env α) (ds : Delims α) : Prop where
  nodup : (ds.map (·.1)).Nodup
  made : ∀ kd ∈ ds, ∃ c e m q, Delim.make E c e m q = .ok kd.2
  noEmpty : [] ∉ allTokens E ds

theorem make_ok {c e : List α} {m q : Bool} {d : Delim α} (h : Delim.make E c e m q = .ok d) :
    (d.quoting = true → d.escape ≠ []) ∧ (d.quoting = false → d.escape = [] ∧ d.multiline = true) ∧
      d.close ≠ [E.backslash] := by
  unfold Delim.make at h
  split at h
  · simp at h
  · rename_i hc
    split at h
    · simp at h
    · rename_i h1
      split at h
      · simp at h
      · rename_i h2
        simp only [Except.ok.injEq] at h
        subst h
        refine ⟨?_, ?_, hc⟩
        · rintro rfl
          simpa using h1
        · rintro rfl
          constructor
          · simpa using h1
          · simpa using h2

theorem OK.esc (h : OK E ds) {kd} (hm : kd ∈ ds) : kd.2.escape = [] ↔ kd.2.quoting = false := by
  obtain ⟨c, e, m, q, hk⟩ := h.made kd hm
  have := make_ok hk
  cases hq : kd.2.quoting
  · simp [this.2.1 hq]
  · simpa using this.1 hq

theorem OK.ml (h : OK E ds) {kd} (hm : kd ∈ ds) (hml : kd.2.multiline = false) : kd.2.quoting = true := by
  obtain ⟨c, e, m, q, hk⟩ := h.made kd hm
  have := make_ok hk
  cases hq : kd.2.quoting
  · rw [(this.2.1 hq).2] at hml; simp at hml
  · rfl

theorem withOpeners_not {d : Dict α} {t : List α} : ∀ (ds : Delims α) (d : Dict α), t ∉ openers ds →
    withOpeners ds d t = d t
  | [], _, _ => rfl
  | (k, x) :: ds, d, h => by
    simp only [openers, List.map_cons, List.mem_cons, not_or] at h
    show withOpeners ds _ t = _
    rw [withOpeners_not (d := d) ds _ h.2]
    simp [upd, h.1]

theorem withOpeners_mem {k : List α} {x : Delim α} : ∀ (ds : Delims α) (d : Dict α),
    (ds.map (·.1)).Nodup → (k, x) ∈ ds → withOpeners ds d k = some (.push (k, x))
  | [], _, _, h => by simp at h
  | (k', x') :: ds, d, hn, h => by
    simp only [List.map_cons, List.nodup_cons] at hn
    show withOpeners ds _ k = _
    rcases List.mem_cons.1 h with h | h
    · obtain ⟨rfl, rfl⟩ := Prod.mk.injEq .. ▸ h
      rw [withOpeners_not (d := d) ds _ hn.1]
      simp [upd]
    · exact withOpeners_mem ds _ hn.2 h

theorem fold_scan (f : List α → Option (Act α)) (t : List α) : ∀ (l : List (List α)) (d : Dict α),
    l.foldl (fun st t => updOpt st t (f t)) d t = if t ∈ l then (f t).or (d t) else d t
  | [], d => by simp
  | a :: l, d => by
    rw [List.foldl_cons, fold_scan f t l]
    by_cases h : t = a
    · subst h
      rw [if_pos (List.mem_cons_self)]
      cases hf : f t <;> simp [updOpt, upd]
    · have : updOpt d a (f a) t = d t := by
        cases f a <;> simp [updOpt, upd, h]
      rw [this]
      simp [h]

/-- What a token that is neither the closer nor the escape means inside a quoting delimiter. -/
def innerAct (E : Env α) (ds : Delims α) (d : Delim α) (t : List α) : Act α :=
  if t ∈ allTokens E ds then
    if d.close <+: t then .trunc d.close
    else if d.escape <+: t then .trunc d.escape
    else if ∃ c ∈ t, c ∈ d.close ++ d.escape then .flush1
    else .flush
  else .flush

/-- The actions inside a quoting delimiter. -/
theorem get_quoting {k : List α} {d : Delim α} (hq : d.quoting = true) (he : d.escape ≠ []) (t : List α) :
    get E ds (some (k, d)) t =
      if t = d.escape then .escape
      else if t = d.close then .pop
      else if d.multiline = false ∧ t ∈ E.newlines then .illegalNewline
      else innerAct E ds d t := by
  have he' : d.escape.isEmpty = false := by simpa using he
  unfold get dict
  dsimp only
  rw [if_pos hq]
  unfold ownState
  simp only [hq, he', if_true, Bool.true_and, Bool.false_eq_true, if_false]
  by_cases h1 : t = d.escape
  · simp [upd, h1]
  rw [if_neg h1]
  simp only [upd, if_neg h1]
  by_cases h2 : t = d.close
  · simp [h2]
  rw [if_neg h2, if_neg h2]
  by_cases h3 : d.multiline = false ∧ t ∈ E.newlines
  · simp [h3.1, h3.2]
  rw [if_neg h3]
  have : ∀ D : Dict α, (if (!d.multiline) = true then
      fun t => if t ∈ E.newlines then some Act.illegalNewline else D t else D) t = D t := by
    intro D
    by_cases hm : (!d.multiline) = true
    · rw [if_pos hm]
      have : t ∉ E.newlines := fun h => h3 ⟨by simpa using hm, h⟩
      simp [this]
    · rw [if_neg hm]
  rw [this, fold_scan]
  unfold innerAct
  by_cases h4 : t ∉ allTokens E ds
  · simp [h4]
  rw [Decidable.not_not] at h4
  rw [if_pos h4, if_pos h4]
  simp only [scanToken, ne_eq, h2, h1, not_false_eq_true, if_true, List.isPrefixOf_iff_prefix]
  have hov : overlap (d.close ++ d.escape) t = true ↔ ∃ c ∈ t, c ∈ d.close ++ d.escape := by
    simp [overlap]
  by_cases h5 : d.close <+: t
  · simp [h5]
  rw [if_neg h5, if_neg h5]
  by_cases h6 : d.escape <+: t
  · simp [h6]
  rw [if_neg h6]
  simp only [h6, if_false]
  by_cases h7 : ∃ c ∈ t, c ∈ d.close ++ d.escape
  · rw [if_pos h7]; simp [hov.2 h7]
  · have : overlap (d.close ++ d.escape) t = false := by
      rw [← Bool.not_eq_true, hov]; exact h7
    rw [if_neg h7]; simp [this]

/-- The actions at the start and inside a delimiter that does not quote: an opener... -/
theorem get_opener (h : OK E ds) {st : State α} (hst : ∀ kd, st = some kd → kd.2.quoting = false)
    {k : List α} {x : Delim α} (hk : (k, x) ∈ ds) : get E ds st k = .push (k, x) := by
  unfold get dict
  cases st with
  | none => dsimp only; rw [withOpeners_mem ds _ h.nodup hk]; rfl
  | some kd =>
    dsimp only
    have := hst kd rfl
    rw [this, if_neg (by simp), withOpeners_mem ds _ h.nodup hk]; rfl

/-- A longer token that starts with the closer of a delimiter that does not quote. -/
def truncOf (E : Env α) (ds : Delims α) : State α → List α → Option (Act α)
  | none, _ => none
  | some kd, t => if t ∈ allTokens E ds ∧ kd.2.close <+: t then some (.trunc kd.2.close) else none

/-- ... and other tokens. -/
theorem get_plain {st : State α} (hst : ∀ kd, st = some kd → kd.2.quoting = false ∧ kd.2.escape = [])
    {t : List α} (ht : t ∉ openers ds) :
    get E ds st t =
      if (∃ kd, st = some kd ∧ kd.2.close = t) then .pop
      else match truncOf E ds st t with
        | some a => a
        | none => if t ∈ delimiterTokens ds then .illegal else .flush := by
  unfold get dict truncOf
  cases st with
  | none =>
    dsimp only
    rw [withOpeners_not (d := defaults ds) ds _ ht]
    simp only [reduceCtorEq, false_and, exists_false, if_false]
    unfold defaults
    by_cases h : t ∈ delimiterTokens ds <;> simp [h]
  | some kd =>
    obtain ⟨hq, he⟩ := hst kd rfl
    dsimp only
    rw [hq, if_neg (by simp), withOpeners_not (d := defaults ds) ds _ ht]
    unfold ownState
    simp only [hq, he, Bool.false_eq_true, if_false, List.isEmpty_nil, if_true, Bool.false_and,
      Option.some.injEq, exists_eq_left']
    by_cases h1 : t = kd.2.close
    · simp [upd, h1]
    have h1' : kd.2.close ≠ t := fun e => h1 e.symm
    simp only [upd, if_neg h1, if_neg h1']
    rw [fold_scan]
    by_cases h2 : t ∈ allTokens E ds
    · rw [if_pos h2]
      simp only [scanToken, ne_eq, h1, not_false_eq_true, if_true, List.isPrefixOf_iff_prefix, h2, true_and]
      by_cases h3 : kd.2.close <+: t
      · simp [h3]
      · simp only [h3, if_false, Bool.false_eq_true, Option.none_or, defaults]
        by_cases h : t ∈ delimiterTokens ds <;> simp [h]
    · rw [if_neg h2]
      simp only [h2, false_and, if_false, defaults]
      by_cases h : t ∈ delimiterTokens ds <;> simp [h]

end Big.SD
