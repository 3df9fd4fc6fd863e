import Verif.Delims.Lemmas
import Verif.Multisplit.Props
/-!
# C48: split_delimiters nests, and loses nothing
-/
namespace Big.SD
open Big.MS Big.MS.Spec

variable {α : Type}

/-! ### specification -/

/-- All strings of all tuples, joined. -/
def joined (ys : List (Tuple α)) : List α := (ys.map (fun x => x.1 ++ x.2.1 ++ x.2.2)).flatten

/-- The tuples nest, where `st` has the open delimiters that are not closed yet, innermost first: an
opener is one of the delimiters and is not inside a quoting delimiter, a closer closes the innermost
open delimiter; only the last tuple has neither, and its text is not empty. -/
inductive Nests (ds : Delims α) : List (List α) → List (Tuple α) → Prop
  | nil {st} : Nests ds st []
  | text {st t} : t ≠ [] → Nests ds st [(t, [], [])]
  | opener {st t k d ys} : (k, d) ∈ ds → (∀ q dq, st.head? = some q → (q, dq) ∈ ds → dq.quoting = false) →
      Nests ds (k :: st) ys → Nests ds st ((t, k, []) :: ys)
  | closer {st t k d ys} : (k, d) ∈ ds → Nests ds st ys → Nests ds (k :: st) ((t, [], d.close) :: ys)

theorem joined_append (a b : List (Tuple α)) : joined (a ++ b) = joined a ++ joined b := by
  simp [joined]

theorem joined_cons (x : Tuple α) (b : List (Tuple α)) :
    joined (x :: b) = x.1 ++ x.2.1 ++ x.2.2 ++ joined b := by
  simp [joined]

/-- The strings of pairs, joined. -/
def flat (ps : List (List α × List α)) : List α := (ps.map (fun x => x.1 ++ x.2)).flatten

theorem flat_cons (s dl : List α) (ps : List (List α × List α)) :
    flat ((s, dl) :: ps) = s ++ dl ++ flat ps := by simp [flat]

/-! ### what the actions of a state can be -/

variable [DecidableEq α] {E : Env α} {ds : Delims α}

/-- No opener is the closer of a delimiter that does not quote. -/
def Disjoint (ds : Delims α) : Prop := ∀ k ∈ openers ds, k ∉ nestedClosers ds

theorem mem_openers {k : List α} : k ∈ openers ds ↔ ∃ d, (k, d) ∈ ds := by
  simp [openers]

theorem mem_nested {kd : List α × Delim α} (h : kd ∈ ds) (hq : kd.2.quoting = false) :
    kd.2.close ∈ nestedClosers ds :=
  List.mem_map.2 ⟨kd, List.mem_filter.2 ⟨h, by simpa using hq⟩, rfl⟩

theorem close_ne (h : OK E ds) {kd} (hk : kd ∈ ds) : kd.2.close ≠ [] := by
  intro e
  apply h.noEmpty
  unfold allTokens delimiterTokens closers
  rw [← e]
  simp only [List.mem_append, List.mem_map]
  exact .inl (.inl (.inr ⟨kd, hk, rfl⟩))

/-- A state that does not quote. -/
theorem plain_of (h : OK E ds) {st : State α} (hst : ∀ kd, st = some kd → kd ∈ ds)
    (hq : ∀ kd, st = some kd → kd.2.quoting = false) :
    ∀ kd, st = some kd → kd.2.quoting = false ∧ kd.2.escape = [] :=
  fun kd e => ⟨hq kd e, (h.esc (hst kd e)).2 (hq kd e)⟩

theorem get_close (h : OK E ds) (hd : Disjoint ds) {kd} (hk : kd ∈ ds) :
    get E ds (some kd) kd.2.close = if kd.2.close = kd.2.escape then .escape else .pop := by
  cases hq : kd.2.quoting with
  | true =>
    have he : kd.2.escape ≠ [] := by rw [Ne, h.esc hk, hq]; simp
    rw [get_quoting (k := kd.1) hq he]
    by_cases h1 : kd.2.close = kd.2.escape <;> simp [h1]
  | false =>
    have ht : kd.2.close ∉ openers ds := fun ho => hd _ ho (mem_nested hk hq)
    have he := (h.esc hk).2 hq
    rw [get_plain (fun kd' e => by cases e; exact ⟨hq, he⟩) ht, if_pos ⟨kd, rfl, rfl⟩, if_neg]
    rw [he]; exact close_ne h hk

theorem get_escape {kd : List α × Delim α} (hq : kd.2.quoting = true) (he : kd.2.escape ≠ []) :
    get E ds (some kd) kd.2.escape = .escape := by
  rw [get_quoting (k := kd.1) hq he]; simp

/-- What can happen on a token. -/
inductive Step (E : Env α) (ds : Delims α) (st : State α) (t : List α) : Act α × List α × Bool → Prop
  | pop {kd b rest} : st = some kd → t = kd.2.close ++ rest → (b = true ↔ rest ≠ []) →
      Step E ds st t (.pop, kd.2.close, b)
  | escape {kd b rest} : st = some kd → kd.2.quoting = true → t = kd.2.escape ++ rest →
      (b = true ↔ rest ≠ []) → Step E ds st t (.escape, kd.2.escape, b)
  | flush : get E ds st t = .flush → Step E ds st t (.flush, t, false)
  | flush1 {kd} : st = some kd → kd.2.quoting = true → get E ds st t = .flush1 → t ≠ kd.2.close →
      t ≠ kd.2.escape → (∃ c ∈ t, c ∈ kd.2.close ++ kd.2.escape) → Step E ds st t (.flush1, t, false)
  | illegal : get E ds st t = .illegal → Step E ds st t (.illegal, t, false)
  | illegalNewline : get E ds st t = .illegalNewline → Step E ds st t (.illegalNewline, t, false)

theorem prefix_rest {s t : List α} (h : s <+: t) (hne : t ≠ s) : ∃ rest, t = s ++ rest ∧ rest ≠ [] := by
  obtain ⟨rest, rfl⟩ := h
  exact ⟨rest, rfl, fun e => hne (by simp [e])⟩

/-- A token either is an opener that is pushed, or does one of the other things. -/
theorem get_cases (h : OK E ds) (hd : Disjoint ds) {st : State α} (hst : ∀ kd, st = some kd → kd ∈ ds)
    (t : List α) :
    (∃ d, (t, d) ∈ ds ∧ (∀ kd, st = some kd → kd.2.quoting = false) ∧ get E ds st t = .push (t, d)) ∨
    ((∀ x, get E ds st t ≠ .push x) ∧ Step E ds st t (resolve E ds st t (get E ds st t))) := by
  by_cases hq : ∃ kd, st = some kd ∧ kd.2.quoting = true
  · right
    obtain ⟨kd, rfl, hq⟩ := hq
    have hk := hst kd rfl
    have he : kd.2.escape ≠ [] := by rw [Ne, h.esc hk, hq]; simp
    have hg := get_quoting (E := E) (ds := ds) (k := kd.1) hq he t
    by_cases h1 : t = kd.2.escape
    · subst h1
      rw [if_pos rfl] at hg
      rw [hg]
      exact ⟨by simp, .escape (rest := []) rfl hq (by simp) (by simp)⟩
    rw [if_neg h1] at hg
    by_cases h2 : t = kd.2.close
    · rw [if_pos h2] at hg
      rw [hg]
      subst h2
      exact ⟨by simp, .pop (rest := []) rfl (by simp) (by simp)⟩
    rw [if_neg h2] at hg
    by_cases h3 : kd.2.multiline = false ∧ t ∈ E.newlines
    · rw [if_pos h3] at hg
      rw [hg]
      exact ⟨by simp, .illegalNewline hg⟩
    rw [if_neg h3] at hg
    unfold innerAct at hg
    by_cases h4 : t ∉ allTokens E ds
    · rw [if_neg h4] at hg
      rw [hg]
      exact ⟨by simp, .flush hg⟩
    rw [Decidable.not_not] at h4
    rw [if_pos h4] at hg
    by_cases h5 : kd.2.close <+: t
    · rw [if_pos h5] at hg
      rw [hg]
      refine ⟨by simp, ?_⟩
      unfold resolve
      dsimp only
      rw [get_close h hd hk]
      obtain ⟨rest, hr, hrne⟩ := prefix_rest h5 h2
      by_cases hce : kd.2.close = kd.2.escape
      · rw [if_pos hce, hce]
        exact .escape rfl hq (hce ▸ hr) (by simp [hrne])
      · rw [if_neg hce]
        exact .pop rfl hr (by simp [hrne])
    rw [if_neg h5] at hg
    by_cases h6 : kd.2.escape <+: t
    · rw [if_pos h6] at hg
      rw [hg]
      refine ⟨by simp, ?_⟩
      unfold resolve
      dsimp only
      rw [get_escape hq he]
      obtain ⟨rest, hr, hrne⟩ := prefix_rest h6 h1
      exact .escape rfl hq hr (by simp [hrne])
    rw [if_neg h6] at hg
    by_cases h7 : ∃ c ∈ t, c ∈ kd.2.close ++ kd.2.escape
    · rw [if_pos h7] at hg
      rw [hg]
      exact ⟨by simp, .flush1 rfl hq hg h2 h1 h7⟩
    · rw [if_neg h7] at hg
      rw [hg]
      exact ⟨by simp, .flush hg⟩
  · have hq' : ∀ kd, st = some kd → kd.2.quoting = false := by
      intro kd e
      cases hh : kd.2.quoting
      · rfl
      · exact absurd ⟨kd, e, hh⟩ hq
    by_cases ho : t ∈ openers ds
    · left
      obtain ⟨d, hm⟩ := mem_openers.1 ho
      exact ⟨d, hm, hq', get_opener h hq' hm⟩
    · right
      have hg := get_plain (E := E) (plain_of h hst hq') ho
      by_cases h1 : ∃ kd, st = some kd ∧ kd.2.close = t
      · rw [if_pos h1] at hg
        obtain ⟨kd, rfl, rfl⟩ := h1
        rw [hg]
        exact ⟨by simp, .pop (rest := []) rfl (by simp) (by simp)⟩
      rw [if_neg h1] at hg
      unfold truncOf at hg
      cases st with
      | none =>
        dsimp only at hg
        split at hg <;> rw [hg]
        · exact ⟨by simp, .illegal hg⟩
        · exact ⟨by simp, .flush hg⟩
      | some kd =>
        have hk := hst kd rfl
        by_cases h2 : t ∈ allTokens E ds ∧ kd.2.close <+: t
        · dsimp only at hg
          rw [if_pos h2] at hg
          dsimp only at hg
          rw [hg]
          refine ⟨by simp, ?_⟩
          unfold resolve
          dsimp only
          rw [get_close h hd hk, if_neg]
          · obtain ⟨rest, hr, hrne⟩ := prefix_rest h2.2 (fun e => h1 ⟨kd, rfl, e.symm⟩)
            exact .pop rfl hr (by simp [hrne])
          · rw [(h.esc hk).2 (hq' kd rfl)]; exact close_ne h hk
        · dsimp only at hg
          rw [if_neg h2] at hg
          dsimp only at hg
          split at hg <;> rw [hg]
          · exact ⟨by simp, .illegal hg⟩
          · exact ⟨by simp, .flush hg⟩

end Big.SD
