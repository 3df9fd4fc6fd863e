import Verif.Words.SplitTitle
import Verif.Words.CombineProps
import Verif.Words.CombineLaws
import Verif.Words.ArgsModel
/-! # Splitting and title-casing encoded text (C152), for any encoding -/
namespace Big.Words

variable {α β : Type} {e : α → List β}

/-! ### split_title_case -/

section title
variable {lo up : α → Bool} {lo' up' : β → Bool} {ac : Bool}

/-- A character is encoded as one byte of the same case, or has no case and is encoded as bytes that have none. -/
def CaseKept (e : α → List β) (lo up : α → Bool) (lo' up' : β → Bool) (c : α) : Prop :=
  (∃ b, e c = [b] ∧ lo' b = lo c ∧ up' b = up c) ∨
  (lo c = false ∧ up c = false ∧ e c ≠ [] ∧ ∀ b ∈ e c, lo' b = false ∧ up' b = false)

theorem title_uncased {w : List β} {m : Mode} {b : β} {r : List β} (hb : lo' b = false ∧ up' b = false) :
    titleLoop lo' up' ac m w (b :: r) = titleLoop lo' up' ac .other (w ++ [b]) r := by
  have he : enter lo' up' b = .other := by simp [enter, hb]
  cases m <;> simp [titleLoop, hb, he]

theorem title_feed : ∀ (bs : List β), bs ≠ [] → (∀ b ∈ bs, lo' b = false ∧ up' b = false) → ∀ (m : Mode) (w r : List β),
    titleLoop lo' up' ac m w (bs ++ r) = titleLoop lo' up' ac .other (w ++ bs) r
  | [], h, _, _, _, _ => absurd rfl h
  | [b], _, hb, m, w, r => by
    simpa using title_uncased (hb b (by simp))
  | b :: b' :: bs, _, hb, m, w, r => by
    rw [List.cons_append, title_uncased (hb b (by simp)), title_feed (b' :: bs) (by simp) (fun x hx => hb x (by simp [hx]))]
    simp

theorem code_titleLoop : ∀ (s : List α), (∀ c ∈ s, CaseKept e lo up lo' up' c) → ∀ (m : Mode) (w : List α),
    (w.flatMap e).isEmpty = w.isEmpty →
    (∀ mu, m = .upp mu → ∃ v x b, w = v ++ [x] ∧ e x = [b]) →
    titleLoop lo' up' ac m (w.flatMap e) (s.flatMap e) = (titleLoop lo up ac m w s).map (List.flatMap e)
  | [], _, m, w, he, _ => by
    simp only [List.flatMap_nil, titleLoop]
    rw [he]
    split <;> simp
  | c :: s, hk, m, w, he, hm => by
    have hs : ∀ x ∈ s, CaseKept e lo up lo' up' x := fun x hx => hk x (by simp [hx])
    have ne : ∀ (v : List α) (x : α) (b : β), e x = [b] → ((v ++ [x]).flatMap e).isEmpty = (v ++ [x]).isEmpty := by
      intro v x b h
      rw [Bool.eq_iff_iff]
      simp only [List.isEmpty_iff, List.flatMap_append, List.flatMap_cons, List.flatMap_nil, List.append_nil, h]
      simp
    have fm : ∀ (v : List α) (x : α), (v ++ [x]).flatMap e = v.flatMap e ++ e x := by intro v x; simp
    rw [List.flatMap_cons]
    rcases hk c (by simp) with ⟨b, hb, hlo, hup⟩ | ⟨hlo, hup, hne, hbs⟩
    · have hent : enter lo' up' b = enter lo up c := by unfold enter; rw [hlo, hup]
      have step : ∀ (m' : Mode), titleLoop lo' up' ac m' (w.flatMap e ++ [b]) (s.flatMap e) =
          (titleLoop lo up ac m' (w ++ [c]) s).map (List.flatMap e) := by
        intro m'
        have := code_titleLoop s hs m' (w ++ [c]) (ne w c b hb) (fun _ _ => ⟨w, c, b, rfl, hb⟩)
        rw [fm, hb] at this
        exact this
      rw [hb]
      cases m with
      | low =>
        simp only [List.singleton_append, titleLoop, hlo, hup, hent]
        split
        · have := code_titleLoop s hs (enter lo up c) [c] (ne [] c b hb) (fun _ _ => ⟨[], c, b, rfl, hb⟩)
          simp only [List.flatMap_cons, List.flatMap_nil, hb, List.append_nil] at this
          rw [this]
          rfl
        · split
          · exact step _
          · exact step _
      | upp mu =>
        simp only [List.singleton_append, titleLoop, hlo, hup, hent]
        split
        · exact step _
        · split
          · obtain ⟨v, x, d, rfl, hx⟩ := hm mu rfl
            have := code_titleLoop s hs (enter lo up c) ([x] ++ [c]) (ne [x] c b hb) (fun _ _ => ⟨[x], c, b, rfl, hb⟩)
            simp only [List.flatMap_append, List.flatMap_cons, List.flatMap_nil, hb, hx, List.append_nil] at this
            rw [fm, hx, List.dropLast_concat, List.getLast?_concat, List.dropLast_concat, List.getLast?_concat]
            simp only [Option.toList_some, List.map_cons]
            rw [this]
          · exact step _
      | other =>
        simp only [List.singleton_append, titleLoop, hent]
        exact step _
    · have hent : enter lo up c = .other := by simp [enter, hlo, hup]
      rw [title_feed (e c) hne hbs]
      have hne' : ((w ++ [c]).flatMap e).isEmpty = (w ++ [c]).isEmpty := by
        rw [Bool.eq_iff_iff]
        simp only [List.isEmpty_iff, List.flatMap_append, List.flatMap_cons, List.flatMap_nil, List.append_nil]
        simp [hne]
      have := code_titleLoop s hs .other (w ++ [c]) hne' (fun _ h => nomatch h)
      rw [fm] at this
      rw [this]
      cases m <;> simp [titleLoop, hlo, hup, hent]

theorem code_title (s : List α) (hs : ∀ c ∈ s, CaseKept e lo up lo' up' c) :
    splitTitleCase lo' up' ac (s.flatMap e) = (splitTitleCase lo up ac s).map (List.flatMap e) := by
  cases s with
  | nil => rfl
  | cons c s =>
    have hs' : ∀ x ∈ s, CaseKept e lo up lo' up' x := fun x hx => hs x (by simp [hx])
    rw [List.flatMap_cons]
    rcases hs c (by simp) with ⟨b, hb, hlo, hup⟩ | ⟨hlo, hup, hne, hbs⟩
    · have hent : enter lo' up' b = enter lo up c := by unfold enter; rw [hlo, hup]
      have := code_titleLoop (ac := ac) s hs' (enter lo up c) [c] (by simp [hb]) (fun _ _ => ⟨[], c, b, rfl, hb⟩)
      simp only [List.flatMap_cons, List.flatMap_nil, hb, List.append_nil] at this
      rw [hb]
      simp only [List.singleton_append, splitTitleCase, hent]
      exact this
    · have hent : enter lo up c = .other := by simp [enter, hlo, hup]
      have := code_titleLoop (ac := ac) s hs' .other [c] (by simp [hne]) (fun _ h => nomatch h)
      simp only [List.flatMap_cons, List.flatMap_nil, List.append_nil] at this
      cases hbs' : e c with
      | nil => exact absurd hbs' hne
      | cons b bs =>
        rw [hbs'] at this hbs
        have hb := hbs b (by simp)
        have hentb : enter lo' up' b = .other := by simp [enter, hb]
        simp only [List.cons_append, splitTitleCase, hent, hentb]
        rw [← this]
        cases bs with
        | nil => rfl
        | cons b' bs =>
          rw [title_feed (b' :: bs) (by simp) (fun x hx => hbs x (List.mem_cons_of_mem _ hx))]
          rfl

end title

/-! ### gently_title -/

section gently
variable [DecidableEq α] [DecidableEq β] {E : TitleEnv α} {E' : TitleEnv β} {apos quote : α → Bool} {apos' quote' : β → Bool}

/-- A character is encoded as one byte that is treated alike, or is nothing special and is encoded as bytes that are nothing
special. -/
def TitleKept (e : α → List β) (E : TitleEnv α) (E' : TitleEnv β) (apos quote : α → Bool) (apos' quote' : β → Bool) (c : α) :
    Prop :=
  (∃ b, e c = [b] ∧ E'.space b = E.space c ∧ (b = E'.lparen ↔ c = E.lparen) ∧ E'.upper b = (E.upper c).flatMap e ∧
    E'.isDO (E'.upper b) = E.isDO (E.upper c) ∧ apos' b = apos c ∧ quote' b = quote c) ∨
  ((E.space c = false ∧ c ≠ E.lparen ∧ E.upper c = [c] ∧ E.isDO (E.upper c) = false ∧ apos c = false ∧ quote c = false) ∧
    e c ≠ [] ∧ ∀ b ∈ e c, E'.space b = false ∧ b ≠ E'.lparen ∧ E'.upper b = [b] ∧ E'.isDO (E'.upper b) = false ∧
      apos' b = false ∧ quote' b = false)

omit [DecidableEq α] in
theorem gently_plain {b : β} (h : E'.space b = false ∧ b ≠ E'.lparen ∧ E'.upper b = [b] ∧ E'.isDO (E'.upper b) = false ∧
    apos' b = false ∧ quote' b = false) (st : TState) : gentlyStep E' apos' quote' st b = ([b], .inWord) := by
  obtain ⟨h1, h2, h3, h4, h5, h6⟩ := h
  rw [h3] at h4
  cases st <;> simp [gentlyStep, h1, h2, h3, h4, h5, h6]

omit [DecidableEq α] in
theorem gently_feed : ∀ (bs : List β), bs ≠ [] → (∀ b ∈ bs, E'.space b = false ∧ b ≠ E'.lparen ∧ E'.upper b = [b] ∧
    E'.isDO (E'.upper b) = false ∧ apos' b = false ∧ quote' b = false) → ∀ (st : TState) (r : List β),
    gentlyLoop E' apos' quote' st (bs ++ r) = bs ++ gentlyLoop E' apos' quote' .inWord r
  | [], h, _, _, _ => absurd rfl h
  | [b], _, hb, st, r => by
    simp only [List.singleton_append, gentlyLoop, gently_plain (hb b (by simp))]
  | b :: b' :: bs, _, hb, st, r => by
    rw [List.cons_append, gentlyLoop, gently_plain (hb b (by simp))]
    dsimp only
    rw [gently_feed (b' :: bs) (by simp) (fun x hx => hb x (by simp [hx]))]
    simp

theorem code_gentlyLoop : ∀ (s : List α), (∀ c ∈ s, TitleKept e E E' apos quote apos' quote' c) → ∀ st : TState,
    gentlyLoop E' apos' quote' st (s.flatMap e) = (gentlyLoop E apos quote st s).flatMap e
  | [], _, _ => rfl
  | c :: s, h, st => by
    have ih := code_gentlyLoop s (fun x hx => h x (by simp [hx]))
    rw [List.flatMap_cons]
    rcases h c (by simp) with ⟨b, hb, h1, h2, h3, h4, h5, h6⟩ | ⟨h1, h2, h3⟩
    · have : gentlyStep E' apos' quote' st b = ((gentlyStep E apos quote st c).1.flatMap e, (gentlyStep E apos quote st c).2) := by
        have hsp : (E'.space b || decide (b = E'.lparen)) = (E.space c || decide (c = E.lparen)) := by
          rw [h1]; congr 1; exact decide_eq_decide.2 h2
        cases st <;> simp only [gentlyStep, hsp, h4, h5, h6]
        · simp [hb]
        · split
          · simp [hb]
          · simp [h3]
        · split
          · simp [hb]
          · simp [h3]
        · simp [hb]
        · simp [h3]
      rw [hb, List.singleton_append, gentlyLoop, gentlyLoop, this, ih, List.flatMap_append]
    · rw [gently_feed (e c) h2 h3, ih, gentlyLoop, gently_plain h1]
      simp

end gently

/-! ### combine_splits -/

theorem flatMap_map_flatten (e : α → List β) (l : List (List α)) : (l.map (List.flatMap e)).flatten = l.flatten.flatMap e := by
  induction l with
  | nil => rfl
  | cons x l ih => simp [ih]

theorem cutAfter_encoded {e : α → List β} {l : List (List α)} {y : List β} :
    CutAfter (l.map (List.flatMap e)) y ↔ ∃ x, x.flatMap e = y ∧ CutAfter l x := by
  constructor
  · rintro ⟨l₁, l₂, h, rfl⟩
    obtain ⟨a, b, rfl, rfl, rfl⟩ := List.map_eq_append_iff.1 h
    exact ⟨a.flatten, (flatMap_map_flatten e a).symm, a, b, rfl, rfl⟩
  · rintro ⟨x, rfl, a, b, rfl, rfl⟩
    exact ⟨a.map (List.flatMap e), b.map (List.flatMap e), by simp, flatMap_map_flatten e a⟩

/-- C152: combine_splits of encoded text, with encoded split arrays, yields what it yields for the text, encoded; for any
encoding. -/
theorem C152_combine_splits (e : α → List β) (he : ∀ c, e c ≠ []) (s : List α) (arrays : List (List (List α)))
    (hjoin : ∀ arr ∈ arrays, arr.flatten = s) :
    combineSplits (s.flatMap e) (arrays.map (List.map (List.flatMap e))) =
      ((combineSplits s arrays).1.map (List.flatMap e), none) ∧ (combineSplits s arrays).2 = none := by
  have hnil : ∀ x : List α, x.flatMap e = [] ↔ x = [] := by
    intro x
    cases x with
    | nil => simp
    | cons c x => simp [he c]
  obtain ⟨ps, p1, p2, p3, p4⟩ := C45_union_of_boundaries s arrays hjoin
  obtain ⟨qs, q1, q2, q3, q4⟩ := C45_union_of_boundaries (s.flatMap e) (arrays.map (List.map (List.flatMap e))) (by
    intro arr harr
    obtain ⟨a, ha, rfl⟩ := List.mem_map.1 harr
    rw [flatMap_map_flatten, hjoin a ha])
  rw [p1, q1]
  refine ⟨Prod.ext ?_ rfl, rfl⟩
  refine pieces_unique (s.flatMap e) _ _ q2 ?_ q3 (by rw [flatMap_map_flatten, p3]) ?_
  · intro q hq
    obtain ⟨p, hp, rfl⟩ := List.mem_map.1 hq
    exact fun h => p2 p hp ((hnil p).1 h)
  · intro pre suf hs hpre hsuf
    rw [q4 pre suf hs hpre hsuf, cutAfter_encoded]
    constructor
    · rintro ⟨arr, harr, hc⟩
      obtain ⟨a, ha, rfl⟩ := List.mem_map.1 harr
      obtain ⟨x, rfl, hx⟩ := cutAfter_encoded.1 hc
      refine ⟨x, rfl, ?_⟩
      obtain ⟨l₁, l₂, h1, h2⟩ := hx
      have hsx : s = x ++ l₂.flatten := by rw [← hjoin a ha, h1, List.flatten_append, h2]
      refine (p4 x l₂.flatten hsx (fun h => hpre ((hnil x).2 h)) ?_).2 ⟨a, ha, l₁, l₂, h1, h2⟩
      intro h
      rw [h, List.append_nil] at hsx
      rw [hsx] at hs
      exact hsuf (by simpa using hs)
    · rintro ⟨x, rfl, hx⟩
      obtain ⟨l₁, l₂, h1, h2⟩ := hx
      have hsx : s = x ++ l₂.flatten := by rw [← p3, (show ps = l₁ ++ l₂ from h1), List.flatten_append, h2]
      obtain ⟨a, ha, hc⟩ := (p4 x l₂.flatten hsx (fun h => hpre ((hnil x).2 h)) (by
        intro h
        rw [h, List.append_nil] at hsx
        rw [hsx] at hs
        exact hsuf (by simpa using hs))).1 ⟨l₁, l₂, h1, h2⟩
      exact ⟨a.map (List.flatMap e), List.mem_map_of_mem ha, cutAfter_encoded.2 ⟨x, rfl, hc⟩⟩

end Big.Words
