import Verif.Multisplit.Order
import Verif.Multisplit.Strip
/-!
# C149: splitting encoded text by encoded separators

An encoding of characters (elements of α) as strings of bytes (elements of β) such that an encoded text occurs in another
one only where the text occurs in the other, as for UTF-8 and every encoding of one byte per character.
-/
namespace Big.MS
open Big.Rx Spec

variable {α β : Type} [DecidableEq α] [DecidableEq β]

/-! ### Specification -/

/-- An encoded text occurs in an encoded text only where it occurs in it before it was encoded. -/
def Aligned (E : α → List β) : Prop :=
  ∀ (s w : List α) (x y : List β), w ≠ [] → s.flatMap E = x ++ w.flatMap E ++ y →
    ∃ x' y', s = x' ++ w ++ y' ∧ x'.flatMap E = x ∧ y'.flatMap E = y

/-- A string, or pair of strings, encoded. -/
def Item.encode (E : α → List β) : Item α → Item β
  | .str s => .str (s.flatMap E)
  | .pair a b => .pair (a.flatMap E) (b.flatMap E)

/-- A list of items, or an exception, encoded. -/
def encodeAll (E : α → List β) : Except Err (List (Item α)) → Except Err (List (Item β)) :=
  Except.map (List.map (Item.encode E))

/-! ### Codes as functions of strings

`e` encodes strings; so does its mirror image, which is not of the form `flatMap E`. -/

/-- What is used of an encoding. -/
structure Code (e : List α → List β) : Prop where
  append : ∀ a b, e (a ++ b) = e a ++ e b
  pos : ∀ a, e [a] ≠ []
  aligned : ∀ (s w : List α) (x y : List β), w ≠ [] → e s = x ++ e w ++ y →
    ∃ x' y', s = x' ++ w ++ y' ∧ e x' = x ∧ e y' = y

theorem Code.nil {e : List α → List β} (h : Code e) : e [] = [] := by
  have := h.append [] []
  simpa using this

theorem Code.eq_nil {e : List α → List β} (h : Code e) {a : List α} : e a = [] ↔ a = [] := by
  constructor
  · intro h'
    cases a with
    | nil => rfl
    | cons x a =>
      have := h.append [x] a
      rw [List.singleton_append, h', eq_comm, List.append_eq_nil_iff] at this
      exact absurd this.1 (h.pos x)
  · rintro rfl; exact h.nil

theorem Code.inj {e : List α → List β} (h : Code e) {a b : List α} (hab : e a = e b) : a = b := by
  by_cases hb : b = []
  · subst hb; rw [h.nil] at hab; exact h.eq_nil.1 hab
  · obtain ⟨x, y, h1, h2, h3⟩ := h.aligned a b [] [] hb (by simpa using hab)
    rw [h.eq_nil.1 h2, h.eq_nil.1 h3] at h1
    simpa using h1

theorem Code.length_le {e : List α → List β} (h : Code e) (a : List α) : a.length ≤ (e a).length := by
  induction a with
  | nil => simp
  | cons x a ih =>
    have := h.append [x] a
    rw [List.singleton_append] at this
    have hp := List.length_pos_iff.2 (h.pos x)
    rw [this, List.length_append, List.length_cons]
    omega

theorem Code.prefix {e : List α → List β} (h : Code e) {w s : List α} : e w <+: e s ↔ w <+: s := by
  by_cases hw : w = []
  · subst hw; simp [h.nil]
  constructor
  · rintro ⟨y, hy⟩
    obtain ⟨x', y', h1, h2, _⟩ := h.aligned s w [] y hw (by simpa using hy.symm)
    rw [h.eq_nil.1 h2] at h1
    exact ⟨y', by simpa using h1.symm⟩
  · rintro ⟨y, rfl⟩
    exact ⟨e y, (h.append _ _).symm⟩

/-- Where an encoded separator starts in an encoded text, a character starts. -/
theorem Code.boundary {e : List α → List β} (h : Code e) {s w : List α} {x t : List β} (hw : w ≠ [])
    (hs : e s = x ++ t) (hp : e w <+: t) : ∃ x' t', s = x' ++ t' ∧ e x' = x ∧ e t' = t := by
  obtain ⟨y, rfl⟩ := hp
  obtain ⟨x', y', h1, h2, h3⟩ := h.aligned s w x y hw (by rw [hs, List.append_assoc])
  exact ⟨x', w ++ y', by rw [h1, List.append_assoc], h2, by rw [h.append, h3]⟩

theorem Code.mirror {e : List α → List β} (h : Code e) : Code (fun s => (e s.reverse).reverse) where
  append a b := by simp [h.append]
  pos a := by simpa using h.pos a
  aligned s w x y hw hs := by
    have hs' : e s.reverse = y.reverse ++ e w.reverse ++ x.reverse := by
      have := congrArg List.reverse hs
      simpa using this
    obtain ⟨x', y', h1, h2, h3⟩ := h.aligned s.reverse w.reverse _ _ (by simpa using hw) hs'
    refine ⟨y'.reverse, x'.reverse, ?_, by simp [h3], by simp [h2]⟩
    have := congrArg List.reverse h1
    simpa using this

theorem code_of_aligned {E : α → List β} (h : Aligned E) (hp : ∀ a, E a ≠ []) : Code (fun s : List α => s.flatMap E) where
  append a b := by simp
  pos a := by simpa using hp a
  aligned := h

/-! ### Matching -/

section
variable {e : List α → List β} {seps : List (List α)}

theorem code_noSep (h : Code e) {s : List α} : NoSep (seps.map e) (e s) ↔ NoSep seps s := by
  simp only [NoSep, List.mem_map, forall_exists_index, and_imp, forall_apply_eq_imp_iff₂, h.prefix]

theorem code_longest (h : Code e) {w s : List α} (hl : Longest seps w s) : Longest (seps.map e) (e w) (e s) := by
  refine ⟨List.mem_map_of_mem hl.1, h.prefix.2 hl.2.1, ?_⟩
  intro v hv hp
  obtain ⟨w', hw', rfl⟩ := List.mem_map.1 hv
  have hp := h.prefix.1 hp
  exact (h.prefix.2 (List.prefix_of_prefix_length_le hp hl.2.1 (hl.2.2 w' hw' hp))).length_le

theorem code_run (h : Code e) {m rest : List α} (hr : Run seps m rest) : Run (seps.map e) (e m) (e rest) := by
  induction hr with
  | done hn => rw [h.nil]; exact .done ((code_noSep h).2 hn)
  | @more w m rest hl _ ih =>
    rw [h.append]
    refine .more ?_ ih
    rw [← h.append, ← h.append]
    exact code_longest h hl

theorem code_sepAt (h : Code e) {sp : Bool} {m rest : List α} (hs : SepAt seps sp m rest) :
    SepAt (seps.map e) sp (e m) (e rest) := by
  unfold SepAt at hs ⊢
  split at hs
  · rw [if_pos ‹_›, ← h.append]
    exact code_longest h hs
  · rw [if_neg ‹_›]
    exact ⟨fun he => hs.1 (h.eq_nil.1 he), code_run h hs.2⟩

theorem code_nil_mem (h : Code e) (he : [] ∉ seps) : [] ∉ seps.map e := by
  intro hm
  obtain ⟨w, hw, h'⟩ := List.mem_map.1 hm
  exact he (h.eq_nil.1 h' ▸ hw)

theorem code_match (h : Code e) (hne : seps ≠ []) (he : [] ∉ seps) (sp : Bool) (s : List α) :
    match0 (sepRe (seps.map e) sp) (e s) = (match0 (sepRe seps sp) s).map (fun x => (e x.1, e x.2)) := by
  have hne' : seps.map e ≠ [] := by simpa using hne
  have he' := code_nil_mem h he
  rcases match0_sepRe hne he sp s with ⟨m, rest, h1, h2, h3⟩ | ⟨h1, h2⟩
  · rw [h3]
    rcases match0_sepRe hne' he' sp (e s) with ⟨m', rest', g1, g2, g3⟩ | ⟨g1, g2⟩
    · obtain ⟨a, b⟩ := sepAt_unique (code_sepAt h h2) g2 (by rw [← h.append, ← h1, g1])
      rw [g3, ← a, ← b]; rfl
    · obtain ⟨w, hw, hp⟩ := sepAt_starts h2
      exact absurd (h.prefix.2 (h1 ▸ hp)) (g1 _ (List.mem_map_of_mem hw))
  · rw [h2]
    rcases match0_sepRe hne' he' sp (e s) with ⟨m', rest', g1, g2, g3⟩ | ⟨g1, g2⟩
    · obtain ⟨w, hw, hp⟩ := sepAt_starts g2
      rw [← g1] at hp
      exact absurd hp ((code_noSep h).2 h1 w hw)
    · rw [g2]; rfl

/-- A matcher of encoded text that only matches where a character starts, and where the matcher of the text does, is
first successful at the same place. -/
theorem code_search_gen (h : Code e) {mt : List α → Option (List α × List α)} {mt' : List β → Option (List β × List β)}
    (hm : ∀ s, (mt' (e s)).isSome = (mt s).isSome)
    (hb : ∀ (s : List α) (x t : List β), e s = x ++ t → (mt' t).isSome →
      ∃ x' t', s = x' ++ t' ∧ e x' = x ∧ e t' = t) (s : List α) :
    (search mt s = none ∧ search mt' (e s) = none) ∨
    ∃ p s' x x', s = p ++ s' ∧ mt s' = some x ∧ mt' (e s') = some x' ∧ search mt s = some (p, x) ∧
      search mt' (e s) = some (e p, x') := by
  rcases search_gen mt' (e s) with ⟨p2, s2, x2, h1, h2, h3, h4⟩ | ⟨h1, h2⟩
  · right
    obtain ⟨p', t', rfl, rfl, rfl⟩ := hb s p2 s2 h2 (by rw [h3]; rfl)
    have hsome : (mt t').isSome := by rw [← hm, h3]; rfl
    rcases search_gen mt (p' ++ t') with ⟨p, s', x, g1, g2, g3, g4⟩ | ⟨g1, g2⟩
    · rcases List.append_eq_append_iff.1 g2 with ⟨b, rfl, hb2⟩ | ⟨b, rfl, hb2⟩
      · by_cases hb0 : b = []
        · subst hb0
          simp only [List.append_nil, List.nil_append] at *
          subst hb2
          exact ⟨p', t', x, x2, rfl, g3, h3, g1, h1⟩
        · have := g4 p' b rfl hb0
          rw [← hb2] at this
          rw [this] at hsome; simp at hsome
      · by_cases hb0 : b = []
        · subst hb0
          simp only [List.append_nil, List.nil_append] at *
          subst hb2
          exact ⟨p, s', x, x2, rfl, g3, h3, g1, h1⟩
        · have := h4 (e p) (e b) (h.append _ _) (fun he => hb0 (h.eq_nil.1 he))
          rw [← h.append, ← hb2] at this
          have g := hm s'
          rw [this, g3] at g
          simp at g
    · rw [g2 p' t' rfl] at hsome; simp at hsome
  · left
    refine ⟨?_, h1⟩
    rcases search_gen mt s with ⟨p, s', x, g1, rfl, g3, g4⟩ | ⟨g1, g2⟩
    · have := hm s'
      rw [h2 (e p) (e s') (h.append _ _), g3] at this
      simp at this
    · exact g1

/-- The same, when the matchers match the same. -/
theorem code_search (h : Code e) {mt : List α → Option (List α × List α)} {mt' : List β → Option (List β × List β)}
    (hm : ∀ s, mt' (e s) = (mt s).map (fun x => (e x.1, e x.2)))
    (hb : ∀ (s : List α) (x t : List β), e s = x ++ t → (mt' t).isSome →
      ∃ x' t', s = x' ++ t' ∧ e x' = x ∧ e t' = t) (s : List α) :
    search mt' (e s) = (search mt s).map (fun x => (e x.1, e x.2.1, e x.2.2)) := by
  rcases code_search_gen h (mt := mt) (mt' := mt') (fun s => by rw [hm]; simp) hb s with
    ⟨h1, h2⟩ | ⟨p, s', x, x', _, h2, h3, h4, h5⟩
  · rw [h1, h2]; rfl
  · rw [h4, h5]
    rw [hm, h2] at h3
    simp only [Option.map_some, Option.some.injEq] at h3
    subst h3
    rfl

theorem code_boundary_sep (h : Code e) (hne : seps ≠ []) (he : [] ∉ seps) (sp : Bool) (s : List α) (x t : List β)
    (hs : e s = x ++ t) (hm : (match0 (sepRe (seps.map e) sp) t).isSome) :
    ∃ x' t', s = x' ++ t' ∧ e x' = x ∧ e t' = t := by
  have hne' : seps.map e ≠ [] := by simpa using hne
  rcases match0_sepRe hne' (code_nil_mem h he) sp t with ⟨m, rest, g1, g2, g3⟩ | ⟨g1, g2⟩
  · obtain ⟨w, hw, hp⟩ := sepAt_starts g2
    obtain ⟨v, hv, rfl⟩ := List.mem_map.1 hw
    exact h.boundary (fun hv0 => he (hv0 ▸ hv)) hs (by rw [g1]; exact hp)
  · rw [g2] at hm; simp at hm

/-! ### Splitting -/

theorem code_splitLoop (h : Code e) {mt : List α → Option (List α × List α)} {mt' : List β → Option (List β × List β)}
    (hm : ∀ s, search mt' (e s) = (search mt s).map (fun x => (e x.1, e x.2.1, e x.2.2)))
    (hlt : ∀ s x, search mt s = some x → x.2.2.length < s.length)
    (hlt' : ∀ s x, search mt' s = some x → x.2.2.length < s.length) (keep : Bool) :
    ∀ (f f' : Nat) (lim : Option Nat) (s : List α), s.length < f → (e s).length < f' →
      splitLoop mt' keep f' lim (e s) = (splitLoop mt keep f lim s).map e := by
  intro f
  induction f with
  | zero => intro f' lim s h1; omega
  | succ f ih =>
    intro f' lim s h1 h2
    cases f' with
    | zero => omega
    | succ f' =>
      simp only [splitLoop]
      by_cases hl : lim = some 0
      · rw [if_pos hl, if_pos hl]; rfl
      · rw [if_neg hl, if_neg hl]
        have hm := hm s
        cases hs : search mt s with
        | none => rw [hs] at hm; rw [hm]; rfl
        | some x =>
          obtain ⟨p, m, rest⟩ := x
          rw [hs] at hm
          simp only [Option.map_some] at hm
          have := hlt _ _ hs
          have := hlt' _ _ hm
          simp only at *
          rw [hm]
          simp only
          rw [ih f' _ rest (by omega) (by omega)]
          cases keep <;> simp

theorem sep_search_lt (hne : seps ≠ []) (he : [] ∉ seps) (sp : Bool) (s : List α)
    (x : List α × List α × List α) (h : search (match0 (sepRe seps sp)) s = some x) : x.2.2.length < s.length := by
  rcases search_spec (match0_sepRe hne he sp) s with ⟨p, m, rest, h1, h2, h3, _⟩ | ⟨h1, _⟩
  · rw [h1] at h
    simp only [Option.some.injEq] at h
    subst h
    have hml := List.length_pos_iff.2 (sepAt_ne he h3)
    rw [h2]
    simp only [List.length_append]
    omega
  · rw [h1] at h; simp at h

theorem code_reSplit (h : Code e) (hne : seps ≠ []) (he : [] ∉ seps) (sp keep : Bool) (n : Int) (s : List α) :
    reSplit (match0 (sepRe (seps.map e) sp)) keep n (e s) = (reSplit (match0 (sepRe seps sp)) keep n s).map e := by
  have hne' : seps.map e ≠ [] := by simpa using hne
  unfold reSplit
  exact code_splitLoop h
    (code_search h (code_match h hne he sp) (code_boundary_sep h hne he sp))
    (sep_search_lt hne he sp) (sep_search_lt hne' (code_nil_mem h he) sp) keep _ _ _ s (by omega) (by omega)

/-- A function of strings applied to the strings of an item. -/
def Item.onStr (e : List α → List β) : Item α → Item β
  | .str s => .str (e s)
  | .pair a b => .pair (e a) (e b)

theorem code_evens : ∀ l : List (List α), evens (l.map e) = (evens l).map e
  | [] => rfl
  | [_] => rfl
  | a :: b :: l => by simp only [List.map_cons, evens, code_evens l]

theorem code_last (h : Code e) : ∀ (i : Nat) (l : List (List α)), lastNonEmpty i (l.map e) = lastNonEmpty i l
  | _, [] => rfl
  | i, [a] => by simp only [List.map_cons, List.map_nil, lastNonEmpty, ne_eq, h.eq_nil]
  | i, a :: b :: l => by simp only [List.map_cons, lastNonEmpty, ne_eq, h.eq_nil, code_last h]

theorem code_progressive (h : Code e) (keep : Keep) (n : Int) (l : List (List α)) :
    progressive keep n (l.map e) = (progressive keep n l).map e := by
  unfold progressive
  simp only [code_last h]
  split <;> split <;> simp only [List.map_take, code_evens, ← List.map_take]

theorem code_pairUp (h : Code e) (keep : Keep) : ∀ l : List (List α), pairUp keep (l.map e) = (pairUp keep l).map (Item.onStr e)
  | [] => rfl
  | [_] => rfl
  | a :: b :: l => by
    simp only [List.map_cons, pairUp, code_pairUp h keep l, ← h.append]
    split <;> rfl

theorem code_emit (h : Code e) (keep : Keep) (l : List (List α)) : emit keep (l.map e) = (emit keep l).map (Item.onStr e) := by
  have hp : ∀ k : Keep, pairUp k (if (l.map e).length % 2 = 1 then l.map e ++ [[]] else l.map e) =
      (pairUp k (if l.length % 2 = 1 then l ++ [[]] else l)).map (Item.onStr e) := by
    intro k
    rw [← code_pairUp h, List.length_map]
    split
    · rw [List.map_append, List.map_singleton, h.nil]
    · rfl
  cases keep
  · simp only [emit, List.map_map]; rfl
  · exact hp _
  · simp only [emit, List.map_map]; rfl
  · exact hp _

theorem code_msGen (h : Code e) {cache : List (List α) → Option (List (List α))} (hc : CacheOK cache)
    {cache' : List (List β) → Option (List (List β))} (hc' : CacheOK cache') (hne : seps ≠ []) (he : [] ∉ seps)
    (s : List α) (keep : Keep) (maxsplit : Option Int) (reverse separate : Bool) (strip : Strip) (reKeep : Bool) :
    msGen cache' (e s) (seps.map e) keep maxsplit reverse separate strip reKeep =
      (msGen cache s seps keep maxsplit reverse separate strip reKeep).map (Item.onStr e) := by
  unfold msGen
  by_cases h0 : maxsplit = some 0
  · rw [if_pos h0, if_pos h0]
    split
    · simp only [List.map_cons, List.map_nil, Item.onStr, h.nil]
    · rfl
  · rw [if_neg h0, if_neg h0]
    dsimp only
    cases reverse with
    | false =>
      simp only [Bool.false_eq_true, if_false]
      rw [code_reSplit h hne he, ← code_emit h]
      split
      · rw [code_progressive h]
      · rfl
    | true =>
      simp only [if_true]
      have hm := h.mirror
      have e1 : (e s).reverse = (fun s => (e s.reverse).reverse) s.reverse := by simp
      have e2 : match0 (sepRe (revSeps cache' (seps.map e)) separate) =
          match0 (sepRe ((seps.map List.reverse).map (fun s => (e s.reverse).reverse)) separate) := by
        apply match0_set
        intro w
        rw [mem_revSeps hc']
        simp
      have e3 : match0 (sepRe (revSeps cache seps) separate) = match0 (sepRe (seps.map List.reverse) separate) :=
        match0_set (mem_revSeps hc seps) separate
      rw [e1, e2, e3, code_reSplit hm (by simpa using hne) (fun hm0 => he (nil_mem_map_reverse.1 hm0)), ← code_emit h]
      have e4 : ∀ l : List (List α), ((l.map (fun s => (e s.reverse).reverse)).map List.reverse).reverse =
          ((l.map List.reverse).reverse).map e := by
        intro l
        simp [List.map_reverse]
      split
      · rw [code_progressive hm, e4]
      · rw [e4]

/-! ### Stripping -/

theorem code_concat (h : Code e) {m : List α} (hm : Concat seps m) : Concat (seps.map e) (e m) := by
  induction hm with
  | nil => rw [h.nil]; exact .nil
  | cons hw _ ih => rw [h.append]; exact .cons (List.mem_map_of_mem hw) ih

theorem code_concat_inv (h : Code e) (he : [] ∉ seps) {m' : List β} (hm : Concat (seps.map e) m') :
    ∀ (s : List α) (rest' : List β), e s = m' ++ rest' →
      ∃ m rest, s = m ++ rest ∧ e m = m' ∧ e rest = rest' ∧ Concat seps m := by
  induction hm with
  | nil => intro s rest' hs; exact ⟨[], s, rfl, h.nil, hs, .nil⟩
  | @cons w m hw _ ih =>
    intro s rest' hs
    obtain ⟨v, hv, rfl⟩ := List.mem_map.1 hw
    obtain ⟨x, y, h1, h2, h3⟩ := h.aligned s v [] (m ++ rest') (fun hv0 => he (hv0 ▸ hv)) (by simpa using hs)
    rw [h.eq_nil.1 h2] at h1
    obtain ⟨m2, rest, g1, g2, g3, g4⟩ := ih y rest' h3
    exact ⟨v ++ m2, rest, by rw [h1, g1]; simp, by rw [h.append, g2], g3, .cons hv g4⟩

theorem code_tail (h : Code e) (hne : seps ≠ []) (he : [] ∉ seps) {nl : α} {nl' : β} (hnl : e [nl] = [nl']) (s : List α) :
    (match0 (.seq (sepRe (seps.map e) false) (.look (atEnd nl'))) (e s)).isSome =
      (match0 (.seq (sepRe seps false) (.look (atEnd nl))) s).isSome := by
  have hne' : seps.map e ≠ [] := by simpa using hne
  rw [Bool.eq_iff_iff, tail_match hne he, tail_match hne' (code_nil_mem h he)]
  constructor
  · rintro ⟨m', rest', h1, h2, h3, h4⟩
    obtain ⟨m, rest, g1, rfl, rfl, g4⟩ := code_concat_inv h he h3 s rest' h1
    refine ⟨m, rest, g1, fun hm0 => h2 (h.eq_nil.2 hm0), g4, ?_⟩
    rcases h4 with h4 | h4
    · exact .inl (h.eq_nil.1 h4)
    · exact .inr (h.inj (h4.trans hnl.symm))
  · rintro ⟨m, rest, rfl, h2, h3, h4⟩
    refine ⟨e m, e rest, h.append _ _, fun hm0 => h2 (h.eq_nil.1 hm0), code_concat h h3, ?_⟩
    rcases h4 with rfl | rfl
    · exact .inl h.nil
    · exact .inr hnl

theorem code_boundary_tail (h : Code e) (hne : seps ≠ []) (he : [] ∉ seps) {nl' : β} (s : List α) (x t : List β)
    (hs : e s = x ++ t) (hm : (match0 (.seq (sepRe (seps.map e) false) (.look (atEnd nl'))) t).isSome) :
    ∃ x' t', s = x' ++ t' ∧ e x' = x ∧ e t' = t := by
  have hne' : seps.map e ≠ [] := by simpa using hne
  obtain ⟨m, rest, h1, h2, h3, _⟩ := (tail_match hne' (code_nil_mem h he) t).1 hm
  cases h3 with
  | nil => exact absurd rfl h2
  | @cons w m hw _ =>
    obtain ⟨v, hv, rfl⟩ := List.mem_map.1 hw
    exact h.boundary (fun hv0 => he (hv0 ▸ hv)) hs ⟨m ++ rest, by rw [h1]; simp⟩

theorem code_stripCore (h : Code e) (hne : seps ≠ []) (he : [] ∉ seps) {nl : α} {nl' : β} (hnl : e [nl] = [nl'])
    (s : List α) (left right : Bool) :
    stripCore nl' (e s) (seps.map e) left right = e (stripCore nl s seps left right) := by
  have hl : (if left then restOr (e s) (match0 (sepRe (seps.map e) false) (e s)) else e s) =
      e (if left then restOr s (match0 (sepRe seps false) s) else s) := by
    cases left with
    | false => rfl
    | true =>
      simp only [if_true]
      rw [code_match h hne he]
      cases match0 (sepRe seps false) s <;> rfl
  unfold stripCore
  dsimp only
  rw [hl]
  generalize (if left then restOr s (match0 (sepRe seps false) s) else s) = s1
  cases right with
  | false => rfl
  | true =>
    simp only [if_true]
    rcases code_search_gen h (code_tail h hne he hnl) (code_boundary_tail h hne he) s1 with
      ⟨h1, h2⟩ | ⟨p, s', x, x', _, _, _, h4, h5⟩
    · rw [h1, h2]; rfl
    · rw [h4, h5]; rfl

theorem code_multistrip (h : Code e) (he : [] ∉ seps) {nl : α} {nl' : β} (hnl : e [nl] = [nl'])
    (s : List α) (left right : Bool) :
    multistrip nl' (e s) (seps.map e) left right = (multistrip nl s seps left right).map e := by
  unfold multistrip
  by_cases hne : seps = []
  · subst hne; rfl
  · rw [if_neg hne, if_neg he, if_neg (by simpa using hne), if_neg (code_nil_mem h he)]
    split
    · rfl
    · rw [code_stripCore h hne he hnl]; rfl

theorem code_multisplit (h : Code e) {cache : List (List α) → Option (List (List α))} (hc : CacheOK cache)
    {cache' : List (List β) → Option (List (List β))} (hc' : CacheOK cache') (he : [] ∉ seps)
    {nl : α} {nl' : β} (hnl : e [nl] = [nl'])
    (s : List α) (keep : Keep) (maxsplit : Option Int) (reverse separate : Bool) (strip : Strip) :
    multisplit nl' cache' (e s) (seps.map e) keep maxsplit reverse separate strip =
      (multisplit nl cache s seps keep maxsplit reverse separate strip).map (List.map (Item.onStr e)) := by
  unfold multisplit
  by_cases hne : seps = []
  · subst hne; rfl
  · rw [if_neg hne, if_neg (by simpa using hne)]
    by_cases hs : strip = .no
    · rw [if_pos hs, if_pos hs, code_msGen h hc hc' hne he]; rfl
    · rw [if_neg hs, if_neg hs, code_multistrip h he hnl]
      cases multistrip nl s seps (stripSides strip maxsplit reverse).1 (stripSides strip maxsplit reverse).2 with
      | error x => rfl
      | ok s' =>
        simp only [Except.map]
        rw [code_msGen h hc hc' hne he]
        simp only [h.eq_nil]

theorem code_get (h : Code e) (items : List (Item α)) :
    (items.map (Item.onStr e)).map Item.get = (items.map Item.get).map e := by
  rw [List.map_map, List.map_map]
  apply List.map_congr_left
  intro x _
  cases x with
  | str s => rfl
  | pair a b => exact (h.append a b).symm

theorem code_multipartition (h : Code e) {cache : List (List α) → Option (List (List α))} (hc : CacheOK cache)
    {cache' : List (List β) → Option (List (List β))} (hc' : CacheOK cache') (he : [] ∉ seps)
    {nl : α} {nl' : β} (hnl : e [nl] = [nl'])
    (s : List α) (count : Int) (reverse separate : Bool) :
    multipartition nl' cache' (e s) (seps.map e) count reverse separate =
      (multipartition nl cache s seps count reverse separate).map (List.map e) := by
  unfold multipartition
  split
  · rfl
  · rw [code_multisplit h hc hc' he hnl]
    cases multisplit nl cache s seps .alternating (some count) reverse separate .no with
    | error x => rfl
    | ok items =>
      simp only [Except.map]
      rw [code_get h, List.length_map]
      split <;> simp [h.nil]

theorem code_join (h : Code e) (r : List α) : ∀ l : List (List α), join (e r) (l.map e) = e (join r l)
  | [] => h.nil.symm
  | [_] => rfl
  | a :: b :: l => by
    have := code_join h r (b :: l)
    simp only [List.map_cons] at this
    simp only [List.map_cons, join, this, h.append]

theorem code_normalize (h : Code e) {cache : List (List α) → Option (List (List α))} (hc : CacheOK cache)
    {cache' : List (List β) → Option (List (List β))} (hc' : CacheOK cache') (sp : α → Bool) (sp' : β → Bool)
    (s repl : List α) :
    normalizeWhitespace cache' sp' false (e s) (seps.map e) (e repl) =
      (normalizeWhitespace cache sp false s seps repl).map e := by
  unfold normalizeWhitespace
  by_cases he : [] ∈ seps
  · rw [if_pos he, if_pos (by simpa using ⟨[], he, h.nil⟩)]; rfl
  · rw [if_neg he, if_neg (code_nil_mem h he)]
    by_cases hne : seps = []
    · subst hne; rfl
    · rw [if_neg hne, if_neg (by simpa using hne)]
      by_cases hs : s = []
      · subst hs; rw [if_pos rfl, if_pos h.nil]; simp [Except.map, h.nil]
      · rw [if_neg hs, if_neg (fun h0 => hs (h.eq_nil.1 h0))]
        simp only [Bool.false_eq_true, if_false, normGeneral, Except.map]
        rw [code_msGen h hc hc' hne he, code_get h, code_join h]

end

end Big.MS
