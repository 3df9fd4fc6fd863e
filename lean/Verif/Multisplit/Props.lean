import Verif.Multisplit.Tables
/-! # C37–C40: multisplit; C42: multipartition -/
namespace Big.MS
open Big.Rx Spec

variable {α : Type} [DecidableEq α] {nl : α} {cache : List (List α) → Option (List (List α))}
  {seps : List (List α)}

/-- multisplit without strip, for every keep mode and every value of maxsplit: there is one list of
pieces, the string split at every separator; maxsplit keeps some of the splits; keep shapes the
result. -/
theorem multisplit_spec (hc : CacheOK cache) (hne : seps ≠ []) (he : [] ∉ seps)
    (separate reverse : Bool) (s : List α) :
    ∃ l, Splits seps separate reverse s l ∧ ∀ (keep : Keep) (maxsplit : Option Int),
      multisplit nl cache s seps keep maxsplit reverse separate .no
        = .ok (render keep (cut reverse (allowed maxsplit) l)) := by
  obtain ⟨l, h1, h2⟩ := msGen_spec hc hne he separate reverse s
  refine ⟨l, h1, ?_⟩
  intro keep maxsplit
  unfold multisplit
  rw [if_neg hne, if_pos rfl, h2 keep maxsplit .no (by simp)]

theorem joined_flatten : ∀ l : List (List α), (joined l).flatten = l.flatten
  | [] => rfl
  | [_] => rfl
  | a :: w :: l => by simp [joined, joined_flatten l]

theorem pairs_flatten : ∀ l : List (List α), ((pairs l).map (fun x => x.1 ++ x.2)).flatten = l.flatten
  | [] => rfl
  | [a] => by simp [pairs]
  | a :: w :: l => by simp [pairs, pairs_flatten l]

theorem render_flatten {keep : Keep} (hk : keep ≠ .no) (l : List (List α)) :
    ((render keep l).map Item.get).flatten = l.flatten := by
  cases keep with
  | no => exact absurd rfl hk
  | yes =>
    rw [← joined_flatten l]
    simp [render, Function.comp_def, Item.get]
  | alternating => simp [render, Function.comp_def, Item.get]
  | asPairs =>
    rw [← pairs_flatten l]
    simp [render, Function.comp_def, Item.get]

/-- C37: whatever maxsplit, reverse and separate are, joining what multisplit yields with a true keep
(pairs flattened) recreates the string; and multisplit does not raise. -/
theorem C37_multisplit_keep_lossless (hc : CacheOK cache) (hne : seps ≠ []) (he : [] ∉ seps)
    (s : List α) (keep : Keep) (hk : keep ≠ .no) (maxsplit : Option Int) (reverse separate : Bool) :
    ∃ items, multisplit nl cache s seps keep maxsplit reverse separate .no = .ok items ∧
      (items.map (fun | .str t => t | .pair a b => a ++ b)).flatten = s := by
  obtain ⟨l, h1, h2⟩ := multisplit_spec (nl := nl) hc hne he separate reverse s
  refine ⟨_, h2 keep maxsplit, ?_⟩
  have : (fun | .str t => t | .pair a b => a ++ b : Item α → List α) = Item.get := by
    funext x; cases x <;> rfl
  rw [this, render_flatten hk, cut_flatten, h1.1]

/-- The shape of the items of each keep mode: strings, except pairs for AS_PAIRS. -/
theorem C37_multisplit_item_shape (hc : CacheOK cache) (hne : seps ≠ []) (he : [] ∉ seps)
    (s : List α) (keep : Keep) (maxsplit : Option Int) (reverse separate : Bool)
    (items : List (Item α))
    (h : multisplit nl cache s seps keep maxsplit reverse separate .no = .ok items) :
    items ≠ [] ∧ ∀ x ∈ items, (∃ a b, x = .pair a b) ↔ keep = .asPairs := by
  obtain ⟨l, h1, h2⟩ := multisplit_spec (nl := nl) hc hne he separate reverse s
  rw [h2 keep maxsplit] at h
  simp only [Except.ok.injEq] at h
  subst h
  have hodd := cut_odd (reverse := reverse) (n := allowed maxsplit) (splits_odd h1)
  generalize cut reverse (allowed maxsplit) l = l' at hodd
  refine ⟨?_, ?_⟩
  · match l', hodd with
    | [], h => simp at h
    | [a], _ => cases keep <;> simp [render, texts, joined, pairs]
    | a :: b :: r, _ => cases keep <;> simp [render, texts, joined, pairs]
  · cases keep <;> simp [render]
    grind

example : CacheOK strCache ∧ ([[' '], ['a', 'b']] : List (List Char)) ≠ [] ∧
    [] ∉ ([[' '], ['a', 'b']] : List (List Char)) := ⟨strCache_ok, by decide, by decide⟩

/-! ### C38 -/

/-- C38: with maxsplit -1 (or None) the ALTERNATING result is the string split at every separator as
the specification says, and the other keep modes yield its texts, its texts with the separators
appended, or pairs. -/
theorem C38_multisplit_splits_exactly (hc : CacheOK cache) (hne : seps ≠ []) (he : [] ∉ seps)
    (s : List α) (reverse separate : Bool) (maxsplit : Option Int)
    (hmax : maxsplit = none ∨ maxsplit = some (-1)) :
    ∃ l, Splits seps separate reverse s l ∧
      multisplit nl cache s seps .alternating maxsplit reverse separate .no = .ok (l.map .str) ∧
      multisplit nl cache s seps .no maxsplit reverse separate .no = .ok ((texts l).map .str) ∧
      multisplit nl cache s seps .yes maxsplit reverse separate .no = .ok ((joined l).map .str) ∧
      multisplit nl cache s seps .asPairs maxsplit reverse separate .no
        = .ok ((pairs l).map (fun x => .pair x.1 x.2)) := by
  obtain ⟨l, h1, h2⟩ := multisplit_spec (nl := nl) hc hne he separate reverse s
  have : allowed maxsplit = none := by rcases hmax with rfl | rfl <;> rfl
  refine ⟨l, h1, ?_, ?_, ?_, ?_⟩ <;> rw [h2, this] <;> rfl

/-- The specification determines the pieces: there is only one way to split. -/
theorem C38_splits_unique {separate reverse : Bool} {s : List α} {l l' : List (List α)}
    (h : Splits seps separate reverse s l) (h' : Splits seps separate reverse s l') : l = l' := by
  obtain ⟨h1, h2⟩ := h
  obtain ⟨h1', h2'⟩ := h'
  cases reverse with
  | false =>
    simp only [Bool.false_eq_true, if_false] at h2 h2'
    exact alternates_unique _ _ h2 h2' (by rw [h1, h1'])
  | true =>
    simp only [if_true] at h2 h2'
    have := alternates_unique _ _ h2 h2' (by rw [mirror_flatten, mirror_flatten, h1, h1'])
    rw [← mirror_mirror l, this, mirror_mirror]

theorem alternates_seps {separate : Bool} :
    ∀ l : List (List α), Alternates seps separate l → ∀ w ∈ Spec.seps l, ∃ rest, SepAt seps separate w rest
  | [], h => by simp [Alternates] at h
  | [_], _ => by simp [Spec.seps]
  | n :: w :: r, h => by
    intro v hv
    simp only [Spec.seps, List.mem_cons] at hv
    rcases hv with rfl | hv
    · exact ⟨_, h.2.1⟩
    · exact alternates_seps r h.2.2 v hv

theorem seps_append : ∀ (l : List (List α)) (w : List α) (r : List (List α)), l.length % 2 = 1 →
    Spec.seps (l ++ (w :: r)) = Spec.seps l ++ w :: Spec.seps r
  | [], _, _, h => by simp at h
  | [a], w, r, _ => by simp [Spec.seps]
  | a :: b :: l, w, r, h => by
    have := seps_append l w r (by simp only [List.length_cons] at h; omega)
    simp [Spec.seps, this]

theorem seps_mirror : ∀ (l : List (List α)), l.length % 2 = 1 →
    Spec.seps (mirror l) = mirror (Spec.seps l)
  | [], h => by simp at h
  | [a], _ => by simp [Spec.seps, mirror]
  | a :: w :: l, h => by
    have hl : l.length % 2 = 1 := by simp only [List.length_cons] at h; omega
    have ih := seps_mirror l hl
    have : mirror (a :: w :: l) = mirror l ++ (w.reverse :: [a.reverse]) := by simp [mirror]
    rw [this, seps_append _ _ _ (by rw [mirror_length]; exact hl), ih]
    simp [Spec.seps, mirror]

theorem run_concat {m rest : List α} (h : Run seps m rest) : Concat seps m := by
  induction h with
  | done _ => exact .nil
  | more hl _ ih => exact .cons hl.1 ih

theorem concat_append {a b : List α} (h : Concat seps a) (h' : Concat seps b) :
    Concat seps (a ++ b) := by
  induction h with
  | nil => simpa
  | cons hw _ ih => rw [List.append_assoc]; exact .cons hw ih

theorem concat_reverse {m : List α} (h : Concat (seps.map List.reverse) m) :
    Concat seps m.reverse := by
  induction h with
  | nil => exact .nil
  | @cons w m hw _ ih =>
    simp only [List.mem_map] at hw
    obtain ⟨v, hv, rfl⟩ := hw
    rw [List.reverse_append, List.reverse_reverse]
    have := concat_append ih (.cons hv .nil)
    simpa using this

/-- In both directions: with separate true every separator piece is one of the separators; with
separate false it is a concatenation of one or more. -/
theorem C38_separator_pieces (he : [] ∉ seps) {separate reverse : Bool} {s : List α}
    {l : List (List α)} (h : Splits seps separate reverse s l) :
    ∀ w ∈ Spec.seps l, if separate then w ∈ seps else w ≠ [] ∧ Concat seps w := by
  have hodd := splits_odd h
  obtain ⟨_, h⟩ := h
  intro w hw
  cases reverse with
  | false =>
    simp only [Bool.false_eq_true, if_false] at h
    obtain ⟨rest, hs⟩ := alternates_seps l h w hw
    have hne := sepAt_ne he hs
    unfold SepAt at hs
    split at hs
    · rw [if_pos ‹_›]; exact hs.1
    · rw [if_neg ‹_›]; exact ⟨hne, run_concat hs.2⟩
  | true =>
    simp only [if_true] at h
    have hw' : w.reverse ∈ Spec.seps (mirror l) := by
      rw [seps_mirror l hodd]; simpa [mirror] using hw
    obtain ⟨rest, hs⟩ := alternates_seps _ h _ hw'
    have hne := sepAt_ne (by rw [nil_mem_map_reverse]; exact he) hs
    unfold SepAt at hs
    split at hs
    · rw [if_pos ‹_›]
      have := hs.1
      simp only [List.mem_map] at this
      obtain ⟨v, hv, e⟩ := this
      rw [List.reverse_inj] at e
      rw [← e]; exact hv
    · rw [if_neg ‹_›]
      refine ⟨by simpa using hne, ?_⟩
      have := concat_reverse (run_concat hs.2)
      simpa using this

theorem alternates_texts {separate : Bool} :
    ∀ l : List (List α), Alternates seps separate l → ∀ t ∈ texts l, ∀ w ∈ seps, w ≠ [] → ¬ w <:+: t
  | [], h => by simp [Alternates] at h
  | [n], h => by
    intro t ht w hw hne
    simp only [texts, List.mem_singleton] at ht
    subst ht
    rintro ⟨a, b, rfl⟩
    exact h a (w ++ b) (by simp) w hw ⟨b, rfl⟩
  | n :: v :: r, h => by
    intro t ht w hw hne
    simp only [texts, List.mem_cons] at ht
    rcases ht with rfl | ht
    · rintro ⟨a, b, rfl⟩
      exact h.1 a (w ++ b) (by simp) (by simp [hne]) w hw ⟨b ++ (v ++ r.flatten), by simp⟩
    · exact alternates_texts r h.2.2 t ht w hw hne

/-- In both directions no text contains a separator. -/
theorem C38_texts_contain_no_separator (he : [] ∉ seps) {separate reverse : Bool} {s : List α}
    {l : List (List α)} (h : Splits seps separate reverse s l) :
    ∀ t ∈ texts l, ∀ w ∈ seps, ¬ w <:+: t := by
  have hodd := splits_odd h
  obtain ⟨_, h⟩ := h
  intro t ht w hw
  have hwne : w ≠ [] := fun e => he (e ▸ hw)
  cases reverse with
  | false =>
    simp only [Bool.false_eq_true, if_false] at h
    exact alternates_texts l h t ht w hw hwne
  | true =>
    simp only [if_true] at h
    intro hinf
    refine alternates_texts _ h t.reverse ?_ w.reverse ?_ (by simpa using hwne) (List.reverse_infix.2 hinf)
    · rw [texts_mirror l hodd]; simpa [mirror] using ht
    · exact List.mem_map.2 ⟨w, hw, rfl⟩

theorem run_end {m rest : List α} (h : Run seps m rest) : NoSep seps rest := by
  induction h with
  | done h => exact h
  | more _ _ ih => exact ih

theorem alternates_inner_aux :
    ∀ l : List (List α), Alternates seps false l → NoSep seps l.flatten → ∀ t ∈ (texts l).dropLast, t ≠ []
  | [], h, _ => by simp [Alternates] at h
  | [n], _, _ => by simp [texts]
  | n :: v :: r, h, hno => by
    intro t ht
    have hr : texts r ≠ [] := by
      match r, h.2.2 with
      | [], h => simp [Alternates] at h
      | [_], _ => simp [texts]
      | _ :: _ :: _, _ => simp [texts]
    have hs := h.2.1
    simp only [SepAt, Bool.false_eq_true, if_false] at hs
    rw [texts, List.dropLast_cons_of_ne_nil hr, List.mem_cons] at ht
    rcases ht with rfl | ht
    · rintro rfl
      obtain ⟨w, hw, hp⟩ := sepAt_starts h.2.1
      exact hno w hw (by simpa using hp)
    · exact alternates_inner_aux r h.2.2 (run_end hs.2) t ht

theorem alternates_inner :
    ∀ l : List (List α), Alternates seps false l → ∀ t ∈ (texts l).tail.dropLast, t ≠ []
  | [], h => by simp [Alternates] at h
  | [n], _ => by simp [texts]
  | n :: v :: r, h => by
    have hs := h.2.1
    simp only [SepAt, Bool.false_eq_true, if_false] at hs
    exact alternates_inner_aux r h.2.2 (run_end hs.2)

theorem mirror_inner (l : List (List α)) : (mirror l).tail.dropLast = mirror l.tail.dropLast := by
  rw [mirror, List.tail_reverse, List.dropLast_reverse, mirror]
  congr 1
  simp [List.map_dropLast, List.map_tail, List.tail_dropLast]

/-- With separate false, a text between two separators is not empty, in both directions. -/
theorem C38_inner_texts_nonempty {reverse : Bool} {s : List α} {l : List (List α)}
    (h : Splits seps false reverse s l) : ∀ t ∈ (texts l).tail.dropLast, t ≠ [] := by
  have hodd := splits_odd h
  obtain ⟨_, h⟩ := h
  cases reverse with
  | false => exact alternates_inner l (by simpa using h)
  | true =>
    intro t ht
    have := alternates_inner _ (by simpa using h : Alternates (seps.map List.reverse) false (mirror l))
    rw [texts_mirror l hodd, mirror_inner] at this
    have := this t.reverse (by
      rw [mirror, List.mem_reverse]; exact List.mem_map.2 ⟨t, ht, rfl⟩)
    simpa using this

/-- The example of the documentation, both directions. -/
example :
    Splits [[' ', 'x', ' ']] false false "A x x Z".toList ["A".toList, " x ".toList, "x Z".toList] ∧
    Splits [[' ', 'x', ' ']] false true "A x x Z".toList ["A x".toList, " x ".toList, "Z".toList] := by
  obtain ⟨l, h1, h2⟩ := multisplit_spec (nl := '\n') (cache := fun _ => none) (seps := [[' ', 'x', ' ']])
    (by intro _ _ h; simp at h) (by decide) (by decide) false false "A x x Z".toList
  obtain ⟨l', h1', h2'⟩ := multisplit_spec (nl := '\n') (cache := fun _ => none) (seps := [[' ', 'x', ' ']])
    (by intro _ _ h; simp at h) (by decide) (by decide) false true "A x x Z".toList
  have e : l = ["A".toList, " x ".toList, "x Z".toList] := by
    have := (h2 .alternating (some (-1))).symm.trans
      (show _ = .ok (["A".toList, " x ".toList, "x Z".toList].map .str) by decide +kernel)
    simp only [Except.ok.injEq] at this
    have := congrArg (List.map Item.get) this
    simpa [render, cut, allowed, Item.get, Function.comp_def] using this
  have e' : l' = ["A x".toList, " x ".toList, "Z".toList] := by
    have := (h2' .alternating (some (-1))).symm.trans
      (show _ = .ok (["A x".toList, " x ".toList, "Z".toList].map .str) by decide +kernel)
    simp only [Except.ok.injEq] at this
    have := congrArg (List.map Item.get) this
    simpa [render, cut, allowed, Item.get, Function.comp_def] using this
  exact ⟨e ▸ h1, e' ▸ h1'⟩

end Big.MS
