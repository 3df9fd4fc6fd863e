import Verif.Multisplit.Props
/-! # C39, C40: maxsplit and reverse; C42: multipartition -/
namespace Big.MS
open Big.Rx Spec

variable {α : Type} [DecidableEq α] {nl : α} {cache : List (List α) → Option (List (List α))}
  {seps : List (List α)}

theorem map_str_inj {l l' : List (List α)} (h : l.map Item.str = l'.map Item.str) : l = l' := by
  have := congrArg (List.map Item.get) h
  simpa [Item.get, Function.comp_def] using this

/-! ### C39 -/

/-- C39: if splitting without limit gives the pieces `l`, splitting with maxsplit `n` gives `l` if it
has at most `n` splits, and else makes the first `n` (last `n` if reverse) of those splits and leaves
the rest of the string in one piece. -/
theorem C39_maxsplit_makes_the_first_splits (hc : CacheOK cache) (hne : seps ≠ []) (he : [] ∉ seps)
    (s : List α) (reverse separate : Bool) (n : Nat) (l : List (List α))
    (hl : multisplit nl cache s seps .alternating (some (-1)) reverse separate .no
      = .ok (l.map .str)) :
    multisplit nl cache s seps .alternating (some n) reverse separate .no
      = .ok ((if l.length ≤ 2 * n then l
              else if reverse then
                (l.take (l.length - 2 * n)).flatten :: l.drop (l.length - 2 * n)
              else l.take (2 * n) ++ [(l.drop (2 * n)).flatten]).map .str) := by
  obtain ⟨l', h1, h2⟩ := multisplit_spec (nl := nl) hc hne he separate reverse s
  have e : l' = l := by
    rw [h2 .alternating (some (-1))] at hl
    simp only [render, allowed, cut, if_true, Except.ok.injEq] at hl
    exact map_str_inj hl
  subst e
  rw [h2]
  have hodd := splits_odd h1
  have hn : ((n : Int) = -1) = False := by simp
  simp only [render, allowed, hn, if_false, Int.toNat_natCast, cut, Except.ok.injEq]
  congr 1
  have hll : l'.length ≤ 2 * n ∨ 2 * n < l'.length := by omega
  rcases hll with hle | hgt
  · rw [if_pos hle]
    unfold limitDir
    split
    · rw [limit_ge n (mirror l') (by rw [mirror_length]; exact hodd) (by rw [mirror_length]; omega),
        mirror_mirror]
    · exact limit_ge n l' hodd (by omega)
  · rw [if_neg (by omega)]
    unfold limitDir
    split
    · rw [limit_eq_take n (mirror l') (by rw [mirror_length]; exact hgt)]
      simp only [mirror, List.map_append, List.reverse_append, List.map_cons, List.map_nil,
        List.reverse_singleton, List.singleton_append]
      congr 1
      · rw [List.drop_reverse, List.reverse_flatten]
        simp only [List.map_reverse, List.reverse_reverse, List.length_map, List.map_take, List.map_map]
        congr 1
        congr 1
        simp [Function.comp_def]
      · rw [List.take_reverse, List.map_reverse, List.reverse_reverse, List.map_drop]
        simp [Function.comp_def]
    · exact limit_eq_take n l' hgt

theorem texts_length : ∀ l : List (List α), l.length % 2 = 1 → 2 * (texts l).length = l.length + 1
  | [], h => by simp at h
  | [_], _ => rfl
  | a :: w :: l, h => by
    have := texts_length l (by simp only [List.length_cons] at h; omega)
    simp only [texts, List.length_cons]; omega

theorem joined_length : ∀ l : List (List α), (joined l).length = (texts l).length
  | [] => rfl
  | [_] => rfl
  | a :: w :: l => by simp [texts, joined, joined_length l]

theorem pairs_length : ∀ l : List (List α), (pairs l).length = (texts l).length
  | [] => rfl
  | [_] => rfl
  | a :: w :: l => by simp [texts, pairs, pairs_length l]

/-- With maxsplit `n ≥ 0`, at most `n` splits are made: at most `n + 1` strings (or pairs) are
yielded, `2n + 1` with ALTERNATING. -/
theorem C39_at_most_maxsplit_splits (hc : CacheOK cache) (hne : seps ≠ []) (he : [] ∉ seps)
    (s : List α) (keep : Keep) (reverse separate : Bool) (n : Nat) :
    ∃ items, multisplit nl cache s seps keep (some n) reverse separate .no = .ok items ∧
      items.length ≤ (if keep = .alternating then 2 * n + 1 else n + 1) := by
  obtain ⟨l, h1, h2⟩ := multisplit_spec (nl := nl) hc hne he separate reverse s
  refine ⟨_, h2 keep (some n), ?_⟩
  have hodd := splits_odd h1
  have hn : ((n : Int) = -1) = False := by simp
  simp only [allowed, hn, if_false, Int.toNat_natCast]
  have hc' := cut_odd (reverse := reverse) (n := some n) hodd
  have hlen : (cut reverse (some n) l).length ≤ 2 * n + 1 := by
    simp only [cut, limitDir]
    split
    · rw [mirror_length]; exact limit_length _ _
    · exact limit_length _ _
  generalize cut reverse (some n) l = l' at *
  have := texts_length l' hc'
  cases keep <;> simp [render, joined_length, pairs_length] <;> omega

/-- maxsplit 0, and any negative maxsplit other than -1, leave the string whole. -/
theorem C39_maxsplit_zero_or_negative (hc : CacheOK cache) (hne : seps ≠ []) (he : [] ∉ seps)
    (s : List α) (keep : Keep) (reverse separate : Bool) (n : Int) (hn : n ≤ 0) (hn1 : n ≠ -1) :
    multisplit nl cache s seps keep (some n) reverse separate .no
      = .ok [if keep = .asPairs then .pair s [] else .str s] := by
  obtain ⟨l, h1, h2⟩ := multisplit_spec (nl := nl) hc hne he separate reverse s
  rw [h2]
  have : cut reverse (allowed (some n)) l = [s] := by
    simp only [allowed, hn1, if_false, cut, limitDir]
    rw [show n.toNat = 0 by omega]
    cases reverse with
    | false => simp [limit, h1.1]
    | true => simp [limit, mirror_flatten, h1.1]; simp [mirror]
  rw [this]
  cases keep <;> simp [render, texts, joined, pairs]

/-- None means -1. -/
theorem C39_maxsplit_none (hc : CacheOK cache) (hne : seps ≠ []) (he : [] ∉ seps)
    (s : List α) (keep : Keep) (reverse separate : Bool) :
    multisplit nl cache s seps keep none reverse separate .no
      = multisplit nl cache s seps keep (some (-1)) reverse separate .no := by
  obtain ⟨l, h1, h2⟩ := multisplit_spec (nl := nl) hc hne he separate reverse s
  rw [h2, h2]; rfl

example : multisplit '\n' strCache "a b c d".toList [[' ']] .alternating (some 2) true false .no
    = .ok ([['a', ' ', 'b'], [' '], ['c'], [' '], ['d']].map .str) := by decide +kernel

/-! ### C40 -/

/-- C40: for every keep mode and maxsplit, splitting in reverse yields the mirror image of splitting
the mirrored string with mirrored separators: the same pieces from right to left, each turned
around (then shaped by keep). -/
theorem C40_reverse_mirrors_forward (hc : CacheOK cache) (hne : seps ≠ []) (he : [] ∉ seps)
    (s : List α) (separate : Bool) (maxsplit : Option Int) :
    ∃ l, multisplit nl cache s.reverse (seps.map List.reverse) .alternating maxsplit false separate .no
        = .ok (l.map .str) ∧
      ∀ keep, multisplit nl cache s seps keep maxsplit true separate .no
        = .ok (match keep with
          | .no => (texts (mirror l)).map .str
          | .yes => (joined (mirror l)).map .str
          | .alternating => (mirror l).map .str
          | .asPairs => (pairs (mirror l)).map (fun x => .pair x.1 x.2)) := by
  obtain ⟨l, h1, h2⟩ := multisplit_spec (nl := nl) hc hne he separate true s
  obtain ⟨l', h1', h2'⟩ := multisplit_spec (nl := nl) hc (seps := seps.map List.reverse)
    (by simpa using hne) (by rw [nil_mem_map_reverse]; exact he) separate false s.reverse
  have e : mirror l = l' := by
    refine alternates_unique _ _ (by simpa using h1.2) (by simpa using h1'.2) ?_
    rw [mirror_flatten, h1.1, h1'.1]
  refine ⟨cut false (allowed maxsplit) l', h2' .alternating maxsplit, ?_⟩
  intro keep
  rw [h2]
  have : cut true (allowed maxsplit) l = mirror (cut false (allowed maxsplit) l') := by
    cases allowed maxsplit with
    | none => simp [cut, ← e, mirror_mirror]
    | some n => simp [cut, limitDir, e]
  rw [this]
  cases keep <;> rfl

/-- `p` marks the separator characters. -/
theorem single_noSep {s : List α} (h1 : ∀ w ∈ seps, w.length = 1) :
    NoSep seps s ↔ ∀ c t, s = c :: t → [c] ∉ seps := by
  constructor
  · rintro h c t rfl hc
    exact h _ hc ⟨t, rfl⟩
  · intro h w hw hp
    obtain ⟨c, rfl⟩ := List.length_eq_one_iff.1 (h1 w hw)
    obtain ⟨t, rfl⟩ := hp
    exact h c t rfl hw

theorem single_concat {m : List α} (h1 : ∀ w ∈ seps, w.length = 1) (h : Concat seps m) :
    ∀ c ∈ m, [c] ∈ seps := by
  induction h with
  | nil => simp
  | @cons w m hw _ ih =>
    obtain ⟨c, rfl⟩ := List.length_eq_one_iff.1 (h1 w hw)
    intro d hd
    rcases List.mem_append.1 hd with hd | hd
    · simp at hd; subst hd; exact hw
    · exact ih d hd

theorem single_run {m rest : List α} (h1 : ∀ w ∈ seps, w.length = 1) (hm : ∀ c ∈ m, [c] ∈ seps)
    (hr : NoSep seps rest) : Run seps m rest := by
  induction m with
  | nil => exact .done hr
  | cons c m ih =>
    have : Run seps ([c] ++ m) rest := by
      refine .more ⟨hm c (by simp), ⟨_, rfl⟩, ?_⟩ (ih (fun d hd => hm d (by simp [hd])))
      intro w hw _
      simp [h1 w hw]
    exact this

/-- For one-character separators, an alternating list is one whose texts contain no separator
character, whose separators consist of them, and whose inner texts are non-empty if grouped. -/
def Clean (seps : List (List α)) (separate : Bool) (l : List (List α)) : Prop :=
  l.length % 2 = 1 ∧ (∀ t ∈ texts l, ∀ c ∈ t, [c] ∉ seps) ∧
  (∀ w ∈ Spec.seps l, w ≠ [] ∧ (∀ c ∈ w, [c] ∈ seps) ∧ (separate = true → w.length = 1)) ∧
  (separate = false → ∀ t ∈ (texts l).tail.dropLast, t ≠ [])

theorem alternates_clean (h1 : ∀ w ∈ seps, w.length = 1) {separate : Bool} {l : List (List α)}
    (h : Alternates seps separate l) : Clean seps separate l := by
  have he : [] ∉ seps := fun e => by simpa using h1 _ e
  refine ⟨alternates_odd l h, ?_, ?_, ?_⟩
  · intro t ht c hc hcs
    refine alternates_texts l h t ht [c] hcs (by simp) ?_
    obtain ⟨a, b, rfl⟩ := List.append_of_mem hc
    exact ⟨a, b, by simp⟩
  · intro w hw
    obtain ⟨rest, hs⟩ := alternates_seps l h w hw
    refine ⟨sepAt_ne he hs, ?_, ?_⟩
    · unfold SepAt at hs
      split at hs
      · intro c hc
        obtain ⟨d, rfl⟩ := List.length_eq_one_iff.1 (h1 w hs.1)
        simp at hc; subst hc; exact hs.1
      · exact single_concat h1 (run_concat hs.2)
    · rintro rfl
      simp only [SepAt, if_true] at hs
      exact h1 w hs.1
  · rintro rfl
    exact alternates_inner l h

/-- The converse, for a tail of the list (`hne`: texts before the last are non-empty if grouped). -/
theorem clean_alternates (h1 : ∀ w ∈ seps, w.length = 1) {separate : Bool} :
    ∀ (l : List (List α)), l.length % 2 = 1 → (∀ t ∈ texts l, ∀ c ∈ t, [c] ∉ seps) →
      (∀ w ∈ Spec.seps l, w ≠ [] ∧ (∀ c ∈ w, [c] ∈ seps) ∧ (separate = true → w.length = 1)) →
      (separate = false → ∀ t ∈ (texts l).tail.dropLast, t ≠ []) → Alternates seps separate l
  | [], h, _, _, _ => by simp at h
  | [n], _, ht, _, _ => by
    intro a b hab
    rw [single_noSep h1]
    rintro c t rfl
    exact ht n (by simp [texts]) c (by simp [hab])
  | n :: w :: r, ho, ht, hs, hi => by
    have hro : r.length % 2 = 1 := by simp only [List.length_cons] at ho; omega
    have hw := hs w (by simp [Spec.seps])
    have htr : ∀ t ∈ texts r, ∀ c ∈ t, [c] ∉ seps := fun t h => ht t (by simp [texts, h])
    refine ⟨?_, ?_, clean_alternates h1 r hro htr (fun v hv => hs v (by simp [Spec.seps, hv])) ?_⟩
    · rintro a b rfl hb
      rw [single_noSep h1]
      intro c t e
      cases b with
      | nil => exact absurd rfl hb
      | cons d b =>
        obtain ⟨rfl, _⟩ := List.cons.inj e
        exact ht _ (by simp [texts]; exact .inl rfl) d (by simp)
    · unfold SepAt
      split
      · obtain ⟨c, rfl⟩ := List.length_eq_one_iff.1 (hw.2.2 ‹_›)
        refine ⟨hw.2.1 c (by simp), ⟨_, rfl⟩, ?_⟩
        intro v hv _
        simp [h1 v hv]
      · rename_i hsp
        have hsp : separate = false := by simpa using hsp
        refine ⟨hw.1, single_run h1 hw.2.1 ?_⟩
        rw [single_noSep h1]
        intro c t e hc
        -- the next text is non-empty, or the string ends
        match r, hro with
        | [m], _ =>
          have e : m = c :: t := by simpa using e
          exact htr m (by simp [texts]) c (by simp [e]) hc
        | m :: v :: r', hro' =>
          have htne : texts r' ≠ [] := by
            match r', hro' with
            | [], h => simp at h
            | [_], _ => simp [texts]
            | _ :: _ :: _, _ => simp [texts]
          have hm : m ≠ [] := by
            refine hi hsp m ?_
            simp [texts, List.dropLast_cons_of_ne_nil htne]
          cases m with
          | nil => exact hm rfl
          | cons d m =>
            have e : d = c := by
              have := (List.cons.inj e).1
              exact this
            exact htr (d :: m) (by simp [texts]) d (by simp) (e ▸ hc)
    · intro hsp t h
      refine hi hsp t ?_
      rw [texts, List.tail_cons]
      cases hx : texts r with
      | nil => rw [hx] at h; simp at h
      | cons x xs =>
        rw [hx] at h
        simp only [List.tail_cons] at h
        have hxs : xs ≠ [] := by rintro rfl; simp at h
        rw [List.dropLast_cons_of_ne_nil hxs]
        exact List.mem_cons_of_mem _ h

theorem clean_mirror {separate : Bool} {l : List (List α)} (h : Clean seps separate l) :
    Clean seps separate (mirror l) := by
  obtain ⟨h1, h2, h3, h4⟩ := h
  refine ⟨by rw [mirror_length]; exact h1, ?_, ?_, ?_⟩
  · rw [texts_mirror l h1]
    intro t ht c hc
    rw [mirror, List.mem_reverse, List.mem_map] at ht
    obtain ⟨u, hu, rfl⟩ := ht
    exact h2 u hu c (List.mem_reverse.1 hc)
  · rw [seps_mirror l h1]
    intro t ht
    rw [mirror, List.mem_reverse, List.mem_map] at ht
    obtain ⟨u, hu, rfl⟩ := ht
    obtain ⟨a, b, c⟩ := h3 u hu
    exact ⟨by simpa using a, fun d hd => b d (List.mem_reverse.1 hd), by simpa using c⟩
  · intro hs t ht
    rw [texts_mirror l h1, mirror_inner, mirror, List.mem_reverse, List.mem_map] at ht
    obtain ⟨u, hu, rfl⟩ := ht
    simpa using h4 hs u hu

/-- With one-character separators and no maxsplit, reverse changes nothing, whatever keep and separate
are. -/
theorem C40_reverse_irrelevant_for_single_characters (hc : CacheOK cache) (hne : seps ≠ [])
    (h1 : ∀ w ∈ seps, w.length = 1) (s : List α) (keep : Keep) (separate : Bool) :
    multisplit nl cache s seps keep (some (-1)) true separate .no
      = multisplit nl cache s seps keep (some (-1)) false separate .no := by
  have he : [] ∉ seps := fun e => by simpa using h1 _ e
  obtain ⟨l, ha, hb⟩ := multisplit_spec (nl := nl) hc hne he separate true s
  obtain ⟨l', ha', hb'⟩ := multisplit_spec (nl := nl) hc hne he separate false s
  rw [hb, hb']
  have hrev : seps.map List.reverse = seps := by
    conv => rhs; rw [← List.map_id seps]
    apply List.map_congr_left
    intro w hw
    obtain ⟨c, rfl⟩ := List.length_eq_one_iff.1 (h1 w hw)
    rfl
  obtain ⟨ha1, ha2⟩ := ha
  obtain ⟨ha1', ha2'⟩ := ha'
  simp only [if_true, hrev] at ha2
  simp only [Bool.false_eq_true, if_false] at ha2'
  have hcl := clean_mirror (alternates_clean h1 ha2)
  rw [mirror_mirror] at hcl
  obtain ⟨c1, c2, c3, c4⟩ := hcl
  have : l = l' := alternates_unique _ _ (clean_alternates h1 l c1 c2 c3 c4) ha2' (by rw [ha1, ha1'])
  rw [this]
  rfl

/-- One character is needed: with longer separators the directions differ. -/
theorem C40_reverse_matters_for_long_separators :
    multisplit '\n' strCache "aaa".toList [['a', 'a']] .alternating (some (-1)) true true .no
      ≠ multisplit '\n' strCache "aaa".toList [['a', 'a']] .alternating (some (-1)) false true .no := by
  decide +kernel

/-! ### C42 -/

/-- C42: multipartition returns `2 * count + 1` pieces that rejoin to the string, and its odd
elements are separators (runs of separators if separate is false) or empty. -/
theorem C42_multipartition_rejoins (hc : CacheOK cache) (hne : seps ≠ []) (he : [] ∉ seps)
    (s : List α) (count : Nat) (reverse separate : Bool) :
    ∃ l, multipartition nl cache s seps count reverse separate = .ok l ∧
      l.length = 2 * count + 1 ∧ l.flatten = s ∧
      ∀ w ∈ Spec.seps l, w = [] ∨ if separate then w ∈ seps else Concat seps w := by
  obtain ⟨l, h1, h2⟩ := multisplit_spec (nl := nl) hc hne he separate reverse s
  have hn : ((count : Int) = -1) = False := by simp
  have h2 := h2 .alternating (some count)
  simp only [render, allowed, hn, if_false, Int.toNat_natCast] at h2
  have hodd := splits_odd h1
  have hc' := cut_odd (reverse := reverse) (n := some count) hodd
  have hlen : (cut reverse (some count) l).length ≤ 2 * count + 1 := by
    simp only [cut, limitDir]
    split
    · rw [mirror_length]; exact limit_length _ _
    · exact limit_length _ _
  have hfl : (cut reverse (some count) l).flatten = s := by rw [cut_flatten, h1.1]
  have hsep : ∀ w ∈ Spec.seps (cut reverse (some count) l),
      if separate then w ∈ seps else Concat seps w := by
    have hsub : ∀ (n : Nat) (l : List (List α)), ∀ w ∈ Spec.seps (limit n l), w ∈ Spec.seps l := by
      intro n
      induction n with
      | zero => intro l w hw; simp [limit, Spec.seps] at hw
      | succ n ih =>
        intro l w hw
        match l with
        | [] => simp [limit, Spec.seps] at hw
        | [a] => simp [limit, Spec.seps] at hw
        | a :: v :: r =>
          simp only [limit, Spec.seps, List.mem_cons] at hw ⊢
          rcases hw with rfl | hw
          · exact .inl rfl
          · exact .inr (ih r w hw)
    intro w hw
    have hw' : w ∈ Spec.seps l := by
      simp only [cut, limitDir] at hw
      split at hw
      · rw [seps_mirror _ (limit_odd _ _ (by rw [mirror_length]; exact hodd)), mirror,
          List.mem_reverse, List.mem_map] at hw
        obtain ⟨v, hv, rfl⟩ := hw
        have := hsub _ _ _ hv
        rw [seps_mirror _ hodd, mirror, List.mem_reverse, List.mem_map] at this
        obtain ⟨u, hu, rfl⟩ := this
        simpa using hu
      · exact hsub _ _ _ hw
    have := C38_separator_pieces he h1 w hw'
    cases separate with
    | true => simpa using this
    | false => simpa using (by simpa using this : w ≠ [] ∧ Concat seps w).2
  generalize cut reverse (some count) l = l' at *
  have hrep : (List.replicate (2 * count + 1 - l'.length) ([] : List α)).flatten = [] := by simp
  have hseprep : ∀ n, ∀ w ∈ Spec.seps (List.replicate n ([] : List α)), w = [] := by
    intro n
    induction n using Nat.strongRecOn with
    | ind n ih =>
      intro w hw
      match n with
      | 0 => simp [Spec.seps] at hw
      | 1 => simp [Spec.seps] at hw
      | n + 2 =>
        rw [List.replicate_succ, List.replicate_succ, Spec.seps, List.mem_cons] at hw
        rcases hw with rfl | hw
        · rfl
        · exact ih n (by omega) w hw
  refine ⟨if reverse then List.replicate (2 * count + 1 - l'.length) [] ++ l'
    else l' ++ List.replicate (2 * count + 1 - l'.length) [], ?_, ?_, ?_, ?_⟩
  · unfold multipartition
    rw [if_neg (by omega), h2]
    simp [Item.get, Function.comp_def]
  · split <;> simp <;> omega
  · split <;> simp [hfl]
  · intro w hw
    cases hk : 2 * count + 1 - l'.length with
    | zero => rw [hk] at hw; right; apply hsep; simpa using hw
    | succ k =>
      rw [hk] at hw
      cases reverse with
      | false =>
        simp only [Bool.false_eq_true, if_false, List.replicate_succ] at hw
        rw [seps_append _ _ _ hc'] at hw
        rcases List.mem_append.1 hw with hw | hw
        · exact .inr (hsep w hw)
        · rcases List.mem_cons.1 hw with rfl | hw
          · exact .inl rfl
          · exact .inl (hseprep _ w hw)
      | true =>
        simp only [if_true] at hw
        have hkodd : k % 2 = 1 := by omega
        rw [List.replicate_succ', List.append_assoc, List.singleton_append,
          seps_append _ _ _ (by simpa using hkodd)] at hw
        rcases List.mem_append.1 hw with hw | hw
        · exact .inl (hseprep _ w hw)
        · rcases List.mem_cons.1 hw with rfl | hw
          · exact .inl rfl
          · exact .inr (hsep w hw)

/-- The pieces are those of multisplit with that maxsplit, padded with empty strings at the end, or at
the start if reverse. -/
theorem C42_multipartition_is_multisplit (s : List α) (count : Nat) (reverse separate : Bool)
    (l : List (List α))
    (hl : multisplit nl cache s seps .alternating (some count) reverse separate .no
      = .ok (l.map .str)) :
    multipartition nl cache s seps count reverse separate
      = .ok (if reverse then List.replicate (2 * count + 1 - l.length) [] ++ l
             else l ++ List.replicate (2 * count + 1 - l.length) []) := by
  unfold multipartition
  rw [if_neg (by omega), hl]
  simp [Item.get, Function.comp_def]

/-- A negative count raises ValueError. -/
theorem C42_negative_count_raises (s : List α) (count : Int) (h : count < 0)
    (reverse separate : Bool) :
    multipartition nl cache s seps count reverse separate = .error .valueError := by
  simp [multipartition, h]

/-- multirpartition is multipartition in the other direction. -/
theorem C42_multirpartition (s : List α) (count : Int) (reverse separate : Bool) :
    multirpartition nl cache s seps count reverse separate
      = multipartition nl cache s seps count (!reverse) separate := rfl

example : multipartition '\n' strCache "aXYbYXc".toList [['X'], ['Y']] 2 false true
    = .ok ["a".toList, "X".toList, [], "Y".toList, "bYXc".toList] := by decide +kernel

example : multipartition '\n' strCache "aXb".toList [['X'], ['Y']] 2 true true
    = .ok [[], [], "a".toList, "X".toList, "b".toList] := by decide +kernel

/-- Arguments left out have the defaults of text.py:1098-1100 (keep=False, maxsplit=-1, reverse=False,
separate=False, strip=False) and of text.py:1280, 1348 (count=1, reverse=False, separate=True). -/
theorem default_arguments {α : Type} [DecidableEq α] (nl : α)
    (cache : List (List α) → Option (List (List α))) (s : List α) (seps : List (List α)) :
    multisplit nl cache s seps = multisplit nl cache s seps .no (some (-1)) false false .no ∧
    multipartition nl cache s seps = multipartition nl cache s seps 1 false true ∧
    multirpartition nl cache s seps = multirpartition nl cache s seps 1 false true :=
  ⟨rfl, rfl, rfl⟩

end Big.MS
