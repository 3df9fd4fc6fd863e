import Verif.Multisplit.Norm
/-! # C64: strip modes of multisplit -/
namespace Big.MS
open Big.Rx Spec

variable {α : Type} [DecidableEq α] {nl : α} {cache : List (List α) → Option (List (List α))}
  {seps : List (List α)}

/-- C64: strip true, LEFT and RIGHT strip the string as multistrip does, and then split it as without
strip; a string of which nothing is left is not split. -/
theorem C64_strip_then_split (s t : List α) (keep : Keep) (maxsplit : Option Int)
    (reverse separate : Bool) (strip : Strip) (hst : strip = .yes ∨ strip = .left ∨ strip = .right)
    (ht : multistrip nl s seps (decide (strip ≠ .right)) (decide (strip ≠ .left)) = .ok t) :
    multisplit nl cache s seps keep maxsplit reverse separate strip
      = multisplit nl cache t seps keep (if t = [] then some 0 else maxsplit) reverse separate .no := by
  have hsides : stripSides strip maxsplit reverse
      = (decide (strip ≠ .right), decide (strip ≠ .left)) := by
    rcases hst with rfl | rfl | rfl <;> rfl
  unfold multisplit
  rw [hsides]
  simp only
  rw [ht]
  split
  · rfl
  · have : strip ≠ .no := by rcases hst with rfl | rfl | rfl <;> simp
    have hp : strip ≠ .progressive := by rcases hst with rfl | rfl | rfl <;> simp
    rw [if_neg this]
    simp only [hp, false_and, if_false, decide_false, Bool.false_and, Bool.or_false]
    congr 1
    simp only [msGen, hp, if_false, reduceCtorEq]

/-- PROGRESSIVE without a limit strips both sides. -/
theorem C64_progressive_unlimited (s : List α) (keep : Keep) (reverse separate : Bool) :
    multisplit nl cache s seps keep (some (-1)) reverse separate .progressive
      = multisplit nl cache s seps keep (some (-1)) reverse separate .yes := by
  unfold multisplit
  simp [stripSides]

/-! ### PROGRESSIVE is how str.split works -/

theorem lastNonEmpty_full : ∀ (l : List (List α)) (i : Nat), l.length % 2 = 1 →
    l.getLast? ≠ some [] → lastNonEmpty i l + 1 = i + l.length
  | [], _, h, _ => by simp at h
  | [a], i, _, h => by
    have : a ≠ [] := by simpa using h
    simp [lastNonEmpty, this]
  | a :: w :: l, i, ho, h => by
    have hl : l.length % 2 = 1 := by simp only [List.length_cons] at ho; omega
    have hne : l ≠ [] := by rintro rfl; simp at hl
    have ih := lastNonEmpty_full l (i + 2) hl (by
      intro e; apply h
      rw [List.getLast?_cons_cons]
      cases l with
      | nil => exact absurd rfl hne
      | cons b l => rw [List.getLast?_cons_cons]; exact e)
    have hpos := List.length_pos_iff.2 hne
    simp only [lastNonEmpty, List.length_cons]
    rw [if_pos (by omega)]
    omega

theorem lastNonEmpty_drop (w : List α) : ∀ (l : List (List α)) (i : Nat), l.length % 2 = 1 →
    lastNonEmpty i (l ++ [w, []]) = lastNonEmpty i l
  | [], _, h => by simp at h
  | [a], i, _ => by simp [lastNonEmpty]
  | a :: v :: l, i, ho => by
    have := lastNonEmpty_drop w l (i + 2) (by simp only [List.length_cons] at ho; omega)
    simp [lastNonEmpty, this]

theorem limit_last : ∀ (n : Nat) (l : List (List α)), l.length % 2 = 1 →
    (limit n l).getLast? = some [] → (∀ w ∈ Spec.seps l, w ≠ []) →
      (limit n l = l ∧ l.length ≤ 2 * n + 1)
  | 0, l, ho, h, hs => by
    simp only [limit, List.getLast?_singleton, Option.some.injEq] at h
    match l, ho with
    | [], ho => simp at ho
    | [a], _ => simp at h; subst h; simp [limit]
    | a :: w :: r, _ =>
      simp only [List.flatten_cons, List.append_eq_nil_iff] at h
      exact absurd h.2.1 (hs w (by simp [Spec.seps]))
  | n + 1, [], ho, _, _ => by simp at ho
  | n + 1, [a], _, _, _ => by simp [limit]
  | n + 1, a :: w :: r, ho, h, hs => by
    have hr : r.length % 2 = 1 := by simp only [List.length_cons] at ho; omega
    have hlim := limit_odd n r hr
    have := limit_last n r hr (by
      simp only [limit] at h
      rw [List.getLast?_cons_cons] at h
      cases hx : limit n r with
      | nil => rw [hx] at hlim; simp at hlim
      | cons b x => rw [hx, List.getLast?_cons_cons] at h; exact h)
      (fun v hv => hs v (by simp [Spec.seps, hv]))
    simp only [limit, this.1, List.length_cons]
    exact ⟨trivial, by omega⟩

/-- What PROGRESSIVE makes of the pieces of a string that starts with a word. -/
theorem progressive_words {sp : α → Bool} {L : List (List α)} (h : Words sp L) (n : Nat)
    (hfirst : (texts L).head? ≠ some []) :
    progressive .no n (limit n L)
      = if (limit n L).getLast? = some [] then (texts L).dropLast else texts (limit n L) := by
  have hodd := limit_odd n L h.odd
  unfold progressive
  simp only [if_true, evens_eq_texts]
  by_cases hl : (limit n L).getLast? = some []
  · rw [if_pos hl]
    obtain ⟨e, hlen⟩ := limit_last n L h.odd hl (fun w hw => (h.sep w hw).1)
    rw [e] at hl hodd ⊢
    have h3 : 3 ≤ L.length := by
      match L, hodd with
      | [], ho => simp at ho
      | [a], _ => simp at hl; subst hl; simp [texts] at hfirst
      | [_, _], ho => simp at ho
      | _ :: _ :: _ :: _, _ => simp
    -- L = l' ++ [w, []]
    have hL : ∃ l' w, L = l' ++ [w, []] := by
      obtain ⟨ys, hys⟩ : ∃ ys, L = ys ++ [[]] := List.getLast?_eq_some_iff.1 hl
      have : ys ≠ [] := by rintro rfl; rw [hys] at h3; simp at h3
      exact ⟨ys.dropLast, ys.getLast this, by
        rw [hys]; conv => lhs; rw [← List.dropLast_concat_getLast this]
        simp⟩
    obtain ⟨l', w, rfl⟩ := hL
    simp only [List.length_append, List.length_cons, List.length_nil] at hodd hlen h3
    have hl'odd : l'.length % 2 = 1 := by omega
    have ht : texts (l' ++ [w, []]) = texts l' ++ [[]] := by rw [texts_append _ _ _ hl'odd]; rfl
    have hl'last : l'.getLast? ≠ some [] := by
      -- the last text of l' is an inner one, or the first
      have hmir := texts_mirror l' hl'odd
      intro hx
      have htl : (texts l').getLast? = some [] := by
        have hh : (texts (mirror l')).head? = some [] := by
          have : (mirror l').head? = some [] := by
            rw [mirror, List.head?_reverse, List.getLast?_map, hx]; rfl
          cases hm : mirror l' with
          | nil => rw [hm] at this; simp at this
          | cons a r =>
            rw [hm] at this
            have ha : a = [] := by simpa using this
            subst ha
            cases r <;> simp [texts]
        rw [hmir, mirror, List.head?_reverse, List.getLast?_map] at hh
        cases hz : (texts l').getLast? with
        | none => rw [hz] at hh; simp at hh
        | some z => rw [hz] at hh; simpa using hh
      have hin := h.inner
      rw [ht] at hin hfirst
      cases htx : texts l' with
      | nil => rw [htx] at htl; simp at htl
      | cons a r =>
        rw [htx] at htl hin hfirst
        by_cases hr : r = []
        · subst hr; simp at htl; subst htl; simp at hfirst
        · simp only [List.cons_append, List.tail_cons, List.dropLast_concat] at hin
          have : [] ∈ r := by
            rw [List.getLast?_cons, List.getLast?_eq_some_getLast hr] at htl
            simp only [Option.getD_some, Option.some.injEq] at htl
            rw [← htl]; exact List.getLast_mem hr
          exact hin [] this rfl
    have hfull := lastNonEmpty_full l' 0 hl'odd hl'last
    rw [lastNonEmpty_drop w l' 0 hl'odd]
    rw [if_pos (by omega), hfull, Nat.zero_add, List.take_left, ht]
    simp
  · rw [if_neg hl]
    have hfull := lastNonEmpty_full (limit n L) 0 hodd hl
    rw [hfull, Nat.zero_add, List.take_length]
    simp

theorem takeWhile_word {sp : α → Bool} {n rest : List α} (hn : ∀ c ∈ n, sp c = false)
    (hr : ∀ c t, rest = c :: t → sp c = true) :
    (n ++ rest).takeWhile (fun c => !sp c) = n ∧ (n ++ rest).dropWhile (fun c => !sp c) = rest := by
  induction n with
  | nil =>
    cases rest with
    | nil => simp
    | cons c t => simp [hr c t rfl]
  | cons c n ih =>
    have := ih (fun d hd => hn d (by simp [hd]))
    simp [hn c (by simp), this.1, this.2]

theorem dropWhile_all {sp : α → Bool} {w rest : List α} (hw : ∀ c ∈ w, sp c = true) :
    (w ++ rest).dropWhile sp = rest.dropWhile sp := by
  induction w with
  | nil => rfl
  | cons c w ih => simp [hw c (by simp), ih (fun d hd => hw d (by simp [hd]))]

theorem dropWhile_nil_iff {sp : α → Bool} {s : List α} :
    s.dropWhile sp = [] ↔ ∀ c ∈ s, sp c = true := by
  induction s with
  | nil => simp
  | cons c s ih =>
    by_cases h : sp c = true
    · simp [h, ih]
    · simp [h]

theorem dropWhile_id {sp : α → Bool} {n : List α} (h : ∀ c t, n = c :: t → sp c = false) :
    n.dropWhile sp = n := by
  cases n with
  | nil => rfl
  | cons c t => simp [h c t rfl]

/-- str.split(None, n) of a string that starts with a word, in terms of its pieces. -/
theorem pySplit_words {sp : α → Bool} : ∀ (n : Nat) (L : List (List α)), L.length % 2 = 1 →
    (∀ t ∈ texts L, ∀ c ∈ t, sp c = false) →
    (∀ w ∈ Spec.seps L, w ≠ [] ∧ ∀ c ∈ w, sp c = true) →
    (∀ t ∈ (texts L).dropLast, t ≠ []) → (texts L).head? ≠ some [] →
    pySplit sp n L.flatten
      = if (limit n L).getLast? = some [] then (texts L).dropLast else texts (limit n L)
  | n, [], h, _, _, _, _ => by simp at h
  | n, [a], _, ht, _, _, hf => by
    have ha : a ≠ [] := by simpa [texts] using hf
    have hcl := ht a (by simp [texts])
    have hd : a.dropWhile sp = a := dropWhile_id (fun c t e => hcl c (by simp [e]))
    have htd := takeWhile_word (rest := []) hcl (by simp)
    simp only [List.append_nil] at htd
    cases n with
    | zero => simp [pySplit, limit, texts, ha, hd]
    | succ n =>
      simp only [pySplit, List.flatten_cons, List.flatten_nil, List.append_nil, hd, htd.1, htd.2]
      cases n <;> simp [pySplit, limit, texts, ha]
  | 0, a :: w :: r, ho, ht, hs, _, hf => by
    have ha : a ≠ [] := by simpa [texts] using hf
    have hcl := ht a (by simp [texts])
    have hne : (a :: w :: r).flatten ≠ [] := by simp [ha]
    have hd : (a :: w :: r).flatten.dropWhile sp = (a :: w :: r).flatten := by
      apply dropWhile_id
      intro c t e
      cases a with
      | nil => exact absurd rfl ha
      | cons d a => obtain ⟨rfl, _⟩ := List.cons.inj e; exact hcl d (by simp)
    simp only [pySplit, limit, hd, List.getLast?_singleton, Option.some.injEq, hne, if_false, texts]
    simp [ha]
  | n + 1, a :: w :: r, ho, ht, hs, hi, hf => by
    have ha : a ≠ [] := by simpa [texts] using hf
    have hcl := ht a (by simp [texts])
    have hw := hs w (by simp [Spec.seps])
    have hr : r.length % 2 = 1 := by simp only [List.length_cons] at ho; omega
    have htne : texts r ≠ [] := by
      intro e; have := texts_length r hr; rw [e] at this; simp at this
    have hd : (a ++ (w ++ r.flatten)).dropWhile sp = a ++ (w ++ r.flatten) := by
      apply dropWhile_id
      intro c t e
      cases a with
      | nil => exact absurd rfl ha
      | cons d a => obtain ⟨rfl, _⟩ := List.cons.inj e; exact hcl d (by simp)
    have htd := takeWhile_word (rest := w ++ r.flatten) hcl (by
      intro c t e
      cases w with
      | nil => exact absurd rfl hw.1
      | cons d w => obtain ⟨rfl, _⟩ := List.cons.inj e; exact hw.2 d (by simp))
    simp only [pySplit, List.flatten_cons, hd, htd.1, htd.2]
    rw [if_neg (by simp [ha])]
    have hskip : pySplit sp n (w ++ r.flatten) = pySplit sp n r.flatten := by
      have := dropWhile_all (rest := r.flatten) hw.2
      cases n <;> simp only [pySplit, this]
    rw [hskip]
    have hlim := limit_odd n r hr
    have hlne : limit n r ≠ [] := by intro e; rw [e] at hlim; simp at hlim
    have hlast : (limit (n + 1) (a :: w :: r)).getLast? = (limit n r).getLast? := by
      simp only [limit]
      rw [List.getLast?_cons_cons]
      cases hx : limit n r with
      | nil => exact absurd hx hlne
      | cons b x => rw [List.getLast?_cons_cons]
    rw [hlast]
    simp only [limit, texts]
    by_cases hfr : (texts r).head? = some []
    · -- the string ends with space
      have hr1 : r = [[]] := by
        have hi' : ∀ t ∈ (texts r).dropLast, t ≠ [] := by
          intro t h
          apply hi t
          rw [texts, List.dropLast_cons_of_ne_nil htne]; exact List.mem_cons_of_mem _ h
        match r, hr with
        | [], h => simp at h
        | [x], _ => simp [texts] at hfr; rw [hfr]
        | x :: v :: r', hr' =>
          exfalso
          simp [texts] at hfr
          subst hfr
          have : texts r' ≠ [] := by
            intro e
            have := texts_length r' (by simp only [List.length_cons] at hr'; omega)
            rw [e] at this; simp at this
          exact hi' [] (by simp [texts, List.dropLast_cons_of_ne_nil this]) rfl
      subst hr1
      cases n <;> simp [pySplit, limit, texts]
    · have ih := pySplit_words n r hr (fun t h => ht t (by simp [texts, h]))
        (fun v hv => hs v (by simp [Spec.seps, hv])) (by
          intro t h
          apply hi t
          rw [texts, List.dropLast_cons_of_ne_nil htne]; exact List.mem_cons_of_mem _ h) hfr
      rw [ih]
      split
      · rw [List.dropLast_cons_of_ne_nil htne]
      · rfl

/-- Stripping space from one side is skipping space characters. -/
theorem multistrip_space {sp : α → Bool} (hne : seps ≠ []) (he : [] ∉ seps) (hs : SpaceSet sp seps)
    (hnl : sp nl = true) (s : List α) :
    multistrip nl s seps true false = .ok (s.dropWhile sp) ∧
    multistrip nl s seps false true = .ok (s.reverse.dropWhile sp).reverse := by
  constructor
  · obtain ⟨t, l, r, h1, h2, h3, h4⟩ := C41_multistrip_general (nl := nl) hne he s true false
    simp only [if_true, Bool.false_eq_true, if_false] at h3 h4
    subst h4
    rw [h1, h2, List.append_nil, dropWhile_all (concat_all hs.2 (run_concat h3.1)),
      dropWhile_id]
    rintro c u rfl
    cases hc : sp c with
    | false => rfl
    | true => exact absurd ⟨u, rfl⟩ (h3.2 [c] ((hs.1 c).1 hc))
  · obtain ⟨t, l, r, h1, h2, h3, h4⟩ := C41_multistrip_general (nl := nl) hne he s false true
    simp only [if_true, Bool.false_eq_true, if_false] at h3 h4
    subst h3
    have hr : ∀ c ∈ r, sp c = true := by
      rcases h4.2 with h | ⟨m, _, h, rfl⟩
      · exact concat_all hs.2 h
      · intro c hc
        rcases List.mem_append.1 hc with hc | hc
        · exact concat_all hs.2 h c hc
        · simp at hc; subst hc; exact hnl
    rw [h1, h2, List.nil_append, List.reverse_append, dropWhile_all (by simpa using hr), dropWhile_id]
    · simp
    · intro c u e
      cases hc : sp c with
      | false => rfl
      | true =>
        refine absurd ?_ (h4.1 [c] ((hs.1 c).1 hc))
        have := congrArg List.reverse e
        simp only [List.reverse_reverse, List.reverse_cons] at this
        exact ⟨u.reverse, this.symm⟩

theorem words_forward {sp : α → Bool} (he : [] ∉ seps) (hs : SpaceSet sp seps) {t : List α}
    {L : List (List α)} (h : Splits seps false false t L) (ht : t ≠ [])
    (hhead : ∀ c u, t = c :: u → sp c = false) :
    Words sp L ∧ (texts L).head? ≠ some [] ∧ ∀ x ∈ (texts L).dropLast, x ≠ [] := by
  have hw := splits_words he hs h
  have hf : (texts L).head? ≠ some [] := by
    match L, hw.odd, h with
    | [], ho, _ => simp at ho
    | [a], _, h =>
      have : a = t := by simpa using h.1
      subst this; simpa [texts] using ht
    | a :: w :: r, _, h =>
      intro e
      have ha : a = [] := by simpa [texts] using e
      subst ha
      have hws := hw.sep w (by simp [Spec.seps])
      cases w with
      | nil => exact hws.1 rfl
      | cons c w =>
        have := hhead c (w ++ r.flatten) (by rw [← h.1]; simp)
        rw [hws.2 c (by simp)] at this; simp at this
  refine ⟨hw, hf, ?_⟩
  intro x hx
  cases htx : texts L with
  | nil => rw [htx] at hx; simp at hx
  | cons a r =>
    have hin := hw.inner
    rw [htx] at hx hin hf
    by_cases hr : r = []
    · subst hr; simp at hx
    · rw [List.dropLast_cons_of_ne_nil hr, List.mem_cons] at hx
      rcases hx with rfl | hx
      · simpa using hf
      · exact hin x (by simpa using hx)

theorem dropWhile_head {sp : α → Bool} : ∀ (s : List α) (c : α) (u : List α),
    s.dropWhile sp = c :: u → sp c = false
  | [], _, _, h => by simp at h
  | d :: s, c, u, h => by
    by_cases hd : sp d = true
    · rw [List.dropWhile_cons_of_pos hd] at h; exact dropWhile_head s c u h
    · rw [List.dropWhile_cons_of_neg hd] at h
      obtain ⟨rfl, _⟩ := List.cons.inj h
      simpa using hd

/-- The generator with PROGRESSIVE, forwards. -/
theorem msGen_progressive (hc : CacheOK cache) {sp : α → Bool} (hne : seps ≠ []) (he : [] ∉ seps)
    (hs : SpaceSet sp seps) {t : List α} (ht : t ≠ []) (hhead : ∀ c u, t = c :: u → sp c = false)
    (n : Nat) :
    msGen cache t seps .no (some n) false false .progressive true = (pySplit sp n t).map .str := by
  obtain ⟨l, h1, h2, ⟨h3, _⟩, h4⟩ :=
    reSplit_spec (seps := seps) (sp := false) (match0_sepRe hne he false) he t
  have hsp : Splits seps false false t l := ⟨h2, by simpa using h1⟩
  obtain ⟨hw, hf, hi⟩ := words_forward he hs hsp ht hhead
  have hpy := pySplit_words n l hw.odd hw.txt hw.sep hi hf
  rw [h2] at hpy
  rw [hpy]
  have hn1 : ((n : Int) = -1) = False := by simp
  by_cases hz : n = 0
  · subst hz
    have hl : limit 0 l = [t] := by simp [limit, h2]
    simp [msGen, hl, ht, texts]
  · have h4 := (h4 n (by omega)).1
    rw [Int.toNat_natCast] at h4
    have hz' : ((some (n : Int)) = some 0) = False := by simpa using hz
    simp only [msGen, hz', if_false, Option.getD_some, hn1, h4, if_true, Bool.false_eq_true]
    rw [progressive_words hw n hf]
    rfl

/-- C64: with `whitespace` (any set of one-character separators, perhaps with longer strings of them),
PROGRESSIVE and maxsplit `n` split exactly as `s.split(None, n)`, and as `s.rsplit(None, n)` if
reverse; for a string of only space, for which str.split gives nothing, one empty string is
yielded. -/
theorem C64_progressive_is_str_split (hc : CacheOK cache) {sp : α → Bool} (hne : seps ≠ [])
    (he : [] ∉ seps) (hs : SpaceSet sp seps) (hnl : sp nl = true) (s : List α)
    (hsp : ∃ c ∈ s, sp c = false) (n : Nat) :
    multisplit nl cache s seps .no (some n) false false .progressive
      = .ok ((pySplit sp n s).map .str) ∧
    multisplit nl cache s seps .no (some n) true false .progressive
      = .ok ((pyRsplit sp n s).map .str) := by
  have hdw : ∀ s : List α, (∃ c ∈ s, sp c = false) → s.dropWhile sp ≠ [] := by
    rintro s ⟨c, hc, h⟩ e
    rw [dropWhile_nil_iff] at e
    have := e c hc
    rw [h] at this; simp at this
  have hidem : ∀ (n : Nat) (s : List α), pySplit sp n (s.dropWhile sp) = pySplit sp n s := by
    intro n s
    have : (s.dropWhile sp).dropWhile sp = s.dropWhile sp :=
      dropWhile_id (fun c t e => dropWhile_head s c t e)
    cases n <;> simp only [pySplit, this]
  have hn1 : ((some (n : Int)) = some (-1)) = False := by simp
  obtain ⟨hml, hmr⟩ := multistrip_space (nl := nl) hne he hs hnl s
  constructor
  · have ht := hdw s hsp
    have := msGen_progressive hc hne he hs ht (fun c u e => dropWhile_head s c u e) n
    rw [hidem] at this
    simp only [multisplit, hne, if_false, reduceCtorEq, stripSides, hn1, Bool.not_false, hml, ht,
      and_false, decide_true, ne_eq, not_true_eq_false, decide_false, Bool.false_or, not_false_eq_true,
      Bool.and_self, this]
  · have hsr : ∃ c ∈ s.reverse, sp c = false := by simpa using hsp
    have ht := hdw s.reverse hsr
    have ht' : (s.reverse.dropWhile sp).reverse ≠ [] := by simpa using ht
    have hgen : msGen cache (s.reverse.dropWhile sp).reverse seps .no (some n) true false .progressive true
        = (pyRsplit sp n s).map .str := by
      -- the same as splitting the mirrored string forwards
      have hmem := mem_revSeps hc seps
      have hne' : revSeps cache seps ≠ [] := by
        intro e
        cases seps with
        | nil => exact hne rfl
        | cons w r =>
          have := (hmem w.reverse).2 (by simp)
          rw [e] at this; simp at this
      have he' : [] ∉ revSeps cache seps := by rw [hmem, nil_mem_map_reverse]; exact he
      have hs' : SpaceSet sp (revSeps cache seps) := by
        refine ⟨fun c => ?_, ?_⟩
        · rw [hmem, hs.1 c, List.mem_map]
          constructor
          · intro h; exact ⟨[c], h, rfl⟩
          · rintro ⟨w, hw, e⟩
            rw [show w = [c] by simpa using congrArg List.reverse e] at hw; exact hw
        · intro w hw c hcw
          rw [hmem, List.mem_map] at hw
          obtain ⟨v, hv, rfl⟩ := hw
          exact hs.2 v hv c (List.mem_reverse.1 hcw)
      have key := msGen_progressive (cache := cache) hc hne' he' hs' ht
        (fun c u e => dropWhile_head s.reverse c u e) n
      rw [hidem] at key
      by_cases hz : (some (n : Int)) = some 0
      · have hn0 : n = 0 := by simpa using hz
        subst hn0
        simp only [msGen, if_true, reduceCtorEq, if_false, pyRsplit, pySplit] at key ⊢
        simp [mirror, ht]
      · simp only [msGen, hz, if_false, Bool.false_eq_true, if_true, List.reverse_reverse] at key ⊢
        simp only [emit] at key ⊢
        have hinj := map_str_inj key
        rw [hinj]
        rfl
    simp only [multisplit, hne, if_false, reduceCtorEq, stripSides, hn1, Bool.not_true, hmr, ht',
      and_false, decide_true, ne_eq, not_true_eq_false, decide_false, Bool.false_or, not_false_eq_true,
      Bool.and_self, hgen]

/-- A string of only separators yields one empty string. -/
theorem C64_progressive_all_space {sp : α → Bool} (hne : seps ≠ [])
    (he : [] ∉ seps) (hs : SpaceSet sp seps) (hnl : sp nl = true) (s : List α)
    (hsp : ∀ c ∈ s, sp c = true) (n : Nat) (reverse : Bool) :
    multisplit nl cache s seps .no (some n) reverse false .progressive = .ok [.str []] := by
  obtain ⟨hml, hmr⟩ := multistrip_space (nl := nl) hne he hs hnl s
  have e1 : s.dropWhile sp = [] := dropWhile_nil_iff.2 hsp
  have e2 : s.reverse.dropWhile sp = [] := dropWhile_nil_iff.2 (by simpa using hsp)
  rw [e1] at hml
  rw [e2] at hmr
  have hn1 : ((some (n : Int)) = some (-1)) = False := by simp
  cases reverse with
  | false => simp [multisplit, hne, stripSides, hn1, hml, msGen]
  | true => simp [multisplit, hne, stripSides, hn1, hmr, msGen]

/-- None is documented to mean no limit, but with PROGRESSIVE it does not strip the far side. -/
theorem C64_counterexample_maxsplit_none :
    multisplit '\n' strCache " a b ".toList [[' ']] .no none false false .progressive
      = .ok ([['a'], ['b'], []].map .str) ∧
    multisplit '\n' strCache " a b ".toList [[' ']] .no (some (-1)) false false .progressive
      = .ok ([['a'], ['b']].map .str) := by
  decide +kernel

example : multisplit '\n' strCache " a b c   ".toList strWhitespace .no (some 2) false false .progressive
    = .ok ([['a'], ['b'], ['c', ' ', ' ', ' ']].map .str) := by decide +kernel

example : isSpace '\n' = true ∧ SpaceSet isSpace strWhitespace ∧
    ∃ c ∈ " a b ".toList, isSpace c = false :=
  ⟨by decide +kernel, C43_whitespace_tables.1, 'a', by decide, by decide +kernel⟩

end Big.MS
