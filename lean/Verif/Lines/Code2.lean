import Verif.Lines.Code
import Verif.Lines.Strip
/-! # C154: the lines modifiers on encoded text: lemmas -/
namespace Big.Lines
open Big.MS (utf8 Code Item)
open Big.SQ (pyStr pyBytes utf8_code utf8_ascii)

variable {μ : Type} {col tw : Int}

/-- What is known of the pairs of the lines of `s`: the line is made of characters of `s`, and what was stripped from the
beginning is ASCII. -/
structure Good (s : List Char) (p : Pair Char μ) : Prop where
  line : ∀ c ∈ p.2, c ∈ s
  leading : ∀ c ∈ p.1.leading, c.toNat < 128

/-- The result of a modifier of one pair, encoded. -/
def encodeOne : Except Err (Option (Pair Char μ)) → Except Err (Option (Pair UInt8 μ)) := Except.map (Option.map encodePair)

/-- `f'` does to encoded pairs what `f` does to pairs. -/
def CodeOne (s : List Char) (f : Pair Char μ → Except Err (Option (Pair Char μ)))
    (f' : Pair UInt8 μ → Except Err (Option (Pair UInt8 μ))) : Prop :=
  ∀ p, Good s p → f' (encodePair p) = encodeOne (f p) ∧ ∀ q, f p = .ok (some q) → Good s q

theorem each_code {s : List Char} {f : Pair Char μ → Except Err (Option (Pair Char μ))}
    {f' : Pair UInt8 μ → Except Err (Option (Pair UInt8 μ))} (hf : CodeOne s f f') (e : Option Err) :
    ∀ l : List (Pair Char μ), (∀ p ∈ l, Good s p) →
      each f' (l.map encodePair) e = encodeStream (each f l e) ∧ ∀ p ∈ (each f l e).1, Good s p
  | [], _ => ⟨rfl, by simp [each]⟩
  | p :: l, h => by
    obtain ⟨ih1, ih2⟩ := each_code hf e l (fun p hp => h p (by simp [hp]))
    obtain ⟨h1, h2⟩ := hf p (h p (by simp))
    simp only [List.map_cons, each, h1]
    cases hp : f p with
    | error x => exact ⟨rfl, by simp⟩
    | ok o =>
      cases o with
      | none => exact ⟨ih1, ih2⟩
      | some q =>
        refine ⟨?_, ?_⟩
        · simp only [encodeOne, Except.map, Option.map_some, ih1]
          rfl
        · intro r hr
          rcases List.mem_cons.1 hr with rfl | hr
          · exact h2 _ hp
          · exact ih2 r hr

theorem filter_code {s : List Char} (f : List Char → Bool) (f' : List UInt8 → Bool)
    (h : ∀ t, (∀ c ∈ t, c ∈ s) → f' (enc t) = f t) : CodeOne (μ := μ) s (filterOne f) (filterOne f') := by
  intro p hp
  unfold filterOne
  rw [show (encodePair p).2 = enc p.2 from rfl, h p.2 hp.line]
  refine ⟨?_, ?_⟩
  · split <;> rfl
  · intro q hq
    split at hq
    · simp at hq; exact hq ▸ hp
    · simp at hq

/-! ### Clipping -/

theorem clipAll_code {s : List Char} {info : Info Char μ} (hl : ∀ c ∈ info.leading, c.toNat < 128) :
    clipAll (encodeInfo info) = (clipAll info).map encodePair ∧
      ∀ q, clipAll info = .ok q → Good s q := by
  unfold clipAll
  simp only [encodeInfo, enc_isSuffixOf, enc_isEmpty, enc_ascii_length hl]
  constructor
  · by_cases h : info.lineEnd.isSuffixOf info.line = true
    · simp only [h, Bool.not_true, Bool.false_eq_true, if_false, Except.map, encodePair, encodeInfo, enc_nil]
      by_cases h0 : info.lineEnd.isEmpty = true
      · simp only [h0, if_true]
      · simp only [h0, if_false, Bool.false_eq_true]
        have hne : info.lineEnd ≠ [] := by simpa using h0
        obtain ⟨a, ha⟩ := List.isSuffixOf_iff_suffix.1 h
        rw [← ha, enc_append, sliceTo_neg _ _ hne, sliceTo_neg _ _ (fun h => hne (enc_code.eq_nil.1 h))]
    · simp only [h, Bool.not_false, if_true]; rfl
  · intro q hq
    split at hq
    · cases hq
    · simp only [Except.ok.injEq] at hq
      subst hq
      exact ⟨by simp, by simp⟩

theorem clipTrailing_code {s : List Char} {info : Info Char μ} {line : List Char} (hp : Good s (info, line)) {i i' : Int}
    {t : Option (List Char)} {t' : Option (List UInt8)}
    (h1 : sliceTo (enc line) (-i') = enc (sliceTo line (-i)))
    (h2 : t'.getD (sliceFrom (enc line) (-i')) = enc (t.getD (sliceFrom line (-i)))) :
    clipTrailing (encodeInfo info) (enc line) i' t' = (clipTrailing info line i t).map encodePair ∧
      ∀ q, clipTrailing info line i t = .ok q → Good s q := by
  unfold clipTrailing
  simp only [h1, h2, enc_isEmpty]
  split
  · exact clipAll_code hp.leading
  · refine ⟨?_, ?_⟩
    · simp only [Except.map, encodePair, encodeInfo, enc_append]
    · intro q hq
      simp only [Except.ok.injEq] at hq
      subst hq
      refine ⟨?_, hp.leading⟩
      intro c hc
      refine hp.line c ?_
      dsimp only [sliceTo] at hc
      split at hc <;> exact List.mem_of_mem_take hc

/-- Cutting off the end `b` of a line. -/
theorem clipEnd_code {s : List Char} {info : Info Char μ} {a b : List Char} (hp : Good s (info, a ++ b)) (hb : b ≠ [])
    {t : List Char} :
    clipTrailing (encodeInfo info) (enc (a ++ b)) (enc b).length (some (enc t)) =
        (clipTrailing info (a ++ b) b.length (some t)).map encodePair ∧
      ∀ q, clipTrailing info (a ++ b) b.length (some t) = .ok q → Good s q := by
  refine clipTrailing_code hp ?_ rfl
  rw [sliceTo_neg _ _ hb, enc_append, sliceTo_neg _ _ (fun h => hb (enc_code.eq_nil.1 h))]

/-- Cutting off all but `a`. -/
theorem clipRest_code {s : List Char} {info : Info Char μ} {a b : List Char} (hp : Good s (info, a ++ b)) :
    clipTrailing (encodeInfo info) (enc (a ++ b)) (-(enc a).length) none =
        (clipTrailing info (a ++ b) (-a.length) none).map encodePair ∧
      ∀ q, clipTrailing info (a ++ b) (-a.length) none = .ok q → Good s q := by
  refine clipTrailing_code hp ?_ ?_
  · rw [Int.neg_neg, Int.neg_neg, sliceTo_append, enc_append, sliceTo_append]
  · simp only [Option.getD_none]
    rw [Int.neg_neg, Int.neg_neg, sliceFrom_append, enc_append, sliceFrom_append]

theorem rstrip_code {s : List Char} (hs : Plain s) : CodeOne (μ := μ) s (rstripOne (strText col tw)) (rstripOne (bytesText col tw)) := by
  intro p hp
  obtain ⟨info, line⟩ := p
  unfold rstripOne
  have hl : Plain line := hs.sub hp.line
  simp only [encodePair, enc_rstrip hl, ne_eq, enc_inj]
  by_cases h : rstrip (strText col tw) line = line
  · simp only [h, not_true_eq_false, if_false]
    exact ⟨rfl, fun q hq => by simp at hq; exact hq ▸ hp⟩
  · simp only [h, not_false_eq_true, if_true]
    obtain ⟨b, hb, -, -⟩ := rstrip_stripped (E := strText col tw) line
    generalize rstrip (strText col tw) line = r at *
    subst hb
    obtain ⟨g1, g2⟩ := clipRest_code hp
    rw [g1]
    refine ⟨?_, ?_⟩
    · cases clipTrailing info (r ++ b) (-r.length) none <;> rfl
    · intro q hq
      cases hx : clipTrailing info (r ++ b) (-r.length) none with
      | error x => rw [hx] at hq; cases hq
      | ok q' => rw [hx] at hq; simp only [Except.map, Except.ok.injEq, Option.some.injEq] at hq; exact hq ▸ g2 _ hx

theorem rstripSeps_code {s : List Char} {seps : List (List Char)} (he : [] ∉ seps) :
    CodeOne (μ := μ) s (rstripSepsOne (strText col tw) seps) (rstripSepsOne (bytesText col tw) (seps.map enc)) := by
  intro p hp
  obtain ⟨info, line⟩ := p
  unfold rstripSepsOne
  have hm := Big.MS.code_multistrip enc_code he (nl := '\n') (nl' := 10) (by decide +kernel) line false true
  simp only [encodePair]
  rw [show (bytesText col tw).sq.nl = 10 from rfl, show (strText col tw).sq.nl = '\n' from rfl, hm]
  cases hr : Big.MS.multistrip '\n' line seps false true with
  | error x => exact ⟨rfl, by simp⟩
  | ok r =>
    simp only [Except.map, ne_eq, enc_inj]
    have hne : seps ≠ [] := by
      rintro rfl
      simp [Big.MS.multistrip] at hr
    obtain ⟨t, l, b, e1, e2, e3, e4⟩ := Big.MS.C41_multistrip_general (nl := '\n') hne he line false true
    rw [hr] at e1
    simp only [Except.ok.injEq] at e1
    subst e1
    have hl : l = [] := by
      first
      | exact (e3.1 rfl)
      | simpa using e3
    subst hl
    simp only [List.nil_append] at e2
    by_cases h : r = line
    · simp only [h, not_true_eq_false, if_false]
      exact ⟨rfl, fun q hq => by simp at hq; exact hq ▸ hp⟩
    · simp only [h, not_false_eq_true, if_true]
      subst e2
      obtain ⟨g1, g2⟩ := clipRest_code hp
      rw [g1]
      cases hx : clipTrailing info (r ++ b) (-r.length) none with
      | error x => exact ⟨rfl, by simp⟩
      | ok q' =>
        refine ⟨rfl, ?_⟩
        intro q hq
        simp only [Except.ok.injEq, Option.some.injEq] at hq
        subst hq
        exact ⟨fun c hc => hp.line c (by simp [show c ∈ r from hc]), (g2 _ hx).leading⟩

/-! ### Clipping the beginning -/

theorem expandLoop_code : ∀ {a : List Char} (j : Nat), (∀ c ∈ a, c.toNat < 128) →
    (expandLoop (bytesText col tw) j (enc a)).length = (expandLoop (strText col tw) j a).length
  | [], _, _ => rfl
  | c :: a, j, h => by
    have ih := fun j => expandLoop_code (a := a) j (fun c hc => h c (by simp [hc]))
    obtain ⟨h1, h2⟩ := ascii_byte (h c (by simp))
    have he : enc (c :: a) = c.toNat.toUInt8 :: enc a := by
      rw [show enc (c :: a) = utf8 c ++ enc a from rfl, h1]; rfl
    have hb : ∀ (n : Nat) (d : Char), d.toNat = n → n < 128 → (c.toNat.toUInt8 = n.toUInt8 ↔ c = d) := by
      intro n d hd hn
      rw [toNat_lit, hd]
      constructor
      · intro h
        have := congrArg UInt8.toNat h
        rw [h2] at this
        simp at this
        omega
      · intro h; rw [h]
    have t1 : c.toNat.toUInt8 = (bytesText col tw).tab ↔ c = (strText col tw).tab := hb 9 '\t' rfl (by decide)
    have t2 : c.toNat.toUInt8 = (bytesText col tw).nl ↔ c = (strText col tw).nl := hb 10 '\n' rfl (by decide)
    have t3 : c.toNat.toUInt8 = (bytesText col tw).cr ↔ c = (strText col tw).cr := hb 13 '\r' rfl (by decide)
    have t4 : (bytesText col tw).tabWidth = (strText col tw).tabWidth := rfl
    rw [he]
    simp only [expandLoop, t1, t2, t3, t4]
    split
    · split
      · simp only [List.length_append, List.length_replicate, ih]
      · exact ih j
    · simp only [List.length_cons, ih]

/-- Cutting off the beginning `a` of a line. -/
theorem clipStart_code {s : List Char} {info : Info Char μ} {a b : List Char} (hp : Good s (info, a ++ b))
    (ha : ∀ c ∈ a, c.toNat < 128) (o : Option (List Char)) (ho : ∀ t, o = some t → t = a) :
    clipLeading (bytesText col tw) (encodeInfo info) (enc (a ++ b)) (enc a).length (o.map enc) =
        (clipLeading (strText col tw) info (a ++ b) a.length o).map encodePair ∧
      ∀ q, clipLeading (strText col tw) info (a ++ b) a.length o = .ok q → Good s q := by
  unfold clipLeading
  simp only [enc_append, sliceFrom_append, sliceTo_append, enc_isEmpty]
  have hg : o.getD a = a := by
    cases o with
    | none => rfl
    | some t => exact ho t rfl
  have hg' : (o.map enc).getD (enc a) = enc a := by
    cases o with
    | none => rfl
    | some t => rw [ho t rfl]; rfl
  rw [hg, hg']
  split
  · exact clipAll_code hp.leading
  · refine ⟨?_, ?_⟩
    · simp only [Except.map, encodePair, encodeInfo, enc_append, detab, expandLoop_code 0 ha]
    · intro q hq
      simp only [Except.ok.injEq] at hq
      subst hq
      refine ⟨fun c hc => hp.line c (by simp [show c ∈ b from hc]), ?_⟩
      intro c hc
      rcases List.mem_append.1 hc with hc | hc
      · exact hp.leading c hc
      · exact ha c hc

theorem clipLeading_line {α : Type} [DecidableEq α] {E : Env α} {info : Info α μ} {a b : List α} {o : Option (List α)} {q : Pair α μ}
    (h : clipLeading E info (a ++ b) a.length o = .ok q) : q.2 = b := by
  unfold clipLeading at h
  simp only [sliceFrom_append] at h
  split at h
  · rename_i hb
    rw [clipAll_line h]
    exact (List.isEmpty_iff.1 hb).symm
  · simp only [Except.ok.injEq] at h
    rw [← h]

theorem map_some_code {s : List Char} {r : Except Err (Pair Char μ)} {r' : Except Err (Pair UInt8 μ)}
    (h1 : r' = r.map encodePair) (h2 : ∀ q, r = .ok q → Good s q) :
    r'.map some = encodeOne (r.map some) ∧ ∀ q, r.map some = .ok (some q) → Good s q := by
  subst h1
  cases r with
  | error x => exact ⟨rfl, by simp [Except.map]⟩
  | ok q =>
    refine ⟨rfl, ?_⟩
    intro q' hq
    simp only [Except.map, Except.ok.injEq, Option.some.injEq] at hq
    exact hq ▸ h2 q rfl

theorem clipBoth_code {s : List Char} {info : Info Char μ} {l m r : List Char} (hp : Good s (info, l ++ (m ++ r)))
    (hl : ∀ c ∈ l, c.toNat < 128) :
    clipBoth (bytesText col tw) (encodePair (info, l ++ (m ++ r))) (enc l) (enc r) =
        encodeOne (clipBoth (strText col tw) (info, l ++ (m ++ r)) l r) ∧
      ∀ q, clipBoth (strText col tw) (info, l ++ (m ++ r)) l r = .ok (some q) → Good s q := by
  have last : ∀ q : Pair Char μ, Good s q → q.2 = m ++ r →
      (if r.isEmpty then (.ok (encodePair q) : Except Err _) else
        clipTrailing (encodePair q).1 (encodePair q).2 (enc r).length (some (enc r))) =
        (if r.isEmpty then (.ok q : Except Err _) else clipTrailing q.1 q.2 r.length (some r)).map encodePair ∧
      ∀ q', (if r.isEmpty then (.ok q : Except Err _) else clipTrailing q.1 q.2 r.length (some r)) = .ok q' → Good s q' := by
    rintro ⟨qi, ql⟩ hq rfl
    by_cases hr : r.isEmpty = true
    · simp only [hr, if_true]
      exact ⟨rfl, fun q' h => by simp at h; exact h ▸ hq⟩
    · simp only [hr, if_false, Bool.false_eq_true]
      exact clipEnd_code hq (by simpa using hr)
  unfold clipBoth
  simp only [enc_isEmpty]
  by_cases h0 : l.isEmpty = true
  · have hl0 : l = [] := by simpa using h0
    subst hl0
    simp only [List.isEmpty_nil, if_true, List.nil_append] at hp ⊢
    obtain ⟨g1, g2⟩ := last _ hp rfl
    exact map_some_code g1 g2
  · simp only [h0, if_false, Bool.false_eq_true, encodePair]
    obtain ⟨g1, g2⟩ := clipStart_code (col := col) (tw := tw) hp hl (some l) (fun t h => by simpa using h.symm)
    rw [show (some (enc l)) = (some l).map enc from rfl, g1]
    cases hx : clipLeading (strText col tw) info (l ++ (m ++ r)) l.length (some l) with
    | error x => exact ⟨rfl, by simp⟩
    | ok q =>
      obtain ⟨k1, k2⟩ := last q (g2 q hx) (clipLeading_line hx)
      exact map_some_code k1 k2

theorem take_front {α : Type} (a b : List α) : (a ++ b).take ((a ++ b).length - b.length) = a := by
  rw [show (a ++ b).length - b.length = a.length by simp, List.take_left']; rfl

theorem lstrip_split (E : Env Char) (s : List Char) : ∃ l, s = l ++ lstrip E s ∧ ∀ c ∈ l, E.isSpace c = true :=
  ⟨s.takeWhile E.isSpace, (List.takeWhile_append_dropWhile).symm, fun c hc => List.all_eq_true.1 List.all_takeWhile c hc⟩

theorem Plain.ascii {s l : List Char} (h : Plain s) (hl : ∀ c ∈ l, c ∈ s) (hsp : ∀ c ∈ l, (strText col tw).isSpace c = true) :
    ∀ c ∈ l, c.toNat < 128 := by
  intro c hc
  have := (h c (hl c hc)).2 (hsp c hc)
  omega

theorem strip_code {s : List Char} (hs : Plain s) : CodeOne (μ := μ) s (stripOne (strText col tw)) (stripOne (bytesText col tw)) := by
  intro p hp
  obtain ⟨info, line⟩ := p
  have hl : Plain line := hs.sub hp.line
  unfold stripOne
  rw [show (encodePair (info, line)).2 = enc line from rfl]
  simp only [enc_isEmpty, enc_lstrip hl]
  by_cases h0 : line.isEmpty = true
  · simp only [h0, if_true]
    exact ⟨rfl, fun q hq => by simp at hq; exact hq ▸ hp⟩
  simp only [h0, if_false, Bool.false_eq_true]
  by_cases h1 : (lstrip (strText col tw) line).isEmpty = true
  · simp only [h1, if_true]
    have := clipBoth_code (col := col) (tw := tw) (s := s) (info := info) (l := []) (m := []) (r := line) (by simpa using hp) (by simp)
    simpa [enc_nil] using this
  simp only [h1, if_false, Bool.false_eq_true]
  obtain ⟨l, e1, e2⟩ := lstrip_split (strText col tw) line
  have hpl : Plain (lstrip (strText col tw) line) := hl.sub (fun c hc => by
    unfold lstrip at hc; exact (List.dropWhile_sublist _).subset hc)
  rw [enc_rstrip hpl]
  generalize lstrip (strText col tw) line = m at *
  obtain ⟨b, hb, -, -⟩ := rstrip_stripped (E := strText col tw) m
  generalize rstrip (strText col tw) m = r at *
  subst hb
  subst e1
  have a1 : (l ++ (r ++ b)).take ((l ++ (r ++ b)).length - (r ++ b).length) = l := take_front l _
  have a2 : (enc (l ++ (r ++ b))).take ((enc (l ++ (r ++ b))).length - (enc (r ++ b)).length) = enc l := by
    rw [enc_append l]; exact take_front _ _
  have a3 : (enc (r ++ b)).drop (enc r).length = enc b := by rw [enc_append, List.drop_left']; rfl
  have a4 : (r ++ b).drop r.length = b := by rw [List.drop_left']; rfl
  rw [a1, a2, a3, a4]
  exact clipBoth_code hp (hs.ascii (fun c hc => hp.line c (by simp [hc])) e2)

/-! ### Filters, lines_grep and lines_sort -/

theorem enc_infix {a b : List Char} : enc a <:+: enc b ↔ a <:+: b := by
  constructor
  · rintro ⟨x, y, h⟩
    by_cases ha : a = []
    · subst ha; exact List.nil_infix
    · obtain ⟨x', y', h1, -, -⟩ := enc_code.aligned b a x y ha h.symm
      exact ⟨x', y', h1.symm⟩
  · rintro ⟨x, y, rfl⟩
    exact ⟨enc x, enc y, by rw [enc_append, enc_append]⟩

theorem contains_code (a b : List Char) : contains (enc a) (enc b) = contains a b := by
  rw [Bool.eq_iff_iff, contains_iff, contains_iff, enc_infix]

theorem comment_code {markers : List (List Char)} (hne : markers ≠ []) (he : [] ∉ markers) {line : List Char} (h : Plain line) :
    isCommentLine (bytesText col tw) (markers.map enc) (enc line) = isCommentLine (strText col tw) markers line := by
  have many : (Big.MS.match0 (.seq (.star (.cls (bytesText col tw).isSpace)) (Big.MS.sepRe (markers.map enc) false)) (enc line)).isSome =
      (Big.MS.match0 (.seq (.star (.cls (strText col tw).isSpace)) (Big.MS.sepRe markers false)) line).isSome := by
    rw [Bool.eq_iff_iff, match0_comment (by simpa using hne) (Big.MS.code_nil_mem enc_code he), match0_comment hne he]
    constructor
    · rintro ⟨u, m', hm', hu, y, hy⟩
      obtain ⟨m, hm, rfl⟩ := List.mem_map.1 hm'
      obtain ⟨x', y', h1, h2, -⟩ := enc_code.aligned line m u y (fun h0 => he (h0 ▸ hm)) hy.symm
      refine ⟨x', m, hm, ?_, y', h1.symm⟩
      intro c hc
      rcases space_code (h c (by rw [h1]; simp [hc])).2 col tw with ⟨g, -⟩ | ⟨-, g⟩
      · exact g
      · exfalso
        cases hb : utf8 c with
        | nil => exact String.utf8EncodeChar_ne_nil hb
        | cons b t =>
          have h3 := g b (by simp [hb])
          have h4 := hu b (by
            rw [← h2]
            exact List.mem_flatMap.2 ⟨c, hc, by simp [hb]⟩)
          rw [h3] at h4; cases h4
    · rintro ⟨u, m, hm, hu, y, rfl⟩
      refine ⟨enc u, enc m, List.mem_map_of_mem hm, ?_, enc y, by rw [enc_append, enc_append]⟩
      intro b hb
      obtain ⟨c, hc, hb⟩ := List.mem_flatMap.1 hb
      rcases space_code (h c (by simp [hc])).2 col tw with ⟨-, -, b', g1, g2⟩ | ⟨g, -⟩
      · rw [g1, List.mem_singleton] at hb
        exact hb ▸ g2
      · have : Big.MS.isSpace c = true := hu c hc
        rw [g] at this; cases this
  match markers, hne with
  | [m], _ =>
    simp only [List.map_cons, List.map_nil, isCommentLine, enc_lstrip h, enc_isPrefixOf]
  | m :: m' :: l, _ =>
    simp only [List.map_cons] at many
    simp only [isCommentLine, List.map_cons, many]

theorem grep_code {s : List Char} {search : List Char → Option μ} {search' : List UInt8 → Option μ}
    (h : ∀ t, search' (enc t) = search t) (name : String) (invert : Bool) :
    CodeOne s (grepOne search name invert) (grepOne search' name invert) := by
  intro p hp
  unfold grepOne
  rw [show (encodePair p).2 = enc p.2 from rfl, h]
  cases search p.2 with
  | none =>
    cases invert
    · exact ⟨rfl, by simp⟩
    · refine ⟨rfl, ?_⟩
      intro q hq
      simp at hq
      subst hq
      exact ⟨hp.line, hp.leading⟩
  | some m =>
    cases invert
    · refine ⟨rfl, ?_⟩
      intro q hq
      simp at hq
      subst hq
      exact ⟨hp.line, hp.leading⟩
    · exact ⟨rfl, by simp⟩

theorem sort_code {lt : Pair Char μ → Pair Char μ → Bool} {lt' : Pair UInt8 μ → Pair UInt8 μ → Bool}
    (h : ∀ p q, lt' (encodePair p) (encodePair q) = lt p q) (reverse : Bool) (l : List (Pair Char μ)) :
    sort lt' reverse (l.map encodePair) = (sort lt reverse l).map encodePair := by
  have key : ∀ l : List (Pair Char μ), (l.map encodePair).mergeSort (fun a b => !lt' b a) =
      (l.mergeSort (fun a b => !lt b a)).map encodePair := by
    intro l
    exact (List.map_mergeSort (fun a _ b _ => by simp [h])).symm
  unfold sort
  cases reverse
  · exact key l
  · simp only [if_true]
    rw [← List.map_reverse, key, ← List.map_reverse]

/-! ### lines_strip_indent -/

theorem indentStep_code (info : Info Char μ) (ls : List Int) :
    indentStep (bytesText col tw) (encodeInfo info) ls = indentStep (strText col tw) info ls := by
  unfold indentStep
  simp only [encodeInfo, enc_isEmpty]
  rfl

theorem setIndent_code (p : Pair Char μ) (n : Int) : setIndent (encodePair p) n = encodePair (setIndent p n) := rfl

theorem setIndent_good {s : List Char} {p : Pair Char μ} (h : Good s p) (n : Int) : Good s (setIndent p n) := ⟨h.line, h.leading⟩

theorem indentLoop_code {s : List Char} (hs : Plain s) (e : Option Err) :
    ∀ (l : List (Pair Char μ)) (ls : List Int) (blank : List (Pair Char μ)), (∀ p ∈ l, Good s p) → (∀ p ∈ blank, Good s p) →
      indentLoop (bytesText col tw) (l.map encodePair) e ls (blank.map encodePair) =
          encodeStream (indentLoop (strText col tw) l e ls blank) ∧
        ∀ p ∈ (indentLoop (strText col tw) l e ls blank).1, Good s p
  | [], ls, blank, _, hb => by
    cases e with
    | none =>
      simp only [List.map_nil, indentLoop, encodeStream, List.map_map]
      refine ⟨rfl, ?_⟩
      intro p hp
      obtain ⟨q, hq, rfl⟩ := List.mem_map.1 hp
      exact setIndent_good (hb q hq) 0
    | some x => exact ⟨rfl, by simp [indentLoop]⟩
  | (info, line) :: l, ls, blank, h, hb => by
    have hp := h (info, line) (by simp)
    have hrest : ∀ p ∈ l, Good s p := fun p hp => h p (by simp [hp])
    have hl : Plain line := hs.sub hp.line
    simp only [List.map_cons, indentLoop]
    rw [show (encodePair (info, line)).2 = enc line from rfl, show (encodePair (info, line)).1 = encodeInfo info from rfl]
    simp only [enc_lstrip hl, enc_isEmpty]
    by_cases h1 : (lstrip (strText col tw) line).isEmpty = true
    · simp only [h1, if_true]
      have h0 : sliceTo line (-(line.length : Int)) = [] := by
        unfold sliceTo; split
        · rename_i h0; have : line.length = 0 := by omega
          simp [List.length_eq_zero_iff.1 this]
        · simp
      have h0' : sliceTo (enc line) (-((enc line).length : Int)) = [] := by
        unfold sliceTo; split
        · rename_i h0; have : (enc line).length = 0 := by omega
          simp [List.length_eq_zero_iff.1 this]
        · simp
      obtain ⟨g1, g2⟩ := clipTrailing_code (i := line.length) (i' := (enc line).length) (t := some line) (t' := some (enc line))
        hp (by rw [h0, h0', enc_nil]) rfl
      rw [g1]
      cases hx : clipTrailing info line line.length (some line) with
      | error x => exact ⟨rfl, by simp⟩
      | ok q =>
        have := indentLoop_code hs e l ls (blank ++ [q]) hrest (by
          intro p hp'
          rcases List.mem_append.1 hp' with hp' | hp'
          · exact hb p hp'
          · rw [List.mem_singleton.1 hp']; exact g2 q hx)
        simpa [Except.map] using this
    · simp only [h1, if_false, Bool.false_eq_true]
      obtain ⟨a, e1, e2⟩ := lstrip_split (strText col tw) line
      generalize lstrip (strText col tw) line = b at *
      subst e1
      obtain ⟨g1, g2⟩ := clipStart_code (col := col) (tw := tw) hp (hs.ascii (fun c hc => hp.line c (by simp [hc])) e2) none (by simp)
      have n1 : (((a ++ b).length : Int) - b.length) = a.length := by simp
      have n2 : (((enc (a ++ b)).length : Int) - (enc b).length) = (enc a).length := by rw [enc_append]; simp
      rw [n1, n2, show (none : Option (List UInt8)) = (none : Option (List Char)).map enc from rfl, g1]
      cases hx : clipLeading (strText col tw) info (a ++ b) a.length none with
      | error x => exact ⟨rfl, by simp⟩
      | ok q =>
        simp only [Except.map]
        rw [show (encodePair q).1 = encodeInfo q.1 from rfl, indentStep_code]
        cases hy : indentStep (strText col tw) q.1 ls with
        | error x => exact ⟨rfl, by simp⟩
        | ok ls' =>
          obtain ⟨k1, k2⟩ := indentLoop_code hs e l ls' [] hrest (by simp)
          simp only [List.map_nil] at k1
          dsimp only
          rw [k1]
          refine ⟨?_, ?_⟩
          · simp only [encodeStream, List.map_append, List.map_cons, List.map_map]
            rfl
          · intro p hp'
            rcases List.mem_append.1 hp' with hp' | hp'
            · obtain ⟨q', hq', rfl⟩ := List.mem_map.1 hp'
              exact setIndent_good (hb q' hq') _
            · rcases List.mem_cons.1 hp' with rfl | hp'
              · exact setIndent_good (g2 q hx) _
              · exact k2 p hp'

/-! ### lines_strip_line_comments -/

/-- The arguments of lines_strip_line_comments, encoded. -/
def encodeComments (a : Comments Char) : Comments UInt8 where
  markers := a.markers.map enc
  quotes := a.quotes.map enc
  multilineQuotes := a.multilineQuotes.map enc
  escape := enc a.escape

/-- A triplet, encoded. -/
def encT (x : Big.SQ.Tuple Char) : Big.SQ.Tuple UInt8 := (enc x.1, enc x.2.1, enc x.2.2)

/-- How the loop over the segments ends, encoded. -/
def encScan : Scan Char → Scan UInt8
  | .noComment state lead trail => .noComment (enc state) (enc lead) (enc trail)
  | .comment state segments => .comment (enc state) (enc segments)

theorem segmentsOf_code (a : Comments Char) (state : List Char) {line : List Char} (h : Plain line) :
    segmentsOf (bytesText col tw) (encodeComments a) (enc state) (enc line) =
      (segmentsOf (strText col tw) a state line).map (fun r => (r.1.map encT, r.2)) := by
  unfold segmentsOf
  simp only [encodeComments, List.isEmpty_map]
  split
  · rfl
  · have := Big.SQ.C150_utf8 line (fun c hc => (h c hc).1) a.quotes a.multilineQuotes a.escape state
    rw [show (bytesText col tw).sq = pyBytes from rfl, show (strText col tw).sq = pyStr from rfl]
    rw [show Big.SQ.splitQuotedStrings pyBytes (enc line) (a.quotes.map enc) (enc a.escape) (a.multilineQuotes.map enc) (enc state) =
      _ from this]
    cases Big.SQ.splitQuotedStrings pyStr line a.quotes a.escape a.multilineQuotes state <;> rfl

theorem splitComment_code {markers : List (List Char)} (hne : markers ≠ []) (he : [] ∉ markers) (seg : List Char) :
    splitComment (markers.map enc) (enc seg) = (splitComment markers seg).map enc :=
  Big.MS.code_reSplit enc_code hne he true true 1 seg

theorem flatten_code : ∀ l : List (List Char), (l.map enc).flatten = enc l.flatten := Big.SQ.code_flatten enc_code

theorem flat_triplets (l : List (Big.SQ.Tuple Char)) :
    ((l.map encT).map (fun x => x.1 ++ x.2.1 ++ x.2.2)).flatten = enc (l.map (fun x => x.1 ++ x.2.1 ++ x.2.2)).flatten := by
  rw [← flatten_code, List.map_map, List.map_map]
  congr 1
  apply List.map_congr_left
  intro x _
  simp only [Function.comp, encT, enc_append]

theorem scan_code {markers : List (List Char)} (hne : markers ≠ []) (he : [] ∉ markers) (line : List Char) (e : Option Big.SQ.Err) :
    ∀ (T : List (Big.SQ.Tuple Char)) (state lead trail : List Char),
      scan (markers.map enc) (enc line) (enc state) (enc lead) (enc trail) (T.map encT) e =
        (scan markers line state lead trail T e).map encScan
  | [], state, lead, trail => by
    cases e <;> simp [scan, Except.map, encScan]
  | (l, seg, t) :: T, state, lead, trail => by
    have ih := fun st l t => scan_code hne he line e T st l t
    have ih1 := ih state l t
    have ih2 := ih [] l t
    rw [enc_nil] at ih2
    simp only [List.map_cons, encT, scan, enc_isEmpty, ih1, ih2, ne_eq, enc_inj, splitComment_code hne he]
    split
    · rfl
    split
    · split
      · rfl
      · split <;> rfl
    · cases hsc : splitComment markers seg with
      | nil => rfl
      | cons f fs =>
        cases fs with
        | nil => rfl
        | cons g fs =>
          cases e with
          | some x => rfl
          | none =>
            have h1 := flatten_code (g :: fs)
            have h2 := flat_triplets T
            simp only [List.map_cons] at h1
            simp only [List.map_cons, Except.map, encScan, h1, h2, enc_append]

theorem scan_ok {markers : List (List Char)} (line : List Char) (e : Option Big.SQ.Err) :
    ∀ (T : List (Big.SQ.Tuple Char)) (state lead trail : List Char) (r : Scan Char),
      scan markers line state lead trail T e = .ok r → e = none
  | [], state, lead, trail, r, h => by cases e <;> simp [scan] at h ⊢
  | (l, seg, t) :: T, state, lead, trail, r, h => by
    rw [scan] at h
    split at h
    · exact scan_ok line e T _ _ _ r h
    split at h
    · split at h
      · exact scan_ok line e T _ _ _ r h
      · split at h
        · cases h
        · exact scan_ok line e T _ _ _ r h
    · split at h
      · cases e with
        | none => rfl
        | some x => cases h
      · exact scan_ok line e T _ _ _ r h

theorem commentOne_code {s : List Char} (hs : Plain s) {a : Comments Char} (hne : a.markers ≠ []) (he : [] ∉ a.markers)
    {st : List Char} (hst : st ≠ [] → st ∈ a.multilineQuotes) (p : Pair Char μ) (hp : Good s p) :
    commentOne (bytesText col tw) (encodeComments a) (enc st) (encodePair p) =
        (commentOne (strText col tw) a st p).map (fun r => (encodePair r.1, enc r.2)) ∧
      ∀ q st', commentOne (strText col tw) a st p = .ok (q, st') → Good s q ∧ (st' ≠ [] → st' ∈ a.multilineQuotes) := by
  obtain ⟨info, line⟩ := p
  have hl : Plain line := hs.sub hp.line
  unfold commentOne
  rw [show (encodePair (info, line)).2 = enc line from rfl, show (encodePair (info, line)).1 = encodeInfo info from rfl,
    segmentsOf_code a st hl]
  cases hseg : segmentsOf (strText col tw) a st line with
  | error x => exact ⟨rfl, by intro q st' h; cases h⟩
  | ok i =>
    obtain ⟨T, e⟩ := i
    have hsc := scan_code hne he line e T st [] []
    simp only [enc_nil] at hsc
    have hm : (encodeComments a).markers = a.markers.map enc := rfl
    have hq : (encodeComments a).multilineQuotes = a.multilineQuotes.map enc := rfl
    simp only [Except.map, bind, Except.bind, hm, hq, hsc]
    cases hx : scan a.markers line st [] [] T e with
    | error x => exact ⟨rfl, by intro q st' h; cases h⟩
    | ok r =>
      have hnone := scan_ok line e T st [] [] r hx
      subst hnone
      have hT := (segmentsOf_eq a st line T).2 hseg
      have hjoin := tuples_join (E := strText col tw) Big.MS.C72_reversed_tables.1 Big.SQ.pyStr_sort hT
      have hspec := scan_spec (E := strText col tw) Big.MS.C72_reversed_tables.1 Big.SQ.pyStr_sort a hne he st hst line T hT
      cases r with
      | comment st' segs =>
        have hsuf : st' = [] ∧ ∃ x, line = x ++ segs := by
          rcases hspec with ⟨pre, seg, post, x, m, y, h1, -, h2, -, h3⟩ | ⟨-, s', l, t, h3, -⟩
          · rw [hx] at h3
            simp only [Except.ok.injEq, Scan.comment.injEq] at h3
            refine ⟨h3.1, Big.SQ.rejoin pre ++ x, ?_⟩
            rw [h3.2, ← hjoin, h1, rejoin_append, rejoin_cons, h2.1]
            simp
          · rw [hx] at h3; cases h3
        obtain ⟨rfl, x, rfl⟩ := hsuf
        simp only [encScan]
        have hclip : clipTrailing (encodeInfo info) (enc (x ++ segs)) (enc segs).length (some (enc segs)) =
              (clipTrailing info (x ++ segs) segs.length (some segs)).map encodePair ∧
            ∀ q, clipTrailing info (x ++ segs) segs.length (some segs) = .ok q → Good s q := by
          by_cases h0 : segs = []
          · subst h0
            exact clipTrailing_code hp (by simp [enc_nil, sliceTo]) rfl
          · exact clipEnd_code hp h0
        rw [hclip.1]
        cases hc : clipTrailing info (x ++ segs) segs.length (some segs) with
        | error x => exact ⟨rfl, by intro q st' h; cases h⟩
        | ok q =>
          refine ⟨rfl, ?_⟩
          intro q' st' h
          simp only [Except.ok.injEq, Prod.mk.injEq] at h
          rw [← h.1, ← h.2]
          exact ⟨hclip.2 q hc, by simp⟩
      | noComment st' lead trail =>
        have hst' : st' = [] ∨ st' = st := by
          rcases hspec with ⟨pre, seg, post, x, m, y, -, -, -, -, h3⟩ | ⟨-, s', l, t, h3, -, h4⟩
          · rw [hx] at h3; cases h3
          · rw [hx] at h3
            simp only [Except.ok.injEq, Scan.noComment.injEq] at h3
            rw [h3.1]; exact h4
        have hmem : enc lead ∈ a.multilineQuotes.map enc ↔ lead ∈ a.multilineQuotes := by
          constructor
          · intro h
            obtain ⟨w, hw, h⟩ := List.mem_map.1 h
            exact enc_inj.1 h ▸ hw
          · exact fun h => List.mem_map_of_mem h
        simp only [encScan, enc_isEmpty, hmem]
        by_cases h1 : (!lead.isEmpty && trail.isEmpty) = true
        · simp only [h1, if_true]
          by_cases h2 : lead ∈ a.multilineQuotes
          · simp only [h2, not_true_eq_false, if_false]
            refine ⟨trivial, ?_⟩
            intro q st'' h
            simp only [Except.ok.injEq, Prod.mk.injEq] at h
            rw [← h.1, ← h.2]
            exact ⟨hp, fun _ => h2⟩
          · simp only [h2, not_false_eq_true, if_true]
            exact ⟨trivial, by intro q st' h; cases h⟩
        · simp only [h1, if_false, Bool.false_eq_true]
          refine ⟨trivial, ?_⟩
          intro q st'' h
          simp only [Except.ok.injEq, Prod.mk.injEq] at h
          rw [← h.1, ← h.2]
          refine ⟨hp, ?_⟩
          intro hn
          rcases hst' with h3 | h3
          · exact absurd h3 hn
          · rw [h3] at hn ⊢; exact hst hn

theorem commentLoop_code {s : List Char} (hs : Plain s) {a : Comments Char} (hne : a.markers ≠ []) (he : [] ∉ a.markers)
    (e : Option Err) : ∀ (l : List (Pair Char μ)) (st : List Char), (st ≠ [] → st ∈ a.multilineQuotes) → (∀ p ∈ l, Good s p) →
      commentLoop (bytesText col tw) (encodeComments a) (enc st) (l.map encodePair) e =
          encodeStream (commentLoop (strText col tw) a st l e) ∧
        ∀ p ∈ (commentLoop (strText col tw) a st l e).1, Good s p
  | [], st, _, _ => by
    cases e with
    | some x => exact ⟨rfl, by simp [commentLoop]⟩
    | none =>
      simp only [List.map_nil, commentLoop, enc_isEmpty]
      exact ⟨rfl, by simp⟩
  | p :: l, st, hst, h => by
    obtain ⟨h1, h2⟩ := commentOne_code (col := col) (tw := tw) hs hne he hst p (h p (by simp))
    simp only [List.map_cons, commentLoop, h1]
    cases hx : commentOne (strText col tw) a st p with
    | error x => exact ⟨rfl, by simp⟩
    | ok r =>
      obtain ⟨q, st'⟩ := r
      obtain ⟨g1, g2⟩ := h2 q st' hx
      obtain ⟨k1, k2⟩ := commentLoop_code hs hne he e l st' g2 (fun p hp => h p (by simp [hp]))
      simp only [Except.map, k1]
      refine ⟨rfl, ?_⟩
      intro p' hp'
      rcases List.mem_cons.1 hp' with rfl | hp'
      · exact g1
      · exact k2 p' hp'

end Big.Lines
