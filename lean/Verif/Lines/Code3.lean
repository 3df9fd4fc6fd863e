import Verif.Lines.Code2
/-! # C154: lines_strip with separators, and tabs, on encoded text: lemmas -/
namespace Big.Lines
open Big.MS (utf8 Code Item)

variable {μ : Type} {col tw : Int}

/-! ### str.partition -/

theorem partition_skip {α : Type} [DecidableEq α] (w r : List α) : ∀ u : List α,
    (∀ x y, u = x ++ y → y ≠ [] → ¬ w <+: y ++ r) →
    partition w (u ++ r) = (u ++ (partition w r).1, (partition w r).2)
  | [], _ => rfl
  | c :: u, h => by
    have ih := partition_skip w r u (fun x y he hy => h (c :: x) y (by rw [he]; rfl) hy)
    have h0 := h [] (c :: u) rfl (by simp)
    rw [List.cons_append, partition, if_neg, ih]
    · rfl
    · rwa [List.isPrefixOf_iff_prefix]

theorem partition_code {t : List Char} (ht : t ≠ []) : ∀ s : List Char,
    partition (enc t) (enc s) = (enc (partition t s).1, enc (partition t s).2)
  | [] => rfl
  | c :: s => by
    have ih := partition_code ht s
    by_cases h : t <+: c :: s
    · rw [partition, if_pos (List.isPrefixOf_iff_prefix.2 h)]
      obtain ⟨y, hy⟩ := h
      rw [← hy]
      cases he : enc (t ++ y) with
      | nil => exact absurd (enc_code.eq_nil.1 he) (by simp [ht])
      | cons b u =>
        rw [partition, if_pos, ← he, enc_append, List.drop_left', List.drop_left']
        · rfl
        · rfl
        · rfl
        · rw [List.isPrefixOf_iff_prefix, ← he, enc_append]; exact List.prefix_append _ _
    · rw [partition, if_neg (by rwa [List.isPrefixOf_iff_prefix])]
      have he : enc (c :: s) = utf8 c ++ enc s := rfl
      rw [he, partition_skip, ih]
      · rfl
      · intro x y hxy hy hp
        obtain ⟨x', t', h1, h2, h3⟩ := enc_code.boundary (s := c :: s) (w := t) (x := x) (t := y ++ enc s) ht
          (by rw [he, hxy, List.append_assoc]) hp
        cases x' with
        | nil =>
          rw [List.nil_append] at h1
          rw [← h1] at h3
          rw [← h3, enc_code.prefix] at hp
          exact h hp
        | cons d x'' =>
          simp only [List.cons_append, List.cons.injEq] at h1
          obtain ⟨rfl, -⟩ := h1
          have : enc (c :: x'') = utf8 c ++ enc x'' := rfl
          rw [this] at h2
          have := congrArg List.length hxy
          rw [← h2] at this
          simp only [List.length_append] at this
          have := List.length_pos_iff.2 hy
          omega

theorem partition_before {t : List Char} (ht : t ≠ []) (r : List Char) : ∀ l : List Char,
    (partition t (l ++ (t ++ r))).1 <+: l
  | [] => by
    cases t with
    | nil => exact absurd rfl ht
    | cons c t =>
      show (partition (c :: t) (c :: (t ++ r))).1 <+: []
      rw [partition, if_pos (show (c :: t).isPrefixOf (c :: (t ++ r)) = true from List.isPrefixOf_iff_prefix.2 ⟨r, rfl⟩)]
      exact List.prefix_rfl
  | c :: l => by
    rw [List.cons_append, partition]
    split
    · exact List.nil_prefix
    · exact List.cons_prefix_cons.2 ⟨rfl, partition_before ht r l⟩

theorem run_mem {seps : List (List Char)} {l rest : List Char} (h : Big.MS.Spec.Run seps l rest) :
    ∀ c ∈ l, ∃ w ∈ seps, c ∈ w := by
  induction h with
  | done _ => simp
  | @more w m rest hl _ ih =>
    intro c hc
    rcases List.mem_append.1 hc with hc | hc
    · exact ⟨w, hl.1, hc⟩
    · exact ih c hc

/-- lines_strip with ASCII separators. -/
theorem stripSeps_code {s : List Char} {seps : List (List Char)} (he : [] ∉ seps) (ha : ∀ w ∈ seps, ∀ c ∈ w, c.toNat < 128) :
    CodeOne (μ := μ) s (stripSepsOne (strText col tw) seps) (stripSepsOne (bytesText col tw) (seps.map enc)) := by
  intro p hp
  obtain ⟨info, line⟩ := p
  unfold stripSepsOne
  have hm := Big.MS.code_multistrip enc_code he (nl := '\n') (nl' := 10) (by decide +kernel) line true true
  rw [show (encodePair (info, line)).2 = enc line from rfl]
  rw [show (bytesText col tw).sq.nl = 10 from rfl, show (strText col tw).sq.nl = '\n' from rfl, hm]
  simp only [enc_isEmpty]
  by_cases h0 : line.isEmpty = true
  · simp only [h0, if_true]
    exact ⟨rfl, fun q hq => by simp at hq; exact hq ▸ hp⟩
  simp only [h0, if_false, Bool.false_eq_true]
  cases hr : Big.MS.multistrip '\n' line seps true true with
  | error x => exact ⟨rfl, by simp⟩
  | ok r =>
    simp only [Except.map, enc_isEmpty]
    have hne : seps ≠ [] := by
      rintro rfl
      simp [Big.MS.multistrip] at hr
    obtain ⟨t, l, b, e1, e2, e3, e4⟩ := Big.MS.C41_multistrip_general (nl := '\n') hne he line true true
    rw [hr] at e1
    simp only [Except.ok.injEq] at e1
    subst e1
    by_cases h1 : r.isEmpty = true
    · simp only [h1, if_true]
      have := clipBoth_code (col := col) (tw := tw) (s := s) (info := info) (l := []) (m := []) (r := line) (by simpa using hp) (by simp)
      simpa [enc_nil] using this
    · simp only [h1, if_false, Bool.false_eq_true]
      have hr0 : r ≠ [] := by simpa using h1
      have hsplit := partition_spec r hr0 line ⟨l, b, by rw [e2]; simp⟩
      have hbefore : (partition r line).1 <+: l := by rw [e2]; exact partition_before hr0 b l
      rw [partition_code hr0]
      have hl : ∀ c ∈ (partition r line).1, c.toNat < 128 := by
        intro c hc
        obtain ⟨w, hw, hcw⟩ := run_mem (by simpa using e3.1) c (hbefore.subset hc)
        exact ha w hw c hcw
      generalize partition r line = pr at *
      subst hsplit
      exact clipBoth_code hp hl

/-! ### Tabs -/

theorem detab_code : ∀ {a : List Char} (j : Nat), (∀ c ∈ a, c.toNat < 128) →
    expandLoop (bytesText col tw) j (enc a) = enc (expandLoop (strText col tw) j a)
  | [], _, _ => rfl
  | c :: a, j, h => by
    have ih := fun j => detab_code (a := a) j (fun c hc => h c (by simp [hc]))
    obtain ⟨h1, h2⟩ := ascii_byte (h c (by simp))
    have he : ∀ x, enc (c :: x) = c.toNat.toUInt8 :: enc x := by
      intro x
      rw [show enc (c :: x) = utf8 c ++ enc x from rfl, h1]; rfl
    have hb : ∀ (n : Nat) (d : Char), d.toNat = n → n < 128 → (c.toNat.toUInt8 = n.toUInt8 ↔ c = d) := by
      intro n d hd hn
      rw [toNat_lit, hd]
      constructor
      · intro h
        have := congrArg UInt8.toNat h
        rw [h2] at this
        simp at this
        omega
      · intro h; rw [h]
    have t1 : c.toNat.toUInt8 = (bytesText col tw).tab ↔ c = (strText col tw).tab := hb 9 '\t' rfl (by decide)
    have t2 : c.toNat.toUInt8 = (bytesText col tw).nl ↔ c = (strText col tw).nl := hb 10 '\n' rfl (by decide)
    have t3 : c.toNat.toUInt8 = (bytesText col tw).cr ↔ c = (strText col tw).cr := hb 13 '\r' rfl (by decide)
    have t4 : (bytesText col tw).tabWidth = (strText col tw).tabWidth := rfl
    have rep : ∀ n, enc (List.replicate n (strText col tw).space) = List.replicate n (bytesText col tw).space := by
      intro n
      induction n with
      | zero => rfl
      | succ n ih =>
        rw [List.replicate_succ, List.replicate_succ, ← ih]
        rw [show enc ((strText col tw).space :: List.replicate n (strText col tw).space) =
          utf8 (strText col tw).space ++ enc (List.replicate n (strText col tw).space) from rfl]
        rw [show utf8 (strText col tw).space = [(bytesText col tw).space] from (by decide +kernel : utf8 ' ' = [32])]
        rfl
    rw [he]
    simp only [expandLoop, t1, t2, t3, t4]
    split
    · split
      · simp only [ih, enc_append, rep]
      · exact ih j
    · rw [ih, he]

theorem expandLoop_mem {a : List Char} : ∀ (j : Nat), ∀ c ∈ expandLoop (strText col tw) j a, c ∈ a ++ [' '] := by
  induction a with
  | nil => intro j c hc; simp [expandLoop] at hc
  | cons d a ih =>
    intro j c hc
    have up : ∀ j, c ∈ expandLoop (strText col tw) j a → c ∈ d :: a ++ [' '] := by
      intro j h
      have := ih j c h
      rw [List.cons_append]
      exact List.mem_cons_of_mem _ this
    rw [expandLoop] at hc
    split at hc
    · split at hc
      · rcases List.mem_append.1 hc with hc | hc
        · have := List.eq_of_mem_replicate hc
          rw [this]
          simp [strText]
        · exact up _ hc
      · exact up _ hc
    · rcases List.mem_cons.1 hc with rfl | hc
      · simp
      · exact up _ hc

theorem tabs_code {s : List Char} (hs : ∀ c ∈ s, c.toNat < 128) (hsp : ' ' ∈ s) :
    CodeOne (μ := μ) s (tabsOne (strText col tw)) (tabsOne (bytesText col tw)) := by
  intro p hp
  obtain ⟨info, line⟩ := p
  refine ⟨?_, ?_⟩
  · simp only [tabsOne, encodePair, detab, encodeOne, Except.map, Option.map_some,
      detab_code 0 (fun c hc => hs c (hp.line c hc))]
  · intro q hq
    simp only [tabsOne, Except.ok.injEq, Option.some.injEq] at hq
    subst hq
    refine ⟨?_, hp.leading⟩
    intro c hc
    rcases List.mem_append.1 (expandLoop_mem 0 c hc) with h | h
    · exact hp.line c h
    · rw [List.mem_singleton.1 h]; exact hsp

end Big.Lines
