import Verif.Wrap.Merge
/-! # Lemmas on merge_columns: overflows -/
namespace Big.Wrap

variable {α : Type} [DecidableEq α] {E : Env α} {o : MergeOpt α}

/-- `n` is in one of the intervals. -/
def Covers (ivs : List (Nat × Nat)) (n : Nat) : Prop := ∃ iv ∈ ivs, iv.1 ≤ n ∧ n ≤ iv.2

/-- Intervals, the last one first, that do not touch. -/
def Apart : List (Nat × Nat) → Prop
  | [] => True
  | [a] => a.1 ≤ a.2
  | a :: b :: l => a.1 ≤ a.2 ∧ b.2 + 1 < a.1 ∧ Apart (b :: l)

theorem Apart.tail {a : Nat × Nat} {l : List (Nat × Nat)} (h : Apart (a :: l)) : Apart l := by
  cases l with
  | nil => trivial
  | cons b l => exact h.2.2

theorem Apart.head {a : Nat × Nat} {l : List (Nat × Nat)} (h : Apart (a :: l)) : a.1 ≤ a.2 := by
  cases l with
  | nil => exact h
  | cons b l => exact h.1

theorem Apart.le {a : Nat × Nat} {l : List (Nat × Nat)} (h : Apart (a :: l)) : ∀ b ∈ l, b.2 + 1 < a.1 := by
  induction l generalizing a with
  | nil => simp
  | cons c l ih =>
    intro b hb
    rcases List.mem_cons.1 hb with rfl | hb
    · exact h.2.1
    · have h1 := ih h.2.2 b hb
      have h2 := h.2.2.head
      have h3 := h.2.1
      omega

/-- What loop 1 knows after `n` lines; `w m` says whether line `m` is too wide, `a` is where the current
overflow starts (or `n`). -/
structure Inv (o : MergeOpt α) (w : Nat → Bool) (n a : Nat) (m : Loop1) : Prop where
  le : a ≤ n
  run : ∀ k, a ≤ k → k < n → w k = true
  flag : m.inOverflow = decide (a < n)
  start : m.inOverflow = true → m.start = a - o.before
  apart : Apart m.overflows
  covers : ∀ k, Covers m.overflows k ↔ ∃ j, j < a ∧ w j = true ∧ j ≤ k + o.before ∧ k ≤ j + o.after
  bound : ∀ iv ∈ m.overflows, iv.1 ≤ a - o.before ∧ iv.2 < a + o.after
  stop : ∀ iv l, m.overflows = iv :: l → m.stop = iv.2

/-- The end of an overflow. -/
theorem addOverflow_inv {w : Nat → Bool} {n a : Nat} {m : Loop1} (h : Inv o w n a m) (hin : m.inOverflow = true) :
    let m' := addOverflow { m with stop := n - 1 + o.after }
    m'.inOverflow = false ∧ Apart m'.overflows ∧
    (∀ k, Covers m'.overflows k ↔ ∃ j, j < n ∧ w j = true ∧ j ≤ k + o.before ∧ k ≤ j + o.after) ∧
    (∀ iv ∈ m'.overflows, iv.1 ≤ n - o.before ∧ iv.2 < n + o.after) ∧
    (∀ iv l, m'.overflows = iv :: l → m'.stop = iv.2) := by
  have hlt : a < n := by have := h.flag; rw [hin] at this; simpa using this.symm
  have hst := h.start hin
  have hcov : ∀ k, (∃ j, j < n ∧ w j = true ∧ j ≤ k + o.before ∧ k ≤ j + o.after) ↔
      Covers m.overflows k ∨ (a - o.before ≤ k ∧ k ≤ n - 1 + o.after) := by
    intro k
    rw [h.covers k]
    constructor
    · rintro ⟨j, h1, h2, h3, h4⟩
      by_cases hj : j < a
      · exact .inl ⟨j, hj, h2, h3, h4⟩
      · right; omega
    · rintro (⟨j, h1, h2, h3, h4⟩ | ⟨h1, h2⟩)
      · exact ⟨j, by omega, h2, h3, h4⟩
      · -- the nearest line of the run
        by_cases hk : k ≤ a + o.after
        · exact ⟨a, by omega, h.run a (by omega) hlt, by omega, hk⟩
        · by_cases hk2 : k - o.after < n
          · exact ⟨k - o.after, by omega, h.run _ (by omega) (by omega), by omega, by omega⟩
          · omega
  simp only [hcov]
  unfold addOverflow
  dsimp only
  rw [hst]
  cases hov : m.overflows with
  | nil =>
    dsimp only
    refine ⟨rfl, ?_, ?_, ?_, ?_⟩
    · simp only [Apart]; omega
    · intro k; simp [Covers]
    · simp; omega
    · intro iv l h; simp only [List.cons.injEq] at h; rw [← h.1]
  | cons last rest =>
    dsimp only
    have hb := h.bound
    have hap := h.apart
    rw [hov] at hb hap
    have hlast := hb last (by simp)
    by_cases hm : last.2 + 1 ≥ a - o.before
    · rw [if_pos hm]
      dsimp only
      refine ⟨rfl, ?_, ?_, ?_, ?_⟩
      · have := hap.head
        cases rest with
        | nil => simp only [Apart]; omega
        | cons b l => exact ⟨by show last.1 ≤ _; omega, hap.2.1, hap.2.2⟩
      · intro k
        simp only [Covers, List.mem_cons, exists_eq_or_imp]
        constructor
        · rintro (⟨h1, h2⟩ | h1)
          · by_cases h3 : k ≤ last.2
            · exact .inl (.inl ⟨h1, h3⟩)
            · right; omega
          · exact .inl (.inr h1)
        · rintro ((⟨h1, h2⟩ | h1) | ⟨h1, h2⟩)
          · left; omega
          · exact .inr h1
          · left; omega
      · intro iv hiv
        rcases List.mem_cons.1 hiv with rfl | hiv
        · dsimp only; omega
        · have := hb iv (by simp [hiv]); omega
      · intro iv l h; simp only [List.cons.injEq] at h; rw [← h.1]
    · rw [if_neg hm]
      dsimp only
      refine ⟨rfl, ?_, ?_, ?_, ?_⟩
      · exact ⟨by dsimp only; omega, by dsimp only; omega, hap⟩
      · intro k
        simp only [Covers, List.mem_cons, exists_eq_or_imp]
        constructor
        · rintro (h1 | h1)
          · exact .inr h1
          · exact .inl h1
        · rintro (h1 | h1)
          · exact .inr h1
          · exact .inl h1
      · intro iv hiv
        rcases List.mem_cons.1 hiv with rfl | hiv
        · dsimp only; omega
        · have := hb iv hiv; omega
      · intro iv l h; simp only [List.cons.injEq] at h; rw [← h.1]

/-- Loop 1. -/
theorem loop1_spec (width : Int) (w : Nat → Bool) (lines : List (List α)) :
    ∀ (n a : Nat) (m : Loop1), Inv o w n a m →
      (∀ i l, lines[i]? = some l → w (n + i) = decide (((rstrip E.isSpace l).length : Int) > width)) →
      (∀ l ∈ lines, E.nl ∉ rstrip E.isSpace l) →
      (o.strategy = .raise → m.inOverflow = false) →
      (o.strategy = .raise ∧ (∃ i, i < lines.length ∧ w (n + i) = true) ∧ loop1 E o width n lines m = .error .overflowError) ∨
      ((o.strategy = .raise → ∀ i, i < lines.length → w (n + i) = false) ∧
        ∃ a' m', loop1 E o width n lines m = .ok m' ∧ Inv o w (n + lines.length) a' m') := by
  induction lines with
  | nil =>
    intro n a m h _ _ _
    exact .inr ⟨by simp, a, m, rfl, by simpa using h⟩
  | cons line lines ih =>
    intro n a m h hw hnl hr
    have hw0 := hw 0 line rfl
    rw [Nat.add_zero] at hw0
    have hw' : ∀ i l, lines[i]? = some l → w (n + 1 + i) = decide (((rstrip E.isSpace l).length : Int) > width) := by
      intro i l hi
      have := hw (i + 1) l (by simpa using hi)
      rw [← this]; congr 1; omega
    have hnl' : ∀ l ∈ lines, E.nl ∉ rstrip E.isSpace l := fun l hl => hnl l (by simp [hl])
    unfold loop1
    dsimp only
    rw [if_neg (hnl line (by simp)), ← hw0]
    have lift : ∀ (a1 : Nat) (m1 : Loop1), Inv o w (n + 1) a1 m1 → (o.strategy = .raise → m1.inOverflow = false) →
        (o.strategy = .raise → w n = false) →
        (o.strategy = .raise ∧ (∃ i, i < (line :: lines).length ∧ w (n + i) = true) ∧
          loop1 E o width (n + 1) lines m1 = .error .overflowError) ∨
        ((o.strategy = .raise → ∀ i, i < (line :: lines).length → w (n + i) = false) ∧
          ∃ a' m', loop1 E o width (n + 1) lines m1 = .ok m' ∧ Inv o w (n + (line :: lines).length) a' m') := by
      intro a1 m1 h1 h2 h3
      rcases ih (n + 1) a1 m1 h1 hw' hnl' h2 with ⟨g1, ⟨i, g2, g3⟩, g4⟩ | ⟨g1, a', m', g2, g3⟩
      · exact .inl ⟨g1, ⟨i + 1, by simpa using g2, by rw [← g3]; congr 1; omega⟩, g4⟩
      · refine .inr ⟨?_, a', m', g2, ?_⟩
        · intro hs i hi
          cases i with
          | zero => exact h3 hs
          | succ i =>
            have := g1 hs i (by simpa using hi)
            rw [← this]; congr 1; omega
        · have : n + (line :: lines).length = n + 1 + lines.length := by simp; omega
          rw [this]; exact g3
    by_cases hin : m.inOverflow = true
    · have hlt : a < n := by have := h.flag; rw [hin] at this; simpa using this.symm
      rw [hin]
      by_cases hwn : w n = true
      · rw [if_neg (by simp), if_neg (by simp [hwn])]
        refine lift a m ?_ hr (fun hs => by have := hr hs; rw [hin] at this; simp at this)
        refine ⟨by omega, ?_, by rw [hin]; simp; omega, h.start, h.apart, h.covers, h.bound, h.stop⟩
        intro k h1 h2
        by_cases hk : k < n
        · exact h.run k h1 hk
        · rw [show k = n by omega]; exact hwn
      · have hwf : w n = false := by simpa using hwn
        rw [if_neg (by simp), if_pos (by simp [hwf])]
        have hadd := addOverflow_inv h hin
        dsimp only at hadd
        rw [hin] at hadd
        obtain ⟨g1, g2, g3, g4, g5⟩ := hadd
        refine lift (n + 1) _ ?_ (fun _ => g1) (fun _ => hwf)
        refine ⟨by omega, by omega, by rw [g1]; simp, by rw [g1]; simp, g2, ?_, ?_, g5⟩
        · intro k
          rw [g3 k]
          constructor
          · rintro ⟨j, h1, h2⟩; exact ⟨j, by omega, h2⟩
          · rintro ⟨j, h1, h2, h3⟩
            refine ⟨j, ?_, h2, h3⟩
            by_cases hj : j = n
            · subst hj; rw [hwf] at h2; simp at h2
            · omega
        · intro iv hiv; have := g4 iv hiv; omega
    · have hin' : m.inOverflow = false := by simpa using hin
      have han : a = n := by
        have := h.flag; rw [hin'] at this
        have h1 := h.le
        simp at this; omega
      subst han
      rw [hin']
      by_cases hwn : w a = true
      · rw [if_pos (by simp [hwn])]
        by_cases hs : o.strategy = .raise
        · rw [if_pos hs]
          exact .inl ⟨hs, ⟨0, by simp, by simpa using hwn⟩, rfl⟩
        · rw [if_neg hs]
          refine lift a _ ?_ (fun h => absurd h hs) (fun h => absurd h hs)
          refine ⟨by omega, ?_, by simp, fun _ => rfl, h.apart, h.covers, h.bound, h.stop⟩
          intro k h1 h2; rw [show k = a by omega]; exact hwn
      · have hwf : w a = false := by simpa using hwn
        rw [if_neg (by simp [hwf]), if_neg (by simp)]
        refine lift (a + 1) m ?_ hr (fun _ => hwf)
        refine ⟨by omega, by omega, by rw [hin']; simp, by rw [hin']; simp, h.apart, ?_, ?_, h.stop⟩
        · intro k
          rw [h.covers k]
          constructor
          · rintro ⟨j, h1, h2⟩; exact ⟨j, by omega, h2⟩
          · rintro ⟨j, h1, h2, h3⟩
            refine ⟨j, ?_, h2, h3⟩
            by_cases hj : j = a
            · subst hj; rw [hwf] at h2; simp at h2
            · omega
        · intro iv hiv; have := h.bound iv hiv; omega

/-- Intervals, the first one first, that do not touch. -/
def Ordered : List (Nat × Nat) → Prop
  | [] => True
  | a :: l => a.1 ≤ a.2 ∧ (∀ b ∈ l, a.2 + 1 < b.1) ∧ Ordered l

theorem ordered_append {l : List (Nat × Nat)} {a : Nat × Nat} (h : Ordered l) (ha : a.1 ≤ a.2)
    (hl : ∀ b ∈ l, b.2 + 1 < a.1) : Ordered (l ++ [a]) := by
  induction l with
  | nil => exact ⟨ha, by simp, trivial⟩
  | cons b l ih =>
    refine ⟨h.1, ?_, ih h.2.2 (fun c hc => hl c (by simp [hc]))⟩
    intro c hc
    rcases List.mem_append.1 hc with hc | hc
    · exact h.2.1 c hc
    · simp only [List.mem_singleton] at hc
      rw [hc]; exact hl b (by simp)

theorem ordered_reverse {l : List (Nat × Nat)} (h : Apart l) : Ordered l.reverse := by
  induction l with
  | nil => trivial
  | cons a l ih =>
    rw [List.reverse_cons]
    exact ordered_append (ih h.tail) h.head (fun b hb => h.le b (by simpa using hb))

/-- What is spoken of: is line `m` too wide. -/
theorem wide_lt {width : Int} {lines : List (List α)} {m : Nat} (h : wide E width lines m = true) : m < lines.length := by
  unfold wide at h
  cases h1 : lines[m]? with
  | none => rw [h1] at h; simp at h
  | some l => exact (List.getElem?_eq_some_iff.1 h1).1

theorem overflowed_iff {width : Int} {lines : List (List α)} {n : Nat} :
    overflowed E o width lines n = true ↔
      ∃ m, wide E width lines m = true ∧ (o.strategy = .delayAll ∨ m ≤ n + o.before) ∧ n ≤ m + o.after := by
  unfold overflowed
  simp only [List.any_eq_true, List.mem_range, Bool.and_eq_true, decide_eq_true_eq, Bool.or_eq_true]
  constructor
  · rintro ⟨m, h1, ⟨h2, h3⟩, h4⟩; exact ⟨m, h2, h3, h4⟩
  · rintro ⟨m, h2, h3, h4⟩; exact ⟨m, wide_lt h2, ⟨h2, h3⟩, h4⟩

/-- The overflows that are found are right. -/
theorem overflowsOf_spec (width : Int) (lines : List (List α)) (hnl : ∀ l ∈ lines, E.nl ∉ rstrip E.isSpace l) :
    (o.strategy = .raise ∧ (∃ m, wide E width lines m = true) ∧ overflowsOf E o width lines = .error .overflowError) ∨
    ((o.strategy = .raise → ∀ m, wide E width lines m = false) ∧
      ∃ ivs, overflowsOf E o width lines = .ok ivs ∧ Ordered ivs ∧
        ∀ n, Covers ivs n ↔ overflowed E o width lines n = true) := by
  have h0 : Inv o (wide E width lines) 0 0 ⟨0, 0, [], false⟩ :=
    ⟨by omega, by omega, rfl, by simp, trivial, by simp [Covers], by simp, by simp⟩
  have hw : ∀ i l, lines[i]? = some l → wide E width lines (0 + i) = decide (((rstrip E.isSpace l).length : Int) > width) := by
    intro i l hi
    unfold wide
    rw [Nat.zero_add, hi]; rfl
  unfold overflowsOf
  rcases loop1_spec width (wide E width lines) lines 0 0 _ h0 hw hnl (fun _ => rfl) with ⟨g1, ⟨i, g2, g3⟩, g4⟩ | ⟨g1, a, m, g2, g3⟩
  · rw [g4]
    exact .inl ⟨g1, ⟨i, by simpa using g3⟩, rfl⟩
  · rw [g2]
    right
    refine ⟨?_, ?_⟩
    · intro hs k
      by_cases hk : wide E width lines k = true
      · have := g1 hs k (wide_lt hk)
        rw [Nat.zero_add, hk] at this; simp at this
      · simpa using hk
    · dsimp only
      rw [Nat.zero_add] at g3
      -- after the last line
      have hfin : ∀ m' : Loop1, (m' = if m.inOverflow = true then addOverflow { m with stop := lines.length - 1 + o.after } else m) →
          Apart m'.overflows ∧
          (∀ k, Covers m'.overflows k ↔ ∃ j, wide E width lines j = true ∧ j ≤ k + o.before ∧ k ≤ j + o.after) ∧
          (∀ iv l, m'.overflows = iv :: l → m'.stop = iv.2) := by
        intro m' hm'
        have hj : ∀ k, (∃ j, j < lines.length ∧ wide E width lines j = true ∧ j ≤ k + o.before ∧ k ≤ j + o.after) ↔
            ∃ j, wide E width lines j = true ∧ j ≤ k + o.before ∧ k ≤ j + o.after := by
          intro k
          constructor
          · rintro ⟨j, _, h⟩; exact ⟨j, h⟩
          · rintro ⟨j, h⟩; exact ⟨j, wide_lt h.1, h⟩
        by_cases hin : m.inOverflow = true
        · rw [if_pos hin] at hm'
          obtain ⟨-, k2, k3, -, k5⟩ := addOverflow_inv g3 hin
          rw [hm']
          exact ⟨k2, fun k => (k3 k).trans (hj k), k5⟩
        · rw [if_neg hin] at hm'
          rw [hm']
          have ha : a = lines.length := by
            have h1 := g3.flag
            have h2 := g3.le
            rw [Bool.not_eq_true] at hin
            rw [hin] at h1; simp at h1; omega
          refine ⟨g3.apart, fun k => ?_, g3.stop⟩
          rw [g3.covers k, ha]; exact hj k
      generalize hm' : (if m.inOverflow = true then addOverflow { m with stop := lines.length - 1 + o.after } else m) = m'
      obtain ⟨k1, k2, k3⟩ := hfin m' hm'.symm
      by_cases hd : o.strategy = .delayAll ∧ m'.overflows ≠ []
      · rw [if_pos hd]
        refine ⟨_, rfl, ⟨by simp, by simp, trivial⟩, ?_⟩
        intro n
        rw [overflowed_iff]
        obtain ⟨iv, l, hov⟩ : ∃ iv l, m'.overflows = iv :: l := by
          cases h : m'.overflows with
          | nil => exact absurd h hd.2
          | cons iv l => exact ⟨iv, l, rfl⟩
        have hstop := k3 iv l hov
        rw [hov] at k1
        simp only [Covers, List.mem_singleton, exists_eq_left, Nat.zero_le, true_and]
        rw [hstop]
        constructor
        · intro hn
          have : Covers m'.overflows iv.2 := ⟨iv, by rw [hov]; simp, k1.head, Nat.le_refl _⟩
          obtain ⟨j, h1, h2, h3⟩ := (k2 _).1 this
          exact ⟨j, h1, .inl hd.1, by omega⟩
        · rintro ⟨j, h1, -, h3⟩
          have : Covers m'.overflows (j + o.after) := (k2 _).2 ⟨j, h1, by omega, Nat.le_refl _⟩
          obtain ⟨iv', h4, h5, h6⟩ := this
          rw [hov] at h4
          rcases List.mem_cons.1 h4 with rfl | h4
          · omega
          · have := k1.le iv' h4
            have := k1.head
            omega
      · rw [if_neg hd]
        refine ⟨_, rfl, ordered_reverse k1, ?_⟩
        intro n
        rw [overflowed_iff]
        have hrev : Covers m'.overflows.reverse n ↔ Covers m'.overflows n := by simp [Covers]
        rw [hrev, k2 n]
        by_cases hs : o.strategy = .delayAll
        · have hnil : m'.overflows = [] := by
            by_cases h : m'.overflows = []
            · exact h
            · exact absurd ⟨hs, h⟩ hd
          have hno : ∀ j, wide E width lines j ≠ true := by
            intro j hj
            have : Covers m'.overflows j := (k2 j).2 ⟨j, hj, by omega, by omega⟩
            rw [hnil] at this
            simp [Covers] at this
          constructor
          · rintro ⟨j, h1, _⟩; exact absurd h1 (hno j)
          · rintro ⟨j, h1, _⟩; exact absurd h1 (hno j)
        · simp [hs]

/-- Loop 2. -/
theorem loop2_spec (width : Int) (lines : List (List α)) :
    ∀ (n : Nat) (ivs : List (Nat × Nat)) (flag : Bool), Ordered ivs →
      (∀ iv l, ivs = iv :: l → n ≤ iv.2 + 1 ∧ flag = decide (iv.1 < n)) → (ivs = [] → flag = false) →
      ∀ (f : Nat → Bool), (∀ k, n ≤ k → (Covers ivs k ↔ f k = true)) →
      loop2 E width n lines ivs flag =
        (lines.zipIdx n).map (fun p => (if f p.2 then p.1 else ljust E p.1 width, f p.2)) := by
  induction lines with
  | nil => intro n ivs flag _ _ _ f _; rfl
  | cons line lines ih =>
    intro n ivs flag hord hcur hnil f hf
    unfold loop2
    rw [List.zipIdx_cons, List.map_cons]
    cases ivs with
    | nil =>
      have hfl := hnil rfl
      subst hfl
      rw [show loop2Step n [] false = ([], false) from rfl]
      dsimp only
      have hfn : f n = false := by
        have := (hf n (Nat.le_refl _))
        cases h : f n with
        | false => rfl
        | true => rw [h] at this; simp [Covers] at this
      rw [hfn]
      congr 1
      exact ih (n + 1) [] false trivial (by simp) (fun _ => rfl) f (fun k hk => hf k (by omega))
    | cons cur rest =>
      obtain ⟨h1, h2⟩ := hcur cur rest rfl
      by_cases hn : n > cur.2
      · have hfn : f n = false := by
          cases h : f n with
          | false => rfl
          | true =>
            obtain ⟨iv, h3, h4, h5⟩ := (hf n (Nat.le_refl _)).2 h
            rcases List.mem_cons.1 h3 with rfl | h3
            · omega
            · have := hord.2.1 iv h3; omega
        have hf' : ∀ k, n + 1 ≤ k → (Covers rest k ↔ f k = true) := by
          intro k hk
          rw [← hf k (by omega)]
          simp only [Covers, List.mem_cons, exists_eq_or_imp]
          constructor
          · intro h; exact .inr h
          · rintro (h | h)
            · omega
            · exact h
        cases rest with
        | nil =>
          rw [show loop2Step n [cur] flag = ([], false) by unfold loop2Step; dsimp only; rw [if_pos hn]]
          dsimp only
          rw [hfn]
          congr 1
          exact ih (n + 1) [] false trivial (by simp) (fun _ => rfl) f hf'
        | cons b rest =>
          have h3 := hord.2.1 b (by simp)
          rw [show loop2Step n (cur :: b :: rest) flag = (b :: rest, false) by
            unfold loop2Step; dsimp only; rw [if_pos hn]; dsimp only; rw [if_neg (by omega)]]
          dsimp only
          rw [hfn]
          congr 1
          refine ih (n + 1) (b :: rest) false hord.2.2 ?_ (by simp) f hf'
          intro iv l h
          simp only [List.cons.injEq] at h
          obtain ⟨rfl, rfl⟩ := h
          have := hord.2.2.1
          exact ⟨by omega, by simp; omega⟩
      · have hflag : (if n ≥ cur.1 then true else flag) = f n := by
          by_cases hc : n ≥ cur.1
          · rw [if_pos hc]
            exact ((hf n (Nat.le_refl _)).1 ⟨cur, by simp, hc, by omega⟩).symm
          · rw [if_neg hc, h2]
            cases h : f n with
            | false => simp; omega
            | true =>
              obtain ⟨iv, h3, h4, h5⟩ := (hf n (Nat.le_refl _)).2 h
              rcases List.mem_cons.1 h3 with rfl | h3
              · omega
              · have := hord.2.1 iv h3; omega
        rw [show loop2Step n (cur :: rest) flag = (cur :: rest, f n) by
          unfold loop2Step; dsimp only; rw [if_neg hn]; dsimp only; rw [← hflag]; split <;> rfl]
        dsimp only
        congr 1
        refine ih (n + 1) (cur :: rest) (f n) hord ?_ (by simp) f (fun k hk => hf k (by omega))
        intro iv l h
        simp only [List.cons.injEq] at h
        obtain ⟨rfl, rfl⟩ := h
        refine ⟨by omega, ?_⟩
        rw [← hflag]
        by_cases hc : n ≥ cur.1
        · rw [if_pos hc]; simp; omega
        · rw [if_neg hc, h2]; simp; omega

/-- The padded lines of a marked column. -/
def padded (E : Env α) (width : Int) (c : List (List α × Bool)) : List (List α × Bool) :=
  c.map (fun p => (cellText E width (some p), p.2))

/-- columnsOf: the lines with the right marks, or an overflow. -/
theorem columnsOf_spec (columns : List (Column α)) (h : ∀ c ∈ columns, OneLine E c) :
    (o.strategy = .raise ∧ (∃ c ∈ columns, ∃ m, wide E c.maxWidth (c.lines E) m = true) ∧
      columnsOf E o columns = .error .overflowError) ∨
    ((o.strategy = .raise → ∀ c ∈ columns, ∀ m, wide E c.maxWidth (c.lines E) m = false) ∧
      columnsOf E o columns =
        .ok (columns.map (fun c => (padded E c.maxWidth (marked E o c), spaces E c.maxWidth)))) := by
  induction columns with
  | nil => exact .inr ⟨by simp, rfl⟩
  | cons c cs ih =>
    unfold columnsOf
    rcases overflowsOf_spec (o := o) c.maxWidth (c.lines E) (h c (by simp)) with ⟨g1, g2, g3⟩ | ⟨g1, ivs, g2, g3, g4⟩
    · rw [g3]; exact .inl ⟨g1, ⟨c, by simp, g2⟩, rfl⟩
    · rw [g2]
      dsimp only
      rcases ih (fun c hc => h c (by simp [hc])) with ⟨k1, ⟨c', hc', k2⟩, k3⟩ | ⟨k1, k2⟩
      · rw [k3]; exact .inl ⟨k1, ⟨c', by simp [hc'], k2⟩, rfl⟩
      · rw [k2]
        right
        refine ⟨?_, ?_⟩
        · intro hs c' hc'
          rcases List.mem_cons.1 hc' with rfl | hc'
          · exact g1 hs
          · exact k1 hs c' hc'
        · dsimp only
          rw [loop2_spec c.maxWidth (c.lines E) 0 ivs false g3 (by intro iv l hi; exact ⟨by omega, by simp⟩) (fun _ => rfl)
            (overflowed E o c.maxWidth (c.lines E)) (fun k _ => g4 k)]
          simp only [List.map_cons]
          congr 3
          unfold padded marked
          rw [List.map_map]
          apply List.map_congr_left
          intro p hp
          simp only [Function.comp_apply]
          cases overflowed E o c.maxWidth (c.lines E) p.2 <;> rfl

end Big.Wrap
