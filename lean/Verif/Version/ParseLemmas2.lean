import Verif.Version.ParseLemmas
/- The rest of the version pattern: pre-release, release, epoch, leading v and white space. -/
namespace Big.Version
open Big.Rx
variable {R : Type}

theorem fold_letters : ∀ x ∈ letters, fold x = x := by decide +kernel

theorem word_cons {x l : Char} (hx : x ∈ letters) (w s : List Char) (c : Caps Char)
    (k : List Char → Caps Char → Option R) :
    (word (l :: w)).m (x :: s) c k = if x = l then (word w).m s c k else none := by
  rw [word, m_seq]
  by_cases h : x = l
  · rw [if_pos h, m_lit (by rw [fold_letters x hx, h])]
  · rw [if_neg h, m_lit_ne (by rw [fold_letters x hx]; simpa using h)]

theorem word_nil (s : List Char) (c : Caps Char) (k : List Char → Caps Char → Option R) :
    (word []).m s c k = k s c := rfl

/-- The alternatives of the pre-release label. -/
def preAlts : Rx Char :=
  .alt (word ['a']) (.alt (word ['b']) (.alt (word ['c']) (.alt (word ['r','c'])
    (.alt (word ['a','l','p','h','a']) (.alt (word ['b','e','t','a']) (.alt (word ['p','r','e'])
      (word ['p','r','e','v','i','e','w'])))))))

theorem preL_eq : preL = .grp "pre_l" preAlts := rfl

/-- What is left of a long label when a shorter one was taken. -/
def BadPre (t : List Char) : Prop := ∃ x u, t = x :: u ∧ (x = 'l' ∨ x = 'e' ∨ x = 'v')

theorem m_preAlts (l : PreLabel) {s : List Char} (c : Caps Char)
    (k : List Char → Caps Char → Option R) (hk : (k s c).isSome)
    (hb : ∀ t, BadPre t → k t c = none) :
    preAlts.m (l.text.toList ++ s) c k = k s c := by
  obtain ⟨y, hy⟩ := Option.isSome_iff_exists.1 hk
  have la : 'a' ∈ letters := by decide
  have lb : 'b' ∈ letters := by decide
  have lc : 'c' ∈ letters := by decide
  have lr : 'r' ∈ letters := by decide
  have ll : 'l' ∈ letters := by decide
  have lp : 'p' ∈ letters := by decide
  have lh : 'h' ∈ letters := by decide
  have le : 'e' ∈ letters := by decide
  have lt : 't' ∈ letters := by decide
  have lv : 'v' ∈ letters := by decide
  have li : 'i' ∈ letters := by decide
  have lw : 'w' ∈ letters := by decide
  have b1 : ∀ u, k ('l' :: u) c = none := fun u => hb _ ⟨'l', u, rfl, by simp⟩
  have b2 : ∀ u, k ('e' :: u) c = none := fun u => hb _ ⟨'e', u, rfl, by simp⟩
  have b3 : ∀ u, k ('v' :: u) c = none := fun u => hb _ ⟨'v', u, rfl, by simp⟩
  cases l <;>
    simp [PreLabel.text, preAlts, m_alt, word_cons, word_nil, la, lb, lc, lr, ll, lp, lh, le, lt, lv,
      li, lw, hy, b1, b2, b3]

theorem T0_fail {x : Char} {t : List Char} (hx : isWs x = false) (c : Caps Char) :
    T0.m (x :: t) c k0 = none := by
  have := m_star_cls_none (p := isWs) (rest := x :: t) (c := c) (k := fun s' c' => eol.m s' c' k0)
    (fun y u e => by cases e; exact hx) [] (by simp) (by
      intro u v e
      have : v = [] := (List.append_eq_nil_iff.1 e.symm).2
      subst this
      have hne : ¬ (x = '\n' ∧ t = []) := by
        rintro ⟨rfl, _⟩; exact absurd hx (by decide +kernel)
      simp [eol, Rx.m]
      exact fun h => by simpa using fun h2 => hne ⟨h, h2⟩)
  rw [T0, m_seq]
  simpa using this

theorem T3_fail {x : Char} {t : List Char} (h : x = 'l' ∨ x = 'e' ∨ x = 'v') (c : Caps Char) :
    T3.m (x :: t) c k0 = none := by
  have f1 : (postR.nullable = false) := rfl
  have g1 : postR.first x = false := by rcases h with h | h | h <;> subst h <;> decide +kernel
  have g2 : devR.first x = false := by rcases h with h | h | h <;> subst h <;> decide +kernel
  have g3 : localR.first x = false := by rcases h with h | h | h <;> subst h <;> decide +kernel
  have g4 : isWs x = false := by rcases h with h | h | h <;> subst h <;> decide +kernel
  rw [T3, m_seq, opt_skip rfl (fun y u e => by cases e; exact g1), T2, m_seq,
    opt_skip rfl (fun y u e => by cases e; exact g2), T1, m_seq,
    opt_skip rfl (fun y u e => by cases e; exact g3)]
  exact T0_fail g4 c

theorem pre_bad (t : List Char) (c : Caps Char) (h : BadPre t) :
    (Rx.seq sepO (numO "pre_n")).m t c (fun s c => T3.m s c k0) = none := by
  obtain ⟨x, u, rfl, hx⟩ := h
  have g1 : isSep x = false := by rcases hx with h | h | h <;> subst h <;> decide +kernel
  have g2 : (Rx.grp "pre_n" digits).first x = false := by
    rcases hx with h | h | h <;> subst h <;> decide +kernel
  rw [m_seq, m_sepO_skip (noHead_cons g1), numO, opt_skip rfl (fun y u e => by cases e; exact g2)]
  exact T3_fail hx c

/-! ### texts that start no pre-release -/

/-- No pre-release label at the start. -/
def NoPre (s : List Char) : Prop :=
  ∀ (c : Caps Char) (k : List Char → Caps Char → Option (Caps Char × List Char)), preL.m s c k = none

theorem noPre_head {s : List Char} (h : NoHead preL.first s) : NoPre s :=
  fun c k => m_fail rfl h c k

theorem preL_first (x : Char) : preL.first x =
    (fold x == 'a' || (fold x == 'b' || (fold x == 'c' || (fold x == 'r' || (fold x == 'a' ||
      (fold x == 'b' || (fold x == 'p' || fold x == 'p'))))))) := by
  simp [preL, Rx.first, word, lit, Rx.nullable]

theorem preL_first_false {x : Char} (h : ∀ l ∈ letters, (fold x == l) = false) :
    preL.first x = false := by
  rw [preL_first, h 'a' (by decide), h 'b' (by decide), h 'c' (by decide), h 'r' (by decide),
    h 'p' (by decide)]; rfl

theorem noPre_po (t : List Char) : NoPre ('p' :: 'o' :: t) := by
  intro c k
  have lp : 'p' ∈ letters := by decide
  have lo : 'o' ∈ letters := by decide
  simp [preL_eq, preAlts, Rx.m, word_cons, lp, lo]

theorem noPre_r {t : List Char} (h : NoHead (fun x => fold x == 'c') t) : NoPre ('r' :: t) := by
  intro c k
  have lr : 'r' ∈ letters := by decide
  have h2 : ∀ k' : List Char → Caps Char → Option (Caps Char × List Char),
      (word ['c']).m t c k' = none := by
    intro k'
    cases t with
    | nil => rfl
    | cons x u => exact word_miss (h x u rfl) c k'
  simp [preL_eq, preAlts, Rx.m, word_cons, lr, h2]

/-- The pre part fails where no label starts, neither here nor after a separator. -/
theorem preR_fail {s : List Char} (h1 : NoPre s) (h2 : ∀ x t, s = x :: t → isSep x = true → NoPre t)
    (c : Caps Char) (k : List Char → Caps Char → Option (Caps Char × List Char)) :
    preR.m s c k = none := by
  have e1 : ∀ s', NoPre s' → ∀ c', (Rx.seq preL (.seq sepO (numO "pre_n"))).m s' c' k = none := by
    intro s' hs' c'
    rw [m_seq, hs']
  rw [preR, m_seq]
  show ((Rx.cls isSep).m s c _).or (Rx.eps.m s c (fun s' c' =>
    (Rx.seq preL (.seq sepO (numO "pre_n"))).m s' c' k)) = none
  rw [show (Rx.eps : Rx Char).m s c (fun s' c' => (Rx.seq preL (.seq sepO (numO "pre_n"))).m s' c' k)
    = none from e1 s h1 c, Option.or_none]
  cases s with
  | nil => rfl
  | cons x t =>
    rw [m_cls_cons]
    split
    · exact e1 t (h2 x t rfl ‹_›) c
    · rfl

/-! ### the text after the release -/

/-- post, dev and what follows -/
def tail3 (p : Option Post) (d : Option (Part Unit)) (rest : List Char) : List Char :=
  renderPost p ++ (renderDev d ++ rest)

theorem post_label (l : PostLabel) : (∃ t, l.text.toList = 'p' :: 'o' :: t) ∨
    (∃ t, l.text.toList = 'r' :: 'e' :: t) ∨ l = .r := by
  cases l
  · exact .inl ⟨_, rfl⟩
  · exact .inr (.inl ⟨_, rfl⟩)
  · exact .inr (.inr rfl)

theorem noC_digSepDev {sep : Option Char} {num : Option (List Char)} (hs : ∀ x ∈ sep, isSep x = true)
    (hn : ∀ d ∈ num, IsNum d) {rest : List Char}
    (hr : ∀ x t, rest = x :: t → isSep x = true ∨ x = 'd' ∨ inner x = false) :
    NoHead (fun x => fold x == 'c') (sep.toList ++ (num.getD [] ++ rest)) := by
  intro z u ez
  show (fold z == 'c') = false
  cases sep with
  | some y' =>
    simp at ez
    have h := sep_facts (hs y' rfl)
    rw [← ez.1, h.2.2.1]
    exact h.2.2.2.2.2.2 _ (by decide)
  | none =>
    cases num with
    | some n =>
      obtain ⟨hne, hall⟩ := hn n rfl
      cases n with
      | nil => exact absurd rfl hne
      | cons a n =>
        simp at ez
        rw [← ez.1]
        have := dig_facts (hall a (by simp))
        rw [this.2.2.1]; exact this.2.2.2.2.2.2.2 _ (by decide)
    | none =>
      simp at ez
      rcases hr z u ez with h | h | h
      · rw [(sep_facts h).2.2.1]; exact (sep_facts h).2.2.2.2.2.2 _ (by decide)
      · subst h; decide +kernel
      · exact inner_not_letter h (by decide)

theorem noPre_sep {x : Char} (hx : isSep x = true) (t : List Char) : NoPre (x :: t) := by
  refine noPre_head (noHead_cons ?_)
  have h := sep_facts hx
  exact preL_first_false (fun l hl => by rw [h.2.2.1]; exact h.2.2.2.2.2.2 l hl)

theorem noPre_dig {x : Char} (hx : isDig x = true) (t : List Char) : NoPre (x :: t) := by
  refine noPre_head (noHead_cons ?_)
  have h := dig_facts hx
  exact preL_first_false (fun l hl => by rw [h.2.2.1]; exact h.2.2.2.2.2.2.2 l hl)

theorem noPre_dev {d : Option (Part Unit)} (hd : ∀ p ∈ d, p.Ok) {rest : List Char} (hs : Stop rest) :
    NoPre (renderDev d ++ rest) := by
  refine noPre_head (fun x t e => ?_)
  rcases dev_head hd hs e with h | h | h
  · have h := sep_facts h
    exact preL_first_false (fun l hl => by rw [h.2.2.1]; exact h.2.2.2.2.2.2 l hl)
  · subst h; decide +kernel
  · exact preL_first_false (inner_facts h).2.2.2

/-- A post part written without its first separator. -/
def stripPost : Option Post → Option Post
  | some (.word p) => some (.word { p with sep₁ := none })
  | p => p

theorem noPre_word {p : Part PostLabel} (hp : p.Ok) (h1 : p.sep₁ = none) {d : Option (Part Unit)}
    (hd : ∀ p ∈ d, p.Ok) {rest : List Char} (hs : Stop rest) :
    NoPre (tail3 (some (.word p)) d rest) := by
  have e : tail3 (some (.word p)) d rest =
      p.label.text.toList ++ (p.sep₂.toList ++ (p.num.getD [] ++ (renderDev d ++ rest))) := by
    simp [tail3, renderPost, Post.render, Part.render, h1]
  rw [e]
  rcases post_label p.label with ⟨t, h⟩ | ⟨t, h⟩ | h
  · rw [h]; exact noPre_po _
  · rw [h]; exact noPre_r (noHead_cons (by decide +kernel))
  · rw [h]
    exact noPre_r (noC_digSepDev hp.2.1 hp.2.2 (fun x t e => dev_head hd hs e))

/-- What a separator at the start of the tail belongs to. -/
theorem tail3_sep {p : Option Post} (hp : ∀ q ∈ p, q.Ok) {d : Option (Part Unit)}
    {rest : List Char} (hs : Stop rest) {x : Char} {t : List Char}
    (e : tail3 p d rest = x :: t) (hx : isSep x = true) :
    (∃ n, p = some (.dash n) ∧ x = '-' ∧ t = n ++ (renderDev d ++ rest)) ∨
    (p = none ∧ t = tail3 none (stripDev d) rest) ∨
    (∃ q, p = some (.word q) ∧ t = tail3 (some (.word { q with sep₁ := none })) d rest) := by
  cases p with
  | none =>
    right; left
    exact ⟨rfl, dev_sep_head hs (by simpa [tail3, renderPost] using e) hx⟩
  | some p =>
    cases p with
    | dash n =>
      left
      simp [tail3, renderPost, Post.render] at e
      exact ⟨n, rfl, e.1.symm, e.2.symm⟩
    | word q =>
      right; right
      refine ⟨q, rfl, ?_⟩
      cases h1 : q.sep₁ with
      | none =>
        exfalso
        simp only [tail3, renderPost, Post.render, Part.render, h1] at e
        cases hl : q.label <;> rw [hl] at e <;> simp [PostLabel.text] at e <;> rw [← e.1] at hx <;>
          exact absurd hx (by decide +kernel)
      | some y =>
        simp [tail3, renderPost, Post.render, Part.render, h1] at e
        simp [tail3, renderPost, Post.render, Part.render, ← e.2]

theorem strip_word_ok {q : Part PostLabel} (h : q.Ok) : ({ q with sep₁ := none } : Part PostLabel).Ok :=
  ⟨by simp, h.2⟩

theorem noDig_tail3 {p : Option Post} (hp : ∀ q ∈ p, q.Ok) {d : Option (Part Unit)}
    (hd : ∀ p ∈ d, p.Ok) {rest : List Char} (hs : Stop rest) : NoHead isDig (tail3 p d rest) := by
  cases p with
  | none => exact noDig_dev hd hs
  | some p =>
    cases p with
    | dash n =>
      simp only [tail3, renderPost, Post.render, List.cons_append]
      exact noHead_cons (by decide +kernel)
    | word q =>
      cases h1 : q.sep₁ with
      | none =>
        simp only [tail3, renderPost, Post.render, Part.render, h1]
        cases q.label <;> exact noHead_cons (by decide +kernel)
      | some y =>
        simp only [tail3, renderPost, Post.render, Part.render, h1, Option.toList_some,
          List.cons_append, List.nil_append]
        exact noHead_cons (sep_facts ((hp _ rfl).1 y h1)).2.1

theorem noPre_tail3 {p : Option Post} (hp : ∀ q ∈ p, q.Ok) {d : Option (Part Unit)}
    (hd : ∀ p ∈ d, p.Ok) {rest : List Char} (hs : Stop rest) : NoPre (tail3 p d rest) := by
  cases p with
  | none => exact noPre_dev hd hs
  | some p =>
    cases p with
    | dash n =>
      simp only [tail3, renderPost, Post.render, List.cons_append]
      exact noPre_sep (by decide +kernel) _
    | word q =>
      cases h1 : q.sep₁ with
      | none => exact noPre_word (hp _ rfl) h1 hd hs
      | some y =>
        simp only [tail3, renderPost, Post.render, Part.render, h1, Option.toList_some,
          List.cons_append, List.nil_append]
        exact noPre_sep ((hp _ rfl).1 y h1) _

/-! ### pre-release -/

def renderPre (p : Option (Part PreLabel)) : List Char :=
  match p with | none => [] | some p => p.render (fun l => l.text.toList)

/-- The groups captured by the pre-release. -/
def preCaps (p : Option (Part PreLabel)) : Caps Char :=
  match p with
  | none => []
  | some p => (p.num.map (fun n => ("pre_n", n))).toList ++ [("pre_l", p.label.text.toList)]

theorem pre_label_head (l : PreLabel) : ∃ x t, l.text.toList = x :: t ∧ isSep x = false ∧
    isDig x = false ∧ fold x ≠ '!' ∧ fold x ≠ '.' := by
  cases l <;> exact ⟨_, _, rfl, by decide +kernel⟩

theorem T4_ok {pr : Option (Part PreLabel)} (hpr : ∀ q ∈ pr, q.Ok) {p : Option Post}
    (hp : ∀ q ∈ p, q.Ok) {d : Option (Part Unit)} (hd : ∀ p ∈ d, p.Ok) {rest : List Char}
    (hs : Stop rest)
    (hamb : ∀ q ∈ pr, q.sep₂ = none → q.num = none → ∀ n, p ≠ some (.dash n))
    {c : Caps Char} {y : Caps Char × List Char}
    (h1 : T1.m rest (devCaps d ++ (postCaps p ++ (preCaps pr ++ c))) k0 = some y) :
    T4.m (renderPre pr ++ tail3 p d rest) c k0 = some y := by
  have h3 : T3.m (tail3 p d rest) (preCaps pr ++ c) k0 = some y := T3_ok hp hd hs h1
  cases pr with
  | none =>
    show (Rx.opt preR).m (tail3 p d rest) c (fun s' c' => T3.m s' c' k0) = _
    rw [opt_back (preR_fail (noPre_tail3 hp hd hs) ?_ c _)]
    · exact h3
    · intro x t e hx
      rcases tail3_sep hp hs e hx with ⟨n, rfl, _, rfl⟩ | ⟨rfl, rfl⟩ | ⟨q, rfl, rfl⟩
      · have hn : IsNum n := hp _ rfl
        obtain ⟨hne, hall⟩ := hn
        cases n with
        | nil => exact absurd rfl hne
        | cons a n => exact noPre_dig (hall a (by simp)) _
      · exact noPre_tail3 (by simp) (stripDev_ok hd) hs
      · exact noPre_word (strip_word_ok (hp _ rfl)) rfl hd hs
  | some q =>
    obtain ⟨q1, q2, q3⟩ := hpr q rfl
    refine opt_take ?_
    have e : renderPre (some q) ++ tail3 p d rest = q.sep₁.toList ++
        (q.label.text.toList ++ (q.sep₂.toList ++ (q.num.getD [] ++ tail3 p d rest))) := by
      simp [renderPre, Part.render]
    rw [e, preR, m_seq]
    refine m_sepO q1 ?_ ?_
    · obtain ⟨x, t, hxt, hx, _⟩ := pre_label_head q.label
      rw [hxt]; exact noHead_cons hx
    · rw [preL_eq]
      refine m_labelled BadPre (fun s k _ hk hb => m_preAlts q.label c k hk hb)
        (fun t c' hb => pre_bad t c' hb) q2 q3 (noDig_tail3 hp hd hs) ?_ ?_
      · simpa [preCaps] using h3
      · intro z1 z2 x t ex hx
        rcases tail3_sep hp hs ex hx with ⟨n, rfl, _, rfl⟩ | ⟨rfl, rfl⟩ | ⟨w, rfl, rfl⟩
        · exact absurd rfl (hamb q rfl z1 z2 n)
        · refine ⟨noDig_tail3 (by simp) (stripDev_ok hd) hs, ?_⟩
          refine T3_ok (by simp) (stripDev_ok hd) hs ?_
          rw [stripDev_caps]
          simpa [preCaps, z2] using h1
        · have hw : ∀ q' ∈ some (Post.word { w with sep₁ := none }), q'.Ok := by
            intro q' hq'; cases hq'; exact strip_word_ok (hp _ rfl)
          refine ⟨noDig_tail3 hw hd hs, ?_⟩
          refine T3_ok hw hd hs ?_
          simpa [preCaps, postCaps, z2] using h1

/-! ### release and epoch -/

/-- pre, post, dev and what follows -/
def tail4 (pr : Option (Part PreLabel)) (p : Option Post) (d : Option (Part Unit))
    (rest : List Char) : List Char := renderPre pr ++ tail3 p d rest

theorem noDig_tail4 {pr : Option (Part PreLabel)} (hpr : ∀ q ∈ pr, q.Ok) {p : Option Post}
    (hp : ∀ q ∈ p, q.Ok) {d : Option (Part Unit)} (hd : ∀ p ∈ d, p.Ok) {rest : List Char}
    (hs : Stop rest) : NoHead isDig (tail4 pr p d rest) := by
  cases pr with
  | none => exact noDig_tail3 hp hd hs
  | some q =>
    cases h1 : q.sep₁ with
    | none =>
      obtain ⟨x, t, hxt, _, hx, _⟩ := pre_label_head q.label
      simp only [tail4, renderPre, Part.render, h1, hxt]
      exact noHead_cons hx
    | some y =>
      simp only [tail4, renderPre, Part.render, h1, Option.toList_some, List.cons_append,
        List.nil_append]
      exact noHead_cons (sep_facts ((hpr _ rfl).1 y h1)).2.1

/-- The tail does not go on like a release segment. -/
theorem noDot_tail4 {pr : Option (Part PreLabel)} (hpr : ∀ q ∈ pr, q.Ok) {p : Option Post}
    (hp : ∀ q ∈ p, q.Ok) {d : Option (Part Unit)} (hd : ∀ p ∈ d, p.Ok) {rest : List Char}
    (hs : Stop rest) {t : List Char} (e : tail4 pr p d rest = '.' :: t) : NoHead isDig t := by
  cases pr with
  | none =>
    rcases tail3_sep hp hs e (by decide +kernel) with ⟨n, rfl, h, rfl⟩ | ⟨rfl, rfl⟩ | ⟨q, rfl, rfl⟩
    · exact absurd h (by decide)
    · exact noDig_tail3 (by simp) (stripDev_ok hd) hs
    · exact noDig_tail3 (by intro q' hq'; cases hq'; exact strip_word_ok (hp _ rfl)) hd hs
  | some q =>
    obtain ⟨x, u, hxu, hx, hx2, _, hx3⟩ := pre_label_head q.label
    cases h1 : q.sep₁ with
    | none =>
      simp [tail4, renderPre, Part.render, h1, hxu] at e
      rw [e.1] at hx; exact absurd hx (by decide +kernel)
    | some y =>
      simp [tail4, renderPre, Part.render, h1, hxu] at e
      rw [← e.2]; exact noHead_cons hx2

theorem noBang_tail4 {pr : Option (Part PreLabel)} (hpr : ∀ q ∈ pr, q.Ok) {p : Option Post}
    (hp : ∀ q ∈ p, q.Ok) {d : Option (Part Unit)} (hd : ∀ p ∈ d, p.Ok) {rest : List Char}
    (hs : Stop rest) : NoHead (fun x => fold x == '!') (tail4 pr p d rest) := by
  have sepB : ∀ x, isSep x = true → (fold x == '!') = false := by
    intro x hx; have := sep_facts hx; rw [this.2.2.1]; simpa using this.2.2.2.2.2.1
  have stopB : ∀ x t, rest = x :: t → (fold x == '!') = false := by
    intro x t e
    rcases hs x t e with h | h
    · subst h; decide +kernel
    · have := ws_facts h; rw [this.2.2.1]; simpa using this.2.2.2.2.2.1
  have devB : NoHead (fun x => fold x == '!') (renderDev d ++ rest) := by
    cases d with
    | none => exact stopB
    | some q =>
      cases h1 : q.sep₁ with
      | none =>
        simp only [renderDev, Part.render, h1]
        exact noHead_cons (by decide +kernel)
      | some y =>
        simp only [renderDev, Part.render, h1, Option.toList_some, List.cons_append, List.nil_append]
        exact noHead_cons (sepB y ((hd _ rfl).1 y h1))
  have postB : NoHead (fun x => fold x == '!') (tail3 p d rest) := by
    cases p with
    | none => exact devB
    | some p =>
      cases p with
      | dash n =>
        simp only [tail3, renderPost, Post.render, List.cons_append]
        exact noHead_cons (by decide +kernel)
      | word q =>
        cases h1 : q.sep₁ with
        | none =>
          simp only [tail3, renderPost, Post.render, Part.render, h1]
          cases q.label <;> exact noHead_cons (by decide +kernel)
        | some y =>
          simp only [tail3, renderPost, Post.render, Part.render, h1, Option.toList_some,
            List.cons_append, List.nil_append]
          exact noHead_cons (sepB y ((hp _ rfl).1 y h1))
  cases pr with
  | none => exact postB
  | some q =>
    cases h1 : q.sep₁ with
    | none =>
      obtain ⟨x, t, hxt, _, _, hx, _⟩ := pre_label_head q.label
      simp only [tail4, renderPre, Part.render, h1, hxt]
      exact noHead_cons (by simpa using hx)
    | some y =>
      simp only [tail4, renderPre, Part.render, h1, Option.toList_some, List.cons_append,
        List.nil_append]
      exact noHead_cons (sepB y ((hpr _ rfl).1 y h1))

/-- The text of the release. -/
def renderRel (r : List Char) (rs : List (List Char)) : List Char :=
  r ++ (rs.map (fun r => '.' :: r)).flatten

theorem T5_ok {r : List Char} {rs : List (List Char)} (hr : IsNum r) (hrs : ∀ x ∈ rs, IsNum x)
    {rest : List Char} (hd : NoHead isDig rest) (hdot : ∀ t, rest = '.' :: t → NoHead isDig t)
    {c : Caps Char} {y : Caps Char × List Char}
    (h : T4.m rest (("release", renderRel r rs) :: c) k0 = some y) :
    T5.m (renderRel r rs ++ rest) c k0 = some y := by
  rw [T5, m_seq, releaseR, m_grp (c' := c)]
  · exact h
  · intro k' hk'
    have hend : ∀ k'' : List Char → Caps Char → Option (Caps Char × List Char),
        (Rx.seq (lit '.') digits).m rest c k'' = none := by
      intro k''
      rw [m_seq]
      cases rest with
      | nil => rfl
      | cons x t =>
        by_cases hx : fold x = '.'
        · rw [m_lit hx]
          have hx' : x = '.' := by
            have : ∀ p ∈ foldTable, p.2 ≠ '.' := by decide +kernel
            unfold fold at hx
            cases hl : foldTable.lookup x with
            | none => simpa [hl] using hx
            | some d =>
              rw [hl] at hx
              obtain ⟨l1, l2, h12, _⟩ := List.lookup_eq_some_iff.1 hl
              exact absurd hx (this (x, d) (by rw [h12]; simp))
          subst hx'
          exact m_fail rfl (fun z u e => by
            simpa [Rx.first, digits, Rx.plus, Rx.nullable] using hdot t rfl z u e) c _
        · rw [m_lit_ne (by simpa using hx)]
    have hstar : (Rx.star (.seq (lit '.') digits)).m
        ((rs.map (fun r => '.' :: r)).flatten ++ rest) c k' = k' rest c := by
      refine m_star_chunks hend hk' _ ?_
      intro u w v huwv
      have hw : w ∈ rs.map (fun r => '.' :: r) := by rw [huwv]; simp
      obtain ⟨q, hq, rfl⟩ := List.mem_map.1 hw
      refine ⟨by simp, fun k'' hk'' => ?_⟩
      rw [m_seq, List.cons_append, m_lit (by decide +kernel)]
      refine m_digits (hrs q hq) ?_ hk''
      cases v with
      | nil => exact hd
      | cons w' v =>
        have hw' : w' ∈ rs.map (fun r => '.' :: r) := by rw [huwv]; simp
        obtain ⟨q', hq', rfl⟩ := List.mem_map.1 hw'
        simp only [List.flatten_cons, List.cons_append]
        exact noHead_cons (by decide +kernel)
    rw [m_seq, renderRel, List.append_assoc, m_digits hr ?_ (by rw [hstar]; exact hk'), hstar]
    cases rs with
    | nil => exact hd
    | cons q rs =>
      simp only [List.map_cons, List.flatten_cons, List.cons_append]
      exact noHead_cons (by decide +kernel)
  · rw [h]; rfl

/-- The text of an optional epoch. -/
def renderEpoch (e : Option (List Char)) : List Char :=
  match e with | none => [] | some e => e ++ ['!']

theorem T6_ok {ep : Option (List Char)} (hep : ∀ e ∈ ep, IsNum e) {r : List Char}
    {rs : List (List Char)} (hr : IsNum r) {rest : List Char} (hd : NoHead isDig rest)
    (hb : NoHead (fun x => fold x == '!') rest)
    {c : Caps Char} {y : Caps Char × List Char}
    (h : T5.m (renderRel r rs ++ rest) ((ep.map (fun e => ("epoch", e))).toList ++ c) k0 = some y) :
    T6.m (renderEpoch ep ++ (renderRel r rs ++ rest)) c k0 = some y := by
  cases ep with
  | none =>
    have hfail : ∀ k' : List Char → Caps Char → Option (Caps Char × List Char),
        epochR.m (renderRel r rs ++ rest) c k' = none := by
      intro k'
      rw [epochR, m_seq, renderRel, List.append_assoc]
      simp only [Rx.m]
      have hrest : NoHead isDig ((rs.map (fun r => '.' :: r)).flatten ++ rest) ∧
          NoHead (fun x => fold x == '!') ((rs.map (fun r => '.' :: r)).flatten ++ rest) := by
        cases rs with
        | nil => exact ⟨hd, hb⟩
        | cons q rs =>
          simp only [List.map_cons, List.flatten_cons, List.cons_append]
          exact ⟨noHead_cons (by decide +kernel), noHead_cons (by decide +kernel)⟩
      refine m_plus_cls_none hr.2 hrest.1 ?_
      intro u v huv
      refine m_fail rfl (fun x t e => ?_) _ _
      show (fold x == '!') = false
      cases v with
      | nil => exact hrest.2 x t e
      | cons z v =>
        simp at e
        have hz := dig_facts (hr.2 z (by rw [huv]; simp))
        rw [← e.1, hz.2.2.1]; simpa using hz.2.2.2.2.1
    show (Rx.opt epochR).m (renderRel r rs ++ rest) c (fun s' c' => T5.m s' c' k0) = _
    rw [opt_back (hfail _)]; exact h
  | some e =>
    refine opt_take ?_
    have e' : renderEpoch (some e) ++ (renderRel r rs ++ rest) = e ++ ('!' :: (renderRel r rs ++ rest)) := by
      simp [renderEpoch]
    have hbang : (lit '!').m ('!' :: (renderRel r rs ++ rest)) (("epoch", e) :: c)
        (fun s' c' => T5.m s' c' k0) = some y := by
      rw [m_lit (by decide +kernel)]; simpa using h
    rw [e', epochR, m_seq, m_grp (c' := c)
      (fun k' hk' => m_digits (hep e rfl) (noHead_cons (by decide +kernel)) hk')]
    · exact hbang
    · rw [hbang]; rfl

/-- The groups of a written version, last first. -/
def Written.caps (w : Written) : Caps Char :=
  locCaps w.loc ++ (devCaps w.dev ++ (postCaps w.post ++ (preCaps w.pre ++
    (("release", renderRel w.rel w.rels) :: (w.epoch.map (fun e => ("epoch", e))).toList))))

theorem match_render {w : Written} (h : w.Ok) :
    versionR.matchStart w.render = some (w.caps, []) := by
  have hstop : Stop (renderLocO w.loc ++ w.ws₂) := tail1_stop h.ws₂
  have h1 := T1_ok h.loc h.ws₂ (devCaps w.dev ++ (postCaps w.post ++ (preCaps w.pre ++
    (("release", renderRel w.rel w.rels) :: (w.epoch.map (fun e => ("epoch", e))).toList))))
  have h4 := T4_ok h.pre h.post h.dev hstop h.unambiguous h1
  have hnd := noDig_tail4 h.pre h.post h.dev hstop
  have h5 := T5_ok h.rel h.rels hnd (fun t e => noDot_tail4 h.pre h.post h.dev hstop e) h4
  have h6 := T6_ok (c := []) h.epoch h.rel hnd (noBang_tail4 h.pre h.post h.dev hstop)
    (by simpa using h5)
  have hdighead : ∃ x t, renderEpoch w.epoch ++ (renderRel w.rel w.rels ++
      tail4 w.pre w.post w.dev (renderLocO w.loc ++ w.ws₂)) = x :: t ∧ isDig x = true := by
    cases he : w.epoch with
    | none =>
      obtain ⟨hne, hall⟩ := h.rel
      cases hr : w.rel with
      | nil => exact absurd hr hne
      | cons a r => exact ⟨a, _, rfl, hall a (by rw [hr]; simp)⟩
    | some e =>
      obtain ⟨hne, hall⟩ := h.epoch e he
      cases hr : e with
      | nil => exact absurd hr hne
      | cons a r => exact ⟨a, _, rfl, hall a (by rw [hr]; simp)⟩
  obtain ⟨x, t, hxt, hx⟩ := hdighead
  have hx' := dig_facts hx
  have h7 : T7.m (w.v.toList ++ (renderEpoch w.epoch ++ (renderRel w.rel w.rels ++
      tail4 w.pre w.post w.dev (renderLocO w.loc ++ w.ws₂)))) [] k0 = some (w.caps, []) := by
    cases hv : w.v with
    | none =>
      show (Rx.opt (lit 'v')).m (renderEpoch w.epoch ++ (renderRel w.rel w.rels ++
        tail4 w.pre w.post w.dev (renderLocO w.loc ++ w.ws₂))) [] (fun s' c' => T6.m s' c' k0) = _
      rw [opt_skip rfl]
      · exact h6
      · intro z u e
        rw [hxt] at e
        cases e
        show (fold x == 'v') = false
        rw [hx'.2.2.1]; exact hx'.2.2.2.2.2.2.2 _ (by decide)
    | some z =>
      refine opt_take ?_
      show (lit 'v').m (z :: _) [] _ = _
      rw [m_lit]
      · exact h6
      · rcases h.v z hv with h | h <;> subst h <;> decide +kernel
  have hrender : w.render = w.ws₁ ++ (w.v.toList ++ (renderEpoch w.epoch ++ (renderRel w.rel w.rels ++
      tail4 w.pre w.post w.dev (renderLocO w.loc ++ w.ws₂)))) := by
    simp only [Written.render, renderEpoch, renderRel, tail4, tail3, renderPre, renderPost, renderDev,
      renderLocO, List.append_assoc]
    cases w.loc <;> cases w.dev <;> cases w.post <;> cases w.pre <;> cases w.epoch <;> rfl
  rw [Rx.matchStart, hrender, versionR, m_seq, m_star_cls]
  · exact h7
  · intro z u e
    cases hv : w.v with
    | none =>
      rw [hv] at e
      simp only [Option.toList_none, List.nil_append] at e
      rw [hxt] at e; cases e; exact hx'.1
    | some y =>
      rw [hv] at e
      simp at e
      rw [← e.1]
      rcases h.v y hv with h | h <;> subst h <;> decide +kernel
  · rw [show (fun s' c' => some (c', s')) = k0 from rfl, h7]; rfl
  · exact h.ws₁

end Big.Version
