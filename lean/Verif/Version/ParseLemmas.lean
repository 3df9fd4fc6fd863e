import Verif.Version.Spec
import Verif.Regex.First
/- The version pattern matches every written version, with the expected groups. -/
namespace Big.Version
open Big.Rx

/-- The continuation at the end of the pattern. -/
abbrev k0 : List Char → Caps Char → Option (Caps Char × List Char) := fun s c => some (c, s)

/-- The text does not start with a character satisfying `p`. -/
def NoHead (p : Char → Bool) (s : List Char) : Prop := ∀ x t, s = x :: t → p x = false

theorem noHead_nil (p : Char → Bool) : NoHead p [] := by intro x t h; simp at h
theorem noHead_cons {p : Char → Bool} {x : Char} {s : List Char} (h : p x = false) :
    NoHead p (x :: s) := by intro y t e; cases e; exact h
theorem NoHead.mono {p q : Char → Bool} {s : List Char} (h : NoHead p s)
    (hpq : ∀ x, p x = false → q x = false) : NoHead q s := fun x t e => hpq x (h x t e)

/-! ### facts about characters -/

theorem ws_facts {x : Char} (h : isWs x = true) : isDig x = false ∧ isSep x = false ∧ fold x = x ∧
    isLocalChar x = false ∧ x ≠ '+' ∧ x ≠ '!' ∧ x ≠ '-' ∧ x ≠ '.' ∧ (∀ l ∈ letters, (x == l) = false) := by
  have key : ∀ x ∈ wsList, isDig x = false ∧ isSep x = false ∧ fold x = x ∧
    isLocalChar x = false ∧ x ≠ '+' ∧ x ≠ '!' ∧ x ≠ '-' ∧ x ≠ '.' ∧ (∀ l ∈ letters, (x == l) = false) := by
    decide +kernel
  exact key x (by simpa [isWs] using h)

theorem dig_facts {x : Char} (h : isDig x = true) : isWs x = false ∧ isSep x = false ∧ fold x = x ∧
    x ≠ '+' ∧ x ≠ '!' ∧ x ≠ '-' ∧ x ≠ '.' ∧ (∀ l ∈ letters, (x == l) = false) := by
  have key : ∀ x ∈ digitList, isWs x = false ∧ isSep x = false ∧ fold x = x ∧
    x ≠ '+' ∧ x ≠ '!' ∧ x ≠ '-' ∧ x ≠ '.' ∧ (∀ l ∈ letters, (x == l) = false) := by
    decide +kernel
  exact key x (by simpa [isDig] using h)

theorem sep_facts {x : Char} (h : isSep x = true) : isWs x = false ∧ isDig x = false ∧ fold x = x ∧
    isLocalChar x = false ∧ x ≠ '+' ∧ x ≠ '!' ∧ (∀ l ∈ letters, (x == l) = false) := by
  have key : ∀ x ∈ ['-', '_', '.'], isWs x = false ∧ isDig x = false ∧ fold x = x ∧
    isLocalChar x = false ∧ x ≠ '+' ∧ x ≠ '!' ∧ (∀ l ∈ letters, (x == l) = false) := by
    decide +kernel
  exact key x (by simpa [isSep, or_assoc] using h)

/-- What can follow the release, pre, post and dev parts when no further such part follows. -/
def Stop (s : List Char) : Prop := ∀ x t, s = x :: t → x = '+' ∨ isWs x = true

/-- Does the character belong to none of the classes that can start a pre, post or dev part or
continue a number? -/
def inner (x : Char) : Bool := isDig x || isSep x || letters.elem (fold x) || x == '!'

theorem stop_inner {s : List Char} (h : Stop s) : NoHead inner s := by
  intro x t e
  rcases h x t e with h | h
  · subst h; decide +kernel
  · obtain ⟨h1, h2, h3, h4, h5, h6, h7, h8, h9⟩ := ws_facts h
    simp only [inner, h1, h2, h3, Bool.or_eq_false_iff, Bool.false_or]
    refine ⟨?_, by simpa using h6⟩
    simpa using fun hm => by simpa using h9 x hm

theorem inner_facts {x : Char} (h : inner x = false) : isDig x = false ∧ isSep x = false ∧
    (x == '!') = false ∧ (∀ l ∈ letters, (fold x == l) = false) := by
  simp only [inner, Bool.or_eq_false_iff] at h
  obtain ⟨⟨⟨h1, h2⟩, h3⟩, h4⟩ := h
  refine ⟨h1, h2, h4, fun l hl => ?_⟩
  cases e : fold x == l
  · rfl
  · simp only [beq_iff_eq] at e
    rw [e] at h3
    simp [hl] at h3

/-! ### pieces -/

variable {R : Type}

theorem m_lit {l x : Char} (h : fold x = l) (s : List Char) (c : Caps Char)
    (k : List Char → Caps Char → Option R) : (lit l).m (x :: s) c k = k s c := by
  simp [lit, Rx.m, h]

theorem m_lit_ne {l x : Char} (h : (fold x == l) = false) (s : List Char) (c : Caps Char)
    (k : List Char → Caps Char → Option R) : (lit l).m (x :: s) c k = none := by
  simp only [lit, Rx.m, h]; rfl

/-- A word of lower-case letters matches itself. -/
theorem m_word {w : List Char} (hw : ∀ l ∈ w, fold l = l) (s : List Char) (c : Caps Char)
    (k : List Char → Caps Char → Option R) : (word w).m (w ++ s) c k = k s c := by
  induction w with
  | nil => rfl
  | cons l w ih =>
    rw [word, m_seq, List.cons_append, m_lit (hw l (by simp))]
    exact ih (fun x hx => hw x (by simp [hx]))

theorem m_digits {w rest : List Char} {c : Caps Char} {k : List Char → Caps Char → Option R}
    (hw : IsNum w) (hr : NoHead isDig rest) (hk : (k rest c).isSome) :
    digits.m (w ++ rest) c k = k rest c := m_plus_cls hw.1 hw.2 hr hk

/-- An optional separator that is there. -/
theorem m_sepO_take {x : Char} {s : List Char} {c : Caps Char} {k : List Char → Caps Char → Option R}
    {y : R} (hx : isSep x = true) (h : k s c = some y) : sepO.m (x :: s) c k = some y :=
  opt_take (by rw [m_cls_cons, hx]; exact h)

theorem m_sepO_skip {s : List Char} (hs : NoHead isSep s) (c : Caps Char)
    (k : List Char → Caps Char → Option R) : sepO.m s c k = k s c :=
  opt_skip (r := .cls isSep) rfl (fun x t e => hs x t e) c k

theorem m_sepO {o : Option Char} (ho : ∀ c ∈ o, isSep c = true) {s : List Char} (hs : NoHead isSep s)
    {c : Caps Char} {k : List Char → Caps Char → Option R} {y : R} (h : k s c = some y) :
    sepO.m (o.toList ++ s) c k = some y := by
  cases o with
  | none => rw [Option.toList_none, List.nil_append, m_sepO_skip hs]; exact h
  | some x => exact m_sepO_take (ho x rfl) h

/-- An optional number, then something that is no digit. -/
theorem m_numO {g : String} {n : Option (List Char)} (hn : ∀ d ∈ n, IsNum d) {rest : List Char}
    (hr : NoHead isDig rest) {c : Caps Char} {k : List Char → Caps Char → Option R} {y : R}
    (h : k rest ((n.map (fun d => (g, d))).toList ++ c) = some y) :
    (numO g).m (n.getD [] ++ rest) c k = some y := by
  cases n with
  | none =>
    have : (numO g).m rest c k = k rest c :=
      opt_skip rfl (fun x t e => by simpa [Rx.first, digits, Rx.plus, Rx.nullable] using hr x t e) c k
    simpa [this] using h
  | some d =>
    refine opt_take ?_
    show (Rx.grp g digits).m (d ++ rest) c k = some y
    rw [m_grp (c' := c) (fun k' hk' => m_digits (hn d rfl) hr hk')]
    · simpa using h
    · simpa using congrArg Option.isSome h

theorem T0_ok {ws : List Char} (h : ∀ c ∈ ws, isWs c = true) (c : Caps Char) :
    T0.m ws c k0 = some (c, []) := by
  have := m_star_cls (p := isWs) (rest := []) (c := c) (k := fun s' c' => eol.m s' c' k0)
    (by simp) (by simp [eol, Rx.m, k0]) ws h
  rw [List.append_nil] at this
  rw [T0, m_seq, this]
  simp [eol, Rx.m, k0]

/-! ### the local label -/

def renderLocO (l : Option (List Char × List (Char × List Char))) : List Char :=
  match l with | none => [] | some l => renderLocal l

/-- Its group. -/
def locCaps (l : Option (List Char × List (Char × List Char))) : Caps Char :=
  (l.map (fun l => ("local", l.1 ++ (l.2.map (fun p => p.1 :: p.2)).flatten))).toList

theorem T1_ok {l : Option (List Char × List (Char × List Char))} {ws : List Char}
    (hl : ∀ p ∈ l, IsSeg p.1 ∧ ∀ q ∈ p.2, isSep q.1 = true ∧ IsSeg q.2)
    (h : ∀ c ∈ ws, isWs c = true) (c : Caps Char) :
    T1.m (renderLocO l ++ ws) c k0 = some (locCaps l ++ c, []) := by
  have hws : ∀ (p : Char → Bool), (∀ x, isWs x = true → p x = false) → NoHead p ws := by
    intro p hp x t e; exact hp x (h x (by simp [e]))
  cases l with
  | none =>
    have : (Rx.opt localR).m ws c (fun s' c' => T0.m s' c' k0) = T0.m ws c k0 := by
      refine opt_skip rfl ?_ c _
      intro x t e
      have hx := h x (by simp [e])
      obtain ⟨h1, h2, h3, h4, h5, _⟩ := ws_facts hx
      simp [localR, Rx.first, lit, Rx.nullable, h3, h5]
    show (Rx.opt localR).m ([] ++ ws) c (fun s' c' => T0.m s' c' k0) = _
    rw [List.nil_append, this, T0_ok h]; rfl
  | some l =>
    obtain ⟨h1, h2⟩ := hl l rfl
    have hT0 := T0_ok h (locCaps (some l) ++ c)
    have e : renderLocO (some l) ++ ws =
        '+' :: ((l.1 ++ (l.2.map (fun p => p.1 :: p.2)).flatten) ++ ws) := by
      simp [renderLocO, renderLocal]
    refine opt_take ?_
    rw [e, localR, m_seq, m_lit (by decide +kernel), m_grp (c' := c)]
    · exact hT0
    · intro k' hk'
      rw [m_seq, List.append_assoc]
      have hstar : (Rx.star (.seq (.cls isSep) (.plus (.cls isLocalChar)))).m
          ((l.2.map (fun p => p.1 :: p.2)).flatten ++ ws) c k' = k' ws c := by
        refine m_star_chunks ?_ hk' _ ?_
        · intro k''
          exact m_fail rfl (fun x t e => by
            have hx := h x (by simp [e])
            simp [Rx.first, Rx.nullable, (ws_facts hx).2.1]) c k''
        · intro u w v huwv
          have hw : w ∈ l.2.map (fun p => p.1 :: p.2) := by rw [huwv]; simp
          obtain ⟨q, hq, rfl⟩ := List.mem_map.1 hw
          obtain ⟨hq1, hq2⟩ := h2 q hq
          refine ⟨by simp, fun k'' hk'' => ?_⟩
          rw [m_seq, List.cons_append, m_cls_cons, if_pos hq1]
          refine m_plus_cls hq2.1 hq2.2 ?_ hk''
          cases v with
          | nil => exact hws _ (fun x hx => (ws_facts hx).2.2.2.1)
          | cons w' v =>
            have hw' : w' ∈ l.2.map (fun p => p.1 :: p.2) := by rw [huwv]; simp
            obtain ⟨q', hq', rfl⟩ := List.mem_map.1 hw'
            simp only [List.flatten_cons, List.cons_append]
            exact noHead_cons (sep_facts (h2 q' hq').1).2.2.2.1
      rw [m_plus_cls h1.1 h1.2 ?_ (by rw [hstar]; exact hk'), hstar]
      cases hl2 : l.2 with
      | nil => exact hws _ (fun x hx => (ws_facts hx).2.2.2.1)
      | cons q' l2 =>
        simp only [List.map_cons, List.flatten_cons, List.cons_append]
        exact noHead_cons (sep_facts (h2 q' (by simp [hl2])).1).2.2.2.1
    · rw [show ("local", l.1 ++ (l.2.map (fun p => p.1 :: p.2)).flatten) :: c = locCaps (some l) ++ c
        from rfl, hT0]; rfl

theorem tail1_stop {l : Option (List Char × List (Char × List Char))} {ws : List Char}
    (h : ∀ c ∈ ws, isWs c = true) : Stop (renderLocO l ++ ws) := by
  intro x t e
  cases l with
  | none => exact .inr (h x (by simp [renderLocO] at e; simp [e]))
  | some l => simp [renderLocO, renderLocal] at e; exact .inl e.1.symm

/-! ### post and dev -/

def renderDev (d : Option (Part Unit)) : List Char :=
  match d with | none => [] | some p => p.render (fun _ => "dev".toList)

/-- The groups captured by the dev release. -/
def devCaps (d : Option (Part Unit)) : Caps Char :=
  match d with
  | none => []
  | some p => (p.num.map (fun n => ("dev_n", n))).toList ++ [("dev_l", "dev".toList)]

theorem sep_cases {x : Char} (h : isSep x = true) : x = '-' ∨ x = '_' ∨ x = '.' := by
  simpa [isSep, or_assoc] using h

/-- A label in a group, an optional separator and an optional number, before a text that takes over. -/
theorem m_labelled {g gn : String} {L : Rx Char} {w : List Char} {sep : Option Char}
    {num : Option (List Char)} {rest : List Char} {c : Caps Char}
    {k : List Char → Caps Char → Option R} {y : R} (Bad : List Char → Prop)
    (hL : ∀ (s : List Char) (k : List Char → Caps Char → Option R),
      s = sep.toList ++ (num.getD [] ++ rest) → (k s c).isSome → (∀ t, Bad t → k t c = none) →
      L.m (w ++ s) c k = k s c)
    (hbad : ∀ t c', Bad t → (Rx.seq sepO (numO gn)).m t c' k = none)
    (hsep : ∀ x ∈ sep, isSep x = true) (hnum : ∀ d ∈ num, IsNum d) (hrest : NoHead isDig rest)
    (h1 : k rest ((num.map (fun d => (gn, d))).toList ++ (g, w) :: c) = some y)
    (h2 : sep = none → num = none → ∀ x t, rest = x :: t → isSep x = true →
      NoHead isDig t ∧ k t ((g, w) :: c) = some y) :
    (Rx.seq (.grp g L) (.seq sepO (numO gn))).m (w ++ (sep.toList ++ (num.getD [] ++ rest))) c k =
      some y := by
  have hsn : ∀ c', c' = (g, w) :: c → (Rx.seq sepO (numO gn)).m (sep.toList ++ (num.getD [] ++ rest)) c' k = some y := by
    rintro c' rfl
    rw [m_seq]
    cases num with
    | some d =>
      have hd := hnum d rfl
      refine m_sepO hsep ?_ (m_numO hnum hrest h1)
      obtain ⟨hne, hall⟩ := hd
      cases d with
      | nil => exact absurd rfl hne
      | cons x d => exact noHead_cons (dig_facts (hall x (by simp))).2.1
    | none =>
      cases sep with
      | some x => exact m_sepO_take (hsep x rfl) (m_numO hnum hrest h1)
      | none =>
        have hskip : (numO gn).m rest ((g, w) :: c) k = some y := m_numO (n := none) (by simp) hrest h1
        show sepO.m rest ((g, w) :: c) _ = _
        cases rest with
        | nil => rw [m_sepO_skip (noHead_nil _)]; exact hskip
        | cons x t =>
          cases hx : isSep x with
          | false => rw [m_sepO_skip (noHead_cons hx)]; exact hskip
          | true =>
            obtain ⟨g1, g2⟩ := h2 rfl rfl x t rfl hx
            exact m_sepO_take hx (m_numO (n := none) (by simp) g1 (by simpa using g2))
  rw [m_seq]
  simp only [Rx.m]
  have e : ∀ s : List Char, (w ++ s).take ((w ++ s).length - s.length) = w := by simp
  rw [hL _ _ rfl]
  · rw [e]; exact hsn _ rfl
  · rw [e]
    have := hsn _ rfl
    rw [m_seq] at this
    rw [this]; rfl
  · intro t ht; exact hbad t _ ht

theorem dev_word_fold : ∀ l ∈ (['d','e','v'] : List Char), fold l = l := by decide +kernel

theorem T2_ok {d : Option (Part Unit)} (hd : ∀ p ∈ d, p.Ok) {rest : List Char} (hs : Stop rest)
    {c : Caps Char} {y : Caps Char × List Char} (h1 : T1.m rest (devCaps d ++ c) k0 = some y) :
    T2.m (renderDev d ++ rest) c k0 = some y := by
  have hin := stop_inner hs
  cases d with
  | none =>
    have : (Rx.opt devR).m rest c (fun s' c' => T1.m s' c' k0) = T1.m rest c k0 := by
      refine opt_skip rfl ?_ c _
      intro x t e
      obtain ⟨_, i2, _, i4⟩ := inner_facts (hin x t e)
      simp [devR, sepO, Rx.opt, Rx.first, lit, Rx.nullable, word, i2]
      simpa using i4 'd' (by decide)
    show (Rx.opt devR).m ([] ++ rest) c (fun s' c' => T1.m s' c' k0) = _
    rw [List.nil_append, this]; exact h1
  | some p =>
    obtain ⟨p1, p2, p3⟩ := hd p rfl
    refine opt_take ?_
    have e : renderDev (some p) ++ rest =
        p.sep₁.toList ++ (['d','e','v'] ++ (p.sep₂.toList ++ (p.num.getD [] ++ rest))) := by
      simp [renderDev, Part.render]
    rw [e, devR, m_seq]
    refine m_sepO p1 (noHead_cons (by decide +kernel)) ?_
    refine m_labelled (fun _ => False) (fun s k _ _ _ => m_word dev_word_fold s c k) (by simp) p2 p3
      (hin.mono (fun x h => (inner_facts h).1)) ?_ ?_
    · simpa [devCaps] using h1
    · intro _ _ x t hx hsx
      have := (inner_facts (hin x t hx)).2.1
      rw [hsx] at this; simp at this

/-- The text of the post and dev parts and what follows starts with a letter or a separator or
stops. -/
theorem dev_head {d : Option (Part Unit)} (hd : ∀ p ∈ d, p.Ok) {rest : List Char} (hs : Stop rest)
    {x : Char} {t : List Char} (e : renderDev d ++ rest = x :: t) :
    isSep x = true ∨ x = 'd' ∨ inner x = false := by
  cases d with
  | none => exact .inr (.inr (stop_inner hs x t (by simpa [renderDev] using e)))
  | some p =>
    cases hp : p.sep₁ with
    | none => simp [renderDev, Part.render, hp] at e; exact .inr (.inl e.1.symm)
    | some y =>
      simp [renderDev, Part.render, hp] at e
      rw [← e.1]; exact .inl ((hd p rfl).1 y hp)

/-- The text of an optional post release. -/
def renderPost (p : Option Post) : List Char :=
  match p with | none => [] | some p => p.render

/-- The groups captured by the post release. -/
def postCaps (p : Option Post) : Caps Char :=
  match p with
  | none => []
  | some (.dash n) => [("post_n1", n)]
  | some (.word p) => (p.num.map (fun n => ("post_n2", n))).toList ++ [("post_l", p.label.text.toList)]


theorem post_word_fold (l : PostLabel) : ∀ x ∈ l.text.toList, fold x = x := by
  cases l <;> decide +kernel

theorem word_miss {l x : Char} {w s : List Char} (h : (fold x == l) = false) (c : Caps Char)
    (k : List Char → Caps Char → Option R) : (word (l :: w)).m (x :: s) c k = none := by
  rw [word, m_seq, m_lit_ne h]

theorem m_postL (l : PostLabel) {s : List Char} (hs : NoHead (fun x => fold x == 'e') s)
    (c : Caps Char) (k : List Char → Caps Char → Option R) (hk : (k s c).isSome) :
    (Rx.alt (word ['p','o','s','t']) (.alt (word ['r','e','v']) (word ['r']))).m
      (l.text.toList ++ s) c k = k s c := by
  obtain ⟨y, hy⟩ := Option.isSome_iff_exists.1 hk
  cases l with
  | post =>
    rw [m_alt, show PostLabel.post.text.toList = ['p','o','s','t'] from rfl,
      m_word (w := ['p','o','s','t']) (by decide +kernel), hy]; rfl
  | rev =>
    rw [m_alt, m_alt, show PostLabel.rev.text.toList = ['r','e','v'] from rfl,
      m_word (w := ['r','e','v']) (by decide +kernel), hy, List.cons_append, word_miss (by decide +kernel)]; rfl
  | r =>
    rw [m_alt, m_alt, show PostLabel.r.text.toList = ['r'] from rfl,
      m_word (w := ['r']) (by decide +kernel), hy, List.cons_append, word_miss (by decide +kernel)]
    have : (word ['r','e','v']).m ('r' :: s) c k = none := by
      rw [word, m_seq, m_lit (by decide +kernel)]
      cases s with
      | nil => rfl
      | cons x t => rw [word_miss (hs x t rfl)]
    rw [List.nil_append, this]; rfl

theorem inner_not_letter {x : Char} (h : inner x = false) {l : Char} (hl : l ∈ letters) :
    (fold x == l) = false := (inner_facts h).2.2.2 l hl

/-- The post part fails on a text that begins with a dev part or stops. -/
theorem postR_fail {d : Option (Part Unit)} (hd : ∀ p ∈ d, p.Ok) {rest : List Char} (hs : Stop rest)
    (c : Caps Char) (k : List Char → Caps Char → Option R) :
    postR.m (renderDev d ++ rest) c k = none := by
  have nostart : ∀ {x : Char} {t : List Char}, isDig x = false → isSep x = false → x ≠ '-' →
      (fold x == 'p') = false → (fold x == 'r') = false → fold x ≠ '-' →
      postR.m (x :: t) c k = none := by
    intro x t h1 h2 h3 h4 h5 h6
    refine m_fail rfl (fun y u e => ?_) c k
    cases e
    simp [postR, Rx.first, lit, word, sepO, Rx.opt, Rx.nullable, postL, h2]
    simp at h4 h5
    exact ⟨h6, h4, h5⟩
  have hd' : ∀ (t : List Char), (Rx.seq postL (.seq sepO (numO "post_n2"))).m ('d' :: t) c k = none := by
    intro t
    refine m_fail rfl (fun y u e => ?_) c k
    cases e; decide +kernel
  cases d with
  | none =>
    cases rest with
    | nil => rfl
    | cons x t =>
      have hi := stop_inner hs x t rfl
      obtain ⟨i1, i2, i3, i4⟩ := inner_facts hi
      have hne : x ≠ '-' := by rintro rfl; simp [isSep] at i2
      show postR.m (x :: t) c k = none
      refine nostart i1 i2 hne (i4 _ (by decide)) (i4 _ (by decide)) ?_
      rcases hs x t rfl with h | h
      · subst h; decide +kernel
      · rw [(ws_facts h).2.2.1]; exact hne
  | some p =>
    cases hp : p.sep₁ with
    | none =>
      simp only [renderDev, Part.render, hp]
      exact nostart (by decide +kernel) (by decide +kernel) (by decide) (by decide +kernel)
        (by decide +kernel) (by decide +kernel)
    | some x =>
      have hx := (hd p rfl).1 x hp
      have e : ∃ t, renderDev (some p) ++ rest = x :: 'd' :: t := by
        refine ⟨['e', 'v'] ++ p.sep₂.toList ++ p.num.getD [] ++ rest, ?_⟩
        simp [renderDev, Part.render, hp]
      obtain ⟨t, e⟩ := e
      rw [e, postR, m_alt]
      have h1 : (Rx.seq (lit '-') (.grp "post_n1" digits)).m (x :: 'd' :: t) c k = none := by
        rw [m_seq]
        by_cases hx' : fold x = '-'
        · rw [m_lit hx']
          exact m_fail rfl (fun y u e => by cases e; decide +kernel) c k
        · rw [m_lit_ne (by simpa using hx')]
      rw [h1, m_seq, sepO, opt_back]
      · refine m_fail rfl (fun y u e => ?_) c k
        cases e
        rcases sep_cases hx with h | h | h <;> subst h <;> decide +kernel
      · rw [m_cls_cons, if_pos hx]; exact hd' t

theorem noDig_dev {d : Option (Part Unit)} (hd : ∀ p ∈ d, p.Ok) {rest : List Char} (hs : Stop rest) :
    NoHead isDig (renderDev d ++ rest) := by
  intro x t e
  rcases dev_head hd hs e with h | h | h
  · exact (sep_facts h).2.1
  · subst h; decide +kernel
  · exact (inner_facts h).1

/-- A dev part written without its first separator. -/
def stripDev (d : Option (Part Unit)) : Option (Part Unit) := d.map (fun p => { p with sep₁ := none })

theorem stripDev_ok {d : Option (Part Unit)} (hd : ∀ p ∈ d, p.Ok) : ∀ p ∈ stripDev d, p.Ok := by
  intro p hp
  simp only [stripDev, Option.mem_def, Option.map_eq_some_iff] at hp
  obtain ⟨q, hq, rfl⟩ := hp
  exact ⟨by simp, (hd q hq).2.1, (hd q hq).2.2⟩

theorem stripDev_caps (d : Option (Part Unit)) : devCaps (stripDev d) = devCaps d := by
  cases d <;> rfl

/-- A separator at the start of the text of the dev part is the dev part's. -/
theorem dev_sep_head {d : Option (Part Unit)} {rest : List Char} (hs : Stop rest) {x : Char}
    {t : List Char} (e : renderDev d ++ rest = x :: t) (hx : isSep x = true) :
    t = renderDev (stripDev d) ++ rest := by
  cases d with
  | none =>
    have := (inner_facts (stop_inner hs x t (by simpa [renderDev] using e))).2.1
    rw [hx] at this; simp at this
  | some p =>
    cases hp : p.sep₁ with
    | none =>
      simp [renderDev, Part.render, hp] at e
      rw [← e.1] at hx; exact absurd hx (by decide +kernel)
    | some y =>
      simp [renderDev, Part.render, hp] at e
      simp [renderDev, Part.render, stripDev, ← e.2]

theorem T3_ok {p : Option Post} (hp : ∀ q ∈ p, q.Ok) {d : Option (Part Unit)} (hd : ∀ p ∈ d, p.Ok)
    {rest : List Char} (hs : Stop rest) {c : Caps Char} {y : Caps Char × List Char}
    (h1 : T1.m rest (devCaps d ++ (postCaps p ++ c)) k0 = some y) :
    T3.m (renderPost p ++ (renderDev d ++ rest)) c k0 = some y := by
  have h2 : T2.m (renderDev d ++ rest) (postCaps p ++ c) k0 = some y := T2_ok hd hs h1
  cases p with
  | none =>
    show (Rx.opt postR).m (renderDev d ++ rest) c (fun s' c' => T2.m s' c' k0) = _
    rw [opt_back (postR_fail hd hs c _)]; exact h2
  | some p =>
    refine opt_take ?_
    rw [postR, m_alt]
    cases p with
    | dash n =>
      have hn : IsNum n := hp _ rfl
      have e : renderPost (some (.dash n)) ++ (renderDev d ++ rest) =
          '-' :: (n ++ (renderDev d ++ rest)) := by simp [renderPost, Post.render]
      rw [e, m_seq, m_lit (by decide +kernel),
        m_grp (c' := c) (fun k' hk' => m_digits hn (noDig_dev hd hs) hk')]
      · show (T2.m (renderDev d ++ rest) (("post_n1", n) :: c) k0).or _ = _
        rw [show ("post_n1", n) :: c = postCaps (some (.dash n)) ++ c from rfl, h2]; rfl
      · show (T2.m (renderDev d ++ rest) (postCaps (some (.dash n)) ++ c) k0).isSome = true
        rw [h2]; rfl
    | word p =>
      obtain ⟨p1, p2, p3⟩ := hp _ rfl
      have e : renderPost (some (.word p)) ++ (renderDev d ++ rest) = p.sep₁.toList ++
          (p.label.text.toList ++ (p.sep₂.toList ++ (p.num.getD [] ++ (renderDev d ++ rest)))) := by
        simp [renderPost, Post.render, Part.render]
      have hlab : ∃ x t, p.label.text.toList = x :: t ∧ isSep x = false ∧ isDig x = false := by
        cases p.label
        · exact ⟨'p', ['o','s','t'], rfl, by decide +kernel, by decide +kernel⟩
        · exact ⟨'r', ['e','v'], rfl, by decide +kernel, by decide +kernel⟩
        · exact ⟨'r', [], rfl, by decide +kernel, by decide +kernel⟩
      obtain ⟨x, t, hxt, hx1, hx2⟩ := hlab
      have first : (Rx.seq (lit '-') (.grp "post_n1" digits)).m (p.sep₁.toList ++
          (p.label.text.toList ++ (p.sep₂.toList ++ (p.num.getD [] ++ (renderDev d ++ rest))))) c
          (fun s' c' => T2.m s' c' k0) = none := by
        rw [m_seq, hxt]
        have hfold : ∀ y : Char, y = x → fold y ≠ '-' := by
          rintro y rfl
          intro hf
          have hm : y ∈ p.label.text.toList := by rw [hxt]; simp
          rw [post_word_fold _ y hm] at hf
          subst hf; simp [isSep] at hx1
        cases hs1 : p.sep₁ with
        | none =>
          simp only [Option.toList_none, List.nil_append, List.cons_append]
          rw [m_lit_ne (by simpa using hfold x rfl)]
        | some z =>
          simp only [Option.toList_some, List.cons_append, List.nil_append]
          by_cases hz : fold z = '-'
          · rw [m_lit hz]
            exact m_fail rfl (fun y u e => by
              cases e; simpa [Rx.first, digits, Rx.plus, Rx.nullable] using hx2) c _
          · rw [m_lit_ne (by simpa using hz)]
      rw [e, first, m_seq]
      show sepO.m _ c _ = some y
      refine m_sepO p1 (by rw [hxt]; exact noHead_cons hx1) ?_
      refine m_labelled (fun _ => False) (fun s k hs' hk _ => m_postL p.label ?_ c k hk) (by simp) p2 p3
        (noDig_dev hd hs) ?_ ?_
      · subst hs'
        intro z u ez
        show (fold z == 'e') = false
        cases hsep : p.sep₂ with
        | some y' =>
          rw [hsep] at ez; simp at ez
          rw [← ez.1, (sep_facts (p2 y' hsep)).2.2.1]
          exact (sep_facts (p2 y' hsep)).2.2.2.2.2.2 _ (by decide)
        | none =>
          cases hnum : p.num with
          | some n =>
            obtain ⟨hne, hall⟩ := p3 n hnum
            rw [hsep, hnum] at ez
            cases n with
            | nil => exact absurd rfl hne
            | cons a n =>
              simp at ez
              rw [← ez.1]
              have := dig_facts (hall a (by simp))
              rw [this.2.2.1]; exact this.2.2.2.2.2.2.2 _ (by decide)
          | none =>
            rw [hsep, hnum] at ez
            simp at ez
            rcases dev_head hd hs ez with h | h | h
            · rw [(sep_facts h).2.2.1]; exact (sep_facts h).2.2.2.2.2.2 _ (by decide)
            · subst h; decide +kernel
            · exact inner_not_letter h (by decide)
      · simpa [postCaps] using h2
      · intro q1 q2 x' t' ex hsx
        have et := dev_sep_head hs ex hsx
        subst et
        refine ⟨noDig_dev (stripDev_ok hd) hs, ?_⟩
        refine T2_ok (stripDev_ok hd) hs ?_
        rw [stripDev_caps]
        simpa [postCaps, q2] using h1

end Big.Version
