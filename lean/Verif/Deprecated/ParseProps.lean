import Verif.Deprecated.Parse
/-!
# C62, second part: `deprecated.parse_delimiters`
-/
namespace Big.DP

variable {α : Type} [DecidableEq α]

/-! ## The specification -/

/-- A string read as tokens: characters of the text, opening and closing delimiters. -/
inductive Tok (α : Type) where
  | chr (c : α)
  | op (d : Delim α)
  | cl (d : Delim α)

/-- The character of a token. -/
def Tok.char : Tok α → α
  | .chr c => c
  | .op d => d.op
  | .cl d => d.cl

/-- `c` opens one of the delimiters. -/
def Opener (ds : List (Delim α)) (c : α) : Prop := ∃ d ∈ ds, d.op = c
/-- `c` closes one of the delimiters and does not also open it (as a quote mark does). -/
def Closer (ds : List (Delim α)) (c : α) : Prop := ∃ d ∈ ds, d.cl = c ∧ d.op ≠ c

/-- `c` means nothing special inside `d`. -/
def Plain (ds : List (Delim α)) (bs : α) (d : Cur α) (c : α) : Prop :=
  close d ≠ some c ∧ ¬ (backslash d = true ∧ c = bs) ∧ (nested d = true → ¬ Opener ds c ∧ ¬ Closer ds c)

/-- The well-nested texts inside the delimiter `d` (`none`: outside all): plain characters, a backslash and
any character if `d` enables it, and, if `d` nests, delimiters with a well-nested text between them. -/
inductive Inside (ds : List (Delim α)) (bs : α) : Cur α → List (Tok α) → Prop
  | nil {d} : Inside ds bs d []
  | plain {d c t} : Plain ds bs d c → Inside ds bs d t → Inside ds bs d (.chr c :: t)
  | esc {d c t} : backslash d = true → Inside ds bs d t → Inside ds bs d (.chr bs :: .chr c :: t)
  | group {d e b t} : nested d = true → e ∈ ds → close d ≠ some e.op → ¬ Closer ds e.op →
      Inside ds bs (some e) b → Inside ds bs d t → Inside ds bs d (.op e :: (b ++ .cl e :: t))

/-- The tuples for a sequence of tokens: one for each delimiter, with the text before it, and one for the
text after the last delimiter, if any. -/
def tuples : List α → List (Tok α) → List (Item α)
  | text, [] => if text.isEmpty then [] else [⟨text, none, none⟩]
  | text, .chr c :: t => tuples (text ++ [c]) t
  | text, .op d :: t => ⟨text, some d.op, none⟩ :: tuples [] t
  | text, .cl d :: t => ⟨text, none, some d.cl⟩ :: tuples [] t

/-- What the checks at the call ensure. -/
structure Valid (ds : List (Delim α)) (bs : α) : Prop where
  noBs : ∀ d ∈ ds, d.op ≠ bs ∧ d.cl ≠ bs
  nodup : (ds.map (·.op)).Nodup

/-! ## Lemmas -/

theorem mem_closers {ds : List (Delim α)} {c : α} : c ∈ closers ds ↔ Closer ds c := by
  simp only [closers, List.mem_map, List.mem_filter, decide_eq_true_eq, Closer]
  constructor
  · rintro ⟨d, ⟨h1, h2⟩, rfl⟩; exact ⟨d, h1, rfl, fun h => h2 h.symm⟩
  · rintro ⟨d, h1, rfl, h2⟩; exact ⟨d, ⟨h1, fun h => h2 h.symm⟩, rfl⟩

theorem lookup_none {ds : List (Delim α)} {c : α} : lookup ds c = none ↔ ¬ Opener ds c := by
  simp [lookup, Opener]

theorem lookup_some {ds : List (Delim α)} {c : α} {d} (h : lookup ds c = some d) : d ∈ ds ∧ d.op = c := by
  have h1 := List.mem_of_find?_eq_some h
  have h2 := List.find?_some h
  exact ⟨by simpa using h1, by simpa using h2⟩

theorem nodup_inj {ds : List (Delim α)} (h : (ds.map (·.op)).Nodup) {d e : Delim α} (hd : d ∈ ds) (he : e ∈ ds)
    (heq : d.op = e.op) : d = e := by
  induction ds with
  | nil => simp at hd
  | cons x ds ih =>
    simp only [List.map_cons, List.nodup_cons, List.mem_map, not_exists, not_and] at h
    rcases List.mem_cons.1 hd with h1 | h1 <;> rcases List.mem_cons.1 he with h2 | h2
    · rw [h1, h2]
    · exact absurd (by rw [← heq, h1]) (h.1 e h2)
    · exact absurd (by rw [heq, h2]) (h.1 d h1)
    · exact ih h.2 h1 h2

theorem lookup_eq {ds : List (Delim α)} {bs : α} (hv : Valid ds bs) {d : Delim α} (hd : d ∈ ds) :
    lookup ds d.op = some d := by
  cases h : lookup ds d.op with
  | none => exact absurd ⟨d, hd, rfl⟩ (lookup_none.1 h)
  | some e =>
    obtain ⟨h1, h2⟩ := lookup_some h
    rw [nodup_inj hv.nodup h1 hd h2]

/-- Tuples already closed, and the text since. -/
def split : List α → List (Tok α) → List (Item α) × List α
  | text, [] => ([], text)
  | text, .chr c :: t => split (text ++ [c]) t
  | text, .op d :: t => (⟨text, some d.op, none⟩ :: (split [] t).1, (split [] t).2)
  | text, .cl d :: t => (⟨text, none, some d.cl⟩ :: (split [] t).1, (split [] t).2)

theorem tuples_split : ∀ (text : List α) (t : List (Tok α)),
    tuples text t = (split text t).1 ++ (if (split text t).2.isEmpty then [] else [⟨(split text t).2, none, none⟩])
  | text, [] => by simp [tuples, split]
  | text, .chr c :: t => by simp only [tuples, split]; exact tuples_split _ t
  | text, .op d :: t => by simp only [tuples, split]; rw [tuples_split [] t]; rfl
  | text, .cl d :: t => by simp only [tuples, split]; rw [tuples_split [] t]; rfl

theorem split_append : ∀ (text : List α) (t u : List (Tok α)),
    split text (t ++ u) = ((split text t).1 ++ (split (split text t).2 u).1, (split (split text t).2 u).2)
  | text, [], u => by simp [split]
  | text, .chr c :: t, u => by simp only [split, List.cons_append]; exact split_append _ t u
  | text, .op d :: t, u => by simp only [split, List.cons_append]; rw [split_append [] t u]
  | text, .cl d :: t, u => by simp only [split, List.cons_append]; rw [split_append [] t u]

/-- `yield` before going on. -/
def pre (items : List (Item α)) (r : List (Item α) × Option (Err α)) : List (Item α) × Option (Err α) :=
  (items ++ r.1, r.2)

@[simp] theorem pre_nil (r : List (Item α) × Option (Err α)) : pre [] r = r := rfl
@[simp] theorem pre_pre (a b : List (Item α)) (r : List (Item α) × Option (Err α)) : pre a (pre b r) = pre (a ++ b) r := by
  simp [pre]

section Steps
variable {ds : List (Delim α)} {bs c : α} {d : Cur α} {stack : List (Cur α)} {text s : List α} {i : Nat}

theorem st_quoted : loop ds bs d stack true text i (c :: s) = loop ds bs d stack false (text ++ [c]) (i + 1) s := by
  cases stack <;> rw [loop] <;> simp

theorem st_close {d'} (h : close d = some c) : loop ds bs d (d' :: stack) false text i (c :: s) =
    pre [⟨text, none, some c⟩] (loop ds bs d' stack false [] (i + 1) s) := by
  rw [loop]; simp [h, pre]

theorem st_bad (h1 : close d ≠ some c) (h2 : nested d = true) (h3 : c ∈ closers ds) :
    loop ds bs d stack false text i (c :: s) = ([], some (.mismatched i (close d) c)) := by
  cases stack <;> rw [loop] <;> simp [Ne.symm h1, h2, h3]

theorem st_open {e} (h1 : close d ≠ some c) (h2 : nested d = true) (h3 : c ∉ closers ds) (h4 : lookup ds c = some e) :
    loop ds bs d stack false text i (c :: s) =
    pre [⟨text, some c, none⟩] (loop ds bs (some e) (d :: stack) false [] (i + 1) s) := by
  cases stack <;> rw [loop] <;> simp [Ne.symm h1, h2, h3, h4, pre]

theorem st_plain (h1 : close d ≠ some c) (h2 : nested d = true → c ∉ closers ds ∧ lookup ds c = none) :
    loop ds bs d stack false text i (c :: s) =
    loop ds bs d stack (backslash d && decide (c = bs)) (text ++ [c]) (i + 1) s := by
  cases stack <;> rw [loop] <;>
  · cases hn : nested d with
    | false => simp [Ne.symm h1]
    | true =>
      obtain ⟨h3, h4⟩ := h2 hn
      simp [Ne.symm h1, h3, h4]

end Steps

variable {ds : List (Delim α)} {bs : α}

/-- A well-nested text is read as it should be. -/
theorem run_inside (hv : Valid ds bs) {d : Cur α} {t : List (Tok α)} (h : Inside ds bs d t) : 
    (∀ e, d = some e → e ∈ ds) → ∀ (stack : List (Cur α)) (text : List α) (i : Nat) (rest : List α),
    loop ds bs d stack false text i (t.map Tok.char ++ rest) =
      pre (split text t).1 (loop ds bs d stack false (split text t).2 (i + t.length) rest) := by
  induction h with
  | nil => intro _ stack text i rest; simp [split]
  | @plain d c t h1 _ ih =>
    intro hd stack text i rest
    obtain ⟨h2, h3, h4⟩ := h1
    have : (backslash d && decide (c = bs)) = false := by
      cases hb : backslash d with
      | false => rfl
      | true => simpa using fun h => h3 ⟨hb, h⟩
    rw [List.map_cons, List.cons_append, Tok.char, st_plain h2 (fun h => ⟨fun h' => (h4 h).2 (mem_closers.1 h'),
      lookup_none.2 (h4 h).1⟩), this, ih hd]
    simp [split]; congr 2; omega
  | @esc d c t h1 _ ih =>
    intro hd stack text i rest
    have h2 : close d ≠ some bs := by
      cases d with
      | none => simp [close]
      | some e => simpa [close] using (hv.noBs e (hd e rfl)).2
    have h3 : bs ∉ closers ds := by
      intro h
      obtain ⟨e, he, h, -⟩ := mem_closers.1 h
      exact (hv.noBs e he).2 h
    have h4 : lookup ds bs = none := lookup_none.2 fun ⟨e, he, h⟩ => (hv.noBs e he).1 h
    rw [List.map_cons, List.cons_append, Tok.char, st_plain h2 (fun _ => ⟨h3, h4⟩), h1]
    simp only [decide_true, Bool.and_self, List.map_cons, Tok.char, List.cons_append, st_quoted]
    rw [ih hd]
    simp [split]; congr 2; omega
  | @group d e b t h1 h2 h3 h4 _ _ ih1 ih2 =>
    intro hd stack text i rest
    rw [List.map_cons, List.cons_append, Tok.char, st_open h3 h1 (fun h => h4 (mem_closers.1 h)) (lookup_eq hv h2)]
    rw [List.map_append, List.append_assoc, ih1 (by simpa using h2)]
    rw [List.map_cons, List.cons_append, Tok.char, st_close (by rfl), ih2 hd]
    simp only [pre_pre, split, split_append, List.length_cons, List.length_append]
    congr 2
    omega

/-- The rest of a well-nested text, from inside the delimiters of the stack. -/
def Rest (ds : List (Delim α)) (bs : α) : Cur α → List (Cur α) → List (Tok α) → Prop
  | d, [], t => Inside ds bs d t
  | d, d' :: stack, t => ∃ e b u, d = some e ∧ t = b ++ .cl e :: u ∧ Inside ds bs d b ∧ Rest ds bs d' stack u

theorem rest_plain {d : Cur α} {stack t c} (hp : Plain ds bs d c) (h : Rest ds bs d stack t) :
    Rest ds bs d stack (.chr c :: t) := by
  cases stack with
  | nil => exact .plain hp h
  | cons d' stack =>
    obtain ⟨e, b, u, h1, h2, h3, h4⟩ := h
    exact ⟨e, .chr c :: b, u, h1, by simp [h2], .plain hp h3, h4⟩

theorem rest_esc {d : Cur α} {stack t c} (hp : backslash d = true) (h : Rest ds bs d stack t) :
    Rest ds bs d stack (.chr bs :: .chr c :: t) := by
  cases stack with
  | nil => exact .esc hp h
  | cons d' stack =>
    obtain ⟨e, b, u, h1, h2, h3, h4⟩ := h
    exact ⟨e, .chr bs :: .chr c :: b, u, h1, by simp [h2], .esc hp h3, h4⟩

theorem rest_group {d : Cur α} {stack t e} (h1 : nested d = true) (h2 : e ∈ ds) (h3 : close d ≠ some e.op)
    (h4 : ¬ Closer ds e.op) (h : Rest ds bs (some e) (d :: stack) t) : Rest ds bs d stack (.op e :: t) := by
  obtain ⟨e', b, u, h5, h6, h7, h8⟩ := h
  cases h5
  cases stack with
  | nil => rw [h6]; exact .group h1 h2 h3 h4 h7 h8
  | cons d' stack =>
    obtain ⟨e'', b', u', h9, h10, h11, h12⟩ := h8
    exact ⟨e'', .op e :: (b ++ .cl e :: b'), u', h9, by simp [h6, h10], .group h1 h2 h3 h4 h7 h11, h12⟩

/-- The stack holds the base delimiter at the bottom, under the current one. -/
def StackOk : Cur α → List (Cur α) → Prop
  | d, [] => d = none
  | d, d' :: stack => d ≠ none ∧ StackOk d' stack

/-- An accepted text is well nested. -/
theorem loop_ok : ∀ (n : Nat) (s : List α), s.length ≤ n → ∀ (d : Cur α) (stack : List (Cur α)) (text : List α) (i : Nat),
    StackOk d stack → (loop ds bs d stack false text i s).2 = none →
    ∃ t, t.map Tok.char = s ∧ Rest ds bs d stack t := by
  intro n
  induction n with
  | zero =>
    intro s hs d stack text i hst h
    have : s = [] := List.eq_nil_of_length_eq_zero (by omega)
    subst this
    cases stack with
    | nil => exact ⟨[], rfl, .nil⟩
    | cons => simp [loop] at h
  | succ n ih =>
    intro s hs d stack text i hst h
    cases s with
    | nil =>
      cases stack with
      | nil => exact ⟨[], rfl, .nil⟩
      | cons => simp [loop] at h
    | cons c s =>
      simp only [List.length_cons] at hs
      by_cases h1 : close d = some c
      · cases stack with
        | nil =>
          have : d = none := hst
          subst this
          simp [close] at h1
        | cons d' stack =>
          rw [st_close h1] at h
          obtain ⟨t, ht1, ht2⟩ := ih s (by omega) d' stack [] _ hst.2 h
          cases d with
          | none => simp [close] at h1
          | some e =>
            refine ⟨.cl e :: t, ?_, e, [], t, rfl, rfl, .nil, ht2⟩
            simp [close] at h1
            simp [ht1, Tok.char, h1]
      · by_cases h2 : nested d = true ∧ c ∈ closers ds
        · rw [st_bad h1 h2.1 h2.2] at h; simp at h
        · by_cases h3 : nested d = true ∧ ∃ e, lookup ds c = some e
          · obtain ⟨h3, e, h4⟩ := h3
            rw [st_open h1 h3 (fun h' => h2 ⟨h3, h'⟩) h4] at h
            obtain ⟨t, ht1, ht2⟩ := ih s (by omega) (some e) (d :: stack) [] _ ⟨by simp, hst⟩ h
            obtain ⟨h5, rfl⟩ := lookup_some h4
            exact ⟨.op e :: t, by simp [ht1, Tok.char], rest_group h3 h5 h1 (fun h' => h2 ⟨h3, mem_closers.2 h'⟩) ht2⟩
          · have h4 : nested d = true → c ∉ closers ds ∧ lookup ds c = none := by
              intro hn
              refine ⟨fun h' => h2 ⟨hn, h'⟩, ?_⟩
              cases hl : lookup ds c with
              | none => rfl
              | some e => exact absurd ⟨hn, e, hl⟩ h3
            rw [st_plain h1 h4] at h
            by_cases hb : backslash d = true ∧ c = bs
            · obtain ⟨hb, rfl⟩ := hb
              simp only [hb, decide_true, Bool.and_self] at h
              cases s with
              | nil =>
                cases stack with
                | nil =>
                  have : d = none := hst
                  subst this
                  simp [backslash] at hb
                | cons => simp [loop] at h
              | cons c2 s =>
                rw [st_quoted] at h
                obtain ⟨t, ht1, ht2⟩ := ih s (by simp at hs; omega) d stack _ _ hst h
                exact ⟨.chr c :: .chr c2 :: t, by simp [ht1, Tok.char], rest_esc hb ht2⟩
            · have : (backslash d && decide (c = bs)) = false := by
                cases hb' : backslash d with
                | false => rfl
                | true => simpa using fun h => hb ⟨hb', h⟩
              rw [this] at h
              obtain ⟨t, ht1, ht2⟩ := ih s (by omega) d stack _ _ hst h
              refine ⟨.chr c :: t, by simp [ht1, Tok.char], rest_plain ⟨h1, hb, fun hn => ?_⟩ ht2⟩
              exact ⟨lookup_none.1 (h4 hn).2, fun h' => (h4 hn).1 (mem_closers.2 h')⟩

/-- The string a tuple stands for. -/
def Item.str (x : Item α) : List α := x.text ++ x.op.toList ++ x.cl.toList

/-- What the tuples say, whatever the outcome. -/
theorem loop_join : ∀ (s : List α) (d : Cur α) (stack : List (Cur α)) (quoted : Bool) (text : List α) (i : Nat),
    ∃ rest, text ++ s = ((loop ds bs d stack quoted text i s).1.map Item.str).flatten ++ rest ∧
      ((loop ds bs d stack quoted text i s).2 = none → rest = []) ∧
      (∀ x ∈ (loop ds bs d stack quoted text i s).1, x.str ≠ [] ∧ (x.op = none ∨ x.cl = none)) ∧
      (∀ a x b, (loop ds bs d stack quoted text i s).1 = a ++ x :: b → x.op = none → x.cl = none → b = []) := by
  intro s
  induction s with
  | nil =>
    intro d stack quoted text i
    cases stack with
    | cons => exact ⟨text, by simp [loop], by simp [loop], by simp [loop], by simp [loop]⟩
    | nil =>
      cases text with
      | nil => exact ⟨[], by simp [loop], by simp, by simp [loop], by simp [loop]⟩
      | cons x text =>
        refine ⟨[], by simp [loop, Item.str], by simp, by simp [loop, Item.str], ?_⟩
        intro a x b h _ _
        simp [loop] at h
        cases a with
        | nil => simp at h; exact h.2
        | cons y a => simp at h
  | cons c s ih =>
    have hp : ∀ (x : Item α) (r : List (Item α) × Option (Err α)) (all : List α),
        x.str ≠ [] → (x.op = none ↔ x.cl ≠ none) →
        (∃ rest, all = (r.1.map Item.str).flatten ++ rest ∧ (r.2 = none → rest = []) ∧
          (∀ x ∈ r.1, x.str ≠ [] ∧ (x.op = none ∨ x.cl = none)) ∧
          (∀ a x b, r.1 = a ++ x :: b → x.op = none → x.cl = none → b = [])) →
        ∃ rest, x.str ++ all = (((x :: r.1, r.2) : List (Item α) × Option (Err α)).1.map Item.str).flatten ++ rest ∧
          (((x :: r.1, r.2) : List (Item α) × Option (Err α)).2 = none → rest = []) ∧
          (∀ y ∈ ((x :: r.1, r.2) : List (Item α) × Option (Err α)).1, y.str ≠ [] ∧ (y.op = none ∨ y.cl = none)) ∧
          (∀ a y b, ((x :: r.1, r.2) : List (Item α) × Option (Err α)).1 = a ++ y :: b → y.op = none → y.cl = none → b = []) := by
      rintro x r all hx1 hx2 ⟨rest, h1, h2, h3, h4⟩
      refine ⟨rest, by simp [h1], h2, ?_, ?_⟩
      · intro y hy
        rcases List.mem_cons.1 hy with rfl | hy
        · refine ⟨hx1, ?_⟩
          by_cases h : y.op = none
          · exact .inl h
          · exact .inr (Classical.byContradiction fun h' => h (hx2.2 h'))
        · exact h3 y hy
      · intro a y b h ho hc
        cases a with
        | nil =>
          injection h with h _
          subst h
          exact absurd hc (hx2.1 ho)
        | cons z a =>
          injection h with _ h
          exact h4 a y b h ho hc
    intro d stack quoted text i
    cases quoted with
    | true =>
      rw [st_quoted]
      simpa using ih d stack false (text ++ [c]) (i + 1)
    | false =>
      by_cases h1 : close d = some c
      · cases stack with
        | nil =>
          have : loop ds bs d [] false text i (c :: s) = ([⟨text, none, some c⟩], some .indexError) := by
            rw [loop]; simp [h1]
          rw [this]
          refine ⟨s, by simp [Item.str], by simp, by simp [Item.str], ?_⟩
          intro a x b h ho hc
          cases a with
          | nil => simp at h; rw [← h.1] at hc; simp at hc
          | cons y a => simp at h
        | cons d' stack =>
          rw [st_close h1]
          have := hp ⟨text, none, some c⟩ _ _ (by simp [Item.str]) (by simp) (ih d' stack false [] (i + 1))
          have e' : text ++ c :: s = Item.str ⟨text, none, some c⟩ ++ ([] ++ s) := by simp [Item.str]
          rw [e']
          exact this
      · by_cases h2 : nested d = true ∧ c ∈ closers ds
        · rw [st_bad h1 h2.1 h2.2]
          exact ⟨text ++ c :: s, by simp, by simp, by simp, by simp⟩
        · by_cases h3 : nested d = true ∧ ∃ e, lookup ds c = some e
          · obtain ⟨h3, e, h4⟩ := h3
            rw [st_open h1 h3 (fun h' => h2 ⟨h3, h'⟩) h4]
            have := hp ⟨text, some c, none⟩ _ _ (by simp [Item.str]) (by simp) (ih (some e) (d :: stack) false [] (i + 1))
            have e' : text ++ c :: s = Item.str ⟨text, some c, none⟩ ++ ([] ++ s) := by simp [Item.str]
            rw [e']
            exact this
          · have h4 : nested d = true → c ∉ closers ds ∧ lookup ds c = none := by
              intro hn
              refine ⟨fun h' => h2 ⟨hn, h'⟩, ?_⟩
              cases hl : lookup ds c with
              | none => rfl
              | some e => exact absurd ⟨hn, e, hl⟩ h3
            rw [st_plain h1 h4]
            simpa using ih d stack (backslash d && decide (c = bs)) (text ++ [c]) (i + 1)

/-- Reading a part of the text: either a mismatch, with a right state before it, or a state to go on from. -/
theorem adv : ∀ (s : List α) (d : Cur α) (stack : List (Cur α)) (quoted : Bool) (text : List α) (i : Nat), StackOk d stack →
    (∃ items k c d' stack' text', s[k]? = some c ∧ Closer ds c ∧ close d' ≠ some c ∧ StackOk d' stack' ∧
      (∀ rest, loop ds bs d stack quoted text i (s.take k ++ rest) = pre items (loop ds bs d' stack' false text' (i + k) rest)) ∧
      ∀ rest, loop ds bs d stack quoted text i (s.take (k + 1) ++ rest) = (items, some (.mismatched (i + k) (close d') c))) ∨
    (∃ items d' stack' quoted' text', StackOk d' stack' ∧
      (∀ rest, loop ds bs d stack quoted text i (s ++ rest) = pre items (loop ds bs d' stack' quoted' text' (i + s.length) rest)) ∧
      (quoted' = true → (s = [] ∧ quoted = true) ∨ s.getLast? = some bs)) := by
  intro s
  induction s with
  | nil =>
    intro d stack quoted text i hst
    exact .inr ⟨[], d, stack, quoted, text, hst, by simp, fun h => .inl ⟨rfl, h⟩⟩
  | cons c s ih =>
    intro d stack quoted text i hst
    -- one step, then the rest
    have key : ∀ (x : List (Item α)) (d1 : Cur α) (stack1 : List (Cur α)) (q1 : Bool) (text1 : List α), StackOk d1 stack1 →
        (∀ rest, loop ds bs d stack quoted text i (c :: rest) = pre x (loop ds bs d1 stack1 q1 text1 (i + 1) rest)) →
        (q1 = true → c = bs) →
        (∃ items k c' d' stack' text', (c :: s)[k]? = some c' ∧ Closer ds c' ∧ close d' ≠ some c' ∧ StackOk d' stack' ∧
          (∀ rest, loop ds bs d stack quoted text i ((c :: s).take k ++ rest) = pre items (loop ds bs d' stack' false text' (i + k) rest)) ∧
          ∀ rest, loop ds bs d stack quoted text i ((c :: s).take (k + 1) ++ rest) = (items, some (.mismatched (i + k) (close d') c'))) ∨
        (∃ items d' stack' quoted' text', StackOk d' stack' ∧
          (∀ rest, loop ds bs d stack quoted text i ((c :: s) ++ rest) = pre items (loop ds bs d' stack' quoted' text' (i + (c :: s).length) rest)) ∧
          (quoted' = true → (c :: s = [] ∧ quoted = true) ∨ (c :: s).getLast? = some bs)) := by
      intro x d1 stack1 q1 text1 hst1 hstep hq1
      rcases ih d1 stack1 q1 text1 (i + 1) hst1 with ⟨items, k, c', d', stack', text', h1, h2, h3, h4, h5, h6⟩ | ⟨items, d', stack', q', text', h1, h2, h3⟩
      · refine .inl ⟨x ++ items, k + 1, c', d', stack', text', by simpa using h1, h2, h3, h4, ?_, ?_⟩
        · intro rest
          rw [List.take_succ_cons, List.cons_append, hstep, h5, pre_pre]
          congr 2; omega
        · intro rest
          rw [List.take_succ_cons, List.cons_append, hstep, h6]
          simp [pre]; omega
      · refine .inr ⟨x ++ items, d', stack', q', text', h1, ?_, ?_⟩
        · intro rest
          rw [List.cons_append, hstep, h2, pre_pre]
          simp only [List.length_cons]
          congr 2; omega
        · intro hq
          right
          rcases h3 hq with ⟨rfl, h⟩ | h
          · simp [hq1 h]
          · cases s with
            | nil => simp at h
            | cons y s => simpa using h
    cases quoted with
    | true => exact key [] d stack false (text ++ [c]) hst (fun rest => by rw [st_quoted, pre_nil]) (by simp)
    | false =>
      by_cases h1 : close d = some c
      · cases stack with
        | nil =>
          have : d = none := hst
          subst this
          simp [close] at h1
        | cons d' stack =>
          exact key [⟨text, none, some c⟩] d' stack false [] hst.2 (fun rest => st_close h1) (by simp)
      · by_cases h2 : nested d = true ∧ c ∈ closers ds
        · refine .inl ⟨[], 0, c, d, stack, text, by simp, mem_closers.1 h2.2, h1, hst, by simp, ?_⟩
          intro rest
          simpa using st_bad h1 h2.1 h2.2
        · by_cases h3 : nested d = true ∧ ∃ e, lookup ds c = some e
          · obtain ⟨h3, e, h4⟩ := h3
            exact key [⟨text, some c, none⟩] (some e) (d :: stack) false [] ⟨by simp, hst⟩
              (fun rest => st_open h1 h3 (fun h' => h2 ⟨h3, h'⟩) h4) (by simp)
          · have h4 : nested d = true → c ∉ closers ds ∧ lookup ds c = none := by
              intro hn
              refine ⟨fun h' => h2 ⟨hn, h'⟩, ?_⟩
              cases hl : lookup ds c with
              | none => rfl
              | some e => exact absurd ⟨hn, e, hl⟩ h3
            refine key [] d stack (backslash d && decide (c = bs)) (text ++ [c]) hst (fun rest => by rw [st_plain h1 h4, pre_nil]) ?_
            intro h
            simp at h
            exact h.2

/-- The closing delimiters that are missing. -/
theorem needs_eq : ∀ (d : Cur α) (stack : List (Cur α)), StackOk d stack → stack ≠ [] →
    ((stack.reverse.drop 1) ++ [d]).reverse.filterMap close = (d :: stack).filterMap close := by
  intro d stack hst hne
  have hlast : ∀ (d : Cur α) (stack : List (Cur α)), StackOk d stack → stack ≠ [] → ∃ init, stack = init ++ [none] := by
    intro d stack
    induction stack generalizing d with
    | nil => intro _ h; exact absurd rfl h
    | cons d' stack ih =>
      intro h _
      cases stack with
      | nil => exact ⟨[], by have : d' = none := h.2; simp [this]⟩
      | cons d'' stack =>
        obtain ⟨init, e⟩ := ih d' h.2 (by simp)
        exact ⟨d' :: init, by rw [e]; rfl⟩
  obtain ⟨init, rfl⟩ := hlast d stack hst hne
  have : close (none : Cur α) = none := rfl
  simp [List.filterMap_cons, this]

theorem run_needs : ∀ (stack : List (Cur α)) (d : Cur α) (text : List α) (i : Nat), StackOk d stack →
    (loop ds bs d stack false text i ((d :: stack).filterMap close)).2 = none
  | [], d, text, i, h => by
    have : d = none := h
    subst this
    show (loop ds bs none [] false text i []).2 = none
    rw [loop]
    cases text <;> rfl
  | d' :: stack, d, text, i, h => by
    cases d with
    | none => exact absurd rfl h.1
    | some e =>
      have : List.filterMap close (some e :: d' :: stack) = e.cl :: List.filterMap close (d' :: stack) := by
        simp [List.filterMap_cons, close]
      rw [this, st_close (by rfl)]
      exact run_needs stack d' [] _ h.2

/-! ## The theorems -/

/-- C62: the tuples joined give `s`, whenever the generator does not raise; if it raises, they give a
beginning of `s`. (Any delimiters.) -/
theorem C62_parse_rejoin (ds : List (Delim α)) (bs : α) (s : List α) :
    ∃ rest, s = ((parse ds bs s).1.map (fun x => x.text ++ x.op.toList ++ x.cl.toList)).flatten ++ rest ∧
      ((parse ds bs s).2 = none → rest = []) := by
  obtain ⟨rest, h1, h2, -⟩ := loop_join (ds := ds) (bs := bs) s none [] false [] 0
  exact ⟨rest, h1, h2⟩

/-- C62: in each tuple some string is not empty, and open or close is empty; a tuple with both of them
empty is the last one. -/
theorem C62_parse_tuples (ds : List (Delim α)) (bs : α) (s : List α) :
    (∀ x ∈ (parse ds bs s).1, (x.text ≠ [] ∨ x.op ≠ none ∨ x.cl ≠ none) ∧ (x.op = none ∨ x.cl = none)) ∧
    (∀ a x b, (parse ds bs s).1 = a ++ x :: b → x.op = none → x.cl = none → b = []) := by
  obtain ⟨rest, -, -, h3, h4⟩ := loop_join (ds := ds) (bs := bs) s none [] false [] 0
  refine ⟨fun x hx => ⟨?_, (h3 x hx).2⟩, h4⟩
  have := (h3 x hx).1
  by_cases ht : x.text = []
  · by_cases ho : x.op = none
    · by_cases hc : x.cl = none
      · exact absurd (by simp [Item.str, ht, ho, hc]) this
      · exact .inr (.inr hc)
    · exact .inr (.inl ho)
  · exact .inl ht

/-- C62: exactly the well-nested strings are accepted, and the tuples are the right ones. -/
theorem C62_parse_exact (ds : List (Delim α)) (bs : α) (hv : Valid ds bs) (s : List α) (items : List (Item α)) :
    parse ds bs s = (items, none) ↔
      ∃ t, t.map Tok.char = s ∧ Inside ds bs none t ∧ items = tuples [] t := by
  have hrun : ∀ t, Inside ds bs none t → parse ds bs (t.map Tok.char) = (tuples [] t, none) := by
    intro t ht
    have := run_inside hv ht (by simp) [] [] 0 []
    rw [List.append_nil] at this
    rw [parse, this, tuples_split, loop]
    cases h : (split [] t).2 <;> simp [pre]
  constructor
  · intro h
    obtain ⟨t, h1, h2⟩ := loop_ok (ds := ds) (bs := bs) s.length s (Nat.le_refl _) none [] [] 0 rfl (by
      show (parse ds bs s).2 = none
      rw [h])
    refine ⟨t, h1, h2, ?_⟩
    have := hrun t h2
    rw [h1, h] at this
    exact congrArg Prod.fst this
  · rintro ⟨t, rfl, h2, rfl⟩
    exact hrun t h2

/-- C62: a mismatched closing delimiter: `s[i]` is a closing delimiter, but not that of the delimiter which
is open there (`expected` is the first of the delimiters that `s[:i]` would need, none if it needs none);
and nothing after `s[i]` matters. -/
theorem C62_parse_mismatched (ds : List (Delim α)) (bs : α) (s : List α) (items : List (Item α)) (i : Nat)
    (expected : Option α) (got : α) (h : parse ds bs s = (items, some (.mismatched i expected got))) :
    s[i]? = some got ∧ Closer ds got ∧ expected ≠ some got ∧
    (∀ rest, parse ds bs (s.take (i + 1) ++ rest) = (items, some (.mismatched i expected got))) ∧
    ((expected = none ∧ (parse ds bs (s.take i)).2 = none) ∨
      ∃ e needs, expected = some e ∧ (parse ds bs (s.take i)).2 = some (.unclosed (e :: needs))) := by
  rcases adv (ds := ds) (bs := bs) s none [] false [] 0 rfl with
    ⟨items', k, c, d', stack', text', h1, h2, h3, h4, h5, h6⟩ | ⟨items', d', stack', q', text', h1, h2, h3⟩
  · simp only [Nat.zero_add] at h5 h6
    have h7 := h6 (s.drop (k + 1))
    rw [List.take_append_drop] at h7
    rw [parse, h7] at h
    simp only [Prod.mk.injEq, Option.some.injEq, Err.mismatched.injEq] at h
    obtain ⟨rfl, rfl, rfl, rfl⟩ := h
    refine ⟨h1, h2, h3, h6, ?_⟩
    have h8 := h5 []
    rw [List.append_nil] at h8
    rw [parse, h8]
    cases stack' with
    | nil =>
      have : d' = none := h4
      subst this
      left
      refine ⟨rfl, ?_⟩
      simp [loop, pre]
      split <;> rfl
    | cons d'' stack' =>
      right
      cases d' with
      | none => exact absurd rfl h4.1
      | some e =>
        refine ⟨e.cl, (d'' :: stack').filterMap close, rfl, ?_⟩
        have := needs_eq (some e) (d'' :: stack') h4 (by simp)
        simp only [loop, pre, List.isEmpty_cons, Bool.not_false, if_true, this]
        simp [List.filterMap_cons, close]
  · have h4 := h2 []
    rw [List.append_nil] at h4
    rw [parse, h4] at h
    unfold loop at h
    simp [pre] at h
    split at h
    · split at h <;> simp at h
    · simp at h

/-- C62: the delimiters named in "s does not close all opened delimiters" are the right ones: added to `s`,
they make it acceptable (if `s` does not end in a backslash). -/
theorem C62_parse_unclosed (ds : List (Delim α)) (bs : α) (s : List α) (items : List (Item α)) (needs : List α)
    (h : parse ds bs s = (items, some (.unclosed needs))) :
    needs ≠ [] ∧ (s.getLast? ≠ some bs → (parse ds bs (s ++ needs)).2 = none) := by
  rcases adv (ds := ds) (bs := bs) s none [] false [] 0 rfl with
    ⟨items', k, c, d', stack', text', h1, h2, h3, h4, h5, h6⟩ | ⟨items', d', stack', q', text', h1, h2, h3⟩
  · have h7 := h6 (s.drop (k + 1))
    rw [List.take_append_drop] at h7
    rw [parse, h7] at h
    simp at h
  · have h4 := h2 []
    rw [List.append_nil] at h4
    rw [parse, h4] at h
    cases stack' with
    | nil =>
      simp [loop, pre] at h
      split at h <;> simp at h
    | cons d'' stack' =>
      have hn := needs_eq d' (d'' :: stack') h1 (by simp)
      simp only [loop, pre, List.isEmpty_cons, Bool.not_false, if_true, hn, Prod.mk.injEq, Option.some.injEq, Err.unclosed.injEq] at h
      obtain ⟨-, rfl⟩ := h
      constructor
      · cases d' with
        | none => exact absurd rfl h1.1
        | some e => simp [List.filterMap_cons, close]
      · intro hl
        have hq : q' = false := by
          cases hq : q' with
          | false => rfl
          | true =>
            rcases h3 hq with ⟨-, h⟩ | h
            · simp at h
            · exact absurd h hl
        rw [parse, h2, hq]
        exact run_needs (d'' :: stack') d' text' _ h1

/-- C62: no other exception is raised by the generator. -/
theorem C62_parse_errors (ds : List (Delim α)) (bs : α) (s : List α) : (parse ds bs s).2 ≠ some .indexError := by
  rcases adv (ds := ds) (bs := bs) s none [] false [] 0 rfl with
    ⟨items', k, c, d', stack', text', h1, h2, h3, h4, h5, h6⟩ | ⟨items', d', stack', q', text', h1, h2, h3⟩
  · have h7 := h6 (s.drop (k + 1))
    rw [List.take_append_drop] at h7
    rw [parse, h7]
    simp
  · have h4 := h2 []
    rw [List.append_nil] at h4
    rw [parse, h4]
    unfold loop
    simp [pre]
    split
    · split <;> simp
    · simp

/-- The entry `a` of the argument means the delimiter `d`. -/
def Means (a : Arg α) (d : Delim α) : Prop := a = .delim d ∨ ∃ o c, a = .str [o, c] ∧ d = ⟨o, c, false, true⟩

/-- The entries mean the delimiters, one each, in order. -/
inductive AllMean : List (Arg α) → List (Delim α) → Prop
  | nil : AllMean [] []
  | cons {a d as ds} : Means a d → AllMean as ds → AllMean (a :: as) (d :: ds)

theorem allMean_cons {a : Arg α} {d as ds} : AllMean (a :: as) (d :: ds) ↔ Means a d ∧ AllMean as ds :=
  ⟨fun h => by cases h with | cons h1 h2 => exact ⟨h1, h2⟩, fun ⟨h1, h2⟩ => .cons h1 h2⟩

theorem allMean_nil : AllMean ([] : List (Arg α)) [] ↔ True := ⟨fun _ => trivial, fun _ => .nil⟩
theorem not_allMean_nil {a : Arg α} {as} : AllMean (a :: as) [] ↔ False := ⟨fun h => (by cases h), False.elim⟩
theorem not_allMean_nil' {d : Delim α} {ds} : AllMean [] (d :: ds) ↔ False := ⟨fun h => (by cases h), False.elim⟩

theorem convert_ok : ∀ (args : List (Arg α)) (ds : List (Delim α)), convert args = .ok ds ↔ AllMean args ds
  | [], ds => by
    cases ds with
    | nil => simp [allMean_nil, not_allMean_nil, not_allMean_nil', allMean_cons, convert]
    | cons => simp [allMean_nil, not_allMean_nil, not_allMean_nil', allMean_cons, convert]
  | .delim d :: rest, ds => by
    have ih := convert_ok rest
    cases ds with
    | nil => cases h : convert rest <;> simp [allMean_nil, not_allMean_nil, not_allMean_nil', allMean_cons, convert, h, Except.map]
    | cons d' ds =>
      have ih := ih ds
      simp only [convert, allMean_cons, ← ih]
      cases h : convert rest with
      | error => simp [Except.map]
      | ok ds' =>
        simp [Except.map, Means]
  | .str [o, c] :: rest, ds => by
    have ih := convert_ok rest
    cases ds with
    | nil => cases h : convert rest <;> simp [allMean_nil, not_allMean_nil, not_allMean_nil', allMean_cons, convert, h, Except.map]
    | cons d' ds =>
      have ih := ih ds
      simp only [convert, allMean_cons, ← ih]
      cases h : convert rest with
      | error => simp [Except.map]
      | ok ds' =>
        simp only [Except.map, Means, Except.ok.injEq, List.cons.injEq, reduceCtorEq, false_or, Arg.str.injEq, and_true]
        constructor
        · rintro ⟨h1, h2⟩; exact ⟨⟨o, c, ⟨rfl, rfl⟩, h1.symm⟩, h2⟩
        · rintro ⟨⟨o', c', ⟨rfl, rfl⟩, h1⟩, h2⟩; exact ⟨h1.symm, h2⟩
  | .str [] :: rest, ds => by
    cases ds <;> simp [allMean_nil, not_allMean_nil, not_allMean_nil', allMean_cons, convert, Means]
  | .str [_] :: rest, ds => by
    cases ds <;> simp [allMean_nil, not_allMean_nil, not_allMean_nil', allMean_cons, convert, Means]
  | .str (_ :: _ :: _ :: _) :: rest, ds => by
    cases ds <;> simp [allMean_nil, not_allMean_nil, not_allMean_nil', allMean_cons, convert, Means]
  | .other :: rest, ds => by
    cases ds <;> simp [allMean_nil, not_allMean_nil, not_allMean_nil', allMean_cons, convert, Means]

theorem repeated_iff : ∀ (ds : List (Delim α)) (seen : List α),
    repeated seen ds = false ↔ (ds.map (·.op)).Nodup ∧ ∀ d ∈ ds, d.op ∉ seen
  | [], seen => by simp [repeated]
  | d :: ds, seen => by
    have ih := repeated_iff ds (d.op :: seen)
    simp only [repeated, Bool.or_eq_false_iff, ih, List.map_cons, List.nodup_cons, List.mem_map, List.mem_cons,
      List.contains_eq_mem, decide_eq_false_iff_not]
    constructor
    · rintro ⟨h1, h2, h3⟩
      refine ⟨⟨fun ⟨e, he, h⟩ => h3 e he (.inl h), h2⟩, ?_⟩
      rintro e (rfl | he)
      · exact h1
      · exact fun h => h3 e he (.inr h)
    · rintro ⟨⟨h1, h2⟩, h3⟩
      refine ⟨h3 d (.inl rfl), h2, fun e he h => ?_⟩
      rcases h with h | h
      · exact h1 ⟨e, he, h⟩
      · exact h3 e (.inr he) h

/-- C62: the call is accepted exactly if there are delimiters, each a Delimiter or a string of two
characters, none of them uses the backslash, and no opening delimiter is used twice. Then the generator
runs with those delimiters. -/
theorem C62_parse_checks (bs : α) (args : List (Arg α)) (s : List α) (r : List (Item α) × Option (Err α)) :
    parseDelimiters bs args s = .ok r ↔
      ∃ ds, ds ≠ [] ∧ AllMean args ds ∧ Valid ds bs ∧ r = parse ds bs s := by
  unfold parseDelimiters
  cases args with
  | nil =>
    simp
    rintro ds h1 h2
    cases h2
    exact absurd rfl h1
  | cons a args =>
    simp only [List.isEmpty_cons, Bool.false_eq_true, if_false]
    cases h : convert (a :: args) with
    | error e =>
      simp
      intro ds _ h2
      rw [(convert_ok _ _).2 h2] at h
      cases h
    | ok ds =>
      have hm := (convert_ok _ _).1 h
      have huniq : ∀ ds', AllMean (a :: args) ds' → ds' = ds := by
        intro ds' h'
        rw [(convert_ok _ _).2 h'] at h
        cases h
        rfl
      have hne : ds ≠ [] := by rintro rfl; cases hm
      have hval : Valid ds bs ↔ ¬ (bs ∈ ds.map (·.op) ∨ bs ∈ ds.map (·.cl)) ∧ repeated [] ds = false := by
        rw [repeated_iff]
        constructor
        · rintro ⟨h1, h2⟩
          refine ⟨?_, h2, by simp⟩
          simp only [List.mem_map]
          rintro (⟨d, hd, h⟩ | ⟨d, hd, h⟩)
          · exact (h1 d hd).1 h
          · exact (h1 d hd).2 h
        · rintro ⟨h1, h2, -⟩
          refine ⟨fun d hd => ⟨fun h => h1 (.inl ?_), fun h => h1 (.inr ?_)⟩, h2⟩
          · exact List.mem_map.2 ⟨d, hd, h⟩
          · exact List.mem_map.2 ⟨d, hd, h⟩
      have hiff : (∃ ds, ds ≠ [] ∧ AllMean (a :: args) ds ∧ Valid ds bs ∧ r = parse ds bs s) ↔
          Valid ds bs ∧ r = parse ds bs s := by
        constructor
        · rintro ⟨ds', _, h1, h2, h3⟩
          rw [huniq ds' h1] at h2 h3
          exact ⟨h2, h3⟩
        · rintro ⟨h1, h2⟩; exact ⟨ds, hne, hm, h1, h2⟩
      rw [hiff, hval]
      dsimp only
      by_cases h1 : bs ∈ ds.map (·.op) ∨ bs ∈ ds.map (·.cl)
      · rw [if_pos h1]
        exact ⟨fun h => (by cases h), fun h => absurd h1 h.1.1⟩
      · rw [if_neg h1]
        cases h2 : repeated [] ds with
        | true => simp
        | false => exact ⟨fun h => (by cases h; exact ⟨⟨h1, rfl⟩, rfl⟩), fun h => by rw [h.2]; rfl⟩

theorem convert_typeError : ∀ (args : List (Arg α)), convert args = .error .typeError ↔
    ∃ pre ds post, args = pre ++ Arg.other :: post ∧ AllMean pre ds
  | [] => by simp [convert]
  | a :: args => by
    have ih := convert_typeError args
    have step : ∀ d, Means a d → (∀ x, convert (a :: x) = (convert x).map (d :: ·)) →
        (convert (a :: args) = .error .typeError ↔
          ∃ pre ds post, a :: args = pre ++ Arg.other :: post ∧ AllMean pre ds) := by
      intro d hm hx
      rw [hx]
      have : (convert args).map (d :: ·) = .error .typeError ↔ convert args = .error .typeError := by
        cases convert args <;> simp [Except.map]
      rw [this, ih]
      constructor
      · rintro ⟨pre, ds, post, rfl, h⟩
        exact ⟨a :: pre, d :: ds, post, rfl, .cons hm h⟩
      · rintro ⟨pre, ds, post, he, h⟩
        cases h with
        | nil =>
          simp at he
          rw [he.1] at hm
          rcases hm with hm | ⟨_, _, hm, _⟩ <;> simp at hm
        | @cons a' d' as ds h1 h2 =>
          simp at he
          exact ⟨as, ds, post, he.2, h2⟩
    have bad : (∀ d, ¬ Means a d) → a ≠ .other →
        ¬ ∃ pre ds post, a :: args = pre ++ Arg.other :: post ∧ AllMean pre ds := by
      rintro hn ho ⟨pre, ds, post, he, h⟩
      cases h with
      | nil => simp at he; exact ho he.1
      | cons h1 h2 => simp at he; exact hn _ (he.1 ▸ h1)
    match a, step, bad with
    | .other, _, _ => simp only [convert, true_iff]; exact ⟨[], [], args, rfl, .nil⟩
    | .delim d, step, _ => exact step d (.inl rfl) (fun _ => rfl)
    | .str [o, c], step, _ => exact step _ (.inr ⟨o, c, rfl, rfl⟩) (fun _ => rfl)
    | .str [], _, bad =>
      exact ⟨fun h => by simp [convert] at h, fun h => absurd h (bad (by simp [Means]) (by simp))⟩
    | .str [_], _, bad =>
      exact ⟨fun h => by simp [convert] at h, fun h => absurd h (bad (by simp [Means]) (by simp))⟩
    | .str (_ :: _ :: _ :: _), _, bad =>
      exact ⟨fun h => by simp [convert] at h, fun h => absurd h (bad (by simp [Means]) (by simp))⟩

/-- C62: otherwise it is rejected at the call: by TypeError exactly if the first entry that means no
delimiter is neither a Delimiter nor a string, else by ValueError. -/
theorem C62_parse_typeError (bs : α) (args : List (Arg α)) (s : List α) :
    parseDelimiters bs args s = .error .typeError ↔
      ∃ pre ds post, args = pre ++ Arg.other :: post ∧ AllMean pre ds := by
  rw [← convert_typeError]
  unfold parseDelimiters
  cases args with
  | nil => simp [convert]
  | cons a args =>
    simp only [List.isEmpty_cons, Bool.false_eq_true, if_false]
    cases h : convert (a :: args) with
    | error e => simp
    | ok ds =>
      dsimp only
      split
      · simp
      · split <;> simp

/-! ## Examples -/

/-- The default delimiters pass the checks, and a run with nesting, a quoted delimiter and an escape. -/
example : parseDelimiters '\\' defaults "a(b['(\\''])c".toList =
    .ok ([⟨['a'], some '(', none⟩, ⟨['b'], some '[', none⟩, ⟨[], some '\'', none⟩, ⟨"(\\'".toList, none, some '\''⟩,
      ⟨[], none, some ']'⟩, ⟨[], none, some ')'⟩, ⟨['c'], none, none⟩], none) := by rfl

example : parseDelimiters '\\' defaults "\"([{'\\\"\"".toList =
    .ok ([⟨[], some '"', none⟩, ⟨"([{'\\\"".toList, none, some '"'⟩], none) := by rfl

example : parseDelimiters '\\' defaults "{([])}".toList =
    .ok ([⟨[], some '{', none⟩, ⟨[], some '(', none⟩, ⟨[], some '[', none⟩, ⟨[], none, some ']'⟩, ⟨[], none, some ')'⟩,
      ⟨[], none, some '}'⟩], none) := by rfl

example : parseDelimiters '\\' defaults "a(b]".toList =
    .ok ([⟨['a'], some '(', none⟩], some (.mismatched 3 (some ')') ']')) := by rfl

example : parseDelimiters '\\' defaults "a([b".toList =
    .ok ([⟨['a'], some '(', none⟩, ⟨[], some '[', none⟩], some (.unclosed [']', ')'])) := by rfl

/-- The hypothesis of `C62_parse_unclosed` is needed: adding the named delimiter to `"\` gives an escaped
quote mark. -/
example : parseDelimiters '\\' defaults ['"', '\\'] = .ok ([⟨[], some '"', none⟩], some (.unclosed ['"'])) ∧
    parseDelimiters '\\' defaults ['"', '\\', '"'] = .ok ([⟨[], some '"', none⟩], some (.unclosed ['"'])) := ⟨rfl, rfl⟩

/-- `Valid` holds of some delimiters. -/
example : Valid [(⟨'(', ')', false, true⟩ : Delim Char), ⟨'\'', '\'', true, false⟩] '\\' :=
  ⟨by simp, by simp⟩

end Big.DP
