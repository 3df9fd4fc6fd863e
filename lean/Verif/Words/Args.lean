import Verif.Words.ArgsModel
import Verif.Multisplit.Args
import Verif.Multisplit.Norm
/-! # C84: what may be passed to gently_title and normalize_whitespace -/
namespace Big.Words
open Big.MS (Elem SepArg Kind CallErr Fits Proper strKind bytesKind)
variable {α : Type} [DecidableEq α]

/-! ### Specification -/

/-- The strings an argument stands for, by the documentation: a str or bytes of the type of s its characters, an iterable
of strings of the type of s its elements. -/
inductive Lists (K : Kind α) : SepArg → List (List α) → Prop
  | text {a t} : K.text a = some t → Lists K a (t.map (fun c => [c]))
  | coll {l ts} : Fits K l ts → Lists K (.coll l) ts
  | iter {l ts} : Fits K l ts → Lists K (.iter l) ts

/-- The test `f` is the one `a` asks for: the default one for None, else that for the characters listed. -/
inductive Asks (K : Kind α) (dflt : α → Bool) : SepArg → (α → Bool) → Prop
  | dflt : Asks K dflt .none dflt
  | listed {a ts f} : Lists K a ts → ts ≠ [] → [] ∉ ts → (∀ c, f c = true ↔ [c] ∈ ts) → Asks K dflt a f

/-- One of the two types of strings. -/
inductive ProperNorm : {α : Type} → NormKind α → Prop
  | str : ProperNorm strNorm
  | bytes : ProperNorm bytesNorm

/-- The separators: None stands for whitespace without CR LF. -/
inductive Separators (N : NormKind α) : SepArg → List (List α) → Prop
  | none : Separators N .none N.noCrlf
  | listed {a ts} : Lists N.toKind a ts → Separators N a ts

/-- The replacement: None stands for one space. -/
inductive Replacement (N : NormKind α) : SepArg → List α → Prop
  | none : Replacement N .none [N.space]
  | text {r t} : N.text r = some t → Replacement N r t

/-! ### Lemmas -/

theorem lists_facts {K : Kind α} (hK : Proper K) {a : SepArg} {ts : List (List α)} (h : Lists K a ts) : a ≠ .none := by
  obtain ⟨_, f2, _⟩ := Big.MS.proper_facts hK
  cases h with
  | text h => rintro rfl; rw [f2] at h; simp at h
  | coll => simp
  | iter => simp

theorem fits_nil {K : Kind α} {l : List Elem} {ts : List (List α)} (h : Fits K l ts) : l = [] ↔ ts = [] := by
  have := congrArg List.length h
  simp at this
  rw [← List.length_eq_zero_iff, ← List.length_eq_zero_iff, this]

theorem map_some_inj : ∀ {l l' : List (List α)}, l.map some = l'.map some → l = l'
  | [], [], _ => rfl
  | [], _ :: _, h => by simp at h
  | _ :: _, [], h => by simp at h
  | a :: l, b :: l', h => by
    simp only [List.map_cons, List.cons.injEq, Option.some.injEq] at h
    rw [h.1, map_some_inj h.2]

theorem strNorm_table : strNorm.noCrlf ≠ [] ∧ [] ∉ strNorm.noCrlf := by decide +kernel
theorem bytesNorm_table : bytesNorm.noCrlf ≠ [] ∧ [] ∉ bytesNorm.noCrlf := by decide +kernel

theorem quoteArg_asks {K : Kind α} (hK : Proper K) {dflt : α → Bool} {a : SepArg} {f : α → Bool} (h : Asks K dflt a f) :
    quoteArg K dflt a = .ok f := by
  obtain ⟨f1, f2, f3, f4, f5, f6, f7⟩ := Big.MS.proper_facts hK
  cases h with
  | dflt => simp [quoteArg, f2, f3]
  | @listed _ ts _ h hne he hf =>
    cases h with
    | @text _ t ht =>
      have : t ≠ [] := by rintro rfl; simp at hne
      simp only [quoteArg, ht, List.isEmpty_iff, this, if_false]
      congr 1
      funext c
      rw [Bool.eq_iff_iff, hf]
      simp
    | @coll l _ h =>
      have hl : l ≠ [] := fun h0 => hne ((fits_nil h).1 h0)
      simp only [quoteArg, f5 l, Bool.false_eq_true, if_false, Big.MS.go_ok.2 ⟨h, he⟩, List.isEmpty_iff, hl]
      congr 1
      funext c
      rw [Bool.eq_iff_iff, hf]
      simp
    | @iter l _ h =>
      simp only [quoteArg, f6 l, Bool.false_eq_true, if_false, Big.MS.go_ok.2 ⟨h, he⟩, Except.map]
      congr 1
      funext c
      rw [Bool.eq_iff_iff, hf]
      simp

/-- Which errors the check of the elements raises. -/
theorem go_error {K : Kind α} : ∀ {l : List Elem} {e : CallErr}, Big.MS.stripSeps.go K l = .error e →
    (e = .typeError → ∃ o ∈ l, K.elem o = none) ∧ (e = .valueError → ∃ o ∈ l, K.elem o = some [])
  | [], e, h => by simp [Big.MS.stripSeps.go] at h
  | o :: l, e, h => by
    unfold Big.MS.stripSeps.go at h
    cases ho : K.elem o with
    | none =>
      rw [ho] at h
      simp only [Except.error.injEq] at h
      subst h
      exact ⟨fun _ => ⟨o, by simp, ho⟩, by simp⟩
    | some t =>
      rw [ho] at h
      dsimp only at h
      by_cases ht : t = []
      · subst ht
        simp only [List.isEmpty_nil, if_true, Except.error.injEq] at h
        subst h
        exact ⟨by simp, fun _ => ⟨o, by simp, ho⟩⟩
      · rw [if_neg (by simpa using ht)] at h
        cases hg : Big.MS.stripSeps.go K l with
        | ok x => rw [hg] at h; simp [Except.map] at h
        | error e' =>
          rw [hg] at h
          simp only [Except.map, Except.error.injEq] at h
          subst h
          obtain ⟨h1, h2⟩ := go_error hg
          exact ⟨fun he => by obtain ⟨o', hm, hx⟩ := h1 he; exact ⟨o', by simp [hm], hx⟩,
            fun he => by obtain ⟨o', hm, hx⟩ := h2 he; exact ⟨o', by simp [hm], hx⟩⟩

theorem fits_elem {K : Kind α} {l : List Elem} {ts : List (List α)} (h : Fits K l ts) :
    (∀ o ∈ l, K.elem o ≠ none) ∧ ∀ t, t ∈ ts ↔ ∃ o ∈ l, K.elem o = some t := by
  unfold Fits at h
  constructor
  · intro o ho hx
    have : K.elem o ∈ ts.map some := by rw [← h]; exact List.mem_map_of_mem ho
    rw [hx] at this
    simp at this
  · intro t
    have : some t ∈ ts.map some ↔ some t ∈ l.map K.elem := by rw [h]
    simpa using this

/-! ### C84, gently_title -/

/-- C84, for str and bytes: None stands for the default characters; a string of the type of s for its characters; an
iterable of strings for its elements; and the text is capitalised accordingly (C46 says how). -/
theorem C84_gently_title {K : Kind α} (hK : Proper K) (E : TitleEnv α) (s : List α) {a d : SepArg} {apos quote : α → Bool}
    (ha : Asks K E.defApos a apos) (hd : Asks K E.defQuote d quote) :
    gentlyTitleCall K E s a d = .ok (gentlyLoop E apos quote .afterSpace s) := by
  unfold gentlyTitleCall
  rw [quoteArg_asks hK ha, quoteArg_asks hK hd]

/-- What `quoteArg` refuses. -/
theorem quoteArg_refuses {K : Kind α} (hK : Proper K) (dflt : α → Bool) (a : SepArg)
    (h : ∀ f, ¬ Asks K dflt a f) (hi : a ≠ .iter []) :
    (∃ e, quoteArg K dflt a = .error e) ∧
    ((∃ ts, Lists K a ts) → quoteArg K dflt a = .error .valueError) ∧
    (quoteArg K dflt a = .error .typeError → ¬ ∃ ts, Lists K a ts) := by
  classical
  obtain ⟨f1, f2, f3, f4, f5, f6, f7⟩ := Big.MS.proper_facts hK
  have hbad : ∀ ts, Lists K a ts → ts = [] ∨ [] ∈ ts := by
    intro ts hl
    apply Classical.byContradiction
    intro hn
    rw [not_or] at hn
    exact h (fun c => ts.contains [c]) (.listed hl hn.1 hn.2 (fun c => by simp))
  have key : (∃ ts, Lists K a ts) → quoteArg K dflt a = .error .valueError := by
    rintro ⟨ts, hl⟩
    have hb := hbad ts hl
    cases hl with
    | @text _ t ht =>
      have : t = [] := by
        rcases hb with hb | hb
        · simpa using hb
        · simp at hb
      simp [quoteArg, ht, this]
    | @coll l _ hf =>
      simp only [quoteArg, f5 l, Bool.false_eq_true, if_false]
      cases hg : Big.MS.stripSeps.go K l with
      | error e =>
        cases e with
        | valueError => rfl
        | typeError =>
          obtain ⟨o, ho, hx⟩ := (go_error hg).1 rfl
          exact absurd hx ((fits_elem hf).1 o ho)
      | ok ts' =>
        obtain ⟨h1, h2⟩ := Big.MS.go_ok.1 hg
        have e : ts' = ts := by
          have : ts'.map some = ts.map some := by rw [← h1, hf]
          exact map_some_inj this
        subst e
        have : ts' = [] := by
          rcases hb with hb | hb
          · exact hb
          · exact absurd hb h2
        have : l = [] := (fits_nil hf).2 this
        simp [this]
    | @iter l _ hf =>
      simp only [quoteArg, f6 l, Bool.false_eq_true, if_false]
      cases hg : Big.MS.stripSeps.go K l with
      | error e =>
        cases e with
        | valueError => rfl
        | typeError =>
          obtain ⟨o, ho, hx⟩ := (go_error hg).1 rfl
          exact absurd hx ((fits_elem hf).1 o ho)
      | ok ts' =>
        obtain ⟨h1, h2⟩ := Big.MS.go_ok.1 hg
        have e : ts' = ts := by
          have : ts'.map some = ts.map some := by rw [← h1, hf]
          exact map_some_inj this
        subst e
        rcases hb with hb | hb
        · exact absurd (congrArg SepArg.iter ((fits_nil hf).2 hb)) hi
        · exact absurd hb h2
  refine ⟨?_, key, fun ht hl => by rw [key hl] at ht; simp at ht⟩
  by_cases hl : ∃ ts, Lists K a ts
  · exact ⟨_, key hl⟩
  · cases ht : K.text a with
    | some t => exact absurd ⟨_, .text ht⟩ hl
    | none =>
      simp only [quoteArg, ht]
      by_cases hf : K.foreign a = true
      · rw [if_pos hf]
        split <;> exact ⟨_, rfl⟩
      · rw [if_neg hf]
        cases a with
        | none => exact absurd .dflt (h dflt)
        | coll l =>
          dsimp only
          cases hg : Big.MS.stripSeps.go K l with
          | error e => exact ⟨e, rfl⟩
          | ok ts => exact absurd ⟨_, .coll (Big.MS.go_ok.1 hg).1⟩ hl
        | iter l =>
          dsimp only
          cases hg : Big.MS.stripSeps.go K l with
          | error e => exact ⟨e, rfl⟩
          | ok ts => exact absurd ⟨_, .iter (Big.MS.go_ok.1 hg).1⟩ hl
        | _ => exact ⟨_, rfl⟩

/-- C106: everything else is refused: nothing listed or an empty string listed with ValueError, what does not list strings of
the type of s with TypeError or, if that is empty too or lists an empty string before, ValueError. (An iterator that yields
nothing is not refused, see `C106_empty_iterator`.) -/
theorem C106_gently_title_refuses {K : Kind α} (hK : Proper K) (E : TitleEnv α) (s : List α) (a d : SepArg)
    (h : (∀ f, ¬ Asks K E.defApos a f) ∨ ∀ f, ¬ Asks K E.defQuote d f) (hi : a ≠ .iter [] ∧ d ≠ .iter []) :
    (∃ e, gentlyTitleCall K E s a d = .error e) ∧
    ((∀ x, x = a ∨ x = d → x = .none ∨ ∃ ts, Lists K x ts) → gentlyTitleCall K E s a d = .error .valueError) := by
  classical
  by_cases ha : ∃ f, Asks K E.defApos a f
  · obtain ⟨f, ha⟩ := ha
    have hd : ∀ f, ¬ Asks K E.defQuote d f := by
      rcases h with h | h
      · exact absurd ha (h f)
      · exact h
    obtain ⟨⟨e, he⟩, h2, _⟩ := quoteArg_refuses hK E.defQuote d hd hi.2
    unfold gentlyTitleCall
    rw [quoteArg_asks hK ha]
    refine ⟨⟨e, by simp [he]⟩, fun hx => ?_⟩
    rcases hx d (.inr rfl) with rfl | hl
    · exact absurd .dflt (hd E.defQuote)
    · rw [h2 hl]
  · have ha' : ∀ f, ¬ Asks K E.defApos a f := fun f hf => ha ⟨f, hf⟩
    obtain ⟨⟨e, he⟩, h2, _⟩ := quoteArg_refuses hK E.defApos a ha' hi.1
    unfold gentlyTitleCall
    refine ⟨⟨e, by simp [he]⟩, fun hx => ?_⟩
    rcases hx a (.inl rfl) with rfl | hl
    · exact absurd .dflt (ha' E.defApos)
    · rw [h2 hl]

/-- C84: an argument of the other type of string, or one that is no iterable, is refused with TypeError; the empty string
of the other type with ValueError. -/
theorem C84_gently_title_wrong_type {K : Kind α} (hK : Proper K) (E : TitleEnv α) (s : List α) (a d : SepArg) :
    (K.foreign a = true → foreignEmpty a = false → gentlyTitleCall K E s a d = .error .typeError) ∧
    (∀ b, a = .plain b → gentlyTitleCall K E s a d = .error .typeError) := by
  obtain ⟨f1, f2, f3, f4, f5, f6, f7⟩ := Big.MS.proper_facts hK
  constructor
  · intro hf he
    have ht : K.text a = none := by
      cases ht : K.text a with
      | none => rfl
      | some t => rw [f4 a t ht] at hf; simp at hf
    simp [gentlyTitleCall, quoteArg, ht, hf, he]
  · rintro b rfl
    simp [gentlyTitleCall, quoteArg, f7 b]

/-- C106 fails: "if apostrophes is false" the default is to be used; an empty string, tuple or list, and 0 or False, raise an
exception instead. -/
theorem C106_false_is_not_the_default {K : Kind α} (hK : Proper K) (E : TitleEnv α) (s : List α) (d : SepArg) :
    (∀ a, K.text a = some [] → gentlyTitleCall K E s a d = .error .valueError) ∧
    gentlyTitleCall K E s (.coll []) d = .error .valueError ∧
    gentlyTitleCall K E s (.plain false) d = .error .typeError := by
  obtain ⟨f1, f2, f3, f4, f5, f6, f7⟩ := Big.MS.proper_facts hK
  refine ⟨fun a ha => by simp [gentlyTitleCall, quoteArg, ha], ?_, ?_⟩
  · simp [gentlyTitleCall, quoteArg, f5 [], Big.MS.stripSeps.go]
  · simp [gentlyTitleCall, quoteArg, f7 false]

/-- C106 fails: an iterator that yields nothing is accepted, and then there are no apostrophes. -/
theorem C106_empty_iterator {K : Kind α} (hK : Proper K) (E : TitleEnv α) (s : List α) {d : SepArg} {quote : α → Bool}
    (hd : Asks K E.defQuote d quote) :
    gentlyTitleCall K E s (.iter []) d = .ok (gentlyLoop E (fun _ => false) quote .afterSpace s) := by
  obtain ⟨f1, f2, f3, f4, f5, f6, f7⟩ := Big.MS.proper_facts hK
  unfold gentlyTitleCall
  rw [quoteArg_asks hK hd]
  simp [quoteArg, f6 [], Big.MS.stripSeps.go, Except.map]

/-- C106 fails: strings of several characters are accepted, but never found in the text, whatever it is: they might as well
be left out. -/
theorem C106_long_strings_are_ignored {K : Kind α} (hK : Proper K) (E : TitleEnv α) (s : List α) {l l' : List Elem}
    {ts ts' : List (List α)} (h : Fits K l ts) (h' : Fits K l' ts') (hl : l ≠ []) (he : [] ∉ ts)
    (hlong : ∀ t ∈ ts', 2 ≤ t.length) (d : SepArg) :
    gentlyTitleCall K E s (.coll (l ++ l')) d = gentlyTitleCall K E s (.coll l) d := by
  obtain ⟨f1, f2, f3, f4, f5, f6, f7⟩ := Big.MS.proper_facts hK
  have hf : Fits K (l ++ l') (ts ++ ts') := by
    unfold Fits at *
    rw [List.map_append, List.map_append, h, h']
  have hne : [] ∉ ts ++ ts' := by
    intro hm
    rcases List.mem_append.1 hm with hm | hm
    · exact he hm
    · have := hlong _ hm; simp at this
  have htne : ts ≠ [] := fun h0 => hl ((fits_nil h).2 h0)
  have e1 := quoteArg_asks hK (dflt := E.defApos) (f := fun c => ts.contains [c]) (.listed (.coll h) htne he (fun c => by simp))
  have e2 := quoteArg_asks hK (dflt := E.defApos) (f := fun c => ts.contains [c])
    (.listed (.coll hf) (by simp [htne]) hne (fun c => by
      rw [List.contains_iff_mem, List.mem_append]
      constructor
      · exact .inl
      · rintro (h | h)
        · exact h
        · have := hlong _ h; simp at this))
  unfold gentlyTitleCall
  rw [e1, e2]

/-- So the UTF-8 apostrophes the library exports do not help with bytes: o’toole becomes O’toole, not O’Toole; listed as an
iterable, as documented, or as one bytes object. The ASCII apostrophe does. -/
theorem C106_utf8_apostrophes :
    gentlyTitleCall bytesKind bytesTitle [111, 0xe2, 0x80, 0x99, 116, 111] (.coll [.bytes [39], .bytes [0xe2, 0x80, 0x99]]) .none =
      .ok [79, 0xe2, 0x80, 0x99, 116, 111] ∧
    gentlyTitleCall bytesKind bytesTitle [111, 0xe2, 0x80, 0x99, 116, 111] (.bytes [39, 0xe2, 0x80, 0x99]) .none =
      .ok [79, 0xe2, 0x80, 0x99, 116, 111] ∧
    gentlyTitleCall bytesKind bytesTitle [111, 39, 116, 111] .none .none = .ok [79, 39, 84, 111] := by
  refine ⟨?_, ?_, ?_⟩ <;> decide +kernel

/-! ### C84, normalize_whitespace -/

theorem normKind_proper {N : NormKind α} (hN : ProperNorm N) : Proper N.toKind := by
  cases hN
  · exact .str
  · exact .bytes

theorem norm_facts {N : NormKind α} (hN : ProperNorm N) :
    Big.MS.CacheOK N.cache ∧ N.noCrlf ≠ [] ∧ [] ∉ N.noCrlf ∧ (N.fast = true → Big.MS.SpaceSet N.sp N.noCrlf) := by
  cases hN
  · refine ⟨Big.MS.C72_reversed_tables.1, strNorm_table.1, strNorm_table.2, fun _ => ?_⟩
    exact Big.MS.C43_whitespace_tables.2.1
  · refine ⟨Big.MS.C72_reversed_tables.2, bytesNorm_table.1, bytesNorm_table.2, fun h => ?_⟩
    simp [bytesNorm] at h

theorem normSeps_of {N : NormKind α} (hN : ProperNorm N) {a : SepArg} {seps : List (List α)} (ha : Separators N a seps)
    (hne : seps ≠ []) (he : [] ∉ seps) : normSeps N a = .ok seps := by
  obtain ⟨f1, f2, f3, f4, f5, f6, f7⟩ := Big.MS.proper_facts (normKind_proper hN)
  cases ha with
  | none => simp [normSeps, f2, f3]
  | listed h =>
    cases h with
    | text ht => simp [normSeps, ht]
    | @coll l _ h => simp [normSeps, f5 l, Big.MS.go_ok.2 ⟨h, he⟩, hne]
    | @iter l _ h => simp [normSeps, f6 l, Big.MS.go_ok.2 ⟨h, he⟩, hne]

theorem normRepl_of {N : NormKind α} (hN : ProperNorm N) {r : SepArg} {repl : List α} (hr : Replacement N r repl) :
    normRepl N r = .ok repl := by
  obtain ⟨f1, f2, f3, f4, f5, f6, f7⟩ := Big.MS.proper_facts (normKind_proper hN)
  cases hr with
  | none => rfl
  | text h =>
    cases r with
    | none => rw [f2] at h; simp at h
    | _ => simp [normRepl, h]

/-- C84, for str and bytes: whatever lists the separators, an iterator too, every maximal run of them becomes one
replacement and everything else is unchanged; None stands for whitespace, and for one space. -/
theorem C84_normalize_whitespace {N : NormKind α} (hN : ProperNorm N) (s : List α) {a r : SepArg} {seps : List (List α)}
    {repl : List α} (ha : Separators N a seps) (hr : Replacement N r repl) (hne : seps ≠ []) (he : [] ∉ seps) :
    ∃ l, Big.MS.Spec.Splits seps false false s l ∧
      normalizeCall N s a r = .ok (if s = [] then [] else Big.MS.Spec.replaced repl l) := by
  obtain ⟨hc, g1, g2, g3⟩ := norm_facts hN
  have e1 := normSeps_of hN ha hne he
  have e2 := normRepl_of hN hr
  by_cases hfast : N.fast = true ∧ a = .none
  · obtain ⟨hf, rfl⟩ := hfast
    have hs : seps = N.noCrlf := by
      have : normSeps N .none = .ok N.noCrlf := by
        obtain ⟨f1, f2, f3, _⟩ := Big.MS.proper_facts (normKind_proper hN)
        simp [normSeps, f2, f3]
      rw [e1] at this
      simpa using this
    subst hs
    obtain ⟨l, h1, h2⟩ := Big.MS.C43_runs_become_the_replacement hc hne he N.sp true (fun _ => g3 hf) s repl
    refine ⟨l, h1, ?_⟩
    unfold Big.MS.normalizeWhitespace at h2
    rw [if_neg he, if_neg hne] at h2
    unfold normalizeCall
    rw [e1, e2]
    dsimp only
    by_cases hs : s = []
    · subst hs; rfl
    · rw [if_neg hs, if_pos rfl, if_neg hs] at h2
      rw [if_neg (by simpa using hs), if_pos (by simp [hf, isNone]), if_neg hs]
      simpa using h2
  · obtain ⟨l, h1, h2⟩ := Big.MS.C43_runs_become_the_replacement hc hne he N.sp false (by simp) s repl
    refine ⟨l, h1, ?_⟩
    unfold Big.MS.normalizeWhitespace at h2
    rw [if_neg he, if_neg hne] at h2
    unfold normalizeCall
    rw [e1, e2]
    dsimp only
    by_cases hs : s = []
    · subst hs; rfl
    · rw [if_neg hs, if_neg (by simp), if_neg hs] at h2
      have hcond : ¬ (N.fast && isNone a) = true := by
        intro h
        rw [Bool.and_eq_true] at h
        apply hfast
        refine ⟨h.1, ?_⟩
        cases a <;> first | rfl | (exact absurd h.2 (by simp [isNone]))
      rw [if_neg (by simpa using hs), if_neg hcond, if_neg (by simpa using hne), if_neg hs]
      simpa using h2

/-- C84: everything else is refused, even if s is empty: separators or a replacement of another type with TypeError,
an empty separator or none with ValueError. (No separators given by an empty string are refused only if s is not
empty.) -/
theorem C84_normalize_whitespace_refuses {N : NormKind α} (hN : ProperNorm N) (s : List α) (a r : SepArg) :
    ((∀ seps, Separators N a seps → seps = [] ∨ [] ∈ seps) → (s ≠ [] ∨ N.text a = none) →
      ∃ e, normalizeCall N s a r = .error e) ∧
    ((∃ seps, Separators N a seps ∧ (seps = [] ∨ [] ∈ seps)) → (∃ repl, Replacement N r repl) →
      (s ≠ [] ∨ N.text a = none) → normalizeCall N s a r = .error .valueError) ∧
    ((∃ seps, Separators N a seps ∧ seps ≠ [] ∧ [] ∉ seps) → (¬ ∃ repl, Replacement N r repl) →
      normalizeCall N s a r = .error .typeError) ∧
    (N.foreign a = true → foreignEmpty a = false → normalizeCall N s a r = .error .typeError) ∧
    (∀ b, a = .plain b → normalizeCall N s a r = .error .typeError) := by
  classical
  have hK := normKind_proper hN
  obtain ⟨f1, f2, f3, f4, f5, f6, f7⟩ := Big.MS.proper_facts hK
  obtain ⟨_, g1, g2, _⟩ := norm_facts hN
  -- what normSeps does with a bad argument
  have hseps : ∀ seps, Separators N a seps → (seps = [] ∨ [] ∈ seps) →
      normSeps N a = .error .valueError ∨ ∃ t, N.text a = some t ∧ t = [] := by
    intro seps h hb
    cases h with
    | none => rcases hb with hb | hb
              · exact absurd hb g1
              · exact absurd hb g2
    | listed h =>
      cases h with
      | @text _ t ht =>
        right
        refine ⟨t, ht, ?_⟩
        rcases hb with hb | hb
        · simpa using hb
        · simp at hb
      | @coll l _ hf =>
        left
        simp only [normSeps, f5 l, Bool.false_eq_true, if_false]
        cases hg : Big.MS.stripSeps.go N.toKind l with
        | error e =>
          cases e with
          | valueError => rfl
          | typeError =>
            obtain ⟨o, ho, hx⟩ := (go_error hg).1 rfl
            exact absurd hx ((fits_elem hf).1 o ho)
        | ok ts' =>
          obtain ⟨h1, h2⟩ := Big.MS.go_ok.1 hg
          have e : ts'.map some = seps.map some := by rw [← h1, hf]
          have e := map_some_inj e
          subst e
          have : ts' = [] := by
            rcases hb with hb | hb
            · exact hb
            · exact absurd hb h2
          simp [this]
      | @iter l _ hf =>
        left
        simp only [normSeps, f6 l, Bool.false_eq_true, if_false]
        cases hg : Big.MS.stripSeps.go N.toKind l with
        | error e =>
          cases e with
          | valueError => rfl
          | typeError =>
            obtain ⟨o, ho, hx⟩ := (go_error hg).1 rfl
            exact absurd hx ((fits_elem hf).1 o ho)
        | ok ts' =>
          obtain ⟨h1, h2⟩ := Big.MS.go_ok.1 hg
          have e : ts'.map some = seps.map some := by rw [← h1, hf]
          have e := map_some_inj e
          subst e
          have : ts' = [] := by
            rcases hb with hb | hb
            · exact hb
            · exact absurd hb h2
          simp [this]
  have htext : N.text a = some [] → s ≠ [] → (∃ e, normalizeCall N s a r = .error e) ∧
      ((∃ repl, Replacement N r repl) → normalizeCall N s a r = .error .valueError) := by
    intro ht hs
    have hane : a ≠ .none := by rintro rfl; rw [f2] at ht; simp at ht
    have hcond : (N.fast && isNone a) = false := by
      cases a <;> first | (exact absurd rfl hane) | simp [isNone]
    have e : normSeps N a = .ok [] := by simp [normSeps, ht]
    have hx : ∀ repl, normRepl N r = .ok repl → normalizeCall N s a r = .error .valueError := by
      intro repl hr
      unfold normalizeCall
      rw [e, hr]
      dsimp only
      rw [if_neg (by simpa using hs), hcond]
      rfl
    refine ⟨?_, fun ⟨repl, hr⟩ => hx repl (normRepl_of hN hr)⟩
    cases hr : normRepl N r with
    | error e' => exact ⟨e', by simp [normalizeCall, e, hr]⟩
    | ok repl => exact ⟨_, hx repl hr⟩
  refine ⟨?_, ?_, ?_, ?_, ?_⟩
  · intro h hs
    by_cases hl : ∃ seps, Separators N a seps
    · obtain ⟨seps, hl⟩ := hl
      rcases hseps seps hl (h seps hl) with hx | ⟨t, ht, rfl⟩
      · exact ⟨.valueError, by simp [normalizeCall, hx]⟩
      · rcases hs with hs | hs
        · exact (htext ht hs).1
        · rw [ht] at hs; simp at hs
    · have : ∃ e, normSeps N a = .error e := by
        cases ht : N.text a with
        | some t => exact absurd ⟨_, .listed (.text ht)⟩ hl
        | none =>
          simp only [normSeps, ht]
          by_cases hf : N.foreign a = true
          · rw [if_pos hf]
            split <;> exact ⟨_, rfl⟩
          · rw [if_neg hf]
            cases a with
            | none => exact absurd ⟨_, .none⟩ hl
            | coll l =>
              dsimp only
              cases hg : Big.MS.stripSeps.go N.toKind l with
              | error e => exact ⟨e, rfl⟩
              | ok ts => exact absurd ⟨_, .listed (.coll (Big.MS.go_ok.1 hg).1)⟩ hl
            | iter l =>
              dsimp only
              cases hg : Big.MS.stripSeps.go N.toKind l with
              | error e => exact ⟨e, rfl⟩
              | ok ts => exact absurd ⟨_, .listed (.iter (Big.MS.go_ok.1 hg).1)⟩ hl
            | _ => exact ⟨_, rfl⟩
      obtain ⟨e, he⟩ := this
      exact ⟨e, by simp [normalizeCall, he]⟩
  · rintro ⟨seps, hl, hb⟩ hr hs
    rcases hseps seps hl hb with hx | ⟨t, ht, rfl⟩
    · simp [normalizeCall, hx]
    · rcases hs with hs | hs
      · exact (htext ht hs).2 hr
      · rw [ht] at hs; simp at hs
  · rintro ⟨seps, hl, hne, he⟩ hr
    have hx : normRepl N r = .error .typeError := by
      cases r with
      | none => exact absurd ⟨_, .none⟩ hr
      | _ =>
        simp only [normRepl]
        split
        · rename_i ht; exact absurd ⟨_, .text ht⟩ hr
        · rfl
    simp [normalizeCall, normSeps_of hN hl hne he, hx]
  · intro hf he
    have ht : N.text a = none := by
      cases ht : N.text a with
      | none => rfl
      | some t => rw [f4 a t ht] at hf; simp at hf
    simp [normalizeCall, normSeps, ht, hf, he]
  · rintro b rfl
    simp [normalizeCall, normSeps, f7 b]

/-- C84: the defaults, by code points: a space; whitespace without CR LF; the apostrophes and quotation marks the
documentation lists; and what counts as space, as a parenthesis, as D or O, and as upper case of a byte. -/
theorem C84_defaults (upper : Char → List Char) :
    (strNorm.space.toNat = 32 ∧ bytesNorm.space.toNat = 32 ∧ Big.MS.Lists strNorm.noCrlf false Big.MS.PySpace ∧
      Big.MS.ListsBytes bytesNorm.noCrlf false Big.MS.ByteSpace) ∧
    (∀ c, (strTitle upper).defApos c = true ↔ c.toNat = 39 ∨ 0x2018 ≤ c.toNat ∧ c.toNat ≤ 0x201b) ∧
    (∀ c, (strTitle upper).defQuote c = true ↔ c.toNat = 34 ∨ 0x201c ≤ c.toNat ∧ c.toNat ≤ 0x201f ∨ c.toNat = 0xab ∨
      c.toNat = 0xbb ∨ c.toNat = 0x2039 ∨ c.toNat = 0x203a) ∧
    (∀ c, (strTitle upper).space c = true ↔ Big.MS.PySpace c.toNat) ∧
    (strTitle upper).lparen.toNat = 40 ∧ (∀ c, (strTitle upper).upper c = upper c) ∧
    (∀ c, (strTitle upper).isDO [c] = true ↔ c.toNat = 68 ∨ c.toNat = 79) ∧
    (∀ b, bytesTitle.defApos b = true ↔ b.toNat = 39) ∧ (∀ b, bytesTitle.defQuote b = true ↔ b.toNat = 34) ∧
    (∀ b, bytesTitle.space b = true ↔ Big.MS.ByteSpace b.toNat) ∧ bytesTitle.lparen.toNat = 40 ∧
    (∀ b, ∃ b', bytesTitle.upper b = [b'] ∧
      b'.toNat = if 97 ≤ b.toNat ∧ b.toNat ≤ 122 then b.toNat - 32 else b.toNat) ∧
    (∀ b, bytesTitle.isDO [b] = true ↔ b.toNat = 68 ∨ b.toNat = 79) := by
  have ch : ∀ (c d : Char), c = d ↔ c.toNat = d.toNat := fun c d =>
    ⟨fun h => by rw [h], fun h => Char.toNat_inj.1 h⟩
  have by' : ∀ (c d : UInt8), c = d ↔ c.toNat = d.toNat := fun c d => UInt8.toNat_inj.symm
  refine ⟨⟨rfl, rfl, Big.MS.C72_str_whitespace_tables.2.1, ?_⟩, ?_, ?_, ?_, rfl, fun _ => rfl, ?_, ?_, ?_, ?_, rfl, ?_, ?_⟩
  · exact Big.MS.C72_bytes_tables.2.1
  · intro c
    simp only [strTitle, List.contains_iff_mem, List.mem_cons, List.not_mem_nil, or_false, ch, Char.reduceToNat]
    omega
  · intro c
    simp only [strTitle, List.contains_iff_mem, List.mem_cons, List.not_mem_nil, or_false, ch, Char.reduceToNat]
    omega
  · intro c
    have := (Big.MS.C72_str_whitespace_tables.1.2 [c])
    simp [strTitle, Big.MS.isSpace] at this ⊢
    exact this
  · intro c
    simp [strTitle, ch]
  · intro b
    simp [bytesTitle, by']
  · intro b
    simp [bytesTitle, by']
  · intro b
    simp only [bytesTitle, Bool.or_eq_true, Bool.and_eq_true, decide_eq_true_eq, beq_iff_eq, by', UInt8.le_iff_toNat_le,
      Big.MS.ByteSpace, UInt8.reduceToNat]
    omega
  · intro b
    by_cases h : 97 ≤ b ∧ b ≤ 122
    · refine ⟨b - 32, by simp [bytesTitle, h], ?_⟩
      rw [UInt8.le_iff_toNat_le, UInt8.le_iff_toNat_le] at h
      simp only [UInt8.reduceToNat] at h
      rw [if_pos h, UInt8.toNat_sub_of_le _ _ (by rw [UInt8.le_iff_toNat_le]; simp only [UInt8.reduceToNat]; omega)]
      rfl
    · refine ⟨b, ?_, ?_⟩
      · simp only [bytesTitle]
        rw [if_neg (by simpa using h)]
      · rw [if_neg (by rw [UInt8.le_iff_toNat_le, UInt8.le_iff_toNat_le] at h; simpa using h)]
  · intro b
    simp [bytesTitle, by']

/-- C106: strings of the other type, as apostrophes (or as double quotes, if nothing is wrong with the apostrophes) and as
separators: TypeError, or ValueError for the empty string, whatever `s` is. -/
theorem C106_other_type (upper : Char → List Char) (s : List Char) (b : List UInt8) (u : List UInt8) (t : List Char)
    (r : SepArg) :
    (gentlyTitleCall strKind (strTitle upper) s (.bytes b) r = .error (if b = [] then .valueError else .typeError)) ∧
    (gentlyTitleCall strKind (strTitle upper) s .none (.bytes b) = .error (if b = [] then .valueError else .typeError)) ∧
    (normalizeCall strNorm s (.bytes b) r = .error (if b = [] then .valueError else .typeError)) ∧
    (gentlyTitleCall bytesKind bytesTitle u (.str t) r = .error (if t = [] then .valueError else .typeError)) ∧
    (gentlyTitleCall bytesKind bytesTitle u .none (.str t) = .error (if t = [] then .valueError else .typeError)) ∧
    (normalizeCall bytesNorm u (.str t) r = .error (if t = [] then .valueError else .typeError)) := by
  refine ⟨?_, ?_, ?_, ?_, ?_, ?_⟩ <;>
    first
      | (cases b <;> rfl)
      | (cases t <;> rfl)

/-- The hypotheses hold: the apostrophe given as a list of one str; separators given by an iterator over bytes. -/
example : Asks strKind (fun _ => false) (.coll [.str ['\'']]) (fun c => c == '\'') :=
  .listed (ts := [['\'']]) (.coll rfl) (by simp) (by simp) (by simp)
example : Separators bytesNorm (.iter [.bytes [45, 45], .bytes [32]]) [[45, 45], [32]] ∧
    Replacement bytesNorm (.bytes [95]) [95] := ⟨.listed (.iter rfl), .text rfl⟩
example : normalizeCall bytesNorm [97, 45, 45, 32, 98] (.iter [.bytes [45, 45], .bytes [32]]) (.bytes [95]) =
    .ok [97, 95, 98] := by decide +kernel

end Big.Words
