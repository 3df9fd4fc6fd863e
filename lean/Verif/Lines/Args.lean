import Verif.Lines.ArgsModel
import Verif.Lines.Filters
import Verif.Lines.Strip
/-!
# C131, C132: the comment markers, and the forms of multiline_quotes
-/
namespace Big.Lines
open Big.MS (Elem)
variable {α μ : Type} [DecidableEq α]

/-- What is known of a type of lines: it is str or bytes. -/
structure LProper (K : LKind α) : Prop where
  elem_type : ∀ e w, K.elem e = some w → elemOfType K.isBytes e = true
  type_elem : ∀ e, elemOfType K.isBytes e = true → ∃ w, K.elem e = some w

theorem strL_proper : LProper strL := by
  constructor
  · intro e w h; cases e <;> simp_all [strL, elemOfType]
  · intro e h; cases e <;> simp_all [strL, elemOfType]

theorem bytesL_proper : LProper bytesL := by
  constructor
  · intro e w h; cases e <;> simp_all [bytesL, elemOfType]
  · intro e h; cases e <;> simp_all [bytesL, elemOfType]

/-- The elements that an argument has when it is iterated over: the characters of a str, the bytes (as bytes objects) of a
bytes object, the elements of any other iterable. -/
def MArg.elements : MArg → Option (List Elem)
  | .str t => some (t.map (fun c => .str [c]))
  | .bytes t => some (t.map (fun c => .bytes [c]))
  | .seq l => some l
  | .noIndex l _ => some l
  | .dict l => some l
  | .plain _ => none

/-- The argument is an iterable of these markers, all of the type of the lines. -/
def MArg.Means (K : LKind α) (a : MArg) (markers : List (List α)) : Prop :=
  ∃ l, a.elements = some l ∧ l.map K.elem = markers.map some

/-- It can be indexed with 0: a str, bytes object, list or tuple. -/
def MArg.Indexable : MArg → Prop
  | .str _ | .bytes _ | .seq _ => True
  | _ => False

theorem elems_some {K : LKind α} {l : List Elem} {ms : List (List α)} : elems K l = some ms ↔ l.map K.elem = ms.map some := by
  induction l generalizing ms with
  | nil => cases ms <;> simp [elems]
  | cons e l ih =>
    simp only [elems, List.mapM_cons, List.map_cons] at *
    cases h : K.elem e with
    | none =>
      cases ms <;> simp
    | some w =>
      cases hl : List.mapM K.elem l with
      | none =>
        cases ms with
        | nil => simp
        | cons m ms =>
          have h2 : ¬ (l.map K.elem = ms.map some) := fun h' => by
            have := (ih (ms := ms)).2 h'
            rw [hl] at this
            cases this
          simp [h2]
      | some t =>
        have := (ih (ms := t)).1 hl
        cases ms with
        | nil => simp
        | cons m ms =>
          have h2 := (ih (ms := ms))
          rw [hl] at h2
          simp at h2
          simp [h2]

theorem allOfType {K : LKind α} (hK : LProper K) {l : List Elem} {ms : List (List α)} (h : l.map K.elem = ms.map some) :
    l.all (elemOfType K.isBytes) = true := by
  induction l generalizing ms with
  | nil => rfl
  | cons e l ih =>
    cases ms with
    | nil => simp at h
    | cons m ms =>
      simp only [List.map_cons, List.cons.injEq] at h
      simp only [List.all_cons, Bool.and_eq_true]
      exact ⟨hK.elem_type e m h.1, ih h.2⟩

theorem isBytes_of_type {b : Bool} {e : Elem} (h : elemOfType b e = true) : elemIsBytes e = b := by
  cases e <;> simp_all [elemOfType, elemIsBytes]

/-- What the first look gives for good markers. -/
theorem lookAt_good {K : LKind α} (hK : LProper K) {a : MArg} {ms : List (List α)} (h : a.Means K ms) (hne : ms ≠ [])
    (hi : a.Indexable) : ∃ l, lookAt a = .ok (K.isBytes, l) ∧ l.map K.elem = ms.map some ∧ l ≠ [] := by
  obtain ⟨l, h1, h2⟩ := h
  have hl : l ≠ [] := by
    rintro rfl
    cases ms with
    | nil => exact hne rfl
    | cons => simp at h2
  have hall := allOfType hK h2
  cases a with
  | str t =>
    simp only [MArg.elements, Option.some.injEq] at h1
    subst h1
    cases t with
    | nil => simp at hl
    | cons c t =>
      simp only [List.map_cons, List.all_cons, Bool.and_eq_true] at hall
      have := isBytes_of_type hall.1
      refine ⟨_, ?_, h2, hl⟩
      simp [lookAt, ← this, elemIsBytes]
  | bytes t =>
    simp only [MArg.elements, Option.some.injEq] at h1
    subst h1
    cases t with
    | nil => simp at hl
    | cons c t =>
      simp only [List.map_cons, List.all_cons, Bool.and_eq_true] at hall
      have := isBytes_of_type hall.1
      refine ⟨_, ?_, h2, hl⟩
      simp [lookAt, ← this, elemIsBytes]
  | seq l' =>
    simp only [MArg.elements, Option.some.injEq] at h1
    subst h1
    cases l' with
    | nil => exact absurd rfl hl
    | cons e l =>
      simp only [List.all_cons, Bool.and_eq_true] at hall
      refine ⟨_, ?_, h2, hl⟩
      simp [lookAt, isBytes_of_type hall.1]
  | noIndex => exact absurd hi (by simp [MArg.Indexable])
  | dict => exact absurd hi (by simp [MArg.Indexable])
  | plain => exact absurd hi (by simp [MArg.Indexable])

/-- C131, for lines_filter_line_comment_lines: markers given as a str, bytes object, list or tuple are as good as
the tuple of them (C63 says what happens then). Other iterables are refused
(`C131_refuses_other_iterables`). -/
theorem C131_filter_markers {K : LKind α} (hK : LProper K) (E : Env α) (li : Stream α μ) {a : MArg}
    {markers : List (List α)} (h : a.Means K markers) (hne : markers ≠ []) (hi : a.Indexable) :
    filterCall K E li a = ofStream (Modifier.apply E li (.filterLineCommentLines markers)) := by
  obtain ⟨l, h1, h2, h3⟩ := lookAt_good hK h hne hi
  simp [filterCall, h1, allOfType hK h2, elems_some.2 h2]

theorem segmentsOf_markers (E : Env α) (m m' q ml : List (List α)) (e state line : List α) :
    segmentsOf E ⟨m, q, ml, e⟩ state line = segmentsOf E ⟨m', q, ml, e⟩ state line := rfl

theorem firstBad_good {K : LKind α} (hK : LProper K) {l : List Elem} {ms : List (List α)} (h : l.map K.elem = ms.map some) :
    firstBad l = false := by
  cases l with
  | nil => rfl
  | cons e l =>
    have := allOfType hK h
    cases e <;> simp_all [firstBad, elemOfType]

theorem commentOneT_eq (E : Env α) (a : Comments α) (ml : Multi α) (state : List α) (p : Pair α μ)
    (hml : ∀ lead, (∃ r, segmentsOf E a state p.2 = .ok r ∧ ∃ x ∈ r.1, x.1 = lead) → lead ≠ [] →
      (ml.has lead = true ↔ lead ∈ a.multilineQuotes)) :
    commentOneT E a ml state p = commentOne E a state p := by
  have key : ∀ (T : List (Big.SQ.Tuple α)) (e : Option Big.SQ.Err) (st l t : List α) s' lead trail,
      scan a.markers p.2 st l t T e = .ok (.noComment s' lead trail) → lead = l ∨ ∃ x ∈ T, x.1 = lead := by
    intro T
    induction T with
    | nil =>
      intro e st l t s' lead trail h
      cases e <;> simp [scan] at h
      exact .inl h.2.1.symm
    | cons x T ih =>
      intro e st l t s' lead trail h
      obtain ⟨x1, x2, x3⟩ := x
      have fin : ∀ st', scan a.markers p.2 st' x1 x3 T e = .ok (.noComment s' lead trail) →
          lead = l ∨ ∃ x ∈ (x1, x2, x3) :: T, x.1 = lead := by
        intro st' h'
        rcases ih e st' x1 x3 s' lead trail h' with h | ⟨x, hx, h⟩
        · exact .inr ⟨_, List.mem_cons_self, h.symm⟩
        · exact .inr ⟨x, List.mem_cons_of_mem _ hx, h⟩
      simp only [scan] at h
      split at h
      · exact fin _ h
      · split at h
        · split at h
          · exact fin _ h
          · split at h
            · cases h
            · exact fin _ h
        · split at h
          · split at h <;> cases h
          · exact fin _ h
  unfold commentOneT commentOne
  cases hs : segmentsOf E a state p.2 with
  | error e => rfl
  | ok r =>
    simp only [bind, Except.bind]
    cases hc : scan a.markers p.2 state [] [] r.1 r.2 with
    | error e => rfl
    | ok sc =>
      cases sc with
      | comment st s => rfl
      | noComment st lead trail =>
        simp only
        by_cases hl : (!lead.isEmpty && trail.isEmpty) = true
        · rw [if_pos hl, if_pos hl]
          have hne : lead ≠ [] := by
            intro h'; subst h'; simp at hl
          have : ml.has lead = true ↔ lead ∈ a.multilineQuotes := by
            refine hml lead ⟨r, hs, ?_⟩ hne
            rcases key _ _ _ _ _ _ _ _ hc with h | h
            · exact absurd h hne
            · exact h
          by_cases hm : ml.has lead = true
          · rw [if_neg (by simp [hm]), if_neg (by simpa using this.1 hm)]
          · rw [if_pos (by simpa using hm), if_pos (fun h => hm (this.2 h))]
        · rw [if_neg hl, if_neg hl]

theorem has_tuple (l : List (List α)) (q : List α) : (Multi.tuple l).has q = true ↔ q ∈ (Multi.tuple l).elems := by
  simp [Multi.has, Multi.elems]

theorem loopT_eq (E : Env α) (a : Comments α) (ml : Multi α)
    (hml : ∀ (state : List α) (line : List α) lead, (∃ r, segmentsOf E a state line = .ok r ∧ ∃ x ∈ r.1, x.1 = lead) → lead ≠ [] →
      (ml.has lead = true ↔ lead ∈ a.multilineQuotes)) (state : List α) (li : List (Pair α μ)) (e : Option Err) :
    commentLoopT E a ml state li e = commentLoop E a state li e := by
  induction li generalizing state with
  | nil => cases e <;> rfl
  | cons p li ih =>
    simp only [commentLoopT, commentLoop]
    rw [commentOneT_eq E a ml state p (hml state p.2)]
    cases commentOne E a state p with
    | error x => rfl
    | ok x => simp only [ih]

/-- C131, for lines_strip_line_comments: markers given as a str, bytes object, list or tuple are as good as the
tuple of them (C66 says what happens then). -/
theorem C131_strip_markers {K : LKind α} (hK : LProper K) (E : Env α) (li : Stream α μ) {a : MArg}
    {markers : List (List α)} (h : a.Means K markers) (hne : markers ≠ []) (hi : a.Indexable)
    (quotes ml : List (List α)) (escape : List α) :
    stripCall K E li a quotes (.tuple ml) escape =
      ofStream (Modifier.apply E li (.stripLineComments ⟨markers, quotes, ml, escape⟩)) := by
  obtain ⟨l, h1, h2, h3⟩ := lookAt_good hK h hne hi
  have hm : markers.isEmpty = false := by cases markers <;> simp_all
  simp only [stripCall, h1, firstBad_good hK h2, allOfType hK h2, elems_some.2 h2, Modifier.apply, hm, stripMulti, Multi.elems]
  rw [segmentsOf_markers E [] markers]
  cases hs : segmentsOf E ⟨markers, quotes, ml, escape⟩ [] [E.sq.laden] with
  | error e => rfl
  | ok r =>
    simp only [Bool.false_eq_true, if_false, Bool.not_true]
    rw [loopT_eq]
    intro _ _ lead _ _
    exact has_tuple ml lead

/-- C131 fails: any other iterable of markers is refused, however good its elements: a set, an iterator or a generator with
TypeError, a dict with KeyError. -/
theorem C131_refuses_other_iterables (K : LKind α) (E : Env α) (li : Stream α μ) (l : List Elem) (hl : l ≠ [])
    (quotes : List (List α)) (ml : Multi α) (escape : List α) :
    filterCall K E li (.noIndex l true) = ([], some .typeError) ∧
    filterCall K E li (.dict l) = ([], some .keyError) ∧
    stripCall K E li (.noIndex l true) quotes ml escape = ([], some .typeError) ∧
    stripCall K E li (.dict l) quotes ml escape = ([], some .keyError) := by
  simp [filterCall, stripCall, lookAt, hl]

/-- C131: what is false (empty, or no iterable at all) is refused at once with ValueError, and what is no iterable but true
with TypeError. -/
theorem C131_refuses_empty (K : LKind α) (E : Env α) (li : Stream α μ) (a : MArg)
    (quotes : List (List α)) (ml : Multi α) (escape : List α) :
    (a.truthy = false → filterCall K E li a = ([], some (.plain .valueError)) ∧
      stripCall K E li a quotes ml escape = ([], some (.plain .valueError))) ∧
    (a = .plain true → filterCall K E li a = ([], some .typeError) ∧
      stripCall K E li a quotes ml escape = ([], some .typeError)) := by
  constructor
  · intro h
    have : lookAt a = .error (.plain .valueError) := by
      cases a with
      | seq l => cases l <;> simp_all [MArg.truthy, lookAt]
      | _ => simp_all [MArg.truthy, lookAt]
    simp [filterCall, stripCall, this]
  · rintro rfl
    simp [filterCall, stripCall, lookAt]

/-- C131: no line is yielded for markers that are not of the type of the lines, if there is no quoting: as soon as there is a
line, an exception is raised. -/
theorem C131_wrong_type {K : LKind α} (E : Env α) (p : Pair α μ) (li : List (Pair α μ)) (e : Option Err)
    {a : MArg} (h : ∀ markers, ¬ a.Means K markers) (escape : List α) :
    (∃ x, filterCall K E (p :: li, e) a = ([], some x)) ∧
    (∃ x, stripCall K E (p :: li, e) a [] (.tuple []) escape = ([], some x)) := by
  have hel : ∀ b l, lookAt a = .ok (b, l) → a.elements = some l := by
    intro b l hl
    cases a with
    | str t => simp only [lookAt] at hl; split at hl <;> simp_all [MArg.elements]
    | bytes t => simp only [lookAt] at hl; split at hl <;> simp_all [MArg.elements]
    | seq l' => cases l' <;> simp_all [lookAt, MArg.elements]
    | noIndex _ b => cases b <;> simp [lookAt] at hl
    | dict l' => simp only [lookAt] at hl; split at hl <;> cases hl
    | plain b => cases b <;> simp [lookAt] at hl
  have hno : ∀ b l, lookAt a = .ok (b, l) → elems K l = none := by
    intro b l hl
    cases hm : elems K l with
    | none => rfl
    | some ms => exact absurd ⟨l, hel b l hl, elems_some.1 hm⟩ (h ms)
  constructor
  · unfold filterCall
    cases hl : lookAt a with
    | error x => exact ⟨x, rfl⟩
    | ok r =>
      obtain ⟨b, l⟩ := r
      simp only [hno b l hl, failing]
      split
      · exact ⟨_, rfl⟩
      · exact ⟨_, rfl⟩
  · unfold stripCall
    cases hl : lookAt a with
    | error x => exact ⟨x, rfl⟩
    | ok r =>
      obtain ⟨b, l⟩ := r
      simp only [hno b l hl]
      split
      · exact ⟨_, rfl⟩
      · split
        · exact ⟨_, rfl⟩
        · split
          · exact ⟨_, rfl⟩
          · refine ⟨.typeError, ?_⟩
            simp [commentLoopBad, segmentsOf, Multi.elems, scanBad]

/-- C131: with quotes, for markers that are not of the type of the lines, whole lines may be yielded (those that are wholly
inside quotes), but unchanged: the lines yielded are the first ones of those given. -/
theorem C131_wrong_type_quotes {K : LKind α} (E : Env α) (li : Stream α μ)
    {a : MArg} (h : ∀ markers, ¬ a.Means K markers) (quotes : List (List α)) (ml : Multi α) (escape : List α) :
    (stripCall K E li a quotes ml escape).1 <+: li.1 := by
  have hloop : ∀ (c : Comments α) (l : List (Pair α μ)) (state : List α) (e : Option Err),
      (commentLoopBad E c ml state l e).1 <+: l := by
    intro c l
    induction l with
    | nil => intro state e; cases e <;> simp [commentLoopBad]
    | cons p l ih =>
      intro state e
      simp only [commentLoopBad]
      split
      · exact List.nil_prefix
      · split
        · exact List.nil_prefix
        · split
          · split
            · exact List.nil_prefix
            · exact List.cons_prefix_cons.2 ⟨rfl, ih _ _⟩
          · exact List.cons_prefix_cons.2 ⟨rfl, ih _ _⟩
  unfold stripCall
  cases hl : lookAt a with
  | error x => exact List.nil_prefix
  | ok r =>
    obtain ⟨b, l⟩ := r
    have hel : a.elements = some l := by
      cases a with
      | str t => simp only [lookAt] at hl; split at hl <;> simp_all [MArg.elements]
      | bytes t => simp only [lookAt] at hl; split at hl <;> simp_all [MArg.elements]
      | seq l' => cases l' <;> simp_all [lookAt, MArg.elements]
      | noIndex _ b => cases b <;> simp [lookAt] at hl
      | dict l' => simp only [lookAt] at hl; split at hl <;> cases hl
      | plain b => cases b <;> simp [lookAt] at hl
    have hno : elems K l = none := by
      cases hm : elems K l with
      | none => rfl
      | some ms => exact absurd ⟨l, hel, elems_some.1 hm⟩ (h ms)
    dsimp only
    split
    · exact List.nil_prefix
    · split
      · exact List.nil_prefix
      · split
        · exact List.nil_prefix
        · rw [hno]; exact hloop _ _ _ _

/-- The hypotheses are met: a str of two markers, a list of two, and (the property fails for it) a set of two. -/
example : (MArg.str "#%".toList).Means strL ["#".toList, "%".toList] ∧ (MArg.str "#%".toList).Indexable ∧
    (MArg.seq [.str "//".toList, .str "#".toList]).Means strL ["//".toList, "#".toList] ∧
    (MArg.noIndex [.str "//".toList, .str "#".toList] true).Means strL ["//".toList, "#".toList] :=
  ⟨⟨_, rfl, rfl⟩, trivial, ⟨_, rfl, rfl⟩, ⟨_, rfl, rfl⟩⟩

/-- And bytes markers for str lines are no markers. -/
example : ∀ markers, ¬ (MArg.bytes [35]).Means strL markers := by
  rintro (_ | ⟨m, ms⟩) ⟨l, h1, h2⟩ <;> simp [MArg.elements] at h1 <;> subst h1 <;> simp [strL] at h2

end Big.Lines
