import Verif.Lines.Args
/-!
# C131: when comment markers of a wrong type are refused
-/
namespace Big.Lines
open Big.MS (Elem)
variable {α μ : Type} [DecidableEq α]

/-- All str, or all bytes. -/
def SameType (l : List Elem) : Prop := (∀ e ∈ l, ∃ t, e = .str t) ∨ (∀ e ∈ l, ∃ t, e = .bytes t)

theorem all_iff_same (e : Elem) (l : List Elem) : (e :: l).all (elemOfType (elemIsBytes e)) = true ↔ SameType (e :: l) := by
  have hs : ∀ x : Elem, elemOfType false x = true ↔ ∃ t, x = .str t := by
    intro x; cases x <;> simp [elemOfType]
  have hb : ∀ x : Elem, elemOfType true x = true ↔ ∃ t, x = .bytes t := by
    intro x; cases x <;> simp [elemOfType]
  rw [List.all_eq_true]
  constructor
  · intro h
    cases hx : elemIsBytes e with
    | false => exact .inl (fun x hxm => (hs x).1 (hx ▸ h x hxm))
    | true => exact .inr (fun x hxm => (hb x).1 (hx ▸ h x hxm))
  · rintro (h | h)
    · obtain ⟨t, rfl⟩ := h e (by simp)
      intro x hx; exact (hs x).2 (h x hx)
    · obtain ⟨t, rfl⟩ := h e (by simp)
      intro x hx; exact (hb x).2 (h x hx)

/-- C131: two or more markers that are not all of the same type are refused with TypeError when the function is called,
before a line is asked for; lines_strip_line_comments raises ValueError instead if the first of them is neither str nor
bytes, and does all this for a single marker as well. -/
theorem C131_mixed_types (K : LKind α) (E : Env α) (li : Stream α μ) (e : Elem) (l : List Elem)
    (h : ¬ SameType (e :: l)) (escape : List α) :
    (l ≠ [] → filterCall K E li (.seq (e :: l)) = ([], some .typeError)) ∧
    stripCall K E li (.seq (e :: l)) [] (.tuple []) escape =
      ([], some (if e = .other then .plain .valueError else .typeError)) := by
  have hall : (e :: l).all (elemOfType (elemIsBytes e)) = false := by
    rw [← Bool.not_eq_true]; exact fun h' => h ((all_iff_same e l).1 h')
  constructor
  · intro hl
    have hlen : (e :: l).length ≠ 1 := by
      simpa using hl
    unfold filterCall lookAt
    dsimp only
    rw [hall, if_pos (by simpa using hlen)]
  · unfold stripCall lookAt
    dsimp only
    by_cases he : e = .other
    · subst he
      rw [if_pos (by rfl), if_pos rfl]
    · have : firstBad (e :: l) = false := by cases e <;> simp_all [firstBad]
      rw [this, if_neg (by simp), if_neg he]
      have : segmentsOf E ⟨[], [], (Multi.tuple []).elems, escape⟩ [] [E.sq.laden] =
        .ok ([([], [E.sq.laden], [])], none) := rfl
      rw [this]
      dsimp only
      rw [hall, if_pos (by rfl)]

/-- C131: a single marker of a wrong type, or several all of the other type, go unnoticed by
lines_filter_line_comment_lines as long as there is no line; TypeError is raised at the first. -/
theorem C131_other_type {K : LKind α} (E : Env α) (e : Elem) (l : List Elem)
    (h : l = [] ∨ SameType (e :: l)) (hw : ∀ markers : List (List α), (e :: l).map K.elem ≠ markers.map some) :
    (∀ x : Option Err, filterCall (μ := μ) K E ([], x) (.seq (e :: l)) = ([], x.map .plain)) ∧
    (∀ (p : Pair α μ) (rest : List (Pair α μ)) (x : Option Err),
      filterCall K E (p :: rest, x) (.seq (e :: l)) = ([], some .typeError)) := by
  have hel : elems K (e :: l) = none := by
    cases hx : elems K (e :: l) with
    | none => rfl
    | some ms => exact absurd (elems_some.1 hx) (hw ms)
  have hc : ((decide ((e :: l).length ≠ 1)) && !(e :: l).all (elemOfType (elemIsBytes e))) = false := by
    rcases h with h | h
    · subst h; simp
    · rw [(all_iff_same e l).2 h]; simp
  constructor
  · intro x
    unfold filterCall lookAt
    dsimp only
    rw [hc, hel]
    rfl
  · intro p rest x
    unfold filterCall lookAt
    dsimp only
    rw [hc, hel]
    rfl

/-- Markers of both types; two of the other type; and one that is no string. -/
example : ¬ SameType [.str ['#'], .bytes [35]] ∧ SameType [.bytes [35], .bytes [36]] ∧
    (∀ markers : List (List Char), [Elem.bytes [35], .bytes [36]].map strL.elem ≠ markers.map some) ∧
    (∀ markers : List (List Char), [Elem.other].map strL.elem ≠ markers.map some) := by
  refine ⟨?_, ?_, ?_, ?_⟩
  · rintro (h | h)
    · obtain ⟨t, ht⟩ := h (.bytes [35]) (by simp); cases ht
    · obtain ⟨t, ht⟩ := h (.str ['#']) (by simp); cases ht
  · exact .inr (by simp)
  · intro ms; cases ms <;> simp [strL]
  · intro ms; cases ms <;> simp [strL]

end Big.Lines
