import Verif.Lines.Clip
/-!
# C111: column_number after any calls of the clip methods, with tabs
-/
namespace Big.Lines
variable {α μ : Type} [DecidableEq α] {E : Env α}

/-- The columns that pieces take, each with its tabs expanded on its own, as the documentation of clip_leading says. -/
def widths (E : Env α) (pieces : List (List α)) : Int := (pieces.map (fun a => ((detab E a).length : Int))).sum

theorem clipAll_spec {info : Info α μ} {q : Pair α μ} (h : clipAll info = .ok q) :
    q.2 = [] ∧ q.1.leading = [] ∧ q.1.columnNumber = info.columnNumber - info.leading.length := by
  unfold clipAll at h
  split at h
  · cases h
  · cases h; exact ⟨rfl, rfl, rfl⟩

theorem clip_cases {op : ClipOp α} {p q : Pair α μ} (h : op.apply E p = .ok q) :
    (q.2 = [] ∧ clipAll p.1 = .ok q) ∨
    (q.2 ≠ [] ∧ p.2 ≠ [] ∧ ∃ pieces : List (List α), q.1.leading = p.1.leading ++ pieces.flatten ∧
      q.1.columnNumber = p.1.columnNumber + widths E pieces) := by
  have lead : ∀ (i : Int) (s : Option (List α)), clipLeading E p.1 p.2 i s = .ok q →
      (q.2 = [] ∧ clipAll p.1 = .ok q) ∨
      (q.2 ≠ [] ∧ p.2 ≠ [] ∧ ∃ pieces : List (List α), q.1.leading = p.1.leading ++ pieces.flatten ∧
        q.1.columnNumber = p.1.columnNumber + widths E pieces) := by
    intro i s h
    unfold clipLeading at h
    dsimp only at h
    split at h
    · exact .inl ⟨(clipAll_spec h).1, h⟩
    · rename_i hl
      cases h
      refine .inr ⟨by simpa using hl, ?_, [_], by simp; rfl, by simp [widths]⟩
      intro hp
      rw [hp] at hl
      simp [sliceFrom] at hl
  have trail : ∀ (i : Int) (s : Option (List α)), clipTrailing p.1 p.2 i s = .ok q →
      (q.2 = [] ∧ clipAll p.1 = .ok q) ∨
      (q.2 ≠ [] ∧ p.2 ≠ [] ∧ ∃ pieces : List (List α), q.1.leading = p.1.leading ++ pieces.flatten ∧
        q.1.columnNumber = p.1.columnNumber + widths E pieces) := by
    intro i s h
    unfold clipTrailing at h
    dsimp only at h
    split at h
    · exact .inl ⟨(clipAll_spec h).1, h⟩
    · rename_i hl
      cases h
      refine .inr ⟨by simpa using hl, ?_, [], by simp, by simp [widths]⟩
      intro hp
      rw [hp] at hl
      simp [sliceTo] at hl
  cases op with
  | leading a => cases a <;> exact lead _ _ h
  | trailing a => cases a <;> exact trail _ _ h

/-- C111, with tabs: whatever the calls, as long as some of the line is left, column_number has grown by the columns of the pieces
clipped from the start of the line, each detabbed on its own, as documented; when all of the line is clipped, `leading` is empty
and column_number goes back by the number of characters, not of columns, that were in `leading`. -/
theorem C111_column_exact : ∀ {ops : List (ClipOp α)} {p q : Pair α μ}, ClipOp.applyAll E p ops = .ok q →
    ∃ pieces : List (List α),
      (q.2 ≠ [] → q.1.leading = p.1.leading ++ pieces.flatten ∧ q.1.columnNumber = p.1.columnNumber + widths E pieces) ∧
      (q.2 = [] → ops ≠ [] → q.1.leading = [] ∧ q.1.columnNumber =
        p.1.columnNumber + widths E pieces - (p.1.leading ++ pieces.flatten).length) := by
  intro ops
  induction ops with
  | nil =>
    intro p q h
    cases h
    exact ⟨[], fun _ => by simp [widths], fun _ h => absurd rfl h⟩
  | cons op ops ih =>
    intro p q h
    simp only [ClipOp.applyAll] at h
    cases hr : op.apply E p with
    | error e => rw [hr] at h; cases h
    | ok r =>
      rw [hr] at h
      dsimp only at h
      obtain ⟨pieces, h1, h2⟩ := ih h
      rcases clip_cases hr with ⟨r1, r2⟩ | ⟨r1, r2, ps, r3, r4⟩
      · obtain ⟨c1, c2, c3⟩ := clipAll_spec r2
        have hempty : ∀ {ops : List (ClipOp α)} {r : Pair α μ}, r.2 = [] → r.1.leading = [] → ClipOp.applyAll E r ops = .ok q →
            q.2 = [] ∧ q.1.leading = [] ∧ q.1.columnNumber = r.1.columnNumber := by
          intro ops
          induction ops with
          | nil => intro r e1 e2 h; cases h; exact ⟨e1, e2, rfl⟩
          | cons op ops ih' =>
            intro r e1 e2 h
            simp only [ClipOp.applyAll] at h
            cases hr' : op.apply E r with
            | error e => rw [hr'] at h; cases h
            | ok r' =>
              rw [hr'] at h
              dsimp only at h
              rcases clip_cases hr' with ⟨_, r2'⟩ | ⟨_, r2', _⟩
              · obtain ⟨c1', c2', c3'⟩ := clipAll_spec r2'
                obtain ⟨z1, z2, z3⟩ := ih' c1' c2' h
                refine ⟨z1, z2, ?_⟩
                rw [z3, c3', e2]
                simp
              · exact absurd e1 r2'
        obtain ⟨z1, z2, z3⟩ := hempty c1 c2 h
        refine ⟨[], fun hq => absurd z1 hq, fun _ _ => ⟨z2, ?_⟩⟩
        rw [z3, c3]
        simp [widths]
      · refine ⟨ps ++ pieces, fun hq => ?_, fun hq _ => ?_⟩
        · obtain ⟨k1, k2⟩ := h1 hq
          rw [k1, k2, r3, r4]
          simp [widths, List.append_assoc, Int.add_assoc]
        · by_cases ho : ops = []
          · subst ho
            cases h
            exact absurd hq r1
          · obtain ⟨k1, k2⟩ := h2 hq ho
            refine ⟨k1, ?_⟩
            rw [k2, r3, r4]
            simp [widths, List.append_assoc, Int.add_assoc]

end Big.Lines
