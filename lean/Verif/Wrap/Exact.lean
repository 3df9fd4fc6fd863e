import Verif.Wrap.MergeProps
import Verif.Wrap.Words
/-!
# C91 and C92, exactly
-/
namespace Big.Wrap
variable {α : Type} [DecidableEq α] {E : Env α} {o : MergeOpt α}

/-- C91: the argument two_spaces makes no difference. -/
theorem C91_two_spaces_ignored (E : Env α) (words : List (List α)) (margin : Int) (two two' : Bool) :
    wrapWords E words margin two = wrapWords E words margin two' := by
  cases words <;> rfl

/-- C92, exactly, when no line is too wide without its trailing whitespace: the output consists of rows of cells, each a line of
its column with spaces after it, and all of them are exactly as wide as their columns if and only if no line is too wide with its
trailing whitespace. -/
theorem C92_aligned_iff (columns : List (Column α)) (hne : columns ≠ []) (h : ∀ c ∈ columns, OneLine E c)
    (hfit : ∀ c ∈ columns, ∀ l ∈ c.lines E, ((rstrip E.isSpace l).length : Int) ≤ c.maxWidth)
    (hw : ∀ c ∈ columns, 0 ≤ c.maxWidth) :
    ∃ rows : List (List (List α)),
      mergeColumns E o columns =
        .ok (rstrip E.isSpace (joinWith [E.nl] (rows.map (fun r => rstrip E.isSpace (joinWith o.separator r))))) ∧
      rows.length = tallest E columns ∧
      (∀ (k : Nat) r, rows[k]? = some r → r.length = columns.length ∧
        ∀ (i : Nat) c x, columns[i]? = some c → r[i]? = some x → ∃ n, x = lineAt E c k ++ List.replicate n E.sp) ∧
      ((∀ (k : Nat) r, rows[k]? = some r → ∀ (i : Nat) c x, columns[i]? = some c → r[i]? = some x →
          (x.length : Int) = c.maxWidth) ↔
        ∀ c ∈ columns, ∀ l ∈ c.lines E, (l.length : Int) ≤ c.maxWidth) := by
  have hrow : ∀ (k : Nat) (r : List (List α)),
      ((List.range (tallest E columns)).map (fun k => columns.map (fun c => ljust E (lineAt E c k) c.maxWidth)))[k]? = some r →
      r = columns.map (fun c => ljust E (lineAt E c k) c.maxWidth) := by
    intro k r hr
    have hkn : k < tallest E columns := by
      have := (List.getElem?_eq_some_iff.1 hr).1
      simpa using this
    rw [List.getElem?_map, List.getElem?_range hkn] at hr
    simpa using hr.symm
  refine ⟨(List.range (tallest E columns)).map (fun k => columns.map (fun c => ljust E (lineAt E c k) c.maxWidth)), ?_, ?_, ?_, ?_⟩
  · rw [C54_no_overflow columns hne h hfit, List.map_map]
    rfl
  · simp
  · intro k r hr
    obtain rfl := hrow k r hr
    refine ⟨by simp, ?_⟩
    intro i c x hc hx
    rw [List.getElem?_map, hc] at hx
    simp only [Option.map_some, Option.some.injEq] at hx
    subst hx
    exact ⟨_, rfl⟩
  · constructor
    · intro hall c hc l hl
      obtain ⟨k, hk⟩ := List.getElem?_of_mem hl
      obtain ⟨i, hi⟩ := List.getElem?_of_mem hc
      have hkt : k < tallest E columns := by
        have h1 := (List.getElem?_eq_some_iff.1 hk).1
        have h2 := le_tallest (E := E) hc
        omega
      have := hall k (columns.map (fun c => ljust E (lineAt E c k) c.maxWidth))
        (by rw [List.getElem?_map, List.getElem?_range hkt]; rfl) i c (ljust E (lineAt E c k) c.maxWidth) hi
        (by rw [List.getElem?_map, hi]; rfl)
      simp only [ljust, spaces, lineAt, hk, Option.getD_some, List.length_append, List.length_replicate] at this
      omega
    · intro hall k r hr i c x hc hx
      obtain rfl := hrow k r hr
      rw [List.getElem?_map, hc] at hx
      simp only [Option.map_some, Option.some.injEq] at hx
      subst hx
      have hcm := List.mem_of_getElem? hc
      have hl : ((lineAt E c k).length : Int) ≤ c.maxWidth := by
        unfold lineAt
        cases hk : (c.lines E)[k]? with
        | none => simpa using hw c hcm
        | some l => simpa using hall c hcm l (List.mem_of_getElem? hk)
      simp only [ljust, spaces, List.length_append, List.length_replicate]
      omega

end Big.Wrap
