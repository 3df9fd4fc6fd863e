import Verif.Wrap.SizedModel
import Verif.Wrap.Exact
/-! # C147: how wide merge_columns makes a column

README, "merge_columns": "merge_columns measures the longest line of each column. The width of the column is determined as
follows: if the longest line is less than min_width characters long, the column will be min_width characters wide; if [it is not
and] less than or equal to max_width characters long, the column will be as wide as the longest line; if the longest line is
greater than max_width characters long, the column will be max_width characters wide". -/
namespace Big.Wrap
variable {α : Type} [DecidableEq α] {E : Env α} {o : MergeOpt α}

/-! ### Specification -/

/-- `n` is the length of the longest line of the column. -/
def IsLongest (E : Env α) (c : SizedColumn α) (n : Nat) : Prop :=
  (∀ l ∈ c.column.lines E, l.length ≤ n) ∧ ∃ l ∈ c.column.lines E, l.length = n

/-- The width the README gives a column whose longest line has `n` characters. -/
def documentedWidth (minWidth maxWidth : Int) (n : Nat) : Int :=
  if (n : Int) < minWidth then minWidth else if (n : Int) ≤ maxWidth then n else maxWidth

/-! ### Theorems -/

/-- C147: `min_width` makes no difference. -/
theorem C147_min_width_ignored (columns columns' : List (SizedColumn α)) (hlen : columns.length = columns'.length)
    (h : ∀ (i : Nat) c c', columns[i]? = some c → columns'[i]? = some c' → c.text = c'.text ∧ c.maxWidth = c'.maxWidth) :
    mergeSized E o columns = mergeSized E o columns' := by
  have : columns.map SizedColumn.column = columns'.map SizedColumn.column := by
    refine List.ext_getElem? fun i => ?_
    rw [List.getElem?_map, List.getElem?_map]
    by_cases hi : i < columns.length
    · have hi' : i < columns'.length := by omega
      rw [List.getElem?_eq_getElem hi, List.getElem?_eq_getElem hi']
      obtain ⟨h1, h2⟩ := h i _ _ (List.getElem?_eq_getElem hi) (List.getElem?_eq_getElem hi')
      simp only [Option.map_some, SizedColumn.column, h1, h2]
    · rw [List.getElem?_eq_none (by omega), List.getElem?_eq_none (by omega)]
  unfold mergeSized
  rw [this]

/-- C147: the output consists of rows of cells, a line of the column with spaces after it. When no line is wider than its column may be,
every cell of every column is max_width wide; and so columns have the widths the README says exactly if in each of them the
longest line has max_width characters or min_width is max_width. -/
theorem C147_width (columns : List (SizedColumn α)) (len : SizedColumn α → Nat) (hne : columns ≠ [])
    (h : ∀ c ∈ columns, OneLine E c.column) (hlen : ∀ c ∈ columns, IsLongest E c (len c))
    (hfit : ∀ c ∈ columns, c.minWidth ≤ c.maxWidth ∧ (len c : Int) ≤ c.maxWidth) :
    ∃ rows : List (List (List α)),
      mergeSized E o columns =
        .ok (rstrip E.isSpace (joinWith [E.nl] (rows.map (fun r => rstrip E.isSpace (joinWith o.separator r))))) ∧
      rows ≠ [] ∧
      (∀ (k : Nat) r, rows[k]? = some r → r.length = columns.length ∧
        ∀ (i : Nat) c x, columns[i]? = some c → r[i]? = some x →
          (x.length : Int) = c.maxWidth ∧ ∃ n, x = lineAt E c.column k ++ List.replicate n E.sp) ∧
      ((∀ (k : Nat) r, rows[k]? = some r → ∀ (i : Nat) c x, columns[i]? = some c → r[i]? = some x →
          (x.length : Int) = documentedWidth c.minWidth c.maxWidth (len c)) ↔
        ∀ c ∈ columns, (len c : Int) = c.maxWidth ∨ c.minWidth = c.maxWidth) := by
  obtain ⟨rows, h1, h2, h3⟩ := C92_aligned (o := o) (E := E) (columns.map SizedColumn.column) (by simpa using hne)
    (by
      intro c hc
      obtain ⟨c', hc', rfl⟩ := List.mem_map.1 hc
      exact h c' hc')
    (by
      intro c hc
      obtain ⟨c', hc', rfl⟩ := List.mem_map.1 hc
      have := (hfit c' hc').2
      have hm : c'.column.maxWidth = c'.maxWidth := rfl
      rw [hm]
      refine ⟨by omega, fun l hl => ?_⟩
      have := (hlen c' hc').1 l hl
      omega)
  have h4 : ∀ (k : Nat) r, rows[k]? = some r → r.length = columns.length ∧
      ∀ (i : Nat) c x, columns[i]? = some c → r[i]? = some x →
        (x.length : Int) = c.maxWidth ∧ ∃ n, x = lineAt E c.column k ++ List.replicate n E.sp := by
    intro k r hk
    obtain ⟨g1, g2⟩ := h3 k r hk
    refine ⟨by simpa using g1, fun i c x hc hx => ?_⟩
    exact g2 i c.column x (by rw [List.getElem?_map, hc]; rfl) hx
  have hrows : rows ≠ [] := by
    obtain ⟨c, hc⟩ := List.exists_mem_of_ne_nil _ hne
    obtain ⟨l, hl, -⟩ := (hlen c hc).2
    have : (c.column.lines E).length ≤ tallest E (columns.map SizedColumn.column) :=
      le_tallest (List.mem_map_of_mem hc)
    have : 0 < (c.column.lines E).length := List.length_pos_of_mem hl
    intro e
    rw [e] at h2
    simp at h2
    omega
  refine ⟨rows, h1, hrows, h4, ?_⟩
  constructor
  · intro hd c hc
    obtain ⟨i, hi⟩ := List.mem_iff_getElem?.1 hc
    obtain ⟨r, hr⟩ : ∃ r, rows[0]? = some r := by
      cases rows with
      | nil => exact absurd rfl hrows
      | cons r _ => exact ⟨r, rfl⟩
    obtain ⟨g1, g2⟩ := h4 0 r hr
    have hlt : i < r.length := by rw [g1]; exact (List.getElem?_eq_some_iff.1 hi).1
    have e1 := (g2 i c _ hi (List.getElem?_eq_getElem hlt)).1
    have e2 := hd 0 r hr i c _ hi (List.getElem?_eq_getElem hlt)
    rw [e1] at e2
    have := hfit c hc
    unfold documentedWidth at e2
    split at e2
    · exact .inr e2.symm
    · split at e2
      · exact .inl e2.symm
      · omega
  · intro hall k r hk i c x hc hx
    rw [((h4 k r hk).2 i c x hc hx).1]
    have hc' := List.mem_of_getElem? hc
    have := hfit c hc'
    unfold documentedWidth
    split
    · rcases hall c hc' with h5 | h5 <;> omega
    · split
      · rcases hall c hc' with h5 | h5 <;> omega
      · omega

/-! ### Examples -/

/-- Two short columns, "(s, 1, 4)" and "(s, 2, 5)": the first is 4 wide, not 1 as documented. -/
theorem C147_example : (mergeSized ascii ⟨['|'], .raise, 0, 0⟩
      [⟨.str "a\nb".toList, 1, 4⟩, ⟨.str "xy\nz".toList, 2, 5⟩]).map String.ofList = .ok "a   |xy\nb   |z" ∧
    documentedWidth 1 4 1 = 1 := by decide +kernel

example : ∃ c : SizedColumn Char, OneLine ascii c.column ∧ IsLongest ascii c 1 ∧ c.minWidth ≤ c.maxWidth ∧ ((1 : Nat) : Int) ≤ c.maxWidth :=
  ⟨⟨.str "a\nb".toList, 1, 4⟩, oneLine_str _ _, by unfold IsLongest; decide +kernel, by decide, by decide⟩

end Big.Wrap
