import Verif.Wrap.MergeRows
import Verif.Wrap.SplitProps
/-!
# C54: merge_columns

The specification (`wide`, `overflowed`, `marked`, `Shows`, `cellText`, `rowText`, `OneLine`) is at the end of
Verif/Wrap/Merge.lean. A column given as a string is always `OneLine`; one given as a list of lines is if no
line has a newline within it (otherwise an assertion fails).
-/
namespace Big.Wrap

variable {α : Type} [DecidableEq α] {E : Env α} {o : MergeOpt α}

/-- A column given as a string has no newline within a line. -/
theorem oneLine_str (s : List α) (w : Int) : OneLine E ⟨.str s, w⟩ := by
  intro l hl h
  refine linesOf_no_nl E.nl _ l hl ?_
  unfold rstrip at h
  rw [List.mem_reverse] at h
  have := (List.dropWhile_sublist E.isSpace (l := l.reverse)).subset h
  simpa using this

/-- C54: the output is made of rows that show every line of every column once and in order, each column's
text beside that of the columns before it unless one of those is in an overflow on that row; and there is
only one way to do that. Holds for all three strategies. -/
theorem C54_rows (columns : List (Column α)) (hne : columns ≠ []) (h : ∀ c ∈ columns, OneLine E c)
    (hr : o.strategy = .raise → ∀ c ∈ columns, ∀ m, wide E c.maxWidth (c.lines E) m = false) :
    ∃ rows, Shows (columns.map (marked E o)) rows ∧
      (∀ rows', Shows (columns.map (marked E o)) rows' → rows' = rows) ∧
      mergeColumns E o columns =
        .ok (rstrip E.isSpace (joinWith [E.nl] (rows.map (rowText E o.separator columns)))) := by
  obtain ⟨rows, h1, h2⟩ := mergeColumns_ok columns hne h hr
  exact ⟨rows, h1, fun rows' h' => h'.unique (by simpa using hne) h1, h2⟩

/-- C54: the exceptions: OverflowError if and only if the strategy is RAISE and a line is too wide. -/
theorem C54_raises (columns : List (Column α)) (hne : columns ≠ []) (h : ∀ c ∈ columns, OneLine E c) :
    (mergeColumns E o columns = .error .overflowError ↔
      o.strategy = .raise ∧ ∃ c ∈ columns, ∃ l ∈ c.lines E, ((rstrip E.isSpace l).length : Int) > c.maxWidth) ∧
    (∀ e, mergeColumns E o columns = .error e → e = .overflowError) := by
  have hw : ∀ c : Column α, (∃ m, wide E c.maxWidth (c.lines E) m = true) ↔
      ∃ l ∈ c.lines E, ((rstrip E.isSpace l).length : Int) > c.maxWidth := by
    intro c
    unfold wide
    constructor
    · rintro ⟨m, hm⟩
      cases h1 : (c.lines E)[m]? with
      | none => rw [h1] at hm; simp at hm
      | some l => rw [h1] at hm; exact ⟨l, List.mem_of_getElem? h1, by simpa using hm⟩
    · rintro ⟨l, hl, h1⟩
      obtain ⟨m, hm⟩ := List.mem_iff_getElem?.1 hl
      exact ⟨m, by rw [hm]; simpa using h1⟩
  simp only [← hw]
  rcases columnsOf_spec (o := o) columns h with ⟨g1, g2, g3⟩ | ⟨g1, -⟩
  · have : mergeColumns E o columns = .error .overflowError := by unfold mergeColumns; rw [if_neg hne, g3]
    rw [this]
    exact ⟨⟨fun _ => ⟨g1, g2⟩, fun _ => rfl⟩, fun e he => by cases he; rfl⟩
  · obtain ⟨rows, h1, h2⟩ := mergeColumns_ok columns hne h g1
    rw [h2]
    refine ⟨⟨nofun, ?_⟩, nofun⟩
    rintro ⟨hs, c, hc, m, hm⟩
    rw [g1 hs c hc m] at hm; simp at hm

/-- The number of lines of the tallest column. -/
def tallest (E : Env α) (columns : List (Column α)) : Nat :=
  columns.foldr (fun c n => max (c.lines E).length n) 0

theorem le_tallest {columns : List (Column α)} {c : Column α} (h : c ∈ columns) :
    (c.lines E).length ≤ tallest E columns := by
  induction columns with
  | nil => simp at h
  | cons d ds ih =>
    simp only [tallest, List.foldr_cons]
    rcases List.mem_cons.1 h with rfl | h
    · exact Nat.le_max_left _ _
    · exact Nat.le_trans (ih h) (Nat.le_max_right _ _)

theorem tallest_mem {columns : List (Column α)} {k : Nat} (h : k < tallest E columns) :
    ∃ c ∈ columns, k < (c.lines E).length := by
  induction columns with
  | nil => simp [tallest] at h
  | cons d ds ih =>
    simp only [tallest, List.foldr_cons] at h
    by_cases hd : k < (d.lines E).length
    · exact ⟨d, by simp, hd⟩
    · obtain ⟨c, hc, hk⟩ := ih (by simp only [tallest]; omega)
      exact ⟨c, by simp [hc], hk⟩

/-- Line `k` of a column, empty past its end. -/
def lineAt (E : Env α) (c : Column α) (k : Nat) : List α := ((c.lines E)[k]?).getD []

omit [DecidableEq α] in
/-- The rows when there is no overflow. -/
theorem shows_plain (cols : List (List (List α × Bool))) (hne : cols ≠ []) (hf : ∀ c ∈ cols, ∀ p ∈ c, p.2 = false)
    (n : Nat) (h1 : ∀ c ∈ cols, c.length ≤ n) (h2 : ∀ k < n, ∃ c ∈ cols, k < c.length) :
    Shows cols ((List.range n).map (fun (k : Nat) => cols.map (fun c => c[k]?))) := by
  have hused : ∀ (k i : Nat) c, cols[i]? = some c →
      used i (((List.range n).drop k).map (fun (k : Nat) => cols.map (fun c => c[k]?))) = c.drop k := by
    intro k i c hc
    have hcn := h1 c (List.mem_of_getElem? hc)
    unfold used
    rw [List.filterMap_map]
    have : ((fun r : List (Option (List α × Bool)) => r[i]?.join) ∘ fun (k : Nat) => cols.map (fun c => c[k]?)) = fun (k : Nat) => c[k]? := by
      funext k
      simp [hc]
    rw [this]
    have key : ∀ (m k : Nat), c.length ≤ k + m → (List.range' k m).filterMap (fun k => c[k]?) = c.drop k := by
      intro m
      induction m with
      | zero => intro k hk; rw [List.drop_eq_nil_of_le (by omega)]; rfl
      | succ m ih =>
        intro k hk
        rw [List.range'_succ, List.filterMap_cons, ih (k + 1) (by omega)]
        by_cases hk : k < c.length
        · rw [List.getElem?_eq_getElem hk, List.drop_eq_getElem_cons hk]
        · rw [List.getElem?_eq_none (by omega), List.drop_eq_nil_of_le (by omega), List.drop_eq_nil_of_le (by omega)]
    rw [List.range_eq_range', List.drop_range']
    by_cases hk : k ≤ n
    · have := key (n - k) k (by omega)
      simpa using this
    · rw [show n - k = 0 by omega, List.drop_eq_nil_of_le (by omega)]; rfl
  refine ⟨?_, ?_, ?_, ?_, ?_, ?_⟩
  · intro i c hc
    simpa using hused 0 i c hc
  · intro r hr
    obtain ⟨k, -, rfl⟩ := List.mem_map.1 hr
    simp
  · intro r hr
    obtain ⟨k, -, rfl⟩ := List.mem_map.1 hr
    rw [List.length_map]; exact List.length_pos_iff.2 hne
  · intro r hr i hi
    obtain ⟨k, -, rfl⟩ := List.mem_map.1 hr
    rw [List.length_map]
    refine ⟨fun _ => ⟨by omega, ?_⟩, fun _ => hi⟩
    intro l hl
    rw [List.getElem?_map, List.getElem?_eq_getElem (show i < cols.length by omega)] at hl
    simp only [Option.map_some, Option.some.injEq] at hl
    have := hf _ (List.getElem_mem _) _ (List.mem_of_getElem? hl)
    simp at this
  · intro k r i hk hi
    have hkn : k < n := by
      have := (List.getElem?_eq_some_iff.1 hk).1
      simpa using this
    rw [List.getElem?_map, List.getElem?_range hkn] at hk
    simp only [Option.map_some, Option.some.injEq] at hk
    subst hk
    have hic : i < cols.length := by
      have := (List.getElem?_eq_some_iff.1 hi).1
      simpa using this
    rw [List.getElem?_map, List.getElem?_eq_getElem hic] at hi
    simp only [Option.map_some, Option.some.injEq] at hi
    rw [← List.map_drop, hused k i _ (List.getElem?_eq_getElem hic)]
    exact List.drop_eq_nil_of_le (List.getElem?_eq_none_iff.1 hi)
  · intro r hr
    obtain ⟨k, hk, rfl⟩ := List.mem_map.1 hr
    obtain ⟨c, hc, hkc⟩ := h2 k (by simpa using hk)
    obtain ⟨i, hi⟩ := List.mem_iff_getElem?.1 hc
    exact ⟨i, c[k], by simp [hi]⟩

/-- C54: when no line is too wide, line `k` of the output is line `k` of each column padded to the width of
the column, with the separator between them, and there are as many lines as in the tallest column; trailing
whitespace is removed from each line and from the end. -/
theorem C54_no_overflow (columns : List (Column α)) (hne : columns ≠ []) (h : ∀ c ∈ columns, OneLine E c)
    (hfit : ∀ c ∈ columns, ∀ l ∈ c.lines E, ((rstrip E.isSpace l).length : Int) ≤ c.maxWidth) :
    mergeColumns E o columns = .ok (rstrip E.isSpace (joinWith [E.nl]
      ((List.range (tallest E columns)).map (fun k => rstrip E.isSpace
        (joinWith o.separator (columns.map (fun c => ljust E (lineAt E c k) c.maxWidth))))))) := by
  have hw : ∀ c ∈ columns, ∀ m, wide E c.maxWidth (c.lines E) m = false := by
    intro c hc m
    unfold wide
    cases h1 : (c.lines E)[m]? with
    | none => rfl
    | some l =>
      have := hfit c hc l (List.mem_of_getElem? h1)
      simp; omega
  have hov : ∀ c ∈ columns, ∀ n, overflowed E o c.maxWidth (c.lines E) n = false := by
    intro c hc n
    by_cases h1 : overflowed E o c.maxWidth (c.lines E) n = true
    · obtain ⟨m, hm, -⟩ := overflowed_iff.1 h1
      rw [hw c hc m] at hm; simp at hm
    · simpa using h1
  have hmark : ∀ c ∈ columns, marked E o c = (c.lines E).map (·, false) := by
    intro c hc
    unfold marked
    have : (fun p : List α × Nat => (p.1, overflowed E o c.maxWidth (c.lines E) p.2)) = (·, false) ∘ Prod.fst := by
      funext p; simp [hov c hc]
    rw [this, ← List.map_map, List.zipIdx_map_fst]
  obtain ⟨rows, h1, h2, h3⟩ := C54_rows columns hne h (fun _ => hw)
  have hs := shows_plain (columns.map (marked E o)) (by simpa using hne) (by
      intro l hl p hp
      obtain ⟨c, hc, rfl⟩ := List.mem_map.1 hl
      rw [hmark c hc] at hp
      obtain ⟨x, -, rfl⟩ := List.mem_map.1 hp
      rfl) (tallest E columns) (by
      intro l hl
      obtain ⟨c, hc, rfl⟩ := List.mem_map.1 hl
      rw [hmark c hc, List.length_map]
      exact le_tallest hc) (by
      intro k hk
      obtain ⟨c, hc, hk⟩ := tallest_mem hk
      exact ⟨_, List.mem_map_of_mem hc, by rw [hmark c hc, List.length_map]; exact hk⟩)
  rw [h3, ← h2 _ hs, List.map_map]
  congr 3
  apply List.map_congr_left
  intro k hk
  simp only [Function.comp_apply, rowText]
  congr 2
  rw [List.map_map]
  have hz : ∀ cs : List (Column α), (∀ c ∈ cs, c ∈ columns) →
      List.zipWith (fun (c : Column α) x => cellText E c.maxWidth x) cs (cs.map ((fun c => c[k]?) ∘ marked E o)) =
        cs.map (fun c => ljust E (lineAt E c k) c.maxWidth) := by
    intro cs
    induction cs with
    | nil => intro _; rfl
    | cons c cs ih =>
      intro hcs
      rw [List.map_cons, List.zipWith_cons_cons, ih (fun c hc => hcs c (by simp [hc])), List.map_cons]
      congr 1
      simp only [Function.comp_apply]
      rw [hmark c (hcs c (by simp)), List.getElem?_map]
      unfold lineAt
      cases (c.lines E)[k]? with
      | none => simp [cellText, ljust]
      | some l => rfl
  exact hz columns (fun _ h => h)

/-- C92, the columns are aligned: if every line, with its trailing whitespace, is at most as wide as its
column, every cell is exactly as wide as its column. (The code checks the width of a line
without its trailing whitespace but writes it with it; see `C92_counterexample_trailing`.) -/
theorem C92_aligned (columns : List (Column α)) (hne : columns ≠ []) (h : ∀ c ∈ columns, OneLine E c)
    (hfit : ∀ c ∈ columns, 0 ≤ c.maxWidth ∧ ∀ l ∈ c.lines E, (l.length : Int) ≤ c.maxWidth) :
    ∃ rows : List (List (List α)),
      mergeColumns E o columns =
        .ok (rstrip E.isSpace (joinWith [E.nl] (rows.map (fun r => rstrip E.isSpace (joinWith o.separator r))))) ∧
      rows.length = tallest E columns ∧
      ∀ (k : Nat) r, rows[k]? = some r → r.length = columns.length ∧
        ∀ (i : Nat) c x, columns[i]? = some c → r[i]? = some x →
          (x.length : Int) = c.maxWidth ∧ ∃ n, x = lineAt E c k ++ List.replicate n E.sp := by
  refine ⟨(List.range (tallest E columns)).map (fun k => columns.map (fun c => ljust E (lineAt E c k) c.maxWidth)), ?_, ?_, ?_⟩
  · rw [C54_no_overflow columns hne h, List.map_map]
    · rfl
    · intro c hc l hl
      have h1 := (hfit c hc).2 l hl
      have h2 : (rstrip E.isSpace l).length ≤ l.length := by
        unfold rstrip
        rw [List.length_reverse]
        have := (List.dropWhile_sublist E.isSpace (l := l.reverse)).length_le
        simpa using this
      omega
  · simp
  · intro k r hr
    have hkn : k < tallest E columns := by
      have := (List.getElem?_eq_some_iff.1 hr).1
      simpa using this
    rw [List.getElem?_map, List.getElem?_range hkn] at hr
    simp only [Option.map_some, Option.some.injEq] at hr
    subst hr
    refine ⟨by simp, ?_⟩
    intro i c x hc hx
    rw [List.getElem?_map, hc] at hx
    simp only [Option.map_some, Option.some.injEq] at hx
    subst hx
    have hl : ((lineAt E c k).length : Int) ≤ c.maxWidth := by
      have := hfit c (List.mem_of_getElem? hc)
      unfold lineAt
      cases h1 : (c.lines E)[k]? with
      | none => simpa using this.1
      | some l => exact this.2 l (List.mem_of_getElem? h1)
    exact ⟨by unfold ljust spaces; simp; omega, _, rfl⟩

/-! ### examples -/

/-- For the examples: merge_columns of strings and their widths. -/
def mergeStr (o : MergeOpt Char) (cs : List (String × Int)) : Except Err String :=
  (mergeColumns ascii o (cs.map (fun p => ⟨.str p.1.toList, p.2⟩))).map String.ofList

instance : DecidableEq (Except Err String) := fun a b =>
  match a, b with
  | .ok a, .ok b => if h : a = b then isTrue (by rw [h]) else isFalse (by simpa using h)
  | .error a, .error b => if h : a = b then isTrue (by rw [h]) else isFalse (by simpa using h)
  | .ok _, .error _ => isFalse (by simp)
  | .error _, .ok _ => isFalse (by simp)

example : mergeStr ⟨[' '], .raise, 0, 0⟩ [("-h\n-v\n-x", 4), ("help\nverbose", 8), ("1\n2\n3\n4", 3)] =
    .ok "-h   help     1\n-v   verbose  2\n-x            3\n              4" := by decide +kernel

example : mergeStr ⟨[' '], .raise, 0, 0⟩ [("-h\n--verbose\n-x", 4), ("help\nmore", 8)] = .error .overflowError := by
  decide +kernel

example : mergeStr ⟨[' '], .intrudeAll, 0, 0⟩ [("-h\n--verbose\n-x", 4), ("help\nmore", 8)] =
    .ok "-h   help\n--verbose\n-x   more" := by decide +kernel

example : mergeStr ⟨[' '], .delayAll, 0, 0⟩ [("-h\n--verbose\n-x", 4), ("help\nmore", 8)] =
    .ok "-h\n--verbose\n-x   help\n     more" := by decide +kernel

example : mergeStr ⟨[' '], .intrudeAll, 1, 1⟩ [("-a\n-h\n--verbose\n-x\n-y", 4), ("help\nmore", 8)] =
    .ok "-a   help\n-h\n--verbose\n-x\n-y   more" := by decide +kernel

/-- The hypotheses of C54_no_overflow and C92_aligned hold for the first example, and the column of
the others has a line that is too wide. -/
example : (∀ c ∈ [(⟨.str "-h\n-v\n-x".toList, 4⟩ : Column Char), ⟨.str "help\nverbose".toList, 8⟩],
      0 ≤ c.maxWidth ∧ ∀ l ∈ c.lines ascii, (l.length : Int) ≤ c.maxWidth) ∧
    wide ascii 4 ((⟨.str "-h\n--verbose\n-x".toList, 4⟩ : Column Char).lines ascii) 1 = true := by decide +kernel

/-- C92: the first column is two wide, no line without its trailing whitespace is wider, and yet the second
column isn't aligned. -/
theorem C92_counterexample_trailing : mergeStr ⟨['|'], .raise, 0, 0⟩ [("a    \nb", 2), ("x\ny", 1)] =
    .ok "a    |x\nb |y" := by decide +kernel

/-- C92: an overflow that ends with its column has no lines after it, whatever `overflow_after` is: the second
column goes on in the next line. -/
theorem C92_counterexample_after : mergeStr ⟨[' '], .intrudeAll, 0, 2⟩ [("-h\n--verbose", 4), ("help\nmore", 8)] =
    .ok "-h   help\n--verbose\n     more" := by decide +kernel

end Big.Wrap
