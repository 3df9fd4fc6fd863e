import Verif.Wrap.MergeLemmas
/-! # Lemmas on merge_columns: rows -/
namespace Big.Wrap

variable {α : Type} [DecidableEq α] {E : Env α} {o : MergeOpt α}

/-- A row of cells. -/
abbrev Row (α : Type) := List (Option (List α × Bool))

/-- nextLine, before the cells are written. -/
def nextRow : List (List (List α × Bool)) → Row α × List (List (List α × Bool)) × Bool
  | [] => ([], [], true)
  | [] :: cs => let r := nextRow cs; (none :: r.1, [] :: r.2.1, r.2.2)
  | ((l, true) :: it) :: cs => ([some (l, true)], it :: cs, false)
  | ((l, false) :: it) :: cs => let r := nextRow cs; (some (l, false) :: r.1, it :: r.2.1, false)

/-- The iterators of the columns. -/
def itsOf (E : Env α) (columns : List (Column α)) (cols : List (List (List α × Bool))) :
    List (List (List α × Bool) × List α) :=
  List.zipWith (fun (c : Column α) l => (padded E c.maxWidth l, spaces E c.maxWidth)) columns cols

/-- The cells of a row, written. -/
def cells (E : Env α) (columns : List (Column α)) (r : Row α) : List (List α) :=
  List.zipWith (fun (c : Column α) x => cellText E c.maxWidth x) columns r

theorem cells_cons (c : Column α) (columns : List (Column α)) (x : Option (List α × Bool)) (r : Row α) :
    cells E (c :: columns) (x :: r) = cellText E c.maxWidth x :: cells E columns r := rfl

omit [DecidableEq α] in
theorem joinWith_cons (s a : List α) (l : List (List α)) :
    joinWith s (a :: l) = a ++ (l.map (s ++ ·)).flatten := by
  induction l generalizing a with
  | nil => simp [joinWith]
  | cons b l ih => rw [joinWith, ih]; simp

theorem nextLine_row (sep : List α) (columns : List (Column α)) :
    ∀ (add : Bool) (cols : List (List (List α × Bool))), columns.length = cols.length →
      (nextLine sep add (itsOf E columns cols)).2 = (itsOf E columns (nextRow cols).2.1, (nextRow cols).2.2) ∧
      (nextLine sep add (itsOf E columns cols)).1.flatten =
        (if add then ((cells E columns (nextRow cols).1).map (sep ++ ·)).flatten
         else joinWith sep (cells E columns (nextRow cols).1)) := by
  induction columns with
  | nil =>
    intro add cols h
    cases cols with
    | nil => cases add <;> exact ⟨rfl, rfl⟩
    | cons => simp at h
  | cons c columns ih =>
    intro add cols h
    cases cols with
    | nil => simp at h
    | cons l cols =>
      have ih := ih true cols (by simpa using h)
      have hits : ∀ l, itsOf E (c :: columns) (l :: cols) = (padded E c.maxWidth l, spaces E c.maxWidth) :: itsOf E columns cols := fun _ => rfl
      obtain ⟨h1, h2⟩ := ih
      rw [if_pos rfl] at h2
      match l with
      | [] =>
        rw [hits, show padded E c.maxWidth [] = [] from rfl, nextLine, nextRow]
        dsimp only
        refine ⟨?_, ?_⟩
        · rw [show (nextLine sep true (itsOf E columns cols)).2.1 = itsOf E columns (nextRow cols).2.1 by rw [h1],
            show (nextLine sep true (itsOf E columns cols)).2.2 = (nextRow cols).2.2 by rw [h1]]
          rfl
        · rw [List.flatten_append, h2, cells_cons]
          cases add <;> simp [joinWith_cons, cellText]
      | (x, true) :: it =>
        rw [hits, show padded E c.maxWidth ((x, true) :: it) = (x, true) :: padded E c.maxWidth it from rfl, nextLine, nextRow]
        dsimp only
        refine ⟨rfl, ?_⟩
        rw [cells_cons]
        cases add <;> simp [joinWith_cons, cellText, cells]
      | (x, false) :: it =>
        rw [hits, show padded E c.maxWidth ((x, false) :: it) = (ljust E x c.maxWidth, false) :: padded E c.maxWidth it from rfl, nextLine, nextRow]
        dsimp only
        refine ⟨?_, ?_⟩
        · rw [show (nextLine sep true (itsOf E columns cols)).2.1 = itsOf E columns (nextRow cols).2.1 by rw [h1]]
          rfl
        · rw [List.flatten_append, h2, cells_cons]
          cases add <;> simp [joinWith_cons, cellText]

omit [DecidableEq α] in
theorem nextRow_length (cols : List (List (List α × Bool))) :
    (nextRow cols).2.1.length = cols.length ∧ (nextRow cols).1.length ≤ cols.length := by
  induction cols with
  | nil => simp [nextRow]
  | cons l cols ih =>
    match l with
    | [] => rw [nextRow]; simp; omega
    | (x, true) :: it => rw [nextRow]; simp
    | (x, false) :: it => rw [nextRow]; simp; omega

omit [DecidableEq α] in
/-- What a row takes from a column. -/
theorem nextRow_col (cols : List (List (List α × Bool))) (i : Nat) (c : List (List α × Bool)) (h : cols[i]? = some c) :
    ∃ c', (nextRow cols).2.1[i]? = some c' ∧ c = ((nextRow cols).1[i]?.join).toList ++ c' := by
  induction cols generalizing i with
  | nil => simp at h
  | cons l cols ih =>
    match l with
    | [] =>
      rw [nextRow]; dsimp only
      cases i with
      | zero => simp at h; subst h; exact ⟨[], by simp⟩
      | succ i => exact ih i (by simpa using h)
    | (x, true) :: it =>
      rw [nextRow]; dsimp only
      cases i with
      | zero => simp at h; subst h; exact ⟨it, by simp⟩
      | succ i => exact ⟨c, by simpa using h, by simp⟩
    | (x, false) :: it =>
      rw [nextRow]; dsimp only
      cases i with
      | zero => simp at h; subst h; exact ⟨it, by simp⟩
      | succ i => exact ih i (by simpa using h)

omit [DecidableEq α] in
theorem nextRow_none (cols : List (List (List α × Bool))) (i : Nat) (h : (nextRow cols).1[i]? = some none) :
    cols[i]? = some [] := by
  induction cols generalizing i with
  | nil => simp [nextRow] at h
  | cons l cols ih =>
    match l with
    | [] =>
      rw [nextRow] at h; dsimp only at h
      cases i with
      | zero => rfl
      | succ i => simpa using ih i (by simpa using h)
    | (x, true) :: it =>
      rw [nextRow] at h; dsimp only at h
      cases i with
      | zero => simp at h
      | succ i => simp at h
    | (x, false) :: it =>
      rw [nextRow] at h; dsimp only at h
      cases i with
      | zero => simp at h
      | succ i => simpa using ih i (by simpa using h)

omit [DecidableEq α] in
theorem nextRow_first (cols : List (List (List α × Bool))) (h : cols ≠ []) : 0 < (nextRow cols).1.length := by
  match cols with
  | [] => exact absurd rfl h
  | [] :: cs => rw [nextRow]; simp
  | ((x, true) :: it) :: cs => rw [nextRow]; simp
  | ((x, false) :: it) :: cs => rw [nextRow]; simp

omit [DecidableEq α] in
theorem nextRow_next (cols : List (List (List α × Bool))) (i : Nat) (h : i + 1 < cols.length) :
    i + 1 < (nextRow cols).1.length ↔
      i < (nextRow cols).1.length ∧ ∀ l, (nextRow cols).1[i]? ≠ some (some (l, true)) := by
  induction cols generalizing i with
  | nil => simp at h
  | cons l cols ih =>
    match l with
    | [] =>
      rw [nextRow]; dsimp only
      cases i with
      | zero =>
        have := nextRow_first cols (by rintro rfl; simp at h)
        simp; omega
      | succ i => simpa using ih i (by simpa using h)
    | (x, true) :: it =>
      rw [nextRow]; dsimp only
      cases i with
      | zero => simp
      | succ i => simp
    | (x, false) :: it =>
      rw [nextRow]; dsimp only
      cases i with
      | zero =>
        have := nextRow_first cols (by rintro rfl; simp at h)
        simp; omega
      | succ i => simpa using ih i (by simpa using h)

omit [DecidableEq α] in
/-- The last turn of the loop. -/
theorem nextRow_flag (cols : List (List (List α × Bool))) :
    (nextRow cols).2.2 = true ↔ ∀ c ∈ cols, c = [] := by
  induction cols with
  | nil => simp [nextRow]
  | cons l cols ih =>
    match l with
    | [] => rw [nextRow]; simpa using ih
    | (x, true) :: it => rw [nextRow]; simp
    | (x, false) :: it => rw [nextRow]; simp

omit [DecidableEq α] in
theorem nextRow_some (cols : List (List (List α × Bool))) (h : (nextRow cols).2.2 = false) :
    ∃ (i : Nat) (l : List α × Bool), (nextRow cols).1[i]? = some (some l) := by
  induction cols with
  | nil => simp [nextRow] at h
  | cons l cols ih =>
    match l with
    | [] =>
      rw [nextRow] at h ⊢
      obtain ⟨i, l, hi⟩ := ih h
      exact ⟨i + 1, l, by simpa using hi⟩
    | (x, true) :: it => rw [nextRow]; exact ⟨0, _, rfl⟩
    | (x, false) :: it => rw [nextRow]; exact ⟨0, _, rfl⟩

/-- The number of lines in the columns. -/
def count (cols : List (List (List α × Bool))) : Nat := (cols.map List.length).sum

omit [DecidableEq α] in
theorem nextRow_count (cols : List (List (List α × Bool))) :
    count (nextRow cols).2.1 ≤ count cols ∧
      ((nextRow cols).2.2 = false → count (nextRow cols).2.1 < count cols) := by
  induction cols with
  | nil => simp [nextRow]
  | cons l cols ih =>
    simp only [count] at *
    match l with
    | [] => rw [nextRow]; simpa using ih
    | (x, true) :: it => rw [nextRow]; simp
    | (x, false) :: it => rw [nextRow]; simp; omega

/-- mergeLoop, before the rows are written. -/
def rowsOf : Nat → List (List (List α × Bool)) → List (Row α)
  | 0, _ => []
  | fuel + 1, cols => if (nextRow cols).2.2 then [] else (nextRow cols).1 :: rowsOf fuel (nextRow cols).2.1

theorem mergeLoop_rows (sep : List α) (columns : List (Column α)) (fuel : Nat) :
    ∀ cols : List (List (List α × Bool)), columns.length = cols.length →
      mergeLoop E sep fuel (itsOf E columns cols) = (rowsOf fuel cols).map (rowText E sep columns) := by
  induction fuel with
  | zero => intro _ _; rfl
  | succ fuel ih =>
    intro cols h
    obtain ⟨h1, h2⟩ := nextLine_row (E := E) sep columns false cols h
    rw [mergeLoop, rowsOf]
    rw [h2, h1]
    by_cases hf : (nextRow cols).2.2 = true
    · rw [if_pos hf, if_pos hf]; rfl
    · rw [if_neg hf, if_neg hf, List.map_cons, ih _ (by rw [(nextRow_length cols).1]; exact h)]
      rfl

omit [DecidableEq α] in
theorem used_cons (i : Nat) (r : Row α) (rows : List (Row α)) :
    used i (r :: rows) = (r[i]?.join).toList ++ used i rows := by
  unfold used
  rw [List.filterMap_cons]
  cases r[i]?.join <;> rfl

omit [DecidableEq α] in
/-- The rows that are built show the columns. -/
theorem rowsOf_shows (fuel : Nat) : ∀ cols : List (List (List α × Bool)), cols ≠ [] → count cols < fuel →
    Shows cols (rowsOf fuel cols) := by
  induction fuel with
  | zero => intro cols _ h; omega
  | succ fuel ih =>
    intro cols hne h
    rw [rowsOf]
    by_cases hf : (nextRow cols).2.2 = true
    · rw [if_pos hf]
      refine ⟨?_, by simp, by simp, by simp, by simp, by simp⟩
      intro i c hc
      rw [(nextRow_flag cols).1 hf c (List.mem_of_getElem? hc)]; rfl
    · rw [if_neg hf]
      rw [Bool.not_eq_true] at hf
      have hlen := nextRow_length cols
      have ih := ih (nextRow cols).2.1 (by
        intro h1; rw [h1] at hlen; exact hne (List.length_eq_zero_iff.1 hlen.1.symm)) (by
        have := (nextRow_count cols).2 hf; omega)
      have hcomplete : ∀ i c, cols[i]? = some c → used i ((nextRow cols).1 :: rowsOf fuel (nextRow cols).2.1) = c := by
        intro i c hc
        obtain ⟨c', h1, h2⟩ := nextRow_col cols i c hc
        rw [used_cons, ih.complete i c' h1, ← h2]
      refine ⟨hcomplete, ?_, ?_, ?_, ?_, ?_⟩
      · intro r hr
        rcases List.mem_cons.1 hr with rfl | hr
        · exact hlen.2
        · have := ih.short r hr; omega
      · intro r hr
        rcases List.mem_cons.1 hr with rfl | hr
        · exact nextRow_first cols hne
        · exact ih.first r hr
      · intro r hr i hi
        rcases List.mem_cons.1 hr with rfl | hr
        · exact nextRow_next cols i hi
        · exact ih.next r hr i (by omega)
      · intro k r i hk hi
        cases k with
        | zero =>
          simp only [List.getElem?_cons_zero, Option.some.injEq] at hk
          subst hk
          exact hcomplete i [] (nextRow_none cols i hi)
        | succ k => exact ih.exhausted k r i (by simpa using hk) hi
      · intro r hr
        rcases List.mem_cons.1 hr with rfl | hr
        · exact nextRow_some cols hf
        · exact ih.notEmpty r hr

omit [DecidableEq α] in
/-- The first row is determined. -/
theorem Shows.head {cols : List (List (List α × Bool))} {r : Row α} {rows : List (Row α)} (hne : cols ≠ [])
    (h : Shows cols (r :: rows)) : r = (nextRow cols).1 := by
  -- cells agree
  have hcell : ∀ (i : Nat) (c : List (List α × Bool)) x, cols[i]? = some c → r[i]? = some x → x = c.head? := by
    intro i c x hc hx
    cases x with
    | none =>
      have := h.exhausted 0 r i rfl hx
      rw [List.drop_zero, h.complete i c hc] at this
      rw [this]; rfl
    | some x =>
      have := h.complete i c hc
      rw [used_cons, hx] at this
      rw [← this]; rfl
  have hcell' : ∀ (i : Nat) (c : List (List α × Bool)) x, cols[i]? = some c → (nextRow cols).1[i]? = some x → x = c.head? := by
    intro i c x hc hx
    obtain ⟨c', h1, h2⟩ := nextRow_col cols i c hc
    cases x with
    | none => rw [nextRow_none cols i hx] at hc; cases hc; rfl
    | some x => rw [h2, hx]; rfl
  have hs1 := h.short r (by simp)
  have hs2 := (nextRow_length cols).2
  have hlen : ∀ i, i < cols.length → (i < r.length ↔ i < (nextRow cols).1.length) := by
    intro i
    induction i with
    | zero =>
      intro _
      exact ⟨fun _ => nextRow_first cols hne, fun _ => h.first r (by simp)⟩
    | succ i ih =>
      intro hi
      rw [h.next r (by simp) i hi, nextRow_next cols i hi, ih (by omega)]
      constructor
      · rintro ⟨h1, h2⟩
        refine ⟨h1, fun l hl => h2 l ?_⟩
        obtain ⟨c, hc⟩ : ∃ c, cols[i]? = some c := ⟨_, List.getElem?_eq_getElem (by omega)⟩
        have hr : i < r.length := (ih (by omega)).2 h1
        rw [List.getElem?_eq_getElem hr, hcell i c _ hc (List.getElem?_eq_getElem hr), ← hcell' i c _ hc hl]
      · rintro ⟨h1, h2⟩
        refine ⟨h1, fun l hl => h2 l ?_⟩
        obtain ⟨c, hc⟩ : ∃ c, cols[i]? = some c := ⟨_, List.getElem?_eq_getElem (by omega)⟩
        rw [List.getElem?_eq_getElem h1, hcell' i c _ hc (List.getElem?_eq_getElem h1), ← hcell i c _ hc hl]
  have hlen' : r.length = (nextRow cols).1.length := by
    by_cases h1 : r.length < (nextRow cols).1.length
    · have := (hlen r.length (by omega)).2 h1; omega
    · by_cases h2 : (nextRow cols).1.length < r.length
      · have := (hlen (nextRow cols).1.length (by omega)).1 h2; omega
      · omega
  apply List.ext_getElem hlen'
  intro i h1 h2
  have hi : i < cols.length := by omega
  rw [hcell i _ _ (List.getElem?_eq_getElem hi) (List.getElem?_eq_getElem h1),
    hcell' i _ _ (List.getElem?_eq_getElem hi) (List.getElem?_eq_getElem h2)]

omit [DecidableEq α] in
/-- Only one list of rows shows the columns. -/
theorem Shows.unique {rows rows' : List (Row α)} : ∀ {cols : List (List (List α × Bool))}, cols ≠ [] →
    Shows cols rows → Shows cols rows' → rows = rows' := by
  induction rows generalizing rows' with
  | nil =>
    intro cols hne h h'
    cases rows' with
    | nil => rfl
    | cons r rows' =>
      obtain ⟨i, l, hi⟩ := h'.notEmpty r (by simp)
      have hl : i < r.length := (List.getElem?_eq_some_iff.1 hi).1
      have := h'.short r (by simp)
      have hc := List.getElem?_eq_getElem (show i < cols.length by omega)
      have h1 := h.complete i _ hc
      have h2 := h'.complete i _ hc
      rw [used_cons, hi, ← h1] at h2
      simp [used] at h2
  | cons r rows ih =>
    intro cols hne h h'
    cases rows' with
    | nil =>
      obtain ⟨i, l, hi⟩ := h.notEmpty r (by simp)
      have hl : i < r.length := (List.getElem?_eq_some_iff.1 hi).1
      have := h.short r (by simp)
      have hc := List.getElem?_eq_getElem (show i < cols.length by omega)
      have h1 := h.complete i _ hc
      have h2 := h'.complete i _ hc
      rw [used_cons, hi, ← h2] at h1
      simp [used] at h1
    | cons r' rows' =>
      have e1 := h.head hne
      have e2 := h'.head hne
      have hlen := nextRow_length cols
      have tl : ∀ rows : List (Row α), Shows cols ((nextRow cols).1 :: rows) → Shows (nextRow cols).2.1 rows := by
        intro rows h
        refine ⟨?_, ?_, ?_, ?_, ?_, ?_⟩
        · intro i c hc
          have hi : i < cols.length := by rw [← hlen.1]; exact (List.getElem?_eq_some_iff.1 hc).1
          obtain ⟨c', h1, h2⟩ := nextRow_col cols i _ (List.getElem?_eq_getElem hi)
          rw [hc] at h1
          cases h1
          have := h.complete i _ (List.getElem?_eq_getElem hi)
          rw [used_cons, h2] at this
          exact List.append_cancel_left this
        · intro r hr; rw [hlen.1]; exact h.short r (by simp [hr])
        · intro r hr; exact h.first r (by simp [hr])
        · intro r hr i hi; exact h.next r (by simp [hr]) i (by omega)
        · intro k r i hk hi; exact h.exhausted (k + 1) r i (by simpa using hk) hi
        · intro r hr; exact h.notEmpty r (by simp [hr])
      rw [e1, e2]
      rw [e1] at h
      rw [e2] at h'
      rw [ih (by intro h1; rw [h1] at hlen; exact hne (List.length_eq_zero_iff.1 hlen.1.symm)) (tl _ h) (tl _ h')]

theorem itsOf_marked (columns : List (Column α)) :
    itsOf E columns (columns.map (marked E o)) =
      columns.map (fun c => (padded E c.maxWidth (marked E o c), spaces E c.maxWidth)) := by
  induction columns with
  | nil => rfl
  | cons c cs ih => simp only [List.map_cons, ← ih]; rfl

theorem total_itsOf (columns : List (Column α)) (cols : List (List (List α × Bool))) (h : columns.length = cols.length) :
    total (itsOf E columns cols) = count cols := by
  unfold total count itsOf
  induction columns generalizing cols with
  | nil => cases cols with
    | nil => rfl
    | cons => simp at h
  | cons c cs ih =>
    cases cols with
    | nil => simp at h
    | cons l cols =>
      have := ih cols (by simpa using h)
      simp only [List.zipWith_cons_cons, List.map_cons, List.sum_cons, this]
      simp [padded]

/-- merge_columns: everything but the exception. -/
theorem mergeColumns_ok (columns : List (Column α)) (hne : columns ≠ []) (h : ∀ c ∈ columns, OneLine E c)
    (hr : o.strategy = .raise → ∀ c ∈ columns, ∀ m, wide E c.maxWidth (c.lines E) m = false) :
    ∃ rows, Shows (columns.map (marked E o)) rows ∧
      mergeColumns E o columns =
        .ok (rstrip E.isSpace (joinWith [E.nl] (rows.map (rowText E o.separator columns)))) := by
  unfold mergeColumns
  rw [if_neg hne]
  rcases columnsOf_spec (o := o) columns h with ⟨g1, ⟨c, hc, m, g2⟩, g3⟩ | ⟨g1, g2⟩
  · rw [hr g1 c hc m] at g2; simp at g2
  · rw [g2, ← itsOf_marked]
    dsimp only
    rw [mergeLoop_rows _ _ _ _ (by simp), total_itsOf _ _ (by simp)]
    exact ⟨_, rowsOf_shows _ _ (by simpa using hne) (by omega), rfl⟩

end Big.Wrap
