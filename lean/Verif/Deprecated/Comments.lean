import Verif.Deprecated.QuotedProps
import Verif.Deprecated.CommentsModel
import Verif.Lines.Comments
import Verif.Lines.Strip
/-!
# C62, third part: `deprecated.lines_strip_comments`
-/
namespace Big.DC
open Big.Lines Big.MS.Spec

variable {α μ : Type} [DecidableEq α]

/-! ## Specification -/

/-- No unquoted segment has a marker in it. -/
def NoneUnquoted (markers : List (List α)) (segs : List (DQ.Seg α)) : Prop :=
  ∀ seg, (false, seg) ∈ segs → NoMarker markers seg

/-- The pair `q` is right for the pair `p` with the segments `segs`: the line is cut at the first marker
which is in an unquoted segment, and, if so asked, trailing whitespace before that is removed too; if there
is no such marker the line is unchanged. In both cases no attribute is added to the LineInfo. -/
def Right (E : Env α) (a : Args α) (p q : Pair α μ) (segs : List (DQ.Seg α)) : Prop :=
  (∃ pre seg post x m y, segs = pre ++ (false, seg) :: post ∧ NoneUnquoted a.markers pre ∧
    CutAt a.markers seg x m y ∧ Same E p q ∧ q.1.attrs = p.1.attrs ∧
    (if a.rstrip then ∃ b, RStripped E.isSpace (DQ.join pre ++ x) q.2 b else q.2 = DQ.join pre ++ x)) ∨
  (NoneUnquoted a.markers segs ∧ q = p)

/-! ## Proof -/

theorem keep_spec (E : Env α) (a : Args α) (hne : a.markers ≠ []) (he : [] ∉ a.markers) (raised : Bool) :
    ∀ (segs : List (DQ.Seg α)) (kept : List α),
    (∃ pre seg post x m y, segs = pre ++ (false, seg) :: post ∧ NoneUnquoted a.markers pre ∧
      CutAt a.markers seg x m y ∧
      keep E a raised kept segs = .ok (kept ++ DQ.join pre ++ if a.rstrip then Lines.rstrip E x else x)) ∨
    (NoneUnquoted a.markers segs ∧
      keep E a raised kept segs = if raised then .error .runtimeError else .ok (kept ++ DQ.join segs))
  | [], kept => .inr ⟨fun seg h => (by simp at h), by simp [keep]⟩
  | (b, s) :: segs, kept => by
    have ih := keep_spec E a hne he raised segs (kept ++ s)
    have hcons : ∀ P : List (DQ.Seg α), (b = false → NoMarker a.markers s) → NoneUnquoted a.markers P →
        NoneUnquoted a.markers ((b, s) :: P) := by
      intro P h1 h2 seg hs
      rcases List.mem_cons.1 hs with h | h
      · cases h; exact h1 rfl
      · exact h2 seg h
    have lift : (b = false → NoMarker a.markers s) → keep E a raised kept ((b, s) :: segs) = keep E a raised (kept ++ s) segs →
        ((∃ pre seg post x m y, (b, s) :: segs = pre ++ (false, seg) :: post ∧ NoneUnquoted a.markers pre ∧
        CutAt a.markers seg x m y ∧
        keep E a raised kept ((b, s) :: segs) = .ok (kept ++ DQ.join pre ++ if a.rstrip then Lines.rstrip E x else x)) ∨
        (NoneUnquoted a.markers ((b, s) :: segs) ∧
        keep E a raised kept ((b, s) :: segs) = if raised then .error .runtimeError else .ok (kept ++ DQ.join ((b, s) :: segs)))) := by
      intro h1 h2
      rw [h2]
      rcases ih with ⟨pre, seg, post, x, m, y, g1, g2, g3, g4⟩ | ⟨g1, g2⟩
      · refine .inl ⟨(b, s) :: pre, seg, post, x, m, y, by rw [g1]; rfl, hcons _ h1 g2, g3, ?_⟩
        rw [g4]; simp
      · refine .inr ⟨hcons _ h1 g1, ?_⟩
        rw [g2]; simp
    cases b with
    | true => exact lift (by simp) rfl
    | false =>
      rcases splitComment_spec hne he s with ⟨h1, h2⟩ | ⟨x, m, y, h1, h2⟩
      · exact lift (fun _ => h2) (by simp only [keep, h1])
      · refine .inl ⟨[], s, segs, x, m, y, rfl, fun seg h => (by simp at h), h2, ?_⟩
        simp [keep, h1]

theorem clip_int {info : Info α μ} {a b : List α} (hb : b ≠ []) :
    clipTrailing info (a ++ b) b.length none = clipTrailing info (a ++ b) b.length (some b) := by
  have hl := List.length_pos_iff.2 hb
  have : sliceFrom (a ++ b) (-(b.length : Int)) = b := by
    unfold sliceFrom
    rw [if_neg (by omega)]; simp
  simp [clipTrailing, this]

theorem clip_attrs {info : Info α μ} {line : List α} {i : Int} {s : Option (List α)} {q}
    (h : clipTrailing info line i s = .ok q) : q.1.attrs = info.attrs := by
  unfold clipTrailing at h
  dsimp only at h
  split at h
  · unfold clipAll at h
    split at h
    · simp at h
    · simp at h; rw [← h]
  · simp at h; rw [← h]

omit [DecidableEq α] in
theorem rstrip_prefix (E : Env α) (x : List α) : ∃ b, x = Lines.rstrip E x ++ b ∧ ∀ c ∈ b, E.isSpace c = true := by
  obtain ⟨b, h1, h2, -⟩ := rstrip_stripped (E := E) x
  exact ⟨b, h1, h2⟩

theorem join_append (a b : List (DQ.Seg α)) : DQ.join (a ++ b) = DQ.join a ++ DQ.join b := by
  simp [DQ.join]

/-- A segment before an unquoted one is a whole quoted string, so ends in a quote mark. -/
theorem before_unquoted {quotes : List α} {triples : Bool} {bs : α} {tail : List α} {pre : List (DQ.Seg α)} {x seg post}
    (h : DQ.AllOk quotes triples bs tail (pre ++ x :: (false, seg) :: post)) : ∃ q ∈ quotes, x.2.getLast? = some q := by
  have h1 := h pre x _ rfl
  obtain ⟨b, t⟩ := x
  cases b with
  | false =>
    obtain ⟨-, -, ⟨h2, -⟩ | ⟨t', post', h2⟩⟩ := h1
    · simp at h2
    · simp at h2
  | true =>
    obtain ⟨q, hq, h2 | ⟨h2, -⟩⟩ := h1
    · refine ⟨q, hq, ?_⟩
      cases h2 with
      | single => simp [List.getLast?_append, List.getLast?_cons]
      | triple => simp [List.getLast?_cons, List.getLast?_append]
    · simp at h2

/-- The segments of a line: they are right, and give the line back if the splitter does not raise. -/
theorem segments_ok (a : Args α) (hbs : a.bs ∉ a.quotes) (line : List α) :
    ∃ tail, line = DQ.join (segments a line).segs ++ tail ∧
      ((segments a line).raised = false → tail = []) ∧
      (∀ pre x seg post, (segments a line).segs = pre ++ x :: (false, seg) :: post → ∃ q ∈ a.quotes, x.2.getLast? = some q) := by
  unfold segments
  split
  · refine ⟨[], by simp, by simp, ?_⟩
    intro pre x seg post h
    have := congrArg List.length h
    simp at this
    omega
  · obtain ⟨segs, tail, h1, h2, h3⟩ := DQ.run_all (triples := a.triples) hbs line.length line (Nat.le_refl _)
    rcases h3 with ⟨h3, h4⟩ | ⟨h3, h4⟩
    · rw [h3]
      exact ⟨tail, h1, fun _ => h4, fun pre x seg post h => before_unquoted (by rw [← h]; exact h2)⟩
    · rw [h3]
      exact ⟨tail, h1, by simp, fun pre x seg post h => before_unquoted (by rw [← h]; exact h2)⟩

/-- C62: one line. Unless the splitter of quoted strings raises before a marker is found, the right pair is
yielded. -/
theorem C62_strip_comments_line (E : Env α) (a : Args α) (hne : a.markers ≠ []) (he : [] ∉ a.markers)
    (hbs : a.bs ∉ a.quotes) (hsp : ∀ q ∈ a.quotes, E.isSpace q = false) (p : Pair α μ) (hw : Whole p) :
    (∃ q, one E a p = .ok q ∧ Right E a p q (segments a p.2).segs) ∨
    (one E a p = .error .runtimeError ∧ (segments a p.2).raised = true ∧ NoneUnquoted a.markers (segments a p.2).segs) := by
  obtain ⟨tail, hj, htail, hq⟩ := segments_ok a hbs p.2
  obtain ⟨info, line⟩ := p
  dsimp only at hj htail hq
  unfold one
  dsimp only
  generalize segments a line = r at hj htail hq
  rcases keep_spec E a hne he r.raised r.segs [] with ⟨pre, seg, post, x, m, y, g1, g2, g3, g4⟩ | ⟨g1, g2⟩
  · left
    rw [g4]
    dsimp only
    have hm : m ≠ [] := fun h => he (h ▸ g3.2.1.1)
    -- what is kept, and what is removed
    obtain ⟨kx, b, hk, hb⟩ : ∃ kx b, x = kx ++ b ∧ kx = (if a.rstrip then Lines.rstrip E x else x) := by
      cases a.rstrip with
      | false => exact ⟨x, [], by simp, rfl⟩
      | true =>
        obtain ⟨b, h1, h2⟩ := rstrip_prefix E x
        exact ⟨Lines.rstrip E x, b, h1, rfl⟩
    have hline : line = (DQ.join pre ++ kx) ++ (b ++ (m ++ y) ++ DQ.join post ++ tail) := by
      rw [hj, g1, join_append, DQ.join_cons, g3.1, hk]; simp
    rw [← hb]
    have hrem : b ++ (m ++ y) ++ DQ.join post ++ tail ≠ [] := by simp [hm]
    generalize b ++ (m ++ y) ++ DQ.join post ++ tail = rem at hline hrem
    rw [List.nil_append]
    have hlen : (line.length : Int) - (DQ.join pre ++ kx).length = rem.length := by
      rw [hline]; simp; omega
    have hl := List.length_pos_iff.2 hrem
    rw [hlen, if_pos (by omega)]
    subst hline
    obtain ⟨q, k1, k2, k3⟩ := clipTrailing_spec (E := E) hw rem rfl (fun h => absurd h hrem)
    rw [← clip_int hrem] at k1
    rw [k1]
    refine ⟨q, rfl, .inl ⟨pre, seg, post, x, m, y, g1, g2, g3, k2, clip_attrs k1, ?_⟩⟩
    rw [k3]
    cases hr : a.rstrip with
    | false =>
      rw [hr] at hb
      simp only [Bool.false_eq_true, if_false] at hb ⊢
      rw [hb]
    | true =>
      rw [hr] at hb
      simp only [if_true] at hb ⊢
      obtain ⟨b', h1, h2, h3⟩ := rstrip_stripped (E := E) x
      rw [← hb] at h1 h3
      refine ⟨b', by rw [List.append_assoc, ← h1], h2, ?_⟩
      intro c hc
      cases hkx : kx with
      | cons z kx' =>
        apply h3
        rw [hkx] at hc ⊢
        simpa [List.getLast?_append] using hc
      | nil =>
        rw [hkx, List.append_nil] at hc
        rcases List.eq_nil_or_concat pre with rfl | ⟨pre', z, rfl⟩
        · simp at hc
        · obtain ⟨q', hq1, hq2⟩ := hq pre' z seg post (by rw [g1]; simp)
          rw [List.concat_eq_append, join_append, DQ.join_cons, DQ.join_nil, List.append_nil, List.getLast?_append, hq2] at hc
          simp at hc
          rw [← hc]
          exact hsp q' hq1
  · rw [g2]
    cases hr : r.raised with
    | true => exact .inr ⟨rfl, rfl, g1⟩
    | false =>
      left
      refine ⟨(info, line), ?_, .inr ⟨g1, rfl⟩⟩
      have := htail hr
      rw [this, List.append_nil] at hj
      simp [← hj]

/-- C62: all lines: they are yielded in order, each one right; the generator ends early, with a
RuntimeError, only at a line whose last character opens a quoted string, with triple quotes on. -/
theorem C62_strip_comments (E : Env α) (a : Args α) (hne : a.markers ≠ []) (he : [] ∉ a.markers)
    (hbs : a.bs ∉ a.quotes) (hsp : ∀ q ∈ a.quotes, E.isSpace q = false) (li : List (Pair α μ)) (hw : ∀ p ∈ li, Whole p) :
    ∃ n, Pointwise (fun p q => Right E a p q (segments a p.2).segs) (li.take n) (linesStripComments E a li).1 ∧
      (((linesStripComments E a li).2 = none ∧ li.length ≤ n) ∨
       ((linesStripComments E a li).2 = some .runtimeError ∧ a.triples = true ∧
         ∃ p q, li[n]? = some p ∧ p.2.getLast? = some q ∧ q ∈ a.quotes)) := by
  have hl : linesStripComments E a li = loop E a li := by
    unfold linesStripComments
    rw [if_neg (by simpa using hne)]
  rw [hl]
  induction li with
  | nil => exact ⟨0, ⟨rfl, by simp⟩, .inl ⟨rfl, by simp⟩⟩
  | cons p li ih =>
    rcases C62_strip_comments_line E a hne he hbs hsp p (hw p (by simp)) with ⟨q, h1, h2⟩ | ⟨h1, h2, -⟩
    · have hl' : linesStripComments E a li = loop E a li := by
        unfold linesStripComments
        rw [if_neg (by simpa using hne)]
      obtain ⟨n, ⟨g1, g2⟩, g3⟩ := ih (fun p hp => hw p (by simp [hp])) hl'
      have hloop : loop E a (p :: li) = (q :: (loop E a li).1, (loop E a li).2) := by simp only [loop, h1]
      rw [hloop]
      refine ⟨n + 1, ⟨by simpa using g1, ?_⟩, ?_⟩
      · intro i p' q' hp hq
        cases i with
        | zero => simp at hp hq; subst hp; subst hq; exact h2
        | succ i => exact g2 i p' q' (by simpa using hp) (by simpa using hq)
      · rcases g3 with ⟨g3, g4⟩ | g3
        · exact .inl ⟨g3, by simp; omega⟩
        · exact .inr (by simpa using g3)
    · have hloop : loop E a (p :: li) = ([], some .runtimeError) := by simp only [loop, h1]
      rw [hloop]
      refine ⟨0, ⟨rfl, by simp⟩, .inr ⟨rfl, ?_⟩⟩
      unfold segments at h2
      split at h2
      · simp at h2
      · cases hs : DQ.splitQuoted a.quotes a.triples a.bs p.2 with
        | mk segs raised =>
          rw [hs] at h2
          dsimp only at h2
          subst h2
          obtain ⟨h3, u, q, h4, h5, -⟩ := (DQ.C62_quoted_raises _ _ _ hbs _ _).1 hs
          refine ⟨h3, p, q, by simp, ?_, h5⟩
          rw [h4]; simp [List.getLast?_append]

/-! ## Examples -/

def E0 : Env Char :=
  { tab := '\t', space := ' ', nl := '\n', cr := '\r', isSpace := fun c => c = ' ' || c = '\t', linebreaks := [['\n']],
    column := 1, tabWidth := 8, sq := { nl := '\n', nlines := fun _ => 1, laden := 'x', sort := id, cache := fun _ => none } }

/-- Example arguments. -/
def a0 : Args Char := ⟨[['#'], ['/', '/']], ['"', '\''], '\\', true, true⟩

/-- Example: a line as lines yields it. -/
def line (s : String) : Pair Char Unit := (⟨s.toList, 1, 1, [], [], [], 0, []⟩, s.toList)

example : a0.markers ≠ [] ∧ [] ∉ a0.markers ∧ a0.bs ∉ a0.quotes ∧ (∀ q ∈ a0.quotes, E0.isSpace q = false) ∧
    Whole (line "a = '#' # b") := by
  refine ⟨by decide, by decide, by decide, by decide, ?_⟩
  unfold Whole line; decide

end Big.DC
