import Verif.File.Fs
/-!
# C36: the filesystem helpers
-/
namespace Big.File.Fs

/-- q is a proper ancestor of p (p is reversed, so ancestors are proper suffixes). -/
def Ancestor (q p : Path) : Prop := ∃ n l, p = n :: l ++ q

theorem ancestor_cons {q : Path} {n : Name} {p : Path} : Ancestor q (n :: p) ↔ q = p ∨ Ancestor q p := by
  constructor
  · rintro ⟨m, l, h⟩
    cases l with
    | nil => simp at h; exact .inl h.2.symm
    | cons k l => simp at h; exact .inr ⟨k, l, by simpa using h.2⟩
  · rintro (rfl | ⟨m, l, rfl⟩)
    · exact ⟨n, [], rfl⟩
    · exact ⟨n, m :: l, rfl⟩

theorem not_ancestor_self {p : Path} : ¬ Ancestor p p := by
  rintro ⟨n, l, h⟩
  have := congrArg List.length h
  simp at this
  omega

theorem isdir_iff {fs : FS} {p : Path} : isdir fs p = true ↔ ∃ t, fs p = some (.dir t) := by
  unfold isdir
  cases h : fs p with
  | none => simp
  | some e => cases e <;> simp [Entry.isDir]

theorem isfile_iff {fs : FS} {p : Path} : isfile fs p = true ↔ ∃ c t, fs p = some (.file c t) := by
  unfold isfile
  cases h : fs p with
  | none => simp
  | some e => cases e <;> simp [Entry.isFile]

theorem WF.up {fs : FS} (w : WF fs) {q p : Path} (h : Ancestor q p) (hp : fs p ≠ none) :
    isdir fs q = true := by
  induction p with
  | nil => obtain ⟨n, l, h⟩ := h; simp at h
  | cons n p ih =>
    have hd := w.parent n p hp
    rcases ancestor_cons.1 h with rfl | h
    · exact hd
    · refine ih h ?_
      obtain ⟨t, ht⟩ := isdir_iff.1 hd
      rw [ht]; simp

/-- The tree fs' is fs with a directory at p: all that existed at other places is as it was, and what is
new is p and those of its ancestors that did not exist, as directories. -/
structure DirMade (now : Nat) (p : Path) (fs fs' : FS) : Prop where
  dir : isdir fs' p = true
  kept : ∀ q, q ≠ p → fs q ≠ none → fs' q = fs q
  fresh : ∀ q, q ≠ p → fs q = none → fs' q ≠ none → Ancestor q p ∧ fs' q = some (.dir now)
  same : isdir fs p = true → fs' p = fs p
  made : isdir fs p = false → fs' p = some (.dir now)

theorem set_eq (fs : FS) (p : Path) (e : Option Entry) : fs.set p e p = e := by simp [FS.set]
theorem set_ne (fs : FS) {p q : Path} (h : q ≠ p) (e : Option Entry) : fs.set p e q = fs q := by
  simp [FS.set, h]

theorem checkParent_none {fs : FS} {n : Name} {p : Path} (h : isdir fs p = true) :
    checkParent fs (n :: p) = none := by
  obtain ⟨t, ht⟩ := isdir_iff.1 h
  simp [checkParent, ht]

theorem wf_set_dir {fs : FS} (w : WF fs) {n : Name} {p : Path} (h : isdir fs p = true)
    (hn : fs (n :: p) = none) (now : Nat) : WF (fs.set (n :: p) (some (.dir now))) where
  root := by rw [set_ne _ (by simp)]; exact w.root
  parent m q hq := by
    by_cases e : q = n :: p
    · subst e; rw [set_eq]; rfl
    · rw [set_ne _ e]
      by_cases e' : m :: q = n :: p
      · cases e'; exact h
      · rw [set_ne _ e'] at hq
        exact w.parent m q hq

theorem makedirs_spec (now : Nat) {fs : FS} (w : WF fs) (p : Path) :
    (∃ fs', makedirs now p fs = .ok fs' ∧ DirMade now p fs fs' ∧ WF fs' ∧
      ∀ q, Ancestor q p → isdir fs' q = true) ∨
    (∃ e, makedirs now p fs = .error e ∧ ∃ q, (q = p ∨ Ancestor q p) ∧ isfile fs q = true) := by
  induction p with
  | nil =>
    obtain ⟨t, ht⟩ := isdir_iff.1 w.root
    refine .inl ⟨fs, ?_, ⟨w.root, fun _ _ _ => rfl, fun _ _ h h' => absurd h h', fun _ => rfl,
      fun h => by rw [show isdir fs [] = true from w.root] at h; cases h⟩, w, ?_⟩
    · simp [makedirs, mkdirOk, mkdir, exist, isdir, ht, Entry.isDir]
    · rintro q ⟨n, l, h⟩; simp at h
  | cons n p ih =>
    by_cases hp : exist fs p = true
    · rw [makedirs, if_pos hp]
      cases hnp : fs (n :: p) with
      | some e =>
        have hd : isdir fs p = true := w.parent n p (by rw [hnp]; simp)
        have hm : mkdir now (n :: p) fs = .error .fileExists := by simp [mkdir, exist, hnp]
        cases e with
        | dir t =>
          have hi : isdir fs (n :: p) = true := isdir_iff.2 ⟨t, hnp⟩
          refine .inl ⟨fs, by simp [mkdirOk, hm, hi], ⟨hi, fun _ _ _ => rfl, fun _ _ h h' => absurd h h',
            fun _ => rfl, fun h => by rw [hi] at h; cases h⟩, w, fun q hq => w.up hq (by rw [hnp]; simp)⟩
        | file c t =>
          have hi : isfile fs (n :: p) = true := isfile_iff.2 ⟨c, t, hnp⟩
          have hi' : isdir fs (n :: p) = false := by simp [isdir, hnp, Entry.isDir]
          exact .inr ⟨.fileExists, by simp [mkdirOk, hm, hi'], n :: p, .inl rfl, hi⟩
      | none =>
        have he : exist fs (n :: p) = false := by simp [exist, hnp]
        have hi' : isdir fs (n :: p) = false := by simp [isdir, hnp]
        cases hfp : fs p with
        | none => simp [exist, hfp] at hp
        | some e =>
          cases e with
          | file c t =>
            refine .inr ⟨.notADirectory, ?_, p, .inr (ancestor_cons.2 (.inl rfl)),
              isfile_iff.2 ⟨c, t, hfp⟩⟩
            simp [mkdirOk, mkdir, he, checkParent, hfp, hi']
          | dir t =>
            have hd : isdir fs p = true := isdir_iff.2 ⟨t, hfp⟩
            refine .inl ⟨fs.set (n :: p) (some (.dir now)), ?_, ⟨?_, ?_, ?_, ?_, fun _ => set_eq ..⟩,
              wf_set_dir w hd hnp now, ?_⟩
            · simp [mkdirOk, mkdir, he, checkParent, hfp]
            · exact isdir_iff.2 ⟨now, set_eq ..⟩
            · intro q hq _; exact set_ne _ hq _
            · intro q hq h h'; rw [set_ne _ hq] at h'; exact absurd h h'
            · intro h; rw [hi'] at h; cases h
            · intro q hq
              have hne : q ≠ n :: p := by rintro rfl; exact not_ancestor_self hq
              unfold isdir
              rw [set_ne _ hne]
              rcases ancestor_cons.1 hq with rfl | hq
              · exact hd
              · exact w.up hq (by rw [hfp]; simp)
    · have hp' : fs p = none := by simpa [exist] using hp
      have hnp : fs (n :: p) = none := by
        cases h : fs (n :: p) with
        | none => rfl
        | some e =>
          have := w.parent n p (by rw [h]; simp)
          simp [hp'] at this
      rw [makedirs, if_neg hp]
      rcases ih with ⟨fs1, h1, h2, h3, h4⟩ | ⟨e, h1, q, h2, h3⟩
      · have hnp1 : fs1 (n :: p) = none := by
          cases h : fs1 (n :: p) with
          | none => rfl
          | some e =>
            have hne : n :: p ≠ p := by intro h; have := congrArg List.length h; simp at this
            obtain ⟨⟨m, l, ha⟩, _⟩ := h2.fresh (n :: p) hne hnp (by rw [h]; simp)
            have := congrArg List.length ha
            simp at this
            omega
        refine .inl ⟨fs1.set (n :: p) (some (.dir now)), ?_, ⟨?_, ?_, ?_, ?_, fun _ => set_eq ..⟩,
              wf_set_dir h3 h2.dir hnp1 now, ?_⟩
        · simp [h1, bind, mkdirOk, mkdir, exist, hnp1, checkParent_none h2.dir]
        · exact isdir_iff.2 ⟨now, set_eq ..⟩
        · intro q hq hne
          rw [set_ne _ hq]
          refine h2.kept q ?_ hne
          rintro rfl; exact hne hp'
        · intro q hq h h'
          rw [set_ne _ hq] at h' ⊢
          by_cases hqp : q = p
          · subst hqp
            exact ⟨ancestor_cons.2 (.inl rfl), h2.made (by simp [isdir, h])⟩
          · obtain ⟨a, b⟩ := h2.fresh q hqp h h'
            exact ⟨ancestor_cons.2 (.inr a), b⟩
        · intro h
          have : isdir fs (n :: p) = false := by simp [isdir, hnp]
          rw [this] at h; cases h
        · intro q hq
          have hne : q ≠ n :: p := by rintro rfl; exact not_ancestor_self hq
          unfold isdir
          rw [set_ne _ hne]
          rcases ancestor_cons.1 hq with rfl | hq
          · exact h2.dir
          · exact h4 q hq
      · refine .inr ⟨e, by simp [h1, bind], q, ?_, h3⟩
        rcases h2 with rfl | h2
        · exact .inr (ancestor_cons.2 (.inl rfl))
        · exact .inr (ancestor_cons.2 (.inr h2))

/-- C36: if safe_mkdir returns, a directory is at the path; if one was there already the tree is as it
was there; everything that existed at other places is unchanged; and the only other new things are
missing ancestors, as directories. -/
theorem C36_safe_mkdir (now : Nat) (fs fs' : FS) (w : WF fs) (p : Path)
    (h : safeMkdir now p fs = .ok fs') : DirMade now p fs fs' ∧ WF fs' := by
  unfold safeMkdir at h
  by_cases hf : isfile fs p = true
  · obtain ⟨c, t, hc⟩ := isfile_iff.1 hf
    rw [if_pos hf] at h
    have hu : unlink p fs = .ok (fs.set p none) := by simp [unlink, hc]
    rw [hu] at h
    simp only [bind] at h
    have w' : WF (fs.set p none) := by
      refine ⟨?_, ?_⟩
      · have : ([] : Path) ≠ p := by
          rintro rfl; have := w.root; rw [hc] at this; simp [Entry.isDir] at this
        rw [set_ne _ this]; exact w.root
      · intro n q hq
        have hnq : n :: q ≠ p := by intro e; rw [e, set_eq] at hq; exact hq rfl
        rw [set_ne _ hnq] at hq
        have hd := w.parent n q hq
        have : q ≠ p := by rintro rfl; rw [hc] at hd; simp [Entry.isDir] at hd
        rw [set_ne _ this]; exact hd
    rcases makedirs_spec now w' p with ⟨g, h1, h2, h3, _⟩ | ⟨e, h1, _⟩
    · rw [h1] at h
      cases h
      have hnd : isdir fs p = false := by simp [isdir, hc, Entry.isDir]
      refine ⟨⟨h2.dir, ?_, ?_, ?_, ?_⟩, h3⟩
      · intro q hq hne; rw [h2.kept q hq (by rw [set_ne _ hq]; exact hne), set_ne _ hq]
      · intro q hq h0 h1; exact h2.fresh q hq (by rw [set_ne _ hq]; exact h0) h1
      · intro hh; rw [hnd] at hh; cases hh
      · intro _; exact h2.made (by simp [isdir, set_eq])
    · rw [h1] at h; cases h
  · rw [if_neg hf] at h
    simp only [bind] at h
    rcases makedirs_spec now w p with ⟨g, h1, h2, h3, _⟩ | ⟨e, h1, _⟩
    · rw [h1] at h; cases h; exact ⟨h2, h3⟩
    · rw [h1] at h; cases h

/-- C36: safe_mkdir fails only if a proper ancestor of the path is a file. -/
theorem C36_safe_mkdir_succeeds (now : Nat) (fs : FS) (w : WF fs) (p : Path)
    (h : ∀ q, Ancestor q p → isfile fs q = false) : ∃ fs', safeMkdir now p fs = .ok fs' := by
  unfold safeMkdir
  by_cases hf : isfile fs p = true
  · obtain ⟨c, t, hc⟩ := isfile_iff.1 hf
    rw [if_pos hf]
    have hu : unlink p fs = .ok (fs.set p none) := by simp [unlink, hc]
    rw [hu]
    simp only [bind]
    have w' : WF (fs.set p none) := by
      refine ⟨?_, ?_⟩
      · have : ([] : Path) ≠ p := by
          rintro rfl; have := w.root; rw [hc] at this; simp [Entry.isDir] at this
        rw [set_ne _ this]; exact w.root
      · intro n q hq
        have hnq : n :: q ≠ p := by intro e; rw [e, set_eq] at hq; exact hq rfl
        rw [set_ne _ hnq] at hq
        have hd := w.parent n q hq
        have : q ≠ p := by rintro rfl; rw [hc] at hd; simp [Entry.isDir] at hd
        rw [set_ne _ this]; exact hd
    rcases makedirs_spec now w' p with ⟨g, h1, _⟩ | ⟨e, h1, q, h2, h3⟩
    · exact ⟨g, h1⟩
    · exfalso
      rcases h2 with rfl | h2
      · simp [isfile, set_eq] at h3
      · have hne : q ≠ p := by rintro rfl; exact not_ancestor_self h2
        unfold isfile at h3
        rw [set_ne _ hne] at h3
        have := h q h2
        unfold isfile at this
        rw [h3] at this; cases this
  · rw [if_neg hf]
    simp only [bind]
    rcases makedirs_spec now w p with ⟨g, h1, _⟩ | ⟨e, h1, q, h2, h3⟩
    · exact ⟨g, h1⟩
    · exfalso
      rcases h2 with rfl | h2
      · exact hf h3
      · rw [h q h2] at h3; cases h3

/-- C36: safe_unlink never fails; it removes the path if a file is there, and does nothing else. -/
theorem C36_safe_unlink (fs : FS) (p : Path) :
    ∃ fs', safeUnlink p fs = .ok fs' ∧ isfile fs' p = false ∧ (∀ q, q ≠ p → fs' q = fs q) ∧
      (isfile fs p = true → fs' p = none) ∧ (isfile fs p = false → fs' = fs) := by
  unfold safeUnlink
  by_cases hf : isfile fs p = true
  · obtain ⟨c, t, hc⟩ := isfile_iff.1 hf
    exact ⟨fs.set p none, by simp [hf, unlink, hc], by simp [isfile, set_eq],
      fun q hq => set_ne _ hq _, fun _ => set_eq .., fun h => by rw [hf] at h; cases h⟩
  · have hf' : isfile fs p = false := by simpa using hf
    exact ⟨fs, by simp [hf'], hf', fun _ _ => rfl, fun h => absurd h hf, fun _ => rfl⟩

/-- C36: after touch, the path exists with the current time; what was there keeps its kind and content,
else it is an empty file; nothing else changes. -/
theorem C36_touch (now : Nat) (fs fs' : FS) (p : Path) (h : touch now p fs = .ok fs') :
    fs' p = some (((fs p).getD (.file [] 0)).setTime now) ∧ ∀ q, q ≠ p → fs' q = fs q := by
  unfold touch at h
  cases hp : fs p with
  | some e =>
    rw [if_pos (by simp [exist, hp])] at h
    simp only [utime, hp] at h
    cases h
    exact ⟨by rw [set_eq]; rfl, fun q hq => set_ne _ hq _⟩
  | none =>
    rw [if_neg (by simp [exist, hp])] at h
    simp only [openWb, hp] at h
    split at h
    · cases h
    · cases h
      exact ⟨by rw [set_eq]; rfl, fun q hq => set_ne _ hq _⟩

/-- C36: touch succeeds if the path exists or its parent is a directory. -/
theorem C36_touch_succeeds (now : Nat) (fs : FS) (n : Name) (p : Path)
    (h : fs (n :: p) ≠ none ∨ isdir fs p = true) : ∃ fs', touch now (n :: p) fs = .ok fs' := by
  unfold touch
  cases hp : fs (n :: p) with
  | some e =>
    rw [if_pos (by simp [exist, hp])]
    simp only [utime, hp]
    exact ⟨_, rfl⟩
  | none =>
    rw [if_neg (by simp [exist, hp])]
    have hd : isdir fs p = true := h.resolve_left (by simp [hp])
    simp only [openWb, hp, checkParent_none hd]
    exact ⟨_, rfl⟩

/-! ## pushd -/

theorem leave_cwd (cwd : Path) (r : Option Err × Proc) :
    (isdir r.2.fs cwd = true → (leave cwd r).1 = r.1 ∧ (leave cwd r).2.cwd = cwd) ∧
    (isdir r.2.fs cwd = false → (leave cwd r).1 ≠ none) := by
  constructor
  · intro h
    obtain ⟨t, ht⟩ := isdir_iff.1 h
    simp [leave, chdirTo, ht]
  · intro h
    unfold leave chdirTo
    cases hc : r.2.fs cwd with
    | none => simp [hc]
    | some e =>
      cases e with
      | file c t => simp [hc]
      | dir t => simp [isdir, hc, Entry.isDir] at h

/-- C36: for every pushd object, however it was made, and every body, with any nesting, directory
changes and exceptions: if the directory that was current when the object was made still exists at
the end of the block, it is the current directory after the block, and the block ends as its body
did; if it does not exist any more, the block raises. -/
theorem C36_pushd (s : Proc) (i : Nat) (w : WPath) (cwd : Path) (body : Prog)
    (ho : s.objs[i]? = some (w, cwd)) (s' : Proc) (he : chdir w s = (none, s')) :
    (isdir (body.run s').2.fs cwd = true →
      ((Prog.block i body).run s).2.cwd = cwd ∧
      ((Prog.block i body).run s).1 = (body.run s').1) ∧
    (isdir (body.run s').2.fs cwd = false → ((Prog.block i body).run s).1 ≠ none) := by
  have e : (Prog.block i body).run s = leave cwd (body.run s') := by
    simp only [Prog.run, ho, he]
  rw [e]
  obtain ⟨a, b⟩ := leave_cwd cwd (body.run s')
  exact ⟨fun h => ⟨(a h).2, (a h).1⟩, b⟩

/-- C36: the body of a pushd block starts in the given directory; if it is not a directory the block
raises and nothing changes. -/
theorem C36_pushd_enter (s : Proc) (i : Nat) (w : WPath) (cwd : Path) (body : Prog)
    (ho : s.objs[i]? = some (w, cwd)) :
    (∀ p, resolve s.fs s.cwd w = some p → isdir s.fs p = true →
      chdir w s = (none, { s with cwd := p })) ∧
    ((∀ p, resolve s.fs s.cwd w = some p → isdir s.fs p = false) →
      ((Prog.block i body).run s).1 ≠ none ∧ ((Prog.block i body).run s).2 = s) := by
  constructor
  · intro p hp hd
    obtain ⟨t, ht⟩ := isdir_iff.1 hd
    simp [chdir, hp, chdirTo, ht]
  · intro h
    have : ∃ e, chdir w s = (some e, s) := by
      unfold chdir
      cases hr : resolve s.fs s.cwd w with
      | none => exact ⟨_, rfl⟩
      | some p =>
        have hd := h p hr
        unfold chdirTo
        cases hc : s.fs p with
        | none => exact ⟨.fileNotFound, by simp [hc]⟩
        | some e =>
          cases e with
          | file c t => exact ⟨.notADirectory, by simp [hc]⟩
          | dir t => simp [isdir, hc, Entry.isDir] at hd
    obtain ⟨e, he⟩ := this
    simp [Prog.run, ho, he]

/-- The objects made stay as they are, through any program. -/
theorem run_objs (p : Prog) : ∀ s, ∃ l, (p.run s).2.objs = s.objs ++ l := by
  have hch : ∀ (q : Option Path) (s : Proc), (chdirTo q s).2.objs = s.objs := by
    intro q s
    unfold chdirTo
    split
    · rfl
    · split <;> rfl
  induction p with
  | skip => intro s; exact ⟨[], by simp [Prog.run]⟩
  | raise n => intro s; exact ⟨[], by simp [Prog.run]⟩
  | chdir w => intro s; exact ⟨[], by simp [Prog.run, chdir, hch]⟩
  | fs f => intro s; exact ⟨[], by simp [Prog.run]⟩
  | new w =>
    intro s
    simp only [Prog.run]
    split
    · exact ⟨_, rfl⟩
    · exact ⟨[], by simp⟩
  | block i body ih =>
    intro s
    simp only [Prog.run]
    split
    · exact ⟨[], by simp⟩
    · rename_i w cwd ho
      have h1 : (chdir w s).2.objs = s.objs := hch _ _
      split
      · rename_i e s' he
        rw [he] at h1
        exact ⟨[], by simpa using h1⟩
      · rename_i s' he
        rw [he] at h1
        obtain ⟨l, hl⟩ := ih s'
        refine ⟨l, ?_⟩
        have h2 := hch (some cwd) (body.run s').2
        unfold leave
        split
        · rename_i e s'' hx
          rw [hx] at h2
          rw [h2, hl]; simp at h1; rw [h1]
        · rename_i s'' hx
          rw [hx] at h2
          rw [h2, hl]; simp at h1; rw [h1]
  | seq p q ihp ihq =>
    intro s
    obtain ⟨l, hl⟩ := ihp s
    simp only [Prog.run]
    split
    · rename_i e s' he
      rw [he] at hl; exact ⟨l, hl⟩
    · rename_i s' he
      rw [he] at hl
      obtain ⟨k, hk⟩ := ihq s'
      exact ⟨l ++ k, by rw [hk, hl, List.append_assoc]⟩
  | catch_ p q ihp ihq =>
    intro s
    obtain ⟨l, hl⟩ := ihp s
    simp only [Prog.run]
    split
    · rename_i e s' he
      rw [he] at hl
      obtain ⟨k, hk⟩ := ihq s'
      exact ⟨l ++ k, by rw [hk, hl, List.append_assoc]⟩
    · rename_i s' he
      rw [he] at hl; exact ⟨l, hl⟩

/-- C36: making a pushd object records the directory current at that time, and whatever runs before the
block is entered, that is the directory the block restores (`C36_pushd`). -/
theorem C36_pushd_records (s : Proc) (w : WPath) (hd : isdir s.fs s.cwd = true) (p : Prog) :
    ((Prog.seq (.new w) p).run s).2.objs[s.objs.length]? = some (w, s.cwd) := by
  simp only [Prog.run, hd, if_true]
  obtain ⟨l, hl⟩ := run_objs p { s with objs := s.objs ++ [(w, s.cwd)] }
  rw [hl]
  simp

/-- C36: an exception raised in a pushd block inside another comes out of both unchanged, what follows it is not run, and the
directory is that of before, if the directories are still there. -/
theorem C36_pushd_exception (s : Proc) (i j n : Nat) (w₁ w₂ : WPath) (cwd₁ cwd₂ : Path) (p q q' : Prog)
    (h₁ : s.objs[i]? = some (w₁, cwd₁)) (s₁ : Proc) (e₁ : chdir w₁ s = (none, s₁))
    (h₂ : s₁.objs[j]? = some (w₂, cwd₂)) (s₂ : Proc) (e₂ : chdir w₂ s₁ = (none, s₂))
    (hp : (p.run s₂).1 = none) (d₂ : isdir (p.run s₂).2.fs cwd₂ = true) (d₁ : isdir (p.run s₂).2.fs cwd₁ = true) :
    ((Prog.block i (.seq (.block j (.seq p (.seq (.raise n) q))) q')).run s).1 = some (.user n) ∧
    ((Prog.block i (.seq (.block j (.seq p (.seq (.raise n) q))) q')).run s).2 =
      { (p.run s₂).2 with cwd := cwd₁ } := by
  have hb : (Prog.seq p (.seq (.raise n) q)).run s₂ = (some (.user n), (p.run s₂).2) := by
    cases hx : p.run s₂ with
    | mk a b =>
      rw [hx] at hp
      simp only at hp
      subst hp
      simp [Prog.run, hx]
  have hl : ∀ (c : Path) (x : Proc), isdir x.fs c = true → leave c (some (.user n), x) = (some (.user n), { x with cwd := c }) := by
    intro c x hx
    unfold isdir at hx
    cases hy : x.fs c with
    | none => simp [hy] at hx
    | some e => cases e with
      | file => rw [hy] at hx; cases hx
      | dir t => simp [leave, chdirTo, hy]
  have hin : (Prog.block j (.seq p (.seq (.raise n) q))).run s₁ = (some (.user n), { (p.run s₂).2 with cwd := cwd₂ }) := by
    rw [Prog.run, h₂]
    dsimp only
    rw [e₂]
    dsimp only
    rw [hb, hl cwd₂ _ d₂]
  have hout : (Prog.seq (.block j (.seq p (.seq (.raise n) q))) q').run s₁ =
      (some (.user n), { (p.run s₂).2 with cwd := cwd₂ }) := by
    rw [Prog.run, hin]
  have : (Prog.block i (.seq (.block j (.seq p (.seq (.raise n) q))) q')).run s =
      (some (.user n), { (p.run s₂).2 with cwd := cwd₁ }) := by
    rw [Prog.run, h₁]
    dsimp only
    rw [e₁]
    dsimp only
    rw [hout, hl cwd₁ { (p.run s₂).2 with cwd := cwd₂ } d₁]
  rw [this]
  exact ⟨rfl, rfl⟩

/-! ## A concrete tree -/

/-- A root, a directory a, and a file in it. -/
def demo : FS
  | [] => some (.dir 0)
  | ["a"] => some (.dir 0)
  | ["f", "a"] => some (.file [1, 2] 0)
  | _ => none

theorem demo_wf : WF demo := by
  refine ⟨rfl, ?_⟩
  intro n p h
  unfold demo at h
  split at h
  · rename_i e; cases e
  · rename_i e; cases e; rfl
  · rename_i e; cases e; rfl
  · exact absurd rfl h

/-- safe_mkdir on a file, and two levels below a directory, and below a file. -/
example : (∃ fs', safeMkdir 5 ["f", "a"] demo = .ok fs' ∧ fs' ["f", "a"] = some (.dir 5)) ∧
    (∃ fs', safeMkdir 5 ["y", "x", "a"] demo = .ok fs' ∧ fs' ["x", "a"] = some (.dir 5)) ∧
    safeMkdir 5 ["z", "f", "a"] demo = .error .notADirectory :=
  ⟨⟨_, rfl, by decide⟩, ⟨_, rfl, by decide⟩, rfl⟩

/-- Nested pushd with a chdir and an exception inside. -/
example : ((Prog.seq (.new ⟨false, [.name "a"]⟩)
    (.block 0 (.seq (.new ⟨true, []⟩) (.block 1 (.seq (.chdir ⟨false, [.name "a"]⟩) (.raise 3)))))).run
      ⟨demo, [], []⟩).2.cwd = [] := by decide

end Big.File.Fs
