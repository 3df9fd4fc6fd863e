import Verif.File.FsProps
/-!
# C120: the directory to which a pushd block returns
-/
namespace Big.File.Fs

/-- **C120**: exactly when a block that is entered and whose directories still exist at its end returns to the
directory that was current when it was entered: if that was current when the pushd object was made, too. -/
theorem C120_returns_iff (s : Proc) (i : Nat) (w : WPath) (made : Path) (body : Prog)
    (ho : s.objs[i]? = some (w, made)) (s' : Proc) (he : chdir w s = (none, s'))
    (hd : isdir (body.run s').2.fs made = true) :
    ((Prog.block i body).run s).2.cwd = s.cwd ↔ made = s.cwd := by
  rw [((C36_pushd s i w made body ho s' he).1 hd).1]

/-- **C120**: `with pushd(path):`, the object made where the block begins: the block starts in the
given directory and, whatever happens in it, with any exception, returns to the directory where it was entered, if that
still exists. For objects made elsewhere, or used again, see `C120_returns_iff`. -/
theorem C120_with_pushd (s : Proc) (w : WPath) (body : Prog) (hd : isdir s.fs s.cwd = true) (p : Path)
    (hp : resolve s.fs s.cwd w = some p) (hpd : isdir s.fs p = true)
    (hend : isdir (body.run { s with cwd := p, objs := s.objs ++ [(w, s.cwd)] }).2.fs s.cwd = true) :
    ((Prog.seq (.new w) (.block s.objs.length body)).run s).2.cwd = s.cwd ∧
    ((Prog.seq (.new w) (.block s.objs.length body)).run s).1 =
      (body.run { s with cwd := p, objs := s.objs ++ [(w, s.cwd)] }).1 := by
  have h1 : (Prog.seq (.new w) (.block s.objs.length body)).run s =
      (Prog.block s.objs.length body).run { s with objs := s.objs ++ [(w, s.cwd)] } := by
    simp only [Prog.run, hd, if_true]
  rw [h1]
  have ho : ({ s with objs := s.objs ++ [(w, s.cwd)] } : Proc).objs[s.objs.length]? = some (w, s.cwd) := by simp
  have he := (C36_pushd_enter { s with objs := s.objs ++ [(w, s.cwd)] } s.objs.length w s.cwd body ho).1 p hp hpd
  have h2 := (C36_pushd { s with objs := s.objs ++ [(w, s.cwd)] } s.objs.length w s.cwd body ho _ he).1 hend
  exact h2

/-- A tree with the directories /, /a and /b. -/
def twoDirs : FS := fun p => if p = [] ∨ p = ["a"] ∨ p = ["b"] then some (.dir 0) else none

/-- **C120** is false of the code: `p = pushd("/b"); os.chdir("/a"); with p: pass` leaves the program in /, not in
/a, where the block was entered. -/
theorem C120_counterexample_made_before :
    let b : WPath := ⟨true, [.name "b"]⟩
    let s : Proc := ⟨twoDirs, [], []⟩
    let before := (Prog.seq (.new b) (.chdir ⟨true, [.name "a"]⟩)).run s
    let after := (Prog.block 0 .skip).run before.2
    before.1 = none ∧ before.2.cwd = ["a"] ∧ after.1 = none ∧ after.2.cwd = [] := by
  decide +kernel

/-- The hypotheses of C120_with_pushd are met: `with pushd("/b"): os.chdir("/a")` in /. -/
example : let s : Proc := ⟨twoDirs, [], []⟩
    isdir s.fs s.cwd = true ∧ resolve s.fs s.cwd ⟨true, [.name "b"]⟩ = some ["b"] ∧ isdir s.fs ["b"] = true ∧
    isdir ((Prog.chdir ⟨true, [.name "a"]⟩).run { s with cwd := ["b"], objs := s.objs ++ [(⟨true, [.name "b"]⟩, s.cwd)] }).2.fs
      s.cwd = true := by
  decide +kernel

end Big.File.Fs
