import Verif.File.RaceModel
import Verif.File.FsProps
/-!
# C118, C119: the filesystem helpers among other processes
-/
namespace Big.File.Fs

/-! ### Every system call of a program -/

/-- Every system call that the program makes satisfies Q. -/
def Steps {α : Type} (Q : FS → FS → Prop) (m : Act α) : Prop :=
  ∀ s, ∃ l, (m s).2.trace = s.trace ++ l ∧ ∀ x ∈ l, Q x.1 x.2

theorem steps_ret {α : Type} {Q : FS → FS → Prop} (a : α) : Steps Q (ret a) := fun s => ⟨[], by simp [ret], by simp⟩
theorem steps_throw {α : Type} {Q : FS → FS → Prop} (e : Err) : Steps Q (throw_ (α := α) e) :=
  fun s => ⟨[], by simp [throw_], by simp⟩

theorem steps_sys {α : Type} {Q : FS → FS → Prop} (o : Others) (f : FS → Except Err α × FS) (h : ∀ fs, Q fs (f fs).2) :
    Steps Q (sys o f) := fun s => ⟨[(o s.calls s.fs, (f (o s.calls s.fs)).2)], rfl, by
      intro x hx
      rw [List.mem_singleton] at hx
      subst hx
      exact h _⟩

theorem steps_andThen {α β : Type} {Q : FS → FS → Prop} {m : Act α} {f : α → Act β} (hm : Steps Q m)
    (hf : ∀ a, Steps Q (f a)) : Steps Q (andThen m f) := by
  intro s
  obtain ⟨l, h1, h2⟩ := hm s
  unfold andThen
  cases hr : m s with
  | mk r s' =>
    rw [hr] at h1
    cases r with
    | error e => exact ⟨l, h1, h2⟩
    | ok a =>
      obtain ⟨l', h3, h4⟩ := hf a s'
      dsimp only at h1 ⊢
      refine ⟨l ++ l', by rw [h3, h1, List.append_assoc], ?_⟩
      intro x hx
      rcases List.mem_append.mp hx with hx | hx
      · exact h2 x hx
      · exact h4 x hx

theorem steps_handle {α : Type} {Q : FS → FS → Prop} {m : Act α} {f : Err → Act α} (hm : Steps Q m)
    (hf : ∀ a, Steps Q (f a)) : Steps Q (handle m f) := by
  intro s
  obtain ⟨l, h1, h2⟩ := hm s
  unfold handle
  cases hr : m s with
  | mk r s' =>
    rw [hr] at h1
    cases r with
    | ok a => exact ⟨l, h1, h2⟩
    | error e =>
      obtain ⟨l', h3, h4⟩ := hf e s'
      dsimp only at h1 ⊢
      refine ⟨l ++ l', by rw [h3, h1, List.append_assoc], ?_⟩
      intro x hx
      rcases List.mem_append.mp hx with hx | hx
      · exact h2 x hx
      · exact h4 x hx

/-! ### What a program guarantees when it returns -/

/-- When the program returns, its last system call has left a tree of which P holds. -/
def Post {α : Type} (P : FS → Prop) (m : Act α) : Prop := ∀ s a, (m s).1 = .ok a → P (m s).2.fs

theorem post_andThen {α β : Type} {P : FS → Prop} {m : Act α} {f : α → Act β} (hf : ∀ a, Post P (f a)) :
    Post P (andThen m f) := by
  intro s a h
  unfold andThen at h ⊢
  cases hr : m s with
  | mk r s' =>
    rw [hr] at h
    cases r with
    | error e => cases h
    | ok b => exact hf b s' a h

theorem mkdir_set {now : Nat} {p : Path} {fs fs' : FS} (h : mkdir now p fs = .ok fs') :
    fs p = none ∧ fs' = fs.set p (some (.dir now)) := by
  unfold mkdir at h
  split at h
  · cases h
  · rename_i he
    split at h
    · cases h
    · cases h
      exact ⟨by simpa [exist] using he, rfl⟩

theorem post_mkdirOkC (o : Others) (now : Nat) (p : Path) : Post (fun fs => isdir fs p = true) (mkdirOkC o now p) := by
  intro s a h
  unfold mkdirOkC handle at h ⊢
  simp only [sys, change] at h ⊢
  cases hm : mkdir now p (o s.calls s.fs) with
  | ok fs' =>
    simp only [hm] at h ⊢
    rw [(mkdir_set hm).2]
    exact isdir_iff.2 ⟨now, set_eq ..⟩
  | error e =>
    simp only [hm, andThen, sys, look] at h ⊢
    cases hd : isdir (o (s.calls + 1) (o s.calls s.fs)) p with
    | true => simp only [hd, if_true, ret]
    | false => simp only [hd, Bool.false_eq_true, if_false, throw_] at h; cases h

theorem post_makedirsC (o : Others) (now : Nat) : ∀ p : Path, Post (fun fs => isdir fs p = true) (makedirsC o now p)
  | [] => post_mkdirOkC o now []
  | n :: p => by
    unfold makedirsC
    refine post_andThen fun b => ?_
    split
    · exact post_mkdirOkC o now _
    · exact post_andThen fun _ => post_mkdirOkC o now _

/-- **C118**: whatever other processes do in the meantime: when safe_mkdir returns, there was a directory at the path
at its last system call. -/
theorem C118_safe_mkdir (o : Others) (now : Nat) (p : Path) (fs : FS)
    (h : (runC (safeMkdirC o now p) fs).1 = .ok ()) : isdir (runC (safeMkdirC o now p) fs).2.fs p = true :=
  (post_andThen fun _ => post_makedirsC o now p) _ () h

/-- What one system call of safe_unlink(p) may do: nothing, or remove a file at p. -/
def Unlinks (p : Path) (a b : FS) : Prop := b = a ∨ (isfile a p = true ∧ b = a.set p none)

/-- What one system call of safe_mkdir(p) may do: nothing, remove a file at p, or make a directory, at p or at an
ancestor of p, where there was nothing. -/
def Makes (now : Nat) (p : Path) (a b : FS) : Prop :=
  Unlinks p a b ∨ ∃ q, (q = p ∨ Ancestor q p) ∧ a q = none ∧ b = a.set q (some (.dir now))

theorem unlink_change (p : Path) (fs : FS) : Unlinks p fs (change (unlink p) fs).2 := by
  unfold change unlink
  cases h : fs p with
  | none => exact .inl rfl
  | some e =>
    cases e with
    | dir t => exact .inl rfl
    | file c t => exact .inr ⟨isfile_iff.2 ⟨c, t, h⟩, rfl⟩

theorem mkdir_change (now : Nat) (p : Path) (fs : FS) :
    (change (mkdir now p) fs).2 = fs ∨ (fs p = none ∧ (change (mkdir now p) fs).2 = fs.set p (some (.dir now))) := by
  unfold change
  cases h : mkdir now p fs with
  | error e => exact .inl rfl
  | ok fs' => exact .inr (mkdir_set h)

theorem steps_safeUnlinkC (o : Others) (p : Path) : Steps (Unlinks p) (safeUnlinkC o p) := by
  unfold safeUnlinkC
  refine steps_andThen (steps_sys o _ fun fs => .inl rfl) fun b => ?_
  split
  · exact steps_sys o _ (unlink_change p)
  · exact steps_ret ()

theorem steps_mkdirOkC (o : Others) (now : Nat) (p q : Path) (hq : q = p ∨ Ancestor q p) :
    Steps (Makes now p) (mkdirOkC o now q) := by
  unfold mkdirOkC
  refine steps_handle (steps_sys o _ fun fs => ?_) fun e => ?_
  · rcases mkdir_change now q fs with h | ⟨h1, h2⟩
    · exact .inl (.inl h)
    · exact .inr ⟨q, hq, h1, h2⟩
  · refine steps_andThen (steps_sys o _ fun fs => .inl (.inl rfl)) fun b => ?_
    split
    · exact steps_ret ()
    · exact steps_throw e

theorem steps_makedirsC (o : Others) (now : Nat) (p : Path) :
    ∀ q : Path, (q = p ∨ Ancestor q p) → Steps (Makes now p) (makedirsC o now q)
  | [], hq => steps_mkdirOkC o now p [] hq
  | n :: q, hq => by
    unfold makedirsC
    have hq' : q = p ∨ Ancestor q p := by
      right
      rcases hq with rfl | ⟨m, l, rfl⟩
      · exact ancestor_cons.2 (.inl rfl)
      · exact ⟨m, l ++ [n], by simp⟩
    refine steps_andThen (steps_sys o _ fun fs => .inl (.inl rfl)) fun b => ?_
    split
    · exact steps_mkdirOkC o now p _ hq
    · refine steps_andThen (steps_handle (steps_makedirsC o now p q hq') fun e => ?_) fun _ => steps_mkdirOkC o now p _ hq
      unfold passExists
      split
      · exact steps_ret ()
      · exact steps_throw e

/-- The system calls of a run satisfy what all of the program's do. -/
theorem steps_run {α : Type} {Q : FS → FS → Prop} {m : Act α} (h : Steps Q m) (fs : FS) :
    ∀ x ∈ (runC m fs).2.trace, Q x.1 x.2 := by
  obtain ⟨l, h1, h2⟩ := h ⟨0, fs, []⟩
  intro x hx
  unfold runC at hx
  rw [h1, List.nil_append] at hx
  exact h2 x hx

/-- **C118**: whatever other processes do, and wherever the program is killed: each system call of safe_mkdir and
safe_unlink changes nothing, or removes a file that is at the path at that time, or (safe_mkdir only) makes the
directory, or a missing ancestor, where there is nothing. -/
theorem C118_only (o : Others) (now : Nat) (p : Path) (fs : FS) :
    (∀ x ∈ (runC (safeMkdirC o now p) fs).2.trace, Makes now p x.1 x.2) ∧
    (∀ x ∈ (runC (safeUnlinkC o p) fs).2.trace, Unlinks p x.1 x.2) := by
  refine ⟨steps_run (steps_andThen ?_ fun _ => steps_makedirsC o now p p (.inl rfl)) fs, steps_run (steps_safeUnlinkC o p) fs⟩
  intro s
  obtain ⟨l, h1, h2⟩ := steps_safeUnlinkC o p s
  exact ⟨l, h1, fun x hx => .inl (h2 x hx)⟩

/-- Another process makes /a/b between safe_mkdir's look at /a and its mkdir of /a/b: it returns nevertheless; or
replaces it by a file: it raises. -/
example :
    let fs : FS := fun p => if p = [] ∨ p = ["a"] then some (.dir 0) else none
    let o (e : Entry) : Others := fun k fs => if k = 2 then fs.set ["b", "a"] (some e) else fs
    (runC (safeMkdirC (o (.dir 5)) 7 ["b", "a"]) fs).1.isOk = true ∧
    (runC (safeMkdirC (o (.dir 5)) 7 ["b", "a"]) fs).2.fs ["b", "a"] = some (.dir 5) ∧
    (runC (safeMkdirC (o (.file [1] 5)) 7 ["b", "a"]) fs).1.isOk = false := by
  decide +kernel

/-! ### touch -/

/-- **C118**: touch changes nothing but the path, and when it returns the path existed with the current time at its
last system call, whatever other processes do. -/
theorem C118_touch (o : Others) (now : Nat) (p : Path) (fs : FS) :
    (∀ x ∈ (runC (touchC o now p) fs).2.trace, ∀ q, q ≠ p → x.2 q = x.1 q) ∧
    ((runC (touchC o now p) fs).1 = .ok () →
      ∃ e : Entry, (runC (touchC o now p) fs).2.fs p = some (e.setTime now)) := by
  have hu : ∀ fs, (∀ q, q ≠ p → (change (utime now p) fs).2 q = fs q) ∧
      ((change (utime now p) fs).1 = .ok () → ∃ e : Entry, (change (utime now p) fs).2 p = some (e.setTime now)) := by
    intro fs
    unfold change utime
    cases h : fs p with
    | none => exact ⟨fun _ _ => rfl, fun h => by cases h⟩
    | some e => exact ⟨fun q hq => set_ne _ hq _, fun _ => ⟨e, set_eq ..⟩⟩
  have hw : ∀ fs, (∀ q, q ≠ p → (change (openWb now p) fs).2 q = fs q) ∧
      ((change (openWb now p) fs).1 = .ok () → ∃ e : Entry, (change (openWb now p) fs).2 p = some (e.setTime now)) := by
    intro fs
    unfold change openWb
    cases h : fs p with
    | none =>
      dsimp only
      cases hc : checkParent fs p with
      | some e => exact ⟨fun _ _ => rfl, fun h => by cases h⟩
      | none => exact ⟨fun q hq => set_ne _ hq _, fun _ => ⟨.file [] 0, set_eq ..⟩⟩
    | some e =>
      cases e with
      | dir t => exact ⟨fun _ _ => rfl, fun h => by cases h⟩
      | file c t => exact ⟨fun q hq => set_ne _ hq _, fun _ => ⟨.file [] 0, set_eq ..⟩⟩
  constructor
  · refine steps_run (Q := fun a b => ∀ q, q ≠ p → b q = a q) ?_ fs
    unfold touchC
    refine steps_andThen (steps_sys o _ fun fs q _ => rfl) fun b => ?_
    split
    · exact steps_sys o _ fun fs => (hu fs).1
    · exact steps_sys o _ fun fs => (hw fs).1
  · refine (post_andThen (P := fun fs => ∃ e : Entry, fs p = some (e.setTime now)) (fun b => ?_)) _ ()
    intro s a h
    cases b with
    | true => exact (hu _).2 h
    | false => exact (hw _).2 h

/-- **C119**: a system call of touch changes the contents of a file in exactly one case: there was nothing at the path
when touch looked, and there was a file with contents when it opened it. Then they are lost. -/
theorem C119_touch_keeps_contents_iff (o : Others) (now : Nat) (p : Path) (fs : FS) :
    (∀ x ∈ (runC (touchC o now p) fs).2.trace, ∀ c t, x.1 p = some (.file c t) → ∃ t', x.2 p = some (.file c t')) ↔
      ¬ (o 0 fs p = none ∧ ∃ c t, c ≠ [] ∧ o 1 (o 0 fs) p = some (.file c t)) := by
  have e : ∀ b : Bool, exist (o 0 fs) p = b → (runC (touchC o now p) fs).2.trace =
      [(o 0 fs, o 0 fs), (o 1 (o 0 fs), (change (if b then utime now p else openWb now p) (o 1 (o 0 fs))).2)] := by
    intro b hb
    unfold runC touchC andThen
    simp only [sys, look, List.nil_append, hb]
    cases b <;> rfl
  cases hp : o 0 fs p with
  | some en =>
    rw [e true (by simp [exist, hp])]
    simp only [reduceCtorEq, false_and, not_false_eq_true, iff_true]
    intro x hx c t hc
    simp only [List.mem_cons, List.not_mem_nil, or_false] at hx
    rcases hx with rfl | rfl
    · exact ⟨t, hc⟩
    · simp only at hc ⊢
      refine ⟨now, ?_⟩
      simp only [if_true, change, utime, hc]
      exact set_eq ..
  | none =>
    rw [e false (by simp [exist, hp])]
    simp only [true_and]
    constructor
    · rintro h ⟨c, t, hc, h1⟩
      obtain ⟨t', h2⟩ := h _ (List.mem_cons_of_mem _ (List.mem_cons_self ..)) c t h1
      simp only [Bool.false_eq_true, if_false, change, openWb, h1, set_eq] at h2
      cases h2
      exact hc rfl
    · intro h x hx c t hc
      simp only [List.mem_cons, List.not_mem_nil, or_false] at hx
      rcases hx with rfl | rfl
      · exact ⟨t, hc⟩
      · simp only at hc ⊢
        have : c = [] := by
          refine Classical.byContradiction fun hne => h ⟨c, t, hne, hc⟩
        subst this
        refine ⟨now, ?_⟩
        simp only [Bool.false_eq_true, if_false, change, openWb, hc, set_eq]

/-- **C119**: so touch keeps the contents of every file if no other process makes one at the path while it runs. -/
theorem C119_touch_keeps_contents (o : Others) (now : Nat) (p : Path) (fs : FS)
    (h : o 0 fs p = none → o 1 (o 0 fs) p = none) :
    ∀ x ∈ (runC (touchC o now p) fs).2.trace, ∀ c t, x.1 p = some (.file c t) → ∃ t', x.2 p = some (.file c t') := by
  refine (C119_touch_keeps_contents_iff o now p fs).mpr ?_
  rintro ⟨h1, c, t, _, h2⟩
  rw [h h1] at h2
  cases h2

/-- **C119** is false of the code: a file that another process makes between the two system calls loses its
contents. -/
theorem C119_counterexample (now : Nat) (p : Path) (fs : FS) (hp : fs p = none) (c : List Nat) (t : Nat) (hc : c ≠ []) :
    let o : Others := fun k fs => if k = 1 then fs.set p (some (.file c t)) else fs
    (runC (touchC o now p) fs).1 = .ok () ∧ (runC (touchC o now p) fs).2.fs p = some (.file [] now) := by
  intro o
  have h0 : o 0 fs = fs := rfl
  have h1 : o 1 fs = fs.set p (some (.file c t)) := rfl
  have he : exist fs p = false := by simp [exist, hp]
  unfold runC touchC andThen
  simp only [sys, look, h0, he, Bool.false_eq_true, if_false, Nat.zero_add, h1, change, openWb, set_eq, and_self]

/-- **C119**: exactly when safe_unlink raises: a file is there when it looks, and none when it unlinks. -/
theorem C119_safe_unlink_raises_iff (o : Others) (p : Path) (fs : FS) :
    (∃ e, (runC (safeUnlinkC o p) fs).1 = .error e) ↔
      isfile (o 0 fs) p = true ∧ isfile (o 1 (o 0 fs)) p = false := by
  unfold runC safeUnlinkC andThen
  simp only [sys, look]
  cases hf : isfile (o 0 fs) p with
  | false => simp [ret]
  | true =>
    simp only [if_true, true_and, Nat.zero_add, sys, change]
    unfold unlink isfile
    cases h : o 1 (o 0 fs) p with
    | none => simp
    | some e => cases e <;> simp [Entry.isFile]

/-- The hypothesis of the partial theorem is met by every run without other processes; and the schedule of the
counterexample is one that it excludes. -/
example (fs : FS) (p : Path) : ((fun _ fs => fs : Others) 0 fs p = none → (fun _ fs => fs : Others) 1 ((fun _ fs => fs : Others) 0 fs) p = none) :=
  fun h => h

/-! ### Alone -/

/-- No other process. -/
def alone : Others := fun _ fs => fs

theorem alone_mkdirOk (now : Nat) (p : Path) (s : Sys) :
    (∀ fs', mkdirOk now p s.fs = .ok fs' → (mkdirOkC alone now p s).1 = .ok () ∧ (mkdirOkC alone now p s).2.fs = fs') ∧
    (∀ e, mkdirOk now p s.fs = .error e → (mkdirOkC alone now p s).1 = .error e) := by
  unfold mkdirOk mkdirOkC handle
  simp only [sys, change, alone]
  cases hm : mkdir now p s.fs with
  | ok fs' => simp
  | error e =>
    simp only [andThen, sys, look, alone]
    cases hd : isdir s.fs p with
    | true => simp [ret]
    | false => simp [throw_]

theorem mkdirOk_kept {now : Nat} {p : Path} {fs fs' : FS} (h : mkdirOk now p fs = .ok fs') (q : Path) (hq : q ≠ p) :
    fs' q = fs q := by
  unfold mkdirOk at h
  cases hm : mkdir now p fs with
  | ok f =>
    rw [hm] at h; cases h
    rw [(mkdir_set hm).2]; exact set_ne _ hq _
  | error e =>
    rw [hm] at h
    dsimp only at h
    split at h
    · cases h; rfl
    · cases h

theorem makedirs_kept (now : Nat) : ∀ (p : Path) (fs fs' : FS), makedirs now p fs = .ok fs' →
    ∀ q, p.length < q.length → fs' q = fs q
  | [], fs, fs', h, q, hq => mkdirOk_kept h q (by rintro rfl; simp at hq)
  | n :: p, fs, fs', h, q, hq => by
    unfold makedirs at h
    simp only [List.length_cons] at hq
    split at h
    · exact mkdirOk_kept h q (by rintro rfl; simp at hq)
    · cases hm : makedirs now p fs with
      | error e => rw [hm] at h; cases h
      | ok f =>
        rw [hm] at h
        rw [mkdirOk_kept h q (by rintro rfl; simp at hq), makedirs_kept now p fs f hm q (by omega)]

theorem mkdirOk_error {now : Nat} {p : Path} {fs : FS} (h : mkdirOk now p fs = .error .fileExists) :
    exist fs p = true := by
  unfold mkdirOk at h
  cases hm : mkdir now p fs with
  | ok f => rw [hm] at h; cases h
  | error e =>
    rw [hm] at h
    dsimp only at h
    split at h
    · cases h
    · cases h
      unfold mkdir at hm
      split at hm
      · assumption
      · split at hm
        · rename_i e he
          cases hm
          unfold checkParent at he
          split at he
          · cases he
          · split at he <;> cases he
        · cases hm

theorem makedirs_error (now : Nat) : ∀ (p : Path) (fs : FS), WF fs → exist fs p = false →
    makedirs now p fs ≠ .error .fileExists
  | [], fs, _, he, h => by rw [mkdirOk_error h] at he; cases he
  | n :: p, fs, w, he, h => by
    unfold makedirs at h
    split at h
    · rw [mkdirOk_error h] at he; cases he
    · rename_i hp
      cases hm : makedirs now p fs with
      | error e =>
        rw [hm] at h
        cases h
        exact makedirs_error now p fs w (by simpa using hp) hm
      | ok f =>
        rw [hm] at h
        have h1 := mkdirOk_error h
        unfold exist at h1 he
        rw [makedirs_kept now p fs f hm _ (by simp), he] at h1
        cases h1

theorem alone_makedirs (now : Nat) : ∀ (p : Path) (s : Sys), WF s.fs →
    (∀ fs', makedirs now p s.fs = .ok fs' → (makedirsC alone now p s).1 = .ok () ∧ (makedirsC alone now p s).2.fs = fs') ∧
    (∀ e, makedirs now p s.fs = .error e → (makedirsC alone now p s).1 = .error e)
  | [], s, _ => alone_mkdirOk now [] s
  | n :: p, s, w => by
    unfold makedirs makedirsC andThen
    simp only [sys, look, alone]
    cases he : exist s.fs p with
    | true =>
      simp only [if_true]
      exact alone_mkdirOk now (n :: p) ⟨s.calls + 1, s.fs, s.trace ++ [(s.fs, s.fs)]⟩
    | false =>
      simp only [Bool.false_eq_true, if_false]
      have ih := alone_makedirs now p ⟨s.calls + 1, s.fs, s.trace ++ [(s.fs, s.fs)]⟩ w
      unfold handle
      cases hm : makedirs now p s.fs with
      | ok f =>
        obtain ⟨h1, h2⟩ := ih.1 f hm
        cases hr : makedirsC alone now p ⟨s.calls + 1, s.fs, s.trace ++ [(s.fs, s.fs)]⟩ with
        | mk r s' =>
          rw [hr] at h1 h2
          simp only at h1 h2
          subst h1
          simp only [bind, hr]
          have := alone_mkdirOk now (n :: p) s'
          rw [h2] at this
          exact this
      | error e =>
        have h1 := ih.2 e hm
        have hne : e ≠ .fileExists := by
          rintro rfl
          exact makedirs_error now p s.fs w he hm
        cases hr : makedirsC alone now p ⟨s.calls + 1, s.fs, s.trace ++ [(s.fs, s.fs)]⟩ with
        | mk r s' =>
          rw [hr] at h1
          simp only at h1
          subst h1
          simp only [bind, hr, passExists, if_neg hne, throw_]
          refine ⟨fun _ h => (by cases h), fun e' h => (by cases h; rfl)⟩

/-- Alone, `m` does what `f` says. -/
def Agrees (m : Act Unit) (f : FS → Except Err FS) (fs : FS) : Prop :=
  (∀ fs', f fs = .ok fs' → (runC m fs).1 = .ok () ∧ (runC m fs).2.fs = fs') ∧
  (∀ e, f fs = .error e → (runC m fs).1 = .error e)

theorem alone_unlink (p : Path) (fs : FS) : Agrees (safeUnlinkC alone p) (safeUnlink p) fs := by
  unfold Agrees runC safeUnlinkC safeUnlink andThen
  simp only [sys, look, alone]
  cases hf : isfile fs p with
  | false => simp [ret]
  | true =>
    simp only [if_true, sys, alone, change]
    cases hu : unlink p fs <;> simp

/-- **C118**: without other processes the three functions are those of C36. -/
theorem C118_alone (now : Nat) (p : Path) (fs : FS) (w : WF fs) :
    Agrees (safeMkdirC alone now p) (safeMkdir now p) fs ∧ Agrees (safeUnlinkC alone p) (safeUnlink p) fs ∧
    Agrees (touchC alone now p) (touch now p) fs := by
  refine ⟨?_, alone_unlink p fs, ?_⟩
  · have h0 := alone_unlink p fs
    unfold Agrees runC safeMkdirC safeMkdir andThen at *
    change (∀ fs', (if isfile fs p then unlink p fs else .ok fs) = .ok fs' → _) ∧
      (∀ e, (if isfile fs p then unlink p fs else .ok fs) = .error e → _) at h0
    cases hu : (if isfile fs p then unlink p fs else (.ok fs : Except Err FS)) with
    | error e =>
      have h1 := h0.2 e hu
      cases hr : safeUnlinkC alone p ⟨0, fs, []⟩ with
      | mk r s' =>
        rw [hr] at h1
        simp only at h1
        subst h1
        simp only [bind]
        exact ⟨fun _ h => (by cases h), fun e' h => (by cases h; rfl)⟩
    | ok f =>
      obtain ⟨h1, h2⟩ := h0.1 f hu
      cases hr : safeUnlinkC alone p ⟨0, fs, []⟩ with
      | mk r s' =>
        rw [hr] at h1 h2
        simp only at h1 h2
        subst h1
        simp only [bind]
        have hw : WF f := by
          by_cases hf : isfile fs p = true
          · rw [if_pos hf] at hu
            obtain ⟨c, t, hc⟩ := isfile_iff.1 hf
            simp only [unlink, hc, Except.ok.injEq] at hu
            subst hu
            constructor
            · rw [set_ne]
              · exact w.root
              · rintro rfl
                have := w.root
                rw [hc] at this
                simp [Entry.isDir] at this
            · intro n q hq
              by_cases e : n :: q = p
              · subst e; rw [set_eq] at hq; exact absurd rfl hq
              · rw [set_ne _ e] at hq
                have := w.parent n q hq
                rw [set_ne]
                · exact this
                · rintro rfl
                  rw [hc] at this
                  simp [Entry.isDir] at this
          · rw [if_neg hf] at hu; cases hu; exact w
        have := alone_makedirs now p s' (by rw [h2]; exact hw)
        rw [h2] at this
        exact this
  · unfold Agrees runC touchC touch andThen
    simp only [sys, look, alone]
    cases hf : exist fs p with
    | false =>
      simp only [Bool.false_eq_true, if_false, sys, alone, change]
      cases hu : openWb now p fs <;> simp
    | true =>
      simp only [if_true, sys, alone, change]
      cases hu : utime now p fs <;> simp

end Big.File.Fs
