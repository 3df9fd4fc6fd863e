import Verif.File.LinkModel
/-! # C125: safe_mkdir, safe_unlink and touch keep their promises with symbolic links -/
namespace Big.File.Links
open Big.File.Fs (Name Path Comp WPath)

/-! ## Specification -/

/-- A file tree: the root is a directory, and everything is in a directory. -/
structure WF (fs : FS) : Prop where
  root : dirAt fs [] = true
  parent : ∀ n p, fs (n :: p) ≠ none → dirAt fs p = true

/-- `q` is what the path itself names: a link at its end is not followed. `C125_paths` says what that means. -/
def Names (fs : FS) (cwd : Path) (w : WPath) (q : Path) : Prop := resolve fs false cwd w = .ok q

/-- `q` is what the path leads to, links followed. `C125_paths` says what that means. -/
def LeadsTo (fs : FS) (cwd : Path) (w : WPath) (q : Path) : Prop := resolve fs true cwd w = .ok q

/-- The contents of a file; a new one is empty. -/
def contents : Option Entry → List Nat
  | some (.file c _) => c
  | _ => []

/-- The modification time is `t`. -/
def Entry.timeIs (t : Nat) : Entry → Bool
  | .file _ m => m == t
  | .dir m => m == t
  | .link _ => false

/-! ## Walks -/

/-- The walk along a path, step by step; the last argument counts the links followed. -/
inductive Walk (fs : FS) (follow : Bool) : Path → List Comp → Path → Nat → Prop
  | nil (p) : Walk fs follow p [] p 0
  | up {p cs q k} (hd : dirAt fs p = true) (h : Walk fs follow p.tail cs q k) : Walk fs follow p (.up :: cs) q k
  | name {p n cs q k} (hd : dirAt fs p = true) (hn : (∀ w, fs (n :: p) ≠ some (.link w)) ∨ (cs = [] ∧ follow = false))
      (h : Walk fs follow (n :: p) cs q k) : Walk fs follow p (.name n :: cs) q k
  | link {p n cs q k w} (hd : dirAt fs p = true) (hl : fs (n :: p) = some (.link w)) (hf : cs ≠ [] ∨ follow = true)
      (h : Walk fs follow (base w p) (w.comps ++ cs) q k) : Walk fs follow p (.name n :: cs) q (k + 1)

theorem walk_sound {fs : FS} {f : Bool} : ∀ (lim : Nat) (cs : List Comp) (p q : Path), walk fs f lim p cs = .ok q →
    ∃ k, k ≤ lim ∧ Walk fs f p cs q k := by
  have key : ∀ (next : Path → List Comp → Except Err Path) (lim : Nat),
      (∀ p cs q, next p cs = .ok q → ∃ k, k + 1 ≤ lim ∧ Walk fs f p cs q k) → ∀ (cs : List Comp) (p q : Path),
      walkIn fs f next p cs = .ok q → ∃ k, k ≤ lim ∧ Walk fs f p cs q k := by
    intro next lim hn cs
    induction cs with
    | nil => intro p q h; cases h; exact ⟨0, by omega, .nil _⟩
    | cons c cs ih =>
      intro p q h
      cases c with
      | up =>
        unfold walkIn at h
        split at h
        · rename_i hd
          obtain ⟨k, h1, h2⟩ := ih _ _ h
          exact ⟨k, h1, .up hd h2⟩
        · cases h
      | name n =>
        unfold walkIn at h
        split at h
        · rename_i hd
          split at h
          · rename_i w hw
            split at h
            · rename_i hc
              simp only [Bool.and_eq_true, List.isEmpty_iff, Bool.not_eq_true'] at hc
              obtain ⟨k, h1, h2⟩ := ih _ _ h
              exact ⟨k, h1, .name hd (.inr hc) h2⟩
            · rename_i hc
              obtain ⟨k, h1, h2⟩ := hn _ _ _ h
              refine ⟨k + 1, h1, .link hd hw ?_ h2⟩
              by_cases he : cs = []
              · right
                cases f with
                | true => rfl
                | false => simp [he] at hc
              · exact .inl he
          · rename_i hw
            obtain ⟨k, h1, h2⟩ := ih _ _ h
            exact ⟨k, h1, .name hd (.inl (fun w e => hw w e)) h2⟩
        · cases h
  intro lim
  induction lim with
  | zero => exact key _ 0 (by intro p cs q h; cases h)
  | succ lim ih =>
    refine key _ (lim + 1) ?_
    intro p cs q h
    obtain ⟨k, h1, h2⟩ := ih cs p q h
    exact ⟨k, by omega, h2⟩

theorem walk_complete {fs : FS} {f : Bool} {p q : Path} {cs : List Comp} {k : Nat} (h : Walk fs f p cs q k) :
    ∀ lim, k ≤ lim → walk fs f lim p cs = .ok q := by
  have un : ∀ lim, ∃ next, walk fs f lim = walkIn fs f next ∧ (∀ l, lim = l + 1 → next = walk fs f l) := by
    intro lim
    cases lim with
    | zero => exact ⟨_, rfl, by intro l h; omega⟩
    | succ l => exact ⟨_, rfl, by intro l' h; cases h; rfl⟩
  induction h with
  | nil p => intro lim _; obtain ⟨next, h1, _⟩ := un lim; rw [h1]; rfl
  | up hd _ ih =>
    intro lim hk
    obtain ⟨next, h1, _⟩ := un lim
    have := ih lim hk
    rw [h1] at this ⊢
    unfold walkIn
    rw [if_pos hd]
    exact this
  | @name p n cs q k hd hn _ ih =>
    intro lim hk
    obtain ⟨next, h1, _⟩ := un lim
    have := ih lim hk
    rw [h1] at this ⊢
    unfold walkIn
    rw [if_pos hd]
    split
    · rename_i w hw
      rcases hn with hn | ⟨rfl, rfl⟩
      · exact absurd hw (hn w)
      · exact this
    · exact this
  | @link p n cs q k w hd hl hf _ ih =>
    intro lim hk
    obtain ⟨next, h1, h2⟩ := un lim
    obtain ⟨l, rfl⟩ : ∃ l, lim = l + 1 := ⟨lim - 1, by omega⟩
    have := ih l (by omega)
    rw [h1]
    unfold walkIn
    rw [if_pos hd, hl]
    dsimp only
    rw [if_neg, h2 l rfl]
    · exact this
    · rcases hf with hf | rfl
      · simp [hf]
      · simp

theorem Walk.det {fs : FS} {f : Bool} {p q q' : Path} {cs : List Comp} {k k' : Nat} (h : Walk fs f p cs q k)
    (h' : Walk fs f p cs q' k') : q = q' ∧ k = k' := by
  induction h generalizing q' k' with
  | nil p => cases h'; exact ⟨rfl, rfl⟩
  | up _ _ ih => cases h' with | up _ h' => exact ih h'
  | name hd hn _ ih =>
    cases h' with
    | name _ _ h' => exact ih h'
    | link _ hl hf _ =>
      rcases hn with hn | ⟨h1, h2⟩
      · exact absurd hl (hn _)
      · rcases hf with hf | hf
        · exact absurd h1 hf
        · rw [h2] at hf; cases hf
  | link hd hl hf _ ih =>
    cases h' with
    | name _ hn _ =>
      rcases hn with hn | ⟨h1, h2⟩
      · exact absurd hl (hn _)
      · rcases hf with hf | hf
        · exact absurd h1 hf
        · rw [h2] at hf; cases hf
    | link _ hl' _ h' =>
      rw [hl] at hl'
      cases hl'
      obtain ⟨h1, h2⟩ := ih h'
      exact ⟨h1, by omega⟩

/-- A walk along `a ++ b` goes to the end of `a`, following links, and from there along `b`. -/
theorem Walk.append {fs : FS} {f : Bool} {p q : Path} {cs : List Comp} {k : Nat} (h : Walk fs f p cs q k) :
    ∀ a b, cs = a ++ b → b ≠ [] → ∃ p' k1 k2, k1 + k2 = k ∧ Walk fs true p a p' k1 ∧ Walk fs f p' b q k2 := by
  induction h with
  | nil p =>
    intro a b h hb
    cases a with
    | nil => exact absurd h.symm hb
    | cons => cases h
  | @up p cs q k hd h ih =>
    intro a b e hb
    cases a with
    | nil => subst e; exact ⟨p, 0, k, by omega, .nil _, .up hd h⟩
    | cons c a =>
      simp only [List.cons_append, List.cons.injEq] at e
      obtain ⟨p', k1, k2, h0, h1, h2⟩ := ih a b e.2 hb
      rw [← e.1]
      exact ⟨p', k1, k2, h0, .up hd h1, h2⟩
  | @name p n cs q k hd hn h ih =>
    intro a b e hb
    cases a with
    | nil => subst e; exact ⟨p, 0, k, by omega, .nil _, .name hd hn h⟩
    | cons c a =>
      simp only [List.cons_append, List.cons.injEq] at e
      obtain ⟨p', k1, k2, h0, h1, h2⟩ := ih a b e.2 hb
      rw [← e.1]
      refine ⟨p', k1, k2, h0, .name hd ?_ h1, h2⟩
      rcases hn with hn | ⟨hn, _⟩
      · exact .inl hn
      · rw [hn] at e
        have := e.2
        simp at this
        exact absurd this.2 hb
  | @link p n cs q k w hd hl hf h ih =>
    intro a b e hb
    cases a with
    | nil => subst e; exact ⟨p, 0, k + 1, by omega, .nil _, .link hd hl hf h⟩
    | cons c a =>
      simp only [List.cons_append, List.cons.injEq] at e
      obtain ⟨p', k1, k2, h0, h1, h2⟩ := ih (w.comps ++ a) b (by rw [e.2, List.append_assoc]) hb
      rw [← e.1]
      exact ⟨p', k1 + 1, k2, by omega, .link hd hl (.inr rfl) h1, h2⟩

/-- What a walk from `p` along some components needs. -/
theorem Walk.dirAt {fs : FS} {f : Bool} {p q : Path} {cs : List Comp} {k : Nat} (h : Walk fs f p cs q k) (hc : cs ≠ []) :
    dirAt fs p = true := by
  cases h with
  | nil => exact absurd rfl hc
  | up hd _ => exact hd
  | name hd _ _ => exact hd
  | link hd _ _ _ => exact hd

theorem dir_not_link {fs : FS} {p : Path} (h : Links.dirAt fs p = true) (w : WPath) : fs p ≠ some (.link w) := by
  intro e
  unfold Links.dirAt at h
  rw [e] at h
  cases h

theorem WF.tail {fs : FS} (wf : WF fs) {p : Path} (h : Links.dirAt fs p = true) : Links.dirAt fs p.tail = true := by
  cases p with
  | nil => exact h
  | cons n p =>
    refine wf.parent n p ?_
    intro e
    unfold Links.dirAt at h
    rw [e] at h
    cases h

theorem WF.base {fs : FS} (wf : WF fs) {p : Path} (h : Links.dirAt fs p = true) (w : WPath) :
    Links.dirAt fs (base w p) = true := by
  unfold Links.base
  split
  · exact wf.root
  · exact h

/-- A followed walk does not end at a link. -/
theorem Walk.end_not_link {fs : FS} (wf : WF fs) {p q : Path} {cs : List Comp} {k : Nat} (h : Walk fs true p cs q k)
    (hp : ∀ w, fs p ≠ some (.link w)) : ∀ w, fs q ≠ some (.link w) := by
  induction h with
  | nil p => exact hp
  | up hd _ ih => exact ih (dir_not_link (wf.tail hd))
  | name hd hn _ ih =>
    rcases hn with hn | ⟨_, hn⟩
    · exact ih hn
    · cases hn
  | link hd _ _ _ ih => exact ih (dir_not_link (wf.base hd _))

/-- From the walk that follows the last link to the one that does not. -/
theorem Walk.unfollow {fs : FS} {p y : Path} {cs : List Comp} {k : Nat} (h : Walk fs true p cs y k) :
    ∃ x k', k' ≤ k ∧ Walk fs false p cs x k' ∧ (x = y ∨ ∃ w, fs x = some (.link w)) := by
  induction h with
  | nil p => exact ⟨p, 0, by omega, .nil _, .inl rfl⟩
  | up hd _ ih =>
    obtain ⟨x, k', h1, h2, h3⟩ := ih
    exact ⟨x, k', h1, .up hd h2, h3⟩
  | name hd hn _ ih =>
    obtain ⟨x, k', h1, h2, h3⟩ := ih
    refine ⟨x, k', h1, .name hd (.inl ?_) h2, h3⟩
    rcases hn with hn | ⟨_, hn⟩
    · exact hn
    · cases hn
  | @link p n cs q k w hd hl hf _ ih =>
    by_cases hc : cs = []
    · subst hc
      exact ⟨n :: p, 0, by omega, .name hd (.inr ⟨rfl, rfl⟩) (.nil _), .inr ⟨w, hl⟩⟩
    · obtain ⟨x, k', h1, h2, h3⟩ := ih
      exact ⟨x, k' + 1, by omega, .link hd hl (.inl hc) h2, h3⟩

/-- A walk that ends at a link: following that link is following the walk. -/
theorem Walk.end_link {fs : FS} (wf : WF fs) {p x : Path} {cs : List Comp} {k : Nat} {w : WPath} (h : Walk fs false p cs x k)
    (hx : fs x = some (.link w)) (hp : ∀ w, fs p ≠ some (.link w)) :
    ∃ n pp, x = n :: pp ∧ ∀ y k2, Walk fs true p cs y k2 → ∃ k3, Walk fs true (base w pp) w.comps y k3 := by
  induction h with
  | nil p => exact absurd hx (hp w)
  | up hd _ ih =>
    obtain ⟨n, pp, h1, h2⟩ := ih hx (dir_not_link (wf.tail hd))
    refine ⟨n, pp, h1, ?_⟩
    intro y k2 h
    cases h with
    | up _ h => exact h2 y k2 h
  | @name p n cs q k hd hn h ih =>
    by_cases hl : ∃ w', fs (n :: p) = some (.link w')
    · obtain ⟨w', hl⟩ := hl
      rcases hn with hn | ⟨rfl, _⟩
      · exact absurd hl (hn w')
      · cases h
        rw [hx] at hl
        cases hl
        refine ⟨n, p, rfl, ?_⟩
        intro y k2 h
        cases h with
        | name _ hn _ =>
          rcases hn with hn | ⟨_, hn⟩
          · exact absurd hx (hn w)
          · cases hn
        | @link _ _ _ _ k4 w4 _ hl' _ h =>
          rw [hx] at hl'
          cases hl'
          exact ⟨k4, by simpa using h⟩
    · have hl' : ∀ w', fs (n :: p) ≠ some (.link w') := fun w' e => hl ⟨w', e⟩
      obtain ⟨n', pp, h1, h2⟩ := ih hx hl'
      refine ⟨n', pp, h1, ?_⟩
      intro y k2 h
      cases h with
      | name _ _ h => exact h2 y k2 h
      | link _ hl4 _ _ => exact absurd hl4 (hl' _)
  | @link p n cs q k w' hd hl hf _ ih =>
    obtain ⟨n', pp, h1, h2⟩ := ih hx (dir_not_link (wf.base hd _))
    refine ⟨n', pp, h1, ?_⟩
    intro y k2 h
    cases h with
    | name _ hn _ =>
      rcases hn with hn | ⟨_, hn⟩
      · exact absurd hl (hn _)
      · cases hn
    | @link _ _ _ _ k4 w4 _ hl' _ h =>
      rw [hl] at hl'
      cases hl'
      exact h2 y k4 h

/-- Walks do not change if directories stay directories, and links stay what they are. -/
theorem Walk.mono {fs fs' : FS} (hd : ∀ p, Links.dirAt fs p = true → Links.dirAt fs' p = true)
    (hl : ∀ p w, fs p = some (.link w) ↔ fs' p = some (.link w)) {f : Bool} {p q : Path} {cs : List Comp} {k : Nat}
    (h : Walk fs f p cs q k) : Walk fs' f p cs q k := by
  induction h with
  | nil p => exact .nil p
  | up h _ ih => exact .up (hd _ h) ih
  | name h hn _ ih =>
    refine .name (hd _ h) ?_ ih
    rcases hn with hn | hn
    · exact .inl fun w e => hn w ((hl _ _).2 e)
    · exact .inr hn
  | link h h1 h2 _ ih => exact .link (hd _ h) ((hl _ _).1 h1) h2 ih

/-- Removing the entry a path names, if that leads to a file. -/
theorem Walk.remove {fs : FS} (x : Path) (hx : Links.dirAt fs x = false)
    (hlink : ∀ n pp w, x = n :: pp → fs x = some (.link w) → ∃ y k, Walk fs true (base w pp) w.comps y k ∧ Links.dirAt fs y = false)
    {p q : Path} {cs : List Comp} {k : Nat} (h : Walk fs false p cs q k) : Walk (fs.set x none) false p cs q k := by
  have hd : ∀ p, Links.dirAt fs p = true → Links.dirAt (fs.set x none) p = true := by
    intro p h
    have : p ≠ x := by rintro rfl; rw [hx] at h; cases h
    unfold Links.dirAt FS.set at *
    rw [if_neg this]
    exact h
  induction h with
  | nil p => exact .nil p
  | up h _ ih => exact .up (hd _ h) ih
  | @name p n cs q k h hn _ ih =>
    refine .name (hd _ h) ?_ ih
    rcases hn with hn | hn
    · refine .inl fun w e => ?_
      unfold FS.set at e
      split at e
      · cases e
      · exact hn w e
    · exact .inr hn
  | @link p n cs q k w h h1 h2 h3 ih =>
    refine .link (hd _ h) ?_ h2 ih
    unfold FS.set
    rw [if_neg]
    · exact h1
    · rintro rfl
      obtain ⟨y, k', g1, g2⟩ := hlink n p w rfl h1
      have hc : cs ≠ [] := by
        rcases h2 with h2 | h2
        · exact h2
        · cases h2
      obtain ⟨p', k1, k2, _, e1, e2⟩ := h3.append w.comps cs rfl hc
      rw [(e1.det g1).1] at e2
      have := e2.dirAt hc
      rw [g2] at this
      cases this

/-! ### resolve -/

/-- Where the walk along a path starts. -/
def start (cwd : Path) (w : WPath) : Path := if w.absolute then [] else cwd

theorem resolve_iff {fs : FS} {f : Bool} {cwd : Path} {w : WPath} {q : Path} :
    resolve fs f cwd w = .ok q ↔ (w.absolute = true ∨ w.comps ≠ []) ∧ ∃ k, k ≤ 40 ∧ Walk fs f (start cwd w) w.comps q k := by
  unfold resolve
  by_cases h : (!w.absolute && w.comps.isEmpty) = true
  · rw [if_pos h]
    simp only [Bool.and_eq_true, Bool.not_eq_true', List.isEmpty_iff] at h
    constructor
    · intro h'; cases h'
    · rintro ⟨h1 | h1, _⟩
      · rw [h.1] at h1; cases h1
      · exact absurd h.2 h1
  · rw [if_neg h]
    have h' : w.absolute = true ∨ w.comps ≠ [] := by
      simp only [Bool.and_eq_true, Bool.not_eq_true', List.isEmpty_iff, not_and] at h
      cases ha : w.absolute with
      | true => exact .inl rfl
      | false => exact .inr (h ha)
    constructor
    · intro hw; exact ⟨h', walk_sound _ _ _ _ hw⟩
    · rintro ⟨_, k, h1, h2⟩; exact walk_complete h2 40 h1

theorem start_dir {fs : FS} (wf : WF fs) {f : Bool} {cwd : Path} {w : WPath} {q : Path} {k : Nat}
    (h1 : w.absolute = true ∨ w.comps ≠ []) (h2 : Walk fs f (start cwd w) w.comps q k) : dirAt fs (start cwd w) = true := by
  by_cases hc : w.comps = []
  · rcases h1 with h1 | h1
    · unfold start; rw [if_pos h1]; exact wf.root
    · exact absurd hc h1
  · exact h2.dirAt hc

/-- A change that keeps directories and links keeps what paths stand for. -/
theorem resolve_mono {fs fs' : FS} (hd : ∀ p, dirAt fs p = true → dirAt fs' p = true)
    (hl : ∀ p w, fs p = some (.link w) ↔ fs' p = some (.link w)) {f : Bool} {cwd : Path} {w : WPath} {q : Path}
    (h : resolve fs f cwd w = .ok q) : resolve fs' f cwd w = .ok q := by
  rw [resolve_iff] at h ⊢
  obtain ⟨h1, k, h2, h3⟩ := h
  exact ⟨h1, k, h2, h3.mono hd hl⟩

theorem Walk.follow {fs : FS} {f : Bool} {p q : Path} {cs : List Comp} {k : Nat} (h : Walk fs f p cs q k)
    (hq : ∀ w, fs q ≠ some (.link w)) : Walk fs true p cs q k := by
  induction h with
  | nil p => exact .nil p
  | up hd _ ih => exact .up hd (ih hq)
  | @name p n cs q k hd hn h ih =>
    refine .name hd (.inl ?_) (ih hq)
    rcases hn with hn | ⟨rfl, _⟩
    · exact hn
    · cases h; exact hq
  | link hd hl _ _ ih => exact .link hd hl (.inr rfl) (ih hq)

/-- If the entry that the path names is not a link, the path leads to it. -/
theorem leads_of_names {fs : FS} {cwd : Path} {w : WPath} {q : Path} (h : resolve fs false cwd w = .ok q)
    (hq : ∀ w, fs q ≠ some (.link w)) : resolve fs true cwd w = .ok q := by
  rw [resolve_iff] at h ⊢
  obtain ⟨h1, k, h2, h3⟩ := h
  exact ⟨h1, k, h2, h3.follow hq⟩

/-- Setting an entry that was not there, or has the same kind, keeps the walks. -/
theorem set_keeps {fs : FS} {x : Path} {e : Entry} (he : ∀ w, e ≠ .link w) (hx : ∀ w, fs x ≠ some (.link w))
    (hd : dirAt fs x = true → e.isDir = true) :
    (∀ p, dirAt fs p = true → dirAt (fs.set x (some e)) p = true) ∧
    (∀ p w, fs p = some (.link w) ↔ (fs.set x (some e)) p = some (.link w)) := by
  constructor
  · intro p h
    unfold dirAt FS.set at *
    split
    · rename_i hp; subst hp; exact hd h
    · exact h
  · intro p w
    unfold FS.set
    split
    · rename_i hp
      subst hp
      constructor
      · intro h; exact absurd h (hx w)
      · intro h; cases h; exact absurd rfl (he w)
    · exact Iff.rfl

theorem isfile_iff {fs : FS} {cwd : Path} {w : WPath} :
    isfile fs cwd w = true ↔ ∃ y c m, resolve fs true cwd w = .ok y ∧ fs y = some (.file c m) := by
  unfold isfile stat
  cases resolve fs true cwd w with
  | error e => simp
  | ok y =>
    dsimp only
    cases hy : fs y with
    | none => simp [hy]
    | some e => cases e <;> simp [hy, Entry.isFile]

theorem isdir_iff {fs : FS} {cwd : Path} {w : WPath} :
    isdir fs cwd w = true ↔ ∃ y, resolve fs true cwd w = .ok y ∧ dirAt fs y = true := by
  unfold isdir stat dirAt
  cases resolve fs true cwd w with
  | error e => simp
  | ok y => simp

theorem exist_iff {fs : FS} {cwd : Path} {w : WPath} :
    exist fs cwd w = true ↔ ∃ y e, resolve fs true cwd w = .ok y ∧ fs y = some e := by
  unfold exist stat
  cases resolve fs true cwd w with
  | error e => simp
  | ok y => simp [Option.isSome_iff_exists]

/-- If a path leads to a file, it names an entry that is not a directory, and unlinking that succeeds. -/
theorem unlink_file {fs : FS} (wf : WF fs) {cwd : Path} {w : WPath} (h : isfile fs cwd w = true) :
    ∃ x, Names fs cwd w x ∧ (∃ e, fs x = some e ∧ e.isDir = false) ∧ unlink cwd w fs = (none, fs.set x none) ∧
      resolve (fs.set x none) false cwd w = .ok x := by
  obtain ⟨y, c, m, h1, h2⟩ := isfile_iff.1 h
  obtain ⟨g1, k, g2, g3⟩ := resolve_iff.1 h1
  obtain ⟨x, k', g4, g5, g6⟩ := g3.unfollow
  have hn : resolve fs false cwd w = .ok x := resolve_iff.2 ⟨g1, k', by omega, g5⟩
  have hx : ∃ e, fs x = some e ∧ e.isDir = false := by
    rcases g6 with rfl | ⟨w', hw⟩
    · exact ⟨_, h2, rfl⟩
    · exact ⟨_, hw, rfl⟩
  refine ⟨x, hn, hx, ?_, ?_⟩
  · unfold unlink
    rw [hn]
    dsimp only
    obtain ⟨e, he, hd⟩ := hx
    rw [he]
    cases e with
    | dir => cases hd
    | file => rfl
    | link => rfl
  · refine resolve_iff.2 ⟨g1, k', by omega, ?_⟩
    refine g5.remove x ?_ ?_
    · obtain ⟨e, he, hd⟩ := hx
      unfold Links.dirAt; rw [he]; exact hd
    · intro n pp w' hxe hxl
      obtain ⟨n', pp', e1, e2⟩ := g5.end_link wf hxl (dir_not_link (start_dir wf g1 g3))
      rw [hxe] at e1
      cases e1
      obtain ⟨k3, hk3⟩ := e2 y k g3
      refine ⟨y, k3, hk3, ?_⟩
      unfold Links.dirAt; rw [h2]; rfl

/-- What Names and LeadsTo mean: a path leads somewhere if it is not empty and there is a walk along it, through directories, that
follows at most 40 links; a path names an entry in the same way, a link at the end not followed. -/
theorem C125_paths (fs : FS) (cwd : Path) (w : WPath) (q : Path) :
    (Names fs cwd w q ↔ (w.absolute = true ∨ w.comps ≠ []) ∧ ∃ k, k ≤ 40 ∧ Walk fs false (start cwd w) w.comps q k) ∧
    (LeadsTo fs cwd w q ↔ (w.absolute = true ∨ w.comps ≠ []) ∧ ∃ k, k ≤ 40 ∧ Walk fs true (start cwd w) w.comps q k) :=
  ⟨resolve_iff, resolve_iff⟩

/-! ## safe_unlink -/

/-- **C125**: safe_unlink never raises; if path leads to a file, it removes the entry that path names, and nothing else, so
afterwards path does not exist; if not, it changes nothing. -/
theorem C125_safe_unlink {fs : FS} (wf : WF fs) (cwd : Path) (w : WPath) :
    (safeUnlink cwd w fs).1 = none ∧
    (isfile fs cwd w = true → ∃ x, Names fs cwd w x ∧ (safeUnlink cwd w fs).2 = fs.set x none ∧
      exist (safeUnlink cwd w fs).2 cwd w = false) ∧
    (isfile fs cwd w = false → (safeUnlink cwd w fs).2 = fs) := by
  unfold safeUnlink
  cases h : isfile fs cwd w with
  | false => simp
  | true =>
    obtain ⟨x, h1, _, h2, h3⟩ := unlink_file wf h
    simp only [if_true, h2, true_and]
    refine ⟨fun _ => ⟨x, h1, rfl, ?_⟩, by simp⟩
    cases hc : exist (fs.set x none) cwd w with
    | false => rfl
    | true =>
      obtain ⟨y, e, h4, h5⟩ := exist_iff.1 hc
      have : fs.set x none x = none := by simp [FS.set]
      have h6 := leads_of_names h3 (by rw [this]; simp)
      rw [h6] at h4
      cases h4
      rw [this] at h5
      cases h5

/-- **C125**: unlinking a link keeps the file it leads to. -/
theorem C125_safe_unlink_keeps_target {fs : FS} (wf : WF fs) (cwd : Path) (w : WPath) (x y : Path) (hx : Names fs cwd w x)
    (hy : LeadsTo fs cwd w y) (hl : ∃ t, fs x = some (.link t)) : (safeUnlink cwd w fs).2 y = fs y := by
  obtain ⟨_, h1, h2⟩ := C125_safe_unlink wf cwd w
  cases h : isfile fs cwd w with
  | false => rw [h2 h]
  | true =>
    obtain ⟨x', g1, g2, _⟩ := h1 h
    unfold Names at hx g1
    rw [hx] at g1
    cases g1
    rw [g2]
    unfold FS.set
    rw [if_neg]
    rintro rfl
    obtain ⟨t, ht⟩ := hl
    obtain ⟨g1, k, _, g3⟩ := resolve_iff.1 hy
    exact g3.end_not_link wf (dir_not_link (start_dir wf g1 g3)) t ht

/-! ## touch -/

/-- **C125**: if touch returns, path exists and its modification time is now; only the entry that path leads to has changed; a file
keeps its contents, and a new one is empty. -/
theorem C125_touch {fs fs' : FS} (wf : WF fs) (now : Nat) (cwd : Path) (w : WPath) (h : touch now cwd w fs = (none, fs')) :
    ∃ y e, LeadsTo fs cwd w y ∧ LeadsTo fs' cwd w y ∧ fs' y = some e ∧ e.timeIs now = true ∧
      contents (fs' y) = contents (fs y) ∧ (dirAt fs y = true ↔ dirAt fs' y = true) ∧ ∀ q, q ≠ y → fs' q = fs q := by
  have hset : ∀ (x : Path) (e : Option Entry), fs.set x e x = e := by intro x e; simp [FS.set]
  have hoth : ∀ (x : Path) (e : Option Entry) (q : Path), q ≠ x → fs.set x e q = fs q := by
    intro x e q hq; simp [FS.set, hq]
  have fin : ∀ (y : Path) (e : Entry), resolve fs true cwd w = .ok y → (∀ t, e ≠ .link t) → e.timeIs now = true →
      contents (some e) = contents (fs y) → (dirAt fs y = true ↔ e.isDir = true) → fs' = fs.set y (some e) →
      ∃ y e, LeadsTo fs cwd w y ∧ LeadsTo fs' cwd w y ∧ fs' y = some e ∧ e.timeIs now = true ∧
        contents (fs' y) = contents (fs y) ∧ (dirAt fs y = true ↔ dirAt fs' y = true) ∧ ∀ q, q ≠ y → fs' q = fs q := by
    rintro y e h1 h2 h3 h4 h5 rfl
    obtain ⟨g1, k, _, g3⟩ := resolve_iff.1 h1
    have hnl := g3.end_not_link wf (dir_not_link (start_dir wf g1 g3))
    obtain ⟨k1, k2⟩ := set_keeps (e := e) h2 hnl (fun h => h5.1 h)
    refine ⟨y, e, h1, resolve_mono k1 k2 h1, hset _ _, h3, by rw [hset]; exact h4, ?_, hoth _ _⟩
    rw [h5]
    unfold dirAt
    rw [hset]
    rfl
  unfold touch at h
  split at h
  · unfold utime at h
    split at h
    · cases h
    · rename_i y hy
      split at h
      · cases h
      · rename_i e he
        cases h
        obtain ⟨g1, k, _, g3⟩ := resolve_iff.1 hy
        have hnl := g3.end_not_link wf (dir_not_link (start_dir wf g1 g3))
        cases e with
        | link t => exact absurd he (hnl t)
        | file c m =>
          refine fin y (.file c now) hy (by simp) (by simp [Entry.timeIs]) (by rw [he]; rfl) ?_ rfl
          unfold dirAt
          rw [he]
          simp [Entry.isDir]
        | dir m =>
          refine fin y (.dir now) hy (by simp) (by simp [Entry.timeIs]) (by rw [he]; rfl) ?_ rfl
          unfold dirAt
          rw [he]
          simp [Entry.isDir]
  · rename_i hne
    unfold openWb at h
    split at h
    · cases h
    · rename_i y hy
      split at h
      · rename_i he
        cases h
        exact fin y _ hy (by simp) (by simp [Entry.timeIs]) (by rw [he]; rfl) (by unfold dirAt; rw [he]; simp [Entry.isDir]) rfl
      · rename_i c m he
        exact absurd (exist_iff.2 ⟨y, _, hy, he⟩) hne
      · cases h

/-- **C125**: touch raises exactly if path leads nowhere: a directory on the way is missing or is not a directory, links go round in
circles, or path is empty. -/
theorem C125_touch_returns {fs : FS} (wf : WF fs) (now : Nat) (cwd : Path) (w : WPath) :
    (touch now cwd w fs).1 = none ↔ ∃ y, LeadsTo fs cwd w y := by
  unfold touch utime openWb LeadsTo
  cases hr : resolve fs true cwd w with
  | error e => simp
  | ok y =>
    simp only [Except.ok.injEq, exists_eq', iff_true]
    obtain ⟨g1, k, _, g3⟩ := resolve_iff.1 hr
    have hnl := g3.end_not_link wf (dir_not_link (start_dir wf g1 g3))
    cases hy : fs y with
    | none => dsimp only; split <;> rename_i he
              · obtain ⟨y', e, h1, h2⟩ := exist_iff.1 he
                rw [hr] at h1; cases h1; rw [hy] at h2; cases h2
              · rfl
    | some e => rw [if_pos (exist_iff.2 ⟨y, e, hr, hy⟩)]

/-! ## safe_mkdir -/

/-- What os.makedirs does to a file tree: it adds directories. -/
def OnlyAdds (now : Nat) (fs fs' : FS) : Prop := ∀ q, fs' q = fs q ∨ (fs q = none ∧ fs' q = some (.dir now))

theorem OnlyAdds.refl (now : Nat) (fs : FS) : OnlyAdds now fs fs := fun _ => .inl rfl

theorem OnlyAdds.trans {now : Nat} {a b c : FS} (h : OnlyAdds now a b) (h' : OnlyAdds now b c) : OnlyAdds now a c := by
  intro q
  rcases h q with h1 | ⟨h1, h2⟩
  · rw [← h1]; exact h' q
  · rcases h' q with h3 | ⟨h3, _⟩
    · exact .inr ⟨h1, by rw [h3, h2]⟩
    · rw [h2] at h3; cases h3

theorem mkdir_adds (now : Nat) (cwd : Path) (w : WPath) (fs : FS) : OnlyAdds now fs (mkdir now cwd w fs).2 := by
  unfold mkdir
  split
  · exact .refl _ _
  · rename_i p _
    split
    · exact .refl _ _
    · rename_i hp
      intro q
      by_cases hq : q = p
      · subst hq
        right
        refine ⟨by simpa using hp, by simp [FS.set]⟩
      · left; simp [FS.set, hq]

theorem mkdirOk_adds (now : Nat) (cwd : Path) (w : WPath) (fs : FS) : OnlyAdds now fs (mkdirOk now cwd w fs).2 := by
  have := mkdir_adds now cwd w fs
  unfold mkdirOk
  split
  · rename_i h; rw [h] at this; exact this
  · rename_i h; rw [h] at this; split <;> exact this

theorem makedirs_adds (now : Nat) (cwd : Path) (abs : Bool) : ∀ (r : List Comp) (fs : FS),
    OnlyAdds now fs (makedirs now cwd abs r fs).2
  | [], fs => mkdirOk_adds _ _ _ _
  | c :: r, fs => by
    have ih := makedirs_adds now cwd abs r fs
    unfold makedirs
    split
    · exact mkdirOk_adds _ _ _ _
    · split
      · rename_i fs' h; rw [h] at ih; exact ih.trans (mkdirOk_adds _ _ _ _)
      · rename_i fs' h; rw [h] at ih; exact ih.trans (mkdirOk_adds _ _ _ _)
      · rename_i e fs' _ h; rw [h] at ih; exact ih

/-- If it does not raise, there is a directory. -/
theorem mkdirOk_dir {now : Nat} {cwd : Path} {w : WPath} {fs fs' : FS} (h : mkdirOk now cwd w fs = (none, fs')) :
    isdir fs' cwd w = true := by
  unfold mkdirOk at h
  split at h
  · rename_i fs1 hm
    cases h
    unfold mkdir at hm
    split at hm
    · cases hm
    · rename_i p hp
      split at hm
      · cases hm
      · rename_i hx
        cases hm
        have hx : fs p = none := by simpa using hx
        obtain ⟨k1, k2⟩ := set_keeps (fs := fs) (x := p) (e := .dir now) (by simp) (by rw [hx]; simp) (by simp [Entry.isDir])
        have h1 := resolve_mono k1 k2 hp
        have hs : fs.set p (some (.dir now)) p = some (.dir now) := by simp [FS.set]
        refine isdir_iff.2 ⟨p, leads_of_names h1 (by rw [hs]; simp), ?_⟩
        unfold dirAt; rw [hs]; rfl
  · split at h
    · rename_i hd; cases h; exact hd
    · cases h

theorem makedirs_dir {now : Nat} {cwd : Path} {abs : Bool} : ∀ {r : List Comp} {fs fs' : FS},
    makedirs now cwd abs r fs = (none, fs') → isdir fs' cwd ⟨abs, r.reverse⟩ = true
  | [], fs, fs', h => mkdirOk_dir h
  | c :: r, fs, fs', h => by
    unfold makedirs at h
    split at h
    · exact mkdirOk_dir h
    · split at h
      · exact mkdirOk_dir h
      · exact mkdirOk_dir h
      · cases h

/-- **C125**: if safe_mkdir returns, path is a directory, or a link to one. -/
theorem C125_safe_mkdir {fs fs' : FS} (now : Nat) (cwd : Path) (w : WPath) (h : safeMkdir now cwd w fs = (none, fs')) :
    isdir fs' cwd w = true := by
  have key : ∀ {fs}, makedirs now cwd w.absolute w.comps.reverse fs = (none, fs') → isdir fs' cwd w = true := by
    intro fs h
    have := makedirs_dir h
    rw [List.reverse_reverse] at this
    exact this
  unfold safeMkdir at h
  split at h
  · split at h
    · exact key h
    · rename_i r hr
      cases hr' : unlink cwd w fs with
      | mk e fs1 =>
        cases e with
        | none => exact absurd hr' (hr fs1)
        | some e => rw [hr'] at h; cases h
  · exact key h

/-- **C125**: whether safe_mkdir returns or raises, it only adds directories, and removes at most the entry that path names, if that
is a file or a link that leads to one; the file a link leads to stays. -/
theorem C125_safe_mkdir_only {fs : FS} (wf : WF fs) (now : Nat) (cwd : Path) (w : WPath) (q : Path) :
    (safeMkdir now cwd w fs).2 q = fs q ∨ (fs q = none ∧ (safeMkdir now cwd w fs).2 q = some (.dir now)) ∨
    (Names fs cwd w q ∧ isfile fs cwd w = true ∧ dirAt fs q = false ∧
      ((safeMkdir now cwd w fs).2 q = none ∨ (safeMkdir now cwd w fs).2 q = some (.dir now))) := by
  unfold safeMkdir
  cases h : isfile fs cwd w with
  | false =>
    simp only [Bool.false_eq_true, if_false]
    rcases makedirs_adds now cwd w.absolute w.comps.reverse fs q with h | h
    · exact .inl h
    · exact .inr (.inl h)
  | true =>
    obtain ⟨x, h1, ⟨e, he, hd⟩, h2, _⟩ := unlink_file wf h
    simp only [if_true, h2]
    by_cases hq : q = x
    · subst hq
      right; right
      refine ⟨h1, trivial, by unfold dirAt; rw [he]; exact hd, ?_⟩
      rcases makedirs_adds now cwd w.absolute w.comps.reverse (fs.set q none) q with h | h
      · left; rw [h]; simp [FS.set]
      · right; exact h.2
    · have hs : fs.set x none q = fs q := by simp [FS.set, hq]
      rcases makedirs_adds now cwd w.absolute w.comps.reverse (fs.set x none) q with h | h
      · left; rw [h, hs]
      · right; left; rw [hs] at h; exact h

/-- If the directory in which the path names an entry is there, os.makedirs only makes that entry. -/
theorem makedirs_names {now : Nat} {cwd : Path} {w : WPath} {fs : FS} {x : Path} (h : resolve fs false cwd w = .ok x) :
    makedirs now cwd w.absolute w.comps.reverse fs = mkdirOk now cwd w fs := by
  obtain ⟨h1, k, h2, h3⟩ := resolve_iff.1 h
  cases hr : w.comps.reverse with
  | nil =>
    have : w.comps = [] := by simpa using hr
    unfold makedirs
    rw [← this]
  | cons c r =>
    have hc : w.comps = r.reverse ++ [c] := by
      have := congrArg List.reverse hr
      simpa using this
    have hw : (⟨w.absolute, (c :: r).reverse⟩ : WPath) = w := by rw [← hr, List.reverse_reverse]
    unfold makedirs
    rw [hw]
    by_cases he : r = []
    · subst he; rfl
    · obtain ⟨p', k1, k2, e0, e1, e2⟩ := h3.append r.reverse [c] hc (by simp)
      have hd := e2.dirAt (by simp)
      have hp : resolve fs true cwd ⟨w.absolute, r.reverse⟩ = .ok p' :=
        resolve_iff.2 ⟨.inr (by simpa using he), k1, by omega, e1⟩
      have : ∃ e, fs p' = some e := by
        unfold dirAt at hd
        cases hf : fs p' with
        | none => rw [hf] at hd; cases hd
        | some e => exact ⟨e, rfl⟩
      obtain ⟨e, hf⟩ := this
      rw [if_pos]
      rw [exist_iff.2 ⟨p', e, hp, hf⟩, Bool.or_true]

/-- **C125**: if the directory in which path names an entry is there, safe_mkdir returns exactly if there is no such entry, or it is,
or leads to, a file or a directory; else (a link that leads nowhere) it raises FileExistsError and changes nothing. -/
theorem C125_safe_mkdir_returns {fs : FS} (wf : WF fs) (now : Nat) (cwd : Path) (w : WPath) (x : Path) (hx : Names fs cwd w x) :
    ((fs x = none ∨ isfile fs cwd w = true ∨ isdir fs cwd w = true) → (safeMkdir now cwd w fs).1 = none) ∧
    (¬ (fs x = none ∨ isfile fs cwd w = true ∨ isdir fs cwd w = true) → safeMkdir now cwd w fs = (some .fileExists, fs)) := by
  unfold safeMkdir
  cases h : isfile fs cwd w with
  | true =>
    refine ⟨fun _ => ?_, fun h => absurd (.inr (.inl rfl)) h⟩
    obtain ⟨y, h1, _, h2, h3⟩ := unlink_file wf h
    simp only [if_true, h2]
    rw [makedirs_names h3]
    unfold mkdirOk mkdir
    rw [h3]
    simp [FS.set]
  | false =>
    simp only [Bool.false_eq_true, if_false, false_or]
    rw [makedirs_names hx]
    unfold mkdirOk mkdir
    rw [show resolve fs false cwd w = .ok x from hx]
    cases hf : fs x with
    | none => simp [hf]
    | some e => cases hd : isdir fs cwd w <;> simp [hf, hd]

/-! ## Examples -/

/-- `/f` is a file, `/d` a directory, `/l` a link to `f`, `/m` a link to `d`, `/n` a link to nothing, `d/new`; `/o` a link to itself. -/
def demo : FS := fun p =>
  if p = [] then some (.dir 1)
  else if p = ["f"] then some (.file [7] 1)
  else if p = ["d"] then some (.dir 1)
  else if p = ["l"] then some (.link ⟨false, [.name "f"]⟩)
  else if p = ["m"] then some (.link ⟨true, [.name "d"]⟩)
  else if p = ["n"] then some (.link ⟨false, [.name "m", .name "new"]⟩)
  else if p = ["o"] then some (.link ⟨false, [.name "o"]⟩)
  else none

theorem demo_wf : WF demo where
  root := rfl
  parent := by
    intro n p h
    cases p with
    | nil => rfl
    | cons a p =>
      exfalso; apply h
      simp [demo]

/-- The relative path with these names. -/
def rel (l : List String) : WPath := ⟨false, l.map .name⟩

example : WF demo ∧ Names demo [] (rel ["l"]) ["l"] ∧ LeadsTo demo [] (rel ["l"]) ["f"] ∧
    isfile demo [] (rel ["l"]) = true ∧ isdir demo [] (rel ["m"]) = true ∧ exist demo [] (rel ["n"]) = false ∧
    resolve demo true [] (rel ["o"]) = .error .tooManyLinks :=
  ⟨demo_wf, rfl, rfl, rfl, rfl, rfl, rfl⟩

/-- `touch n` makes the file `d/new`; safe_mkdir of `m/a/b` works through the link; safe_mkdir of `l` replaces the link; safe_mkdir
of `n` raises FileExistsError. -/
example : (touch 5 [] (rel ["n"]) demo).1 = none ∧ isfile (touch 5 [] (rel ["n"]) demo).2 [] (rel ["d", "new"]) = true ∧
    (safeMkdir 5 [] (rel ["m", "a", "b"]) demo).1 = none ∧
    isdir (safeMkdir 5 [] (rel ["m", "a", "b"]) demo).2 [] (rel ["d", "a", "b"]) = true ∧
    (safeMkdir 5 [] (rel ["l"]) demo).1 = none ∧ isfile (safeMkdir 5 [] (rel ["l"]) demo).2 [] (rel ["f"]) = true ∧
    isdir (safeMkdir 5 [] (rel ["l"]) demo).2 [] (rel ["l"]) = true ∧
    (safeMkdir 5 [] (rel ["n"]) demo).1 = some .fileExists := by decide +kernel

end Big.File.Links
