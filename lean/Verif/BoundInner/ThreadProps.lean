import Verif.BoundInner.ThreadInv
import Verif.BoundInner.ThreadAlone
/-! # C146: bound inner classes when several threads access them

"The two threads may get different (but equivalent) bound inner class objects, and only one of those instances will
get cached on the outer object" (README, BoundInnerClass); and what the workaround given there achieves. -/
namespace Big.BoundInner

/-! ### Specification -/

/-- Two classes that differ only in being made twice: the same class; or of the same name, with the same `__init__`, and
with as many bases, equivalent one by one. -/
inductive Equivalent (S : State) : Cls → Cls → Prop where
  | refl (w : Cls) : Equivalent S w w
  | same (w w' : Cls) (hname : (S.info w).name = (S.info w').name) (hinit : (S.info w).init = (S.info w').init)
    (hlen : (S.info w).bases.length = (S.info w').bases.length)
    (hbases : ∀ (i : Nat) (k k' : Cls), (S.info w).bases[i]? = some k → (S.info w').bases[i]? = some k' → Equivalent S k k') :
    Equivalent S w w'

/-- No thread is in the middle of an access to an attribute of `o`. -/
def Idle (o : Outer) (W : Threads) : Prop := ∀ a ∈ W.accesses, a.outer = o → a.result.isSome

/-- Every program starts like this: no access has been made. -/
abbrev begin (S0 : State) : Threads := ⟨S0, []⟩

/-! ### The theorems -/

/-- C146: an access that no other thread disturbs does exactly what it does in a program with one thread (Model.lean). -/
theorem C146_alone (A : Attrs) (n : Nat) (o : Outer) (name : String) (S : State) :
    Reaches o (getP A n o name) S (.done (get A n S o name).1) (get A n S o name).2 :=
  getP_does A n o name S

/-- C146: and so does one through `super()` or by a call of `__get__`. -/
theorem C146_alone_direct (A : Attrs) (n : Nat) (o : Outer) (name : String) (b : Bool) (c : Cls) (S : State)
    (hA : A o name = some (.desc b c)) :
    Reaches o (directP A n o name) S (.done ((bind A n S o b c).1.map .cls)) (bind A n S o b c).2 := by
  unfold directP
  rw [hA]
  refine (Reaches.andThen (bindP_does A o n b c S)).trans ?_
  dsimp only
  cases hb : bind A n S o b c with
  | mk r S' => cases r <;> exact .refl _ _ _

theorem version_equivalent {A : Attrs} {S0 S : State} {o : Outer} {b : Bool} {c w : Cls} (h : Version A S0 o S b c w) :
    ∀ {w' : Cls}, Version A S0 o S b c w' → Equivalent S w w' := by
  induction h with
  | mk b c w bs new exist hname hinit hmro hbases hno hlen hsame hver ih =>
    intro w' h'
    cases h' with
    | mk _ _ _ bs' new' exist' hname' hinit' hmro' hbases' hno' hlen' hsame' hver' =>
      have hl : bs.length = bs'.length := by
        by_cases hx : ∃ k ∈ (S0.info c).bases, Replaced A S0 o c k
        · rw [hlen hx, hlen' hx]
        · have hy : ∀ k ∈ (S0.info c).bases, ¬ Replaced A S0 o c k := fun k hk hr => hx ⟨k, hk, hr⟩
          rw [hno hy, hno' hy]
      have hle : bs.length ≤ (S0.info c).bases.length := by
        by_cases hx : ∃ k ∈ (S0.info c).bases, Replaced A S0 o c k
        · rw [hlen hx]; exact Nat.le_refl _
        · rw [hno fun k hk hr => hx ⟨k, hk, hr⟩]; exact Nat.zero_le _
      refine .same _ _ (by rw [hname, hname']) (by rw [hinit, hinit']) (by rw [hbases, hbases']; simp [hl]) ?_
      intro i k k' hk hk'
      rw [hbases] at hk
      rw [hbases'] at hk'
      cases i with
      | zero => cases hk; cases hk'; exact .refl _
      | succ i =>
        simp only [List.getElem?_cons_succ] at hk hk'
        have hil : i < (S0.info c).bases.length := by
          have := (List.getElem?_eq_some_iff.1 hk).1
          omega
        have hd := List.getElem?_eq_getElem hil
        by_cases hr : Replaced A S0 o c (S0.info c).bases[i]
        · obtain ⟨b', hb'⟩ := hr.2
          exact ih i _ k b' hd hk hr hb' (hver' i _ k' b' hd hk' hr hb')
        · rw [hsame i _ k hd hk hr, hsame' i _ k' hd hk' hr]
          exact .refl _

/-- C146: whatever the schedule, two accesses to `o.name`, in whichever threads, as attributes or directly, give equivalent classes, if `name` is a
decorated class. -/
theorem C146_equivalent (A : Attrs) (n : Nat) (S0 : State) (o : Outer) (hR : Ready A S0 o) (acts : List Act)
    (name : String) (hD : Desc A o name) (i j : Nat) (a a' : Access) (v v' : Val)
    (ha : ((begin S0).run A n acts).accesses[i]? = some a) (ha' : ((begin S0).run A n acts).accesses[j]? = some a')
    (ho : a.outer = o ∧ a.name = name) (ho' : a'.outer = o ∧ a'.name = name)
    (hv : a.result = some (.ok v)) (hv' : a'.result = some (.ok v')) :
    ∃ w w', v = .cls w ∧ v' = .cls w' ∧ Equivalent ((begin S0).run A n acts).state w w' := by
  have hg := start_good hR n acts
  obtain ⟨b, c, hA⟩ := hD
  have h1 := hg.result ha (Nat.zero_le _) ho.1 hv
  have h2 := hg.result ha' (Nat.zero_le _) ho'.1 hv'
  obtain ⟨⟨w, rfl, hw⟩, -⟩ := h1.1 b c (by rw [ho.2]; exact hA)
  obtain ⟨⟨w', rfl, hw'⟩, -⟩ := h2.1 b c (by rw [ho'.2]; exact hA)
  exact ⟨w, w', rfl, rfl, version_equivalent hw hw'⟩

/-- C146: whatever the schedule, what any thread gets for a class decorated with BoundInnerClass is a class, whose first base is the
class as written, and an instance of which, made by any thread at any time from then on, is initialized with `o`
before the arguments given (None in its place once `o` is gone). -/
theorem C146_receives (A : Attrs) (n : Nat) (S0 : State) (o : Outer) (hR : Ready A S0 o) (acts : List Act)
    (name : String) (c : Cls) (hA : A o name = some (.desc true c)) (i : Nat) (a : Access) (v : Val)
    (ha : ((begin S0).run A n acts).accesses[i]? = some a) (ho : a.outer = o ∧ a.name = name)
    (hv : a.result = some (.ok v)) :
    let S := ((begin S0).run A n acts).state
    ∃ w, v = .cls w ∧ (S.info w).bases.head? = some c ∧ ∀ (args : List Arg) (k : Cls),
      (S.info c).mro.find? (fun j => (S.info j).init ≠ .inherit) = some k → (S.info k).init = .own →
      construct S w args = some (k, (if S.alive o then .outer o else .nothing) :: args) := by
  have hg := start_good hR n acts
  obtain ⟨⟨w, rfl, hw⟩, -⟩ := (hg.result ha (Nat.zero_le _) ho.1 hv).1 true c (by rw [ho.2]; exact hA)
  cases hw with
  | mk _ _ _ bs new exist hname hinit hmro hbases =>
    refine ⟨w, rfl, by rw [hbases]; rfl, ?_⟩
    intro args k hk hown
    refine (construct_bound exist ?_ hk hown).trans rfl
    obtain ⟨r, hr⟩ := hmro
    rw [hbases, hr]
    dsimp only [List.tail_cons]
    rw [← hbases, ← hr]
    rw [if_pos rfl] at hinit
    rw [← hinit]

/-- C146: only one class gets cached. Once `o.name` has been accessed and no access to an attribute of `o` is under way, there
is one class that every further access to `o.name` gives, in every thread, whatever the schedule from then on, if all are accesses to
attributes. So
if the class is accessed before a second thread knows `o` (the workaround in the README), all threads get one class. -/
theorem C146_settles (A : Attrs) (n : Nat) (S0 : State) (o : Outer) (hR : Ready A S0 o) (acts : List Act)
    (name : String) (hD : Desc A o name) (hidle : Idle o ((begin S0).run A n acts)) (i : Nat) (a : Access) (v : Val)
    (ha : ((begin S0).run A n acts).accesses[i]? = some a) (ho : a.outer = o ∧ a.name = name)
    (hv : a.result = some (.ok v)) :
    ∃ w, ∀ (acts' : List Act) (j : Nat) (a' : Access) (r : Except Err Val), Attributes o acts' →
      (((begin S0).run A n acts).run A n acts').accesses[j]? = some a' →
      ((begin S0).run A n acts).accesses.length ≤ j → a'.outer = o → a'.name = name → a'.result = some r →
      r = .ok (.cls w) := by
  have hg := start_good hR n acts
  generalize (begin S0).run A n acts = W at *
  obtain ⟨b, c, hA⟩ := hD
  have h1 := (hg.result ha (Nat.zero_le _) ho.1 hv).1 b c (by rw [ho.2]; exact hA)
  rw [ho.2] at h1
  cases hd : W.state.dict o name with
  | none => exact absurd hd h1.2
  | some u =>
    obtain ⟨w, rfl, -⟩ := hg.ok.entry name b c u hA hd
    refine ⟨w, ?_⟩
    intro acts' j a' r hx ha' hj ho' hn' hr
    have hg2 : Good A S0 o (fun m => W.state.dict o m) W.accesses.length W := by
      refine ⟨⟨hg.ok.ext, hg.ok.other, hg.ok.entry, fun _ _ h => h⟩, ?_⟩
      intro k x hx hxo
      refine .inl ⟨(List.getElem?_eq_some_iff.1 hx).1, ?_⟩
      have := hidle x (List.mem_of_getElem? hx) hxo
      unfold Access.result at this
      cases hp : x.prog with
      | done r => exact ⟨r, rfl⟩
      | read => rw [hp] at this; cases this
      | look => rw [hp] at this; cases this
      | build => rw [hp] at this; cases this
      | store => rw [hp] at this; cases this
    have h2 := (run_good hR (n := n) acts' (Nat.le_refl _) (.inr hx) hg2).result ha' hj ho' hr
    rw [hn'] at h2
    cases r with
    | error e => rw [show W.state.dict o name = none from h2] at hd; cases hd
    | ok x => rw [h2.2 _ hd]

/-! ### What a race can do -/

/-- The classes: object; B; D and E, subclasses of B; D3 and E3, too; F(D, E), H(D3, E3), K(F, H). -/
def raceState : State :=
  ⟨[⟨"object", [], [0], .own⟩, ⟨"B", [0], [1, 0], .own⟩, ⟨"D", [1], [2, 1, 0], .own⟩, ⟨"E", [1], [3, 1, 0], .own⟩,
    ⟨"D3", [1], [4, 1, 0], .own⟩, ⟨"E3", [1], [5, 1, 0], .own⟩, ⟨"F", [2, 3], [6, 2, 3, 1, 0], .own⟩,
    ⟨"H", [4, 5], [7, 4, 5, 1, 0], .own⟩, ⟨"K", [6, 7], [8, 6, 2, 3, 7, 4, 5, 1, 0], .own⟩], fun _ _ => none, fun _ => true⟩

/-- All but object are decorated with BoundInnerClass. -/
def raceAttrs : Attrs := fun _ name =>
  (["B", "D", "E", "D3", "E3", "F", "H", "K"].idxOf? name).map fun i => .desc true (i + 1)

/-- An access that runs to its end. -/
def whole (i : Nat) (name : String) : List Act := .start 0 name :: List.replicate 60 (.go i)

/-- One thread is about to store the class it made for `o.B`; meanwhile another accesses `o.B`, `o.D` and `o.E3`; then the
first goes on. -/
def race : List Act :=
  .start 0 "B" :: List.replicate 5 (.go 0) ++ whole 1 "B" ++ whole 2 "D" ++ whole 3 "E3" ++ [.go 0]

theorem race_ready : Ready raceAttrs raceState 0 := by
  have hx : ∀ name b c, raceAttrs 0 name = some (.desc b c) → c < 9 ∧ (raceState.info c).name = name := by
    intro name b c h
    unfold raceAttrs at h
    cases hi : ["B", "D", "E", "D3", "E3", "F", "H", "K"].idxOf? name with
    | none => rw [hi] at h; cases h
    | some i =>
      rw [hi] at h
      cases h
      have hf := List.idxOf?_eq_some_iff.1 hi
      obtain ⟨hlt, he, -⟩ := hf
      have he : ["B", "D", "E", "D3", "E3", "F", "H", "K"][i] = name := by simpa using he
      rw [← he]
      have hlt : i < 8 := hlt
      match i, hlt with
      | 0, _ => exact ⟨by omega, rfl⟩
      | 1, _ => exact ⟨by omega, rfl⟩
      | 2, _ => exact ⟨by omega, rfl⟩
      | 3, _ => exact ⟨by omega, rfl⟩
      | 4, _ => exact ⟨by omega, rfl⟩
      | 5, _ => exact ⟨by omega, rfl⟩
      | 6, _ => exact ⟨by omega, rfl⟩
      | 7, _ => exact ⟨by omega, rfl⟩
  refine ⟨fun _ _ => rfl, fun name b c h => hx name b c h, by decide, ?_⟩
  intro name w h
  rcases h with h | h
  · cases h
  · unfold raceAttrs at h
    cases hi : ["B", "D", "E", "D3", "E3", "F", "H", "K"].idxOf? name with
    | none => rw [hi] at h; cases h
    | some i => rw [hi] at h; cases h

theorem Prog.next_agrees {α : Type} (o : Outer) (p : Prog α) {S S' : State} (hh : S.heap = S'.heap) (hd : S.dict = S'.dict) :
    (p.next o S).1 = (p.next o S').1 ∧ (p.next o S).2.heap = (p.next o S').2.heap ∧
      (p.next o S).2.dict = (p.next o S').2.dict ∧ (p.next o S).2.alive = S.alive := by
  have hi : S.info = S'.info := by funext c; simp only [State.info, hh]
  cases p with
  | done r => exact ⟨rfl, hh, hd, rfl⟩
  | read n k => exact ⟨by simp only [Prog.next, hd], hh, hd, rfl⟩
  | look c k => exact ⟨by simp only [Prog.next, hi], hh, hd, rfl⟩
  | build b c xs k =>
    have hn : newClass o b c S xs = newClass o b c S' xs := by simp only [newClass, hi, hh]
    simp only [Prog.next, hn]
    cases newClass o b c S' xs with
    | none => exact ⟨rfl, hh, hd, rfl⟩
    | some r => exact ⟨by simp only [hh], by simp only [hh], hd, rfl⟩
  | store n w k => exact ⟨rfl, hh, by simp only [Prog.next, hd], rfl⟩

/-- Not the destruction of an outer instance. -/
def Act.isAccess : Act → Bool
  | .die _ => false
  | _ => true

/-- C146: destroying outer instances, whenever, changes nothing about any access, to attributes of whichever instance, and about
what is cached; an instance stays alive until it is destroyed itself. -/
theorem C146_deaths (A : Attrs) (n : Nat) (acts : List Act) : ∀ W W' : Threads, W.accesses = W'.accesses →
    W.state.heap = W'.state.heap → W.state.dict = W'.state.dict →
    (W.run A n acts).accesses = (W'.run A n (acts.filter Act.isAccess)).accesses ∧
    (W.run A n acts).state.heap = (W'.run A n (acts.filter Act.isAccess)).state.heap ∧
    (W.run A n acts).state.dict = (W'.run A n (acts.filter Act.isAccess)).state.dict ∧
    ∀ o, (W.run A n acts).state.alive o = true ↔ W.state.alive o = true ∧ Act.die o ∉ acts := by
  induction acts with
  | nil => intro W W' h1 h2 h3; exact ⟨h1, h2, h3, fun o => by simp [Threads.run]⟩
  | cons a acts ih =>
    intro W W' h1 h2 h3
    have step : ∀ W2 : Threads, Threads.act A n W a = W2 → ∀ W2' : Threads,
        W2.accesses = W2'.accesses → W2.state.heap = W2'.state.heap → W2.state.dict = W2'.state.dict →
        (∀ o, W2.state.alive o = true ↔ W.state.alive o = true ∧ Act.die o ≠ a) →
        W'.run A n ((a :: acts).filter Act.isAccess) = W2'.run A n (acts.filter Act.isAccess) →
        ((W.run A n (a :: acts)).accesses = (W'.run A n ((a :: acts).filter Act.isAccess)).accesses ∧
        (W.run A n (a :: acts)).state.heap = (W'.run A n ((a :: acts).filter Act.isAccess)).state.heap ∧
        (W.run A n (a :: acts)).state.dict = (W'.run A n ((a :: acts).filter Act.isAccess)).state.dict ∧
        ∀ o, (W.run A n (a :: acts)).state.alive o = true ↔ W.state.alive o = true ∧ Act.die o ∉ a :: acts) := by
      intro W2 hW2 W2' g1 g2 g3 g4 g5
      have hrun : W.run A n (a :: acts) = W2.run A n acts := by
        show acts.foldl (Threads.act A n) (Threads.act A n W a) = _
        rw [hW2]; rfl
      obtain ⟨k1, k2, k3, k4⟩ := ih W2 W2' g1 g2 g3
      rw [hrun, g5]
      refine ⟨k1, k2, k3, fun o => ?_⟩
      rw [k4 o, g4 o, List.mem_cons, not_or, and_assoc]
    cases a with
    | start o name =>
      exact step _ rfl (Threads.act A n W' (.start o name)) (by simp only [Threads.act, h1]) h2 h3 (fun o' => by simp [Threads.act]) rfl
    | direct o name =>
      exact step _ rfl (Threads.act A n W' (.direct o name)) (by simp only [Threads.act, h1]) h2 h3 (fun o' => by simp [Threads.act]) rfl
    | die o =>
      refine step _ rfl W' h1 h2 h3 (fun o' => ?_) rfl
      simp only [Threads.act]
      by_cases ho : o' = o
      · subst ho; simp
      · simp [ho]
    | go i =>
      refine step _ rfl (Threads.act A n W' (.go i)) ?_ ?_ ?_ (fun o' => ?_) rfl
      all_goals
        simp only [Threads.act, ← h1]
        cases W.accesses[i]? with
        | none => first | exact h1 | exact h2 | exact h3 | simp
        | some a =>
          have := Prog.next_agrees a.outer a.prog h2 h3
          simp [this, h1]

/-- C146: the two threads get different classes, and the one stored last is the one that stays; so `isinstance` tells
instances of `o.B` apart, and `o.D` is no subclass of `o.B`. -/
theorem C146_race_differs :
    let W := (begin raceState).run raceAttrs 9 race
    Idle 0 W ∧ W.accesses.map (·.result) = [some (.ok (.cls 9)), some (.ok (.cls 10)), some (.ok (.cls 11)), some (.ok (.cls 12))] ∧
    W.state.dict 0 "B" = some (.cls 9) ∧ 9 ∉ (W.state.info 11).mro ∧ 10 ∈ (W.state.info 11).mro := by
  refine ⟨?_, ?_, ?_, ?_, ?_⟩
  · unfold Idle; decide +kernel
  · decide +kernel
  · decide +kernel
  · decide +kernel
  · decide +kernel

/-- C146: equivalent as they are, the classes do not go together: after that race, in one thread and with no other access
under way, `o.K` raises TypeError (there is no consistent method resolution order), and again each time. Without the
race, it gives a class. -/
theorem C146_race_breaks :
    let W := (begin raceState).run raceAttrs 9 (race ++ whole 4 "K" ++ whole 5 "K")
    Idle 0 W ∧ (W.accesses.map (·.result)).drop 4 = [some (.error .typeError), some (.error .typeError)] ∧
    ((begin raceState).run raceAttrs 9 (whole 0 "B" ++ whole 1 "K")).accesses.map (·.result) =
      [some (.ok (.cls 9)), some (.ok (.cls 16))] := by
  refine ⟨?_, ?_, ?_⟩
  · unfold Idle; decide +kernel
  · decide +kernel
  · decide +kernel

/-! ### Examples -/

example : Desc raceAttrs 0 "B" ∧ Idle 0 ((begin raceState).run raceAttrs 9 race) := ⟨⟨true, 1, by decide⟩, C146_race_differs.1⟩

end Big.BoundInner
