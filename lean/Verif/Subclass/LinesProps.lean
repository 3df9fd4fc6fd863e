import Verif.Subclass.LinesModel
import Verif.Subclass.Props
/-!
# C145: lines, and instances of subclasses of str and bytes
-/
namespace Big.Sub

variable {C α : Type} [DecidableEq C] [DecidableEq α]

/-- Every string of it is a str (or bytes) proper. -/
def Out.Proper (o : Out C α) : Prop := o.infoLine.cls = none ∧ o.lineEnd.cls = none ∧ o.line.cls = none

omit [DecidableEq C] in
theorem nexts_proper (sub : C → C → Bool) (b : Bool) : ∀ (l : List (MS.Item α)) (n : Int),
    (∀ i ∈ l, ∃ x y, i = MS.Item.pair x y) →
    ∀ r ∈ nexts sub b .pairs n ((l.map Item.ofTexts).map (Item.toVal (C := C))), ∃ o, r = .ok o ∧ o.Proper
  | [], _, _ => by intro r hr; cases hr
  | i :: l, n, h => by
    obtain ⟨x, y, rfl⟩ := h i (by simp)
    have key : next (C := C) sub b .pairs n (Item.ofTexts (MS.Item.pair x y)).toVal =
        (.ok ⟨if y ≠ [] then new (x ++ y) else new x, n, new y, new x⟩, .pairs, n + 1) := by
      simp only [Item.ofTexts, Item.toVal, next, lineAndEnd, originalLine, new_text, true_and]
      split <;> simp [isInstance]
    intro r hr
    simp only [List.map_cons, nexts, List.mem_cons] at hr
    rw [key] at hr
    rcases hr with rfl | hr
    · refine ⟨_, rfl, ?_, rfl, rfl⟩
      dsimp only
      split <;> rfl
    · exact nexts_proper sub b l _ (fun j hj => h j (by simp [hj])) r hr

omit [DecidableEq C] in
/-- C145, lines over a string: an instance of a subclass is split as the str (or bytes) with its text would be, and
every line, and every string in a LineInfo, is a str (or bytes) proper. -/
theorem C145_text (sub : C → C → Bool) (b : Bool) (nl : α) (cache : List (List α) → Option (List (List α))) (n : Int)
    (s : Str C α) (seps : List (Str C α)) :
    linesText sub b nl cache n s seps = linesText sub b nl cache n (new s.text) (seps.map (fun w => new w.text)) ∧
    (seps ≠ [] → ∃ rs, linesText sub b nl cache n s seps = .ok rs ∧ ∀ r ∈ rs, ∃ o, r = .ok o ∧ o.Proper) := by
  have hU : ∀ t : List α, ∀ ws : List (List α), ¬ Untouched nl t ws (some (-1)) false .no := by
    intro t ws h
    rcases h.1 with h | h
    · cases h
    · exact h.1 rfl
  constructor
  · unfold linesText
    rw [(C144_multisplit nl cache s seps .asPairs (some (-1)) false true .no).2 (hU _ _),
      (C144_multisplit nl cache (new s.text) (seps.map (fun w => new w.text)) .asPairs (some (-1)) false true .no).2 (hU _ _)]
    rw [new_text, List.map_map]
    rfl
  · intro hne
    unfold linesText
    rw [(C144_multisplit nl cache s seps .asPairs (some (-1)) false true .no).2 (hU _ _)]
    unfold MS.multisplit
    rw [if_neg (by simp [hne]), if_pos rfl]
    refine ⟨_, rfl, ?_⟩
    apply nexts_proper
    intro i hi
    unfold MS.msGen at hi
    rw [if_neg (by simp)] at hi
    simp only [MS.emit] at hi
    have hp : ∀ l : List (List α), ∀ i ∈ MS.pairUp .asPairs l, ∃ x y, i = MS.Item.pair x y := by
      intro l
      fun_induction MS.pairUp MS.Keep.asPairs l with
      | case1 a b l ih =>
        intro i hi
        rcases List.mem_cons.1 hi with rfl | hi
        · exact ⟨a, b, rfl⟩
        · exact ih i hi
      | case2 => intro i hi; cases hi
    exact hp _ i hi

/-- The number of lines among the first `i` that are str (or bytes) proper. -/
def properBefore (ss : List (Str C α)) (i : Nat) : Nat := (ss.take i).countP (fun s => s.cls.isNone)

/-- What `__next__` does with a line. -/
theorem next_line (sub : C → C → Bool) (b : Bool) (m : Mode) (hm : m ≠ .pairs) (n : Int) (s : Str C α) :
    next sub b m n (.line s) =
      if s.cls = none then (.ok ⟨s, n, new [], s⟩, .strings, n + 1) else (.error .typeError, .strings, n) := by
  unfold next
  have hl : lineAndEnd b m (.line s) = (.ok (s, new []), .strings) := by
    cases m
    · rfl
    · exact absurd rfl hm
    · rfl
  rw [hl]
  dsimp only
  have ho : originalLine .strings s (new []) = s := if_neg (fun h => nomatch h.1)
  rw [ho]
  cases hc : s.cls with
  | none => simp [isInstance, hc]
  | some c => simp [isInstance, hc]

/-- C145, lines over an iterable of lines: each line that is a str (or bytes) proper is yielded, numbered without gaps;
each that is an instance of a subclass is refused with a TypeError. -/
theorem C145_lines (sub : C → C → Bool) (b : Bool) (n : Int) (ss : List (Str C α)) :
    (linesOver sub b n (ss.map Val.line)).length = ss.length ∧
    ∀ i (hi : i < ss.length), (linesOver sub b n (ss.map Val.line))[i]? =
      some (if ss[i].cls = none then .ok ⟨ss[i], n + properBefore ss i, new [], ss[i]⟩ else .error .typeError) := by
  have key : ∀ (ss : List (Str C α)) (m : Mode) (hm : m ≠ .pairs) (n : Int),
      (nexts sub b m n (ss.map Val.line)).length = ss.length ∧
      ∀ i (hi : i < ss.length), (nexts sub b m n (ss.map Val.line))[i]? =
        some (if ss[i].cls = none then .ok ⟨ss[i], n + properBefore ss i, new [], ss[i]⟩ else .error .typeError) := by
    intro ss
    induction ss with
    | nil => intro m hm n; exact ⟨rfl, fun i hi => absurd hi (Nat.not_lt_zero _)⟩
    | cons s ss ih =>
      intro m hm n
      simp only [List.map_cons, nexts]
      rw [next_line sub b m hm n s]
      by_cases hc : s.cls = none
      · rw [if_pos hc]
        obtain ⟨h1, h2⟩ := ih .strings (by decide) (n + 1)
        refine ⟨by simp [h1], ?_⟩
        intro i hi
        cases i with
        | zero => simp [hc, properBefore]
        | succ i =>
          simp only [List.getElem?_cons_succ, List.getElem_cons_succ]
          rw [h2 i (by simpa using hi)]
          have : properBefore (s :: ss) (i + 1) = properBefore ss i + 1 := by
            unfold properBefore; simp [hc]
          rw [this]
          rw [show n + 1 + (properBefore ss i : Int) = n + ((properBefore ss i + 1 : Nat) : Int) by omega]
      · rw [if_neg hc]
        obtain ⟨h1, h2⟩ := ih .strings (by decide) n
        refine ⟨by simp [h1], ?_⟩
        intro i hi
        cases i with
        | zero => simp [hc]
        | succ i =>
          simp only [List.getElem?_cons_succ, List.getElem_cons_succ]
          rw [h2 i (by simpa using hi)]
          have : properBefore (s :: ss) (i + 1) = properBefore ss i := by
            unfold properBefore
            have : s.cls.isNone = false := by cases h : s.cls with | none => exact absurd h hc | some _ => rfl
            simp [this]
          rw [this]
  exact key ss .unknown (by decide) n

/-- A pair is refused: its line is an instance of a subclass, and its linebreak an empty string that is not an instance of
the same subclass (`sub c d`: class `c` is `d` or a subclass of it). -/
def refused (sub : C → C → Bool) (p : Str C α × Str C α) : Bool :=
  match p.2.text, p.1.cls, p.2.cls with
  | [], some _, none => true
  | [], some d, some c => !sub c d
  | _, _, _ => false

/-- The number of pairs among the first `i` that are not refused. -/
def keptBefore (sub : C → C → Bool) (ps : List (Str C α × Str C α)) (i : Nat) : Nat :=
  (ps.take i).countP (fun p => !refused sub p)

theorem next_pair (sub : C → C → Bool) (b : Bool) (m : Mode) (hm : m ≠ .strings) (n : Int) (a e : Str C α) :
    next sub b m n (.pair a e) =
      if refused sub (a, e) = true then (.error .typeError, .pairs, n)
      else (.ok ⟨if e.text = [] then a else new (a.text ++ e.text), n, e, a⟩, .pairs, n + 1) := by
  have hl : lineAndEnd b m (.pair a e) = (.ok (a, e), .pairs) := by
    cases m
    · rfl
    · rfl
    · exact absurd rfl hm
  unfold next
  rw [hl]
  dsimp only
  by_cases he : e.text = []
  · have ho : originalLine .pairs a e = a := if_neg (fun h => h.2 he)
    rw [ho, if_pos he]
    have : isInstance sub e a = !refused sub (a, e) := by
      unfold isInstance refused
      dsimp only
      rw [he]
      cases a.cls <;> cases e.cls <;> simp
    rw [this]
    cases refused sub (a, e) <;> simp
  · have ho : originalLine .pairs a e = new (a.text ++ e.text) := if_pos ⟨rfl, he⟩
    have hr : refused sub (a, e) = false := by
      unfold refused
      dsimp only
      cases h : e.text with
      | nil => exact absurd h he
      | cons _ _ => rfl
    rw [ho, if_pos (by simp [isInstance]), hr, if_neg he]
    simp

/-- C145, lines over an iterable of pairs: a pair is refused (with a TypeError) exactly if its line is an instance of a
subclass and its linebreak an empty string that is not an instance of the same subclass. Otherwise the object that is
yielded as the line is the one in the pair, so that it may be an instance of a subclass, although the documentation says
that "lines will only yield str or bytes objects for line"; the lines yielded are numbered without gaps. -/
theorem C145_pairs (sub : C → C → Bool) (b : Bool) (n : Int) (ps : List (Str C α × Str C α)) :
    (linesOver sub b n (ps.map (fun p => Val.pair p.1 p.2))).length = ps.length ∧
    ∀ i (hi : i < ps.length), (linesOver sub b n (ps.map (fun p => Val.pair p.1 p.2)))[i]? =
      some (if refused sub ps[i] then .error .typeError
        else .ok ⟨if ps[i].2.text = [] then ps[i].1 else new (ps[i].1.text ++ ps[i].2.text), n + keptBefore sub ps i,
          ps[i].2, ps[i].1⟩) := by
  have key : ∀ (ps : List (Str C α × Str C α)) (m : Mode) (hm : m ≠ .strings) (n : Int),
      (nexts sub b m n (ps.map (fun p => Val.pair p.1 p.2))).length = ps.length ∧
      ∀ i (hi : i < ps.length), (nexts sub b m n (ps.map (fun p => Val.pair p.1 p.2)))[i]? =
        some (if refused sub ps[i] then .error .typeError
          else .ok ⟨if ps[i].2.text = [] then ps[i].1 else new (ps[i].1.text ++ ps[i].2.text), n + keptBefore sub ps i,
            ps[i].2, ps[i].1⟩) := by
    intro ps
    induction ps with
    | nil => intro m hm n; exact ⟨rfl, fun i hi => absurd hi (Nat.not_lt_zero _)⟩
    | cons p ps ih =>
      intro m hm n
      simp only [List.map_cons, nexts]
      rw [next_pair sub b m hm n p.1 p.2]
      by_cases hr : refused sub (p.1, p.2) = true
      · rw [if_pos hr]
        obtain ⟨h3, h4⟩ := ih .pairs (by decide) n
        refine ⟨by simp [h3], ?_⟩
        intro i hi
        cases i with
        | zero =>
          simp only [List.getElem?_cons_zero, List.getElem_cons_zero]
          rw [if_pos hr]
        | succ i =>
          simp only [List.getElem?_cons_succ, List.getElem_cons_succ]
          rw [h4 i (by simpa using hi)]
          have hr' : refused sub p = true := hr
          have : keptBefore sub (p :: ps) (i + 1) = keptBefore sub ps i := by unfold keptBefore; simp [hr']
          rw [this]
      · rw [if_neg hr]
        obtain ⟨h3, h4⟩ := ih .pairs (by decide) (n + 1)
        refine ⟨by simp [h3], ?_⟩
        intro i hi
        cases i with
        | zero =>
          simp only [List.getElem?_cons_zero, List.getElem_cons_zero]
          rw [if_neg hr]
          simp [keptBefore]
        | succ i =>
          simp only [List.getElem?_cons_succ, List.getElem_cons_succ]
          rw [h4 i (by simpa using hi)]
          have hr' : refused sub p = false := by simpa using hr
          have : keptBefore sub (p :: ps) (i + 1) = keptBefore sub ps i + 1 := by unfold keptBefore; simp [hr']
          rw [this, show n + 1 + (keptBefore sub ps i : Int) = n + ((keptBefore sub ps i + 1 : Nat) : Int) by omega]
  exact key ps .unknown (by decide) n

/-- C145: lines takes what the iterable yields first for an example of all the rest: after a line (even if it is refused)
every pair is refused with a TypeError; and after a pair a string is taken for a pair if it is a str (or an instance of a
subclass) of two characters, which are yielded as a line and a linebreak, and is refused otherwise, with a ValueError or,
if it is bytes of length two, a TypeError. -/
theorem C145_mixed (sub : C → C → Bool) (b : Bool) (n : Int) (v : Val C α) (vs : List (Val C α)) (i : Nat) (w : Val C α)
    (hw : vs[i]? = some w) :
    ((∃ s, v = .line s) → ∀ x y, w = .pair x y → (linesOver sub b n (v :: vs))[i + 1]? = some (.error .typeError)) ∧
    ((∃ x y, v = .pair x y) → ∀ s, w = .line s →
      (s.text.length ≠ 2 → (linesOver sub b n (v :: vs))[i + 1]? = some (.error .valueError)) ∧
      (b = true → s.text.length = 2 → (linesOver sub b n (v :: vs))[i + 1]? = some (.error .typeError)) ∧
      (∀ c d, b = false → s.text = [c, d] → ∃ k, (linesOver sub b n (v :: vs))[i + 1]? =
        some (.ok ⟨new [c, d], k, new [d], new [c]⟩))) := by
  have mode : ∀ (m : Mode) (n : Int) (v : Val C α), m ≠ .unknown → (next sub b m n v).2.1 = m := by
    intro m n v hm
    unfold next
    cases m with
    | unknown => exact absurd rfl hm
    | pairs =>
      cases v with
      | line s =>
        simp only [lineAndEnd]
        cases unpackString b s with
        | error e => rfl
        | ok p => dsimp only; split <;> rfl
      | pair x y => simp only [lineAndEnd]; split <;> rfl
    | strings =>
      cases v with
      | line s => simp only [lineAndEnd]; split <;> rfl
      | pair x y => rfl
  have get : ∀ (vs : List (Val C α)) (m : Mode) (n : Int) (i : Nat) (w : Val C α), m ≠ .unknown → vs[i]? = some w →
      ∃ k, (nexts sub b m n vs)[i]? = some (next sub b m k w).1 := by
    intro vs
    induction vs with
    | nil => intro m n i w _ h; simp at h
    | cons v vs ih =>
      intro m n i w hm h
      cases i with
      | zero =>
        simp only [List.getElem?_cons_zero, Option.some.injEq] at h
        subst h
        exact ⟨n, by simp [nexts]⟩
      | succ i =>
        simp only [List.getElem?_cons_succ] at h
        simp only [nexts, List.getElem?_cons_succ]
        rw [mode m n v hm]
        exact ih m _ i w hm h
  refine ⟨?_, ?_⟩
  · rintro ⟨s, rfl⟩ x y rfl
    obtain ⟨k, hk⟩ := get vs .strings (next sub b .unknown n (.line s)).2.2 i _ (by decide) hw
    unfold linesOver
    simp only [nexts, List.getElem?_cons_succ]
    have : (next sub b .unknown n (.line s)).2.1 = .strings := by
      unfold next; simp only [lineAndEnd]; split <;> rfl
    rw [this, hk]
    rfl
  · rintro ⟨x, y, rfl⟩ s rfl
    obtain ⟨k, hk⟩ := get vs .pairs (next sub b .unknown n (.pair x y)).2.2 i _ (by decide) hw
    unfold linesOver
    simp only [nexts, List.getElem?_cons_succ]
    have : (next sub b .unknown n (.pair x y)).2.1 = .pairs := by
      unfold next; simp only [lineAndEnd]; split <;> rfl
    rw [this, hk]
    refine ⟨?_, ?_, ?_⟩
    · intro hl
      have hu : unpackString b s = .error .valueError := by
        unfold unpackString
        split
        · rename_i c d hs; rw [hs] at hl; simp at hl
        · rfl
      simp only [next, lineAndEnd, hu]
    · intro hb hl
      have hu : unpackString b s = .error .typeError := by
        unfold unpackString
        split
        · simp [hb]
        · rename_i h
          match ht : s.text with
          | [] => rw [ht] at hl; simp at hl
          | [_] => rw [ht] at hl; simp at hl
          | [c, d] => exact absurd ht (h c d)
          | _ :: _ :: _ :: _ => rw [ht] at hl; simp at hl
      simp only [next, lineAndEnd, hu]
    · intro c d hb hs
      have hu : unpackString b s = .ok (new [c], new [d]) := by
        unfold unpackString
        rw [hs]
        simp [hb]
      refine ⟨k, ?_⟩
      simp only [next, lineAndEnd, hu]
      simp [originalLine, isInstance, new]

/-- The cases of C145: lines of both classes; and pairs with an empty linebreak of another class, of the same class, and
not empty. -/
example :
    linesOver (C := Nat) (· == ·) false 1 ([⟨none, ['a']⟩, ⟨some 1, ['b']⟩, ⟨none, ['c']⟩].map Val.line) =
      [.ok ⟨new ['a'], 1, new [], new ['a']⟩, .error .typeError, .ok ⟨new ['c'], 2, new [], new ['c']⟩] ∧
    linesOver (C := Nat) (· == ·) false 1
        [.pair ⟨some 1, ['a']⟩ (new []), .pair ⟨some 1, ['b']⟩ ⟨some 1, []⟩, .pair ⟨some 1, ['c']⟩ (new ['d'])] =
      [.error .typeError, .ok ⟨⟨some 1, ['b']⟩, 1, ⟨some 1, []⟩, ⟨some 1, ['b']⟩⟩,
        .ok ⟨new ['c', 'd'], 2, new ['d'], ⟨some 1, ['c']⟩⟩] ∧
    linesText (C := Nat) (· == ·) false '\n' (fun _ => none) 1 ⟨some 1, ['a', 'b']⟩ [new ['b']] =
      .ok [.ok ⟨new ['a', 'b'], 1, new ['b'], new ['a']⟩, .ok ⟨new [], 2, new [], new []⟩] := by decide +kernel

end Big.Sub
