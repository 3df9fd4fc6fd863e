import Verif.Lines.KwargsModel
import Verif.Lines.Iter
/-! # C148: the keyword arguments of lines -/
namespace Big.LinesKw
open Big.LinesIter (Val Err Out State Mode linesOver nexts emptyOf)

/-! ### Specification -/

/-- Keyword arguments a call can have: each name once, and no name of a parameter. -/
def Given (kw : List (String × Attr)) : Prop :=
  (kw.map Prod.fst).Nodup ∧
  ∀ x ∈ kw, x.1 ∉ ["self", "s", "separators", "line_number", "column_number", "tab_width"]

/-- None of the keyword arguments is called `name`. -/
def Lacks (kw : List (String × Attr)) (name : String) : Prop := ∀ x ∈ kw, x.1 ≠ name

/-- What a call of `__next__` of LinesIter returned or raised, as an outcome here. -/
def lift : Except Err Out → Except KErr Out
  | .ok o => .ok o
  | .error e => .error (.err e)

/-- The first k calls, when `l` is what they return or raise until the iterable ends. -/
def first (k : Nat) (l : List (Except Err Out)) : List (Except KErr Out) :=
  (l.map lift ++ List.replicate k (Except.error KErr.stop)).take k

/-- The first k calls, when each of m calls raises TypeError, and then the iterable has ended. -/
def allRefused (m k : Nat) : List (Except KErr Out) :=
  (List.replicate m (Except.error (KErr.err .typeError)) ++ List.replicate k (Except.error KErr.stop)).take k

/-- The number of lines that were returned. -/
def lineCount : List (Except KErr Out) → Nat
  | [] => 0
  | .ok _ :: l => lineCount l + 1
  | .error _ :: l => lineCount l

/-! ### Lemmas -/

theorem read_eq (d : Dict) {name : String} (h : name ∉ descriptors) : read d name = d name := by simp [read, h]

theorem read_i (d : Dict) : read d "i" = d "i" := read_eq d (by decide)
theorem read_is_pairs (d : Dict) : read d "is_pairs" = d "is_pairs" := read_eq d (by decide)
theorem read_s_is_bytes (d : Dict) : read d "s_is_bytes" = d "s_is_bytes" := read_eq d (by decide)
theorem read_line_number (d : Dict) : read d "line_number" = d "line_number" := read_eq d (by decide)
theorem read_column_number (d : Dict) : read d "column_number" = d "column_number" := read_eq d (by decide)

theorem set_ne (d : Dict) {name x : String} (a : Attr) (h : x ≠ name) : set d name a x = d x := by simp [set, h]
theorem set_same (d : Dict) (name : String) (a : Attr) : set d name a name = some a := by simp [set]

theorem update_lacks (kw : List (String × Attr)) (d : Dict) (name : String) (h : Lacks kw name) :
    update d kw name = d name := by
  induction kw generalizing d with
  | nil => rfl
  | cons x kw ih =>
    obtain ⟨y, a⟩ := x
    rw [update, ih _ (fun z hz => h z (by simp [hz])), set_ne]
    exact fun e => h (y, a) (by simp) e.symm

theorem update_mem (kw : List (String × Attr)) (d : Dict) (name : String) (a : Attr) (hn : (kw.map Prod.fst).Nodup)
    (h : (name, a) ∈ kw) : update d kw name = some a := by
  induction kw generalizing d with
  | nil => simp at h
  | cons x kw ih =>
    obtain ⟨y, b⟩ := x
    simp only [List.map_cons, List.nodup_cons] at hn
    rw [update]
    rcases List.mem_cons.1 h with h | h
    · cases h
      rw [update_lacks, set_same]
      intro z hz e
      exact hn.1 (by rw [← e]; exact List.mem_map_of_mem hz)
    · exact ih _ hn.2 h

/-- The names that `__next__` writes. -/
def written : List String := ["i", "is_pairs", "s_is_bytes", "line_number"]

theorem count_frame (d : Dict) (x : String) (h : x ∉ written) : count d x = d x := by
  simp only [written, List.mem_cons, List.not_mem_nil, or_false, not_or] at h
  unfold count
  cases read d "line_number" with
  | none => rfl
  | some a =>
    cases a with
    | int n => exact set_ne _ _ h.2.2.2
    | _ => rfl

theorem lineAndEnd_frame (d : Dict) (v : Val) (x : String) (h : x ∉ written) : (lineAndEnd d v).2 x = d x := by
  simp only [written, List.mem_cons, List.not_mem_nil, or_false, not_or] at h
  obtain ⟨h1, h2, h3, h4⟩ := h
  simp only [lineAndEnd]
  repeat' split
  all_goals simp [set, h2, h3]

theorem next_frame (d : Dict) (x : String) (h : x ∉ written) : (next d).2 x = d x := by
  have hi : x ≠ "i" := by intro e; apply h; rw [e]; decide
  unfold next nextValue
  cases hr : read d "i" with
  | none => rfl
  | some a =>
    cases a with
    | val v => rfl
    | int n => rfl
    | fn f => rfl
    | iter l =>
      cases l with
      | nil => rfl
      | cons v vs =>
        dsimp only
        have := lineAndEnd_frame (set d "i" (.iter vs)) v x h
        rw [set_ne _ _ hi] at this
        cases hl : lineAndEnd (set d "i" (.iter vs)) v with
        | mk r d' =>
          rw [hl] at this
          cases r with
          | error e => exact this
          | ok p =>
            obtain ⟨a, e⟩ := p
            dsimp only at this ⊢
            cases output d' a e with
            | error e => exact this
            | ok o => dsimp only; rw [count_frame _ _ h]; exact this

theorem after_frame (d : Dict) (x : String) (h : x ∉ written) (k : Nat) : after d k x = d x := by
  induction k generalizing d with
  | zero => rfl
  | succ k ih => rw [after, ih, next_frame d x h]

/-- The names that `__next__` reads or writes. -/
def names : List String := "column_number" :: written

/-- Two objects have the same values of what `__next__` reads. -/
def Agree (d d' : Dict) : Prop := ∀ x ∈ names, d x = d' x

theorem Agree.set {d d' : Dict} (h : Agree d d') (x : String) (a : Attr) : Agree (set d x a) (set d' x a) := by
  intro y hy
  simp only [LinesKw.set]
  split
  · rfl
  · exact h y hy

theorem Agree.read {d d' : Dict} (h : Agree d d') {x : String} (hx : x ∈ names) : read d x = read d' x := by
  simp only [LinesKw.read, h x hx]

theorem lineAndEnd_congr {d d' : Dict} (h : Agree d d') (v : Val) :
    (lineAndEnd d v).1 = (lineAndEnd d' v).1 ∧ Agree (lineAndEnd d v).2 (lineAndEnd d' v).2 := by
  have e1 := h.read (x := "is_pairs") (by decide)
  have hs : ∀ (x : String) (a : Attr), read (set d x a) "s_is_bytes" = read (set d' x a) "s_is_bytes" :=
    fun x a => (h.set x a).read (by decide)
  have hss : ∀ (x y : String) (a b : Attr), read (set (set d x a) y b) "s_is_bytes" =
      read (set (set d' x a) y b) "s_is_bytes" := fun x y a b => ((h.set x a).set y b).read (by decide)
  unfold lineAndEnd
  rw [← e1]
  cases read d "is_pairs" with
  | none => exact ⟨rfl, h⟩
  | some p =>
    dsimp only
    by_cases hp : p.truthy = true
    · rw [if_pos hp, if_pos hp]
      cases LinesIter.unpack v <;> exact ⟨rfl, h⟩
    · rw [if_neg hp, if_neg hp]
      by_cases hn : (!p.isNone) = true
      · rw [if_pos hn, if_pos hn]
        exact ⟨rfl, h⟩
      · rw [if_neg hn, if_neg hn]
        cases v with
        | seq l =>
          dsimp only
          rw [← hs]
          repeat' split
          all_goals first
            | exact ⟨rfl, (h.set _ _).set _ _⟩
            | exact ⟨rfl, h.set _ _⟩
        | _ =>
          dsimp only
          rw [← hs]
          cases read (set d "is_pairs" (.val (.other false))) "s_is_bytes" with
          | none => exact ⟨rfl, h.set _ _⟩
          | some b =>
            dsimp only
            by_cases hb : b.isNone = true
            · simp only [if_pos hb]
              rw [← hss]
              split
              · exact ⟨rfl, (h.set _ _).set _ _⟩
              · exact ⟨rfl, ((h.set _ _).set _ _).set _ _⟩
            · simp only [if_neg hb]
              rw [← hs]
              split
              · exact ⟨rfl, h.set _ _⟩
              · exact ⟨rfl, (h.set _ _).set _ _⟩

theorem output_congr {d d' : Dict} (h : Agree d d') (a e : Val) : output d a e = output d' a e := by
  unfold output original
  rw [h.read (x := "is_pairs") (by decide), h.read (x := "line_number") (by decide),
    h.read (x := "column_number") (by decide)]

theorem count_congr {d d' : Dict} (h : Agree d d') : Agree (count d) (count d') := by
  unfold count
  rw [← h.read (x := "line_number") (by decide)]
  split
  · exact h.set _ _
  · exact h

theorem next_congr {d d' : Dict} (h : Agree d d') : (next d).1 = (next d').1 ∧ Agree (next d).2 (next d').2 := by
  unfold next nextValue
  rw [← h.read (x := "i") (by decide)]
  cases read d "i" with
  | none => exact ⟨rfl, h⟩
  | some a =>
    cases a with
    | val v => exact ⟨rfl, h⟩
    | int n => exact ⟨rfl, h⟩
    | fn f => exact ⟨rfl, h⟩
    | iter l =>
      cases l with
      | nil => exact ⟨rfl, h⟩
      | cons v vs =>
        dsimp only
        obtain ⟨g1, g2⟩ := lineAndEnd_congr (h.set "i" (.iter vs)) v
        cases hl : lineAndEnd (set d "i" (.iter vs)) v with
        | mk r e =>
          cases hl' : lineAndEnd (set d' "i" (.iter vs)) v with
          | mk r' e' =>
            rw [hl, hl'] at g1 g2
            dsimp only at g1 g2
            subst g1
            cases r with
            | error x => exact ⟨rfl, g2⟩
            | ok p =>
              dsimp only
              rw [← output_congr g2]
              cases output e p.1 p.2 with
              | error x => exact ⟨rfl, g2⟩
              | ok o => exact ⟨rfl, count_congr g2⟩

theorem calls_congr {d d' : Dict} (h : Agree d d') (k : Nat) : calls d k = calls d' k := by
  induction k generalizing d d' with
  | zero => rfl
  | succ k ih => rw [calls, calls, (next_congr h).1, ih (next_congr h).2]

/-- The object stands for a state of LinesIter. -/
structure Stands (d : Dict) (c : Int) (σ : State) (rest : List Val) : Prop where
  i : d "i" = some (.iter rest)
  number : d "line_number" = some (.int σ.lineNumber)
  column : d "column_number" = some (.int c)
  bytes : ∃ x, d "s_is_bytes" = some x ∧ (σ.mode = .unknown → x.isNone = true)
  pairs : ∃ p, d "is_pairs" = some p ∧
    match σ.mode with
    | .unknown => p.isNone = true
    | .pairs => p.truthy = true
    | .strings b => p = .val (emptyOf b)

theorem stands_output {d : Dict} {c : Int} {m : Mode} {k : Int} {vs : List Val} (h : Stands d c ⟨m, k⟩ vs)
    (hm : m ≠ .unknown) (a e : Val) (he : ∀ b, m = .strings b → e.truthy = false) :
    (match output d a e with
      | .error x => (Except.error x, d)
      | .ok o => (.ok o, count d)).1 =
      lift (match (if m = .pairs ∧ e.truthy then LinesIter.add a e else .ok a) with
        | .error x => .error x
        | .ok w => match LinesIter.lineInfo w e with
          | .error x => .error x
          | .ok e' => .ok ⟨w, k, c, e', a⟩) ∧
    Stands (match output d a e with
      | .error x => (Except.error x, d)
      | .ok o => (.ok o, count d)).2 c
      (match (if m = .pairs ∧ e.truthy then LinesIter.add a e else .ok a) with
        | .error _ => ⟨m, k⟩
        | .ok w => match LinesIter.lineInfo w e with
          | .error _ => ⟨m, k⟩
          | .ok _ => ⟨m, k + 1⟩) vs := by
  obtain ⟨p, hp, hpm⟩ := h.pairs
  have ho : original d a e =
      (match (if m = .pairs ∧ e.truthy then LinesIter.add a e else .ok a) with
        | .error x => .error (.err x)
        | .ok w => .ok w) := by
    unfold original
    rw [read_is_pairs, hp]
    dsimp only at hpm ⊢
    cases m with
    | unknown => exact absurd rfl hm
    | pairs =>
      dsimp only at hpm
      rw [hpm]
      cases e.truthy with
      | false => simp
      | true =>
        simp only [Bool.and_self, if_true, and_self]
        cases LinesIter.add a e <;> rfl
    | strings b =>
      rw [he b rfl]
      simp
  unfold output
  rw [ho, read_line_number, h.number, read_column_number, h.column]
  cases (if m = .pairs ∧ e.truthy then LinesIter.add a e else .ok a) with
  | error x => exact ⟨rfl, h⟩
  | ok w =>
    dsimp only
    cases LinesIter.lineInfo w e with
    | error x => exact ⟨rfl, h⟩
    | ok e' =>
      refine ⟨rfl, ?_⟩
      dsimp only
      have hc : count d = set d "line_number" (.int (k + 1)) := by
        unfold count; rw [read_line_number, h.number]
      rw [hc]
      obtain ⟨x, hx, hx'⟩ := h.bytes
      exact ⟨by rw [set_ne _ _ (by decide)]; exact h.i, set_same _ _ _,
        by rw [set_ne _ _ (by decide)]; exact h.column,
        ⟨x, by rw [set_ne _ _ (by decide)]; exact hx, hx'⟩,
        ⟨p, by rw [set_ne _ _ (by decide)]; exact hp, hpm⟩⟩

theorem next_of_lineAndEnd (d : Dict) (c : Int) (σ : State) (v : Val) (vs : List Val)
    (hi : d "i" = some (.iter (v :: vs)))
    (h : (lineAndEnd (set d "i" (.iter vs)) v).1 = (LinesIter.lineAndEnd σ.mode v).1.mapError KErr.err)
    (hs : Stands (lineAndEnd (set d "i" (.iter vs)) v).2 c ⟨(LinesIter.lineAndEnd σ.mode v).2, σ.lineNumber⟩ vs)
    (hm : ∀ r, (LinesIter.lineAndEnd σ.mode v).1 = .ok r → (LinesIter.lineAndEnd σ.mode v).2 ≠ .unknown ∧
      ∀ b, (LinesIter.lineAndEnd σ.mode v).2 = .strings b → r.2.truthy = false) :
    (next d).1 = lift (LinesIter.next c σ v).1 ∧ Stands (next d).2 c (LinesIter.next c σ v).2 vs := by
  unfold next nextValue LinesIter.next
  rw [read_i, hi]
  dsimp only
  cases hl : lineAndEnd (set d "i" (.iter vs)) v with
  | mk r e =>
    rw [hl] at h hs
    dsimp only at h hs
    cases hr : (LinesIter.lineAndEnd σ.mode v).1 with
    | error x =>
      rw [hr] at h
      subst h
      exact ⟨rfl, hs⟩
    | ok q =>
      rw [hr] at h
      subst h
      obtain ⟨a, b⟩ := q
      obtain ⟨g1, g2⟩ := hm _ hr
      have := stands_output hs g1 a b g2
      refine ⟨?_, ?_⟩
      · refine this.1.trans ?_
        dsimp only
        congr 1
        repeat' split
        all_goals simp_all
      · refine (congrArg (Stands _ c · vs) ?_).mp this.2
        dsimp only
        repeat' split
        all_goals simp_all

theorem stands_next {d : Dict} {c : Int} {σ : State} {v : Val} {vs : List Val} (h : Stands d c σ (v :: vs)) :
    (next d).1 = lift (LinesIter.next c σ v).1 ∧ Stands (next d).2 c (LinesIter.next c σ v).2 vs := by
  obtain ⟨m, k⟩ := σ
  obtain ⟨p, hp, hpm⟩ := h.pairs
  obtain ⟨x, hx, hxm⟩ := h.bytes
  have hn := h.number
  have hc := h.column
  have hp' : set d "i" (.iter vs) "is_pairs" = some p := by rw [set_ne _ _ (by decide), hp]
  have hx' : set d "i" (.iter vs) "s_is_bytes" = some x := by rw [set_ne _ _ (by decide), hx]
  have hset : Stands (set d "i" (.iter vs)) c ⟨m, k⟩ vs :=
    ⟨set_same _ _ _, by rw [set_ne _ _ (by decide)]; exact hn, by rw [set_ne _ _ (by decide)]; exact hc,
      ⟨x, hx', hxm⟩, ⟨p, hp', hpm⟩⟩
  have hnone : ∀ y : Attr, y.isNone = true → y = .val .none := by
    intro y hy
    cases y with
    | val v => cases v <;> first | rfl | cases hy
    | _ => cases hy
  cases m with
  | pairs =>
    dsimp only at hpm
    have he : lineAndEnd (set d "i" (.iter vs)) v = ((LinesIter.unpack v).mapError KErr.err, set d "i" (.iter vs)) := by
      unfold lineAndEnd
      rw [read_is_pairs, hp']
      dsimp only
      rw [if_pos hpm]
      cases LinesIter.unpack v <;> rfl
    apply next_of_lineAndEnd d c _ v vs h.i
    · rw [he]; rfl
    · rw [he]; exact hset
    · intro r _
      exact ⟨by simp [LinesIter.lineAndEnd], by simp [LinesIter.lineAndEnd]⟩
  | strings b =>
    dsimp only at hpm
    have he : lineAndEnd (set d "i" (.iter vs)) v = (.ok (v, emptyOf b), set d "i" (.iter vs)) := by
      unfold lineAndEnd
      rw [read_is_pairs, hp', hpm]
      cases b <;> rfl
    apply next_of_lineAndEnd d c _ v vs h.i
    · rw [he]; rfl
    · rw [he]; exact hset
    · intro r hr
      simp only [LinesIter.lineAndEnd, Except.ok.injEq] at hr
      refine ⟨by simp [LinesIter.lineAndEnd], ?_⟩
      intro b' _
      rw [← hr]
      cases b <;> rfl
  | unknown =>
    dsimp only at hpm hxm
    have hp0 := hnone _ hpm
    have hx0 := hnone _ (hxm rfl)
    subst hp0
    subst hx0
    have hb : ∀ a : Attr, set (set d "i" (.iter vs)) "is_pairs" a "s_is_bytes" = some (.val .none) := by
      intro a; rw [set_ne _ _ (by decide), hx']
    have hfin : ∀ (a q : Attr) (m : Mode), m ≠ .unknown →
        (match m with | .unknown => q.isNone = true | .pairs => q.truthy = true | .strings b => q = .val (emptyOf b)) →
        ∀ e : Dict, e "i" = some (.iter vs) → e "line_number" = some (.int k) → e "column_number" = some (.int c) →
          e "s_is_bytes" = some a → e "is_pairs" = some q → Stands e c ⟨m, k⟩ vs := by
      intro a q m hm hq e e1 e2 e3 e4 e5
      exact ⟨e1, e2, e3, ⟨a, e4, fun h => absurd h hm⟩, ⟨q, e5, hq⟩⟩
    have hp0 : (Attr.val Val.none).truthy = false := rfl
    have hp1 : (Attr.val Val.none).isNone = true := rfl
    apply next_of_lineAndEnd d c _ v vs h.i
    · unfold lineAndEnd
      rw [read_is_pairs, hp']
      dsimp only
      rw [if_neg (by rw [hp0]; decide), if_neg (by rw [hp1]; decide)]
      simp only [read_s_is_bytes, hb]
      cases v with
      | seq l =>
        simp only [LinesIter.lineAndEnd]
        rcases l with _ | ⟨a, _ | ⟨b, _ | ⟨c, l⟩⟩⟩ <;> rfl
      | _ =>
        simp only [hp1, if_true, set_same]
        rfl
    · unfold lineAndEnd
      rw [read_is_pairs, hp']
      dsimp only
      rw [if_neg (by rw [hp0]; decide), if_neg (by rw [hp1]; decide)]
      simp only [read_s_is_bytes, hb]
      cases v with
      | seq l =>
        simp only [LinesIter.lineAndEnd]
        rcases l with _ | ⟨a, _ | ⟨b, _ | ⟨c', l⟩⟩⟩
        case cons.cons.nil =>
          simp only [hp1, if_true]
          apply hfin (.val (.other (LinesIter.isBytes a))) (.val (.other true)) .pairs (by decide) rfl <;>
            simp [set, hn, hc]
        all_goals
          apply hfin (.val .none) (.val (.other true)) .pairs (by decide) rfl <;>
            simp [set, hn, hc, hx]
      | bytes t =>
        simp only [hp1, if_true, set_same]
        refine hfin (.val (.other true)) (.val (emptyOf true)) (.strings true) (by simp) rfl _ ?_ ?_ ?_ ?_ ?_ <;>
          simp [set, hn, hc, Attr.truthy, Val.truthy, LinesIter.isBytes, emptyOf]
      | _ =>
        simp only [hp1, if_true, set_same]
        refine hfin (.val (.other false)) (.val (emptyOf false)) (.strings false) (by simp) rfl _ ?_ ?_ ?_ ?_ ?_ <;>
          simp [set, hn, hc, Attr.truthy, Val.truthy, LinesIter.isBytes, emptyOf]
    · intro r hr
      cases v with
      | seq l =>
        simp only [LinesIter.lineAndEnd] at hr ⊢
        rcases l with _ | ⟨a, _ | ⟨b, _ | ⟨c', l⟩⟩⟩ <;> simp at hr ⊢
      | _ =>
        simp only [LinesIter.lineAndEnd, Except.ok.injEq] at hr
        simp only [LinesIter.lineAndEnd]
        subst hr
        exact ⟨by simp, fun _ _ => by simp [LinesIter.isBytes, emptyOf, Val.truthy]⟩

theorem next_end {d : Dict} (h : d "i" = some (.iter [])) : next d = (.error .stop, d) := by
  unfold next nextValue
  rw [read_i, h]

theorem calls_end {d : Dict} (h : d "i" = some (.iter [])) (k : Nat) :
    calls d k = List.replicate k (.error .stop) := by
  induction k with
  | zero => rfl
  | succ k ih => rw [calls, next_end h, ih, List.replicate_succ]

theorem calls_stands {d : Dict} {c : Int} {σ : State} {vs : List Val} (h : Stands d c σ vs) (k : Nat) :
    calls d k = first k (nexts c σ vs) := by
  induction k generalizing d σ vs with
  | zero => simp [calls, first]
  | succ k ih =>
    cases vs with
    | nil => rw [calls_end h.i]; simp [first, nexts]
    | cons v vs =>
      have := stands_next h
      rw [calls, this.1, ih this.2]
      simp only [nexts, first, List.map_cons, List.cons_append, List.take_succ_cons, List.cons.injEq, true_and]
      rw [List.take_append, List.take_append]
      congr 1
      simp only [List.length_map, List.take_replicate]
      congr 1
      omega

theorem update_given {kw : List (String × Attr)} (h : Given kw) (d : Dict) (x : String)
    (hx : x ∈ ["self", "s", "separators", "line_number", "column_number", "tab_width"]) : update d kw x = d x := by
  apply update_lacks
  intro y hy e
  exact h.2 y hy (by rw [e]; exact hx)

theorem init_ok {src : Src} {seps : Val} {n c w : Int} {kw : List (String × Attr)} {d : Dict}
    (h : init src seps n c w kw = .ok d) : ∃ b, base src seps n c w = .ok b ∧ d = update b kw := by
  unfold init at h
  cases hb : base src seps n c w with
  | error e => rw [hb] at h; cases h
  | ok b => rw [hb] at h; cases h; exact ⟨b, rfl, rfl⟩

/-- What is set before the keyword arguments are. -/
theorem base_ok {src : Src} {seps : Val} {n c w : Int} {b : Dict} (h : base src seps n c w = .ok b) :
    b "line_number" = some (.int n) ∧ b "column_number" = some (.int c) ∧ b "tab_width" = some (.int w) ∧
    b "s" = some (.val src.argument) ∧ b "separators" = some (.val seps) ∧
    match src with
    | .text x _ ps => b "i" = some (.iter ps) ∧ b "is_pairs" = some (.val (.other true)) ∧
        b "s_is_bytes" = some (.val (.other x))
    | .iterable _ vs => b "i" = some (.iter vs) ∧ b "is_pairs" = some (.val .none) ∧ b "s_is_bytes" = some (.val .none) := by
  unfold base at h
  cases src with
  | text x s ps =>
    cases h
    simp [set, Src.argument]
  | iterable s vs =>
    cases seps with
    | none => cases h; simp [set, Src.argument]
    | _ => cases h

/-! ### C148 -/

/-- C148: keyword arguments other than i, is_pairs and s_is_bytes make no difference to whether lines(...) raises, and to
what any number of calls of `__next__` return or raise. -/
theorem C148_harmless (src : Src) (seps : Val) (n c w : Int) (kw : List (String × Attr)) (hg : Given kw)
    (hi : Lacks kw "i") (hp : Lacks kw "is_pairs") (hb : Lacks kw "s_is_bytes") (k : Nat) :
    (init src seps n c w kw).map (calls · k) = (init src seps n c w []).map (calls · k) := by
  unfold init
  cases base src seps n c w with
  | error e => rfl
  | ok b =>
    simp only [Except.map, Except.ok.injEq]
    apply calls_congr
    intro x hx
    simp only [names, written, List.mem_cons, List.not_mem_nil, or_false] at hx
    rcases hx with rfl | rfl | rfl | rfl | rfl
    · exact update_given hg _ _ (by decide)
    · exact update_lacks _ _ _ hi
    · exact update_lacks _ _ _ hp
    · exact update_lacks _ _ _ hb
    · exact update_given hg _ _ (by decide)

/-- C148: lines(...) raises ValueError iff s is an iterable and separators are given, whatever the keyword arguments, and no
other exception. -/
theorem C148_separators (src : Src) (seps : Val) (n c w : Int) (kw : List (String × Attr)) :
    ((∃ s vs, src = .iterable s vs) ∧ seps ≠ Val.none → init src seps n c w kw = .error (.err .valueError)) ∧
    (¬ ((∃ s vs, src = .iterable s vs) ∧ seps ≠ Val.none) → ∃ d, init src seps n c w kw = .ok d) := by
  cases src with
  | text b s ps => exact ⟨fun h => (by simp at h), fun _ => ⟨_, rfl⟩⟩
  | iterable s vs =>
    by_cases hs : seps = Val.none
    · subst hs
      exact ⟨fun h => absurd rfl h.2, fun _ => ⟨_, rfl⟩⟩
    · refine ⟨fun _ => ?_, fun h => absurd ⟨⟨s, vs, rfl⟩, hs⟩ h⟩
      cases seps <;> first | rfl | exact absurd rfl hs

/-- C148: then lines over an iterable does what C83 says of it, and raises StopIteration from the end of the iterable on. -/
theorem C148_iterable (s : Val) (vs : List Val) (n c w : Int) (kw : List (String × Attr)) (hg : Given kw)
    (hi : Lacks kw "i") (hp : Lacks kw "is_pairs") (hb : Lacks kw "s_is_bytes") (k : Nat) :
    ∃ d, init (.iterable s vs) .none n c w kw = .ok d ∧ calls d k = first k (linesOver n c vs) := by
  refine ⟨_, rfl, ?_⟩
  apply calls_stands
  have hb := base_ok (src := .iterable s vs) (seps := .none) (n := n) (c := c) (w := w) rfl
  refine ⟨?_, ?_, ?_, ⟨.val .none, ?_, fun _ => rfl⟩, ⟨.val .none, ?_, rfl⟩⟩
  · rw [update_lacks _ _ _ hi]; exact hb.2.2.2.2.2.1
  · rw [update_given hg _ _ (by decide)]; exact hb.1
  · rw [update_given hg _ _ (by decide)]; exact hb.2.1
  · rw [update_lacks _ _ _ ‹_›]; exact hb.2.2.2.2.2.2.2
  · rw [update_lacks _ _ _ hp]; exact hb.2.2.2.2.2.2.1

/-- C148: keyword arguments stay readable as attributes of the lines object (so as attributes of info.lines), whatever
number of calls of `__next__` there has been: all but i, is_pairs and s_is_bytes, and the names that Python reserves. -/
theorem C148_readable {src : Src} {seps : Val} {n c w : Int} {kw : List (String × Attr)} {d : Dict}
    (h : init src seps n c w kw = .ok d) (hg : Given kw) (name : String) (a : Attr) (ha : (name, a) ∈ kw)
    (hn : name ∉ ["i", "is_pairs", "s_is_bytes"]) (hd : name ∉ ["__class__", "__dict__", "__weakref__"]) (k : Nat) :
    read (after d k) name = some a := by
  obtain ⟨b, hb, rfl⟩ := init_ok h
  have hw : name ∉ written := by
    have := hg.2 _ ha
    simp [written] at hn this ⊢
    simp [hn, this]
  rw [read_eq _ hd, after_frame _ _ hw, update_mem _ _ _ _ hg.1 ha]

/-- C148: s, separators, column_number and tab_width stay readable as well, whatever the keyword arguments. -/
theorem C148_parameters {src : Src} {seps : Val} {n c w : Int} {kw : List (String × Attr)} {d : Dict}
    (h : init src seps n c w kw = .ok d) (hg : Given kw) (k : Nat) :
    read (after d k) "tab_width" = some (.int w) ∧ read (after d k) "column_number" = some (.int c) ∧
    read (after d k) "separators" = some (.val seps) ∧
    read (after d k) "s" = some (.val src.argument) := by
  obtain ⟨b, hb, rfl⟩ := init_ok h
  obtain ⟨h1, h2, h3, h4, h5, _⟩ := base_ok hb
  refine ⟨?_, ?_, ?_, ?_⟩ <;>
    rw [read_eq _ (by decide), after_frame _ _ (by decide), update_given hg _ _ (by decide)] <;> assumption

/-- C148: line_number is, whatever the keyword arguments, the first number plus the number of lines returned so far. -/
theorem C148_line_number {src : Src} {seps : Val} {n c w : Int} {kw : List (String × Attr)} {d : Dict}
    (h : init src seps n c w kw = .ok d) (hg : Given kw) (k : Nat) :
    read (after d k) "line_number" = some (.int (n + lineCount (calls d k))) := by
  have step : ∀ (d : Dict) (m : Int), d "line_number" = some (.int m) →
      (next d).2 "line_number" = some (.int (m + lineCount [(next d).1])) := by
    intro d m hm
    have hl : ∀ (e : Dict) (v : Val), (lineAndEnd e v).2 "line_number" = e "line_number" := by
      intro e v
      simp only [lineAndEnd]
      repeat' split
      all_goals simp [set]
    unfold next nextValue
    cases hr : read d "i" with
    | none => simpa [lineCount] using hm
    | some a =>
      cases a with
      | val v => simpa [lineCount] using hm
      | int n => simpa [lineCount] using hm
      | fn f => simpa [lineCount] using hm
      | iter l =>
        cases l with
        | nil => simpa [lineCount] using hm
        | cons v vs =>
          dsimp only
          have := hl (set d "i" (.iter vs)) v
          rw [set_ne _ _ (by decide), hm] at this
          cases hl : lineAndEnd (set d "i" (.iter vs)) v with
          | mk r e =>
            rw [hl] at this
            dsimp only at this
            cases r with
            | error x => simpa [lineCount] using this
            | ok p =>
              dsimp only
              cases output e p.1 p.2 with
              | error x => simpa [lineCount] using this
              | ok o =>
                dsimp only
                unfold count
                rw [read_line_number, this]
                simp [set, lineCount]
  have hs : ∀ (x : Except KErr Out) (l : List (Except KErr Out)), lineCount (x :: l) = lineCount [x] + lineCount l := by
    intro x l
    cases x <;> simp [lineCount, Nat.add_comm]
  have key : ∀ (k : Nat) (d : Dict) (m : Int), d "line_number" = some (.int m) →
      after d k "line_number" = some (.int (m + lineCount (calls d k))) := by
    intro k
    induction k with
    | zero => intro d m hm; simpa [after, calls, lineCount] using hm
    | succ k ih =>
      intro d m hm
      rw [after, ih _ _ (step d m hm), calls]
      have := hs (next d).1 (calls (next d).2 k)
      simp only [Option.some.injEq, Attr.int.injEq]
      omega
  obtain ⟨b, hb, rfl⟩ := init_ok h
  rw [read_line_number]
  apply key
  rw [update_given hg _ _ (by decide)]
  exact (base_ok hb).1

/-- C148: `detab` is the method unless a keyword argument has its name; that argument is called instead. -/
theorem C148_detab (expandtabs : Int → Val → Except Err Val) {src : Src} {seps : Val} {n c w : Int}
    {kw : List (String × Attr)} {d : Dict} (h : init src seps n c w kw = .ok d) (hg : Given kw) (k : Nat) (s : Val) :
    (Lacks kw "detab" → detab expandtabs (after d k) s = (expandtabs w s).mapError .err) ∧
    (∀ f, ("detab", Attr.fn f) ∈ kw → detab expandtabs (after d k) s = (f s).mapError .err) ∧
    (∀ a, ("detab", a) ∈ kw → (∀ f, a ≠ .fn f) → detab expandtabs (after d k) s = .error (.err .typeError)) := by
  obtain ⟨b, hb, rfl⟩ := init_ok h
  have hnone : b "detab" = none := by
    unfold base at hb
    cases src with
    | text x s ps => cases hb; simp [set]
    | iterable s vs => cases seps <;> cases hb; simp [set]
  refine ⟨?_, ?_, ?_⟩
  · intro hl
    unfold detab
    rw [read_eq _ (by decide), after_frame _ _ (by decide), update_lacks _ _ _ hl, hnone]
    dsimp only
    rw [(C148_parameters (kw := kw) (d := update b kw) h hg k).1]
  · intro f hf
    unfold detab
    rw [C148_readable h hg "detab" _ hf (by decide) (by decide) k]
  · intro a ha hf
    unfold detab
    rw [C148_readable h hg "detab" _ ha (by decide) (by decide) k]
    cases a with
    | fn f => exact absurd rfl (hf f)
    | _ => rfl

/-- An object over a text, and what its attributes are before the first call. -/
theorem text_start {x : Bool} {s : Val} {ps : List Val} {seps : Val} {n c w : Int} {kw : List (String × Attr)}
    (hg : Given kw) : ∃ b, init (.text x s ps) seps n c w kw = .ok (update b kw) ∧
      b "i" = some (.iter ps) ∧ b "is_pairs" = some (.val (.other true)) ∧ b "s_is_bytes" = some (.val (.other x)) ∧
      update b kw "line_number" = some (.int n) ∧ update b kw "column_number" = some (.int c) := by
  have hb := base_ok (src := .text x s ps) (seps := seps) (n := n) (c := c) (w := w) rfl
  refine ⟨_, rfl, hb.2.2.2.2.2.1, hb.2.2.2.2.2.2.1, hb.2.2.2.2.2.2.2, ?_, ?_⟩
  · rw [update_given hg _ _ (by decide)]; exact hb.1
  · rw [update_given hg _ _ (by decide)]; exact hb.2.1

theorem iterable_start {s : Val} {vs : List Val} {n c w : Int} {kw : List (String × Attr)}
    (hg : Given kw) : ∃ b, init (.iterable s vs) .none n c w kw = .ok (update b kw) ∧
      b "i" = some (.iter vs) ∧ b "is_pairs" = some (.val .none) ∧ b "s_is_bytes" = some (.val .none) ∧
      update b kw "line_number" = some (.int n) ∧ update b kw "column_number" = some (.int c) := by
  have hb := base_ok (src := .iterable s vs) (seps := .none) (n := n) (c := c) (w := w) rfl
  refine ⟨_, rfl, hb.2.2.2.2.2.1, hb.2.2.2.2.2.2.1, hb.2.2.2.2.2.2.2, ?_, ?_⟩
  · rw [update_given hg _ _ (by decide)]; exact hb.1
  · rw [update_given hg _ _ (by decide)]; exact hb.2.1

/-- A line with its linebreak, as multisplit yields it for a str or bytes object. -/
inductive IsSplit : Bool → Val → Val → Val → Val → Prop
  | str (a e : List Char) : IsSplit false (.seq [.str a, .str e]) (.str a) (.str e) (.str (a ++ e))
  | bytes (a e : List UInt8) : IsSplit true (.seq [.bytes a, .bytes e]) (.bytes a) (.bytes e) (.bytes (a ++ e))

theorem pairs_nexts (x : Bool) (n c : Int) (ps : List Val) (h : ∀ v ∈ ps, ∃ a e t, IsSplit x v a e t)
    (i : Nat) (v a e t : Val) (hv : ps[i]? = some v) (hs : IsSplit x v a e t) :
    (nexts c ⟨.pairs, n⟩ ps)[i]? = some (.ok ⟨t, n + i, c, e, a⟩) := by
  have step : ∀ (n : Int) (v a e t : Val), IsSplit x v a e t →
      LinesIter.next c ⟨.pairs, n⟩ v = (.ok ⟨t, n, c, e, a⟩, ⟨.pairs, n + 1⟩) := by
    intro n v a e t hs
    cases hs with
    | str a e => cases e <;> simp [LinesIter.next, LinesIter.lineAndEnd, LinesIter.unpack, LinesIter.elements, Val.truthy,
        LinesIter.add, LinesIter.lineInfo]
    | bytes a e => cases e <;> simp [LinesIter.next, LinesIter.lineAndEnd, LinesIter.unpack, LinesIter.elements, Val.truthy,
        LinesIter.add, LinesIter.lineInfo]
  induction ps generalizing n i with
  | nil => simp at hv
  | cons p ps ih =>
    obtain ⟨a', e', t', hp⟩ := h p (by simp)
    rw [nexts, step n p a' e' t' hp]
    cases i with
    | zero =>
      simp only [List.getElem?_cons_zero, Option.some.injEq] at hv
      subst hv
      simp only [List.getElem?_cons_zero, Option.some.injEq]
      have : a' = a ∧ e' = e ∧ t' = t := by cases hp <;> cases hs <;> exact ⟨rfl, rfl, rfl⟩
      obtain ⟨rfl, rfl, rfl⟩ := this
      simp
    | succ i =>
      simp only [List.getElem?_cons_succ] at hv ⊢
      rw [ih (n + 1) (fun v hv => h v (by simp [hv])) i hv,
        show n + 1 + (i : Int) = n + ((i + 1 : Nat) : Int) by omega]

/-- C148: whatever the other keyword arguments, lines over a str or bytes object yields its lines, with their linebreaks
in info.line, as long as neither i nor is_pairs is a keyword argument: s_is_bytes makes no difference there. -/
theorem C148_text (x : Bool) (s : Val) (ps : List Val) (seps : Val) (n c w : Int) (kw : List (String × Attr))
    (hg : Given kw) (hi : Lacks kw "i") (hp : Lacks kw "is_pairs")
    (h : ∀ v ∈ ps, ∃ a e t, IsSplit x v a e t) (k : Nat) :
    ∃ d, init (.text x s ps) seps n c w kw = .ok d ∧
      (calls d k).length = k ∧
      (∀ (i : Nat) (v a e t : Val), i < k → ps[i]? = some v → IsSplit x v a e t →
        (calls d k)[i]? = some (.ok ⟨t, n + i, c, e, a⟩)) ∧
      ∀ i, ps.length ≤ i → i < k → (calls d k)[i]? = some (.error .stop) := by
  obtain ⟨b, h0, h1, h2, h3, h4, h5⟩ := text_start (x := x) (s := s) (ps := ps) (seps := seps) (n := n) (c := c) (w := w) hg
  refine ⟨_, h0, ?_⟩
  have hb : ∃ y, update b kw "s_is_bytes" = some y := by
    by_cases hm : ∃ a, ("s_is_bytes", a) ∈ kw
    · obtain ⟨a, ha⟩ := hm
      exact ⟨a, update_mem _ _ _ _ hg.1 ha⟩
    · rw [update_lacks]
      · exact ⟨_, h3⟩
      · intro y hy e
        exact hm ⟨y.2, by rw [← e]; exact hy⟩
  obtain ⟨y, hy⟩ := hb
  have hs : Stands (update b kw) c ⟨.pairs, n⟩ ps :=
    ⟨by rw [update_lacks _ _ _ hi]; exact h1, h4, h5, ⟨y, hy, fun h => by cases h⟩,
      ⟨_, by rw [update_lacks _ _ _ hp]; exact h2, rfl⟩⟩
  have hlen : ∀ (σ : State) (l : List Val), (nexts c σ l).length = l.length := by
    intro σ l
    induction l generalizing σ with
    | nil => rfl
    | cons v l ih => simp [nexts, ih]
  rw [calls_stands hs k]
  refine ⟨by simp [first], ?_, ?_⟩
  · intro i v a e t hik hv hsp
    have hl : i < ps.length := (List.getElem?_eq_some_iff.1 hv).1
    rw [first, List.getElem?_take_of_lt hik, List.getElem?_append_left (by simp [hlen, hl]), List.getElem?_map,
      pairs_nexts x n c ps h i v a e t hv hsp]
    rfl
  · intro i hl hik
    rw [first, List.getElem?_take_of_lt hik, List.getElem?_append_right (by simp [hlen, hl])]
    simp [hlen, List.getElem?_replicate]
    omega

/-- C148: a keyword argument i that is an iterator is iterated over in place of s: over an iterable, as if it had been given
as s. -/
theorem C148_i_iterable (s s' : Val) (vs vs' : List Val) (n c w : Int) (kw : List (String × Attr)) (hg : Given kw)
    (hi : ("i", Attr.iter vs') ∈ kw) (hp : Lacks kw "is_pairs") (hb : Lacks kw "s_is_bytes") (k : Nat) :
    (init (.iterable s vs) .none n c w kw).map (calls · k) = (init (.iterable s' vs') .none n c w []).map (calls · k) := by
  obtain ⟨b, h0, h1, h2, h3, h4, h5⟩ := iterable_start (s := s) (vs := vs) (n := n) (c := c) (w := w) hg
  have hn : Given [] := ⟨List.nodup_nil, by simp⟩
  obtain ⟨d', g0, g1⟩ := C148_iterable s' vs' n c w [] hn (by simp [Lacks]) (by simp [Lacks]) (by simp [Lacks]) k
  rw [h0, g0]
  simp only [Except.map, Except.ok.injEq]
  rw [g1]
  refine calls_stands (σ := ⟨.unknown, n⟩) ⟨update_mem _ _ _ _ hg.1 hi, h4, h5, ⟨.val .none, ?_, fun _ => rfl⟩,
    ⟨.val .none, ?_, rfl⟩⟩ k
  · rw [update_lacks _ _ _ hb]; exact h3
  · rw [update_lacks _ _ _ hp]; exact h2

/-- C148: and over a str or bytes object, whose lines are lost, as an iterable of pairs. -/
theorem C148_i_text (x : Bool) (s : Val) (ps vs' : List Val) (seps : Val) (n c w : Int) (kw : List (String × Attr))
    (hg : Given kw) (hi : ("i", Attr.iter vs') ∈ kw) (hp : Lacks kw "is_pairs") (k : Nat)
    (x' : Bool) (h : ∀ v ∈ vs', ∃ a e t, IsSplit x' v a e t) :
    ∃ d, init (.text x s ps) seps n c w kw = .ok d ∧
      ∀ (i : Nat) (v a e t : Val), i < k → vs'[i]? = some v → IsSplit x' v a e t →
        (calls d k)[i]? = some (.ok ⟨t, n + i, c, e, a⟩) := by
  obtain ⟨b, h0, h1, h2, h3, h4, h5⟩ := text_start (x := x) (s := s) (ps := ps) (seps := seps) (n := n) (c := c) (w := w) hg
  refine ⟨_, h0, ?_⟩
  have hb : ∃ y, update b kw "s_is_bytes" = some y := by
    by_cases hm : ∃ a, ("s_is_bytes", a) ∈ kw
    · obtain ⟨a, ha⟩ := hm
      exact ⟨a, update_mem _ _ _ _ hg.1 ha⟩
    · rw [update_lacks]
      · exact ⟨_, h3⟩
      · intro y hy e
        exact hm ⟨y.2, by rw [← e]; exact hy⟩
  obtain ⟨y, hy⟩ := hb
  have hs : Stands (update b kw) c ⟨.pairs, n⟩ vs' :=
    ⟨update_mem _ _ _ _ hg.1 hi, h4, h5, ⟨y, hy, fun h => by cases h⟩,
      ⟨_, by rw [update_lacks _ _ _ hp]; exact h2, rfl⟩⟩
  rw [calls_stands hs k]
  intro i v a e t hik hv hsp
  have hlen : ∀ (σ : State) (l : List Val), (nexts c σ l).length = l.length := by
    intro σ l
    induction l generalizing σ with
    | nil => rfl
    | cons v l ih => simp [nexts, ih]
  have hl : i < vs'.length := (List.getElem?_eq_some_iff.1 hv).1
  rw [first, List.getElem?_take_of_lt hik, List.getElem?_append_left (by simp [hlen, hl]), List.getElem?_map,
    pairs_nexts x' n c vs' h i v a e t hv hsp]
  rfl

/-- An object that can be iterated over with `next`. -/
def IsIterator : Attr → Prop
  | .iter _ => True
  | _ => False

/-- C148: if it is not an iterator, every call raises TypeError. -/
theorem C148_i_other {src : Src} {seps : Val} {n c w : Int} {kw : List (String × Attr)} {d : Dict}
    (h : init src seps n c w kw = .ok d) (hg : Given kw) (a : Attr) (hi : ("i", a) ∈ kw) (ha : ¬ IsIterator a) (k : Nat) :
    calls d k = List.replicate k (.error (.err .typeError)) := by
  obtain ⟨b, hb, rfl⟩ := init_ok h
  have hd : update b kw "i" = some a := update_mem _ _ _ _ hg.1 hi
  have hn : next (update b kw) = (.error (.err .typeError), update b kw) := by
    unfold next nextValue
    rw [read_i, hd]
    cases a <;> first | rfl | exact absurd trivial ha
  induction k with
  | zero => rfl
  | succ k ih => rw [calls, hn, ih, List.replicate_succ]

/-- C148: with is_pairs a true value, an iterable is taken as one of pairs from the first value on, so that of two-character
strings the first character is taken for the line, and the second for the linebreak. -/
theorem C148_is_pairs_iterable (s : Val) (l : List (Char × Char)) (n c w : Int) (kw : List (String × Attr))
    (hg : Given kw) (p : Attr) (hp : ("is_pairs", p) ∈ kw) (ht : p.truthy = true) (hi : Lacks kw "i") (k : Nat) :
    ∃ d, init (.iterable s (l.map (fun x => .str [x.1, x.2]))) .none n c w kw = .ok d ∧
      ∀ (i : Nat) (x : Char × Char), i < k → l[i]? = some x →
        (calls d k)[i]? = some (.ok ⟨.str [x.1, x.2], n + i, c, .str [x.2], .str [x.1]⟩) := by
  obtain ⟨b, h0, h1, h2, h3, h4, h5⟩ := iterable_start (s := s) (vs := l.map (fun x => Val.str [x.1, x.2]))
    (n := n) (c := c) (w := w) hg
  refine ⟨_, h0, ?_⟩
  have hb : ∃ y, update b kw "s_is_bytes" = some y := by
    by_cases hm : ∃ a, ("s_is_bytes", a) ∈ kw
    · obtain ⟨a, ha⟩ := hm
      exact ⟨a, update_mem _ _ _ _ hg.1 ha⟩
    · rw [update_lacks]
      · exact ⟨_, h3⟩
      · intro y hy e
        exact hm ⟨y.2, by rw [← e]; exact hy⟩
  obtain ⟨y, hy⟩ := hb
  have hs : Stands (update b kw) c ⟨.pairs, n⟩ (l.map (fun x => Val.str [x.1, x.2])) :=
    ⟨by rw [update_lacks _ _ _ hi]; exact h1, h4, h5, ⟨y, hy, fun h => by cases h⟩,
      ⟨p, update_mem _ _ _ _ hg.1 hp, ht⟩⟩
  rw [calls_stands hs k]
  have key : ∀ (l : List (Char × Char)) (n : Int) (i : Nat) (x : Char × Char), l[i]? = some x →
      (nexts c ⟨.pairs, n⟩ (l.map (fun x => Val.str [x.1, x.2])))[i]? =
        some (.ok ⟨.str [x.1, x.2], n + i, c, .str [x.2], .str [x.1]⟩) := by
    intro l
    induction l with
    | nil => intro n i x h; simp at h
    | cons y l ih =>
      intro n i x h
      have hn : LinesIter.next c ⟨.pairs, n⟩ (.str [y.1, y.2]) =
          (.ok ⟨.str [y.1, y.2], n, c, .str [y.2], .str [y.1]⟩, ⟨.pairs, n + 1⟩) := rfl
      rw [List.map_cons, nexts, hn]
      cases i with
      | zero => simp at h; subst h; simp
      | succ i =>
        simp only [List.getElem?_cons_succ] at h ⊢
        rw [ih (n + 1) i x h, show n + 1 + (i : Int) = n + ((i + 1 : Nat) : Int) by omega]
  intro i x hik hx
  have hlen : ∀ (σ : State) (l : List Val), (nexts c σ l).length = l.length := by
    intro σ l
    induction l generalizing σ with
    | nil => rfl
    | cons v l ih => simp [nexts, ih]
  have hl : i < l.length := (List.getElem?_eq_some_iff.1 hx).1
  rw [first, List.getElem?_take_of_lt hik, List.getElem?_append_left (by simp [hlen, hl]), List.getElem?_map,
    key l n i x hx]
  rfl

/-- C148: with is_pairs a false value other than None, lines over a str or bytes object yields nothing: every call raises
TypeError, until the lines are used up. -/
theorem C148_is_pairs_text (x : Bool) (s : Val) (ps : List Val) (seps : Val) (n c w : Int) (kw : List (String × Attr))
    (hg : Given kw) (p : Attr) (hp : ("is_pairs", p) ∈ kw) (hf : p.truthy = false) (hnn : p.isNone = false)
    (hi : Lacks kw "i") (h : ∀ v ∈ ps, ∃ a e t, IsSplit x v a e t) (k : Nat) :
    ∃ d, init (.text x s ps) seps n c w kw = .ok d ∧
      calls d k = allRefused ps.length k := by
  obtain ⟨b, h0, h1, h2, h3, h4, h5⟩ := text_start (x := x) (s := s) (ps := ps) (seps := seps) (n := n) (c := c) (w := w) hg
  refine ⟨_, h0, ?_⟩
  have key : ∀ (k : Nat) (ps : List Val) (d : Dict), (∀ v ∈ ps, ∃ a e t, IsSplit x v a e t) → d "i" = some (.iter ps) →
      d "is_pairs" = some p → d "line_number" = some (.int n) → d "column_number" = some (.int c) →
      calls d k =
        allRefused ps.length k := by
    intro k
    induction k with
    | zero => intros; simp [calls, allRefused]
    | succ k ih =>
      intro ps d hps e1 e2 e3 e4
      cases ps with
      | nil => rw [calls_end e1]; simp [allRefused]
      | cons v ps =>
        obtain ⟨a, e, t, hv⟩ := hps v (by simp)
        have hseq : ∃ l, v = .seq l := by cases hv <;> exact ⟨_, rfl⟩
        obtain ⟨l, rfl⟩ := hseq
        have hla : lineAndEnd (set d "i" (.iter ps)) (.seq l) = (.ok (.seq l, p.toVal), set d "i" (.iter ps)) := by
          unfold lineAndEnd
          rw [read_is_pairs, set_ne _ _ (by decide), e2]
          dsimp only
          rw [if_neg (by rw [hf]; decide), if_pos (by rw [hnn]; rfl)]
        have ho : output (set d "i" (.iter ps)) (.seq l) p.toVal = .error (.err .typeError) := by
          unfold output original
          rw [read_is_pairs, set_ne _ _ (by decide), e2]
          dsimp only
          rw [if_neg (by rw [hf]; simp)]
          dsimp only
          rw [read_line_number, read_column_number, set_ne _ _ (by decide), set_ne _ _ (by decide), e3, e4]
          cases p.toVal <;> rfl
        have hn : next d = (.error (.err .typeError), set d "i" (.iter ps)) := by
          unfold next nextValue
          rw [read_i, e1]
          dsimp only
          rw [hla]
          dsimp only
          rw [ho]
        rw [calls, hn]
        dsimp only
        rw [ih ps _ (fun v hv => hps v (by simp [hv])) (set_same _ _ _) (by rw [set_ne _ _ (by decide)]; exact e2)
          (by rw [set_ne _ _ (by decide)]; exact e3) (by rw [set_ne _ _ (by decide)]; exact e4)]
        simp only [allRefused, List.length_cons, List.replicate_succ, List.cons_append, List.take_succ_cons, List.cons.injEq,
          true_and]
        rw [← List.replicate_succ, List.take_append, List.take_append]
        congr 1
        simp only [List.take_replicate, List.length_replicate]
        congr 1
        omega
  exact key k ps _ h (by rw [update_lacks _ _ _ hi]; exact h1) (update_mem _ _ _ _ hg.1 hp) h4 h5

/-- C148: with s_is_bytes of the wrong truth value (and not None), lines over an iterable of str, or of bytes, yields
nothing: every call raises TypeError, until the iterable ends. -/
theorem C148_s_is_bytes (x : Bool) (s : Val) (vs : List Val) (n c w : Int) (kw : List (String × Attr))
    (hg : Given kw) (p : Attr) (hb : ("s_is_bytes", p) ∈ kw) (hf : p.truthy = !x) (hnn : p.isNone = false)
    (hi : Lacks kw "i") (hp : Lacks kw "is_pairs") (h : ∀ v ∈ vs, LinesIter.IsLine x v) (k : Nat) :
    ∃ d, init (.iterable s vs) .none n c w kw = .ok d ∧
      calls d k = allRefused vs.length k := by
  obtain ⟨b, h0, h1, h2, h3, h4, h5⟩ := iterable_start (s := s) (vs := vs) (n := n) (c := c) (w := w) hg
  refine ⟨_, h0, ?_⟩
  have hbad : ∀ v, LinesIter.IsLine x v → LinesIter.lineInfo v (emptyOf (!x)) = .error .typeError := by
    intro v hv; cases hv <;> rfl
  have hempty : (emptyOf (!x)).truthy = false := by cases x <;> rfl
  have key : ∀ (k : Nat) (vs : List Val) (d : Dict), (∀ v ∈ vs, LinesIter.IsLine x v) → d "i" = some (.iter vs) →
      (d "is_pairs" = some (.val .none) ∨ d "is_pairs" = some (.val (emptyOf (!x)))) → d "s_is_bytes" = some p →
      d "line_number" = some (.int n) → d "column_number" = some (.int c) →
      calls d k =
        allRefused vs.length k := by
    intro k
    induction k with
    | zero => intros; simp [calls, allRefused]
    | succ k ih =>
      intro vs d hvs e1 e2 e5 e3 e4
      cases vs with
      | nil => rw [calls_end e1]; simp [allRefused]
      | cons v vs =>
        have hv := hvs v (by simp)
        have hla : ∃ d', lineAndEnd (set d "i" (.iter vs)) v = (.ok (v, emptyOf (!x)), d') ∧
            d' "is_pairs" = some (.val (emptyOf (!x))) ∧ ∀ y, y ≠ "is_pairs" → d' y = set d "i" (.iter vs) y := by
          rcases e2 with e2 | e2
          · refine ⟨set (set (set d "i" (.iter vs)) "is_pairs" (.val (.other false))) "is_pairs" (.val (emptyOf (!x))),
              ?_, set_same _ _ _, ?_⟩
            · unfold lineAndEnd
              rw [read_is_pairs, set_ne _ _ (by decide), e2]
              have hs : read (set (set d "i" (.iter vs)) "is_pairs" (.val (.other false))) "s_is_bytes" = some p := by
                rw [read_s_is_bytes, set_ne _ _ (by decide), set_ne _ _ (by decide), e5]
              have hf' := hf
              have t0 : (Attr.val Val.none).truthy = false := rfl
              have t1 : (Attr.val Val.none).isNone = true := rfl
              cases hv <;> simp only [Bool.not_true, Bool.not_false] at hf' <;>
                simp [t0, t1, hs, hnn, hf', emptyOf]
            · intro y hy
              rw [set_ne _ _ hy, set_ne _ _ hy]
          · refine ⟨set d "i" (.iter vs), ?_, by rw [set_ne _ _ (by decide)]; exact e2, fun _ _ => rfl⟩
            unfold lineAndEnd
            rw [read_is_pairs, set_ne _ _ (by decide), e2]
            cases x <;> rfl
        obtain ⟨d', hla, hd', hrest⟩ := hla
        have ho : output d' v (emptyOf (!x)) = .error (.err .typeError) := by
          unfold output original
          rw [read_is_pairs, hd']
          dsimp only
          rw [hempty, Bool.and_false, if_neg (by decide)]
          dsimp only
          rw [read_line_number, read_column_number, hrest _ (by decide), hrest _ (by decide), set_ne _ _ (by decide),
            set_ne _ _ (by decide), e3, e4, hbad v hv]
        have hn : next d = (.error (.err .typeError), d') := by
          unfold next nextValue
          rw [read_i, e1]
          dsimp only
          rw [hla]
          dsimp only
          rw [ho]
        rw [calls, hn]
        dsimp only
        rw [ih vs d' (fun v hv => hvs v (by simp [hv])) (by rw [hrest _ (by decide)]; exact set_same _ _ _) (.inr hd')
          (by rw [hrest _ (by decide), set_ne _ _ (by decide)]; exact e5)
          (by rw [hrest _ (by decide), set_ne _ _ (by decide)]; exact e3)
          (by rw [hrest _ (by decide), set_ne _ _ (by decide)]; exact e4)]
        simp only [allRefused, List.length_cons, List.replicate_succ, List.cons_append, List.take_succ_cons, List.cons.injEq,
          true_and]
        rw [← List.replicate_succ, List.take_append, List.take_append]
        congr 1
        simp only [List.take_replicate, List.length_replicate]
        congr 1
        omega
  exact key k vs _ h (by rw [update_lacks _ _ _ hi]; exact h1) (.inl (by rw [update_lacks _ _ _ hp]; exact h2))
    (update_mem _ _ _ _ hg.1 hb) h4 h5

/-! ### The hypotheses can be met -/

example : Given [("colour", .val (.str ['r', 'e', 'd'])), ("detab", .fn .ok)] := by
  constructor
  · decide
  · simp
example : Lacks [("colour", .val (.str ['r', 'e', 'd']))] "is_pairs" := by simp [Lacks]
example : ∃ d, init (.text false (.str ['a', '\n', 'b']) [.seq [.str ['a'], .str ['\n']], .seq [.str ['b'], .str []]])
    .none 1 1 8 [("colour", .int 3)] = .ok d ∧ read (after d 1) "line_number" = some (.int 2) := ⟨_, rfl, rfl⟩
example : IsSplit false (.seq [.str ['a'], .str ['\n']]) (.str ['a']) (.str ['\n']) (.str ['a', '\n']) := .str _ _
example : (Attr.int 0).truthy = false ∧ (Attr.int 0).isNone = false := ⟨rfl, rfl⟩
/-- An iterator and a function are true, also if the iterator is at its end. -/
example : (Attr.iter []).truthy = true ∧ (Attr.fn .ok).truthy = true := ⟨rfl, rfl⟩

end Big.LinesKw
