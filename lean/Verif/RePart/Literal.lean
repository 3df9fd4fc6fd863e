import Verif.RePart.Rx
import Verif.RePart.Props56
import Verif.RePart.Props57
import Verif.Multisplit.Order
import Verif.Multisplit.Props2
/-!
# C143: re_partition with escaped separators, and multipartition

The pattern is the one that multisplit makes of its separators (`C140_separators_are_literal`): each of them escaped,
the longest first, with `|` between them; repeated if `separate` is false.
-/
namespace Big.RePart
open Big.Rx
open Big.MS (match0 search splitLoop sepRe lit alts sortSeps)

variable {α : Type} [DecidableEq α]

/-! ### The pattern -/

omit [DecidableEq α] in
theorem noLook_lit [DecidableEq α] : ∀ w : List α, NoLook (lit w)
  | [] => trivial
  | _ :: w => ⟨trivial, noLook_lit w⟩

theorem noLook_alts : ∀ ws : List (List α), NoLook (alts ws)
  | [] => trivial
  | [w] => noLook_lit w
  | w :: v :: ws => ⟨noLook_lit w, noLook_alts (v :: ws)⟩

theorem noLook_sepRe (seps : List (List α)) (separate : Bool) : NoLook (sepRe seps separate) := by
  unfold sepRe
  split
  · exact noLook_alts _
  · exact ⟨noLook_alts _, noLook_alts _⟩

theorem nullable_lit {w : List α} (h : w ≠ []) : (lit w).nullable = false := by
  cases w with
  | nil => exact absurd rfl h
  | cons c w => rfl

theorem nullable_alts : ∀ {ws : List (List α)}, ws ≠ [] → [] ∉ ws → (alts ws).nullable = false
  | [], h, _ => absurd rfl h
  | [w], _, h => nullable_lit (by intro e; simp [e] at h)
  | w :: v :: ws, _, h => by
    have h1 : (lit w).nullable = false := nullable_lit (by intro e; simp [e] at h)
    have h2 : (alts (v :: ws)).nullable = false := nullable_alts (by simp) (by simp at h ⊢; exact h.2)
    simp [alts, Rx.nullable, h1, h2]

theorem sortSeps_ne : ∀ {ws : List (List α)}, ws ≠ [] → [] ∉ ws → sortSeps ws ≠ [] ∧ [] ∉ sortSeps ws := by
  have ins : ∀ (w : List α) (l : List (List α)), w ≠ [] → [] ∉ l → Big.MS.insertSep w l ≠ [] ∧ [] ∉ Big.MS.insertSep w l := by
    intro w l
    induction l with
    | nil => intro h _; simp [Big.MS.insertSep, Ne.symm h]
    | cons v l ih =>
      intro h hl
      have := ih h (by simp at hl; exact hl.2)
      unfold Big.MS.insertSep
      simp at hl
      split
      · simp [Ne.symm h, hl]
      · simp [this.2, hl.1]
  intro ws
  induction ws with
  | nil => intro h; exact absurd rfl h
  | cons w ws ih =>
    intro _ he
    have hw : w ≠ [] := by intro e; simp [e] at he
    have hws : [] ∉ ws := by simp at he; exact he.2
    unfold sortSeps
    by_cases hn : ws = []
    · subst hn; exact ins w _ hw (by simp [sortSeps])
    · exact ins w _ hw (ih hn hws).2

theorem nullable_sepRe {seps : List (List α)} (hne : seps ≠ []) (he : [] ∉ seps) (separate : Bool) :
    (sepRe seps separate).nullable = false := by
  have := sortSeps_ne hne he
  have := nullable_alts this.1 this.2
  unfold sepRe
  split
  · exact this
  · simp [Rx.plus, Rx.nullable, this]

/-! ### finditer and re.split -/

theorem match0_at {r : Rx α} (s : List α) {p : Nat} (hp : p ≤ s.length) :
    (match0 r (s.drop p) = none ↔ (rxMatcher r s).at_ p s.length = none) ∧
    ∀ w rest, match0 r (s.drop p) = some (w, rest) →
      s.drop p = w ++ rest ∧ (rxMatcher r s).at_ p s.length = some (p + w.length) := by
  have h1 : (rxMatcher r s).at_ p s.length = (r.matchStart (s.drop p)).map (fun x => s.length - x.2.length) := by
    have hx := Rx.m_ren (f := id) (fun x : Caps α × List α => s.length - x.2.length) r (inv_id r) (s.drop p) []
      (fun s' c => some (c, s')) (fun s' _ => some (s.length - s'.length)) (by intro s c; simp)
    rw [List.map_id, ren_id] at hx
    show (if p ≤ s.length ∧ s.length ≤ s.length then _ else none) = _
    rw [if_pos ⟨hp, Nat.le_refl _⟩, List.take_length]
    exact hx
  rw [h1]
  unfold match0
  cases hm : r.matchStart (s.drop p) with
  | none => simp
  | some x =>
    obtain ⟨w, rest, c', hw, -, hk⟩ := r.m_sound _ _ _ _ hm
    obtain ⟨c, rest'⟩ := x
    simp only [Option.some.injEq, Prod.mk.injEq] at hk
    obtain ⟨-, rfl⟩ := hk
    have hl := congrArg List.length hw
    simp at hl
    constructor
    · simp
    · intro w' rest' h
      simp only [Option.map_some, Option.some.injEq, Prod.mk.injEq] at h
      obtain ⟨rfl, rfl⟩ := h
      have htake : (s.drop p).take ((s.drop p).length - rest.length) = w := by
        rw [hw]; simp
      rw [htake]
      refine ⟨hw, ?_⟩
      simp; omega

/-- Without empty matches, fewer steps are enough. -/
theorem findFrom_pos {M : Matcher} (hM : M.Lawful) (hpos : ∀ p q e, M.at_ p q = some e → p < e) : ∀ (f g pos : Nat),
    M.len + 1 - pos ≤ f → M.len + 1 - pos ≤ g → findFrom M f pos false = findFrom M g pos false := by
  intro f
  induction f with
  | zero =>
    intro g pos h1 h2
    cases g with
    | zero => rfl
    | succ g => rw [findFrom, findFrom, if_pos (by omega)]
  | succ f ih =>
    intro g pos h1 h2
    cases g with
    | zero => rw [findFrom, findFrom, if_pos (by omega)]
    | succ g =>
      rw [findFrom, findFrom]
      by_cases h : pos > M.len
      · rw [if_pos h, if_pos h]
      · rw [if_neg h, if_neg h]
        simp only [Bool.false_eq_true, if_false]
        cases ha : M.at_ pos M.len with
        | none => exact ih g (pos + 1) (by omega) (by omega)
        | some e =>
          have := hpos _ _ _ ha
          have hb : (e == pos) = false := by simp; omega
          simp only [hb]
          rw [ih g e (by omega) (by omega)]

theorem findFrom_search {r : Rx α} (hr : NoLook r) (hn : r.nullable = false) (s : List α) : ∀ (k pos : Nat), s.length - pos = k →
    pos ≤ s.length → ∀ N, s.length + 1 - pos ≤ N →
    (search (match0 r) (s.drop pos) = none → findFrom (rxMatcher r s) (N + 1) pos false = []) ∧
    ∀ p m rest, search (match0 r) (s.drop pos) = some (p, m, rest) → m ≠ [] ∧ s.drop pos = p ++ (m ++ rest) ∧
      findFrom (rxMatcher r s) (N + 1) pos false =
        (pos + p.length, pos + p.length + m.length) :: findFrom (rxMatcher r s) (N + 1) (pos + p.length + m.length) false := by
  have hpos := (C93_textual r hr hn s).pos
  have hL := rx_lawful r s
  have hlen : (rxMatcher r s).len = s.length := rfl
  intro k
  induction k with
  | zero =>
    intro pos hk hp N hN
    have : pos = s.length := by omega
    subst this
    have hnone : (rxMatcher r s).at_ s.length s.length = none := by
      cases h : (rxMatcher r s).at_ s.length s.length with
      | none => rfl
      | some e => have := hpos _ _ _ h; have := (hL.at_le _ _ _ h).2; omega
    have hs : search (match0 r) (s.drop s.length) = none := by
      have := (match0_at (r := r) s (Nat.le_refl _)).1.2 hnone
      rw [List.drop_length] at this ⊢
      simp [search, this]
    constructor
    · intro _
      obtain ⟨N, rfl⟩ : ∃ n, N = n + 1 := ⟨N - 1, by omega⟩
      rw [findFrom]
      simp only [hlen, Bool.false_eq_true, if_false, Nat.lt_irrefl, gt_iff_lt, hnone]
      rw [findFrom]
      simp [hlen]
    · intro p m rest h; rw [hs] at h; simp at h
  | succ k ih =>
    intro pos hk hp N hN
    have hcons : s.drop pos = s[pos] :: s.drop (pos + 1) := List.drop_eq_getElem_cons (by omega)
    obtain ⟨a1, a2⟩ := match0_at (r := r) s hp
    cases hm : match0 r (s.drop pos) with
    | none =>
      have hat := a1.1 hm
      have hsearch : search (match0 r) (s.drop pos) = (search (match0 r) (s.drop (pos + 1))).map (fun x => (s[pos] :: x.1, x.2.1, x.2.2)) := by
        rw [hcons] at hm ⊢
        rw [search, hm]
      have hstep : findFrom (rxMatcher r s) (N + 1) pos false = findFrom (rxMatcher r s) (N + 1) (pos + 1) false := by
        conv => lhs; rw [findFrom]
        rw [hlen, if_neg (by omega)]
        simp only [Bool.false_eq_true, if_false, hat]
        exact findFrom_pos hL hpos N (N + 1) (pos + 1) (by rw [hlen]; omega) (by rw [hlen]; omega)
      obtain ⟨i1, i2⟩ := ih (pos + 1) (by omega) (by omega) N (by omega)
      rw [hsearch, hstep]
      constructor
      · intro h
        exact i1 (by simpa using h)
      · intro p m rest h
        cases hs : search (match0 r) (s.drop (pos + 1)) with
        | none => rw [hs] at h; simp at h
        | some x =>
          obtain ⟨p', m', rest'⟩ := x
          rw [hs] at h
          simp only [Option.map_some, Option.some.injEq, Prod.mk.injEq] at h
          obtain ⟨rfl, rfl, rfl⟩ := h
          obtain ⟨j1, j2, j3⟩ := i2 _ _ _ hs
          refine ⟨j1, by rw [hcons, j2]; rfl, ?_⟩
          rw [j3, List.length_cons, show pos + 1 + p'.length = pos + (p'.length + 1) by omega]
    | some x =>
      obtain ⟨w, rest0⟩ := x
      obtain ⟨b1, b2⟩ := a2 _ _ hm
      have hw := hpos _ _ _ b2
      have hwl := (hL.at_le _ _ _ b2).2
      have hsearch : search (match0 r) (s.drop pos) = some ([], w, rest0) := by
        rw [hcons] at hm ⊢
        rw [search, hm]
      rw [hsearch]
      refine ⟨by simp, ?_⟩
      intro p m rest h
      simp only [Option.some.injEq, Prod.mk.injEq] at h
      obtain ⟨rfl, rfl, rfl⟩ := h
      refine ⟨by intro e; simp [e] at hw, b1, ?_⟩
      conv => lhs; rw [findFrom]
      rw [hlen, if_neg (by omega)]
      simp only [Bool.false_eq_true, if_false, b2, List.length_nil, Nat.add_zero]
      have hbeq : (pos + w.length == pos) = false := by simp; intro e; simp [e] at hw
      rw [hbeq]
      congr 1
      exact findFrom_pos hL hpos N (N + 1) (pos + w.length) (by rw [hlen]; omega) (by rw [hlen]; omega)

/-- The texts and what is matched between them. -/
def strings (s : List α) (ts : List (List α)) (ms : List Span) : List (List α) := (weave ts (ms.map some)).map (·.str s)

theorem between_ne (s : List α) (p : Nat) (ms : List Span) : (between s p ms).length = ms.length + 1 := by
  induction ms generalizing p with
  | nil => rfl
  | cons m ms ih => simp [between, ih]

theorem splitLoop_strings {r : Rx α} (hr : NoLook r) (hn : r.nullable = false) (s : List α) : ∀ (f n pos : Nat), pos ≤ s.length →
    s.length - pos < f → ∀ N, s.length + 1 ≤ N →
    splitLoop (match0 r) true f (some n) (s.drop pos) =
      strings s (between s pos ((findFrom (rxMatcher r s) (N + 1) pos false).take n)) ((findFrom (rxMatcher r s) (N + 1) pos false).take n) := by
  intro f
  induction f with
  | zero => intro n pos _ h; omega
  | succ f ih =>
    intro n pos hp hf N hN
    cases n with
    | zero => simp [splitLoop, strings, between, weave, Elem.str]
    | succ n =>
      obtain ⟨h1, h2⟩ := findFrom_search hr hn s _ pos rfl hp N (by omega)
      rw [splitLoop, if_neg (by simp)]
      cases hs : search (match0 r) (s.drop pos) with
      | none =>
        rw [h1 hs]
        simp [strings, between, weave, Elem.str]
      | some x =>
        obtain ⟨p, m, rest⟩ := x
        obtain ⟨g1, g2, g3⟩ := h2 _ _ _ hs
        have hl := congrArg List.length g2
        simp at hl
        have hmp := List.length_pos_iff.2 g1
        rw [g3]
        have hrest : rest = s.drop (pos + p.length + m.length) := by
          rw [show pos + p.length + m.length = pos + (p.length + m.length) by omega, ← List.drop_drop, g2]
          simp [← List.drop_drop]
        have hmm : (s.take (pos + p.length + m.length)).drop (pos + p.length) = m := by
          rw [List.drop_take, show pos + p.length + m.length - (pos + p.length) = m.length by omega, ← List.drop_drop, g2]
          simp
        have hpp : (s.take (pos + p.length)).drop pos = p := by
          rw [List.drop_take, show pos + p.length - pos = p.length by omega, g2]
          simp
        have := ih n (pos + p.length + m.length) (by omega) (by omega) N hN
        rw [← hrest] at this
        simp only [Option.map_some, Nat.add_sub_cancel, if_true]
        rw [this]
        simp only [List.take_succ_cons, between, strings, List.map_cons, weave, Elem.str, group, hpp, hmm]
        rfl

theorem weave_pad (s : List α) : ∀ (ts : List (List α)) (ms : List Span) (k : Nat), ts.length = ms.length + 1 →
    (weave (ts ++ List.replicate k []) (ms.map some ++ List.replicate k none)).map (·.str s) =
      strings s ts ms ++ List.replicate (2 * k) [] := by
  intro ts ms k h
  induction ms generalizing ts with
  | nil =>
    obtain ⟨t, rfl⟩ : ∃ t, ts = [t] := List.length_eq_one_iff.1 (by simpa using h)
    simp only [List.map_nil, List.nil_append, strings, weave]
    show _ = [t] ++ _
    clear h
    induction k generalizing t with
    | zero => rfl
    | succ k ih =>
      rw [List.replicate_succ, List.replicate_succ, show 2 * (k + 1) = 2 * k + 1 + 1 by omega, List.replicate_succ, List.replicate_succ]
      simp only [List.cons_append, List.nil_append, weave, List.map_cons, Elem.str]
      have := ih []
      simp only [List.cons_append, List.nil_append, Elem.str] at this
      rw [this]
  | cons m ms ih =>
    cases ts with
    | nil => simp at h
    | cons t ts =>
      have := ih ts (by simpa using h)
      simp only [strings, List.map_cons, List.cons_append, weave] at this ⊢
      rw [this]

theorem strings_length (s : List α) (ts : List (List α)) (ms : List Span) (h : ts.length = ms.length + 1) :
    (strings s ts ms).length = 2 * ms.length + 1 := by
  induction ms generalizing ts with
  | nil =>
    obtain ⟨t, rfl⟩ : ∃ t, ts = [t] := List.length_eq_one_iff.1 (by simpa using h)
    rfl
  | cons m ms ih =>
    cases ts with
    | nil => simp at h
    | cons t ts =>
      have := ih ts (by simpa using h)
      simp only [strings, List.map_cons, weave, List.length_cons] at this ⊢
      omega

/-- **C143**: re_partition, with the pattern that stands for the separators, returns what multipartition returns: the same
strings, if a match is taken for the text it matched and None for the empty string. `separate=False` corresponds to the
pattern being repeated. -/
theorem C143_partition (nl : α) (cache : List (List α) → Option (List (List α))) {seps : List (List α)} (hne : seps ≠ [])
    (he : [] ∉ seps) (s : List α) (count : Nat) (separate : Bool) :
    ∃ els, rePartition (rxMatcher (sepRe seps separate) s) s count = .ok els ∧
      Big.MS.multipartition nl cache s seps count false separate = .ok (els.map (·.str s)) := by
  have hr := noLook_sepRe seps separate
  have hn := nullable_sepRe hne he separate
  refine ⟨_, C93_textual_exact (rx_lawful _ s) s (C93_textual _ hr hn s) count, ?_⟩
  have hlen : (rxMatcher (sepRe seps separate) s).len = s.length := rfl
  have hms : Big.MS.multisplit nl cache s seps .alternating (some (count : Int)) false separate .no =
      .ok ((strings s (between s 0 ((finditer (rxMatcher (sepRe seps separate) s)).take count))
        ((finditer (rxMatcher (sepRe seps separate) s)).take count)).map .str) := by
    unfold Big.MS.multisplit
    rw [if_neg hne, if_pos rfl]
    unfold Big.MS.msGen
    by_cases hc : count = 0
    · subst hc
      simp [strings, between, weave, Elem.str]
    · rw [if_neg (by simp; omega)]
      have h1 : ((count : Int) = -1) = False := by simp
      have h2 : ((count : Int) = 0) = False := by simp; omega
      have := splitLoop_strings hr hn s (s.length + 1) count 0 (by omega) (by omega) (2 * s.length + 2) (by omega)
      simp only [List.drop_zero] at this
      simp only [Option.getD_some, h1, if_false, Bool.false_eq_true, Big.MS.reSplit, h2, Int.toNat_natCast, Big.MS.emit]
      simp only [ne_eq, reduceCtorEq, not_false_eq_true, decide_true, if_false]
      rw [this]
      rfl
  have hb := between_ne s 0 ((finditer (rxMatcher (sepRe seps separate) s)).take count)
  rw [Big.MS.C42_multipartition_is_multisplit s count false separate _ hms, if_neg (by simp), padTo]
  have hk : count - (finditer (rxMatcher (sepRe seps separate) s)).length =
      count - ((finditer (rxMatcher (sepRe seps separate) s)).take count).length := by
    rw [List.length_take]; omega
  rw [weave_pad s _ _ _ hb, strings_length s _ _ hb, hk]
  congr 2
  simp only [List.length_take]
  congr 1
  omega

end Big.RePart
