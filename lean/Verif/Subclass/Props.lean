import Verif.Subclass.Model
import Verif.RePart.Props57
import Verif.Multisplit.Strip
/-!
# C144: when the functions return instances of subclasses

The documentation says of each of these functions that one may pass instances of subclasses of str or bytes, and that
it "will only return str or bytes objects" (text.py:417-420, 764-767, 888-892, 1214-1217, 1320-1323, 1752-1755). Here is
when that is so: whenever the function has cut the string up. When it finds nothing to do it returns the object it was
given.
-/
namespace Big.Sub

variable {C α : Type} [DecidableEq C] [DecidableEq α]

omit [DecidableEq C] [DecidableEq α] in
@[simp] theorem new_text (t : List α) : (new t : Str C α).text = t := rfl

omit [DecidableEq C] [DecidableEq α] in
@[simp] theorem new_cls (t : List α) : (new t : Str C α).cls = none := rfl

/-- An item without the classes. -/
def Item.erase : Item C α → MS.Item α
  | .str s => .str s.text
  | .pair a b => .pair a.text b.text

/-- An element without the classes. -/
def Elem.erase : Elem C α → RePart.Elem α
  | .text s => .text s.text
  | .found m => .found m

/-! ### multistrip -/

omit [DecidableEq C] in
/-- The text of the result is what the model without classes gives. -/
theorem multistrip_text (nl : α) (s : Str C α) (seps : List (Str C α)) (left right : Bool) :
    (multistrip nl s seps left right).map Str.text = MS.multistrip nl s.text (seps.map Str.text) left right := by
  unfold multistrip MS.multistrip MS.stripCore
  dsimp only
  split
  · rfl
  · split
    · rfl
    · split
      · rfl
      · cases left <;> cases right <;> simp [Except.map, MS.restOr, MS.preOr, restOf, preOf]
        · cases MS.search (MS.match0 ((MS.sepRe (seps.map Str.text) false).seq (.look (MS.atEnd nl)))) s.text <;> simp
        · cases MS.match0 (MS.sepRe (seps.map Str.text) false) s.text <;> simp
        · cases MS.match0 (MS.sepRe (seps.map Str.text) false) s.text <;> simp
          · cases MS.search (MS.match0 ((MS.sepRe (seps.map Str.text) false).seq (.look (MS.atEnd nl)))) s.text <;> simp
          · rename_i v
            cases MS.search (MS.match0 ((MS.sepRe (seps.map Str.text) false).seq (.look (MS.atEnd nl)))) v.2 <;> simp

omit [DecidableEq C] in
theorem multistrip_object {nl : α} {s : Str C α} {seps : List (Str C α)} {left right : Bool} {t : Str C α}
    (h : multistrip nl s seps left right = .ok t) : t = s ∨ (t.cls = none ∧ t.text.length < s.text.length) := by
  unfold multistrip at h
  dsimp only at h
  split at h
  · cases h
  · rename_i hne
    split at h
    · cases h
    · rename_i he
      split at h
      · cases h; exact .inl rfl
      · have hl : ∀ u : Str C α, restOf u (MS.match0 (MS.sepRe (seps.map Str.text) false) u.text) = u ∨ ∃ rest, restOf u (MS.match0 (MS.sepRe (seps.map Str.text) false) u.text) = new rest ∧ rest.length < u.text.length := by
          intro u
          rcases MS.match0_sepRe hne he false u.text with ⟨m, rest, h1, h2, h3⟩ | ⟨-, h3⟩
          · rw [h3]
            refine .inr ⟨rest, rfl, ?_⟩
            rw [h1, List.length_append]
            have := MS.sepAt_ne he h2
            have := List.length_pos_iff.2 this
            omega
          · rw [h3]; exact .inl rfl
        have hr : ∀ u : Str C α, preOf u (MS.search (MS.match0 ((MS.sepRe (seps.map Str.text) false).seq (.look (MS.atEnd nl)))) u.text) = u ∨ ∃ p, preOf u (MS.search (MS.match0 ((MS.sepRe (seps.map Str.text) false).seq (.look (MS.atEnd nl)))) u.text) = new p ∧ p.length < u.text.length := by
          intro u
          rcases MS.search_gen (MS.match0 ((MS.sepRe (seps.map Str.text) false).seq (.look (MS.atEnd nl)))) u.text with
            ⟨p, s', x, h1, h2, h3, -⟩ | ⟨h1, -⟩
          · rw [h1]
            refine .inr ⟨p, rfl, ?_⟩
            obtain ⟨m, rest, e, a, -⟩ := (MS.tail_match (nl := nl) hne he s').1 (by rw [h3]; rfl)
            rw [h2, e]
            have := List.length_pos_iff.2 a
            simp only [List.length_append]
            omega
          · rw [h1]; exact .inl rfl
        cases h
        cases left <;> cases right
        · exact .inl rfl
        · rcases hr s with e | ⟨p, e, hp⟩
          · exact .inl e
          · refine .inr ?_
            simp only [Bool.false_eq_true, if_false, if_true]
            rw [e]; exact ⟨rfl, hp⟩
        · rcases hl s with e | ⟨p, e, hp⟩
          · exact .inl e
          · refine .inr ?_
            simp only [Bool.false_eq_true, if_false, if_true]
            rw [e]; exact ⟨rfl, hp⟩
        · simp only [if_true]
          rcases hl s with e | ⟨p, e, hp⟩
          · rw [e]
            rcases hr s with e' | ⟨q, e', hq⟩
            · exact .inl e'
            · refine .inr ?_
              rw [e']; exact ⟨rfl, hq⟩
          · rw [e]
            refine .inr ?_
            rcases hr (new p) with e' | ⟨q, e', hq⟩
            · rw [e']; exact ⟨rfl, hp⟩
            · rw [e']; exact ⟨rfl, Nat.lt_trans hq hp⟩

omit [DecidableEq C] in
/-- C144, multistrip: with an instance `s` of a subclass, the text returned is the one that multistrip computes; if it
is that of `s`, multistrip returns `s` itself, and otherwise a str (or bytes) proper. -/
theorem C144_multistrip (nl : α) (s : Str C α) (seps : List (Str C α)) (left right : Bool) :
    multistrip nl s seps left right =
      (MS.multistrip nl s.text (seps.map Str.text) left right).map (fun t => if t = s.text then s else new t) := by
  rw [← multistrip_text]
  cases h : multistrip nl s seps left right with
  | error e => rfl
  | ok t =>
    rcases multistrip_object h with rfl | ⟨h1, h2⟩
    · simp [Except.map]
    · have : t.text ≠ s.text := by intro e; rw [e] at h2; exact absurd h2 (Nat.lt_irrefl _)
      simp only [Except.map, this, if_false]
      cases t; cases h1; rfl

/-- C144, a disagreement: the documentation says that multistrip "will only return str or bytes objects, even if left
and right are both false". With both false, and with nothing to strip, it returns the instance of the subclass. -/
theorem C144_multistrip_documentation :
    multistrip (C := Unit) '\n' ⟨some (), [' ', 'a']⟩ [new [' ']] false false = .ok ⟨some (), [' ', 'a']⟩ ∧
    multistrip (C := Unit) '\n' ⟨some (), ['a']⟩ [new [' ']] true true = .ok ⟨some (), ['a']⟩ ∧
    multistrip (C := Unit) '\n' ⟨some (), [' ', 'a']⟩ [new [' ']] true true = .ok ⟨none, ['a']⟩ := by decide +kernel

/-! ### multisplit -/

omit [DecidableEq C] [DecidableEq α] in
theorem evens_text : ∀ l : List (Str C α), (evens l).map Str.text = MS.evens (l.map Str.text)
  | [] => rfl
  | [_] => rfl
  | a :: _ :: l => by simp only [evens, MS.evens, List.map_cons, evens_text l]

omit [DecidableEq C] [DecidableEq α] in
theorem mem_evens {x : Str C α} : ∀ {l : List (Str C α)}, x ∈ evens l → x ∈ l
  | [], h => h
  | [_], h => h
  | a :: _ :: l, h => by
    rcases List.mem_cons.1 h with rfl | h
    · simp
    · have := mem_evens h; simp [this]

omit [DecidableEq C] in
theorem progressive_text (keep : MS.Keep) (n : Int) (l : List (Str C α)) :
    (progressive keep n l).map Str.text = MS.progressive keep n (l.map Str.text) := by
  unfold progressive MS.progressive
  dsimp only
  split <;> split <;> simp [evens_text, List.map_take]

omit [DecidableEq C] in
theorem mem_progressive {keep : MS.Keep} {n : Int} {x : Str C α} {l : List (Str C α)} (h : x ∈ progressive keep n l) :
    x ∈ l := by
  unfold progressive at h
  dsimp only at h
  split at h <;> split at h
  · exact List.mem_of_mem_take (mem_evens h)
  · exact mem_evens h
  · exact List.mem_of_mem_take h
  · exact h

omit [DecidableEq C] [DecidableEq α] in
theorem pairUp_erase (keep : MS.Keep) : ∀ l : List (Str C α),
    (pairUp keep l).map Item.erase = MS.pairUp keep (l.map Str.text)
  | [] => rfl
  | [_] => rfl
  | a :: b :: l => by
    simp only [pairUp, MS.pairUp, List.map_cons, pairUp_erase keep l]
    split <;> rfl

omit [DecidableEq C] [DecidableEq α] in
theorem emit_erase (keep : MS.Keep) (l : List (Str C α)) :
    (emit keep l).map Item.erase = MS.emit keep (l.map Str.text) := by
  cases keep
  · simp only [emit, MS.emit, List.map_map]; rfl
  · simp only [emit, MS.emit, pairUp_erase, List.length_map]; split <;> simp
  · simp only [emit, MS.emit, List.map_map]; rfl
  · simp only [emit, MS.emit, pairUp_erase, List.length_map]; split <;> simp

omit [DecidableEq C] [DecidableEq α] in
theorem reversed_text (s : Str C α) : (reversed s).text = s.text.reverse := by
  unfold reversed
  split
  · rename_i h
    match hs : s.text, h with
    | [], _ => rfl
    | [_], _ => rfl
    | _ :: _ :: _, h => simp at h
  · rfl

omit [DecidableEq C] in
theorem msGen_erase (cache : List (List α) → Option (List (List α))) (s : Str C α) (seps : List (Str C α))
    (keep : MS.Keep) (maxsplit : Option Int) (reverse separate : Bool) (strip : MS.Strip) (reKeep : Bool) :
    (msGen cache s seps keep maxsplit reverse separate strip reKeep).map Item.erase =
      MS.msGen cache s.text (seps.map Str.text) keep maxsplit reverse separate strip reKeep := by
  have hid : ∀ l : List (List α), (l.map (new (C := C))).map Str.text = l := by
    intro l; rw [List.map_map]; exact List.map_id l
  have hrev : ∀ l : List (Str C α), ((l.map reversed).reverse).map Str.text = ((l.map Str.text).map List.reverse).reverse := by
    intro l
    rw [List.map_reverse, List.map_map, List.map_map]
    congr 1
    exact List.map_congr_left (fun x _ => reversed_text x)
  unfold msGen MS.msGen
  split
  · split <;> rfl
  · dsimp only
    rw [emit_erase]
    cases reverse
    · simp only [Bool.false_eq_true, if_false]
      split
      · rw [progressive_text, hid]
      · rw [hid]
    · simp only [if_true]
      rw [hrev]
      split
      · rw [progressive_text, hid, reversed_text]
      · rw [hid, reversed_text]

omit [DecidableEq C] [DecidableEq α] in
theorem pairUp_new (keep : MS.Keep) : ∀ l : List (Str C α), (∀ x ∈ l, x.cls = none) →
    ∀ x ∈ ((pairUp keep l).map Item.parts).flatten, x.cls = none
  | [], _ => by simp [pairUp]
  | [_], _ => by simp [pairUp]
  | a :: b :: l, h => by
    intro x hx
    rw [pairUp, List.map_cons, List.flatten_cons, List.mem_append] at hx
    rcases hx with hx | hx
    · split at hx
      · simp only [Item.parts, List.mem_cons, List.not_mem_nil, or_false] at hx
        rcases hx with rfl | rfl
        · exact h _ (by simp)
        · exact h _ (by simp)
      · simp only [Item.parts, List.mem_singleton] at hx
        rw [hx]; rfl
    · exact pairUp_new keep l (fun y hy => h y (by simp [hy])) x hx

omit [DecidableEq C] [DecidableEq α] in
theorem emit_new (keep : MS.Keep) (l : List (Str C α)) (h : ∀ x ∈ l, x.cls = none) :
    ∀ x ∈ ((emit keep l).map Item.parts).flatten, x.cls = none := by
  have hs : ∀ x ∈ ((l.map Item.str).map Item.parts).flatten, x.cls = none := by
    intro x hx
    obtain ⟨p, hp, hx⟩ := List.mem_flatten.1 hx
    obtain ⟨i, hi, rfl⟩ := List.mem_map.1 hp
    obtain ⟨y, hy, rfl⟩ := List.mem_map.1 hi
    simp only [Item.parts, List.mem_singleton] at hx
    rw [hx]; exact h y hy
  cases keep
  · exact hs
  · simp only [emit]
    apply pairUp_new
    split
    · intro x hx
      rcases List.mem_append.1 hx with hx | hx
      · exact h x hx
      · simp at hx; rw [hx]; rfl
    · exact h
  · exact hs
  · simp only [emit]
    apply pairUp_new
    split
    · intro x hx
      rcases List.mem_append.1 hx with hx | hx
      · exact h x hx
      · simp at hx; rw [hx]; rfl
    · exact h

omit [DecidableEq C] in
theorem msGen_new (cache : List (List α) → Option (List (List α))) (s : Str C α) (seps : List (Str C α))
    (keep : MS.Keep) (maxsplit : Option Int) (reverse separate : Bool) (strip : MS.Strip) (reKeep : Bool)
    (h0 : maxsplit ≠ some 0) :
    ∀ x ∈ ((msGen cache s seps keep maxsplit reverse separate strip reKeep).map Item.parts).flatten, x.cls = none := by
  unfold msGen
  rw [if_neg h0]
  dsimp only
  apply emit_new
  have h1 : ∀ l : List (List α), ∀ x ∈ (if strip = .progressive then progressive keep (maxsplit.getD (-1)) (l.map (new (C := C)))
      else l.map new), x.cls = none := by
    intro l x hx
    have : x ∈ l.map (new (C := C)) := by
      split at hx
      · exact mem_progressive hx
      · exact hx
    obtain ⟨y, -, rfl⟩ := List.mem_map.1 this
    rfl
  split
  · intro x hx
    rw [List.mem_reverse] at hx
    obtain ⟨y, hy, rfl⟩ := List.mem_map.1 hx
    unfold reversed
    split
    · exact h1 _ y hy
    · rfl
  · exact h1 _

omit [DecidableEq C] in
theorem multisplit_erase (nl : α) (cache : List (List α) → Option (List (List α))) (s : Str C α) (seps : List (Str C α))
    (keep : MS.Keep) (maxsplit : Option Int) (rev separate : Bool) (strip : MS.Strip) :
    (multisplit nl cache s seps keep maxsplit rev separate strip).map (·.map Item.erase) =
      MS.multisplit nl cache s.text (seps.map Str.text) keep maxsplit rev separate strip := by
  unfold multisplit MS.multisplit
  cases seps with
  | nil => rfl
  | cons w ws =>
    simp only [List.isEmpty_cons, Bool.false_eq_true, if_false, List.map_cons, reduceCtorEq]
    split
    · simp only [Except.map]; rw [msGen_erase]; rfl
    · rw [← List.map_cons, ← multistrip_text]
      cases multistrip nl s (w :: ws) (MS.stripSides strip maxsplit rev).1 (MS.stripSides strip maxsplit rev).2 with
      | error e => rfl
      | ok t =>
        simp only [Except.map]
        rw [msGen_erase]
        have : (t.text.isEmpty = true) ↔ t.text = [] := by simp
        simp only [this]

/-- An item of strings proper. -/
def Item.ofTexts : MS.Item α → Item C α
  | .str t => .str (new t)
  | .pair a b => .pair (new a) (new b)

omit [DecidableEq C] [DecidableEq α] in
theorem Str.eq_new {x : Str C α} (h : x.cls = none) : x = new x.text := by
  cases x; cases h; rfl

omit [DecidableEq C] [DecidableEq α] in
theorem items_new {l : List (Item C α)} (h : ∀ x ∈ (l.map Item.parts).flatten, x.cls = none) :
    l = (l.map Item.erase).map Item.ofTexts := by
  rw [List.map_map]
  conv => lhs; rw [← List.map_id l]
  apply List.map_congr_left
  intro i hi
  cases i with
  | str x =>
    have := Str.eq_new (h x (List.mem_flatten.2 ⟨[x], List.mem_map.2 ⟨_, hi, rfl⟩, by simp⟩))
    simp only [id, Function.comp, Item.erase, Item.ofTexts]
    rw [← this]
  | pair x y =>
    have h1 := Str.eq_new (h x (List.mem_flatten.2 ⟨[x, y], List.mem_map.2 ⟨_, hi, rfl⟩, by simp⟩))
    have h2 := Str.eq_new (h y (List.mem_flatten.2 ⟨[x, y], List.mem_map.2 ⟨_, hi, rfl⟩, by simp⟩))
    simp only [id, Function.comp, Item.erase, Item.ofTexts]
    rw [← h1, ← h2]

/-- multisplit does not split at all (`maxsplit` is 0, or `s` is empty and to be stripped), and has stripped nothing. -/
def Untouched (nl : α) (s : List α) (seps : List (List α)) (maxsplit : Option Int) (rev : Bool) (strip : MS.Strip) : Prop :=
  (maxsplit = some 0 ∨ (strip ≠ .no ∧ s = [])) ∧
  (strip = .no ∨
    MS.multistrip nl s seps (MS.stripSides strip maxsplit rev).1 (MS.stripSides strip maxsplit rev).2 = .ok s)

omit [DecidableEq C] in
/-- C144, multisplit: every string that it yields is a str (or bytes) proper, except when it neither strips nor splits:
then it yields `s` itself (with an empty separator, if pairs are asked for). -/
theorem C144_multisplit (nl : α) (cache : List (List α) → Option (List (List α))) (s : Str C α) (seps : List (Str C α))
    (keep : MS.Keep) (maxsplit : Option Int) (rev separate : Bool) (strip : MS.Strip) :
    (Untouched nl s.text (seps.map Str.text) maxsplit rev strip → seps ≠ [] →
      multisplit nl cache s seps keep maxsplit rev separate strip =
        .ok (if keep = .asPairs then [.pair s (new [])] else [.str s])) ∧
    (¬ Untouched nl s.text (seps.map Str.text) maxsplit rev strip →
      multisplit nl cache s seps keep maxsplit rev separate strip =
        (MS.multisplit nl cache s.text (seps.map Str.text) keep maxsplit rev separate strip).map (·.map Item.ofTexts)) := by
  constructor
  · rintro ⟨h1, h2⟩ hne
    unfold multisplit
    rw [if_neg (by cases seps with | nil => exact absurd rfl hne | cons _ _ => simp)]
    by_cases hno : strip = .no
    · rw [if_pos hno]
      have : maxsplit = some 0 := by
        rcases h1 with h1 | h1
        · exact h1
        · exact absurd hno h1.1
      unfold msGen
      rw [if_pos this]
    · rw [if_neg hno]
      have h3 := h2.resolve_left hno
      have h4 := C144_multistrip nl s seps (MS.stripSides strip maxsplit rev).1 (MS.stripSides strip maxsplit rev).2
      rw [h3] at h4
      simp only [Except.map, if_true] at h4
      rw [h4]
      dsimp only
      have : (if s.text.isEmpty then some 0 else maxsplit) = some 0 := by
        rcases h1 with h1 | h1
        · rw [h1]; split <;> rfl
        · rw [h1.2]; rfl
      rw [this]
      unfold msGen
      rw [if_pos rfl]
  · intro hn
    rw [← multisplit_erase]
    cases h : multisplit nl cache s seps keep maxsplit rev separate strip with
    | error e => rfl
    | ok items =>
      simp only [Except.map]
      congr 1
      have hk : ∀ (t : Str C α) (m : Option Int) (st : MS.Strip) (rk : Bool), t.cls = none ∨ m ≠ some 0 →
          msGen cache t seps keep m rev separate st rk =
            ((msGen cache t seps keep m rev separate st rk).map Item.erase).map Item.ofTexts := by
        intro t m st rk ht
        apply items_new
        by_cases hm : m = some 0
        · have ht := ht.resolve_right (fun h => h hm)
          unfold msGen
          rw [if_pos hm]
          split <;> simp [Item.parts, ht]
        · exact msGen_new cache t seps keep m rev separate st rk hm
      unfold multisplit at h
      split at h
      · cases h
      · split at h
        · rename_i hno
          cases h
          apply hk
          right
          intro hm
          exact hn ⟨.inl hm, .inl hno⟩
        · rename_i hno
          split at h
          · cases h
          · rename_i t ht
            cases h
            apply hk
            rcases multistrip_object ht with rfl | ⟨hc, -⟩
            · right
              have ht' := multistrip_text nl t seps (MS.stripSides strip maxsplit rev).1 (MS.stripSides strip maxsplit rev).2
              rw [ht] at ht'
              intro hm
              split at hm
              · rename_i he
                exact hn ⟨.inr ⟨hno, by simpa using he⟩, .inr ht'.symm⟩
              · exact hn ⟨.inl hm, .inr ht'.symm⟩
            · exact .inl hc

/-- The cases of C144_multisplit: not split, with pairs; and stripped, or split into one piece. -/
example :
    multisplit (C := Unit) '\n' (fun _ => none) ⟨some (), ['a', ' ']⟩ [new [' ']] .asPairs (some 0) false false .no =
      .ok [.pair ⟨some (), ['a', ' ']⟩ (new [])] ∧
    multisplit (C := Unit) '\n' (fun _ => none) ⟨some (), ['a', ' ']⟩ [new [' ']] .no (some 0) false false .yes =
      .ok [.str (new ['a'])] ∧
    multisplit (C := Unit) '\n' (fun _ => none) ⟨some (), ['a']⟩ [new [' ']] .no (some (-1)) true false .no =
      .ok [.str (new ['a'])] ∧
    multisplit (C := Unit) '\n' (fun _ => none) ⟨some (), []⟩ [new [' ']] .no (some (-1)) true false .yes =
      .ok [.str ⟨some (), []⟩] := by decide +kernel

/-! ### multipartition -/

omit [DecidableEq C] in
/-- C144, multipartition (and multirpartition, which is multipartition): with a count of 0 it returns `s` itself, with
any other count str (or bytes) proper only. -/
theorem C144_multipartition (nl : α) (cache : List (List α) → Option (List (List α))) (s : Str C α) (seps : List (Str C α))
    (count : Int) (rev separate : Bool) :
    (count = 0 → seps ≠ [] → multipartition nl cache s seps count rev separate = .ok [s]) ∧
    (count ≠ 0 → multipartition nl cache s seps count rev separate =
      (MS.multipartition nl cache s.text (seps.map Str.text) count rev separate).map (·.map new)) := by
  constructor
  · rintro rfl hne
    unfold multipartition
    rw [(C144_multisplit nl cache s seps .alternating (some 0) rev separate .no).1 ⟨.inl rfl, .inl rfl⟩ hne]
    cases rev <;> rfl
  · intro h0
    unfold multipartition MS.multipartition
    split
    · rfl
    · rw [(C144_multisplit nl cache s seps .alternating (some count) rev separate .no).2
        (fun h => by rcases h.1 with h | h
                     · exact h0 (Option.some.inj h)
                     · exact h.1 rfl)]
      cases hm : MS.multisplit nl cache s.text (seps.map Str.text) .alternating (some count) rev separate .no with
      | error e => rfl
      | ok items =>
        have hstr : ∀ i ∈ items, ∃ t, i = MS.Item.str t := by
          have key : ∀ i ∈ MS.msGen cache s.text (seps.map Str.text) .alternating (some count) rev separate .no true,
              ∃ t, i = MS.Item.str t := by
            intro i hi
            unfold MS.msGen at hi
            split at hi
            · simp at hi; exact ⟨_, hi⟩
            · simp only [MS.emit] at hi
              obtain ⟨t, -, rfl⟩ := List.mem_map.1 hi
              exact ⟨t, rfl⟩
          unfold MS.multisplit at hm
          split at hm
          · cases hm
          · rw [if_pos rfl] at hm
            cases hm
            exact key
        have hparts : ∀ l : List (MS.Item α), (∀ i ∈ l, ∃ t, i = MS.Item.str t) →
            (((l.map Item.ofTexts).map (Item.parts (C := C))).flatten) = (l.map MS.Item.get).map new := by
          intro l hl
          induction l with
          | nil => rfl
          | cons i l ih =>
            obtain ⟨t, rfl⟩ := hl i (by simp)
            simp only [List.map_cons, List.flatten_cons]
            rw [ih (fun j hj => hl j (by simp [hj]))]
            rfl
        simp only [Except.map]
        rw [hparts items hstr]
        cases rev <;> simp

/-! ### normalize_whitespace -/

omit [DecidableEq C] in
/-- C144, normalize_whitespace: it returns a str (or bytes) proper, except when `s` is all whitespace (and `separators`
is one of big's own): then it returns the object `replacement` itself. -/
theorem C144_normalize (cache : List (List α) → Option (List (List α))) (sp : α → Bool) (fast : Bool) (s : Str C α)
    (seps : List (Str C α)) (repl : Str C α) :
    normalize cache sp fast s seps repl =
      (MS.normalizeWhitespace cache sp fast s.text (seps.map Str.text) repl.text).map
        (fun t => if fast = true ∧ s.text ≠ [] ∧ s.text.all sp = true then repl else new t) := by
  unfold normalize MS.normalizeWhitespace
  split
  · rfl
  · cases seps with
    | nil => rfl
    | cons w ws =>
      simp only [List.isEmpty_cons, Bool.false_eq_true, if_false, List.map_cons, reduceCtorEq]
      by_cases he : s.text = []
      · simp [he, Except.map]
      · simp only [List.isEmpty_iff, he, if_false, not_false_eq_true, ne_eq, true_and]
        cases fast
        · simp only [Bool.false_eq_true, if_false, false_and, Except.map, join, MS.normGeneral]
          rw [← List.map_cons, ← msGen_erase]
          congr 3
          have hm : ∀ l : List (Item C α), (∀ i ∈ l, ∃ t, i = Item.str t) →
              (l.map Item.parts).flatten.map Str.text = (l.map Item.erase).map MS.Item.get := by
            intro l hl
            induction l with
            | nil => rfl
            | cons i l ih =>
              obtain ⟨t, rfl⟩ := hl i (by simp)
              simp only [List.map_cons, List.flatten_cons, List.map_append]
              rw [ih (fun j hj => hl j (by simp [hj]))]
              rfl
          apply hm
          intro i hi
          unfold msGen at hi
          rw [if_neg (by simp)] at hi
          simp only [emit] at hi
          obtain ⟨t, -, rfl⟩ := List.mem_map.1 hi
          exact ⟨t, rfl⟩
        · simp only [if_true, true_and, Except.map]
          by_cases ha : s.text.all sp = true
          · simp [ha]
          · simp only [ha, if_false, MS.normFast, join]
            rfl

/-- The cases of C144_normalize. -/
example :
    normalize (C := Nat) (fun _ => none) (· = ' ') true ⟨some 1, [' ', ' ']⟩ [new [' ']] ⟨some 2, ['x']⟩ =
      .ok ⟨some 2, ['x']⟩ ∧
    normalize (C := Nat) (fun _ => none) (· = ' ') false ⟨some 1, [' ', ' ']⟩ [new [' ']] ⟨some 2, ['x']⟩ =
      .ok (new ['x']) := by decide +kernel

end Big.Sub
