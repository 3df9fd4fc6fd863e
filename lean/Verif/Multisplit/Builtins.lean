import Verif.Multisplit.PyStr
import Verif.Multisplit.Progressive
/-!
# C68: multisplit reimplements str.split, rsplit, splitlines, partition and rpartition

README.md:4524-4583 gives the functions, "These exactly duplicate the behavior of the originals";
tests/test_text.py tests them on some strings.
-/
namespace Big.MS
open Spec PyStr

/-! ### The functions of the README -/

section
variable {α : Type} [DecidableEq α]

/-- _multisplit_to_split (README.md:4534-4548), `sep` not None. `sep` is a str, passed on as
`separators`: multisplit takes the characters of a str as the separators. -/
def readmeSplit (nl : α) (cache : List (List α) → Option (List (List α))) (s sep : List α)
    (maxsplit : Int) (reverse : Bool) : Except Err (List (Item α)) :=
  multisplit nl cache s (sep.map (fun c => [c])) .no (some maxsplit) reverse true .no

/-- `if result and (not result[-1]): result.pop()` (README.md:4545-4547, 4560-4562). -/
def popEmpty : List (Item α) → List (Item α)
  | [] => []
  | l@(_ :: _) => if l.getLast? = some (.str []) then l.dropLast else l

/-- _multisplit_to_split (README.md:4534-4548), `sep` None, `s` a str: `seps` is `whitespace`. -/
def readmeSplitNone (nl : α) (cache : List (List α) → Option (List (List α))) (s : List α)
    (seps : List (List α)) (maxsplit : Int) (reverse : Bool) : Except Err (List (Item α)) :=
  (multisplit nl cache s seps .no (some maxsplit) reverse false .progressive).map popEmpty

/-- str_splitlines (README.md:4556-4563), `s` a str: `seps` is `linebreaks`. -/
def readmeSplitlines (nl : α) (cache : List (List α) → Option (List (List α))) (s : List α)
    (seps : List (List α)) (keepends : Bool) : Except Err (List (Item α)) :=
  (multisplit nl cache s seps (if keepends then .yes else .no) (some (-1)) false true .no).map
    popEmpty

/-- _partition_to_multisplit (README.md:4565-4576). -/
def readmePartition (nl : α) (cache : List (List α) → Option (List (List α))) (s sep : List α)
    (reverse : Bool) : Except Err (List (Item α)) :=
  if sep = [] then .error .valueError
  else
    (multisplit nl cache s [sep] .alternating (some 1) reverse true .no).map fun l =>
      if l.length = 1 then
        (if reverse then .str [] :: .str [] :: l else l ++ [.str [], .str []])
      else l

end

/-! ### One separator -/

section
variable {α : Type} [DecidableEq α] {nl : α} {cache : List (List α) → Option (List (List α))}

theorem find_none {sep : List α} (hs : sep ≠ []) : ∀ {s : List α},
    (∀ a b, s = a ++ b → ¬ sep <+: b) → find sep s = none
  | [], _ => by simp [find, hs]
  | c :: t, h => by
    have h0 : ¬ sep <+: c :: t := h [] _ rfl
    have ih : find sep t = none := find_none hs (fun a b e => h (c :: a) b (by simp [e]))
    simp [find, List.isPrefixOf_iff_prefix, h0, ih]

theorem find_some {sep rest : List α} (hs : sep ≠ []) : ∀ {n : List α},
    (∀ a b, n = a ++ b → b ≠ [] → ¬ sep <+: b ++ (sep ++ rest)) →
    find sep (n ++ (sep ++ rest)) = some (n, rest)
  | [], _ => by
    cases sep with
    | nil => exact absurd rfl hs
    | cons c sep =>
      have : (c :: sep).isPrefixOf (c :: (sep ++ rest)) = true := by
        rw [List.isPrefixOf_iff_prefix]; exact ⟨rest, rfl⟩
      simp only [List.nil_append, List.cons_append, find, this, if_true]
      simp
  | c :: n, h => by
    have h0 : ¬ sep <+: c :: (n ++ (sep ++ rest)) := h [] _ rfl (by simp)
    have ih := find_some (n := n) (rest := rest) hs (fun a b e hb => h (c :: a) b (by simp [e]) hb)
    simp only [List.cons_append, find, List.isPrefixOf_iff_prefix, h0, if_false, ih,
      Option.map_some]

/-- `rfind` finds the rightmost: no occurrence starts later. -/
theorem rfind_none {sep : List α} (hs : sep ≠ []) : ∀ {s : List α},
    (∀ a b, s = a ++ b → ¬ sep <+: b) → rfind sep s = none
  | [], _ => by simp [rfind, hs]
  | c :: t, h => by
    have h0 : ¬ sep <+: c :: t := h [] _ rfl
    have ih : rfind sep t = none := rfind_none hs (fun a b e => h (c :: a) b (by simp [e]))
    simp [rfind, List.isPrefixOf_iff_prefix, h0, ih]

theorem rfind_some {sep rest : List α} (hs : sep ≠ []) : ∀ {n : List α},
    (∀ a b, sep ++ rest = a ++ b → a ≠ [] → ¬ sep <+: b) →
    rfind sep (n ++ (sep ++ rest)) = some (n, rest)
  | [], h => by
    cases sep with
    | nil => exact absurd rfl hs
    | cons c sep =>
      have h1 : rfind (c :: sep) (sep ++ rest) = none :=
        rfind_none hs (fun a b e => h (c :: a) b (by simp [e]) (by simp))
      have : (c :: sep).isPrefixOf (c :: (sep ++ rest)) = true := by
        rw [List.isPrefixOf_iff_prefix]; exact ⟨rest, rfl⟩
      simp only [List.nil_append, List.cons_append, rfind, this, if_true, h1]
      simp
  | c :: n, h => by
    have ih := rfind_some (n := n) hs h
    simp only [List.cons_append, rfind, ih]

theorem noSep_single {sep s : List α} : NoSep [sep] s ↔ ¬ sep <+: s := by
  simp [NoSep]

theorem sepAt_single {sep w rest : List α} (h : SepAt [sep] true w rest) : w = sep := by
  simp only [SepAt, if_true] at h
  simpa using h.1

/-- Splitting at the leftmost occurrence, up to `n` times. -/
theorem splitN_alternates {sep : List α} (hs : sep ≠ []) : ∀ (n : Nat) (l : List (List α)),
    Alternates [sep] true l → splitN sep n l.flatten = texts (limit n l)
  | 0, l, _ => by simp [splitN, limit, texts]
  | n + 1, [], h => by simp [Alternates] at h
  | n + 1, [a], h => by
    simp only [Alternates, noSep_single] at h
    simp [splitN, limit, texts, find_none hs h]
  | n + 1, a :: w :: r, h => by
    simp only [Alternates, noSep_single] at h
    obtain ⟨h1, h2, h3⟩ := h
    have := sepAt_single h2
    subst this
    have ih := splitN_alternates hs n r h3
    simp only [List.flatten_cons, splitN, find_some hs h1, limit, texts, ih]

theorem reverse_prefix {a b : List α} : a.reverse <+: b ↔ a <:+ b.reverse := by
  rw [← List.reverse_prefix, List.reverse_reverse]

/-- The same from the right. -/
theorem rsplitN_alternates {sep : List α} (hs : sep ≠ []) : ∀ (n : Nat) (l : List (List α)),
    Alternates [sep.reverse] true l →
    rsplitN sep n l.flatten.reverse = mirror (texts (limit n l))
  | 0, l, _ => by simp [rsplitN, limit, texts, mirror]
  | n + 1, [], h => by simp [Alternates] at h
  | n + 1, [a], h => by
    simp only [Alternates, noSep_single] at h
    have : rfind sep a.reverse = none := by
      refine rfind_none hs ?_
      rintro x y e ⟨z, rfl⟩
      have e' : a = z.reverse ++ (sep.reverse ++ x.reverse) := by
        simpa using congrArg List.reverse e
      exact h _ _ e' ⟨_, rfl⟩
    simp [rsplitN, limit, texts, mirror, this]
  | n + 1, a :: w :: r, h => by
    simp only [Alternates, noSep_single] at h
    obtain ⟨h1, h2, h3⟩ := h
    have := sepAt_single h2
    subst this
    have ih := rsplitN_alternates hs n r h3
    have hf : rfind sep (r.flatten.reverse ++ (sep ++ a.reverse))
        = some (r.flatten.reverse, a.reverse) := by
      refine rfind_some hs ?_
      rintro x y e hx ⟨z, rfl⟩
      -- the occurrence, mirrored, would start inside the text `a`
      have e' : a ++ sep.reverse = z.reverse ++ (sep.reverse ++ x.reverse) := by
        simpa using congrArg List.reverse e
      have hlen : z.length < a.length := by
        have := congrArg List.length e'
        have : 0 < x.length := List.length_pos_iff.2 hx
        simp only [List.length_append, List.length_reverse] at *
        omega
      obtain ⟨b, hb⟩ : z.reverse <+: a := by
        have hp : z.reverse <+: a ++ sep.reverse := ⟨_, e'.symm⟩
        exact List.prefix_of_prefix_length_le hp ⟨_, rfl⟩ (by simp; omega)
      have hbne : b ≠ [] := by
        rintro rfl
        have := congrArg List.length hb
        simp at this; omega
      refine h1 z.reverse b hb.symm hbne ?_
      rw [← hb, List.append_assoc] at e'
      have e'' := List.append_cancel_left e'
      rw [← List.append_assoc, e'', List.append_assoc]
      exact ⟨_, rfl⟩
    simp only [List.flatten_cons, List.reverse_append, List.reverse_reverse, List.append_assoc,
      rsplitN, hf, limit, texts, ih]
    simp [mirror]

theorem seps_le {sep : List α} (hs : sep ≠ []) : ∀ (l : List (List α)),
    Alternates [sep] true l → l.length ≤ 2 * l.flatten.length + 1
  | [], h => by simp
  | [a], h => by simp
  | a :: w :: r, h => by
    simp only [Alternates] at h
    have := seps_le hs r h.2.2
    have h1 := sepAt_single h.2.1
    have : 0 < w.length := List.length_pos_iff.2 (h1 ▸ hs)
    simp only [List.length_cons, List.flatten_cons, List.length_append] at *
    omega

/-- The pieces of a string split at one separator, cut as maxsplit says, are those of str.split and
str.rsplit. -/
theorem cut_split {s sep : List α} (hs : sep ≠ []) {l : List (List α)} (n : Int) (hn : -1 ≤ n) :
    (Splits [sep] true false s l → texts (cut false (allowed (some n)) l) = PyStr.split s sep n) ∧
    (Splits [sep] true true s l → texts (cut true (allowed (some n)) l) = PyStr.rsplit s sep n) := by
  constructor
  · rintro ⟨rfl, ha⟩
    simp only [Bool.false_eq_true, if_false] at ha
    have hodd := alternates_odd l ha
    unfold PyStr.split
    rw [splitN_alternates hs _ _ ha]
    by_cases h1 : n = -1
    · subst h1
      have := seps_le hs l ha
      simp only [allowed, if_true, cut]
      rw [limit_ge _ _ hodd (by simpa using this)]
    · simp only [allowed, h1, if_false, cut, limitDir, Bool.false_eq_true]
      rw [if_neg (by omega)]
  · rintro ⟨rfl, ha⟩
    simp only [if_true, List.map_cons, List.map_nil] at ha
    have hodd := alternates_odd _ ha
    have hs' : sep.reverse ≠ [] := by simpa using hs
    unfold PyStr.rsplit
    have key := fun m => rsplitN_alternates hs m _ ha
    simp only [mirror_flatten, List.reverse_reverse] at key
    rw [key]
    by_cases h1 : n = -1
    · subst h1
      have := seps_le hs' _ ha
      rw [mirror_flatten, List.length_reverse] at this
      simp only [allowed, if_true, cut]
      rw [limit_ge _ _ hodd (by simpa using this), texts_mirror _ (by rw [← mirror_length]; exact hodd)]
      rw [mirror_mirror]
    · simp only [allowed, h1, if_false, cut, limitDir, if_true]
      rw [if_neg (by omega), texts_mirror _ (limit_odd _ _ hodd)]

/-- C68: with one separator, keep false, separate true and strip false, multisplit yields exactly
`s.split(sep, maxsplit)`, and with reverse `s.rsplit(sep, maxsplit)`, for every maxsplit from -1. -/
theorem C68_split_is_str_split (hc : CacheOK cache) (s sep : List α) (hs : sep ≠ [])
    (n : Int) (hn : -1 ≤ n) :
    multisplit nl cache s [sep] .no (some n) false true .no
      = .ok ((PyStr.split s sep n).map .str) ∧
    multisplit nl cache s [sep] .no (some n) true true .no
      = .ok ((PyStr.rsplit s sep n).map .str) := by
  have hsep : ([] : List α) ∉ [sep] := by simpa using fun e => hs e
  constructor
  · obtain ⟨l, h1, h2⟩ := multisplit_spec (nl := nl) hc (by simp) hsep true false s
    rw [h2]
    simp only [render, (cut_split hs n hn).1 h1]
  · obtain ⟨l, h1, h2⟩ := multisplit_spec (nl := nl) hc (by simp) hsep true true s
    rw [h2]
    simp only [render, (cut_split hs n hn).2 h1]

/-- The str_split and str_rsplit of the README, with a separator of one character, are str.split and
str.rsplit. With a longer separator, or a maxsplit below -1, they are not (see
`C99_counterexample_long_separator` and `C99_counterexample_negative_maxsplit`). -/
theorem C99_readme_split (hc : CacheOK cache) (s : List α) (c : α) (n : Int) (hn : -1 ≤ n) :
    readmeSplit nl cache s [c] n false = .ok ((PyStr.split s [c] n).map .str) ∧
    readmeSplit nl cache s [c] n true = .ok ((PyStr.rsplit s [c] n).map .str) :=
  C68_split_is_str_split hc s [c] (by simp) n hn

/-- The README's str_partition and str_rpartition are str.partition and str.rpartition, for every
separator. -/
theorem C68_readme_partition (hc : CacheOK cache) (s sep : List α) :
    (sep = [] → ∀ reverse, readmePartition nl cache s sep reverse = .error .valueError) ∧
    (sep ≠ [] →
      readmePartition nl cache s sep false = .ok ((PyStr.partition s sep).map .str) ∧
      readmePartition nl cache s sep true = .ok ((PyStr.rpartition s sep).map .str)) := by
  refine ⟨fun h r => by simp [readmePartition, h], fun hs => ?_⟩
  have hsep : ([] : List α) ∉ [sep] := by simpa using fun e => hs e
  constructor
  · obtain ⟨l, ⟨rfl, ha⟩, h2⟩ := multisplit_spec (nl := nl) hc (by simp) hsep true false s
    simp only [readmePartition, hs, if_false, h2, Except.map, Bool.false_eq_true]
    simp only [Bool.false_eq_true, if_false] at ha
    match l, ha with
    | [], ha => simp [Alternates] at ha
    | [a], ha =>
      simp only [Alternates, noSep_single] at ha
      simp [allowed, cut, limitDir, limit, render, PyStr.partition, find_none hs ha]
    | a :: w :: r, ha =>
      simp only [Alternates, noSep_single] at ha
      have := sepAt_single ha.2.1
      subst this
      simp [allowed, cut, limitDir, limit, render, PyStr.partition, find_some hs ha.1]
  · obtain ⟨l, ⟨rfl, ha⟩, h2⟩ := multisplit_spec (nl := nl) hc (by simp) hsep true true s
    simp only [readmePartition, hs, if_false, h2, Except.map, if_true]
    simp only [if_true, List.map_cons, List.map_nil] at ha
    have key := rsplitN_alternates hs 1 _ ha
    rw [mirror_flatten, List.reverse_reverse] at key
    have hcut : cut true (allowed (some 1)) l = mirror (limit 1 (mirror l)) := rfl
    rw [hcut]
    rw [show l.flatten = (mirror l).flatten.reverse by rw [mirror_flatten, List.reverse_reverse]] at *
    generalize hm : mirror l = m at ha key
    simp only [rsplitN] at key
    match m, ha with
    | [], ha => simp [Alternates] at ha
    | [a], ha =>
      simp only [limit, texts] at key ⊢
      cases hf : rfind sep [a].flatten.reverse with
      | none =>
        simp only [PyStr.rpartition, hf]
        simp [mirror, render]
      | some x => rw [hf] at key; simp [mirror] at key
    | a :: w :: r, ha =>
      simp only [Alternates] at ha
      have := sepAt_single ha.2.1
      subst this
      simp only [limit, texts] at key ⊢
      cases hf : rfind sep (a :: sep.reverse :: r).flatten.reverse with
      | none => rw [hf] at key; simp [mirror] at key
      | some x =>
        rw [hf] at key
        simp only [mirror, List.map_cons, List.map_nil, List.reverse_cons, List.reverse_nil,
          List.nil_append, List.singleton_append, List.cons.injEq, and_true] at key
        simp only [PyStr.rpartition, hf, key.1, key.2]
        simp [mirror, render]

end

/-! ### splitlines -/

/-- The alternating list of lines and line boundaries. -/
def lineParts : List Char → List (List Char)
  | [] => [[]]
  | [c] => if isBreak c then [[], [c], []] else [[c]]
  | c :: d :: t =>
    if c = '\r' ∧ d = '\n' then [] :: ['\r', '\n'] :: lineParts t
    else if isBreak c then [] :: [c] :: lineParts (d :: t)
    else onFirst c (lineParts (d :: t))

theorem onFirst_flatten (c : Char) (l : List (List Char)) : (onFirst c l).flatten = c :: l.flatten := by
  cases l <;> simp [onFirst]

theorem lineParts_flatten : ∀ s, (lineParts s).flatten = s
  | [] => rfl
  | [c] => by by_cases h : isBreak c <;> simp [lineParts, h]
  | c :: d :: t => by
    rw [lineParts]
    split
    · rename_i h; simp [lineParts_flatten t, h.1, h.2]
    · split
      · simp [lineParts_flatten (d :: t)]
      · rw [onFirst_flatten, lineParts_flatten (d :: t)]

theorem mem_linebreaks {w : List Char} :
    w ∈ strLinebreaks ↔ w = ['\r', '\n'] ∨ ∃ c, w = [c] ∧ isBreak c = true := by
  constructor
  · intro h
    simp only [strLinebreaks, List.mem_cons, List.not_mem_nil, or_false] at h
    rcases h with h | h | h | h | h | h | h | h | h | h | h <;>
      first
        | exact .inl h
        | exact .inr ⟨_, h, by decide +kernel⟩
  · rintro (rfl | ⟨c, rfl, h⟩)
    · decide +kernel
    · simp only [isBreak, List.mem_cons, List.not_mem_nil, or_false, decide_eq_true_eq] at h
      have key : ∀ d : Char, c.toNat = d.toNat → c = d := fun d e => Char.toNat_inj.1 e
      rcases h with h | h | h | h | h | h | h | h | h | h
      · rw [key '\n' h]; decide +kernel
      · rw [key '\r' h]; decide +kernel
      · rw [key '\x0b' h]; decide +kernel
      · rw [key '\x0c' h]; decide +kernel
      · rw [key '\x1c' h]; decide +kernel
      · rw [key '\x1d' h]; decide +kernel
      · rw [key '\x1e' h]; decide +kernel
      · rw [key '\u0085' h]; decide +kernel
      · rw [key '\u2028' h]; decide +kernel
      · rw [key '\u2029' h]; decide +kernel

theorem noSep_linebreaks {s : List Char} :
    NoSep strLinebreaks s ↔ ∀ c t, s = c :: t → isBreak c = false := by
  constructor
  · rintro h c t rfl
    cases hb : isBreak c with
    | false => rfl
    | true => exact absurd (⟨t, rfl⟩ : [c] <+: c :: t) (h [c] (mem_linebreaks.2 (.inr ⟨c, rfl, hb⟩)))
  · intro h w hw ⟨t, e⟩
    rcases mem_linebreaks.1 hw with rfl | ⟨c, rfl, hb⟩
    · have := h '\r' ('\n' :: t) (by simp [← e])
      exact absurd this (by decide)
    · have := h c t (by simp [← e])
      rw [hb] at this; simp at this

theorem longest_crlf (t : List Char) : Longest strLinebreaks ['\r', '\n'] ('\r' :: '\n' :: t) := by
  refine ⟨by decide +kernel, ⟨t, rfl⟩, ?_⟩
  intro w hw _
  rcases mem_linebreaks.1 hw with rfl | ⟨c, rfl, _⟩ <;> simp

theorem longest_break {c : Char} (hb : isBreak c = true) {t : List Char}
    (h : ¬ (c = '\r' ∧ t.head? = some '\n')) : Longest strLinebreaks [c] (c :: t) := by
  refine ⟨mem_linebreaks.2 (.inr ⟨c, rfl, hb⟩), ⟨t, rfl⟩, ?_⟩
  intro w hw ⟨u, e⟩
  rcases mem_linebreaks.1 hw with rfl | ⟨c, rfl, _⟩
  · simp only [List.cons_append, List.nil_append, List.cons.injEq] at e
    exact absurd ⟨e.1.symm, by rw [← e.2]; rfl⟩ h
  · simp

theorem alternates_onFirst {c : Char} (hb : isBreak c = false) : ∀ {l : List (List Char)},
    Alternates strLinebreaks true l → Alternates strLinebreaks true (onFirst c l)
  | [], h => by simp [Alternates] at h
  | [n], h => by
    intro a b e
    cases a with
    | nil =>
      rw [noSep_linebreaks]
      rintro d t rfl
      simp only [List.nil_append, List.cons.injEq] at e
      rw [← e.1]; exact hb
    | cons x a =>
      simp only [List.cons_append, List.cons.injEq] at e
      exact h a b e.2
  | n :: w :: r, h => by
    obtain ⟨h1, h2⟩ := h
    refine ⟨?_, h2⟩
    intro a b e hbn
    cases a with
    | nil =>
      rw [noSep_linebreaks]
      simp only [List.nil_append] at e
      subst e
      intro d t e
      simp only [List.cons_append, List.cons.injEq] at e
      rw [← e.1]; exact hb
    | cons x a =>
      simp only [List.cons_append, List.cons.injEq] at e
      exact h1 a b e.2 hbn

theorem lineParts_alternates : ∀ s, Alternates strLinebreaks true (lineParts s)
  | [] => by
    intro a b e
    rw [noSep_linebreaks]
    rintro c t rfl
    simp at e
  | [c] => by
    rw [lineParts]
    split
    · rename_i hb
      refine ⟨fun a b e h => ?_, longest_break hb (by simp), lineParts_alternates []⟩
      simp only [List.nil_eq, List.append_eq_nil_iff] at e
      exact absurd e.2 h
    · rename_i hb
      exact alternates_onFirst (by simpa using hb) (lineParts_alternates [])
  | c :: d :: t => by
    rw [lineParts]
    split
    · rename_i h
      obtain ⟨rfl, rfl⟩ := h
      refine ⟨fun a b e h => ?_, ?_, lineParts_alternates t⟩
      · simp only [List.nil_eq, List.append_eq_nil_iff] at e
        exact absurd e.2 h
      · exact longest_crlf _
    · rename_i hcr
      split
      · rename_i hb
        refine ⟨fun a b e h => ?_, ?_, lineParts_alternates (d :: t)⟩
        · simp only [List.nil_eq, List.append_eq_nil_iff] at e
          exact absurd e.2 h
        · refine longest_break hb ?_
          rw [lineParts_flatten]
          simpa using hcr
      · rename_i hb
        exact alternates_onFirst (by simpa using hb) (lineParts_alternates (d :: t))

/-- Drop a last empty string. -/
def popNil (l : List (List Char)) : List (List Char) :=
  if l.getLast? = some [] then l.dropLast else l

theorem popEmpty_map (l : List (List Char)) :
    popEmpty (l.map Item.str) = (popNil l).map Item.str := by
  cases l with
  | nil => rfl
  | cons a l =>
    simp only [popNil, popEmpty, List.map_cons]
    rw [← List.map_cons, List.getLast?_map]
    cases h : (a :: l).getLast? with
    | none => simp at h
    | some x =>
      simp only [Option.map_some, Option.some.injEq, Item.str.injEq]
      split <;> simp

theorem popNil_cons {a : List Char} {l : List (List Char)} (h : l ≠ []) :
    popNil (a :: l) = a :: popNil l := by
  cases l with
  | nil => exact absurd rfl h
  | cons b l =>
    simp only [popNil, List.getLast?_cons_cons]
    split <;> simp

theorem texts_ne {l : List (List Char)} (h : l ≠ []) : texts l ≠ [] ∧ joined l ≠ [] := by
  match l, h with
  | [a], _ => simp [texts, joined]
  | a :: w :: r, _ => simp [texts, joined]

theorem lineParts_ne (s : List Char) : lineParts s ≠ [] := fun e => by
  have := lineParts_alternates s
  rw [e] at this
  exact this

theorem texts_onFirst (c : Char) : ∀ {l : List (List Char)}, l ≠ [] →
    texts (onFirst c l) = onFirst c (texts l) ∧ joined (onFirst c l) = onFirst c (joined l)
  | [a], _ => by simp [onFirst, texts, joined]
  | a :: w :: r, _ => by simp [onFirst, texts, joined]

theorem popNil_onFirst (c : Char) : ∀ {l : List (List Char)}, l ≠ [] →
    popNil (onFirst c l) = onFirst c (popNil l)
  | [a], _ => by
    cases a <;> simp [popNil, onFirst]
  | a :: b :: r, _ => by
    show popNil ((c :: a) :: b :: r) = _
    rw [popNil_cons (a := c :: a) (by simp), popNil_cons (a := a) (by simp)]
    rfl

theorem splitlines_parts : ∀ s, popNil (texts (lineParts s)) = splitlines false s ∧
    popNil (joined (lineParts s)) = splitlines true s
  | [] => by simp [lineParts, texts, joined, popNil, splitlines]
  | [c] => by
    by_cases h : isBreak c <;> simp [lineParts, h, texts, joined, popNil, splitlines]
  | c :: d :: t => by
    by_cases hcr : c = '\r' ∧ d = '\n'
    · have ih := splitlines_parts t
      have hne := texts_ne (lineParts_ne t)
      simp only [lineParts, splitlines, if_pos hcr, texts, joined, popNil_cons hne.1,
        popNil_cons hne.2, ih.1, ih.2]
      simp
    · have ih := splitlines_parts (d :: t)
      have hne := texts_ne (lineParts_ne (d :: t))
      by_cases hb : isBreak c = true
      · simp only [lineParts, splitlines, if_neg hcr, if_pos hb, texts, joined, popNil_cons hne.1,
          popNil_cons hne.2, ih.1, ih.2]
        simp
      · have hf := texts_onFirst c (lineParts_ne (d :: t))
        simp only [lineParts, splitlines, if_neg hcr, hb, if_false, hf.1, hf.2,
          popNil_onFirst c hne.1, popNil_onFirst c hne.2, ih.1, ih.2, Bool.false_eq_true, and_self]

/-- C68: the README's str_splitlines is str.splitlines, for every string. -/
theorem C68_readme_splitlines (s : List Char) (keepends : Bool) :
    readmeSplitlines '\n' strCache s strLinebreaks keepends
      = .ok ((PyStr.splitlines keepends s).map .str) := by
  obtain ⟨l, h1, h2⟩ := multisplit_spec (nl := '\n') strCache_ok (seps := strLinebreaks)
    (by decide +kernel) (by decide +kernel) true false s
  have hl : l = lineParts s := by
    refine alternates_unique _ _ (by simpa using h1.2) (lineParts_alternates s) ?_
    rw [h1.1, lineParts_flatten]
  subst hl
  have := splitlines_parts s
  cases keepends <;>
    simp [readmeSplitlines, h2, Except.map, allowed, cut, render, popEmpty_map, this]

/-! ### sep None -/

section
variable {α : Type} [DecidableEq α] {nl : α} {cache : List (List α) → Option (List (List α))}
  {seps : List (List α)}

theorem splits_words_dir {sp : α → Bool} (he : [] ∉ seps) (hs : SpaceSet sp seps) {s : List α}
    {reverse : Bool} {l : List (List α)} (h : Splits seps false reverse s l) : Words sp l := by
  refine ⟨splits_odd h, ?_, ?_, C38_inner_texts_nonempty h⟩
  · intro t ht c hc
    cases hsp : sp c with
    | false => rfl
    | true =>
      exfalso
      obtain ⟨a, b, rfl⟩ := List.append_of_mem hc
      exact C38_texts_contain_no_separator he h _ ht [c] ((hs.1 c).1 hsp) ⟨a, b, by simp⟩
  · intro w hw
    have := C38_separator_pieces he h w hw
    simp only [Bool.false_eq_true, if_false] at this
    exact ⟨this.1, concat_all hs.2 this.2⟩

theorem length_le_flatten : ∀ (L : List (List α)), L.length % 2 = 1 →
    (∀ w ∈ Spec.seps L, w ≠ []) → (∀ t ∈ texts L, t ≠ []) → L.length ≤ L.flatten.length
  | [], h, _, _ => by simp at h
  | [a], _, _, h => by
    have : 0 < a.length := List.length_pos_iff.2 (h a (by simp [texts]))
    simp; omega
  | a :: w :: r, ho, hs, ht => by
    have ih := length_le_flatten r (by simp only [List.length_cons] at ho; omega)
      (fun v hv => hs v (by simp [Spec.seps, hv])) (fun t h => ht t (by simp [texts, h]))
    have : 0 < a.length := List.length_pos_iff.2 (ht a (by simp [texts]))
    have : 0 < w.length := List.length_pos_iff.2 (hs w (by simp [Spec.seps]))
    simp only [List.length_cons, List.flatten_cons, List.length_append]
    omega

/-- `s.split()` of words followed by space. -/
theorem pySplit_full {sp : α → Bool} {L : List (List α)} (h : Words sp L)
    (hne : ∀ t ∈ texts L, t ≠ []) {r : List α} (hr : ∀ c ∈ r, sp c = true) (n : Nat)
    (hn : L.flatten.length + r.length ≤ n) : pySplit sp n (L.flatten ++ r) = texts L := by
  have hlen := length_le_flatten L h.odd (fun w hw => (h.sep w hw).1) hne
  have hL : texts L ≠ [] := by
    have := texts_length L h.odd
    intro e; rw [e] at this; simp at this
  have hhead : (texts L).head? ≠ some [] := by
    intro e
    exact hne [] (List.mem_of_mem_head? e) rfl
  by_cases hr0 : r = []
  · subst hr0
    rw [List.append_nil, pySplit_words n L h.odd h.txt h.sep
      (fun t ht => hne t (List.dropLast_subset _ ht)) hhead]
    rw [limit_ge _ _ h.odd (by omega), if_neg]
    intro e
    -- the last piece is a text
    obtain ⟨l', rfl⟩ := List.getLast?_eq_some_iff.1 e
    cases l' with
    | nil => exact hne [] (by simp [texts]) rfl
    | cons a l' =>
      have ho := h.odd
      obtain ⟨k, w, hk⟩ : ∃ k w, a :: l' = k ++ [w] :=
        ⟨(a :: l').dropLast, (a :: l').getLast (by simp), (List.dropLast_concat_getLast _).symm⟩
      rw [hk] at ho hne
      have hko : k.length % 2 = 1 := by simp at ho; omega
      rw [List.append_assoc, List.singleton_append, texts_append _ _ _ hko] at hne
      exact hne [] (by simp [texts]) rfl
  · have hodd : (L ++ [r, []]).length % 2 = 1 := by
      have := h.odd
      simp; omega
    have hrp : 0 < r.length := List.length_pos_iff.2 hr0
    have htx : texts (L ++ [r, []]) = texts L ++ [[]] := by
      rw [texts_append _ _ _ h.odd]; rfl
    have hsx : Spec.seps (L ++ [r, []]) = Spec.seps L ++ [r] := by
      rw [seps_append _ _ _ h.odd]; rfl
    have key := pySplit_words (sp := sp) n (L ++ [r, []]) hodd (by
        rw [htx]; intro t ht
        rcases List.mem_append.1 ht with ht | ht
        · exact h.txt t ht
        · simp at ht; subst ht; simp) (by
        rw [hsx]; intro w hw
        rcases List.mem_append.1 hw with hw | hw
        · exact h.sep w hw
        · simp at hw; subst hw; exact ⟨hr0, hr⟩) (by
        rw [htx, List.dropLast_concat]; exact hne) (by
        rw [htx]
        cases htl : texts L with
        | nil => exact absurd htl hL
        | cons a b => rw [htl] at hhead; simpa using hhead)
    rw [limit_ge _ _ hodd (by simp; omega)] at key
    have : (L ++ [r, []]).flatten = L.flatten ++ r := by simp
    rw [this, if_pos (by simp), htx, List.dropLast_concat] at key
    exact key

theorem pySplit_skip {sp : α → Bool} {l : List α} (hl : ∀ c ∈ l, sp c = true) (n : Nat) (s : List α) :
    pySplit sp n (l ++ s) = pySplit sp n s := by
  have : (l ++ s).dropWhile sp = s.dropWhile sp := dropWhile_all hl
  cases n <;> simp only [pySplit, this]

theorem mirror_words {sp : α → Bool} {L : List (List α)} (h : Words sp L)
    (hne : ∀ t ∈ texts L, t ≠ []) : Words sp (mirror L) ∧ ∀ t ∈ texts (mirror L), t ≠ [] := by
  have hne' : ∀ t ∈ texts (mirror L), t ≠ [] := by
    rw [texts_mirror _ h.odd]
    intro t ht
    simp only [mirror, List.mem_reverse, List.mem_map] at ht
    obtain ⟨u, hu, rfl⟩ := ht
    simpa using hne u hu
  refine ⟨⟨by rw [mirror_length]; exact h.odd, ?_, ?_, ?_⟩, hne'⟩
  · rw [texts_mirror _ h.odd]
    intro t ht c hc
    simp only [mirror, List.mem_reverse, List.mem_map] at ht
    obtain ⟨u, hu, rfl⟩ := ht
    exact h.txt u hu c (by simpa using hc)
  · rw [seps_mirror _ h.odd]
    intro t ht
    simp only [mirror, List.mem_reverse, List.mem_map] at ht
    obtain ⟨u, hu, rfl⟩ := ht
    have := h.sep u hu
    exact ⟨by simpa using this.1, fun c hc => this.2 c (by simpa using hc)⟩
  · intro t ht
    exact hne' t (List.mem_of_mem_tail (List.dropLast_subset _ ht))

/-- `s.split(None, maxsplit)`: a negative maxsplit means no limit, and `s` has at most as many words
as characters. -/
def pySplitNone (sp : α → Bool) (s : List α) (maxsplit : Int) : List (List α) :=
  pySplit sp (if maxsplit < 0 then s.length else maxsplit.toNat) s

/-- `s.rsplit(None, maxsplit)`. -/
def pyRsplitNone (sp : α → Bool) (s : List α) (maxsplit : Int) : List (List α) :=
  pyRsplit sp (if maxsplit < 0 then s.length else maxsplit.toNat) s

theorem pySplit_ne {sp : α → Bool} : ∀ (n : Nat) (s : List α), ∀ t ∈ pySplit sp n s, t ≠ []
  | 0, s, t, h => by
    rw [pySplit] at h
    split at h
    · simp at h
    · rename_i hs
      simp at h; subst h; simpa using hs
  | n + 1, s, t, h => by
    rw [pySplit] at h
    split at h
    · simp at h
    · rename_i hs
      rcases List.mem_cons.1 h with rfl | h
      · intro e
        cases hd : s.dropWhile sp with
        | nil => rw [hd] at hs; simp at hs
        | cons c u =>
          have := dropWhile_head s c u hd
          rw [hd] at e
          simp [this] at e
      · exact pySplit_ne n _ t h

theorem popEmpty_ne {l : List (List α)} (h : ∀ t ∈ l, t ≠ []) :
    popEmpty (l.map Item.str) = l.map Item.str := by
  cases l with
  | nil => rfl
  | cons a l =>
    simp only [popEmpty, List.map_cons]
    rw [if_neg]
    rw [← List.map_cons, List.getLast?_map]
    intro e
    cases hl : (a :: l).getLast? with
    | none => simp at hl
    | some x =>
      rw [hl] at e
      simp at e
      exact h x (List.mem_of_getLast? hl) e

theorem pySplit_space {sp : α → Bool} {s : List α} (h : ∀ c ∈ s, sp c = true) (n : Nat) :
    pySplit sp n s = [] := by
  have := dropWhile_nil_iff.2 h
  cases n <;> simp [pySplit, this]

/-- C68: the README's str_split and str_rsplit without a separator are str.split and str.rsplit, for
every maxsplit from -1. -/
theorem C68_readme_split_none (hc : CacheOK cache) {sp : α → Bool} (hne : seps ≠ [])
    (he : [] ∉ seps) (hs : SpaceSet sp seps) (hnl : sp nl = true) (s : List α) (n : Int)
    (hn : -1 ≤ n) :
    readmeSplitNone nl cache s seps n false = .ok ((pySplitNone sp s n).map .str) ∧
    readmeSplitNone nl cache s seps n true = .ok ((pyRsplitNone sp s n).map .str) := by
  by_cases h1 : n = -1
  · subst h1
    obtain ⟨t, l, r, ht, hs', hl, hr⟩ := C41_multistrip_general (nl := nl) hne he s true true
    simp only [if_true] at hl hr
    have hlsp : ∀ c ∈ l, sp c = true := concat_all hs.2 (run_concat hl.1)
    have hrsp : ∀ c ∈ r, sp c = true := by
      rcases hr.2 with h | ⟨m, _, h, rfl⟩
      · exact concat_all hs.2 h
      · intro c hc
        rcases List.mem_append.1 hc with hc | hc
        · exact concat_all hs.2 h c hc
        · simp at hc; subst hc; exact hnl
    have hstep : ∀ reverse, multisplit nl cache s seps .no (some (-1)) reverse false .progressive
        = multisplit nl cache t seps .no (if t = [] then some 0 else some (-1)) reverse false .no := by
      intro reverse
      rw [C64_progressive_unlimited,
        C64_strip_then_split s t .no (some (-1)) reverse false .yes (.inl rfl) (by simpa using ht)]
    by_cases ht0 : t = []
    · subst ht0
      have hall : ∀ c ∈ s, sp c = true := by
        rw [hs']; intro c hc
        simp only [List.nil_append, List.mem_append] at hc
        rcases hc with hc | hc
        · exact hlsp c hc
        · exact hrsp c hc
      have hz : ∀ reverse, multisplit nl cache [] seps .no (some 0) reverse false .no
          = .ok [.str []] := fun reverse => by
        have := C39_maxsplit_zero_or_negative (nl := nl) hc hne he [] .no reverse false 0
          (by simp) (by simp)
        simpa using this
      simp only [readmeSplitNone, hstep, if_true, hz, Except.map, pySplitNone, pyRsplitNone, pyRsplit,
        pySplit_space hall, pySplit_space (s := s.reverse) (by simpa using hall)]
      exact ⟨rfl, rfl⟩
    · have hwords : ∀ {reverse : Bool} {L : List (List α)}, Splits seps false reverse t L →
          Words sp L ∧ ∀ x ∈ texts L, x ≠ [] := by
        intro reverse L hL
        have hw := splits_words_dir he hs hL
        refine ⟨hw, ?_⟩
        have hsepne : ∀ c u, t = c :: u → sp c = false := by
          rintro c u rfl
          cases hcs : sp c with
          | false => rfl
          | true => exact absurd ⟨u, rfl⟩ (hl.2 [c] ((hs.1 c).1 hcs))
        have hsepne' : ∀ c u, t = u ++ [c] → sp c = false := by
          rintro c u rfl
          cases hcs : sp c with
          | false => rfl
          | true => exact absurd ⟨u, rfl⟩ (hr.1 [c] ((hs.1 c).1 hcs))
        by_cases h3 : 3 ≤ L.length
        · obtain ⟨a, inner, b, e1, e2⟩ := texts_split L hw.odd h3
          rw [e1]
          have hin := hw.inner
          rw [e2] at hin
          have ha : a ≠ [] := by
            rintro rfl
            match L, e1, hL, hw with
            | x :: w :: rr, e1, hL, hw =>
              simp only [texts, List.cons.injEq] at e1
              have hx := e1.1
              subst hx
              have hws := hw.sep w (by simp [Spec.seps])
              cases w with
              | nil => exact hws.1 rfl
              | cons c w =>
                have := hsepne c (w ++ rr.flatten) (by rw [← hL.1]; simp)
                rw [hws.2 c (by simp)] at this; simp at this
            | [x], e1, _, _ => simp at h3
          have hb : b ≠ [] := by
            rintro rfl
            have ho : (mirror L).length % 2 = 1 := by rw [mirror_length]; exact hw.odd
            have h3' : 3 ≤ (mirror L).length := by rw [mirror_length]; exact h3
            have e1' : (texts (mirror L)).head? = some [] := by
              rw [texts_mirror _ hw.odd, e1]; simp [mirror]
            have hse : ∀ w ∈ Spec.seps (mirror L), w ≠ [] ∧ ∀ c ∈ w, sp c = true := by
              rw [seps_mirror _ hw.odd]
              intro w hwm
              simp only [mirror, List.mem_reverse, List.mem_map] at hwm
              obtain ⟨u, hu, rfl⟩ := hwm
              have := hw.sep u hu
              exact ⟨by simpa using this.1, fun c hc => this.2 c (by simpa using hc)⟩
            have hfl : (mirror L).flatten = t.reverse := by rw [mirror_flatten, hL.1]
            generalize mirror L = M at ho h3' e1' hse hfl
            match M, e1', hse, hfl with
            | x :: w :: rr, e1', hse, hfl =>
              simp only [texts, List.head?_cons, Option.some.injEq] at e1'
              subst e1'
              have hws := hse w (by simp [Spec.seps])
              cases w with
              | nil => exact hws.1 rfl
              | cons c w =>
                have hfl' : t = (w ++ rr.flatten).reverse ++ [c] := by
                  have := congrArg List.reverse hfl
                  rw [List.reverse_reverse] at this
                  rw [← this]; simp
                have := hsepne' c _ hfl'
                rw [hws.2 c (by simp)] at this; simp at this
            | [x], _, _, _ => simp at h3'
          intro x hx
          simp only [List.mem_cons, List.mem_append, List.not_mem_nil, or_false] at hx
          rcases hx with rfl | hx | rfl
          · exact ha
          · exact hin x hx
          · exact hb
        · match L, hw.odd, h3, hL with
          | [], h, _, _ => simp at h
          | [a], _, _, hL =>
            have : a = t := by simpa using hL.1
            subst this
            simpa [texts] using ht0
          | [a, b], h, _, _ => simp at h
          | _ :: _ :: _ :: _, _, h, _ => simp at h
      have hpop : ∀ {L : List (List α)}, (∀ x ∈ texts L, x ≠ []) →
          popEmpty ((texts L).map Item.str) = (texts L).map Item.str := fun h => popEmpty_ne h
      constructor
      · obtain ⟨L, hL, h2⟩ := multisplit_spec (nl := nl) hc hne he false false t
        obtain ⟨hw, hx⟩ := hwords hL
        have hlen : L.flatten.length + r.length ≤ s.length := by
          rw [hL.1, hs']; simp
        have := pySplit_full hw hx hrsp s.length hlen
        rw [hL.1] at this
        have hpy : pySplitNone sp s (-1) = texts L := by
          rw [pySplitNone, if_pos (by omega)]
          rw [show pySplit sp s.length s = pySplit sp s.length (l ++ (t ++ r)) by rw [← hs'],
            pySplit_skip hlsp, this]
        simp only [readmeSplitNone, hstep, ht0, if_false, h2, Except.map, allowed, if_true, cut, render,
          hpop hx, hpy]
      · obtain ⟨L, hL, h2⟩ := multisplit_spec (nl := nl) hc hne he false true t
        obtain ⟨hw, hx⟩ := hwords hL
        obtain ⟨hw', hx'⟩ := mirror_words hw hx
        have hfl : (mirror L).flatten = t.reverse := by rw [mirror_flatten, hL.1]
        have hlen : (mirror L).flatten.length + l.reverse.length ≤ s.length := by
          rw [hfl, hs']; simp; omega
        have := pySplit_full hw' hx' (r := l.reverse) (by simpa using hlsp) s.length hlen
        rw [hfl] at this
        have hpy : pyRsplitNone sp s (-1) = texts L := by
          rw [pyRsplitNone, if_pos (by omega), pyRsplit]
          rw [show pySplit sp s.length s.reverse
              = pySplit sp s.length (r.reverse ++ (t.reverse ++ l.reverse)) by rw [hs']; simp,
            pySplit_skip (by simpa using hrsp), this, texts_mirror _ hw.odd, mirror_mirror]
        simp only [readmeSplitNone, hstep, ht0, if_false, h2, Except.map, allowed, if_true, cut, render,
          hpop hx, hpy]
  · obtain ⟨m, rfl⟩ : ∃ m : Nat, n = m := ⟨n.toNat, by omega⟩
    have hlt : ¬ ((m : Int) < 0) := by omega
    by_cases hsp : ∃ c ∈ s, sp c = false
    · have key := C64_progressive_is_str_split (nl := nl) hc hne he hs hnl s hsp m
      have h2 : ∀ t ∈ pyRsplit sp m s, t ≠ [] := by
        intro t ht
        simp only [pyRsplit, mirror, List.mem_reverse, List.mem_map] at ht
        obtain ⟨u, hu, rfl⟩ := ht
        simpa using pySplit_ne _ _ u hu
      simp only [readmeSplitNone, key.1, key.2, Except.map, pySplitNone, pyRsplitNone, if_neg hlt,
        Int.toNat_natCast, popEmpty_ne (pySplit_ne m s), popEmpty_ne h2, and_self]
    · have hall : ∀ c ∈ s, sp c = true := by
        intro c hcs
        cases h : sp c with
        | true => rfl
        | false => exact absurd ⟨c, hcs, h⟩ hsp
      have key := C64_progressive_all_space (nl := nl) (cache := cache) hne he hs hnl s hall m
      simp only [readmeSplitNone, key, Except.map, pySplitNone, pyRsplitNone, pyRsplit,
        pySplit_space hall, pySplit_space (s := s.reverse) (by simpa using hall)]
      exact ⟨rfl, rfl⟩

end

/-! ### From AS_PAIRS to the other formats -/

section
variable {α : Type} [DecidableEq α] {nl : α} {cache : List (List α) → Option (List (List α))}
  {seps : List (List α)}

/-- `[s[0] for s in result]` (README.md:4800). -/
def firsts (l : List (Item α)) : List (Item α) :=
  l.map (fun | .pair a _ => .str a | x => x)

/-- `[s[0]+s[1] for s in result]` (README.md:4802). -/
def sums (l : List (Item α)) : List (Item α) :=
  l.map (fun | .pair a b => .str (a ++ b) | x => x)

/-- `[s for t in result for s in t][:-1]` (README.md:4804). -/
def flats (l : List (Item α)) : List (Item α) :=
  (l.flatMap (fun | .pair a b => [.str a, .str b] | x => [x])).dropLast

theorem firsts_pairs : ∀ l : List (List α),
    firsts ((pairs l).map (fun x => .pair x.1 x.2)) = (texts l).map .str
  | [] => rfl
  | [_] => rfl
  | a :: w :: r => by
    have := firsts_pairs r
    simp only [firsts] at this ⊢
    simp only [pairs, texts, List.map_cons, this]

theorem sums_pairs : ∀ l : List (List α),
    sums ((pairs l).map (fun x => .pair x.1 x.2)) = (joined l).map .str
  | [] => rfl
  | [a] => by simp [sums, pairs, joined]
  | a :: w :: r => by
    have := sums_pairs r
    simp only [sums] at this ⊢
    simp only [pairs, joined, List.map_cons, this]

theorem flats_pairs : ∀ l : List (List α), l.length % 2 = 1 →
    flats ((pairs l).map (fun x => .pair x.1 x.2)) = l.map .str
  | [], h => by simp at h
  | [a], _ => by simp [flats, pairs]
  | a :: w :: r, h => by
    have ih := flats_pairs r (by simp only [List.length_cons] at h; omega)
    have hne : ((pairs r).map (fun x => (.pair x.1 x.2 : Item α))).flatMap
        (fun | .pair a b => [.str a, .str b] | x => [x]) ≠ [] := by
      match r, h with
      | [], h => simp at h
      | [x], _ => simp [pairs]
      | x :: v :: r, _ => simp [pairs]
    simp only [flats] at ih ⊢
    simp only [pairs, List.map_cons, List.flatMap_cons, List.cons_append, List.nil_append]
    rw [List.dropLast_cons_of_ne_nil (by simp), List.dropLast_cons_of_ne_nil hne, ih]

/-- C68: whatever the other arguments are, the AS_PAIRS output converts mechanically into the three
other formats: the first of each pair is the output with keep false, the two joined the output with
keep true, and all but the last string of all pairs the ALTERNATING output. -/
theorem C68_convert_from_pairs (hc : CacheOK cache) (hne : seps ≠ []) (he : [] ∉ seps) (s : List α)
    (maxsplit : Option Int) (reverse separate : Bool) (strip : Strip) :
    ∃ result,
      multisplit nl cache s seps .asPairs maxsplit reverse separate strip = .ok result ∧
      multisplit nl cache s seps .no maxsplit reverse separate strip = .ok (firsts result) ∧
      multisplit nl cache s seps .yes maxsplit reverse separate strip = .ok (sums result) ∧
      multisplit nl cache s seps .alternating maxsplit reverse separate strip = .ok (flats result) := by
  -- it is enough that the four outputs render one list of odd length
  suffices h : ∃ l : List (List α), l.length % 2 = 1 ∧ ∀ keep,
      multisplit nl cache s seps keep maxsplit reverse separate strip = .ok (render keep l) by
    obtain ⟨l, ho, hk⟩ := h
    refine ⟨_, hk .asPairs, ?_⟩
    rw [hk, hk, hk]
    simp only [render, firsts_pairs, sums_pairs, flats_pairs l ho, and_self]
  have hno : ∀ (s : List α) (maxsplit : Option Int), ∃ l : List (List α), l.length % 2 = 1 ∧ ∀ keep,
      multisplit nl cache s seps keep maxsplit reverse separate .no = .ok (render keep l) := by
    intro s maxsplit
    obtain ⟨l, h1, h2⟩ := multisplit_spec (nl := nl) hc hne he separate reverse s
    exact ⟨_, cut_odd (splits_odd h1), fun keep => h2 keep maxsplit⟩
  have hstrip : ∀ strip, strip = .yes ∨ strip = .left ∨ strip = .right →
      ∃ l : List (List α), l.length % 2 = 1 ∧ ∀ keep,
      multisplit nl cache s seps keep maxsplit reverse separate strip = .ok (render keep l) := by
    intro strip hst
    obtain ⟨t, _, _, ht, _⟩ := C41_multistrip_general (nl := nl) hne he s
      (decide (strip ≠ .right)) (decide (strip ≠ .left))
    obtain ⟨l, h1, h2⟩ := hno t (if t = [] then some 0 else maxsplit)
    exact ⟨l, h1, fun keep => by rw [C64_strip_then_split s t keep maxsplit reverse separate strip hst ht, h2]⟩
  cases strip with
  | no => exact hno s maxsplit
  | yes => exact hstrip _ (.inl rfl)
  | left => exact hstrip _ (.inr (.inl rfl))
  | right => exact hstrip _ (.inr (.inr rfl))
  | progressive =>
    by_cases hm : maxsplit = some (-1)
    · subst hm
      obtain ⟨l, h1, h2⟩ := hstrip .yes (.inl rfl)
      exact ⟨l, h1, fun keep => by rw [C64_progressive_unlimited, h2]⟩
    · obtain ⟨t, _, _, ht, _⟩ := C41_multistrip_general (nl := nl) hne he s (!reverse) reverse
      have hsides : stripSides .progressive maxsplit reverse = (!reverse, reverse) := by
        simp [stripSides, hm]
      by_cases hz : (if t = [] then some 0 else maxsplit) = some 0
      · refine ⟨[t], rfl, fun keep => ?_⟩
        unfold multisplit
        rw [if_neg hne, if_neg (by simp), hsides]
        simp only [ht, hz, msGen, if_true]
        cases keep <;> simp [render, texts, joined, pairs]
      · have hmz : (if t = [] then some 0 else maxsplit) = maxsplit := by
          split
          · rename_i h; exact absurd (if_pos h) hz
          · rfl
        rw [hmz] at hz
        -- the list that the regular expression gives, and what is left of it
        let s' := if reverse then t.reverse else t
        let seps' := if reverse then revSeps cache seps else seps
        let n : Int := maxsplit.getD (-1)
        let l := reSplit (match0 (sepRe seps' separate)) true (if n = -1 then 0 else n) s'
        let m := if (1 + 2 * n) > (lastNonEmpty 0 l : Int) + 2 then l.take (lastNonEmpty 0 l + 1) else l
        have hlo : l.length % 2 = 1 := by
          have hm' : Matches seps' separate (match0 (sepRe seps' separate)) := by
            have hmem := mem_revSeps hc seps
            cases reverse with
            | false => exact match0_sepRe hne he separate
            | true =>
              refine match0_sepRe ?_ ?_ separate
              · intro e
                cases seps with
                | nil => exact hne rfl
                | cons w r =>
                  have := (hmem w.reverse).2 (by simp)
                  rw [show revSeps cache (w :: r) = [] from e] at this; simp at this
              · show [] ∉ revSeps cache seps
                rw [hmem, nil_mem_map_reverse]; exact he
          have he' : [] ∉ seps' := by
            cases reverse with
            | false => exact he
            | true =>
              show [] ∉ revSeps cache seps
              rw [mem_revSeps hc seps, nil_mem_map_reverse]; exact he
          obtain ⟨L, h1, _, ⟨h3, _⟩, h4⟩ := reSplit_spec hm' he' s'
          have hLo := alternates_odd _ h1
          show (reSplit _ true (if n = -1 then 0 else n) s').length % 2 = 1
          by_cases hk : (if n = -1 then 0 else n) = 0
          · rw [hk, h3]; exact hLo
          · rw [(h4 _ hk).1]; exact limit_odd _ _ hLo
        have hmo : m.length % 2 = 1 := by
          show (if _ then _ else _ : List (List α)).length % 2 = 1
          split
          · have heven : ∀ (l : List (List α)) (i : Nat), i % 2 = 0 →
                lastNonEmpty i l % 2 = 0 ∧ (lastNonEmpty i l < i + l.length ∨ lastNonEmpty i l = 0) := by
              intro l
              induction l using evens.induct with
              | case1 => intro i hi; simp [lastNonEmpty]
              | case2 a => intro i hi; simp only [lastNonEmpty]; split <;> simp [hi]
              | case3 a w r ih =>
                intro i hi
                have := ih (i + 2) (by omega)
                simp only [lastNonEmpty, List.length_cons]
                split
                · omega
                · split
                  · exact ⟨hi, .inl (by omega)⟩
                  · simp
            have := heven l 0 rfl
            rw [List.length_take]
            omega
          · exact hlo
        refine ⟨if reverse then mirror m else m, ?_, fun keep => ?_⟩
        · split
          · rw [mirror_length]; exact hmo
          · exact hmo
        · unfold multisplit
          rw [if_neg hne, if_neg (by simp), hsides]
          simp only [ht, hmz, hm, and_false, if_false, decide_true, Bool.true_and, ne_eq,
            not_false_eq_true, Bool.or_true, msGen, hz, if_true]
          congr 1
          show emit keep (if reverse then mirror (progressive keep n l) else progressive keep n l) = _
          have hp : progressive keep n l = if keep = .no then texts m else m := by
            show (if keep = .no then evens m else m) = _
            rw [evens_eq_texts]
          rw [hp]
          by_cases hk : keep = .no
          · subst hk
            simp only [if_true]
            cases reverse with
            | false => exact emit_texts m
            | true =>
              simp only [if_true]
              rw [← texts_mirror _ hmo]; exact emit_texts _
          · simp only [hk, if_false]
            refine emit_render ?_ hk
            split
            · rw [mirror_length]; exact hmo
            · exact hmo

example : multisplit '\n' strCache "1a1z1".toList [['1']] .asPairs (some (-1)) false false .no
    = .ok [.pair [] ['1'], .pair ['a'] ['1'], .pair ['z'] ['1'], .pair [] []] := by decide +kernel

end

/-! ### Where the README's functions differ from the originals -/

/-- A separator of two characters: the README's str_split splits at either character. -/
theorem C99_counterexample_long_separator :
    readmeSplit '\n' strCache "a-b->c".toList "->".toList (-1) false
      = .ok (["a".toList, "b".toList, [], "c".toList].map .str) ∧
    PyStr.split "a-b->c".toList "->".toList (-1) = ["a-b".toList, "c".toList] := by
  decide +kernel

/-- str.split takes any negative maxsplit as no limit; multisplit with -2 does not split. -/
theorem C99_counterexample_negative_maxsplit :
    multisplit '\n' strCache "a,b".toList [[',']] .no (some (-2)) false true .no
      = .ok (["a,b".toList].map .str) ∧
    PyStr.split "a,b".toList [','] (-2) = ["a".toList, "b".toList] := by
  decide +kernel

example : readmeSplitNone '\n' strCache " a b ".toList strWhitespace (-1) true
    = .ok (["a".toList, "b".toList].map .str) :=
  ((C68_readme_split_none strCache_ok (by decide +kernel) (by decide +kernel) C43_whitespace_tables.1
    (by decide +kernel) " a b ".toList (-1) (by decide)).2).trans (by decide +kernel)

example : multisplit '\n' strCache "a-b->c->".toList ["->".toList] .no (some (-1)) false true .no
    = .ok (["a-b".toList, "c".toList, []].map .str) := by decide +kernel

end Big.MS
