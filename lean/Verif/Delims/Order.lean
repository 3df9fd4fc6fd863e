import Verif.Delims.Lemmas
import Verif.Multisplit.Order
/-! # C80: the order of the mapping of delimiters does not matter -/
namespace Big.SD
open Big.MS (CacheOK)
variable {α : Type} [DecidableEq α] {E : Env α}

theorem openers_perm {ds ds' : Delims α} (h : ds.Perm ds') (w : List α) : w ∈ openers ds ↔ w ∈ openers ds' :=
  (h.map _).mem_iff

theorem nestedClosers_perm {ds ds' : Delims α} (h : ds.Perm ds') (w : List α) :
    w ∈ nestedClosers ds ↔ w ∈ nestedClosers ds' := ((h.filter _).map _).mem_iff

theorem delimiterTokens_perm {ds ds' : Delims α} (h : ds.Perm ds') (w : List α) :
    w ∈ delimiterTokens ds ↔ w ∈ delimiterTokens ds' := by
  simp only [delimiterTokens, List.mem_append, openers_perm h]
  have h1 : w ∈ closers ds ↔ w ∈ closers ds' := (h.map _).mem_iff
  have h2 : w ∈ escapes ds ↔ w ∈ escapes ds' := ((h.filter _).map _).mem_iff
  rw [h1, h2]

theorem allTokens_perm {ds ds' : Delims α} (h : ds.Perm ds') (w : List α) :
    w ∈ allTokens E ds ↔ w ∈ allTokens E ds' := by
  have h1 : allNewlines E ds = allNewlines E ds' := by
    unfold allNewlines
    rw [h.any_eq]
  simp only [allTokens, List.mem_append, delimiterTokens_perm h, h1]

theorem withOpeners_perm {ds ds' : Delims α} (h : ds.Perm ds') (hn : (openers ds).Nodup) (d : Dict α) :
    withOpeners ds d = withOpeners ds' d := by
  funext t
  by_cases ht : t ∈ openers ds
  · obtain ⟨⟨k, x⟩, hm, rfl⟩ := List.mem_map.1 ht
    rw [withOpeners_mem ds d hn hm, withOpeners_mem ds' d ((h.map _).nodup_iff.1 hn) (h.mem_iff.1 hm)]
  · rw [withOpeners_not (d := d) ds d ht, withOpeners_not (d := d) ds' d (fun h' => ht ((openers_perm h t).2 h'))]

theorem defaults_perm {ds ds' : Delims α} (h : ds.Perm ds') : defaults ds = defaults ds' := by
  funext t
  simp only [defaults, delimiterTokens_perm h]

theorem ownState_perm {ds ds' : Delims α} (h : ds.Perm ds') (d : Delim α) : ownState E ds d = ownState E ds' d := by
  have key : ∀ (f : List α → Option (Act α)) (d : Dict α),
      (allTokens E ds).foldl (fun st t => updOpt st t (f t)) d =
        (allTokens E ds').foldl (fun st t => updOpt st t (f t)) d := by
    intro f d
    funext t
    rw [fold_scan, fold_scan]
    simp only [allTokens_perm h]
  unfold ownState
  simp only [defaults_perm h, key]

theorem dict_perm {ds ds' : Delims α} (h : ds.Perm ds') (hn : (openers ds).Nodup) : dict E ds = dict E ds' := by
  funext st
  unfold dict
  rcases st with _ | ⟨k, d⟩
  · show withOpeners ds (defaults ds) = withOpeners ds' (defaults ds')
    rw [withOpeners_perm h hn, defaults_perm h]
  · show (if d.quoting then ownState E ds d else withOpeners ds (ownState E ds d)) = _
    rw [withOpeners_perm h hn, ownState_perm h]

theorem get_perm {ds ds' : Delims α} (h : ds.Perm ds') (hn : (openers ds).Nodup) : get E ds = get E ds' := by
  funext st t
  unfold get
  rw [dict_perm h hn]

theorem resolve_perm {ds ds' : Delims α} (hg : get E ds = get E ds') : resolve E ds = resolve E ds' := by
  funext st dl a
  cases a <;> simp [resolve, hg]

theorem go_perm {ds ds' : Delims α} (hg : get E ds = get E ds') : ∀ (i : List (List α × List α)) (m : M α),
    go E ds i m = go E ds' i m
  | [], m => rfl
  | (s, dl) :: rest, m => by
    have ih := go_perm hg rest
    unfold go
    simp only [ih, hg, resolve_perm hg]

theorem split_perm (hc : CacheOK E.cache) {ds ds' : Delims α} (h : ds.Perm ds') : split E ds = split E ds' := by
  funext s
  unfold split
  rw [Big.MS.C38_multisplit_set hc (allTokens_perm h)]

theorem run_perm {ds ds' : Delims α} (hg : get E ds = get E ds') (hs : split E ds = split E ds') (text : List α) :
    ∀ (fuel : Nat) (i : List (List α × List α)) (m : M α), run E ds text fuel i m = run E ds' text fuel i m
  | 0, i, m => by unfold run; rw [go_perm hg]
  | fuel + 1, i, m => by
    have ih := run_perm hg hs text fuel
    unfold run
    simp only [go_perm hg, ih, hs]

theorem enter_perm {ds ds' : Delims α} (hg : get E ds = get E ds') :
    ∀ (state : List (List α)) (c : State α) (st : List (State α × Option (List α))),
      enter E ds state c st = enter E ds' state c st
  | [], c, st => rfl
  | k :: rest, c, st => by
    have ih := enter_perm hg rest
    unfold enter
    simp only [hg, ih]

/-- C80: the order in which the mapping lists its delimiters does not matter, whatever the delimiters, the text and the
state. (A mapping has each key once.) -/
theorem C80_order (hc : CacheOK E.cache) {ds ds' : Delims α} (h : ds.Perm ds') (hn : (openers ds).Nodup)
    (s : List α) (state : List (List α)) : splitDelimiters E s ds state = splitDelimiters E s ds' state := by
  have hg := get_perm (E := E) h hn
  have hs := split_perm hc h
  have h1 : ds.isEmpty = ds'.isEmpty := by
    cases ds with
    | nil => rw [List.nil_perm.1 h]
    | cons a l => cases ds' with
      | nil => have := h.length_eq; simp at this
      | cons b m => rfl
  have h2 : ((openers ds).any fun k => (nestedClosers ds).contains k) =
      ((openers ds').any fun k => (nestedClosers ds').contains k) := by
    rw [Bool.eq_iff_iff]
    simp only [List.any_eq_true, List.contains_iff_mem, openers_perm h, nestedClosers_perm h]
  unfold splitDelimiters
  simp only [h1, h2, openers_perm h, enter_perm hg, run_perm hg hs, hs]

end Big.SD
