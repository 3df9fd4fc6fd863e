import Verif.Version.Sound
import Verif.Version.Order
/- C24, C25, C26: parsing, printing and keyword construction. -/
namespace Big.Version
open Big.Rx

/-! ### reading the groups -/

theorem splitDot_nodot {w : List Char} (h : '.' ∉ w) : splitDot w = [w] := by
  induction w with
  | nil => rfl
  | cons x w ih =>
    simp only [List.mem_cons, not_or] at h
    rw [splitDot, if_neg (fun e => h.1 e.symm), ih h.2]

theorem splitDot_dot {w s : List Char} (h : '.' ∉ w) : splitDot (w ++ '.' :: s) = w :: splitDot s := by
  induction w with
  | nil => simp [splitDot]
  | cons x w ih =>
    simp only [List.mem_cons, not_or] at h
    rw [List.cons_append, splitDot, if_neg (fun e => h.1 e.symm), ih h.2]

theorem splitDot_chunks {w : List Char} {ws : List (List Char)} (h : '.' ∉ w)
    (hs : ∀ x ∈ ws, '.' ∉ x) : splitDot (w ++ (ws.map (fun r => '.' :: r)).flatten) = w :: ws := by
  induction ws generalizing w with
  | nil => simpa using splitDot_nodot h
  | cons x ws ih =>
    simp only [List.map_cons, List.flatten_cons, List.cons_append]
    rw [splitDot_dot h, ih (hs x (by simp)) (fun y hy => hs y (by simp [hy]))]

theorem joinDot_eq (w : List Char) (ws : List (List Char)) :
    joinDot (w :: ws) = w ++ (ws.map (fun r => '.' :: r)).flatten := by
  induction ws generalizing w with
  | nil => simp [joinDot]
  | cons x ws ih => rw [joinDot, ih x]; simp; simp

theorem num_nodot {w : List Char} (h : IsNum w) : '.' ∉ w := by
  intro hm
  exact absurd rfl (dig_facts (h.2 _ hm)).2.2.2.2.2.2.1

theorem local_facts {x : Char} (h : isLocalChar x = true) : x ≠ '.' ∧ toDot x = x := by
  have k1 : isLocalChar '.' = false := by decide +kernel
  have k2 : isLocalChar '-' = false := by decide +kernel
  have k3 : isLocalChar '_' = false := by decide +kernel
  have h1 : x ≠ '.' := by rintro rfl; rw [h] at k1; simp at k1
  have h2 : x ≠ '-' := by rintro rfl; rw [h] at k2; simp at k2
  have h3 : x ≠ '_' := by rintro rfl; rw [h] at k3; simp at k3
  exact ⟨h1, by simp [toDot, h2, h3]⟩

theorem splitLocal {s : List Char} {l : List (Char × List Char)} (hs : IsSeg s)
    (hl : ∀ p ∈ l, isSep p.1 = true ∧ IsSeg p.2) :
    splitDot ((s ++ (l.map (fun p => p.1 :: p.2)).flatten).map toDot) = s :: l.map (·.2) := by
  have hid : ∀ {w : List Char}, IsSeg w → w.map toDot = w := by
    intro w hw
    exact (List.map_congr_left (g := id) (fun x hx => (local_facts (hw.2 x hx)).2)).trans (List.map_id w)
  have e : (s ++ (l.map (fun p => p.1 :: p.2)).flatten).map toDot =
      s ++ ((l.map (·.2)).map (fun r => '.' :: r)).flatten := by
    rw [List.map_append, hid hs, List.map_flatten, List.map_map, List.map_map]
    congr 2
    apply List.map_congr_left
    intro p hp
    have hd : toDot p.1 = '.' := by
      rcases sep_cases (hl p hp).1 with h | h | h <;> rw [h] <;> rfl
    simp [hd, hid (hl p hp).2]
  rw [e]
  refine splitDot_chunks (fun h => (local_facts (hs.2 _ h)).1 rfl) ?_
  intro x hx
  obtain ⟨p, hp, rfl⟩ := List.mem_map.1 hx
  exact fun h => (local_facts ((hl p hp).2.2 _ h)).1 rfl

theorem trimRev_eq (l : List Nat) (h : l ≠ []) :
    trimRev l = if l.dropWhile (· = 0) = [] then [0] else l.dropWhile (· = 0) := by
  induction l with
  | nil => exact absurd rfl h
  | cons x l ih =>
    cases l with
    | nil =>
      cases x with
      | zero => rfl
      | succ n => simp [trimRev]
    | cons y l =>
      cases x with
      | zero =>
        rw [trimRev, ih (by simp)]
        simp
      | succ n => simp [trimRev]

theorem trim_eq {l : List Nat} (h : l ≠ []) : trim l = dropTrailingZeros l := by
  unfold trim dropTrailingZeros
  rw [trimRev_eq _ (by simpa using h)]
  by_cases hd : l.reverse.dropWhile (· = 0) = []
  · rw [if_pos hd, if_pos (by rw [hd]; rfl)]; rfl
  · rw [if_neg hd, if_neg (by simpa using hd)]

/-- What the code makes of a written version. -/
def Written.code (w : Written) : Ver where
  epoch := w.epoch.map toNat
  release := (dropTrailingZeros ((w.rel :: w.rels).map toNat)).map Int.ofNat
  level := match w.pre with | none => .final | some p => p.label.level
  serial := w.pre.bind (fun p => p.num.map toNat)
  post := w.post.bind (fun p => match p with | .dash n => some (toNat n) | .word p => p.num.map toNat)
  dev := w.dev.bind (fun p => p.num.map toNat)
  loc := w.loc.map (fun l => l.1 :: l.2.map (·.2))

theorem normLevel_text (l : PreLabel) : normLevel l.text.toList = some l.level := by
  cases l <;> decide +kernel

theorem lk_ne {a b : String} {x : List Char} {c : Caps Char} (h : (a == b) = false) :
    ((b, x) :: c).lookup a = c.lookup a := by
  rw [List.lookup_cons, h]

theorem level_ne_final (l : PreLabel) : l.level ≠ .final := by cases l <;> decide

theorem parse_render {w : Written} (h : w.Ok) : parse w.render = .ok w.code := by
  have hrel : trim ((splitDot (renderRel w.rel w.rels)).map toNat) =
      dropTrailingZeros ((w.rel :: w.rels).map toNat) := by
    rw [renderRel, splitDot_chunks (num_nodot h.rel) (fun x hx => num_nodot (h.rels x hx)),
      trim_eq (by simp)]
  have hloc : (w.loc.map (fun l => splitDot ((l.1 ++ (l.2.map (fun p => p.1 :: p.2)).flatten).map toDot)))
      = w.loc.map (fun l => l.1 :: l.2.map (·.2)) := by
    cases hl : w.loc with
    | none => rfl
    | some l =>
      simp only [Option.map_some]
      rw [splitLocal (h.loc l hl).1 (h.loc l hl).2]
  unfold parse
  rw [match_render h]
  obtain ⟨ws1, v, ep, rel, rels, pr, po, dv, lo, ws2⟩ := w
  simp only at hrel hloc
  have hlv : ∀ q : Part PreLabel, normLevel q.label.text.toList = some q.label.level :=
    fun q => normLevel_text _
  simp only [Written.caps, Written.code]
  rcases lo with _ | ⟨lo1, lo2⟩ <;>
  rcases dv with _ | ⟨dv1, dvl, dv2, _ | dvn⟩ <;>
  rcases po with _ | (pon | ⟨po1, pol, po2, _ | pon⟩) <;>
  rcases pr with _ | ⟨pr1, prl, pr2, _ | prn⟩ <;>
  cases ep <;>
  simp [ofGroups, locCaps, devCaps, postCaps, preCaps, List.lookup, hrel, normLevel_text,
    level_ne_final] <;>
  simpa using hloc

/-! ### C25 -/

theorem key_congr {a b : Ver} (h1 : a.epoch.getD 0 = b.epoch.getD 0) (h2 : a.release = b.release)
    (h3 : a.level = b.level) (h4 : a.serial.getD 0 = b.serial.getD 0) (h5 : a.post = b.post)
    (h6 : a.dev = b.dev) (h7 : a.loc = b.loc) : a.eq b = true := by
  rw [eq_spec]; exact ⟨h1, h2, h3, h4, h5, h6, by rw [Ver.segs, Ver.segs, h7]⟩

theorem code_eq_meaning {w : Written} (hn : w.Numbered) : w.code.eq w.meaning = true := by
  obtain ⟨n1, n2⟩ := hn
  refine key_congr ?_ rfl rfl ?_ ?_ ?_ rfl
  · show (w.epoch.map toNat).getD 0 = _
    simp [Written.meaning]
  · show (w.pre.bind (fun p => p.num.map toNat)).getD 0 = _
    cases hp : w.pre with
    | none => simp [Written.meaning, hp]
    | some p => simp [Written.meaning, hp, Part.number]
  · simp only [Written.code, Written.meaning]
    cases hp : w.post with
    | none => rfl
    | some p =>
      cases p with
      | dash n => rfl
      | word p =>
        have := n1 p hp
        cases hm : p.num with
        | none => rw [hm] at this; simp at this
        | some n => simp [Post.number, Part.number, hm]
  · simp only [Written.code, Written.meaning]
    cases hp : w.dev with
    | none => rfl
    | some p =>
      have := n2 p hp
      cases hm : p.num with
      | none => rw [hm] at this; simp at this
      | some n => simp [Part.number, hm]

/-- C110: every way of writing a version with lower-case labels whose post and dev
parts have their numbers is accepted, and the result is the version PEP 440 says it is: so leading v,
white space, separators, spelling of labels, leading zeros, trailing '.0' and an absent number after a
pre-release label do not matter. For an absent number after post or dev, and upper-case
pre-release labels, it is false (`C110_violated_post`, `C110_violated_case`). -/
theorem C110_normalises (w : Written) (h : w.Ok) (hn : w.Numbered) :
    ∃ v, parse w.render = .ok v ∧ v.eq w.meaning = true :=
  ⟨w.code, parse_render h, code_eq_meaning hn⟩

/-- C110: in particular two spellings with the same meaning give equal versions. -/
theorem C110_equal_spellings (w₁ w₂ : Written) (h₁ : w₁.Ok) (h₂ : w₂.Ok) (n₁ : w₁.Numbered)
    (n₂ : w₂.Numbered) (h : w₁.meaning = w₂.meaning) :
    ∃ v₁ v₂, parse w₁.render = .ok v₁ ∧ parse w₂.render = .ok v₂ ∧ v₁.eq v₂ = true := by
  obtain ⟨v₁, p₁, e₁⟩ := C110_normalises w₁ h₁ n₁
  obtain ⟨v₂, p₂, e₂⟩ := C110_normalises w₂ h₂ n₂
  refine ⟨v₁, v₂, p₁, p₂, ?_⟩
  rw [h] at e₁
  have c := C22_eq_equivalence v₂ w₂.meaning v₁
  have d := C22_eq_equivalence v₁ w₂.meaning v₂
  exact d.2.2.1 e₁ (c.2.1 e₂)

/-- Trailing zeros do not change the meaning of a release. -/
theorem dropTrailingZeros_zero (l : List Nat) (h : l ≠ []) :
    dropTrailingZeros (l ++ [0]) = dropTrailingZeros l := by
  simp [dropTrailingZeros]

/-- A case with all the parts. -/
example : ∃ w : Written, w.Ok ∧ w.Numbered ∧
    w.render = " V01!2.3.0-preview.post_67.dev89+Ab-3 \n".toList :=
  ⟨⟨[' '], some 'V', some ['0','1'], ['2'], [['3'],['0']], some ⟨some '-', .preview, none, none⟩,
    some (.word ⟨some '.', .post, some '_', some ['6','7']⟩), some ⟨some '.', (), none, some ['8','9']⟩,
    some (['A','b'], [('-', ['3'])]), [' ', '\n']⟩, by
    constructor <;> simp [IsNum, Part.Ok, Post.Ok, IsSeg] <;> decide +kernel, by
    simp [Written.Numbered], by decide +kernel⟩

/-- C110 is false of the code: "1.0.post" and "1.0.dev" are read as plain 1.0. -/
theorem C110_violated_post :
    ∃ a b c, parse "1.0.post".toList = .ok a ∧ parse "1.0.post0".toList = .ok b ∧
      parse "1.0".toList = .ok c ∧ a.eq b = false ∧ a.eq c = true ∧
      ∃ d e, parse "1.0.dev".toList = .ok d ∧ parse "1.0.dev0".toList = .ok e ∧ d.eq e = false ∧
        d.eq c = true :=
  ⟨⟨none, [1], .final, none, none, none, none⟩, ⟨none, [1], .final, none, some 0, none, none⟩,
    ⟨none, [1], .final, none, none, none, none⟩, by decide +kernel, by decide +kernel,
    by decide +kernel, by decide +kernel, by decide +kernel,
    ⟨none, [1], .final, none, none, none, none⟩, ⟨none, [1], .final, none, none, some 0, none⟩,
    by decide +kernel⟩

/-- C110 is false of the code: an upper-case pre-release label raises AssertionError. -/
theorem C110_violated_case : parse "1.0RC1".toList = .error .assertionError ∧
    (parse "1.0rc1".toList).isOk = true := by decide +kernel

/-! ### C24 and C26 -/

/-- Versions that str() writes in a form that can be read back. -/
structure Canonical (v : Ver) : Prop where
  release : ∃ l : List Nat, v.release = l.map Int.ofNat ∧ l ≠ [] ∧ dropTrailingZeros l = l
  serial : v.level = .final → v.serial.getD 0 = 0
  loc : ∀ l ∈ v.loc, l ≠ [] ∧ ∀ s ∈ l, IsSeg s

theorem natStr_isNum (n : Nat) : IsNum (natStr n) := by
  refine ⟨Nat.toDigits_ne_nil, fun c hc => ?_⟩
  have := Nat.isDigit_of_mem_toDigits (by decide) (by decide) hc
  simp only [Char.isDigit, Bool.and_eq_true, decide_eq_true_eq] at this
  have h1 : 48 ≤ c.toNat := this.1
  have h2 : c.toNat ≤ 57 := this.2
  have key : ∀ m : Fin 10, isDig (Char.ofNat (48 + m.1)) = true := by decide +kernel
  have e : c = Char.ofNat (48 + (c.toNat - 48)) := by
    rw [show 48 + (c.toNat - 48) = c.toNat by omega, Char.ofNat_toNat]
  rw [e]
  exact key ⟨c.toNat - 48, by omega⟩

theorem toNat_natStr (n : Nat) : toNat (natStr n) = n := Nat.ofDigitChars_ten_toDigits

theorem intStr_ofNat (n : Nat) : intStr (Int.ofNat n) = natStr n := rfl

/-- The pre-release label str() writes. -/
def Level.label : Level → Option PreLabel
  | .alpha => some .a | .beta => some .b | .rc => some .rc | .final => none

/-- The digits of a number that is not 0. -/
def truthyNum : Option Nat → Option (List Char)
  | none => none | some 0 => none | some (n + 1) => some (natStr (n + 1))

theorem truthyNum_num {o : Option Nat} : ∀ d ∈ truthyNum o, IsNum d := by
  intro d hd
  cases o with
  | none => cases hd
  | some n => cases n with
    | zero => cases hd
    | succ n => cases hd; exact natStr_isNum _

theorem truthyNum_val (o : Option Nat) : ((truthyNum o).map toNat).getD 0 = o.getD 0 := by
  cases o with
  | none => rfl
  | some n => cases n with
    | zero => rfl
    | succ n => simp [truthyNum, toNat_natStr]

/-- The way str() writes a version. -/
def canon (v : Ver) (l : List Nat) : Written where
  epoch := truthyNum v.epoch
  rel := natStr (l.headD 0)
  rels := l.tail.map natStr
  pre := v.level.label.map (fun p => ⟨none, p, none, truthyNum v.serial⟩)
  post := v.post.map (fun n => .word ⟨some '.', .post, none, some (natStr n)⟩)
  dev := v.dev.map (fun n => ⟨some '.', (), none, some (natStr n)⟩)
  loc := v.loc.map (fun l => (l.headD [], l.tail.map (fun s => ('.', s))))

theorem canon_ok {v : Ver} (h : Canonical v) (l : List Nat) : (canon v l).Ok where
  ws₁ := by simp [canon]
  v := by simp [canon]
  epoch := truthyNum_num
  rel := natStr_isNum _
  rels := by
    intro r hr
    obtain ⟨n, _, rfl⟩ := List.mem_map.1 hr
    exact natStr_isNum n
  pre := by
    intro p hp
    simp only [canon, Option.mem_def, Option.map_eq_some_iff] at hp
    obtain ⟨q, _, rfl⟩ := hp
    exact ⟨by simp, by simp, truthyNum_num⟩
  post := by
    intro p hp
    simp only [canon, Option.mem_def, Option.map_eq_some_iff] at hp
    obtain ⟨q, _, rfl⟩ := hp
    exact ⟨by simp [isSep], by simp, by simpa using natStr_isNum q⟩
  dev := by
    intro p hp
    simp only [canon, Option.mem_def, Option.map_eq_some_iff] at hp
    obtain ⟨q, _, rfl⟩ := hp
    exact ⟨by simp [isSep], by simp, by simpa using natStr_isNum q⟩
  loc := by
    intro p hp
    simp only [canon, Option.mem_def, Option.map_eq_some_iff] at hp
    obtain ⟨q, hq, rfl⟩ := hp
    obtain ⟨h1, h2⟩ := h.loc q hq
    cases q with
    | nil => exact absurd rfl h1
    | cons s q =>
      refine ⟨h2 s (by simp), ?_⟩
      intro p hp
      obtain ⟨t, ht, rfl⟩ := List.mem_map.1 hp
      exact ⟨by simp [isSep], h2 t (by simp at ht; simp [ht])⟩
  ws₂ := by simp [canon]
  unambiguous := by
    intro p _ _ _ n hn
    simp only [canon, Option.map_eq_some_iff] at hn
    obtain ⟨_, _, h⟩ := hn
    simp at h

theorem canon_str {v : Ver} {l : List Nat} (hl : v.release = l.map Int.ofNat) (hne : l ≠ [])
    (h : Canonical v) : v.str = .ok (canon v l).render := by
  have hrel : joinDot (v.release.map intStr) = renderRel (canon v l).rel (canon v l).rels := by
    cases l with
    | nil => exact absurd rfl hne
    | cons n l =>
      rw [hl, List.map_map]
      simp only [List.map_cons, joinDot_eq, renderRel, canon, List.headD_cons, List.tail_cons,
        List.map_map]
      rfl
  have ht : ∀ o : Option Nat, truthy o = (truthyNum o).getD [] := by
    intro o; cases o with
    | none => rfl
    | some n => cases n <;> rfl
  have ht2 : ∀ o : Option Nat, (truthyNum o).getD [] = [] ↔ o.getD 0 = 0 := by
    intro o; cases o with
    | none => simp [truthyNum]
    | some n => cases n with
      | zero => simp [truthyNum]
      | succ n => simpa [truthyNum] using (natStr_isNum (n + 1)).1
  unfold Ver.str
  simp only [ht]
  rw [if_neg]
  · congr 1
    rw [hrel]
    have hep : (if (truthyNum v.epoch).getD [] = [] then [] else (truthyNum v.epoch).getD [] ++ ['!']) =
        (match truthyNum v.epoch with | none => [] | some e => e ++ ['!']) := by
      cases hv : v.epoch with
      | none => rfl
      | some n => cases n with
        | zero => rfl
        | succ n =>
          rw [if_neg]
          · rfl
          · exact (natStr_isNum (n + 1)).1
    have hpre : (if v.level.str = [] then [] else v.level.str ++ (truthyNum v.serial).getD []) =
        renderPre (canon v l).pre := by
      simp only [canon]
      cases v.level <;> simp [Level.str, Level.label, renderPre, Part.render, PreLabel.text]
    have hpost : postStr v.post =
        renderPost (canon v l).post := by
      simp only [canon]
      cases v.post <;> simp [postStr, renderPost, Post.render, Part.render, PostLabel.text]
    have hdev : devStr v.dev =
        renderDev (canon v l).dev := by
      simp only [canon]
      cases v.dev <;> simp [devStr, renderDev, Part.render]
    have hloc : locStr v.loc =
        renderLocO (canon v l).loc := by
      simp only [canon]
      cases hv : v.loc with
      | none => rfl
      | some q => cases q with
        | nil => exact absurd rfl (h.loc [] hv).1
        | cons a q => simp [locStr, renderLocO, renderLocal, joinDot_eq, Function.comp_def]
    rw [hep, hpre, hloc, hpost, hdev]
    have er : ∀ w : Written, w.ws₁ = [] → w.v = none → w.ws₂ = [] → w.render =
        (match w.epoch with | none => [] | some e => e ++ ['!']) ++ renderRel w.rel w.rels ++
        renderPre w.pre ++ renderPost w.post ++ renderDev w.dev ++ renderLocO w.loc := by
      intro w h1 h2 h3
      simp only [Written.render, renderRel, renderPre, renderPost, renderDev, renderLocO, h1, h2, h3,
        List.append_nil, List.nil_append, Option.toList_none, List.append_assoc]
      cases w.loc <;> cases w.dev <;> cases w.post <;> cases w.pre <;> cases w.epoch <;> rfl
    rw [er _ rfl rfl rfl]
    rfl
  · rintro ⟨h1, h2⟩
    have hf : v.level = .final := by
      revert h1; cases v.level <;> simp [Level.str]
    exact h2 ((ht2 _).2 (h.serial hf))

theorem canon_code {v : Ver} {l : List Nat} (hl : v.release = l.map Int.ofNat) (hne : l ≠ [])
    (htr : dropTrailingZeros l = l) (h : Canonical v) : (canon v l).code.eq v = true := by
  refine key_congr ?_ ?_ ?_ ?_ ?_ ?_ ?_
  · exact truthyNum_val v.epoch
  · have : ((canon v l).rel :: (canon v l).rels).map toNat = l := by
      cases l with
      | nil => exact absurd rfl hne
      | cons n l =>
        simp only [canon, List.headD_cons, List.tail_cons, List.map_cons, List.map_map, toNat_natStr]
        congr 1
        exact (List.map_congr_left (g := id) (fun x _ => toNat_natStr x)).trans (List.map_id l)
    show (dropTrailingZeros (((canon v l).rel :: (canon v l).rels).map toNat)).map Int.ofNat = _
    rw [this, htr, hl]
  · simp only [Written.code, canon]
    cases v.level <;> rfl
  · show (((canon v l).pre.bind (fun p => p.num.map toNat))).getD 0 = _
    have := truthyNum_val v.serial
    have hf := h.serial
    simp only [canon]
    cases hv : v.level <;> simp only [Level.label, Option.map_some, Option.map_none, Option.bind_some,
      Option.bind_none] <;> first | exact this | (rw [hf hv]; rfl)
  · simp only [Written.code, canon]
    cases v.post <;> simp [toNat_natStr]
  · simp only [Written.code, canon]
    cases v.dev <;> simp [toNat_natStr]
  · simp only [Written.code, canon]
    cases hv : v.loc with
    | none => rfl
    | some q => cases q with
      | nil => exact absurd rfl (h.loc [] hv).1
      | cons a q => simp [Function.comp_def]

theorem canonical_roundtrip {v : Ver} (h : Canonical v) :
    ∃ t v', v.str = .ok t ∧ parse t = .ok v' ∧ v'.eq v = true := by
  obtain ⟨l, h1, h2, h3⟩ := h.release
  exact ⟨_, _, canon_str h1 h2 h, parse_render (canon_ok h l), canon_code h1 h2 h3 h⟩

theorem dropTrailingZeros_idem (l : List Nat) :
    dropTrailingZeros (dropTrailingZeros l) = dropTrailingZeros l ∧ dropTrailingZeros l ≠ [] := by
  unfold dropTrailingZeros
  cases hd : l.reverse.dropWhile (· = 0) with
  | nil => simp
  | cons x r =>
    have hx : x ≠ 0 := by
      have := List.head_dropWhile_not (l := l.reverse) (fun y : Nat => decide (y = 0)) (by rw [hd]; simp)
      simpa [hd] using this
    have e : ¬ (x :: r).reverse = [] := by simp
    rw [if_neg e, List.reverse_reverse]
    simp [hx]

theorem lookup_skip {g : String} {c d : Caps Char} (h : c.lookup g = none) :
    (c ++ d).lookup g = d.lookup g := by
  induction c with
  | nil => rfl
  | cons p c ih =>
    rw [List.cons_append]
    rw [List.lookup_cons] at *
    cases hg : g == p.1 with
    | true => rw [hg] at h; simp at h
    | false => rw [hg] at h; exact ih h

theorem lookup_stop {g : String} {c d : Caps Char} (h : d.lookup g = none) :
    (c ++ d).lookup g = c.lookup g := by
  induction c with
  | nil => exact h
  | cons p c ih =>
    rw [List.cons_append, List.lookup_cons, List.lookup_cons, ih]

/-- What the attributes of a parsed version are. -/
theorem ofGroups_ok {c : Caps Char} {v : Ver} (h : ofGroups c = .ok v) :
    v.release = (trim ((splitDot ((c.lookup "release").getD [])).map toNat)).map Int.ofNat ∧
    v.serial = (c.lookup "pre_n").map toNat ∧
    (v.level = .final → c.lookup "pre_n" = none) ∧
    v.loc = (c.lookup "local").map (fun l => splitDot (l.map toDot)) := by
  unfold ofGroups at h
  simp only at h
  split at h
  · cases h
  · split at h
    · cases h
    · rename_i hser
      split at h
      · cases h
      · split at h
        · cases h
        · cases h
          refine ⟨rfl, rfl, fun hf => ?_, rfl⟩
          cases hp : c.lookup "pre_n" with
          | none => rfl
          | some n => exact absurd ⟨hf, by rw [hp]; rfl⟩ hser

/-- What parsing returns can be printed and read back. -/
theorem parse_canonical {s : List Char} {v : Ver} (h : parse s = .ok v) : Canonical v := by
  unfold parse at h
  cases hm : versionR.matchStart s with
  | none => rw [hm] at h; simp at h
  | some x =>
    obtain ⟨c, rest⟩ := x
    rw [hm] at h
    simp only at h
    obtain ⟨cl, cd, cp, cr, ce, c1, hl, hd, hp, hr, ⟨s0, l0, hs0, hl0, hc1⟩, he, hc⟩ := match_groups hm
    have hrel : splitDot (renderRel s0 l0) = s0 :: l0 := by
      rw [renderRel, splitDot_chunks (num_nodot hs0) (fun x hx => num_nodot (hl0 x hx))]
    have htr := dropTrailingZeros_idem ((s0 :: l0).map toNat)
    have l1 : cl.lookup "release" = none := by
      rcases hl with rfl | ⟨sl, ll, hsl, hll, rfl⟩ <;> rfl
    have l2 : cd.lookup "release" = none ∧ cd.lookup "local" = none := by
      rcases hd with rfl | ⟨_, rfl⟩ | ⟨_, _, _, rfl⟩ <;> exact ⟨rfl, rfl⟩
    have l3 : cp.lookup "release" = none ∧ cp.lookup "local" = none := by
      rcases hp with rfl | ⟨_, _, rfl⟩ | ⟨_, rfl⟩ | ⟨_, _, _, rfl⟩ <;> exact ⟨rfl, rfl⟩
    have l4 : cr.lookup "release" = none ∧ cr.lookup "local" = none := by
      rcases hr with rfl | ⟨pl, _, rfl⟩ | ⟨_, pl, _, _, rfl⟩ <;> exact ⟨rfl, rfl⟩
    have l5 : ce.lookup "local" = none := by
      rcases he with rfl | ⟨_, _, rfl⟩ <;> rfl
    have hr1 : c.lookup "release" = some (renderRel s0 l0) := by
      rw [hc, lookup_skip l1, lookup_skip l2.1, lookup_skip l3.1, lookup_skip l4.1, hc1]; rfl
    have hr2 : c.lookup "local" = cl.lookup "local" := by
      have : (cd ++ (cp ++ (cr ++ (c1 ++ ce)))).lookup "local" = none := by
        rw [lookup_skip l2.2, lookup_skip l3.2, lookup_skip l4.2, hc1]
        exact l5
      rw [hc, lookup_stop this]
    obtain ⟨k1, k2, k3, k4⟩ := ofGroups_ok h
    refine ⟨⟨dropTrailingZeros ((s0 :: l0).map toNat), ?_, htr.2, htr.1⟩, ?_, ?_⟩
    · rw [k1, hr1, Option.getD_some, hrel, trim_eq (by simp)]
    · intro hf; rw [k2, k3 hf]; rfl
    · intro l hlm
      rw [k4, hr2] at hlm
      rcases hl with rfl | ⟨sl, ll, hsl, hll, rfl⟩
      · cases hlm
      · have e : l = sl :: ll.map (·.2) := by
          have : l = splitDot ((sl ++ (ll.map (fun p => p.1 :: p.2)).flatten).map toDot) := by
            simpa [List.lookup] using hlm.symm
          rw [this, splitLocal hsl hll]
        subst e
        refine ⟨by simp, fun s hs => ?_⟩
        rcases List.mem_cons.1 hs with rfl | hs
        · exact hsl
        · obtain ⟨p, hp, rfl⟩ := List.mem_map.1 hs
          exact (hll p hp).2

/-- C24: for every accepted string, str of the version is accepted and gives an equal version. -/
theorem C24_str_roundtrip (s : List Char) (v : Ver) (h : parse s = .ok v) :
    ∃ t v', v.str = .ok t ∧ parse t = .ok v' ∧ v'.eq v = true :=
  canonical_roundtrip (parse_canonical h)

example : ∃ v, parse " v1!2.3.0rc45.post67.dev089+i.am-the_eggman \n".toList = .ok v ∧
    v.str = .ok "1!2.3rc45.post67.dev89+i.am.the.eggman".toList :=
  ⟨⟨some 1, [2, 3], .rc, some 45, some 67, some 89, some ["i".toList, "am".toList, "the".toList,
    "eggman".toList]⟩, by decide +kernel⟩

theorem asciiAlnum_local {c : Char} (h : asciiAlnum c = true) : isLocalChar c = true := by
  have key : ∀ x ∈ letters ++ letters.map Char.toUpper ++ digitList, isLocalChar x = true := by
    decide +kernel
  apply key
  simp only [asciiAlnum, isDig, Bool.or_eq_true, List.elem_eq_mem, decide_eq_true_eq] at h
  simp only [List.mem_append]
  exact h

/-- C26: keyword construction agrees with string construction for non-negative
releases without trailing zeros, no serial on a final release, and local segments of letters and
digits. In the other cases it is false (next theorem). -/
theorem C26_keywords_survive (k : Kw) (v : Ver) (h : ofKw k = .ok v)
    (h₁ : ∀ n ∈ k.release, 0 ≤ n) (h₂ : k.release.getLast? = some 0 → k.release.length = 1)
    (h₃ : k.level.getD .final = .final → k.serial.getD 0 = 0)
    (h₄ : ∀ l ∈ k.loc, ∀ s ∈ l, ∀ c ∈ s, asciiAlnum c = true) :
    ∃ t v', v.str = .ok t ∧ parse t = .ok v' ∧ v'.eq v = true := by
  apply canonical_roundtrip
  unfold ofKw at h
  split at h
  · cases h
  · rename_i hc
    simp only [not_or] at hc
    obtain ⟨_, c2, _⟩ := hc
    split at h
    · cases h
    · rename_i hloc
      cases h
      constructor
      · refine ⟨k.release.map Int.toNat, ?_, by simpa using c2, ?_⟩
        · rw [List.map_map]
          refine ((List.map_congr_left (g := id) (fun x hx => ?_)).trans (List.map_id _)).symm
          exact Int.toNat_of_nonneg (h₁ x hx)
        · unfold dropTrailingZeros
          rw [← List.map_reverse]
          have hrev : k.release.reverse ≠ [] := by simpa using c2
          cases hr : k.release.reverse with
          | nil => exact absurd hr hrev
          | cons x r =>
            have hx : x ∈ k.release := by rw [← List.mem_reverse, hr]; simp
            have hk : k.release = (x :: r).reverse := by rw [← hr, List.reverse_reverse]
            have hlast : k.release.getLast? = some x := by rw [hk]; simp
            by_cases h0 : x = 0
            · subst h0
              have hlen := h₂ hlast
              rw [hk] at hlen
              have : r = [] := by simpa using hlen
              subst this
              rw [hk]; simp
            · have : x.toNat ≠ 0 := by have := h₁ x hx; omega
              rw [hk]
              simp [this]
      · intro hf
        have := h₃ hf
        cases hs : k.serial with
        | none => rfl
        | some n => rw [hs] at this; simp at this; subst this; rfl
      · intro l hl
        have hl' : k.loc = some l := hl
        rw [hl'] at hloc
        simp only [badLoc, Bool.not_eq_true, Bool.or_eq_false_iff, decide_eq_false_iff_not,
          Bool.not_eq_false'] at hloc
        refine ⟨hloc.1, fun s hs => ⟨?_, fun c hc => asciiAlnum_local (h₄ l hl' s hs c hc)⟩⟩
        rintro rfl
        have := List.all_eq_true.1 hloc.2 [] hs
        simp [validSegment] at this

example : ∃ v, ofKw { release := [1, 2], level := some .rc, serial := some 3, loc := some [['a']] } = .ok v
    ∧ v.str = .ok "1.2rc3+a".toList := by
  exact ⟨⟨some 0, [1, 2], .rc, some 3, none, none, some [['a']]⟩, by decide +kernel⟩

theorem nonneg_toNat {o : Option Int} (h : nonneg o = true) :
    (o.map Int.toNat).map Int.ofNat = o := by
  cases o with
  | none => rfl
  | some x =>
    simp only [nonneg, decide_eq_true_eq] at h
    simp only [Option.map_some, Option.some.injEq]
    exact Int.toNat_of_nonneg h

theorem nonneg_getD {o : Option Int} (h : nonneg o = true) :
    (((o.map Int.toNat).getD 0 : Nat) : Int) = o.getD 0 := by
  cases o with
  | none => rfl
  | some x =>
    simp only [nonneg, decide_eq_true_eq] at h
    simp; omega

/-- C26: when keyword construction succeeds, each field is the one given (None meaning 0 for epoch and
serial and 'final' for the level). -/
theorem C26_fields (k : Kw) (v : Ver) (h : ofKw k = .ok v) :
    v.epoch.map Int.ofNat = some (k.epoch.getD 0) ∧ v.release = k.release ∧
    v.level = k.level.getD .final ∧ v.serial.map Int.ofNat = some (k.serial.getD 0) ∧
    v.post.map Int.ofNat = k.post ∧ v.dev.map Int.ofNat = k.dev ∧ v.loc = k.loc := by
  unfold ofKw at h
  split at h
  · cases h
  · rename_i hc
    simp only [not_or, Decidable.not_not] at hc
    obtain ⟨c1, c2, c3, c4, c5⟩ := hc
    split at h
    · cases h
    · cases h
      refine ⟨?_, rfl, rfl, ?_, nonneg_toNat c4, nonneg_toNat c5, rfl⟩
      · exact congrArg some (nonneg_getD c1)
      · exact congrArg some (nonneg_getD c3)

/-- C26 is false of the code in the other cases: `release=(1, 0)` is not equal to the version its str
is parsed as; a negative release gives a str that cannot be parsed; `serial=1` on a final release
makes str raise AssertionError; a local segment may end in a newline, and then str cannot be
parsed. -/
theorem C26_violated :
    (∃ v v', ofKw { release := [1, 0] } = .ok v ∧ v.str = .ok "1.0".toList ∧
      parse "1.0".toList = .ok v' ∧ v'.eq v = false) ∧
    (∃ v, ofKw { release := [-1] } = .ok v ∧ v.str = .ok "-1".toList ∧
      parse "-1".toList = .error .valueError) ∧
    (∃ v, ofKw { release := [1], serial := some 1 } = .ok v ∧ v.str = .error .assertionError) ∧
    (∃ v, ofKw { release := [1], loc := some [['a', '\n'], ['b']] } = .ok v ∧
      v.str = .ok "1+a\n.b".toList ∧ parse "1+a\n.b".toList = .error .valueError) := by
  refine ⟨⟨⟨some 0, [1, 0], .final, some 0, none, none, none⟩,
    ⟨none, [1], .final, none, none, none, none⟩, by decide +kernel⟩,
    ⟨⟨some 0, [-1], .final, some 0, none, none, none⟩, by decide +kernel⟩,
    ⟨⟨some 0, [1], .final, some 1, none, none, none⟩, by decide +kernel⟩,
    ⟨⟨some 0, [1], .final, some 0, none, none, some [['a', '\n'], ['b']]⟩, by decide +kernel⟩⟩

end Big.Version
