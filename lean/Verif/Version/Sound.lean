import Verif.Version.ParseLemmas2
/- What an accepted string tells about the groups. -/
namespace Big.Version
open Big.Rx

theorem lang_star_cls {p : Char → Bool} {w : List Char} {c : Caps Char}
    (h : Lang (.star (.cls p)) w c) : c = [] ∧ ∀ x ∈ w, p x = true := by
  generalize hr : Rx.star (.cls p) = r at h
  induction h with
  | star0 => simp
  | starS h1 h2 _ ih =>
    cases hr
    cases h1 with
    | cls hp =>
      obtain ⟨i1, i2⟩ := ih rfl
      exact ⟨by simp [i1], by simpa [hp] using i2⟩
  | _ => cases hr

theorem lang_plus_cls {p : Char → Bool} {w : List Char} {c : Caps Char}
    (h : Lang (.plus (.cls p)) w c) : c = [] ∧ w ≠ [] ∧ ∀ x ∈ w, p x = true := by
  cases h with
  | seq h1 h2 =>
    cases h1 with
    | cls hp =>
      obtain ⟨i1, i2⟩ := lang_star_cls h2
      exact ⟨by simp [i1], by simp, by simpa [hp] using i2⟩

theorem lang_digits {w : List Char} {c : Caps Char} (h : Lang digits w c) : c = [] ∧ IsNum w :=
  lang_plus_cls h

theorem lang_opt {a : Rx Char} {w : List Char} {c : Caps Char} (h : Lang (.opt a) w c) :
    Lang a w c ∨ (w = [] ∧ c = []) := by
  cases h with
  | altl h => exact .inl h
  | altr h => cases h; exact .inr ⟨rfl, rfl⟩

theorem lang_chunks {q p : Char → Bool} {w : List Char} {c : Caps Char}
    (h : Lang (.star (.seq (.cls q) (.plus (.cls p)))) w c) : c = [] ∧
    ∃ l : List (Char × List Char), w = (l.map (fun x => x.1 :: x.2)).flatten ∧
      ∀ x ∈ l, q x.1 = true ∧ x.2 ≠ [] ∧ ∀ y ∈ x.2, p y = true := by
  generalize hr : Rx.star (.seq (.cls q) (.plus (.cls p))) = r at h
  induction h with
  | star0 => exact ⟨rfl, [], rfl, by simp⟩
  | starS h1 h2 _ ih =>
    cases hr
    obtain ⟨i1, l, i2, i3⟩ := ih rfl
    cases h1 with
    | @seq _ _ _ w3 _ _ h1 h3 =>
      obtain ⟨j1, j2, j3⟩ := lang_plus_cls h3
      cases h1 with
      | @cls _ x hp =>
        refine ⟨by simp [i1, j1], (x, w3) :: l, ?_, ?_⟩
        · simp only [List.map_cons, List.flatten_cons, i2]; rfl
        · intro z hz
          rcases List.mem_cons.1 hz with rfl | hz
          · exact ⟨hp, j2, j3⟩
          · exact i3 z hz
  | _ => cases hr

theorem lang_sepO {w : List Char} {c : Caps Char} (h : Lang sepO w c) : c = [] := by
  rcases lang_opt h with h | h
  · cases h; rfl
  · exact h.2

theorem lang_numO {g : String} {w : List Char} {c : Caps Char} (h : Lang (numO g) w c) :
    c = [] ∨ ∃ n, IsNum n ∧ c = [(g, n)] := by
  rcases lang_opt h with h1 | h1
  · cases h1 with
    | grp h2 =>
      obtain ⟨rfl, hn⟩ := lang_digits h2
      exact .inr ⟨_, hn, rfl⟩
  · exact .inl h1.2

theorem lang_word {l w : List Char} {c : Caps Char} (h : Lang (word l) w c) : c = [] := by
  induction l generalizing w c with
  | nil => cases h; rfl
  | cons x l ih =>
    cases h with
    | seq h1 h2 => cases h1; simpa using ih h2

theorem lang_word_fold {l w : List Char} {c : Caps Char} (h : Lang (word l) w c) : w.map fold = l := by
  induction l generalizing w c with
  | nil => cases h; rfl
  | cons x l ih =>
    cases h with
    | seq h1 h2 =>
      cases h1 with
      | cls h1 => simp [ih h2, show fold _ = x by simpa using h1]

/-- A pre-release label in any letter case. -/
def IsLabel (l : List Char) : Prop := ∃ p : PreLabel, l.map fold = p.text.toList

theorem lang_preAlts {w : List Char} {c : Caps Char} (h : Lang preAlts w c) :
    c = [] ∧ IsLabel w := by
  have key : ∀ {l : List Char} {b : Rx Char} {w : List Char} {c : Caps Char} (p : PreLabel),
      p.text.toList = l → Lang (.alt (word l) b) w c → (c = [] ∧ IsLabel w) ∨ Lang b w c := by
    intro l b w c p hp h
    cases h with
    | altl h => exact .inl ⟨lang_word h, p, by rw [lang_word_fold h, hp]⟩
    | altr h => exact .inr h
  rcases key .a (by decide +kernel) h with h | h
  · exact h
  rcases key .b (by decide +kernel) h with h | h
  · exact h
  rcases key .c (by decide +kernel) h with h | h
  · exact h
  rcases key .rc (by decide +kernel) h with h | h
  · exact h
  rcases key .alpha (by decide +kernel) h with h | h
  · exact h
  rcases key .beta (by decide +kernel) h with h | h
  · exact h
  rcases key .pre (by decide +kernel) h with h | h
  · exact h
  exact ⟨lang_word h, .preview, by rw [lang_word_fold h]; decide +kernel⟩

/-- The groups of the pre part. -/
def PreC (c : Caps Char) : Prop :=
  c = [] ∨ (∃ l, IsLabel l ∧ c = [("pre_l", l)]) ∨
    ∃ n l, IsNum n ∧ IsLabel l ∧ c = [("pre_n", n), ("pre_l", l)]
/-- What the post release can capture. -/
def PostC (c : Caps Char) : Prop :=
  c = [] ∨ (∃ n, IsNum n ∧ c = [("post_n1", n)]) ∨ (∃ l, c = [("post_l", l)]) ∨
    ∃ n l, IsNum n ∧ c = [("post_n2", n), ("post_l", l)]
/-- What the dev release can capture. -/
def DevC (c : Caps Char) : Prop :=
  c = [] ∨ (∃ l, c = [("dev_l", l)]) ∨ ∃ n l, IsNum n ∧ c = [("dev_n", n), ("dev_l", l)]
/-- What the local version can capture. -/
def LocC (c : Caps Char) : Prop :=
  c = [] ∨ ∃ (s : List Char) (l : List (Char × List Char)), IsSeg s ∧
    (∀ p ∈ l, isSep p.1 = true ∧ IsSeg p.2) ∧
    c = [("local", s ++ (l.map (fun p => p.1 :: p.2)).flatten)]
/-- What the release can capture. -/
def RelC (c : Caps Char) : Prop :=
  ∃ (s : List Char) (l : List (List Char)), IsNum s ∧ (∀ p ∈ l, IsNum p) ∧
    c = [("release", renderRel s l)]
/-- What the epoch can capture. -/
def EpC (c : Caps Char) : Prop := c = [] ∨ ∃ n, IsNum n ∧ c = [("epoch", n)]

theorem lang_pre {w : List Char} {c : Caps Char} (h : Lang (.opt preR) w c) : PreC c := by
  rcases lang_opt h with h | h
  · cases h with
    | seq h1 h2 =>
      obtain rfl := lang_sepO h1
      cases h2 with
      | seq h2 h3 =>
        cases h3 with
        | seq h3 h4 =>
          obtain rfl := lang_sepO h3
          rw [preL_eq] at h2
          cases h2 with
          | grp h2 =>
            obtain ⟨rfl, hlab⟩ := lang_preAlts h2
            rcases lang_numO h4 with rfl | ⟨n, hn, rfl⟩
            · exact .inr (.inl ⟨_, hlab, rfl⟩)
            · exact .inr (.inr ⟨n, _, hn, hlab, rfl⟩)
  · exact .inl h.2

theorem lang_post {w : List Char} {c : Caps Char} (h : Lang (.opt postR) w c) : PostC c := by
  rcases lang_opt h with h | h
  · cases h with
    | altl h =>
      cases h with
      | seq h1 h2 =>
        cases h1
        cases h2 with
        | grp h2 =>
          obtain ⟨rfl, hn⟩ := lang_digits h2
          exact .inr (.inl ⟨_, hn, rfl⟩)
    | altr h =>
      cases h with
      | seq h1 h2 =>
        obtain rfl := lang_sepO h1
        cases h2 with
        | seq h2 h3 =>
          cases h3 with
          | seq h3 h4 =>
            obtain rfl := lang_sepO h3
            cases h2 with
            | @grp _ _ w' c' h2 =>
              have : c' = [] := by
                cases h2 with
                | altl h => exact lang_word h
                | altr h => cases h with
                  | altl h => exact lang_word h
                  | altr h => exact lang_word h
              subst this
              rcases lang_numO h4 with rfl | ⟨n, hn, rfl⟩
              · exact .inr (.inr (.inl ⟨_, rfl⟩))
              · exact .inr (.inr (.inr ⟨n, _, hn, rfl⟩))
  · exact .inl h.2

theorem lang_dev {w : List Char} {c : Caps Char} (h : Lang (.opt devR) w c) : DevC c := by
  rcases lang_opt h with h | h
  · cases h with
    | seq h1 h2 =>
      obtain rfl := lang_sepO h1
      cases h2 with
      | seq h2 h3 =>
        cases h3 with
        | seq h3 h4 =>
          obtain rfl := lang_sepO h3
          cases h2 with
          | grp h2 =>
            obtain rfl := lang_word h2
            rcases lang_numO h4 with rfl | ⟨n, hn, rfl⟩
            · exact .inr (.inl ⟨_, rfl⟩)
            · exact .inr (.inr ⟨n, _, hn, rfl⟩)
  · exact .inl h.2

theorem lang_loc {w : List Char} {c : Caps Char} (h : Lang (.opt localR) w c) : LocC c := by
  rcases lang_opt h with h | h
  · cases h with
    | seq h1 h2 =>
      cases h1
      cases h2 with
      | grp h2 =>
        cases h2 with
        | seq h2 h3 =>
          obtain ⟨rfl, i1, i2⟩ := lang_plus_cls h2
          obtain ⟨rfl, l, rfl, hl⟩ := lang_chunks h3
          exact .inr ⟨_, l, ⟨i1, i2⟩, fun p hp => ⟨(hl p hp).1, (hl p hp).2⟩, rfl⟩
  · exact .inl h.2

theorem fold_dot {x : Char} (hx : fold x = '.') : x = '.' := by
  have : ∀ p ∈ foldTable, p.2 ≠ '.' := by decide +kernel
  unfold fold at hx
  cases hl : foldTable.lookup x with
  | none => simpa [hl] using hx
  | some d =>
    rw [hl] at hx
    obtain ⟨l1, l2, h12, _⟩ := List.lookup_eq_some_iff.1 hl
    exact absurd hx (this (x, d) (by rw [h12]; simp))

theorem lang_rel {w : List Char} {c : Caps Char} (h : Lang releaseR w c) : RelC c := by
  cases h with
  | grp h =>
    cases h with
    | seq h2 h3 =>
      obtain ⟨rfl, i1, i2⟩ := lang_plus_cls h2
      obtain ⟨rfl, l, rfl, hl⟩ := lang_chunks h3
      refine ⟨_, l.map (·.2), ⟨i1, i2⟩, ?_, ?_⟩
      · intro p hp
        obtain ⟨q, hq, rfl⟩ := List.mem_map.1 hp
        exact (hl q hq).2
      · simp only [renderRel, List.map_map, List.append_nil]
        congr 4
        apply List.map_congr_left
        intro q hq
        have := fold_dot (by simpa using (hl q hq).1)
        simp [this]

theorem lang_ep {w : List Char} {c : Caps Char} (h : Lang (.opt epochR) w c) : EpC c := by
  rcases lang_opt h with h | h
  · cases h with
    | seq h1 h2 =>
      cases h2
      cases h1 with
      | grp h1 =>
        obtain ⟨rfl, hn⟩ := lang_digits h1
        exact .inr ⟨_, hn, rfl⟩
  · exact .inl h.2

/-- The groups of any match of the version pattern. -/
theorem match_groups {s : List Char} {c : Caps Char} {rest : List Char}
    (h : versionR.matchStart s = some (c, rest)) :
    ∃ cl cd cp cr ce c1, LocC cl ∧ DevC cd ∧ PostC cp ∧ PreC cr ∧ RelC c1 ∧ EpC ce ∧
      c = cl ++ (cd ++ (cp ++ (cr ++ (c1 ++ ce)))) := by
  obtain ⟨w, r, c', _, hl, hk⟩ := versionR.m_sound _ _ _ _ h
  have hc : c = c' := by simpa using (Prod.mk.inj (Option.some.inj hk)).1.symm
  subst hc
  unfold versionR at hl
  cases hl with
  | seq h1 h2 =>
    obtain ⟨rfl, _⟩ := lang_star_cls h1
    cases h2 with
    | @seq _ _ _ _ cv _ hv h2 =>
      have : cv = [] := by
        rcases lang_opt hv with h | h
        · cases h; rfl
        · exact h.2
      subst this
      cases h2 with
      | seq he h2 =>
        cases h2 with
        | seq hr h2 =>
          cases h2 with
          | seq hp h2 =>
            cases h2 with
            | seq hpo h2 =>
              cases h2 with
              | seq hd h2 =>
                cases h2 with
                | seq hlo h2 =>
                  cases h2 with
                  | seq hw hend =>
                    obtain ⟨rfl, _⟩ := lang_star_cls hw
                    cases hend
                    exact ⟨_, _, _, _, _, _, lang_loc hlo, lang_dev hd, lang_post hpo, lang_pre hp,
                      lang_rel hr, lang_ep he, by simp⟩

end Big.Version
