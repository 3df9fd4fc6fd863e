import Verif.Version.Exact
/- C25: spelling does not matter. -/
namespace Big.Version

/-- The post-release is written with a number. -/
def Written.postNumbered (w : Written) : Prop :=
  ∀ p, w.post = some (.word p) → p.num.isSome
/-- The dev-release is written with a number. -/
def Written.devNumbered (w : Written) : Prop := ∀ p, w.dev = some p → p.num.isSome

/-- C25: two ways of writing a version that mean the same according to PEP 440, where either both write a number after
the post label or none does, and likewise for dev, are both accepted and give equal versions: leading v, white
space, separators, spelling of labels, leading zeros, trailing '.0' and an absent number after a pre-release label do
not matter. -/
theorem C25_spelling (w₁ w₂ : Written) (h₁ : w₁.Ok) (h₂ : w₂.Ok) (h : w₁.meaning = w₂.meaning)
    (hp : w₁.postNumbered ↔ w₂.postNumbered) (hd : w₁.devNumbered ↔ w₂.devNumbered) :
    ∃ v₁ v₂, parse w₁.render = .ok v₁ ∧ parse w₂.render = .ok v₂ ∧ v₁.eq v₂ = true := by
  refine ⟨w₁.code, w₂.code, parse_render h₁, parse_render h₂, ?_⟩
  have e1 := congrArg Ver.epoch h
  have e2 := congrArg Ver.release h
  have e3 := congrArg Ver.level h
  have e4 := congrArg Ver.serial h
  have e5 := congrArg Ver.post h
  have e6 := congrArg Ver.dev h
  have e7 := congrArg Ver.loc h
  refine key_congr ?_ e2 e3 ?_ ?_ ?_ e7
  · simpa [Written.meaning, Written.code] using e1
  · have : ∀ w : Written, some (w.code.serial.getD 0) = w.meaning.serial := by
      intro w
      simp only [Written.code, Written.meaning]
      cases w.pre with
      | none => rfl
      | some p => simp [Part.number]
    rw [← this, ← this] at e4
    exact Option.some.inj e4
  · have key : ∀ w : Written, (w.postNumbered → w.code.post = w.meaning.post) ∧
        (¬ w.postNumbered → w.code.post = none) := by
      intro w
      simp only [Written.code, Written.meaning, Written.postNumbered]
      cases hq : w.post with
      | none => simp
      | some p =>
        cases p with
        | dash n => exact ⟨fun _ => rfl, fun h => absurd (fun p e => by simp at e) h⟩
        | word p =>
          cases hm : p.num with
          | none => exact ⟨fun h => by have := h p rfl; rw [hm] at this; simp at this, fun _ => by simp [hm]⟩
          | some n => exact ⟨fun _ => by simp [Post.number, Part.number, hm], fun h => absurd (fun q e => by
              simp only [Option.some.injEq, Post.word.injEq] at e; subst e; simp [hm]) h⟩
    by_cases hq : w₁.postNumbered
    · rw [(key w₁).1 hq, (key w₂).1 (hp.1 hq), e5]
    · rw [(key w₁).2 hq, (key w₂).2 (fun h => hq (hp.2 h))]
  · have key : ∀ w : Written, (w.devNumbered → w.code.dev = w.meaning.dev) ∧
        (¬ w.devNumbered → w.code.dev = none) := by
      intro w
      simp only [Written.code, Written.meaning, Written.devNumbered]
      cases hq : w.dev with
      | none => simp
      | some p =>
        cases hm : p.num with
        | none => exact ⟨fun h => by have := h p rfl; rw [hm] at this; simp at this, fun _ => by simp [hm]⟩
        | some n => exact ⟨fun _ => by simp [Part.number, hm], fun h => absurd (fun q e => by
            simp only [Option.some.injEq] at e; subst e; simp [hm]) h⟩
    by_cases hq : w₁.devNumbered
    · rw [(key w₁).1 hq, (key w₂).1 (hd.1 hq), e6]
    · rw [(key w₁).2 hq, (key w₂).2 (fun h => hq (hd.2 h))]

/-- The hypotheses hold: ` v1.0.c.post` and `01_rc0-r` mean the same. -/
example : ∃ w₁ w₂ : Written, w₁.Ok ∧ w₂.Ok ∧ w₁.meaning = w₂.meaning ∧ ¬ w₁.postNumbered ∧ ¬ w₂.postNumbered ∧
    w₁.devNumbered ∧ w₂.devNumbered ∧ w₁.render = " v1.0.c.post".toList ∧ w₂.render = "01_rc0-r".toList :=
  ⟨⟨[' '], some 'v', none, ['1'], [['0']], some ⟨some '.', .c, none, none⟩,
      some (.word ⟨some '.', .post, none, none⟩), none, none, []⟩,
    ⟨[], none, none, ['0', '1'], [], some ⟨some '_', .rc, none, some ['0']⟩,
      some (.word ⟨some '-', .r, none, none⟩), none, none, []⟩,
    by constructor <;> simp [IsNum, Part.Ok, Post.Ok] <;> decide +kernel,
    by constructor <;> simp [IsNum, Part.Ok, Post.Ok] <;> decide +kernel,
    by decide +kernel, by simp [Written.postNumbered], by simp [Written.postNumbered], by simp [Written.devNumbered],
    by simp [Written.devNumbered], by decide +kernel, by decide +kernel⟩

end Big.Version
