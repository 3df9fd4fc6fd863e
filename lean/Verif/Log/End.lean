import Verif.Log.TimeExact
import Verif.Log.Print
import Verif.Log.Raise
/-! # C31, C32: the end of a log, and times before the start -/
namespace Big.Log

theorem xcall_last (l : XSt) (e : Val) (t : Option Int) :
    ((xcall l e t).1 = l ∧ t = none) ∨ ∃ t', t = some t' ∧ (xcall l e t).1.last = some (t' - l.start) ∧
      ((xcall l e t).1.events.getLast?.map (·.1)) = some (t' - l.start) ∧ (xcall l e t).1.events.length = l.events.length + 1 := by
  cases t with
  | none => exact .inl ⟨rfl, rfl⟩
  | some t =>
    right
    refine ⟨t, rfl, ?_⟩
    simp only [xcall]
    cases e.len? <;> simp

theorem end_inv (t₀ : Int) (h : List (XOp × Option Int)) : let l := xrun t₀ h
    l.events ≠ [] ∧ (1 < l.events.length → l.last = l.events.getLast?.map (·.1)) := by
  have step : ∀ (l : XSt) (o : XOp × Option Int), (l.events ≠ [] ∧ (1 < l.events.length → l.last = l.events.getLast?.map (·.1))) →
      ((xstep l o).1.events ≠ [] ∧ (1 < (xstep l o).1.events.length → (xstep l o).1.last = (xstep l o).1.events.getLast?.map (·.1))) := by
    have call : ∀ (l : XSt) (e : Val) (t : Option Int), (l.events ≠ [] ∧ (1 < l.events.length → l.last = l.events.getLast?.map (·.1))) →
        ((xcall l e t).1.events ≠ [] ∧ (1 < (xcall l e t).1.events.length → (xcall l e t).1.last = (xcall l e t).1.events.getLast?.map (·.1))) := by
      intro l e t hl
      rcases xcall_last l e t with ⟨h1, -⟩ | ⟨t', -, h2, h3, h4⟩
      · rw [h1]; exact hl
      · exact ⟨by intro h; rw [h] at h4; simp at h4, fun _ => by rw [h2, h3]⟩
    rintro l ⟨o, t⟩ hl
    cases o with
    | log e => exact call l e t hl
    | enter s =>
      simp only [xstep, xenter]
      cases s.plus? " start" with
      | none => exact hl
      | some e =>
        have := call l e t hl
        dsimp only
        cases hx : xcall l e t with
        | mk l' x =>
          rw [hx] at this
          cases x with
          | none => exact this
          | some x => exact this
    | exit =>
      simp only [xstep, xexit]
      cases hs : l.stack with
      | nil => exact hl
      | cons s stack =>
        dsimp only
        cases s.plus? " end" with
        | none => exact hl
        | some e => exact call { l with stack := stack } e t hl
    | reset =>
      cases t with
      | none => exact hl
      | some t => exact ⟨by simp [xstep, xreset, XSt.new], by simp [xstep, xreset, XSt.new]⟩
  have gen : ∀ (h : List (XOp × Option Int)) (l : XSt), (l.events ≠ [] ∧ (1 < l.events.length → l.last = l.events.getLast?.map (·.1))) →
      ((h.foldl (fun l o => (xstep l o).1) l).events ≠ [] ∧ (1 < (h.foldl (fun l o => (xstep l o).1) l).events.length →
        (h.foldl (fun l o => (xstep l o).1) l).last = (h.foldl (fun l o => (xstep l o).1) l).events.getLast?.map (·.1))) := by
    intro h
    induction h with
    | nil => intro l hl; exact hl
    | cons o h ih => intro l hl; exact ih _ (step l o hl)
  exact gen h _ ⟨by simp [XSt.new], by simp [XSt.new]⟩

/-- C31: after any history in which something has been logged since the last reset, `log.end` is the start time of the last
event; and the event that was logged at the clock's reading t starts at t less the reading at the reset. -/
theorem C31_end (t₀ : Int) (h : List (XOp × Option Int)) (hn : 1 < (xrun t₀ h).events.length) :
    (xrun t₀ h).last = (xrun t₀ h).events.getLast?.map (·.1) := (end_inv t₀ h).2 hn

theorem C31_end_reading (t₀ : Int) (h : List (XOp × Option Int)) (e : Val) (t : Int) :
    (xrun t₀ (h ++ [(.log e, some t)])).last = some (t - (xrun t₀ h).start) := by
  unfold xrun
  rw [List.foldl_append]
  simp only [List.foldl_cons, List.foldl_nil, xstep, xcall]
  cases e.len? <;> rfl

/-- C31: a reset does not reset `log.end`: it keeps the value that was relative to the old start, until something is
logged. -/
theorem C31_end_stale (t₀ : Int) (h : List (XOp × Option Int)) (t : Int) :
    (xrun t₀ (h ++ [(.reset, some t)])).last = (xrun t₀ h).last ∧
    (xrun t₀ (h ++ [(.reset, some t)])).events = [(0, .str "log start", 0)] ∧
    (xrun t₀ []).last = none := by
  unfold xrun
  rw [List.foldl_append]
  exact ⟨rfl, rfl, rfl⟩

theorem natStr_ne_nil (n : Nat) : natStr n ≠ [] := Nat.toDigits_ne_nil

/-- C32: a time of n nanoseconds before the start (which a clock that goes back gives) is never shown right: what is shown
is a minus sign, n / 10**9 rounded up, filled up with zeros, to seconds_width characters, and as the fraction nine characters
of which the last are the digits of n less that number, with a second minus sign before them (unless n is 1). -/
theorem C32_negative (sw fw n : Nat) (hn : 0 < n) : ∃ k zeros frac, k = (n + 999999999) / 1000000000 ∧
    formatInt sw fw (-(n : Int)) = '-' :: (List.replicate zeros '0' ++ natStr k) ++ '.' :: frac.take fw ∧
    (1 + zeros + (natStr k).length = sw ∨ (zeros = 0 ∧ sw ≤ 1 + (natStr k).length)) ∧
    (n = 1 → frac = List.replicate 9 '0') ∧
    (1 < n → ∃ zeros', frac = List.replicate zeros' '0' ++ '-' :: natStr (n - k)) := by
  have hdiv : (-(n : Int)).fdiv 1000000000 = -(((n + 999999999) / 1000000000 : Nat) : Int) := by
    rw [Int.fdiv_eq_ediv_of_nonneg _ (by decide)]
    omega
  have hk : 0 < (n + 999999999) / 1000000000 := by omega
  have shown : ∀ (t : Int) (k : Nat), 0 < k → t.fdiv 1000000000 = -(k : Int) → formatInt sw fw t =
      '-' :: (List.replicate (sw - 1 - (natStr k).length) '0' ++ natStr k) ++ '.' :: (zeroPad 9 (intStr (t - t.fdiv 1000000000))).take fw := by
    intro t k hk ht
    unfold formatInt
    rw [ht]
    simp only [zeroFill]
    rw [if_pos (by omega), Int.natAbs_neg, Int.natAbs_natCast]
    rfl
  refine ⟨(n + 999999999) / 1000000000, sw - 1 - (natStr ((n + 999999999) / 1000000000)).length,
    zeroPad 9 (intStr (-(n : Int) - (-(n : Int)).fdiv 1000000000)), rfl, ?_, ?_, ?_, ?_⟩
  · exact shown _ _ hk hdiv
  · have := List.length_pos_iff.2 (natStr_ne_nil ((n + 999999999) / 1000000000))
    omega
  · rintro rfl
    decide +kernel
  · intro h1
    rw [hdiv]
    have hlt : -(n : Int) - -(((n + 999999999) / 1000000000 : Nat) : Int) < 0 := by omega
    have habs : (-(n : Int) - -(((n + 999999999) / 1000000000 : Nat) : Int)).natAbs = n - (n + 999999999) / 1000000000 := by omega
    unfold zeroPad intStr
    rw [if_pos hlt, habs]
    exact ⟨_, rfl⟩

example : formatInt 2 9 (-5) = "-1.0000000-4".toList ∧ formatInt 4 9 (-1) = "-001.000000000".toList := by decide +kernel
/-- Something is logged after a reset. -/
example : 1 < (xrun 0 [(.log (.str "a"), some 3), (.reset, some 5), (.log (.str "b"), some 9)]).events.length ∧
    (xrun 0 [(.log (.str "a"), some 3), (.reset, some 5), (.log (.str "b"), some 9)]).last = some 4 := by decide +kernel

end Big.Log
