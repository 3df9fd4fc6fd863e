import Verif.Log.Model
/-!
# C31, C32: Log
-/
namespace Big.Log

/-! ## Specification -/

/-- The number of subsystems entered and not exited after a history without reset, starting with n. -/
def opens (n : Nat) : List (Op × Int) → Nat
  | [] => n
  | (.enter _, _) :: h => opens (n + 1) h
  | (.exit, _) :: h => opens (n - 1) h
  | (.log _, _) :: h => opens n h
  | (.reset, _) :: h => opens 0 h

/-- A part of a history in which every enter is exited and no exit is without its enter. -/
inductive Balanced : List (Op × Int) → Prop
  | nil : Balanced []
  | log (e t) {h} : Balanced h → Balanced ((.log e, t) :: h)
  | nest (s t t') {h k} : Balanced h → Balanced k →
      Balanced ((.enter s, t) :: h ++ (.exit, t') :: k)

/-- The tuples (start, event, depth) seen when iterating, without the elapsed times. -/
def shown (t₀ : Int) (h : List (Op × Int)) : List (Int × String × Nat) :=
  (iter (run t₀ h)).map fun x => (x.1, x.2.2.1, x.2.2.2)

/-- The clock reading times are relative to: the one of the last reset. -/
def origin (t₀ : Int) : List (Op × Int) → Int
  | [] => t₀
  | (.reset, t) :: h => origin t h
  | _ :: h => origin t₀ h

/-! ## Lemmas -/

theorem run_snoc (t₀ : Int) (h : List (Op × Int)) (x : Op × Int) :
    run t₀ (h ++ [x]) = step (run t₀ h) x := by simp [run]

theorem step_events_ne {l : St} (h : l.events ≠ []) (x : Op × Int) : (step l x).events ≠ [] := by
  obtain ⟨o, t⟩ := x
  cases o with
  | log e => simp [step, call]
  | enter s => simp [step, enter, call]
  | exit =>
    simp only [step, exit]
    split
    · exact h
    · simp [call]
  | reset => simp [step, reset]

theorem foldl_events_ne (h : List (Op × Int)) : ∀ l : St, l.events ≠ [] →
    (h.foldl step l).events ≠ [] := by
  induction h with
  | nil => intro l hl; exact hl
  | cons x h ih => intro l hl; exact ih _ (step_events_ne hl x)

theorem events_ne (t₀ : Int) (h : List (Op × Int)) : (run t₀ h).events ≠ [] :=
  foldl_events_ne h _ (by simp [reset])

theorem iterFrom_shape (x : Int × String × Nat) (l : List (Int × String × Nat)) :
    (iterFrom x l).map (fun x => (x.1, x.2.2.1, x.2.2.2)) = x :: l := by
  induction l generalizing x with
  | nil => rfl
  | cons y l ih => obtain ⟨t, e, d⟩ := x; simp only [iterFrom, List.map_cons, ih]

theorem shown_eq (t₀ : Int) (h : List (Op × Int)) : shown t₀ h = (run t₀ h).events := by
  unfold shown iter
  cases he : (run t₀ h).events with
  | nil => exact absurd he (events_ne t₀ h)
  | cons x l => exact iterFrom_shape x l

theorem foldl_start (h : List (Op × Int)) : ∀ l : St,
    (h.foldl step l).start = origin l.start h := by
  induction h with
  | nil => intro l; rfl
  | cons x h ih =>
    intro l
    obtain ⟨o, t⟩ := x
    rw [List.foldl_cons, ih]
    cases o with
    | log e => rfl
    | enter s => rfl
    | exit =>
      show origin ((exit t l).getD l).start h = origin l.start h
      unfold exit
      split <;> rfl
    | reset => rfl

theorem start_eq (t₀ : Int) (h : List (Op × Int)) : (run t₀ h).start = origin t₀ h :=
  foldl_start h _

theorem foldl_depth (h : List (Op × Int)) : ∀ l : St,
    (h.foldl step l).stack.length = opens l.stack.length h := by
  induction h with
  | nil => intro l; rfl
  | cons x h ih =>
    intro l
    obtain ⟨o, t⟩ := x
    rw [List.foldl_cons, ih]
    cases o with
    | log e => rfl
    | enter s => rfl
    | exit =>
      show opens ((exit t l).getD l).stack.length h = opens (l.stack.length - 1) h
      unfold exit
      split
      · rename_i hs; rw [Option.getD_none, hs]; rfl
      · rename_i s k hs; rw [hs]; rfl
    | reset => rfl

theorem depth_eq (t₀ : Int) (h : List (Op × Int)) : (run t₀ h).stack.length = opens 0 h :=
  foldl_depth h _

theorem balanced_stack {h : List (Op × Int)} (hb : Balanced h) :
    ∀ l : St, (h.foldl step l).stack = l.stack := by
  induction hb with
  | nil => intro l; rfl
  | log e t _ ih => intro l; rw [List.foldl_cons, ih]; rfl
  | nest s t t' _ _ ih1 ih2 =>
    intro l
    rw [List.cons_append, List.foldl_cons, List.foldl_append, List.foldl_cons, ih2]
    have h1 := ih1 (step l (.enter s, t))
    have h2 : (step l (.enter s, t)).stack = s :: l.stack := rfl
    rw [h2] at h1
    show ((exit t' (List.foldl step (step l (.enter s, t)) _)).getD _).stack = _
    unfold exit
    rw [h1]
    rfl

/-! ## C31 -/

/-- C31: a new Log shows one tuple, ('log start', 0); reset brings that back. -/
theorem C31_start (t₀ t : Int) (h : List (Op × Int)) :
    shown t₀ [] = [(0, "log start", 0)] ∧
    shown t₀ (h ++ [(.reset, t)]) = [(0, "log start", 0)] := by
  constructor
  · rfl
  · rw [shown_eq, run_snoc]; rfl

/-- C31: after any history, logging an event adds exactly one tuple, at the end, with the time since
the last reset, the event, and the number of subsystems entered and not yet exited. -/
theorem C31_log (t₀ t : Int) (h : List (Op × Int)) (e : String) :
    shown t₀ (h ++ [(.log e, t)]) = shown t₀ h ++ [(t - origin t₀ h, e, opens 0 h)] := by
  rw [shown_eq, shown_eq, run_snoc, ← start_eq, ← depth_eq t₀]; rfl

/-- C31: after any history, enter adds exactly one tuple, named "<subsystem> start". -/
theorem C31_enter (t₀ t : Int) (h : List (Op × Int)) (s : String) :
    shown t₀ (h ++ [(.enter s, t)]) =
      shown t₀ h ++ [(t - origin t₀ h, s ++ " start", opens 0 h)] := by
  rw [shown_eq, shown_eq, run_snoc, ← start_eq, ← depth_eq t₀]; rfl

/-- C31: an exit adds exactly one tuple, labelled with the subsystem of the matching enter, and at
the depth of that enter. -/
theorem C31_exit (t₀ t t' : Int) (h k : List (Op × Int)) (s : String) (hk : Balanced k) :
    shown t₀ (h ++ [(.enter s, t)] ++ k ++ [(.exit, t')]) =
      shown t₀ (h ++ [(.enter s, t)] ++ k) ++
        [(t' - origin t₀ (h ++ [(.enter s, t)] ++ k), s ++ " end", opens 0 h)] := by
  rw [shown_eq, shown_eq, run_snoc, ← start_eq]
  have h1 : (run t₀ (h ++ [(.enter s, t)] ++ k)).stack = s :: (run t₀ h).stack := by
    rw [run, List.foldl_append, balanced_stack hk, ← run, run_snoc]; rfl
  rw [← depth_eq t₀ h]
  simp only [step, exit, h1, Option.getD_some, call]

/-- C31: an exit with no subsystem open (it raises IndexError) adds nothing. -/
theorem C31_exit_unmatched (t₀ t : Int) (h : List (Op × Int)) (h0 : opens 0 h = 0) :
    shown t₀ (h ++ [(.exit, t)]) = shown t₀ h ∧ exit t (run t₀ h) = none := by
  have : (run t₀ h).stack = [] := by
    rw [← depth_eq t₀] at h0
    exact List.length_eq_zero_iff.1 h0
  rw [shown_eq, shown_eq, run_snoc]
  simp [step, exit, this]

theorem iterFrom_times (x : Int × String × Nat) (l : List (Int × String × Nat)) :
    (iterFrom x l).map (fun y => (y.1, y.2.1)) =
      (((x :: l).map (·.1)).zip (l.map (·.1) ++ [((x :: l).map (·.1)).getLast (by simp)])).map
        fun p => (p.1, p.2 - p.1) := by
  induction l generalizing x with
  | nil => obtain ⟨t, e, d⟩ := x; simp [iterFrom]
  | cons y l ih =>
    obtain ⟨t, e, d⟩ := x
    simp only [iterFrom, List.map_cons, ih]
    simp

/-- The start times, in order. -/
def starts (t₀ : Int) (h : List (Op × Int)) : List Int := (iter (run t₀ h)).map (·.1)
/-- The elapsed times, in order. -/
def elapsed (t₀ : Int) (h : List (Op × Int)) : List Int := (iter (run t₀ h)).map (·.2.1)

/-- The clock readings of a history never go down. -/
def Monotone : Int → List (Op × Int) → Prop
  | _, [] => True
  | t₀, (_, t) :: h => t₀ ≤ t ∧ Monotone t h

theorem iterFrom_sum (x : Int × String × Nat) (l : List (Int × String × Nat)) :
    ((iterFrom x l).map (·.2.1)).sum =
      ((iterFrom x l).map (·.1)).getLast (by cases l <;> simp [iterFrom]) - x.1 := by
  induction l generalizing x with
  | nil => obtain ⟨t, e, d⟩ := x; simp [iterFrom]
  | cons y l ih =>
    obtain ⟨t, e, d⟩ := x
    simp only [iterFrom, List.map_cons, List.sum_cons, ih]
    rw [List.getLast_cons (by cases l <;> simp [iterFrom])]
    omega

theorem iterFrom_gap (x : Int × String × Nat) (l : List (Int × String × Nat)) (i : Nat) (a b : Int)
    (ha : ((iterFrom x l).map (·.1))[i]? = some a)
    (hb : ((iterFrom x l).map (·.1))[i + 1]? = some b) :
    ((iterFrom x l).map (·.2.1))[i]? = some (b - a) := by
  induction l generalizing x i with
  | nil => obtain ⟨t, e, d⟩ := x; simp [iterFrom] at hb
  | cons y l ih =>
    obtain ⟨t, e, d⟩ := x
    cases i with
    | zero =>
      obtain ⟨t', e', d'⟩ := y
      have hy : ((iterFrom (t', e', d') l).map (·.1))[0]? = some t' := by cases l <;> simp [iterFrom]
      simp only [iterFrom, List.map_cons, List.getElem?_cons_zero, Option.some.injEq] at ha
      simp only [iterFrom, List.map_cons, List.getElem?_cons_succ] at hb
      rw [hy] at hb
      cases hb
      subst ha
      simp [iterFrom]
    | succ i =>
      simp only [iterFrom, List.map_cons, List.getElem?_cons_succ] at ha hb ⊢
      exact ih y i ha hb

theorem iter_eq (t₀ : Int) (h : List (Op × Int)) :
    ∃ x l, (run t₀ h).events = x :: l ∧ iter (run t₀ h) = iterFrom x l := by
  unfold iter
  cases he : (run t₀ h).events with
  | nil => exact absurd he (events_ne t₀ h)
  | cons x l => exact ⟨x, l, rfl, rfl⟩

theorem head_event (h : List (Op × Int)) : ∀ l : St, (∃ k, l.events = (0, "log start", 0) :: k) →
    ∃ k, (h.foldl step l).events = (0, "log start", 0) :: k := by
  induction h with
  | nil => intro l hl; exact hl
  | cons x h ih =>
    intro l ⟨k, hk⟩
    apply ih
    obtain ⟨o, t⟩ := x
    cases o with
    | log e => exact ⟨k ++ [_], by simp [step, call, hk]; rfl⟩
    | enter s => exact ⟨k ++ [_], by simp [step, enter, call, hk]; rfl⟩
    | exit =>
      simp only [step, exit]
      split
      · exact ⟨k, hk⟩
      · exact ⟨k ++ [_], by simp [call, hk]; rfl⟩
    | reset => exact ⟨[], rfl⟩

/-- C31: iteration starts at time 0; each elapsed time is the gap to the next event, and 0 for the
last one; the elapsed times add up to the last start time. -/
theorem C31_elapsed (t₀ : Int) (h : List (Op × Int)) :
    (starts t₀ h).head? = some 0 ∧
    (∀ i a b, (starts t₀ h)[i]? = some a → (starts t₀ h)[i + 1]? = some b →
      (elapsed t₀ h)[i]? = some (b - a)) ∧
    (elapsed t₀ h).length = (starts t₀ h).length ∧ (elapsed t₀ h).getLast? = some 0 ∧
    some (elapsed t₀ h).sum = (starts t₀ h).getLast? := by
  obtain ⟨k, hk⟩ := head_event h (reset t₀) ⟨[], rfl⟩
  obtain ⟨x, l, h1, h2⟩ := iter_eq t₀ h
  have hx : x = (0, "log start", 0) := by
    have : (run t₀ h).events = (0, "log start", 0) :: k := hk
    rw [h1] at this; exact (List.cons.inj this).1
  unfold starts elapsed
  rw [h2]
  refine ⟨?_, fun i a b => iterFrom_gap x l i a b, by simp, ?_, ?_⟩
  · subst hx; cases l <;> rfl
  · clear h1 h2 hx
    induction l generalizing x with
    | nil => obtain ⟨t, e, d⟩ := x; rfl
    | cons y l ih =>
      obtain ⟨t, e, d⟩ := x
      simp only [iterFrom, List.map_cons]
      rw [List.getLast?_cons, ih y]; rfl
  · rw [iterFrom_sum, hx, List.getLast?_eq_getLast (by cases l <;> simp [iterFrom])]
    simp

/-- The last reading of the clock. -/
def lastReading (t₀ : Int) : List (Op × Int) → Int
  | [] => t₀
  | (_, t) :: h => lastReading t h

theorem monotone_append (t₀ : Int) (h : List (Op × Int)) (x : Op × Int) :
    Monotone t₀ (h ++ [x]) ↔ Monotone t₀ h ∧ lastReading t₀ h ≤ x.2 := by
  induction h generalizing t₀ with
  | nil => simp [Monotone, lastReading]
  | cons y h ih => simp only [List.cons_append, Monotone, ih, lastReading]; exact and_assoc.symm

theorem lastReading_append (t₀ : Int) (h : List (Op × Int)) (x : Op × Int) :
    lastReading t₀ (h ++ [x]) = x.2 := by
  induction h generalizing t₀ with
  | nil => rfl
  | cons y h ih => simp only [List.cons_append, lastReading, ih]

/-- C31: with a clock that never goes back, start times never decrease. -/
theorem C31_starts_sorted (t₀ : Int) (h : List (Op × Int)) (hm : Monotone t₀ h) :
    (starts t₀ h).Pairwise (· ≤ ·) := by
  have hs : starts t₀ h = (run t₀ h).events.map (·.1) := by
    have := shown_eq t₀ h
    rw [← this]
    simp [starts, shown]
  rw [hs]
  have key : ∀ n, ∀ h : List (Op × Int), h.length = n → Monotone t₀ h →
      ((run t₀ h).events.map (·.1)).Pairwise (· ≤ ·) ∧
      (∀ x ∈ (run t₀ h).events.map (·.1), x ≤ lastReading t₀ h - (run t₀ h).start) := by
    intro n
    induction n with
    | zero =>
      intro h hn _
      have := List.length_eq_zero_iff.1 hn
      subst this
      simp [run, reset, lastReading]
    | succ n ih =>
      intro h hn hm
      have hne : h ≠ [] := by intro he; rw [he] at hn; simp at hn
      obtain ⟨k, x, rfl⟩ : ∃ k x, h = k ++ [x] := ⟨h.dropLast, h.getLast hne, (List.dropLast_concat_getLast hne).symm⟩
      obtain ⟨hm1, hm2⟩ := (monotone_append t₀ k x).1 hm
      obtain ⟨i1, i2⟩ := ih k (by simpa using hn) hm1
      have add : ∀ (l : St) (e : String), l.events = (run t₀ k).events → l.start = (run t₀ k).start →
          (((call e x.2 l).events.map (·.1)).Pairwise (· ≤ ·)) ∧
          ∀ y ∈ (call e x.2 l).events.map (·.1), y ≤ x.2 - (call e x.2 l).start := by
        intro l e h1 h2
        simp only [call, List.map_append, h1, h2]
        refine ⟨?_, ?_⟩
        · rw [List.pairwise_append]
          refine ⟨i1, by simp, ?_⟩
          intro a ha b hb
          have := i2 a ha
          simp at hb
          subst hb
          omega
        · intro y hy
          rcases List.mem_append.1 hy with hy | hy
          · have := i2 y hy; omega
          · simp at hy; omega
      rw [run_snoc, lastReading_append]
      obtain ⟨o, t⟩ := x
      cases o with
      | log e => exact add _ e rfl rfl
      | enter s => exact add _ _ rfl rfl
      | exit =>
        simp only [step, exit]
        split
        · refine ⟨i1, fun y hy => ?_⟩
          have := i2 y hy
          have : (run t₀ k).start = (run t₀ k).start := rfl
          simp only [Option.getD_none] at hy ⊢
          simp only at hm2
          omega
        · exact add _ _ rfl rfl
      | reset => simp [step, reset]
  exact (key h.length h rfl hm).1

example : shown 5 [(.log "a", 7), (.enter "s", 8), (.log "b", 9), (.exit, 12), (.exit, 13)] =
    [(0, "log start", 0), (2, "a", 0), (3, "s start", 0), (4, "b", 1), (7, "s end", 0)] := by
  decide
example : Monotone 5 [(.log "a", 7), (.enter "s", 8), (.log "b", 9), (.exit, 12), (.exit, 13)] := by
  simp [Monotone]
example : iter (run 5 [(.log "a", 7), (.enter "s", 8)]) =
    [(0, 2, "log start", 0), (2, 1, "a", 0), (3, 0, "s start", 0)] := by decide

/-! ## C32 -/

/-- The documented text of a time of t nanoseconds: seconds, a point, and the first digits of the
nanoseconds within the second. -/
def rightTime (secondsWidth fractionalWidth t : Nat) : List Char :=
  zeroPad secondsWidth (natStr (t / 1000000000)) ++
    '.' :: (zeroPad 9 (natStr (t % 1000000000))).take fractionalWidth

/-- C32: times under one second are shown right at every width. Longer
times are shown wrong (`C32_violated`, `C32_right_iff`). -/
theorem C32_print (sw fw t : Nat) (h : t < 1000000000) :
    formatTime sw fw t = rightTime sw fw t := by
  unfold formatTime rightTime
  rw [Nat.mod_eq_of_lt h, Nat.div_eq_of_lt h]
  rfl

theorem toDigits_head_ne_zero (n : Nat) (h : 0 < n) : (natStr n).head? ≠ some '0' := by
  unfold natStr
  induction n using Nat.strongRecOn with
  | ind n ih =>
    by_cases hn : n < 10
    · have : ∀ k < 10, 0 < k → (Nat.toDigits 10 k).head? ≠ some '0' := by decide
      exact this n hn h
    · have hn' : 10 ≤ n := by omega
      rw [Nat.toDigits_of_base_le (by omega) hn']
      have h1 := ih (n / 10) (by omega) (by omega)
      cases hd : Nat.toDigits 10 (n / 10) with
      | nil => exact absurd hd (Nat.toDigits_ne_nil)
      | cons c l => rw [hd] at h1; simpa using h1

theorem zeroPad_head (n : Nat) (h : 9 ≤ (natStr n).length) (h0 : 0 < n) :
    (zeroPad 9 (natStr n)).head? ≠ some '0' := by
  have hz : zeroPad 9 (natStr n) = natStr n := by
    unfold zeroPad
    rw [Nat.sub_eq_zero_of_le h, List.replicate_zero, List.nil_append]
  rw [hz]
  exact toDigits_head_ne_zero n h0

theorem long_digits (n : Nat) (h : 10 ^ 8 ≤ n) : 9 ≤ (natStr n).length := by
  unfold natStr
  have : ¬ (Nat.toDigits 10 n).length ≤ 8 := by
    intro hle
    have := (Nat.length_toDigits_le_iff (by omega) (by omega)).1 hle
    omega
  omega

/-- C32 is false of the code: a time of any whole number of seconds, but 0, is shown with a fraction
that does not start with the digit 0, at every positive width. -/
theorem C32_violated (sw fw s : Nat) (hs : 0 < s) (hf : 0 < fw) :
    formatTime sw fw (s * 1000000000) ≠ rightTime sw fw (s * 1000000000) := by
  intro h
  unfold formatTime rightTime at h
  have e1 : s * 1000000000 / 1000000000 = s := by omega
  have e2 : s * 1000000000 % 1000000000 = 0 := by omega
  have e3 : 10 ^ 8 ≤ s * 1000000000 - s := by omega
  rw [e2] at h
  simp only [e1] at h
  generalize s * 1000000000 - s = n at h e3
  have h' := (List.cons.inj (List.append_cancel_left h)).2
  have hd := congrArg List.head? h'
  have hh := zeroPad_head n (long_digits n e3) (by omega)
  cases hn : zeroPad 9 (natStr n) with
  | nil =>
    have h9 := long_digits n e3
    have hl := congrArg List.length hn
    unfold zeroPad at hl
    rw [List.length_append, List.length_nil] at hl
    omega
  | cons c l =>
    rw [hn] at hd hh
    have z : zeroPad 9 (natStr 0) = '0' :: ['0','0','0','0','0','0','0','0'] := by decide
    rw [z] at hd
    cases fw with
    | zero => omega
    | succ f =>
      simp only [List.take_succ_cons, List.head?_cons] at hd hh
      exact hh hd

example : formatTime 2 9 1000000001 = "01.100000000".toList ∧
    rightTime 2 9 1000000001 = "01.000000001".toList := by decide

end Big.Log
