import Verif.Quoted.Model
import Verif.Multisplit.Props
/-!
# C47: theorems about split_quoted_strings
-/
namespace Big.SQ
open Big.MS Big.MS.Spec

variable {α : Type}

/-! ### specification -/

/-- `x` is one of the 3-tuples that splitting should yield, where `L` is the string split at every
quote mark and escape sequence (text, separator, text, ..., text), `all` the quote marks, `multiline`
those of them that allow line breaks, `st0` the initial state.

Its text is a contiguous part `ts` of `L`, starting and ending with a text. Either it is quoted by some
`q`: no separator in it is `q`, `q` is right before it in `L`, and is the leading quote (or it is at the
start, `st0` is `q` and the leading quote is empty), and `q` is right after it in `L`, and is the
trailing quote (or it is at the end and the trailing quote is empty); and unless `q` is multiline the
text has no line breaks. Or it is unquoted: non-empty, no separator in it is a quote mark, and it
extends from the start or a quote mark to the end or a quote mark. -/
def TupleOK (all multiline : List (List α)) (lineBreak : List α → Bool) (st0 : List α)
    (L : List (List α)) (x : List α × List α × List α) : Prop :=
  ∃ pre ts post, L = pre ++ ts ++ post ∧ pre.length % 2 = 0 ∧ ts.length % 2 = 1 ∧
    x.2.1 = ts.flatten ∧
    ((∃ q ∈ all, (∀ w ∈ seps ts, w ≠ q) ∧
        (x.1 = q ∧ pre.getLast? = some q ∨ x.1 = [] ∧ pre = [] ∧ st0 = q) ∧
        (x.2.2 = q ∧ post.head? = some q ∨ x.2.2 = [] ∧ post = []) ∧
        (q ∈ multiline ∨ x.2.1 = [] ∨ lineBreak x.2.1 = false)) ∨
     (x.1 = [] ∧ x.2.2 = [] ∧ x.2.1 ≠ [] ∧ (∀ w ∈ seps ts, w ∉ all) ∧
        (pre = [] ∧ st0 = [] ∨ ∃ q ∈ all, pre.getLast? = some q) ∧
        (post = [] ∨ ∃ q ∈ all, post.head? = some q)))

/-- All the strings of all the tuples, joined. -/
def rejoin (l : List (List α × List α × List α)) : List α :=
  (l.map (fun x => x.1 ++ x.2.1 ++ x.2.2)).flatten

/-! ### proof -/

/-- text, separator, text, separator, ... -/
def flat (ps : List (List α × List α)) : List (List α) := ps.flatMap (fun p => [p.1, p.2])

theorem flat_snoc (ps : List (List α × List α)) (a b : List α) : flat (ps ++ [(a, b)]) = flat ps ++ [a, b] := by
  simp [flat]

theorem flat_length (ps : List (List α × List α)) : (flat ps).length % 2 = 0 := by
  induction ps with
  | nil => rfl
  | cons p ps ih => simp only [flat, List.flatMap_cons, List.length_append, List.length_cons, List.length_nil] at ih ⊢; omega

theorem seps_flat (ps : List (List α × List α)) (l : List (List α)) :
    Spec.seps (flat ps ++ l) = ps.map Prod.snd ++ Spec.seps l := by
  induction ps with
  | nil => rfl
  | cons p ps ih =>
    have : flat (p :: ps) ++ l = p.1 :: p.2 :: (flat ps ++ l) := by simp [flat]
    rw [this]
    simp [Spec.seps, ih]

variable [DecidableEq α]

theorem addLiteral_flatten (buffer : List (List α)) (n : List α) :
    (addLiteral buffer n).flatten = buffer.flatten ++ n := by
  unfold addLiteral
  split
  · rename_i h; simp at h; simp [h]
  · simp

theorem addLiteral_ne (buffer : List (List α)) (n : List α) (h : ∀ x ∈ buffer, x ≠ []) :
    ∀ x ∈ addLiteral buffer n, x ≠ [] := by
  unfold addLiteral
  split
  · exact h
  · rename_i hn
    intro x hx
    rcases List.mem_append.1 hx with hx | hx
    · exact h x hx
    · rw [List.mem_singleton.1 hx]; simpa using hn

theorem flatten_nil_of {b : List (List α)} (h : ∀ x ∈ b, x ≠ []) (he : b.flatten = []) : b = [] := by
  cases b with
  | nil => rfl
  | cons x b =>
    rw [List.flatten_cons] at he
    exact absurd (List.append_eq_nil_iff.1 he).1 (h x (by simp))

variable {E : Env α} {all ml : List (List α)}

theorem bad_false {q t : List α} (hq : q ≠ []) (h : ¬ bad E ml q t = true) :
    q ∈ ml ∨ t = [] ∨ multi E t = false := by
  unfold bad at h
  simp only [Bool.and_eq_true, Bool.not_eq_true', List.isEmpty_eq_false_iff, not_and, Bool.not_eq_true] at h
  by_cases ht : t = []
  · exact .inr (.inl ht)
  · by_cases hm : q ∈ ml
    · exact .inl hm
    · refine .inr (.inr (h ⟨⟨hq, ht⟩, ?_⟩))
      simpa using hm

/-- The state between two pairs. -/
structure Inv (all : List (List α)) (st0 : List α) (pre : List (List α)) (ps : List (List α × List α))
    (st quote : List α) (buffer : List (List α)) : Prop where
  even : pre.length % 2 = 0
  buf : buffer.flatten = (flat ps).flatten
  ne : ∀ x ∈ buffer, x ≠ []
  unq : quote = [] → st = [] ∧ (∀ p ∈ ps, p.2 ∉ all) ∧ (pre = [] ∧ st0 = [] ∨ ∃ q ∈ all, pre.getLast? = some q)
  quo : quote ≠ [] → quote ∈ all ∧ (∀ p ∈ ps, p.2 ≠ quote) ∧
    (st = [] ∧ pre.getLast? = some quote ∨ st = quote ∧ st0 = quote ∧ pre = [])

/-- The leading quote not yet yielded. -/
def owed (st quote : List α) : List α := if st.isEmpty then quote else []

omit [DecidableEq α] in
theorem seps_snoc_text (ps : List (List α × List α)) (n : List α) :
    Spec.seps (flat ps ++ [n]) = ps.map Prod.snd := by
  rw [seps_flat]; simp [Spec.seps]

theorem loop_spec (hall : [] ∉ all) (st0 : List α) : ∀ (l : List (List α)) (pre : List (List α))
    (ps : List (List α × List α)) (st quote : List α) (buffer : List (List α)),
    l.length % 2 = 1 → (∀ w ∈ Spec.seps l, w ≠ []) → Inv all st0 pre ps st quote buffer →
    (∀ x ∈ (loop E all ml st quote buffer (pairs l)).1,
      TupleOK all ml (multi E) st0 (pre ++ flat ps ++ l) x) ∧
    ((loop E all ml st quote buffer (pairs l)).2 = none →
      rejoin (loop E all ml st quote buffer (pairs l)).1
        = owed st quote ++ ((flat ps).flatten ++ l.flatten)) ∧
    (rejoin (loop E all ml st quote buffer (pairs l)).1
        <+: owed st quote ++ ((flat ps).flatten ++ l.flatten)) ∧
    ((loop E all ml st quote buffer (pairs l)).2 = none ∨
      (loop E all ml st quote buffer (pairs l)).2 = some .syntaxError) ∧
    (∀ x ∈ (loop E all ml st quote buffer (pairs l)).1.dropLast, x.1 ≠ [] → x.2.2 = x.1)
  | [], _, _, _, _, _, hodd, _, _ => by simp at hodd
  | [n], pre, ps, st, quote, buffer, _, _, hinv => by
    have hbuf : (addLiteral buffer n ++ [[]]).flatten = (flat ps ++ [n]).flatten := by
      simp [addLiteral_flatten, hinv.buf]
    have hodd : (flat ps ++ [n]).length % 2 = 1 := by
      have := flat_length ps; simp only [List.length_append, List.length_singleton]; omega
    have hfin : loop E all ml st quote buffer (pairs [n])
        = finish E ml st quote (addLiteral buffer n ++ [[]]) := by
      simp only [pairs, loop]
      by_cases hq : quote.isEmpty = true
      · rw [if_pos hq, if_pos (by simpa using hall)]
      · rw [if_neg hq, if_pos]
        intro h; apply hq; rw [← h]; rfl
    rw [hfin]
    unfold finish
    rw [if_neg (by simp), hbuf]
    dsimp only
    have hsum : owed st quote ++ ((flat ps).flatten ++ [n].flatten)
        = owed st quote ++ (flat ps ++ [n]).flatten := by simp
    rw [hsum]
    by_cases hany : (!(flat ps ++ [n]).flatten.isEmpty || !quote.isEmpty) = true
    · rw [if_pos hany]
      by_cases hb : bad E ml quote (flat ps ++ [n]).flatten = true
      · rw [if_pos hb]; simp [rejoin]
      · rw [if_neg hb]
        refine ⟨?_, fun _ => ?_, ?_, .inl rfl, by simp⟩
        · intro x hx
          rw [List.mem_singleton.1 hx]
          refine ⟨pre, flat ps ++ [n], [], by simp, hinv.even, hodd, rfl, ?_⟩
          by_cases hq : quote = []
          · obtain ⟨h1, h2, h3⟩ := hinv.unq hq
            right
            refine ⟨by simp [h1, hq], rfl, ?_, ?_, h3, .inl rfl⟩
            · subst hq; simpa using hany
            · rw [seps_snoc_text]
              intro w hw
              obtain ⟨p, hp, rfl⟩ := List.mem_map.1 hw
              exact h2 p hp
          · obtain ⟨h1, h2, h3⟩ := hinv.quo hq
            left
            refine ⟨quote, h1, ?_, ?_, .inr ⟨rfl, rfl⟩, bad_false hq hb⟩
            · rw [seps_snoc_text]
              intro w hw
              obtain ⟨p, hp, rfl⟩ := List.mem_map.1 hw
              exact h2 p hp
            · rcases h3 with ⟨h4, h5⟩ | ⟨h4, h5, h6⟩
              · left; exact ⟨by simp [h4], h5⟩
              · right; exact ⟨by simp [h4, hq], h6, h5⟩
        · simp [rejoin, owed]
        · simp [rejoin, owed]
    · rw [if_neg hany]
      simp only [Bool.or_eq_true, Bool.not_eq_true', not_or, Bool.not_eq_false, List.isEmpty_iff] at hany
      obtain ⟨h1, h2⟩ := hany
      rw [h1, h2]
      simp [rejoin, owed]
  | n :: w :: rest, pre, ps, st, quote, buffer, hodd, hsn, hinv => by
    have hodd' : rest.length % 2 = 1 := by simp only [List.length_cons] at hodd; omega
    have hsn' : ∀ w ∈ Spec.seps rest, w ≠ [] := fun v hv => hsn v (by simp [Spec.seps, hv])
    have hwne : w ≠ [] := hsn w (by simp [Spec.seps])
    have hlit : (addLiteral buffer n).flatten = (flat ps ++ [n]).flatten := by
      simp [addLiteral_flatten, hinv.buf]
    have hts : (flat ps ++ [n]).length % 2 = 1 := by
      have := flat_length ps; simp only [List.length_append, List.length_singleton]; omega
    have hevenpre : (pre ++ flat (ps ++ [(n, w)])).length % 2 = 0 := by
      have := flat_length (ps ++ [(n, w)]); have := hinv.even; simp only [List.length_append]; omega
    have hL : pre ++ flat ps ++ (n :: w :: rest) = pre ++ flat (ps ++ [(n, w)]) ++ rest := by
      simp [flat_snoc]
    have hL2 : pre ++ flat ps ++ (n :: w :: rest) = pre ++ flat (ps ++ [(n, w)]) ++ flat [] ++ rest := by
      rw [hL]; simp [flat]
    have hlast : (pre ++ flat (ps ++ [(n, w)])).getLast? = some w := by
      rw [flat_snoc]; simp
    have hsum : (flat ps).flatten ++ (n :: w :: rest).flatten
        = (flat (ps ++ [(n, w)])).flatten ++ rest.flatten := by
      simp [flat_snoc]
    -- going on with the separator in the buffer
    have more : Inv all st0 pre (ps ++ [(n, w)]) st quote (addLiteral buffer n ++ [w]) →
        loop E all ml st quote buffer (pairs (n :: w :: rest))
          = loop E all ml st quote (addLiteral buffer n ++ [w]) (pairs rest) →
        _ := fun hi he => by
      have := loop_spec hall st0 rest pre (ps ++ [(n, w)]) st quote _ hodd' hsn' hi
      rw [← he, ← hsum, ← hL] at this
      exact this
    have hbuf' : (addLiteral buffer n ++ [w]).flatten = (flat (ps ++ [(n, w)])).flatten := by
      rw [flat_snoc]; simp [hlit]
    have hne' : ∀ x ∈ addLiteral buffer n ++ [w], x ≠ [] := by
      intro x hx
      rcases List.mem_append.1 hx with hx | hx
      · exact addLiteral_ne buffer n hinv.ne x hx
      · rw [List.mem_singleton.1 hx]; exact hwne
    by_cases hq : quote = []
    · subst hq
      obtain ⟨hst, h2, h3⟩ := hinv.unq rfl
      subst hst
      by_cases hw : w ∈ all
      · -- a quote opens
        have hi : Inv all st0 (pre ++ flat (ps ++ [(n, w)])) [] [] w [] :=
          { even := hevenpre
            buf := by simp [flat]
            ne := by simp
            unq := fun h => absurd h hwne
            quo := fun _ => ⟨hw, by simp, .inl ⟨rfl, hlast⟩⟩ }
        obtain ⟨r1, r2, r3, r4, r5⟩ := loop_spec hall st0 rest _ [] [] w [] hodd' hsn' hi
        rw [← hL2] at r1
        have e1 : owed [] w ++ ((flat ([] : List (List α × List α))).flatten ++ rest.flatten) = w ++ rest.flatten := by
          simp [owed, flat]
        rw [e1] at r2 r3
        by_cases hbe : (addLiteral buffer n).isEmpty = true
        · have hloop : loop E all ml [] [] buffer (pairs (n :: w :: rest))
              = loop E all ml [] w [] (pairs rest) := by
            simp only [pairs, loop]
            rw [if_pos (show ([] : List α).isEmpty = true from rfl), if_neg (by simpa using hw), if_pos hbe]
          have hemp : (flat ps ++ [n]).flatten = [] := by
            rw [← hlit]; rw [List.isEmpty_iff.1 hbe]; rfl
          have e2 : owed [] ([] : List α) ++ ((flat ps).flatten ++ (n :: w :: rest).flatten)
              = w ++ rest.flatten := by
            have : (flat ps).flatten ++ n = [] := by simpa using hemp
            simp [owed, ← List.append_assoc, this]
          rw [hloop, e2]
          exact ⟨r1, r2, r3, r4, r5⟩
        · have hloop : loop E all ml [] [] buffer (pairs (n :: w :: rest))
              = (([], (addLiteral buffer n).flatten, []) :: (loop E all ml [] w [] (pairs rest)).1,
                  (loop E all ml [] w [] (pairs rest)).2) := by
            simp only [pairs, loop]
            rw [if_pos (show ([] : List α).isEmpty = true from rfl), if_neg (by simpa using hw), if_neg hbe]
          have e2 : owed [] ([] : List α) ++ ((flat ps).flatten ++ (n :: w :: rest).flatten)
              = (addLiteral buffer n).flatten ++ (w ++ rest.flatten) := by
            rw [hlit]; simp [owed]
          rw [hloop, e2]
          refine ⟨?_, ?_, ?_, r4, ?_⟩
          · intro x hx
            rcases List.mem_cons.1 hx with rfl | hx
            · refine ⟨pre, flat ps ++ [n], w :: rest, by simp, hinv.even, hts, hlit, .inr ⟨rfl, rfl, ?_, ?_, h3,
                .inr ⟨w, hw, rfl⟩⟩⟩
              · intro h
                apply hbe
                rw [flatten_nil_of (addLiteral_ne buffer n hinv.ne) h]; rfl
              · rw [seps_snoc_text]
                intro v hv
                obtain ⟨p, hp, rfl⟩ := List.mem_map.1 hv
                exact h2 p hp
            · exact r1 x hx
          · intro h
            have := r2 h
            simp only [rejoin, List.map_cons, List.flatten_cons, List.nil_append, List.append_nil] at this ⊢
            rw [this]
          · simp only [rejoin, List.map_cons, List.flatten_cons, List.nil_append, List.append_nil] at r3 ⊢
            exact (List.prefix_append_right_inj _).2 r3
          · intro x hx
            dsimp only at hx
            cases hr : (loop E all ml [] w [] (pairs rest)).1 with
            | nil => rw [hr] at hx; simp at hx
            | cons y ys =>
              rw [hr] at hx r5
              rw [List.dropLast_cons_cons] at hx
              rcases List.mem_cons.1 hx with rfl | hx
              · exact fun h => absurd rfl h
              · exact r5 x hx
      · refine more ?_ ?_
        · exact { even := hinv.even, buf := hbuf', ne := hne'
                  unq := fun _ => ⟨rfl, by
                    intro p hp
                    rcases List.mem_append.1 hp with hp | hp
                    · exact h2 p hp
                    · rw [List.mem_singleton.1 hp]; exact hw, h3⟩
                  quo := fun h => absurd rfl h }
        · simp only [pairs, loop]
          rw [if_pos (show ([] : List α).isEmpty = true from rfl), if_pos (by simpa using hw)]
    · obtain ⟨h1, h2, h3⟩ := hinv.quo hq
      by_cases hw : w = quote
      · subst hw
        by_cases hb : bad E ml w (addLiteral buffer n).flatten = true
        · have hloop : loop E all ml st w buffer (pairs (n :: w :: rest)) = ([], some .syntaxError) := by
            simp only [pairs, loop]
            rw [if_neg (by simpa using hq), if_neg (by simp), if_pos hb]
          rw [hloop]
          simp [rejoin]
        · have hloop : loop E all ml st w buffer (pairs (n :: w :: rest))
              = ((if st.isEmpty then w else [], (addLiteral buffer n).flatten, w)
                  :: (loop E all ml [] [] [] (pairs rest)).1, (loop E all ml [] [] [] (pairs rest)).2) := by
            simp only [pairs, loop]
            rw [if_neg (by simpa using hq), if_neg (by simp), if_neg hb]
          have hi : Inv all st0 (pre ++ flat (ps ++ [(n, w)])) [] [] [] [] :=
            { even := hevenpre
              buf := by simp [flat]
              ne := by simp
              unq := fun _ => ⟨rfl, by simp, .inr ⟨w, h1, hlast⟩⟩
              quo := fun h => absurd rfl h }
          obtain ⟨r1, r2, r3, r4, r5⟩ := loop_spec hall st0 rest _ [] [] [] [] hodd' hsn' hi
          rw [← hL2] at r1
          have e1 : owed [] ([] : List α) ++ ((flat ([] : List (List α × List α))).flatten ++ rest.flatten)
              = rest.flatten := by
            simp [owed, flat]
          rw [e1] at r2 r3
          have e2 : owed st w ++ ((flat ps).flatten ++ (n :: w :: rest).flatten)
              = (if st.isEmpty then w else []) ++ (addLiteral buffer n).flatten ++ w ++ rest.flatten := by
            rw [hlit]; simp [owed]
          rw [hloop, e2]
          refine ⟨?_, ?_, ?_, r4, ?_⟩
          · intro x hx
            rcases List.mem_cons.1 hx with rfl | hx
            · refine ⟨pre, flat ps ++ [n], w :: rest, by simp, hinv.even, hts, hlit,
                .inl ⟨w, h1, ?_, ?_, .inl ⟨rfl, rfl⟩, bad_false hq hb⟩⟩
              · rw [seps_snoc_text]
                intro v hv
                obtain ⟨p, hp, rfl⟩ := List.mem_map.1 hv
                exact h2 p hp
              · rcases h3 with ⟨h4, h5⟩ | ⟨h4, h5, h6⟩
                · left; exact ⟨by simp [h4], h5⟩
                · right; exact ⟨by simp [h4, hq], h6, h5⟩
            · exact r1 x hx
          · intro h
            have := r2 h
            simp only [rejoin, List.map_cons, List.flatten_cons] at this ⊢
            rw [this]
          · simp only [rejoin, List.map_cons, List.flatten_cons] at r3 ⊢
            exact (List.prefix_append_right_inj _).2 r3
          · intro x hx
            dsimp only at hx
            cases hr : (loop E all ml [] [] [] (pairs rest)).1 with
            | nil => rw [hr] at hx; simp at hx
            | cons y ys =>
              rw [hr] at hx r5
              rw [List.dropLast_cons_cons] at hx
              rcases List.mem_cons.1 hx with rfl | hx
              · dsimp only
                split
                · exact fun _ => rfl
                · exact fun h => absurd rfl h
              · exact r5 x hx
      · refine more ?_ ?_
        · exact { even := hinv.even, buf := hbuf', ne := hne'
                  unq := fun h => absurd h hq
                  quo := fun _ => ⟨h1, by
                    intro p hp
                    rcases List.mem_append.1 hp with hp | hp
                    · exact h2 p hp
                    · rw [List.mem_singleton.1 hp]; exact hw, h3⟩ }
        · simp only [pairs, loop]
          rw [if_neg (by simpa using hq), if_pos hw]

end Big.SQ
