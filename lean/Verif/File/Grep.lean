import Verif.File.GrepModel
import Verif.File.TextProps
/-!
# C77: fgrep and grep, from the file's bytes on
-/
namespace Big.File

/-! ### specification -/

/-- `ls` are the lines of the text `s`, where a line ends in LF, CR or CR LF (CR LF is one line break, not two). -/
inductive TextLines : List Char → List (List Char) → Prop
  | last (l : List Char) : '\r' ∉ l → '\n' ∉ l → TextLines l [l]
  | lf (l s : List Char) (ls) : '\r' ∉ l → '\n' ∉ l → TextLines s ls → TextLines (l ++ '\n' :: s) (l :: ls)
  | crlf (l s : List Char) (ls) : '\r' ∉ l → '\n' ∉ l → TextLines s ls → TextLines (l ++ '\r' :: '\n' :: s) (l :: ls)
  | cr (l s : List Char) (ls) : '\r' ∉ l → '\n' ∉ l → s.head? ≠ some '\n' → TextLines s ls →
      TextLines (l ++ '\r' :: s) (l :: ls)

/-- What is reported of the lines `ls`: those that match, in order, with their numbers if asked for. -/
def report {α : Type} (enumerate : Bool) (p : List α → Bool) (ls : List (List α)) : Found α :=
  if enumerate then .numbered (((List.range' 1 ls.length).zip ls).filter (fun t => p t.2))
  else .plain (ls.filter p)

/-- When a line matches, for fgrep. -/
def FMatches {α : Type} (lower : List α → List α) (ci : Bool) (text line : List α) : Prop :=
  if ci then lower text <:+: lower line else text <:+: line

/-- The same byte, or the same ASCII letter in upper and lower case ('A'-'Z' are 65-90, 'a'-'z' 97-122). -/
def SameLetter (a b : UInt8) : Prop :=
  a = b ∨ (65 ≤ a.toNat ∧ a.toNat ≤ 90 ∧ b.toNat = a.toNat + 32) ∨ (65 ≤ b.toNat ∧ b.toNat ≤ 90 ∧ a.toNat = b.toNat + 32)

/-- When a line of bytes matches, for fgrep: some stretch of it is the text, byte for byte, case_insensitive up to the
case of ASCII letters. -/
def BytesMatch (ci : Bool) (text line : List UInt8) : Prop :=
  ∃ pre mid post, line = pre ++ mid ++ post ∧ mid.length = text.length ∧
    ∀ (i : Nat) (a b : UInt8), mid[i]? = some a → text[i]? = some b → a = b ∨ (ci = true ∧ SameLetter a b)

/-! ### lines -/

theorem universal_cons {c : Char} (h : c ≠ '\r') (s : List Char) : universal (c :: s) = c :: universal s := by
  rw [universal]
  · rw [if_neg h]
  · intro s' h1; exact absurd h1 h

theorem universal_cr {s : List Char} (h : s.head? ≠ some '\n') : universal ('\r' :: s) = '\n' :: universal s := by
  cases s with
  | nil => rfl
  | cons c s =>
    rw [universal]
    · rfl
    · intro s' _ h2
      injection h2 with h3 h4
      subst h3
      exact h rfl

theorem universal_append {l : List Char} (h : '\r' ∉ l) (s : List Char) :
    universal (l ++ s) = l ++ universal s := by
  induction l with
  | nil => rfl
  | cons c l ih =>
    simp only [List.mem_cons, not_or] at h
    rw [List.cons_append, universal_cons (fun e => h.1 e.symm), ih h.2, List.cons_append]

theorem textLines_split {s : List Char} {ls : List (List Char)} (h : TextLines s ls) :
    split '\n' (universal s) = ls := by
  induction h with
  | last l h1 h2 =>
    have := universal_append h1 []
    rw [List.append_nil, show universal [] = [] from rfl, List.append_nil] at this
    rw [this, split_line h2]
  | lf l s ls h1 h2 _ ih => rw [universal_append h1, universal_cons (by decide), split_append h2, ih]
  | crlf l s ls h1 h2 _ ih =>
    rw [universal_append h1, show universal ('\r' :: '\n' :: s) = '\n' :: universal s from by rw [universal],
      split_append h2, ih]
  | cr l s ls h1 h2 h3 _ ih => rw [universal_append h1, universal_cr h3, split_append h2, ih]

theorem textLines_grow {c : Char} (h1 : c ≠ '\r') (h2 : c ≠ '\n') {s : List Char} {l : List Char} {ls : List (List Char)}
    (h : TextLines s (l :: ls)) : TextLines (c :: s) ((c :: l) :: ls) := by
  have n1 : ∀ {l : List Char}, '\r' ∉ l → '\r' ∉ c :: l := by
    intro l hl hm; rcases List.mem_cons.1 hm with e | e
    · exact h1 e.symm
    · exact hl e
  have n2 : ∀ {l : List Char}, '\n' ∉ l → '\n' ∉ c :: l := by
    intro l hl hm; rcases List.mem_cons.1 hm with e | e
    · exact h2 e.symm
    · exact hl e
  cases h with
  | last _ a b => exact .last _ (n1 a) (n2 b)
  | lf _ s ls a b t => exact .lf _ s ls (n1 a) (n2 b) t
  | crlf _ s ls a b t => exact .crlf _ s ls (n1 a) (n2 b) t
  | cr _ s ls a b d t => exact .cr _ s ls (n1 a) (n2 b) d t

theorem split_textLines (s : List Char) : TextLines s (split '\n' (universal s)) := by
  fun_induction universal s with
  | case1 => exact .last [] (by simp) (by simp)
  | case2 s ih =>
    rw [show split '\n' ('\n' :: universal s) = [] :: split '\n' (universal s) from by simp [split]]
    exact .crlf [] s _ (by simp) (by simp) ih
  | case3 c s hne ih =>
    by_cases hc : c = '\r'
    · subst hc
      rw [if_pos rfl, show split '\n' ('\n' :: universal s) = [] :: split '\n' (universal s) from by simp [split]]
      refine .cr [] s _ (by simp) (by simp) ?_ ih
      cases s with
      | nil => simp
      | cons d s =>
        intro e
        simp only [List.head?_cons, Option.some.injEq] at e
        subst e
        exact hne s rfl rfl
    · rw [if_neg hc]
      by_cases hn : c = '\n'
      · subst hn
        rw [show split '\n' ('\n' :: universal s) = [] :: split '\n' (universal s) from by simp [split]]
        exact .lf [] s _ (by simp) (by simp) ih
      · unfold split
        rw [if_neg hn]
        cases hs : split '\n' (universal s) with
        | nil => exact absurd hs (split_ne _ _)
        | cons l ls =>
          rw [hs] at ih
          exact textLines_grow hc hn ih

/-- Every text has lines, and only one list of them. -/
theorem C77_lines_unique (s : List Char) : ∃ ls, TextLines s ls ∧ ∀ ls', TextLines s ls' → ls' = ls :=
  ⟨_, split_textLines s, fun _ h => (textLines_split h).symm⟩

/-! ### the searches -/

theorem fgrep_report {α : Type} [DecidableEq α] {nl : α} {lower : List α → List α} (H : LowerOk nl lower)
    (text contents : List α) (enumerate ci : Bool) (p : List α → Bool)
    (hp : ∀ l, p l = true ↔ FMatches lower ci text l) :
    (if enumerate then Found.numbered (fgrepNumbered nl lower text contents ci)
      else .plain (fgrepPlain nl lower text contents ci)) = report enumerate p (split nl contents) := by
  have key : fgrepNumbered nl lower text contents ci = (enum (split nl contents)).filter (fun t => p t.2) ∧
      fgrepPlain nl lower text contents ci = ((enum (split nl contents)).filter (fun t => p t.2)).map (·.2) := by
    have hu : ∀ r, Numbered nl contents r → r = enum (split nl contents) := fun r hr =>
      C35_numbered_unique nl contents r _ hr ⟨_, split_areLines nl contents, rfl⟩
    cases ci with
    | false =>
      obtain ⟨r, h1, h2⟩ := C35_fgrep nl lower text contents
      rw [← hu r h1]
      exact h2 p (fun l => by rw [hp]; rfl)
    | true =>
      obtain ⟨r, h1, h2⟩ := C35_fgrep_ci nl lower H text contents
      rw [← hu r h1]
      exact h2 p (fun l => by rw [hp]; rfl)
  cases enumerate with
  | true => rw [if_pos rfl, key.1]; rfl
  | false =>
    rw [if_neg (by decide), key.2, enum, filter_enum_snd]
    rfl

theorem lowerByte_ok : LowerOk (10 : UInt8) (List.map lowerByte) where
  line l h := by
    intro hm
    obtain ⟨c, hc, e⟩ := List.mem_map.1 hm
    have : ∀ c : UInt8, lowerByte c = 10 → c = 10 := by
      intro c
      have := (show ∀ n : Fin 256, lowerByte (UInt8.ofNat n.1) = 10 → UInt8.ofNat n.1 = 10 by decide +kernel)
        ⟨c.toNat, c.toNat_lt⟩
      simpa using this
    exact h (this c e ▸ hc)
  lines l s _ := by
    rw [List.map_append, List.map_cons]
    rfl

/-- C77: with a str, fgrep reads the file as text, and returns as str exactly the lines that contain the text, numbered
from 1, whichever of LF, CR and CR LF the file ends its lines with. -/
theorem C77_fgrep_str (W : World) (H : LowerOk '\n' W.lower) (path : String) (text : List Char)
    (encoding : Option String) (enumerate ci : Bool) (b : List UInt8) (s : List Char) (ls : List (List Char))
    (hb : W.read path = some b) (hs : W.decode encoding b = .ok s) (hl : TextLines s ls)
    (p : List Char → Bool) (hp : ∀ l, p l = true ↔ FMatches W.lower ci text l) :
    fgrep W path (.str text) encoding enumerate ci = .ok (.str (report enumerate p ls)) := by
  unfold fgrep readText
  dsimp only
  rw [hb]
  dsimp only
  rw [hs]
  dsimp only
  rw [fgrep_report H _ _ _ _ p hp, textLines_split hl]

theorem lowerByte_toNat (b : UInt8) :
    (lowerByte b).toNat = if 65 ≤ b.toNat ∧ b.toNat ≤ 90 then b.toNat + 32 else b.toNat := by
  have := (show ∀ n : Fin 256, (lowerByte (UInt8.ofNat n.1)).toNat = if 65 ≤ n.1 ∧ n.1 ≤ 90 then n.1 + 32 else n.1 by
    decide +kernel) ⟨b.toNat, b.toNat_lt⟩
  simpa using this

theorem lowerByte_same (a b : UInt8) : lowerByte a = lowerByte b ↔ SameLetter a b := by
  unfold SameLetter
  rw [← UInt8.toNat_inj, ← UInt8.toNat_inj, lowerByte_toNat, lowerByte_toNat]
  split <;> split <;> omega

theorem map_lower_eq (mid text : List UInt8) : mid.map lowerByte = text.map lowerByte ↔ mid.length = text.length ∧
    ∀ (i : Nat) (a b : UInt8), mid[i]? = some a → text[i]? = some b → SameLetter a b := by
  constructor
  · intro h
    refine ⟨by simpa using congrArg List.length h, fun i a b ha hb => ?_⟩
    have := congrArg (·[i]?) h
    simp only [List.getElem?_map, ha, hb, Option.map_some, Option.some.injEq] at this
    exact (lowerByte_same a b).1 this
  · rintro ⟨hl, h⟩
    apply List.ext_getElem (by simpa using hl)
    intro i h1 h2
    simp only [List.getElem_map]
    simp only [List.length_map] at h1 h2
    exact (lowerByte_same _ _).2 (h i _ _ (List.getElem?_eq_getElem h1) (List.getElem?_eq_getElem h2))

theorem bytesMatch_iff (ci : Bool) (text line : List UInt8) :
    BytesMatch ci text line ↔ FMatches (List.map lowerByte) ci text line := by
  unfold BytesMatch FMatches
  cases ci with
  | false =>
    simp only [Bool.false_eq_true, false_and, or_false, if_false]
    constructor
    · rintro ⟨pre, mid, post, rfl, hl, h⟩
      have : mid = text := by
        apply List.ext_getElem hl
        intro i h1 h2
        exact h i _ _ (List.getElem?_eq_getElem h1) (List.getElem?_eq_getElem h2)
      subst this
      exact ⟨pre, post, rfl⟩
    · rintro ⟨pre, post, rfl⟩
      refine ⟨pre, text, post, rfl, rfl, fun i a b ha hb => ?_⟩
      rw [ha] at hb
      exact Option.some.inj hb
  | true =>
    have hs : ∀ a b : UInt8, (a = b ∨ (True ∧ SameLetter a b)) ↔ SameLetter a b := by
      intro a b
      simp only [true_and]
      exact ⟨fun h => h.elim (fun h => .inl h) id, .inr⟩
    simp only [if_true]
    constructor
    · rintro ⟨pre, mid, post, rfl, hl, h⟩
      refine ⟨pre.map lowerByte, post.map lowerByte, ?_⟩
      rw [List.map_append, List.map_append, (map_lower_eq mid text).2 ⟨hl, fun i a b ha hb => (hs a b).1 (h i a b ha hb)⟩]
    · rintro ⟨pre, post, h⟩
      obtain ⟨x, post', rfl, h1, rfl⟩ := List.map_eq_append_iff.1 h.symm
      obtain ⟨pre', mid, rfl, rfl, h2⟩ := List.map_eq_append_iff.1 h1
      obtain ⟨e1, e2⟩ := (map_lower_eq mid text).1 h2
      exact ⟨pre', mid, post', rfl, e1, fun i a b ha hb => (hs a b).2 (e2 i a b ha hb)⟩

/-- C77: with bytes, fgrep returns as bytes the lines as they are in the file, where a line ends in LF alone (so a CR
before it is part of the line); case_insensitive regards ASCII letters only. -/
theorem C77_fgrep_bytes (W : World) (path : String) (text : List UInt8) (enumerate ci : Bool) (b : List UInt8)
    (ls : List (List UInt8)) (hb : W.read path = some b) (hl : AreLines 10 ls b)
    (p : List UInt8 → Bool) (hp : ∀ l, p l = true ↔ BytesMatch ci text l) :
    fgrep W path (.bytes text) none enumerate ci = .ok (.bytes (report enumerate p ls)) := by
  unfold fgrep readBytes
  dsimp only
  rw [if_neg (by decide), hb]
  dsimp only
  rw [fgrep_report lowerByte_ok _ _ _ _ p (fun l => (hp l).trans (bytesMatch_iff ci text l)), areLines_unique hl]

theorem grep_report {α : Type} [DecidableEq α] {nl : α} (contents : List α) (enumerate : Bool) (p : List α → Bool) :
    (if enumerate then Found.numbered (grepNumbered nl p contents) else .plain (grepPlain nl p contents)) =
      report enumerate p (split nl contents) := by
  cases enumerate <;> rfl

/-- C77: grep with a str pattern. An re.Pattern searches as it was compiled, whatever `flags` are. -/
theorem C77_grep_str (W : World) (path : String) (pattern : Pattern) (flags : Nat) (search : List Char → Bool)
    (hc : (∃ q, pattern = .str q ∧ W.compileStr q flags = .ok search) ∨ pattern = .compiledStr search)
    (encoding : Option String) (enumerate : Bool) (b : List UInt8) (s : List Char) (ls : List (List Char))
    (hb : W.read path = some b) (hs : W.decode encoding b = .ok s) (hl : TextLines s ls) :
    grep W path pattern encoding enumerate flags = .ok (.str (report enumerate search ls)) := by
  have h1 : compiled W flags pattern = .ok (.inl search) := by
    rcases hc with ⟨q, rfl, h⟩ | rfl
    · simp only [compiled, h]; rfl
    · rfl
  unfold grep readText
  rw [h1]
  dsimp only
  rw [hb]
  dsimp only
  rw [hs]
  dsimp only
  rw [grep_report, textLines_split hl]

/-- C77: grep with a bytes pattern. -/
theorem C77_grep_bytes (W : World) (path : String) (pattern : Pattern) (flags : Nat) (search : List UInt8 → Bool)
    (hc : (∃ q, pattern = .bytes q ∧ W.compileBytes q flags = .ok search) ∨ pattern = .compiledBytes search)
    (enumerate : Bool) (b : List UInt8) (ls : List (List UInt8))
    (hb : W.read path = some b) (hl : AreLines 10 ls b) :
    grep W path pattern none enumerate flags = .ok (.bytes (report enumerate search ls)) := by
  have h1 : compiled W flags pattern = .ok (.inr search) := by
    rcases hc with ⟨q, rfl, h⟩ | rfl
    · simp only [compiled, h]; rfl
    · rfl
  unfold grep readBytes
  rw [h1]
  dsimp only
  rw [if_neg (by decide), hb]
  dsimp only
  rw [grep_report, areLines_unique hl]

/-- C77: an encoding together with bytes is refused with ValueError, whether or not the file exists; and fgrep raises
nothing else but that the file is not there or cannot be decoded. -/
theorem C77_raises (W : World) (path : String) (text : Text) (encoding : Option String) (enumerate ci : Bool)
    (e : GrepErr) :
    fgrep W path text encoding enumerate ci = .error e ↔
      match text with
      | .bytes _ => if encoding ≠ none then e = .valueError else W.read path = none ∧ e = .fileNotFound
      | .str _ => (W.read path = none ∧ e = .fileNotFound) ∨
          ∃ b, W.read path = some b ∧ W.decode encoding b = .error e := by
  cases text with
  | bytes t =>
    dsimp only [fgrep, readBytes]
    cases encoding with
    | some x => simp [eq_comm]
    | none =>
      cases W.read path <;> simp [eq_comm]
  | str t =>
    dsimp only [fgrep, readText]
    cases hr : W.read path with
    | none => simp [eq_comm]
    | some b =>
      cases hd : W.decode encoding b with
      | error e' => simp [hd]
      | ok s => simp [hd]

/-- C77: grep: re.compile comes first. -/
theorem C77_grep_raises (W : World) (path : String) (pattern : Pattern) (encoding : Option String) (enumerate : Bool)
    (flags : Nat) (e : GrepErr) :
    grep W path pattern encoding enumerate flags = .error e ↔
      compiled W flags pattern = .error e ∨
      (∃ f, compiled W flags pattern = .ok (.inr f) ∧
        if encoding ≠ none then e = .valueError else W.read path = none ∧ e = .fileNotFound) ∨
      (∃ f, compiled W flags pattern = .ok (.inl f) ∧
        ((W.read path = none ∧ e = .fileNotFound) ∨ ∃ b, W.read path = some b ∧ W.decode encoding b = .error e)) := by
  unfold grep
  cases hc : compiled W flags pattern with
  | error e' => simp
  | ok f =>
    cases f with
    | inr f =>
      dsimp only [readBytes]
      cases encoding with
      | some x => simp [eq_comm]
      | none => cases W.read path <;> simp [eq_comm]
    | inl f =>
      dsimp only [readText]
      cases hr : W.read path with
      | none => simp [eq_comm]
      | some b =>
        cases hd : W.decode encoding b with
        | error e' => simp [hd]
        | ok s => simp [hd]

/-- The lines of a text that ends in a line break end in an empty line. -/
theorem textLines_last {s : List Char} {ls : List (List Char)} (h : TextLines s ls)
    (he : s.getLast? = some '\n' ∨ s.getLast? = some '\r') : ls.getLast? = some [] := by
  have step : ∀ {s t : List Char} {x : List Char} {ls : List (List Char)}, TextLines s ls →
      (t ++ s).getLast? = s.getLast? ∨ s = [] →
      ((s.getLast? = some '\n' ∨ s.getLast? = some '\r') → ls.getLast? = some []) →
      ((t ++ s).getLast? = some '\n' ∨ (t ++ s).getLast? = some '\r') → (x :: ls).getLast? = some [] := by
    intro s t x ls hl h1 h2 h3
    have hne : ls ≠ [] := by cases hl <;> simp
    have hcons : (x :: ls).getLast? = ls.getLast? := by
      cases ls with
      | nil => exact absurd rfl hne
      | cons a l => simp [List.getLast?_cons]
    rw [hcons]
    rcases h1 with h1 | rfl
    · exact h2 (by rw [← h1]; exact h3)
    · have : ls = [[]] := by
        have := textLines_split hl
        rw [← this]; rfl
      rw [this]; rfl
  have app : ∀ (t s : List Char), (t ++ s).getLast? = s.getLast? ∨ s = [] := by
    intro t s
    cases s with
    | nil => exact .inr rfl
    | cons a s => exact .inl (by rw [List.getLast?_append]; simp [List.getLast?_cons])
  induction h with
  | last l h1 h2 =>
    exfalso
    rcases he with he | he
    · exact h2 (List.mem_of_getLast? he)
    · exact h1 (List.mem_of_getLast? he)
  | lf l s ls h1 h2 hl ih =>
    have e : l ++ '\n' :: s = (l ++ ['\n']) ++ s := by simp
    exact step hl (app (l ++ ['\n']) s) ih (e ▸ he)
  | crlf l s ls h1 h2 hl ih =>
    have e : l ++ '\r' :: '\n' :: s = (l ++ ['\r', '\n']) ++ s := by simp
    exact step hl (app (l ++ ['\r', '\n']) s) ih (e ▸ he)
  | cr l s ls h1 h2 h3 hl ih =>
    have e : l ++ '\r' :: s = (l ++ ['\r']) ++ s := by simp
    exact step hl (app (l ++ ['\r']) s) ih (e ▸ he)

/-- C77, unlike the UNIX programs: the line break at the end of a file is followed by one more line, which is empty, so
a search that empty lines satisfy reports it, with a number one higher than the last line of the file. -/
theorem C77_line_after_the_last (s : List Char) (ls : List (List Char)) (h : TextLines s ls)
    (he : s.getLast? = some '\n' ∨ s.getLast? = some '\r') (p : List Char → Bool) (hp : p [] = true) :
    ∃ r, report true p ls = .numbered (r ++ [(ls.length, [])]) := by
  obtain ⟨l, rfl⟩ := List.getLast?_eq_some_iff.1 (textLines_last h he)
  refine ⟨((List.range' 1 l.length).zip l).filter (fun t => p t.2), ?_⟩
  unfold report
  rw [if_pos rfl, List.length_append, List.length_singleton, List.range'_concat,
    List.zip_append (by simp), List.filter_append]
  simp [hp, Nat.add_comm]

/-! ### examples -/

/-- Latin-1, and a pattern that is found where it is contained. -/
def exampleWorld : World where
  read p := if p = "f" then some [97, 13, 10, 66, 13, 98, 10] else none
  decode _ b := .ok (b.map (fun c => Char.ofNat c.toNat))
  lower := List.map Char.toLower
  compileStr p _ := .ok (contains p)
  compileBytes p _ := .ok (contains p)

example : TextLines "a\r\nB\rb\n".toList ["a".toList, "B".toList, "b".toList, []] := by
  have := split_textLines "a\r\nB\rb\n".toList
  rwa [show split '\n' (universal "a\r\nB\rb\n".toList) = ["a".toList, "B".toList, "b".toList, []] by decide +kernel]
    at this

theorem exampleWorld_lower : LowerOk '\n' exampleWorld.lower := mapLower_ok

example : fgrep exampleWorld "f" (.str "b".toList) none true true
    = .ok (.str (.numbered [(2, "B".toList), (3, "b".toList)])) := by
  simp only [fgrep, readText]; rfl
example : fgrep exampleWorld "f" (.bytes [98]) none true true
    = .ok (.bytes (.numbered [(2, [66, 13, 98])])) := by
  simp only [fgrep, readBytes]; rfl

end Big.File
