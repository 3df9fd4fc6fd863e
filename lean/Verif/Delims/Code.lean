import Verif.Delims.Single
import Verif.Lines.Code
/-! # C155: split_delimiters on text encoded in UTF-8 -/
namespace Big.SD
open Big.MS (utf8 CacheOK strCache bytesCache strLinebreaks bytesLinebreaks)
open Big.Lines (enc enc_inj enc_nil enc_append enc_isEmpty mem_utf8 ascii_byte)

/-! ### Specification -/

/-- A tuple with its strings encoded. -/
def encodeTuple (x : Tuple Char) : Tuple UInt8 := (enc x.1, enc x.2.1, enc x.2.2)

/-- What was yielded, encoded, and the same exception. -/
def encodeRun (r : List (Tuple Char) × Option Err) : List (Tuple UInt8) × Option Err := (r.1.map encodeTuple, r.2)

/-- A Delimiter object with its strings encoded. -/
def encodeDelim (d : Delim Char) : Delim UInt8 :=
  { close := enc d.close, escape := enc d.escape, multiline := d.multiline, quoting := d.quoting }

/-- The mapping `delimiters` with its strings encoded. -/
def encodeDelims (ds : Delims Char) : Delims UInt8 := ds.map (fun kd => (enc kd.1, encodeDelim kd.2))

/-- Python's str, as far as split_delimiters is concerned. -/
def pyStr : Env Char where
  nl := '\n'
  backslash := '\\'
  newlines := strLinebreaks.filter (· ≠ ['\r', '\n'])
  cache := strCache

/-- Python's bytes. -/
def pyBytes : Env UInt8 where
  nl := 10
  backslash := 92
  newlines := bytesLinebreaks.filter (· ≠ [13, 10])
  cache := bytesCache

/-- All delimiters and escapes are single ASCII characters. -/
def AsciiSingles (ds : Delims Char) : Prop :=
  ∀ kd ∈ ds, (∃ c, c.toNat < 128 ∧ kd.1 = [c]) ∧ (∃ c, c.toNat < 128 ∧ kd.2.close = [c]) ∧
    (kd.2.escape = [] ∨ ∃ c, c.toNat < 128 ∧ kd.2.escape = [c])

/-! ### Lemmas -/

theorem ite_iff {p q : Prop} [Decidable p] [Decidable q] {γ : Type} {a b c d : γ} (h : p ↔ q) (h1 : a = c) (h2 : b = d) :
    (if p then a else b) = if q then c else d := by
  subst h1 h2
  by_cases hq : q
  · rw [if_pos hq, if_pos (h.2 hq)]
  · rw [if_neg hq, if_neg (fun hp => hq (h.1 hp))]

theorem str_newlines : pyStr.newlines.all (fun n => n.length == 1 && n.all Big.MS.PyStr.isBreak) = true := by decide +kernel
theorem bytes_newlines : pyBytes.newlines = [[10], [13]] := by decide +kernel
theorem enc_backslash : enc ['\\'] = [92] := by decide +kernel
theorem enc_lf : enc ['\n'] = [10] := by decide +kernel
theorem enc_cr : enc ['\r'] = [13] := by decide +kernel

theorem str_newline {c : Char} (h : [c] ∈ pyStr.newlines) : Big.MS.PyStr.isBreak c = true := by
  have := List.all_eq_true.1 str_newlines _ h
  simpa using this

theorem lf_mem : ['\n'] ∈ pyStr.newlines := by decide +kernel
theorem cr_mem : ['\r'] ∈ pyStr.newlines := by decide +kernel

theorem newline_code {c : Char} (hc : Big.MS.PyStr.isBreak c = true → c = '\n' ∨ c = '\r') :
    enc [c] ∈ pyBytes.newlines ↔ [c] ∈ pyStr.newlines := by
  rw [bytes_newlines, ← enc_lf, ← enc_cr]
  simp only [List.mem_cons, List.not_mem_nil, or_false, enc_inj, List.cons.injEq, and_true]
  constructor
  · rintro (rfl | rfl)
    · exact lf_mem
    · exact cr_mem
  · intro h; exact hc (str_newline h)

variable {ds : Delims Char}

theorem mem_encodeDelims {kd' : List UInt8 × Delim UInt8} :
    kd' ∈ encodeDelims ds ↔ ∃ kd ∈ ds, (enc kd.1, encodeDelim kd.2) = kd' := by
  simp [encodeDelims]

theorem openers_code : openers (encodeDelims ds) = (openers ds).map enc := by
  simp [openers, encodeDelims, Function.comp_def]

theorem mem_map_enc {l : List (List Char)} {w : List Char} : enc w ∈ l.map enc ↔ w ∈ l := by
  simp only [List.mem_map, enc_inj, exists_eq_right]

theorem enc_inj_fun : Function.Injective enc := fun _ _ h => enc_inj.1 h

theorem nested_code : nestedClosers (encodeDelims ds) = (nestedClosers ds).map enc := by
  induction ds with
  | nil => rfl
  | cons kd ds ih =>
    unfold nestedClosers encodeDelims at *
    cases hq : kd.2.quoting
    · simpa [encodeDelim, hq] using ih
    · simpa [encodeDelim, hq] using ih

/-- The strings of tokens of encoded delimiters are encoded tokens. -/
theorem tokens_code {t : List UInt8} : t ∈ delimiterTokens (encodeDelims ds) ↔ ∃ w ∈ delimiterTokens ds, enc w = t := by
  unfold delimiterTokens openers closers escapes
  simp only [List.mem_append, List.mem_map, List.mem_filter, mem_encodeDelims]
  constructor
  · rintro ((⟨_, ⟨kd, hk, rfl⟩, rfl⟩ | ⟨_, ⟨kd, hk, rfl⟩, rfl⟩) | ⟨_, ⟨⟨kd, hk, rfl⟩, hq⟩, rfl⟩)
    · exact ⟨_, .inl (.inl ⟨kd, hk, rfl⟩), rfl⟩
    · exact ⟨_, .inl (.inr ⟨kd, hk, rfl⟩), rfl⟩
    · exact ⟨_, .inr ⟨kd, ⟨hk, hq⟩, rfl⟩, rfl⟩
  · rintro ⟨w, (⟨kd, hk, rfl⟩ | ⟨kd, hk, rfl⟩) | ⟨kd, ⟨hk, hq⟩, rfl⟩, rfl⟩
    · exact .inl (.inl ⟨_, ⟨kd, hk, rfl⟩, rfl⟩)
    · exact .inl (.inr ⟨_, ⟨kd, hk, rfl⟩, rfl⟩)
    · exact .inr ⟨_, ⟨⟨kd, hk, rfl⟩, hq⟩, rfl⟩

theorem make_code {c e : List Char} {m q : Bool} {d : Delim Char} (h : Delim.make pyStr c e m q = .ok d) :
    Delim.make pyBytes (enc c) (enc e) m q = .ok (encodeDelim d) := by
  unfold Delim.make at h ⊢
  have h1 : (enc c = [pyBytes.backslash]) ↔ c = [pyStr.backslash] := by
    show enc c = [92] ↔ c = ['\\']
    rw [← enc_backslash, enc_inj]
  rw [ite_iff h1 rfl rfl, enc_isEmpty]
  split at h
  · simp at h
  rename_i h0
  rw [if_neg h0]
  split at h
  · simp at h
  rename_i h0
  rw [if_neg h0]
  split at h
  · simp at h
  rename_i h0
  rw [if_neg h0]
  cases h
  rfl

theorem ok_code (h : OK pyStr ds) : OK pyBytes (encodeDelims ds) where
  nodup := by
    have := openers_code (ds := ds)
    unfold openers at this
    rw [this]
    exact List.Pairwise.map enc (fun a b hab he => hab (enc_inj_fun he)) h.nodup
  made := by
    intro kd' hk
    obtain ⟨kd, hk0, rfl⟩ := mem_encodeDelims.1 hk
    obtain ⟨c, e, m, q, hm⟩ := h.made kd hk0
    exact ⟨enc c, enc e, m, q, make_code hm⟩
  noEmpty := by
    unfold allTokens
    rw [List.mem_append]
    rintro (hm | hm)
    · obtain ⟨w, hw, he⟩ := tokens_code.1 hm
      rw [← enc_nil, enc_inj] at he
      exact h.noEmpty (by unfold allTokens; rw [List.mem_append]; exact .inl (he ▸ hw))
    · unfold allNewlines at hm
      split at hm
      · rw [bytes_newlines] at hm; simp at hm
      · simp at hm

theorem disjoint_code : Disjoint (encodeDelims ds) ↔ Disjoint ds := by
  unfold Disjoint
  rw [openers_code, nested_code]
  simp only [List.mem_map, forall_exists_index, and_imp, forall_apply_eq_imp_iff₂, enc_inj, exists_eq_right]

theorem single_token (ha : AsciiSingles ds) (h : OK pyStr ds) {w : List Char} (hw : w ∈ delimiterTokens ds) :
    ∃ c, c.toNat < 128 ∧ w = [c] := by
  unfold delimiterTokens openers closers escapes at hw
  simp only [List.mem_append, List.mem_map, List.mem_filter] at hw
  rcases hw with (⟨kd, hk, rfl⟩ | ⟨kd, hk, rfl⟩) | ⟨kd, ⟨hk, hq⟩, rfl⟩
  · exact (ha kd hk).1
  · exact (ha kd hk).2.1
  · rcases (ha kd hk).2.2 with h0 | h0
    · rw [h.esc hk] at h0; rw [h0] at hq; simp at hq
    · exact h0

/-- No byte of a character that is not ASCII is a token. -/
theorem high_token (ha : AsciiSingles ds) (h : OK pyStr ds) {b : UInt8} (hb : 128 ≤ b.toNat) :
    [b] ∉ allTokens pyBytes (encodeDelims ds) := by
  unfold allTokens
  rw [List.mem_append]
  rintro (hm | hm)
  · obtain ⟨w, hw, he⟩ := tokens_code.1 hm
    obtain ⟨c, hc, rfl⟩ := single_token ha h hw
    obtain ⟨h1, h2⟩ := ascii_byte hc
    have : enc [c] = [c.toNat.toUInt8] := by simpa [enc] using h1
    rw [this] at he
    simp only [List.cons.injEq, and_true] at he
    rw [← he] at hb
    omega
  · unfold allNewlines at hm
    split at hm
    · rw [bytes_newlines] at hm
      simp only [List.mem_cons, List.cons.injEq, and_true, List.not_mem_nil, or_false] at hm
      rcases hm with rfl | rfl <;> simp at hb
    · simp at hm

theorem parse_bytes (ha : AsciiSingles ds) (h : OK pyStr ds) {L' : List (List UInt8 × Delim UInt8)}
    (hL : ∀ kd ∈ L', kd ∈ encodeDelims ds) :
    ∀ (u : List UInt8), (∀ b ∈ u, 128 ≤ b.toNat) → ∀ (acc cs : List UInt8),
      parse pyBytes.newlines (encodeDelims ds) L' false acc (u ++ cs) =
        parse pyBytes.newlines (encodeDelims ds) L' false (acc ++ u) cs
  | [], _, acc, cs => by simp
  | b :: u, hu, acc, cs => by
    rw [List.cons_append, parse_text_one (ok_code h) hL (high_token ha h (hu b (by simp))),
      parse_bytes ha h hL u (fun b hb => hu b (by simp [hb]))]
    simp

/-- The open delimiters, encoded. -/
abbrev encL (L : List (List Char × Delim Char)) : List (List UInt8 × Delim UInt8) := encodeDelims L

theorem opened_code (c : Char) {b : UInt8} (hb : enc [c] = [b]) :
    opened (encodeDelims ds) b = (opened ds c).map (fun kd => (enc kd.1, encodeDelim kd.2)) := by
  unfold opened encodeDelims
  rw [List.find?_map]
  congr 1
  congr 1
  funext kd
  simp only [Function.comp, ← hb]
  rw [Bool.eq_iff_iff, beq_iff_eq, beq_iff_eq, enc_inj]

theorem others_code (c : Char) {b : UInt8} (hb : enc [c] = [b]) :
    (∃ kd ∈ encodeDelims ds, kd.2.close = [b] ∨ kd.2.escape = [b]) ↔ ∃ kd ∈ ds, kd.2.close = [c] ∨ kd.2.escape = [c] := by
  rw [← hb]
  constructor
  · rintro ⟨_, hk, ho⟩
    obtain ⟨kd, hk0, rfl⟩ := mem_encodeDelims.1 hk
    exact ⟨kd, hk0, by simpa only [encodeDelim, enc_inj] using ho⟩
  · rintro ⟨kd, hk, ho⟩
    exact ⟨_, mem_encodeDelims.2 ⟨kd, hk, rfl⟩, by simpa only [encodeDelim, enc_inj] using ho⟩

theorem encodeRun_cons (x : Tuple Char) (r : List (Tuple Char) × Option Err) :
    encodeRun (x :: r.1, r.2) = (encodeTuple x :: (encodeRun r).1, (encodeRun r).2) := rfl

/-- The condition on line breaks. -/
def Breaks (ds : Delims Char) (s : List Char) : Prop :=
  (∀ kd ∈ ds, kd.2.multiline = true) ∨ ∀ c ∈ s, Big.MS.PyStr.isBreak c = true → c = '\n' ∨ c = '\r'

theorem parse_code (ha : AsciiSingles ds) (h : OK pyStr ds) :
    ∀ (s : List Char), Breaks ds s → ∀ (L : List (List Char × Delim Char)), (∀ kd ∈ L, kd ∈ ds) →
      ∀ (esc : Bool) (acc : List Char),
      parse pyBytes.newlines (encodeDelims ds) (encL L) esc (enc acc) (enc s) =
        encodeRun (parse pyStr.newlines ds L esc acc s)
  | [], _, L, hL, esc, acc => by
    rw [enc_nil]
    unfold parse
    have h0 : enc acc = [] ↔ acc = [] := by rw [← enc_nil, enc_inj]
    cases esc
    · by_cases hz : acc = []
      · subst hz; rfl
      · simp [h0, hz, encodeRun, encodeTuple, enc_nil]
    · rfl
  | c :: s, hs, L, hL, esc, acc => by
    have hs' : Breaks ds s := hs.imp id (fun hs c hc => hs c (by simp [hc]))
    have hL' : ∀ kd ∈ encL L, kd ∈ encodeDelims ds := by
      intro kd' hk
      obtain ⟨kd, hk0, rfl⟩ := mem_encodeDelims.1 hk
      exact mem_encodeDelims.2 ⟨kd, hL kd hk0, rfl⟩
    have ih := fun L hL esc acc => parse_code ha h s hs' L hL esc acc
    have hcs : enc (c :: s) = enc [c] ++ enc s := enc_append [c] s
    rw [hcs]
    by_cases hc : c.toNat < 128
    · obtain ⟨h1, _⟩ := ascii_byte hc
      generalize hbd : c.toNat.toUInt8 = b at h1
      have hb : enc [c] = [b] := by simpa [enc] using h1
      have hacc : enc acc ++ [b] = enc (acc ++ [c]) := by rw [enc_append, hb]
      rw [hb, List.singleton_append]
      match L, esc, hL with
      | L, true, hL =>
        have e1 : ∀ (α) [DecidableEq α] (n : List (List α)) (ds : Delims α) L acc c cs,
            parse n ds L true acc (c :: cs) = parse n ds L false (acc ++ [c]) cs := by
          intro α _ n ds L acc c cs
          cases L <;> rfl
        rw [e1, e1, hacc, ih L hL]
      | [], false, hL =>
        show parse _ _ [] false _ _ = _
        conv => lhs; unfold parse
        conv => rhs; unfold parse
        rw [opened_code c hb]
        cases ho : opened ds c with
        | some kd =>
          have hk : kd ∈ ds := List.mem_of_find?_eq_some ho
          have := ih [kd] (by simpa using hk) false []
          simp only [Option.map_some]
          rw [show [(enc kd.1, encodeDelim kd.2)] = encL [kd] from rfl, ← enc_nil, this, encodeRun_cons]
          simp only [encodeTuple, hb, enc_nil]
        | none =>
          simp only [Option.map_none]
          rw [ite_iff (others_code c hb) rfl rfl, hacc]
          split
          · rfl
          · exact ih [] (by simp) false _
      | (k, d) :: L, false, hL =>
        have hd : (k, d) ∈ ds := hL _ (by simp)
        have hL2 : ∀ kd ∈ L, kd ∈ ds := fun kd hk => hL kd (by simp [hk])
        show parse _ _ ((enc k, encodeDelim d) :: encL L) false _ _ = _
        conv => lhs; unfold parse
        conv => rhs; unfold parse
        have e1 : (encodeDelim d).escape = [b] ↔ d.escape = [c] := by rw [← hb]; exact enc_inj
        have e2 : (encodeDelim d).close = [b] ↔ d.close = [c] := by rw [← hb]; exact enc_inj
        have e3 : ((encodeDelim d).multiline = false ∧ [b] ∈ pyBytes.newlines) ↔
            (d.multiline = false ∧ [c] ∈ pyStr.newlines) := by
          show (d.multiline = false ∧ _) ↔ _
          rw [← hb]
          rcases hs with hs | hs
          · have hm : d.multiline = true := hs _ hd
            simp [hm]
          · rw [newline_code (hs c (by simp))]
        have eL : ∀ a, parse pyBytes.newlines (encodeDelims ds) ((enc k, encodeDelim d) :: encL L) a
            = parse pyBytes.newlines (encodeDelims ds) (encL ((k, d) :: L)) a := fun _ => rfl
        rw [ite_iff e1 rfl rfl, ite_iff e2 rfl rfl, ite_iff e3 rfl rfl, opened_code c hb, hacc]
        have hq : (encodeDelim d).quoting = d.quoting := rfl
        rw [hq]
        have hpop := ih L hL2 false []
        rw [enc_nil] at hpop
        split
        · split
          · rw [eL]; exact ih _ hL true _
          · split
            · simp only [hpop]; rw [encodeRun_cons]; simp only [encodeTuple, hb, enc_nil]
            · split
              · rfl
              · rw [eL]; exact ih _ hL false _
        · by_cases hcl : d.close = [c]
          · rw [if_pos hcl, if_pos (e2.2 hcl)]; simp only [hpop]; rw [encodeRun_cons]; simp only [encodeTuple, hb, enc_nil]
          · rw [if_neg hcl, if_neg (fun h => hcl (e2.1 h))]
            cases ho : opened ds c with
            | some kd =>
              have hk : kd ∈ ds := List.mem_of_find?_eq_some ho
              have := ih (kd :: (k, d) :: L) (by
                intro x hx
                rcases List.mem_cons.1 hx with rfl | hx
                · exact hk
                · exact hL x hx) false []
              simp only [Option.map_some]
              rw [show (enc kd.1, encodeDelim kd.2) :: (enc k, encodeDelim d) :: encL L = encL (kd :: (k, d) :: L) from rfl,
                ← enc_nil, this, encodeRun_cons]
              simp only [encodeTuple, hb, enc_nil]
            | none =>
              simp only [Option.map_none]
              rw [ite_iff (others_code c hb) rfl rfl]
              split
              · rfl
              · rw [eL]; exact ih _ hL false _
    · -- the character is not ASCII: it is text, and so are all its bytes
      have hu : ∀ b ∈ enc [c], 128 ≤ b.toNat := by
        intro b hb
        apply Classical.byContradiction; intro hlt
        have := mem_utf8 c (b := b) (by simpa [enc] using hb) (by omega)
        omega
      have hne : enc [c] ≠ [] := by rw [Ne, ← enc_nil, enc_inj]; simp
      have hct : [c] ∉ allTokens pyStr ds ∨ ∀ kd ∈ ds, kd.2.multiline = true := by
        rcases hs with hs | hs
        · exact .inr hs
        · left
          unfold allTokens
          rw [List.mem_append]
          rintro (hm | hm)
          · obtain ⟨c', hc', he⟩ := single_token ha h hm
            simp only [List.cons.injEq, and_true] at he
            exact hc (he ▸ hc')
          · unfold allNewlines at hm
            split at hm
            · rcases hs c (by simp) (str_newline hm) with rfl | rfl <;> exact hc (by decide)
            · simp at hm
      have hct : [c] ∉ allTokens pyStr ds := by
        rcases hct with h0 | h0
        · exact h0
        · unfold allTokens
          rw [List.mem_append]
          rintro (hm | hm)
          · obtain ⟨c', hc', he⟩ := single_token ha h hm
            simp only [List.cons.injEq, and_true] at he
            exact hc (he ▸ hc')
          · unfold allNewlines at hm
            rw [if_neg] at hm
            · simp at hm
            · simp only [List.any_eq_true, not_exists, not_and]
              intro kd hk; simp [h0 kd hk]
      cases esc with
      | false =>
        rw [parse_bytes ha h hL' _ hu, parse_text_one h hL hct, ← enc_append]
        exact ih L hL false _
      | true =>
        have e1 : ∀ (α) [DecidableEq α] (n : List (List α)) (ds : Delims α) L acc c cs,
            parse n ds L true acc (c :: cs) = parse n ds L false (acc ++ [c]) cs := by
          intro α _ n ds L acc c cs
          cases L <;> rfl
        rw [e1]
        cases he : enc [c] with
        | nil => exact absurd he hne
        | cons b u =>
          rw [List.cons_append, e1, parse_bytes ha h hL' u (fun x hx => hu x (by rw [he]; simp [hx]))]
          have : enc acc ++ [b] ++ u = enc (acc ++ [c]) := by rw [enc_append, he]; simp
          rw [this]
          exact ih L hL false _

end Big.SD
