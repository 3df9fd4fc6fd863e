import Verif.Encode.Model
/-! # C61: encode_strings -/
namespace Big.Encode

variable {enc : List Char → Except Err (List Nat)}

/-! ### Lemmas -/

/-- `a ++ b` -/
def Objs.append : Objs → Objs → Objs
  | .nil, ys => ys
  | .cons x xs, ys => .cons x (xs.append ys)

/-- The items of one after those of the other. -/
def Items.append : Items → Items → Items
  | .nil, ys => ys
  | .cons k v xs, ys => .cons k v (xs.append ys)

theorem Objs.append_assoc (a b c : Objs) : (a.append b).append c = a.append (b.append c) := match a with
  | .nil => rfl
  | .cons x xs => by simp only [Objs.append]; rw [Objs.append_assoc xs b c]

theorem Items.append_assoc (a b c : Items) : (a.append b).append c = a.append (b.append c) := match a with
  | .nil => rfl
  | .cons k v xs => by simp only [Items.append]; rw [Items.append_assoc xs b c]

theorem Objs.append_nil (a : Objs) : a.append .nil = a := match a with
  | .nil => rfl
  | .cons x xs => by simp only [Objs.append]; rw [Objs.append_nil xs]

theorem Items.append_nil (a : Items) : a.append .nil = a := match a with
  | .nil => rfl
  | .cons k v xs => by simp only [Items.append]; rw [Items.append_nil xs]

/-- Every element of `a` differs from `x`. -/
def Objs.Before (x : Obj) : Objs → Prop
  | .nil => True
  | .cons y ys => pyEq y x = false ∧ Objs.Before x ys

theorem without_append {y x : Obj} {a b : Objs} (h : (a.append (.cons x b)).Without y) : pyEq y x = false := by
  match a with
  | .nil => exact h.1
  | .cons z zs => exact without_append (a := zs) h.2

theorem distinct_before {a b : Objs} {x : Obj} (h : (a.append (.cons x b)).Distinct) : a.Before x := by
  match a with
  | .nil => trivial
  | .cons z zs => exact ⟨without_append h.1, distinct_before (a := zs) h.2⟩

theorem add_before {x : Obj} {a : Objs} (h : a.Before x) : a.add x = a.append (.cons x .nil) := by
  match a with
  | .nil => rfl
  | .cons z zs =>
    simp only [Objs.add, Objs.append, h.1, Bool.false_eq_true, if_false]
    rw [add_before h.2]

theorem put_before {k v : Obj} {a : Items} (h : a.keys.Before k) : a.put k v = a.append (.cons k v .nil) := by
  match a with
  | .nil => rfl
  | .cons k' v' r =>
    simp only [Items.put, Items.append]
    rw [h.1]
    simp only [Bool.false_eq_true, if_false]
    rw [put_before h.2]

theorem build_objs : ∀ {b a : Objs}, (a.append b).Distinct → Objs.build a b = a.append b
  | .nil, a, _ => (Objs.append_nil a).symm
  | .cons x xs, a, h => by
    unfold Objs.build
    rw [add_before (distinct_before h)]
    have e : (a.append (.cons x .nil)).append xs = a.append (.cons x xs) := by rw [Objs.append_assoc]; rfl
    rw [build_objs (by rw [e]; exact h), e]

theorem keys_append : ∀ (a b : Items), (a.append b).keys = a.keys.append b.keys
  | .nil, _ => rfl
  | .cons k v r, b => by simp only [Items.append, Items.keys, Objs.append, keys_append r b]

theorem build_items : ∀ {b a : Items}, (a.append b).keys.Distinct → Items.build a b = a.append b
  | .nil, a, _ => (Items.append_nil a).symm
  | .cons k v r, a, h => by
    unfold Items.build
    have h' := h
    rw [keys_append] at h'
    rw [put_before (distinct_before h')]
    have e : (a.append (.cons k v .nil)).append r = a.append (.cons k v r) := by rw [Items.append_assoc]; rfl
    rw [build_items (by rw [e]; exact h), e]

theorem sameItems_keys : ∀ {xs ys : Items}, SameItems enc xs ys → SameAll enc xs.keys ys.keys
  | .nil, .nil, _ => .nil
  | .cons _ _ _, .cons _ _ _, .cons h _ hr => .cons h (sameItems_keys hr)

/-! ### The shape -/

mutual
/-- C98: the result has the same shape, with each str replaced by its encoding and each bytes as it was. (If there
are no dicts with keys, or sets with elements, that become equal by being encoded, as in `C98_clash`.) -/
theorem C98_same (o r : Obj) (hn : NoClash enc o) (h : encode enc o = .ok r) : Same enc o r := by
  match o, hn with
  | .bytes b, _ => simp only [encode] at h; cases h; exact .bytes
  | .str s, _ =>
    simp only [encode] at h
    cases he : enc s with
    | error e => rw [he] at h; cases h
    | ok b => rw [he] at h; cases h; exact .str he
  | .other n, _ => simp only [encode] at h; cases h
  | .seq t ty xs, .seq hx =>
    simp only [encode] at h
    cases ty with
    | odd n => cases h
    | std n =>
      dsimp only at h
      cases he : encodeAll enc xs with
      | error e => rw [he] at h; cases h
      | ok ys => rw [he] at h; cases h; exact .seq (same_all xs ys hx he)
  | .set ty xs, .set hx hd =>
    simp only [encode] at h
    cases he : encodeAll enc xs with
    | error e => rw [he] at h; cases h
    | ok ys =>
      rw [he] at h
      have hs := same_all xs ys hx he
      cases ty with
      | odd n => cases h
      | std n =>
        dsimp only [Ty.make] at h
        rw [build_objs (a := .nil) (hd ys hs)] at h
        cases h
        exact .set hs
  | .dict ty xs, .dict hx hd =>
    simp only [encode] at h
    cases he : encodeItems enc xs with
    | error e => rw [he] at h; cases h
    | ok ys =>
      rw [he] at h
      have hs := same_items xs ys hx he
      cases ty with
      | odd n => cases h
      | std n =>
        dsimp only [Ty.make] at h
        rw [build_items (a := .nil) (hd ys.keys (sameItems_keys hs))] at h
        cases h
        exact .dict hs

theorem same_all (xs ys : Objs) (hn : NoClashAll enc xs) (h : encodeAll enc xs = .ok ys) : SameAll enc xs ys := by
  match xs, hn with
  | .nil, _ => simp only [encodeAll] at h; cases h; exact .nil
  | .cons x xs, .cons hx hxs =>
    simp only [encodeAll] at h
    cases he : encode enc x with
    | error e => rw [he] at h; cases h
    | ok y =>
      rw [he] at h
      cases he' : encodeAll enc xs with
      | error e => rw [he'] at h; cases h
      | ok zs =>
        rw [he'] at h
        cases h
        exact .cons (C98_same x y hx he) (same_all xs zs hxs he')

theorem same_items (xs ys : Items) (hn : NoClashItems enc xs) (h : encodeItems enc xs = .ok ys) : SameItems enc xs ys := by
  match xs, hn with
  | .nil, _ => simp only [encodeItems] at h; cases h; exact .nil
  | .cons k v r, .cons hk hv hr =>
    simp only [encodeItems] at h
    cases he : encode enc k with
    | error e => rw [he] at h; cases h
    | ok k' =>
      rw [he] at h
      cases he' : encode enc v with
      | error e => rw [he'] at h; cases h
      | ok v' =>
        rw [he'] at h
        cases he'' : encodeItems enc r with
        | error e => rw [he''] at h; cases h
        | ok r' =>
          rw [he''] at h
          cases h
          exact .cons (C98_same k k' hk he) (C98_same v v' hv he') (same_items r r' hr he'')
end

/-! ### Exceptions -/

mutual
/-- C61: it raises only for a type that it does not handle (TypeError), or what encoding a str in the object raises. -/
theorem C61_errors (o : Obj) (e : Err) (h : encode enc o = .error e) :
    (e = .typeError ∧ HasOther o) ∨ ∃ s, Has s o ∧ enc s = .error e := by
  match o with
  | .bytes b => simp only [encode] at h; cases h
  | .str s =>
    simp only [encode] at h
    cases he : enc s with
    | error e' => rw [he] at h; cases h; exact .inr ⟨s, .str, he⟩
    | ok b => rw [he] at h; cases h
  | .other n => simp only [encode] at h; cases h; exact .inl ⟨rfl, .other⟩
  | .seq t ty xs =>
    simp only [encode] at h
    cases ty with
    | odd n => cases h; exact .inl ⟨rfl, .seqTy⟩
    | std n =>
      dsimp only at h
      cases he : encodeAll enc xs with
      | error e' =>
        rw [he] at h; cases h
        rcases errors_all xs e he with ⟨h1, h2⟩ | ⟨s, h1, h2⟩
        · exact .inl ⟨h1, .seq h2⟩
        · exact .inr ⟨s, .seq h1, h2⟩
      | ok ys => rw [he] at h; cases h
  | .set ty xs =>
    simp only [encode] at h
    cases he : encodeAll enc xs with
    | error e' =>
      rw [he] at h; cases h
      rcases errors_all xs e he with ⟨h1, h2⟩ | ⟨s, h1, h2⟩
      · exact .inl ⟨h1, .set h2⟩
      · exact .inr ⟨s, .set h1, h2⟩
    | ok ys =>
      rw [he] at h
      cases ty with
      | odd n => cases h; exact .inl ⟨rfl, .setTy⟩
      | std n => cases h
  | .dict ty xs =>
    simp only [encode] at h
    cases he : encodeItems enc xs with
    | error e' =>
      rw [he] at h; cases h
      rcases errors_items xs e he with ⟨h1, h2⟩ | ⟨s, h1, h2⟩
      · exact .inl ⟨h1, .dict h2⟩
      · exact .inr ⟨s, .dict h1, h2⟩
    | ok ys =>
      rw [he] at h
      cases ty with
      | odd n => cases h; exact .inl ⟨rfl, .dictTy⟩
      | std n => cases h

theorem errors_all (xs : Objs) (e : Err) (h : encodeAll enc xs = .error e) :
    (e = .typeError ∧ HasOtherAll xs) ∨ ∃ s, HasAll s xs ∧ enc s = .error e := by
  match xs with
  | .nil => simp only [encodeAll] at h; cases h
  | .cons x xs =>
    simp only [encodeAll] at h
    cases he : encode enc x with
    | error e' =>
      rw [he] at h; cases h
      rcases C61_errors x e he with ⟨h1, h2⟩ | ⟨s, h1, h2⟩
      · exact .inl ⟨h1, .head h2⟩
      · exact .inr ⟨s, .head h1, h2⟩
    | ok y =>
      rw [he] at h
      cases he' : encodeAll enc xs with
      | error e' =>
        rw [he'] at h; cases h
        rcases errors_all xs e he' with ⟨h1, h2⟩ | ⟨s, h1, h2⟩
        · exact .inl ⟨h1, .tail h2⟩
        · exact .inr ⟨s, .tail h1, h2⟩
      | ok zs => rw [he'] at h; cases h

theorem errors_items (xs : Items) (e : Err) (h : encodeItems enc xs = .error e) :
    (e = .typeError ∧ HasOtherItems xs) ∨ ∃ s, HasItems s xs ∧ enc s = .error e := by
  match xs with
  | .nil => simp only [encodeItems] at h; cases h
  | .cons k v r =>
    simp only [encodeItems] at h
    cases he : encode enc k with
    | error e' =>
      rw [he] at h; cases h
      rcases C61_errors k e he with ⟨h1, h2⟩ | ⟨s, h1, h2⟩
      · exact .inl ⟨h1, .key h2⟩
      · exact .inr ⟨s, .key h1, h2⟩
    | ok k' =>
      rw [he] at h
      cases he' : encode enc v with
      | error e' =>
        rw [he'] at h; cases h
        rcases C61_errors v e he' with ⟨h1, h2⟩ | ⟨s, h1, h2⟩
        · exact .inl ⟨h1, .val h2⟩
        · exact .inr ⟨s, .val h1, h2⟩
      | ok v' =>
        rw [he'] at h
        cases he'' : encodeItems enc r with
        | error e' =>
          rw [he''] at h; cases h
          rcases errors_items r e he'' with ⟨h1, h2⟩ | ⟨s, h1, h2⟩
          · exact .inl ⟨h1, .tail h2⟩
          · exact .inr ⟨s, .tail h1, h2⟩
        | ok r' => rw [he''] at h; cases h
end

mutual
/-- C61: if it succeeds, there is nothing in the object that it does not handle, and every str could be encoded. -/
theorem C61_ok (o r : Obj) (h : encode enc o = .ok r) : ¬ HasOther o ∧ ∀ s, Has s o → ∃ b, enc s = .ok b := by
  match o with
  | .bytes b => exact ⟨fun h => (by cases h), fun s h => by cases h⟩
  | .str s =>
    simp only [encode] at h
    cases he : enc s with
    | error e' => rw [he] at h; cases h
    | ok b => exact ⟨fun h => (by cases h), fun s h => by cases h; exact ⟨b, he⟩⟩
  | .other n => simp only [encode] at h; cases h
  | .seq t ty xs =>
    simp only [encode] at h
    cases ty with
    | odd n => cases h
    | std n =>
      dsimp only at h
      cases he : encodeAll enc xs with
      | error e' => rw [he] at h; cases h
      | ok ys =>
        obtain ⟨h1, h2⟩ := ok_all xs ys he
        exact ⟨fun h => (by cases h with | seq h => exact h1 h), fun s h => by cases h with | seq h => exact h2 s h⟩
  | .set ty xs =>
    simp only [encode] at h
    cases he : encodeAll enc xs with
    | error e' => rw [he] at h; cases h
    | ok ys =>
      rw [he] at h
      cases ty with
      | odd n => cases h
      | std n =>
        obtain ⟨h1, h2⟩ := ok_all xs ys he
        exact ⟨fun h => (by cases h with | set h => exact h1 h), fun s h => by cases h with | set h => exact h2 s h⟩
  | .dict ty xs =>
    simp only [encode] at h
    cases he : encodeItems enc xs with
    | error e' => rw [he] at h; cases h
    | ok ys =>
      rw [he] at h
      cases ty with
      | odd n => cases h
      | std n =>
        obtain ⟨h1, h2⟩ := ok_items xs ys he
        exact ⟨fun h => (by cases h with | dict h => exact h1 h), fun s h => by cases h with | dict h => exact h2 s h⟩

theorem ok_all (xs ys : Objs) (h : encodeAll enc xs = .ok ys) : ¬ HasOtherAll xs ∧ ∀ s, HasAll s xs → ∃ b, enc s = .ok b := by
  match xs with
  | .nil => exact ⟨fun h => (by cases h), fun s h => by cases h⟩
  | .cons x xs =>
    simp only [encodeAll] at h
    cases he : encode enc x with
    | error e' => rw [he] at h; cases h
    | ok y =>
      rw [he] at h
      cases he' : encodeAll enc xs with
      | error e' => rw [he'] at h; cases h
      | ok zs =>
        obtain ⟨h1, h2⟩ := C61_ok x y he
        obtain ⟨h3, h4⟩ := ok_all xs zs he'
        refine ⟨fun h => ?_, fun s h => ?_⟩
        · cases h with
          | head h => exact h1 h
          | tail h => exact h3 h
        · cases h with
          | head h => exact h2 s h
          | tail h => exact h4 s h

theorem ok_items (xs ys : Items) (h : encodeItems enc xs = .ok ys) :
    ¬ HasOtherItems xs ∧ ∀ s, HasItems s xs → ∃ b, enc s = .ok b := by
  match xs with
  | .nil => exact ⟨fun h => (by cases h), fun s h => by cases h⟩
  | .cons k v r =>
    simp only [encodeItems] at h
    cases he : encode enc k with
    | error e' => rw [he] at h; cases h
    | ok k' =>
      rw [he] at h
      cases he' : encode enc v with
      | error e' => rw [he'] at h; cases h
      | ok v' =>
        rw [he'] at h
        cases he'' : encodeItems enc r with
        | error e' => rw [he''] at h; cases h
        | ok r' =>
          obtain ⟨h1, h2⟩ := C61_ok k k' he
          obtain ⟨h3, h4⟩ := C61_ok v v' he'
          obtain ⟨h5, h6⟩ := ok_items r r' he''
          refine ⟨fun h => ?_, fun s h => ?_⟩
          · cases h with
            | key h => exact h1 h
            | val h => exact h3 h
            | tail h => exact h5 h
          · cases h with
            | key h => exact h2 s h
            | val h => exact h4 s h
            | tail h => exact h6 s h
end

/-- C61: if every str in the object can be encoded, it raises TypeError exactly if a type occurs that it does not
handle, and otherwise returns. -/
theorem C61_type_error (o : Obj) (henc : ∀ s, Has s o → ∃ b, enc s = .ok b) :
    (encode enc o = .error .typeError ↔ HasOther o) ∧ (¬ HasOther o ↔ ∃ r, encode enc o = .ok r) := by
  cases h : encode enc o with
  | error e =>
    rcases C61_errors o e h with ⟨rfl, h1⟩ | ⟨s, h1, h2⟩
    · exact ⟨⟨fun _ => h1, fun _ => rfl⟩, ⟨fun h => absurd h1 h, fun ⟨r, hr⟩ => by cases hr⟩⟩
    · obtain ⟨b, hb⟩ := henc s h1
      rw [hb] at h2; cases h2
  | ok r =>
    have := (C61_ok o r h).1
    exact ⟨⟨fun h => (by cases h), fun h => absurd h this⟩, ⟨fun _ => ⟨r, rfl⟩, fun _ => this⟩⟩

/-! ### Without bytes, nothing clashes -/

mutual
theorem pyEq_of_same (hinj : ∀ s t b, enc s = .ok b → enc t = .ok b → s = t) : ∀ {x y x' y' : Obj}, Text x → Text y →
    Same enc x x' → Same enc y y' → pyEq x' y' = true → pyEq x y = true
  | .bytes _, _, _, _, hx, _, _, _, _ => by cases hx
  | _, .bytes _, _, _, _, hy, _, _, _ => by cases hy
  | .str s, .str t, _, _, _, _, .str h1, .str h2, h => by
    simp only [pyEq, beq_iff_eq] at h ⊢
    subst h
    exact hinj _ _ _ h1 h2
  | .seq t ty xs, .seq t' ty' ys, _, _, .seq hx, .seq hy, .seq h1, .seq h2, h => by
    simp only [pyEq, Bool.and_eq_true] at h ⊢
    exact ⟨h.1, pyEqs_of_same hinj hx hy h1 h2 h.2⟩
  | .str _, .seq _ _ _, _, _, _, _, .str _, .seq _, h => by simp [pyEq] at h
  | .seq _ _ _, .str _, _, _, _, _, .seq _, .str _, h => by simp [pyEq] at h
  | .dict _ _, _, _, _, _, _, .dict _, _, h => by simp [pyEq] at h
  | .set _ _, _, _, _, _, _, .set _, _, h => by simp [pyEq] at h
  | _, .dict _ _, _, _, _, _, _, .dict _, h => by simp [pyEq] at h
  | _, .set _ _, _, _, _, _, _, .set _, h => by simp [pyEq] at h

theorem pyEqs_of_same (hinj : ∀ s t b, enc s = .ok b → enc t = .ok b → s = t) : ∀ {x y x' y' : Objs}, TextAll x → TextAll y →
    SameAll enc x x' → SameAll enc y y' → pyEqs x' y' = true → pyEqs x y = true
  | .nil, .nil, _, _, _, _, .nil, .nil, _ => by simp [pyEqs]
  | .cons x xs, .cons y ys, _, _, .cons hx hxs, .cons hy hys, .cons h1 h1s, .cons h2 h2s, h => by
    simp only [pyEqs, Bool.and_eq_true] at h ⊢
    exact ⟨pyEq_of_same hinj hx hy h1 h2 h.1, pyEqs_of_same hinj hxs hys h1s h2s h.2⟩
  | .nil, .cons _ _, _, _, _, _, .nil, .cons _ _, h => by simp [pyEqs] at h
  | .cons _ _, .nil, _, _, _, _, .cons _ _, .nil, h => by simp [pyEqs] at h
end

theorem without_same (hinj : ∀ s t b, enc s = .ok b → enc t = .ok b → s = t) {x x' : Obj} (hx : Text x) (h : Same enc x x') :
    ∀ {ys ys' : Objs}, TextAll ys → SameAll enc ys ys' → ys.Without x → ys'.Without x'
  | .nil, _, _, .nil, _ => trivial
  | .cons y ys, .cons y' ys', .cons hy hys, .cons h1 h1s, hw => by
    refine ⟨?_, without_same hinj hx h hys h1s hw.2⟩
    cases hp : pyEq x' y' with
    | false => rfl
    | true =>
      have h0 := hw.1
      rw [pyEq_of_same hinj hx hy h h1 hp] at h0; cases h0

theorem distinct_same (hinj : ∀ s t b, enc s = .ok b → enc t = .ok b → s = t) :
    ∀ {ys ys' : Objs}, TextAll ys → SameAll enc ys ys' → ys.Distinct → ys'.Distinct
  | .nil, _, _, .nil, _ => trivial
  | .cons _ _, .cons _ _, .cons hy hys, .cons h1 h1s, hd =>
    ⟨without_same hinj hy h1 hys h1s hd.1, distinct_same hinj hys h1s hd.2⟩

theorem textItems_keys : ∀ {xs : Items}, TextItems xs → TextAll xs.keys
  | .nil, _ => .nil
  | .cons _ _ _, .cons h _ hr => .cons h (textItems_keys hr)

mutual
theorem noClash_of_text (hinj : ∀ s t b, enc s = .ok b → enc t = .ok b → s = t) : ∀ {o : Obj}, Text o → NoClash enc o
  | .bytes _, h => by cases h
  | .str _, _ => .str
  | .other _, _ => .other
  | .seq _ _ _, .seq h => .seq (noClashAll_of_text hinj h)
  | .set _ _, .set h hd => .set (noClashAll_of_text hinj h) fun _ hs => distinct_same hinj h hs hd
  | .dict _ _, .dict h hd => .dict (noClashItems_of_text hinj h) fun _ hs => distinct_same hinj (textItems_keys h) hs hd

theorem noClashAll_of_text (hinj : ∀ s t b, enc s = .ok b → enc t = .ok b → s = t) : ∀ {o : Objs}, TextAll o → NoClashAll enc o
  | .nil, _ => .nil
  | .cons _ _, .cons h hs => .cons (noClash_of_text hinj h) (noClashAll_of_text hinj hs)

theorem noClashItems_of_text (hinj : ∀ s t b, enc s = .ok b → enc t = .ok b → s = t) :
    ∀ {o : Items}, TextItems o → NoClashItems enc o
  | .nil, _ => .nil
  | .cons _ _ _, .cons h hv hs => .cons (noClash_of_text hinj h) (noClash_of_text hinj hv) (noClashItems_of_text hinj hs)
end

/-- C98: for objects without bytes, and an encoding that encodes different strings differently, the result has the same
shape, with each str replaced by its encoding. -/
theorem C98_text (hinj : ∀ s t b, enc s = .ok b → enc t = .ok b → s = t) (o r : Obj) (ht : Text o)
    (h : encode enc o = .ok r) : Same enc o r := C98_same o r (noClash_of_text hinj ht) h

theorem ascii_inj (s t : List Char) (b : List Nat) (h : ascii s = .ok b) (h' : ascii t = .ok b) : s = t := by
  unfold ascii at h h'
  split at h
  · split at h'
    · cases h
      have he : t.map Char.toNat = s.map Char.toNat := Except.ok.inj h'
      clear h'
      have hinj : ∀ c d : Char, c.toNat = d.toNat → c = d := fun c d h => Char.ext (UInt32.toNat_inj.1 h)
      have : ∀ s t : List Char, t.map Char.toNat = s.map Char.toNat → s = t := by
        intro s
        induction s with
        | nil => intro t h; cases t with | nil => rfl | cons => cases h
        | cons c s ih =>
          intro t h
          cases t with
          | nil => cases h
          | cons d t =>
            simp only [List.map_cons, List.cons.injEq] at h
            rw [hinj _ _ h.1, ih t h.2]
      exact this s t he
    · cases h'
  · cases h

/-- C98: encode_strings with its default, ASCII: for objects without bytes. -/
theorem C98_ascii (o r : Obj) (ht : Text o) (h : encodeStrings o = .ok r) : Same ascii o r := C98_text ascii_inj o r ht h

/-- C98: by default a str is encoded exactly if its characters are ASCII, each to its code. -/
theorem C98_ascii_str (s : List Char) :
    ((∀ c ∈ s, c ≤ '\x7f') → encodeStrings (.str s) = .ok (.bytes (s.map Char.toNat))) ∧
    ((∃ c ∈ s, '\x7f' < c) → encodeStrings (.str s) = .error .unicodeError) := by
  have hle : ∀ c : Char, c ≤ '\x7f' ↔ c.toNat < 128 := by
    intro c
    rw [Char.le_def, UInt32.le_iff_toNat_le]
    show c.toNat ≤ 127 ↔ _
    omega
  simp only [encodeStrings, encode, ascii]
  constructor
  · intro h
    rw [if_pos]
    · rfl
    · simpa using fun c hc => (hle c).1 (h c hc)
  · rintro ⟨c, hc, hlt⟩
    rw [if_neg]
    · rfl
    · intro h
      have : ∀ c ∈ s, c.toNat < 128 := by simpa using h
      have := (hle c).2 (this c hc)
      rw [Char.le_def] at this
      rw [Char.lt_def] at hlt
      exact absurd hlt (UInt32.not_lt.2 this)

/-! ### No str is left -/

theorem noStr_put : ∀ {d : Items} {k v : Obj}, NoStrItems d → NoStr k → NoStr v → NoStrItems (d.put k v)
  | .nil, _, _, _, hk, hv => .cons hk hv .nil
  | .cons k' v' r, k, v, .cons hk' hv' hr, hk, hv => by
    unfold Items.put
    split
    · exact .cons hk' hv hr
    · exact .cons hk' hv' (noStr_put hr hk hv)

theorem noStr_buildItems : ∀ {xs d : Items}, NoStrItems d → NoStrItems xs → NoStrItems (Items.build d xs)
  | .nil, _, hd, _ => hd
  | .cons _ _ _, _, hd, .cons hk hv hr => by
    unfold Items.build
    exact noStr_buildItems (noStr_put hd hk hv) hr

theorem noStr_add : ∀ {d : Objs} {x : Obj}, NoStrAll d → NoStr x → NoStrAll (d.add x)
  | .nil, _, _, hx => .cons hx .nil
  | .cons y ys, x, .cons hy hys, hx => by
    unfold Objs.add
    split
    · exact .cons hy hys
    · exact .cons hy (noStr_add hys hx)

theorem noStr_buildObjs : ∀ {xs d : Objs}, NoStrAll d → NoStrAll xs → NoStrAll (Objs.build d xs)
  | .nil, _, hd, _ => hd
  | .cons _ _, _, hd, .cons hx hr => by
    unfold Objs.build
    exact noStr_buildObjs (noStr_add hd hx) hr

mutual
/-- C61: there is no str in the result, whatever the object. -/
theorem C61_no_str (o r : Obj) (h : encode enc o = .ok r) : NoStr r := by
  match o with
  | .bytes b => simp only [encode] at h; cases h; exact .bytes
  | .str s =>
    simp only [encode] at h
    cases he : enc s with
    | error e => rw [he] at h; cases h
    | ok b => rw [he] at h; cases h; exact .bytes
  | .other n => simp only [encode] at h; cases h
  | .seq t ty xs =>
    simp only [encode] at h
    cases ty with
    | odd n => cases h
    | std n =>
      dsimp only at h
      cases he : encodeAll enc xs with
      | error e => rw [he] at h; cases h
      | ok ys => rw [he] at h; cases h; exact .seq (noStr_all xs ys he)
  | .set ty xs =>
    simp only [encode] at h
    cases he : encodeAll enc xs with
    | error e => rw [he] at h; cases h
    | ok ys =>
      rw [he] at h
      cases ty with
      | odd n => cases h
      | std n => cases h; exact .set (noStr_buildObjs .nil (noStr_all xs ys he))
  | .dict ty xs =>
    simp only [encode] at h
    cases he : encodeItems enc xs with
    | error e => rw [he] at h; cases h
    | ok ys =>
      rw [he] at h
      cases ty with
      | odd n => cases h
      | std n => cases h; exact .dict (noStr_buildItems .nil (noStr_items xs ys he))

theorem noStr_all (xs ys : Objs) (h : encodeAll enc xs = .ok ys) : NoStrAll ys := by
  match xs with
  | .nil => simp only [encodeAll] at h; cases h; exact .nil
  | .cons x xs =>
    simp only [encodeAll] at h
    cases he : encode enc x with
    | error e => rw [he] at h; cases h
    | ok y =>
      rw [he] at h
      cases he' : encodeAll enc xs with
      | error e => rw [he'] at h; cases h
      | ok zs =>
        rw [he'] at h
        cases h
        exact .cons (C61_no_str x y he) (noStr_all xs zs he')

theorem noStr_items (xs ys : Items) (h : encodeItems enc xs = .ok ys) : NoStrItems ys := by
  match xs with
  | .nil => simp only [encodeItems] at h; cases h; exact .nil
  | .cons k v r =>
    simp only [encodeItems] at h
    cases he : encode enc k with
    | error e => rw [he] at h; cases h
    | ok k' =>
      rw [he] at h
      cases he' : encode enc v with
      | error e => rw [he'] at h; cases h
      | ok v' =>
        rw [he'] at h
        cases he'' : encodeItems enc r with
        | error e => rw [he''] at h; cases h
        | ok r' =>
          rw [he''] at h
          cases h
          exact .cons (C61_no_str k k' he) (C61_no_str v v' he') (noStr_items r r' he'')
end

/-! ### Examples and disagreements -/

/-- `{"a": ["b", b"c"], ("d", b"e"): {"f"}}` -/
def exObj : Obj :=
  .dict (.std "dict") (.cons (.str ['a']) (.seq false (.std "list") (.cons (.str ['b']) (.cons (.bytes [99]) .nil)))
    (.cons (.seq true (.std "tuple") (.cons (.str ['d']) (.cons (.bytes [101]) .nil)))
      (.set (.std "set") (.cons (.str ['f']) .nil)) .nil))

example : encodeStrings exObj = .ok
    (.dict (.std "dict") (.cons (.bytes [97]) (.seq false (.std "list") (.cons (.bytes [98]) (.cons (.bytes [99]) .nil)))
      (.cons (.seq true (.std "tuple") (.cons (.bytes [100]) (.cons (.bytes [101]) .nil)))
        (.set (.std "set") (.cons (.bytes [102]) .nil)) .nil))) := by rfl

/-- `{"a": "b", "c": {"d"}}` meets the hypothesis of `C98_text`. -/
example : Text (.dict (.std "dict") (.cons (.str ['a']) (.str ['b']) (.cons (.str ['c'])
    (.set (.std "set") (.cons (.str ['d']) .nil)) .nil))) :=
  .dict (.cons .str .str (.cons .str (.set (.cons .str .nil) ⟨trivial, trivial⟩) .nil)) ⟨⟨rfl, trivial⟩, trivial, trivial⟩

/-- C98, a disagreement: a dict with the keys "a" and b"a" loses an item, and a set {"a", b"a"} an element. -/
theorem C98_clash (v w : List Nat) :
    encodeStrings (.dict (.std "dict") (.cons (.str ['a']) (.bytes v) (.cons (.bytes [97]) (.bytes w) .nil))) =
      .ok (.dict (.std "dict") (.cons (.bytes [97]) (.bytes w) .nil)) ∧
    encodeStrings (.set (.std "set") (.cons (.str ['a']) (.cons (.bytes [97]) .nil))) =
      .ok (.set (.std "set") (.cons (.bytes [97]) .nil)) := ⟨rfl, rfl⟩

/-- C61, a disagreement: the docstring allows subclasses, but those with a constructor of their own, such as
defaultdict and namedtuples, raise TypeError, whatever they contain. -/
theorem C61_subclass (n : String) (xs : Items) (ys : Objs) (t : Bool) (h : ∃ zs, encodeItems ascii xs = .ok zs) :
    encodeStrings (.dict (.odd n) xs) = .error .typeError ∧ encodeStrings (.seq t (.odd n) ys) = .error .typeError := by
  obtain ⟨zs, hz⟩ := h
  constructor
  · simp only [encodeStrings, encode, hz, Ty.make]
  · simp only [encodeStrings, encode]

end Big.Encode
