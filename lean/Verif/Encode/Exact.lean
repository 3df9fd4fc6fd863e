import Verif.Encode.Props
/-!
# C98: exactly when encode_strings keeps the shape of an object
-/
namespace Big.Encode
variable {enc : List Char → Except Err (List Nat)}

/-- The number of objects. -/
def Objs.len : Objs → Nat
  | .nil => 0
  | .cons _ xs => xs.len + 1

theorem add_cases (x : Obj) : ∀ a : Objs, a.Before x ∨ (a.add x).len = a.len
  | .nil => .inl trivial
  | .cons y ys => by
    by_cases h : pyEq y x = true
    · right; simp only [Objs.add, h, if_true]
    · have h' : pyEq y x = false := by simpa using h
      rcases add_cases x ys with h1 | h1
      · exact .inl ⟨h', h1⟩
      · right; simp only [Objs.add, h', Bool.false_eq_true, if_false, Objs.len, h1]

theorem len_append : ∀ a b : Objs, (a.append b).len = a.len + b.len
  | .nil, b => by simp [Objs.append, Objs.len]
  | .cons x xs, b => by simp only [Objs.append, Objs.len, len_append xs b]; omega

theorem len_add_le (x : Obj) (a : Objs) : (a.add x).len ≤ a.len + 1 := by
  rcases add_cases x a with h | h
  · rw [add_before h, len_append]; simp [Objs.len]
  · omega

theorem len_build_le : ∀ b a : Objs, (Objs.build a b).len ≤ a.len + b.len
  | .nil, a => by simp [Objs.build, Objs.len]
  | .cons x xs, a => by
    unfold Objs.build
    have h1 := len_build_le xs (a.add x)
    have h2 := len_add_le x a
    simp only [Objs.len]; omega

theorem without_snoc {x y : Obj} : ∀ {a : Objs}, a.Without y → pyEq y x = false → (a.append (.cons x .nil)).Without y
  | .nil, _, h => ⟨h, trivial⟩
  | .cons _ _, h, h' => ⟨h.1, without_snoc h.2 h'⟩

theorem distinct_snoc {x : Obj} : ∀ {a : Objs}, a.Distinct → a.Before x → (a.append (.cons x .nil)).Distinct
  | .nil, _, _ => ⟨trivial, trivial⟩
  | .cons _ _, h, h' => ⟨without_snoc h.1 h'.1, distinct_snoc h.2 h'.2⟩

/-- If nothing gets lost, no two were equal. -/
theorem build_full : ∀ {b a : Objs}, a.Distinct → (Objs.build a b).len = a.len + b.len → (a.append b).Distinct
  | .nil, a, h, _ => by rw [Objs.append_nil]; exact h
  | .cons x xs, a, h, hl => by
    unfold Objs.build at hl
    rcases add_cases x a with h1 | h1
    · rw [add_before h1] at hl
      have := build_full (b := xs) (distinct_snoc h h1) (by
        rw [hl, len_append]; simp only [Objs.len]; omega)
      rw [Objs.append_assoc] at this
      exact this
    · have h2 := len_build_le xs (a.add x)
      simp only [Objs.len] at hl; omega

theorem keys_put (k v : Obj) : ∀ d : Items, (d.put k v).keys = d.keys.add k
  | .nil => rfl
  | .cons k' v' r => by
    by_cases h : pyEq k' k = true
    · simp only [Items.put, Items.keys, Objs.add, h, if_true]
    · simp only [Items.put, Items.keys, Objs.add, h, if_false, keys_put k v r]
      simp [Items.keys, keys_put k v r]

theorem keys_build : ∀ xs d : Items, (Items.build d xs).keys = Objs.build d.keys xs.keys
  | .nil, d => rfl
  | .cons k v r, d => by
    unfold Items.build
    rw [keys_build r, keys_put]
    rfl

theorem sameAll_len : ∀ {xs ys : Objs}, SameAll enc xs ys → ys.len = xs.len
  | .nil, _, .nil => rfl
  | .cons _ _, _, .cons _ h => by simp only [Objs.len, sameAll_len h]

mutual
theorem same_unique : ∀ {x y z : Obj}, Same enc x y → Same enc x z → y = z
  | _, _, _, .bytes, .bytes => rfl
  | _, _, _, .str h, .str h' => by rw [h] at h'; cases h'; rfl
  | _, _, _, .seq h, .seq h' => by rw [sameAll_unique h h']
  | _, _, _, .dict h, .dict h' => by rw [sameItems_unique h h']
  | _, _, _, .set h, .set h' => by rw [sameAll_unique h h']

theorem sameAll_unique : ∀ {x y z : Objs}, SameAll enc x y → SameAll enc x z → y = z
  | _, _, _, .nil, .nil => rfl
  | _, _, _, .cons h1 h2, .cons h1' h2' => by rw [same_unique h1 h1', sameAll_unique h2 h2']

theorem sameItems_unique : ∀ {x y z : Items}, SameItems enc x y → SameItems enc x z → y = z
  | _, _, _, .nil, .nil => rfl
  | _, _, _, .cons h1 h2 h3, .cons h1' h2' h3' => by
    rw [same_unique h1 h1', same_unique h2 h2', sameItems_unique h3 h3']
end

theorem encodeAll_len : ∀ {xs ys : Objs}, encodeAll enc xs = .ok ys → ys.len = xs.len
  | .nil, ys, h => by simp only [encodeAll] at h; cases h; rfl
  | .cons x xs, ys, h => by
    simp only [encodeAll] at h
    cases he : encode enc x with
    | error e => rw [he] at h; cases h
    | ok y =>
      rw [he] at h
      cases he' : encodeAll enc xs with
      | error e => rw [he'] at h; cases h
      | ok zs => rw [he'] at h; cases h; simp only [Objs.len, encodeAll_len he']

theorem encodeItems_len : ∀ {xs ys : Items}, encodeItems enc xs = .ok ys → ys.keys.len = xs.keys.len
  | .nil, ys, h => by simp only [encodeItems] at h; cases h; rfl
  | .cons k v r, ys, h => by
    simp only [encodeItems] at h
    cases he : encode enc k with
    | error e => rw [he] at h; cases h
    | ok k' =>
      rw [he] at h
      cases he' : encode enc v with
      | error e => rw [he'] at h; cases h
      | ok v' =>
        rw [he'] at h
        cases he'' : encodeItems enc r with
        | error e => rw [he''] at h; cases h
        | ok r' => rw [he''] at h; cases h; simp only [Items.keys, Objs.len, encodeItems_len he'']

mutual
theorem noClash_of_same (o r : Obj) (h : encode enc o = .ok r) (hs : Same enc o r) : NoClash enc o := by
  match o with
  | .bytes b => exact .bytes
  | .str s => exact .str
  | .other n => exact .other
  | .seq t ty xs =>
    simp only [encode] at h
    cases ty with
    | odd n => cases h
    | std n =>
      dsimp only at h
      cases he : encodeAll enc xs with
      | error e => rw [he] at h; cases h
      | ok ys =>
        rw [he] at h; cases h
        cases hs with
        | seq hs => exact .seq (noClashAll_of_same xs ys he hs)
  | .set ty xs =>
    simp only [encode] at h
    cases he : encodeAll enc xs with
    | error e => rw [he] at h; cases h
    | ok ys =>
      rw [he] at h
      cases ty with
      | odd n => cases h
      | std n =>
        dsimp only [Ty.make] at h
        cases h
        cases hs with
        | set hs =>
          have hd : ys.Distinct := build_full (a := .nil) (b := ys) trivial (by
            rw [sameAll_len hs, encodeAll_len he]; simp [Objs.len])
          rw [build_objs (a := .nil) hd] at hs
          have hs' : SameAll enc xs ys := hs
          exact .set (noClashAll_of_same xs ys he hs') (fun zs hz => by rw [← sameAll_unique hs' hz]; exact hd)
  | .dict ty xs =>
    simp only [encode] at h
    cases he : encodeItems enc xs with
    | error e => rw [he] at h; cases h
    | ok ys =>
      rw [he] at h
      cases ty with
      | odd n => cases h
      | std n =>
        dsimp only [Ty.make] at h
        cases h
        cases hs with
        | dict hs =>
          have hk := sameItems_keys hs
          have hl := sameAll_len hk
          rw [keys_build] at hl
          have hd : ys.keys.Distinct := build_full (a := .nil) (b := ys.keys) trivial (by
            rw [show Objs.nil = Items.keys .nil from rfl, hl, ← encodeItems_len he]; simp [Objs.len, Items.keys])
          rw [build_items (a := .nil) hd] at hs
          have hs' : SameItems enc xs ys := hs
          exact .dict (noClashItems_of_same xs ys he hs')
            (fun zs hz => by rw [← sameAll_unique (sameItems_keys hs') hz]; exact hd)

theorem noClashAll_of_same (xs ys : Objs) (h : encodeAll enc xs = .ok ys) (hs : SameAll enc xs ys) :
    NoClashAll enc xs := by
  match xs with
  | .nil => exact .nil
  | .cons x xs =>
    simp only [encodeAll] at h
    cases he : encode enc x with
    | error e => rw [he] at h; cases h
    | ok y =>
      rw [he] at h
      cases he' : encodeAll enc xs with
      | error e => rw [he'] at h; cases h
      | ok zs =>
        rw [he'] at h
        cases h
        cases hs with
        | cons h1 h2 => exact .cons (noClash_of_same x y he h1) (noClashAll_of_same xs zs he' h2)

theorem noClashItems_of_same (xs ys : Items) (h : encodeItems enc xs = .ok ys) (hs : SameItems enc xs ys) :
    NoClashItems enc xs := by
  match xs with
  | .nil => exact .nil
  | .cons k v r =>
    simp only [encodeItems] at h
    cases he : encode enc k with
    | error e => rw [he] at h; cases h
    | ok k' =>
      rw [he] at h
      cases he' : encode enc v with
      | error e => rw [he'] at h; cases h
      | ok v' =>
        rw [he'] at h
        cases he'' : encodeItems enc r with
        | error e => rw [he''] at h; cases h
        | ok r' =>
          rw [he''] at h
          cases h
          cases hs with
          | cons h1 h2 h3 =>
            exact .cons (noClash_of_same k k' he h1) (noClash_of_same v v' he' h2) (noClashItems_of_same r r' he'' h3)
end

/-- **C98**, exactly: when encode_strings returns, the result has the shape of the object if and only if nowhere in it
two keys of a dict, or two elements of a set, become equal by being encoded; and there is at most one object of that
shape. -/
theorem C98_same_iff (o r : Obj) (h : encode enc o = .ok r) :
    (Same enc o r ↔ NoClash enc o) ∧ ∀ r', Same enc o r → Same enc o r' → r' = r :=
  ⟨⟨noClash_of_same o r h, fun hn => C98_same o r hn h⟩, fun _ h1 h2 => same_unique h2 h1⟩

/-- Both sides: a dict with "a" and b"b" keeps its shape; with "a" and b"a" it does not. -/
example : NoClash ascii (.dict (.std "dict") (.cons (.str ['a']) (.bytes []) (.cons (.bytes [98]) (.bytes []) .nil))) :=
  (C98_same_iff _ _ rfl).1.mp (.dict (.cons (.str rfl) .bytes (.cons .bytes .bytes .nil)))

example : ¬ NoClash ascii (.dict (.std "dict") (.cons (.str ['a']) (.bytes []) (.cons (.bytes [97]) (.bytes []) .nil))) :=
  fun h => by
    have := (C98_same_iff _ _ (C98_clash [] []).1).1.mpr h
    cases this with
    | dict h => cases h with
      | cons _ _ h => cases h

end Big.Encode
