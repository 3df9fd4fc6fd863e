/-!
# encode_strings (big/text.py:77-125)

Simplified: the elements of a set are listed in the order in which the set yields them; the hashes of keys are not
modelled (an encoded key is hashable if the key was); instances that contain themselves, for which Python raises
RecursionError, are not modelled; nor is a namedtuple with one field, whose constructor accepts a generator.
-/
namespace Big.Encode

/-- Exceptions of `str.encode` and of text.py:77-125. -/
inductive Err where
  | typeError | unicodeError | lookupError
  deriving DecidableEq, Repr

/-- The type of a container. -/
inductive Ty where
  /-- dict, list, tuple or set, or a subclass whose constructor accepts an iterable, or a dict -/
  | std (name : String)
  /-- a subclass whose constructor does not, such as defaultdict or a namedtuple -/
  | odd (name : String)
  deriving DecidableEq, Repr

mutual
/-- Objects. For text.py:77-99. -/
inductive Obj where
  | bytes (b : List Nat)
  | str (s : List Char)
  /-- a list (false) or tuple (true) -/
  | seq (tuple : Bool) (ty : Ty) (xs : Objs)
  | dict (ty : Ty) (items : Items)
  | set (ty : Ty) (xs : Objs)
  | other (name : String)

/-- A list of objects. For text.py:77-99. -/
inductive Objs where
  | nil
  | cons (x : Obj) (xs : Objs)

/-- The items of a dict, in order. For text.py:77-99. -/
inductive Items where
  | nil
  | cons (k v : Obj) (rest : Items)
end

mutual
/-- `==` for keys and elements of sets: the type of a tuple does not matter. For text.py:77-99. -/
def pyEq : Obj → Obj → Bool
  | .bytes a, .bytes b => a == b
  | .str a, .str b => a == b
  | .seq t _ xs, .seq t' _ ys => t == t' && pyEqs xs ys
  | .other a, .other b => a == b
  | _, _ => false

/-- `pyEq`, of sequences. For text.py:77-99. -/
def pyEqs : Objs → Objs → Bool
  | .nil, .nil => true
  | .cons x xs, .cons y ys => pyEq x y && pyEqs xs ys
  | _, _ => false
end

/-- `d[k] = v`: an equal key keeps its place and gets the new value. For text.py:77-99. -/
def Items.put (k v : Obj) : Items → Items
  | .nil => .cons k v .nil
  | .cons k' v' rest => if pyEq k' k then .cons k' v rest else .cons k' v' (rest.put k v)

/-- A dict comprehension's dict. For text.py:77-99. -/
def Items.build (d : Items) : Items → Items
  | .nil => d
  | .cons k v rest => Items.build (d.put k v) rest

/-- `s.add(x)`. For text.py:77-99. -/
def Objs.add (x : Obj) : Objs → Objs
  | .nil => .cons x .nil
  | .cons y ys => if pyEq y x then .cons y ys else .cons y (ys.add x)

/-- A set comprehension's set. For text.py:77-99. -/
def Objs.build (s : Objs) : Objs → Objs
  | .nil => s
  | .cons x xs => Objs.build (s.add x) xs

/-- `type_o(x)`. For text.py:77-99. -/
def Ty.make (ty : Ty) (o : Obj) : Except Err Obj :=
  match ty with
  | .std _ => .ok o
  | .odd _ => .error .typeError

mutual
/-- `_recursive_encode_strings(o, encoding)` (text.py:77-99); `enc` is `str.encode`. -/
def encode (enc : List Char → Except Err (List Nat)) : Obj → Except Err Obj
  | .bytes b => .ok (.bytes b)
  | .str s => (enc s).map .bytes
  | .dict ty items =>
    match encodeItems enc items with
    | .error e => .error e
    | .ok items => ty.make (.dict ty (Items.build .nil items))
  | .seq t ty xs =>
    match ty with
    | .odd _ => .error .typeError
    | .std _ =>
      match encodeAll enc xs with
      | .error e => .error e
      | .ok xs => .ok (.seq t ty xs)
  | .set ty xs =>
    match encodeAll enc xs with
    | .error e => .error e
    | .ok xs => ty.make (.set ty (Objs.build .nil xs))
  | .other _ => .error .typeError

/-- In order, up to the first exception. For text.py:77-99. -/
def encodeAll (enc : List Char → Except Err (List Nat)) : Objs → Except Err Objs
  | .nil => .ok .nil
  | .cons x xs =>
    match encode enc x with
    | .error e => .error e
    | .ok y =>
      match encodeAll enc xs with
      | .error e => .error e
      | .ok ys => .ok (.cons y ys)

/-- Keys before values. For text.py:77-99. -/
def encodeItems (enc : List Char → Except Err (List Nat)) : Items → Except Err Items
  | .nil => .ok .nil
  | .cons k v rest =>
    match encode enc k with
    | .error e => .error e
    | .ok k' =>
      match encode enc v with
      | .error e => .error e
      | .ok v' =>
        match encodeItems enc rest with
        | .error e => .error e
        | .ok rest' => .ok (.cons k' v' rest')
end

/-- `s.encode('ascii')`. For text.py:102-125. -/
def ascii (s : List Char) : Except Err (List Nat) :=
  if s.all (fun c => c.toNat < 128) then .ok (s.map Char.toNat) else .error .unicodeError

/-- `encode_strings(o, encoding='ascii')` (text.py:102-125). -/
def encodeStrings (o : Obj) (enc : List Char → Except Err (List Nat) := ascii) : Except Err Obj := encode enc o

/-! ## Specification -/

mutual
/-- The same shape, with each str replaced by its encoding and everything else as it is. -/
inductive Same (enc : List Char → Except Err (List Nat)) : Obj → Obj → Prop
  | bytes {b} : Same enc (.bytes b) (.bytes b)
  | str {s b} : enc s = .ok b → Same enc (.str s) (.bytes b)
  | seq {t ty xs ys} : SameAll enc xs ys → Same enc (.seq t ty xs) (.seq t ty ys)
  | dict {ty xs ys} : SameItems enc xs ys → Same enc (.dict ty xs) (.dict ty ys)
  | set {ty xs ys} : SameAll enc xs ys → Same enc (.set ty xs) (.set ty ys)

/-- `Same`, element by element. -/
inductive SameAll (enc : List Char → Except Err (List Nat)) : Objs → Objs → Prop
  | nil : SameAll enc .nil .nil
  | cons {x y xs ys} : Same enc x y → SameAll enc xs ys → SameAll enc (.cons x xs) (.cons y ys)

/-- `Same`, item by item of a dict. -/
inductive SameItems (enc : List Char → Except Err (List Nat)) : Items → Items → Prop
  | nil : SameItems enc .nil .nil
  | cons {k k' v v' r r'} : Same enc k k' → Same enc v v' → SameItems enc r r' →
      SameItems enc (.cons k v r) (.cons k' v' r')
end

mutual
/-- A type that encode_strings does not handle occurs. -/
inductive HasOther : Obj → Prop
  | other {n} : HasOther (.other n)
  | seqTy {t n xs} : HasOther (.seq t (.odd n) xs)
  | dictTy {n xs} : HasOther (.dict (.odd n) xs)
  | setTy {n xs} : HasOther (.set (.odd n) xs)
  | seq {t ty xs} : HasOtherAll xs → HasOther (.seq t ty xs)
  | dict {ty xs} : HasOtherItems xs → HasOther (.dict ty xs)
  | set {ty xs} : HasOtherAll xs → HasOther (.set ty xs)

/-- `HasOther`, of one of the elements. -/
inductive HasOtherAll : Objs → Prop
  | head {x xs} : HasOther x → HasOtherAll (.cons x xs)
  | tail {x xs} : HasOtherAll xs → HasOtherAll (.cons x xs)

/-- `HasOther`, of a key or a value. -/
inductive HasOtherItems : Items → Prop
  | key {k v r} : HasOther k → HasOtherItems (.cons k v r)
  | val {k v r} : HasOther v → HasOtherItems (.cons k v r)
  | tail {k v r} : HasOtherItems r → HasOtherItems (.cons k v r)
end

/-- The keys of a dict. -/
def Items.keys : Items → Objs
  | .nil => .nil
  | .cons k _ r => .cons k r.keys

/-- No element is equal to `x`. -/
def Objs.Without (x : Obj) : Objs → Prop
  | .nil => True
  | .cons y ys => pyEq x y = false ∧ ys.Without x

/-- No element is equal to a later one. -/
def Objs.Distinct : Objs → Prop
  | .nil => True
  | .cons x xs => xs.Without x ∧ xs.Distinct

mutual
/-- The keys of each dict, and the elements of each set, stay different when they are encoded. -/
inductive NoClash (enc : List Char → Except Err (List Nat)) : Obj → Prop
  | bytes {b} : NoClash enc (.bytes b)
  | str {s} : NoClash enc (.str s)
  | other {n} : NoClash enc (.other n)
  | seq {t ty xs} : NoClashAll enc xs → NoClash enc (.seq t ty xs)
  | dict {ty xs} : NoClashItems enc xs → (∀ ks, SameAll enc xs.keys ks → ks.Distinct) → NoClash enc (.dict ty xs)
  | set {ty xs} : NoClashAll enc xs → (∀ ys, SameAll enc xs ys → ys.Distinct) → NoClash enc (.set ty xs)

/-- `NoClash`, of all elements. -/
inductive NoClashAll (enc : List Char → Except Err (List Nat)) : Objs → Prop
  | nil : NoClashAll enc .nil
  | cons {x xs} : NoClash enc x → NoClashAll enc xs → NoClashAll enc (.cons x xs)

/-- `NoClash`, of all keys and values. -/
inductive NoClashItems (enc : List Char → Except Err (List Nat)) : Items → Prop
  | nil : NoClashItems enc .nil
  | cons {k v r} : NoClash enc k → NoClash enc v → NoClashItems enc r → NoClashItems enc (.cons k v r)
end

mutual
/-- An object that Python can build, without bytes: the keys of each dict and the elements of each set differ. -/
inductive Text : Obj → Prop
  | str {s} : Text (.str s)
  | other {n} : Text (.other n)
  | seq {t ty xs} : TextAll xs → Text (.seq t ty xs)
  | dict {ty xs} : TextItems xs → xs.keys.Distinct → Text (.dict ty xs)
  | set {ty xs} : TextAll xs → xs.Distinct → Text (.set ty xs)

/-- `Text`, of all elements. -/
inductive TextAll : Objs → Prop
  | nil : TextAll .nil
  | cons {x xs} : Text x → TextAll xs → TextAll (.cons x xs)

/-- `Text`, of all keys and values. -/
inductive TextItems : Items → Prop
  | nil : TextItems .nil
  | cons {k v r} : Text k → Text v → TextItems r → TextItems (.cons k v r)
end

mutual
/-- No str anywhere. -/
inductive NoStr : Obj → Prop
  | bytes {b} : NoStr (.bytes b)
  | other {n} : NoStr (.other n)
  | seq {t ty xs} : NoStrAll xs → NoStr (.seq t ty xs)
  | dict {ty xs} : NoStrItems xs → NoStr (.dict ty xs)
  | set {ty xs} : NoStrAll xs → NoStr (.set ty xs)

/-- `NoStr`, of all elements. -/
inductive NoStrAll : Objs → Prop
  | nil : NoStrAll .nil
  | cons {x xs} : NoStr x → NoStrAll xs → NoStrAll (.cons x xs)

/-- `NoStr`, of all keys and values. -/
inductive NoStrItems : Items → Prop
  | nil : NoStrItems .nil
  | cons {k v r} : NoStr k → NoStr v → NoStrItems r → NoStrItems (.cons k v r)
end

mutual
/-- A str that occurs in an object. -/
inductive Has (s : List Char) : Obj → Prop
  | str : Has s (.str s)
  | seq {t ty xs} : HasAll s xs → Has s (.seq t ty xs)
  | dict {ty xs} : HasItems s xs → Has s (.dict ty xs)
  | set {ty xs} : HasAll s xs → Has s (.set ty xs)

/-- `Has`, of one of the elements. -/
inductive HasAll (s : List Char) : Objs → Prop
  | head {x xs} : Has s x → HasAll s (.cons x xs)
  | tail {x xs} : HasAll s xs → HasAll s (.cons x xs)

/-- `Has`, of a key or a value. -/
inductive HasItems (s : List Char) : Items → Prop
  | key {k v r} : Has s k → HasItems s (.cons k v r)
  | val {k v r} : Has s v → HasItems s (.cons k v r)
  | tail {k v r} : HasItems s r → HasItems s (.cons k v r)
end

end Big.Encode
