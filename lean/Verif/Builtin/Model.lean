/-!
# try_float, try_int, get_float, get_int, get_int_or_float (big/builtin.py:43-131)

An object is what `int()` and `float()` make of it. A finite float is `m / 2 ^ k`. Not modelled: objects whose
`__ne__` makes `default != _sentinel` false or makes it raise.
-/
namespace Big.Builtin

/-- The exceptions that a conversion raises. For builtin.py. -/
inductive Exc where
  | typeError | valueError | overflowError
  | other (name : String)
  deriving DecidableEq, Repr

/-- Floats. -/
inductive Fl where
  | fin (m : Int) (k : Nat)
  | inf (negative : Bool)
  | nan
  deriving DecidableEq, Repr

/-- Objects: ints, floats, and those with conversions of their own, such as strings. For builtin.py:43-53. -/
inductive Obj where
  | int (n : Int)
  | float (f : Fl)
  | other (name : String) (toInt : Except Exc Int) (toFloat : Except Exc Fl)

/-- `int(f)` for a float: truncation. For builtin.py:116-120. -/
def Fl.toInt : Fl → Except Exc Int
  | .fin m k => .ok (m.tdiv (2 ^ k))
  | .inf _ => .error .overflowError
  | .nan => .error .valueError

/-- `int(o)`. For builtin.py:55-65. -/
def pyInt : Obj → Except Exc Int
  | .int n => .ok n
  | .float f => f.toInt
  | .other _ i _ => i

/-- `float(o)`; `conv` is `float(n)` for an int, which may raise OverflowError. For builtin.py:43-53. -/
def pyFloat (conv : Int → Except Exc Fl) : Obj → Except Exc Fl
  | .int n => conv n
  | .float f => .ok f
  | .other _ _ f => f

/-- `except (TypeError, ValueError)`. For builtin.py:43-53. -/
def caught : Exc → Bool
  | .typeError => true
  | .valueError => true
  | _ => false

/-- `int_o == o` for a float: exact. For builtin.py:116-120. -/
def Fl.eqInt : Fl → Int → Bool
  | .fin m k, n => n * 2 ^ k == m
  | .inf _, _ => false
  | .nan, _ => false

/-- `try_float(o)` (builtin.py:43-53). -/
def tryFloat (conv : Int → Except Exc Fl) (o : Obj) : Except Exc Bool :=
  match pyFloat conv o with
  | .ok _ => .ok true
  | .error e => if caught e then .ok false else .error e

/-- `try_int(o)` (builtin.py:55-65). -/
def tryInt (o : Obj) : Except Exc Bool :=
  match pyInt o with
  | .ok _ => .ok true
  | .error e => if caught e then .ok false else .error e

/-- `get_float(o, default)` (builtin.py:69-82); None is the sentinel. -/
def getFloat (conv : Int → Except Exc Fl) (o : Obj) (default : Option Obj) : Except Exc Obj :=
  match pyFloat conv o with
  | .ok f => .ok (.float f)
  | .error e => if caught e then .ok (default.getD o) else .error e

/-- `get_int(o, default)` (builtin.py:84-97). -/
def getInt (o : Obj) (default : Option Obj) : Except Exc Obj :=
  match pyInt o with
  | .ok n => .ok (.int n)
  | .error e => if caught e then .ok (default.getD o) else .error e

/-- `get_int_or_float(o)` for a float (builtin.py:116-120). -/
def floatOrInt (f : Fl) : Except Exc Obj :=
  match f.toInt with
  | .error e => .error e
  | .ok n => if f.eqInt n then .ok (.int n) else .ok (.float f)

/-- `get_int_or_float(o, default)` (builtin.py:99-131). The recursive call is for a float. -/
def getIntOrFloat (o : Obj) (default : Option Obj) : Except Exc Obj :=
  match o with
  | .int n => .ok (.int n)
  | .float f => floatOrInt f
  | .other nm toInt toFloat =>
    match toInt with
    | .ok n => .ok (.int n)
    | .error e =>
      if caught e then
        match toFloat with
        | .error e => if caught e then .ok (default.getD (.other nm toInt toFloat)) else .error e
        | .ok f =>
          match floatOrInt f with
          | .ok v => .ok v
          | .error e => if caught e then .ok (default.getD (.other nm toInt toFloat)) else .error e
      else .error e

/-! ## Specification -/

/-- The value of a float is the integer `n`. For builtin.py:101-112. -/
def Fl.IsInt (f : Fl) (n : Int) : Prop := ∃ m k, f = .fin m k ∧ m = n * 2 ^ k

/-- A float as a number, an int if it can be ("if int(o) == o, return int(o), otherwise return o").
For builtin.py:101-112. -/
inductive Prefer : Fl → Obj → Prop
  | int {f n} : f.IsInt n → Prefer f (.int n)
  | float {f} : (∀ n, ¬ f.IsInt n) → Prefer f (.float f)

/-- What the docstring of get_int_or_float says (builtin.py:101-112). -/
inductive Doc : Obj → Option Obj → Obj → Prop
  | int {n d} : Doc (.int n) d (.int n)
  | float {f d v} : Prefer f v → Doc (.float f) d v
  | toInt {nm n f d} : Doc (.other nm (.ok n) f) d (.int n)
  | toFloat {nm e f d v} : Prefer f v → Doc (.other nm (.error e) (.ok f)) d v
  | default {nm e e' d} : Doc (.other nm (.error e) (.error e')) d (d.getD (.other nm (.error e) (.error e')))

/-- Not an infinity and not a NaN. -/
def Fl.Finite (f : Fl) : Prop := ∃ m k, f = .fin m k

end Big.Builtin
