import Verif.Lines.IterModel
/-!
# Model of the keyword arguments of lines (big/text.py:2986-3115), with the object's `__dict__`

The attributes of a lines object are kept in a dict, and the keyword arguments that are not parameters are written into it
too, over what is there. Here each attribute is looked up by its name, as in the code. Parameters' names (line_number and
so on) cannot be among these keyword arguments: Python passes them as the parameters.
-/
namespace Big.LinesKw
open Big.LinesIter (Val Err Out add lineInfo unpack isBytes)

/-- The value of an attribute. `iter` is an iterator that nobody else calls, with what it has yet to yield; `fn` is a
function of one argument; other objects are `val`. For text.py:3036-3064. -/
inductive Attr where
  | val (v : Val)
  | int (n : Int)
  | iter (rest : List Val)
  | fn (f : Val → Except Err Val)

/-- `bool(a)`. For text.py:3086, 3109. -/
def Attr.truthy : Attr → Bool
  | .val v => v.truthy
  | .int n => n ≠ 0
  | _ => true

/-- The object as a value of a line or its end, where only str and bytes matter (text.py:3089-3091). -/
def Attr.toVal : Attr → Val
  | .val v => v
  | a => .other a.truthy

/-- `a is None`. For text.py:3089, 3103. -/
def Attr.isNone : Attr → Bool
  | .val .none => true
  | _ => false

/-- A `__dict__`. For text.py:3036-3064. -/
abbrev Dict := String → Option Attr

/-- `self.name = a`. For text.py:3036-3064. -/
def set (d : Dict) (name : String) (a : Attr) : Dict := fun x => if x = name then some a else d x

/-- `self.__dict__.update(kwargs)` (text.py:3064). -/
def update (d : Dict) : List (String × Attr) → Dict
  | [] => d
  | (name, a) :: kw => update (set d name a) kw

/-- Attributes that are not looked up in the `__dict__`, as Python's classes have data descriptors of these names.
For text.py:3064. -/
def descriptors : List String := ["__class__", "__dict__", "__weakref__"]

/-- `getattr(self, name)` as far as the `__dict__` decides it: `none` if it is something else, or nothing
(text.py:3073-3113). -/
def read (d : Dict) (name : String) : Option Attr := if name ∈ descriptors then none else d name

/-- Exceptions. For text.py:3039-3113. -/
inductive KErr where
  | stop | err (e : Err) | attributeError

/-- The argument s: a str or bytes object `s`, with the pairs that multisplit yields for it; or an iterable, by what it
yields. For text.py:3046-3062. -/
inductive Src where
  | text (isBytes : Bool) (s : Val) (pairs : List Val)
  | iterable (s : Val) (vs : List Val)

/-- The argument s itself. For text.py:3043. -/
def Src.argument : Src → Val
  | .text _ s _ => s
  | .iterable s _ => s

/-- What is set before the keyword arguments are (text.py:3036-3062). -/
def base (src : Src) (separators : Val) (n column tabWidth : Int) : Except KErr Dict :=
  let d : Dict := fun _ => none
  let d := set d "s" (.val src.argument)
  let d := set d "separators" (.val separators)
  let d := set d "line_number" (.int n)
  let d := set d "column_number" (.int column)
  let d := set d "tab_width" (.int tabWidth)
  match src with
  | .text b _ pairs =>
    let d := set d "i" (.iter pairs)
    let d := set d "is_pairs" (.val (.other true))
    .ok (set d "s_is_bytes" (.val (.other b)))
  | .iterable _ vs =>
    match separators with
    | .none =>
      let d := set d "i" (.iter vs)
      let d := set d "is_pairs" (.val .none)
      .ok (set d "s_is_bytes" (.val .none))
    | _ => .error (.err .valueError)

/-- `lines(s, separators, line_number=n, column_number=column, tab_width=tabWidth, **kwargs)`, the three being ints
(text.py:2986-3064). -/
def init (src : Src) (separators : Val) (n column tabWidth : Int) (kwargs : List (String × Attr)) : Except KErr Dict :=
  match base src separators n column tabWidth with
  | .ok d => .ok (update d kwargs)
  | .error e => .error e

/-- `value = next(self.i)` (text.py:3073). -/
def nextValue (d : Dict) : Except KErr (Val × Dict) :=
  match read d "i" with
  | none => .error .attributeError
  | some (.iter []) => .error .stop
  | some (.iter (v :: vs)) => .ok (v, set d "i" (.iter vs))
  | some _ => .error (.err .typeError)

/-- The line and its end (text.py:3085-3107), and what `__dict__` is then, also if an exception is raised. -/
def lineAndEnd (d : Dict) (value : Val) : Except KErr (Val × Val) × Dict :=
  match read d "is_pairs" with
  | none => (.error .attributeError, d)
  | some p =>
    if p.truthy then
      match unpack value with
      | .ok r => (.ok r, d)
      | .error e => (.error (.err e), d)
    else if !p.isNone then (.ok (value, p.toVal), d)
    else
      match value with
      | .seq l =>
        let d := set d "is_pairs" (.val (.other true))
        match l with
        | [line, lineEnd] =>
          match read d "s_is_bytes" with
          | none => (.error .attributeError, d)
          | some b => (.ok (line, lineEnd), if b.isNone then set d "s_is_bytes" (.val (.other (isBytes line))) else d)
        | _ => (.error (.err .valueError), d)
      | line =>
        let d := set d "is_pairs" (.val (.other false))
        match read d "s_is_bytes" with
        | none => (.error .attributeError, d)
        | some b =>
          let d := if b.isNone then set d "s_is_bytes" (.val (.other (isBytes line))) else d
          match read d "s_is_bytes" with
          | none => (.error .attributeError, d)
          | some b =>
            let e : Val := if b.truthy then .bytes [] else .str []
            (.ok (line, e), set d "is_pairs" (.val e))

/-- The line with its end, if there is one (text.py:3109-3112). -/
def original (d : Dict) (line lineEnd : Val) : Except KErr Val :=
  match read d "is_pairs" with
  | none => .error .attributeError
  | some p =>
    if p.truthy && lineEnd.truthy then
      match add line lineEnd with
      | .ok w => .ok w
      | .error e => .error (.err e)
    else .ok line

/-- `LineInfo(self, original_line, self.line_number, self.column_number, end=end)` and the line (text.py:3113). -/
def output (d : Dict) (line lineEnd : Val) : Except KErr Out :=
  match original d line lineEnd with
  | .error e => .error e
  | .ok w =>
    match read d "line_number", read d "column_number" with
    | some n, some c =>
      match lineInfo w lineEnd, n, c with
      | .error e, _, _ => .error (.err e)
      | .ok e, .int n, .int c => .ok ⟨w, n, c, e, line⟩
      | .ok _, _, _ => .error (.err .typeError)
    | _, _ => .error .attributeError

/-- `self.line_number += 1` (text.py:3114). -/
def count (d : Dict) : Dict :=
  match read d "line_number" with
  | some (.int n) => set d "line_number" (.int (n + 1))
  | _ => d

/-- `__next__` (text.py:3072-3115). -/
def next (d : Dict) : Except KErr Out × Dict :=
  match nextValue d with
  | .error e => (.error e, d)
  | .ok (value, d) =>
    match lineAndEnd d value with
    | (.error e, d) => (.error e, d)
    | (.ok (line, lineEnd), d) =>
      match output d line lineEnd with
      | .error e => (.error e, d)
      | .ok o => (.ok o, count d)

/-- The object after k calls of `__next__`. For text.py:3072-3115. -/
def after (d : Dict) : Nat → Dict
  | 0 => d
  | k + 1 => after (next d).2 k

/-- What k calls of `__next__` return or raise. For text.py:3072-3115. -/
def calls (d : Dict) : Nat → List (Except KErr Out)
  | 0 => []
  | k + 1 => (next d).1 :: calls (next d).2 k

/-- `self.detab(s)` (text.py:3069-3070): the method, unless there is an attribute of its name. `expandtabs` is the string
method. -/
def detab (expandtabs : Int → Val → Except Err Val) (d : Dict) (s : Val) : Except KErr Val :=
  match read d "detab" with
  | some (.fn f) => (f s).mapError .err
  | some _ => .error (.err .typeError)
  | none =>
    match read d "tab_width" with
    | some (.int w) => (expandtabs w s).mapError .err
    | some _ => .error (.err .typeError)
    | none => .error .attributeError

end Big.LinesKw
