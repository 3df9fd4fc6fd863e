import Verif.Version.Model
/-!
# Model of the accessors of `Version`, of its operators, and of construction from sys.version_info
-/
namespace Big.Version

/-- major (version.py:381-383). `release` is never empty; [] stands for the IndexError. -/
def Ver.major (v : Ver) : Option Int := v.release[0]?
/-- minor (version.py:385-389) -/
def Ver.minor (v : Ver) : Option Int :=
  if v.release.length ≤ 1 then some 0 else v.release[1]?
/-- micro (version.py:391-395) -/
def Ver.micro (v : Ver) : Option Int :=
  if v.release.length ≤ 2 then some 0 else v.release[2]?

/-- What an operator between two versions does: a bool, or TypeError. For version.py:343-352. -/
inductive Answer where
  | yes | no | typeError
  deriving DecidableEq, Repr

/-- A comparison that returned. For version.py:343-352. -/
def Answer.ofBool (b : Bool) : Answer := if b then .yes else .no

/-- `a < b`, `a > b`, `a <= b`, `a >= b`, `a == b`, `a != b` of two Versions. The class has __eq__
and __lt__ only (version.py:343-351) and no total_ordering: Python answers `a > b` by the reflected
`b.__lt__(a)`, `a != b` by inverting __eq__, and finds no method for `<=` and `>=`. -/
inductive Operator where
  | lt | gt | le | ge | eq | ne
  deriving DecidableEq, Repr

/-- The comparison operators: `__eq__` and `__lt__` (version.py:343-352), and what Python makes of them. -/
def operate (o : Operator) (a b : Ver) : Answer :=
  match o with
  | .lt => .ofBool (a.lt b)
  | .gt => .ofBool (b.lt a)
  | .eq => .ofBool (a.eq b)
  | .ne => .ofBool (!a.eq b)
  | .le => .typeError
  | .ge => .typeError

/-- The releaselevel of sys.version_info (Python's documentation lists these four). For version.py:53, 163. -/
inductive PyLevel where
  | alpha | beta | candidate | final
  deriving DecidableEq, Repr

/-- sys.version_info. For version.py:160-168. -/
structure VersionInfo where
  major : Nat
  minor : Nat
  micro : Nat
  releaselevel : PyLevel
  serial : Nat
  deriving DecidableEq, Repr

/-- `_sys_version_info_release_level_normalize.get(x, x)` (version.py:53, 163) -/
def PyLevel.text : PyLevel → List Char
  | .alpha => "alpha".toList
  | .beta => "beta".toList
  | .candidate => "rc".toList
  | .final => []

/-- The string made of sys.version_info (version.py:160-168). -/
def VersionInfo.text (i : VersionInfo) : List Char :=
  natStr i.major ++ '.' :: natStr i.minor ++ '.' :: natStr i.micro ++
    (if i.releaselevel.text.isEmpty then []
     else i.releaselevel.text ++ (if i.serial = 0 then [] else natStr i.serial))

/-- Version(sys.version_info) -/
def ofVersionInfo (i : VersionInfo) : Except Err Ver := parse i.text

/-- What becomes of the release_level keyword (version.py:129-133): 'alpha', 'beta', 'rc', 'final' or
None; anything else is ValueError. -/
def levelOfKw : Option (List Char) → Except Err Level
  | none => .ok .final
  | some s =>
    if s = "alpha".toList then .ok .alpha
    else if s = "beta".toList then .ok .beta
    else if s = "rc".toList then .ok .rc
    else if s = "final".toList then .ok .final
    else .error .valueError

/-- Version(**fields) with release_level given as a string; the checks come in the order of the code,
but all of them raise ValueError. -/
def ofKwText (k : Kw) (level : Option (List Char)) : Except Err Ver :=
  match levelOfKw level with
  | .error e => .error e
  | .ok l => ofKw { k with level := some l }

end Big.Version
