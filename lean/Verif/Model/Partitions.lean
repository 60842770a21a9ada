import Verif.Model.Utils
import Verif.Model.FrozenDict
import Verif.Model.Ints

/-!
# Partition fields and keys (`src/arti/partitions/__init__.py`)
-/

namespace Arti

/-- The integer partition field classes (`partitions/__init__.py:131-144`). -/
inductive IntCls
  | int8 | int16 | int32 | int64
  deriving DecidableEq, Repr

/-- The concrete `PartitionField` classes. -/
inductive FieldCls
  | date
  | int (k : IntCls)
  | null
  deriving DecidableEq, Repr

/-- A `PartitionField` instance.  A date is kept as year, month and day. -/
inductive FieldVal
  | date (y m d : Nat)
  | int (k : IntCls) (v : Int)
  | null
  deriving DecidableEq, Repr

/-- `type(field)`. -/
def FieldVal.cls : FieldVal → FieldCls
  | .date _ _ _ => .date
  | .int k _ => .int k
  | .null => .null

/-- `PartitionKey`: a frozendict of fields (`partitions/__init__.py:59-71`). -/
abbrev PKey := PyDict Str FieldVal

/-- `PartitionKeyTypes` (`partitions/__init__.py:56`). -/
abbrev KeyTypes := PyDict Str FieldCls

/-- `InputFingerprints` (`partitions/__init__.py:161`): a frozendict keyed by partition keys,
which compare as mappings. -/
abbrev InputFps := List (PKey × Option Fp)

/-- `input_fingerprints.get(key)`. -/
def ifpGet : InputFps → PKey → Option (Option Fp)
  | [], _ => none
  | (k', v) :: d, k => if fdEq k' k then some v else ifpGet d k

namespace Part

def isLeap (y : Nat) : Bool := (y % 4 == 0 && y % 100 != 0) || y % 400 == 0

def daysIn (y m : Nat) : Nat :=
  if m = 2 then (if isLeap y then 29 else 28)
  else if m = 4 || m = 6 || m = 9 || m = 11 then 30 else 31

/-- The dates that `datetime.date` can represent. -/
def validDate (y m d : Nat) : Bool :=
  1 ≤ y && y ≤ 9999 && 1 ≤ m && m ≤ 12 && 1 ≤ d && d ≤ daysIn y m

/-- `datetime.date(y, m, d)`. -/
def mkDate (y m d : Int) : Except Err FieldVal :=
  if 0 ≤ y ∧ 0 ≤ m ∧ 0 ≤ d ∧ validDate y.toNat m.toNat d.toNat then
    .ok (.date y.toNat m.toNat d.toNat)
  else .error .valueError

/-- `n` with at least `w` decimal digits (`f"{n:0{w}}"` for `n ≥ 0`). -/
def padNat (w n : Nat) : Str :=
  let s := natToStr 10 n
  List.replicate (w - s.length) '0' ++ s

/-- `date.isoformat()`. -/
def isoFormat (y m d : Nat) : Str := padNat 4 y ++ '-' :: padNat 2 m ++ '-' :: padNat 2 d

/-- The value of a digit character `0`-`9`, `a`-`f` or `A`-`F`. -/
def digitVal (c : Char) : Option Nat :=
  if 48 ≤ c.toNat ∧ c.toNat ≤ 57 then some (c.toNat - 48)
  else if 97 ≤ c.toNat ∧ c.toNat ≤ 102 then some (c.toNat - 87)
  else if 65 ≤ c.toNat ∧ c.toNat ≤ 70 then some (c.toNat - 55)
  else none

/-- The number that a string of base-`b` digits stands for, starting from `acc`. -/
def digitsVal (b acc : Nat) : Str → Option Nat
  | [] => some acc
  | c :: cs =>
    match digitVal c with
    | some d => if d < b then digitsVal b (acc * b + d) cs else none
    | none => none

/-- An optional leading sign: whether it is a minus, and the rest. -/
def splitSign : Str → Bool × Str
  | [] => (false, [])
  | c :: r => if c = '-' then (true, r) else if c = '+' then (false, r) else (false, c :: r)

/-- An optional `0x`. -/
def dropHexPrefix : Str → Str
  | c :: d :: r => if c = '0' ∧ (d = 'x' ∨ d = 'X') then r else c :: d :: r
  | r => r

/-- A character that makes `int(s)` leave the modelled syntax. -/
def oddChar (c : Char) : Bool := c = '_' || c.isWhitespace || 127 < c.toNat

/-- `int(s, b)` restricted to an optional sign, an optional `0x` for base 16 and digits.  Python
also accepts underscores, surrounding white space and non-ASCII digits: not modelled. -/
def pyInt (b : Nat) (s : Str) : Except Err Int :=
  if s.any oddChar then .error .unsupported
  else
    let r := if b = 16 then dropHexPrefix (splitSign s).2 else (splitSign s).2
    if r.isEmpty then .error .valueError
    else match digitsVal b 0 r with
      | some n => .ok (if (splitSign s).1 then -(n : Int) else n)
      | none => .error .valueError

/-- `hex(v)`. -/
def pyHex (v : Int) : Str :=
  match v with
  | .ofNat n => '0' :: 'x' :: natToStr 16 n
  | .negSucc n => '-' :: '0' :: 'x' :: natToStr 16 (n + 1)

/-- `date.fromisoformat(s)` for the form `YYYY-MM-DD`; the other ISO 8601 forms that Python
accepts are not modelled. -/
def dateFromIso (s : Str) : Except Err FieldVal :=
  match s with
  | [y1, y2, y3, y4, s1, m1, m2, s2, d1, d2] =>
    if s1 = '-' ∧ s2 = '-' then
      match digitsVal 10 0 [y1, y2, y3, y4], digitsVal 10 0 [m1, m2], digitsVal 10 0 [d1, d2] with
      | some y, some m, some d => mkDate y m d
      | _, _, _ => .error .valueError
    else .error .unsupported
  | _ => .error .unsupported

/-- A component value before formatting: an `int` or something whose `str()` is given. -/
inductive CompVal
  | int (v : Int)
  | text (s : Str)
  deriving DecidableEq, Repr

/-- `getattr(field, component)` (`partitions/__init__.py:83-97,117-119` and the model field
`value`).  `str(date)` is its ISO form and `str(None)` is `None`. -/
def component : FieldVal → Str → Option CompVal
  | .date y m d, c =>
    if c = ['Y'] then some (.int y)
    else if c = ['m'] then some (.int m)
    else if c = ['d'] then some (.int d)
    else if c = ['i', 's', 'o'] then some (.text (isoFormat y m d))
    else if c = ['v', 'a', 'l', 'u', 'e'] then some (.text (isoFormat y m d))
    else none
  | .int _ v, c =>
    if c = ['v', 'a', 'l', 'u', 'e'] then some (.int v)
    else if c = ['h', 'e', 'x'] then some (.text (pyHex v))
    else none
  | .null, c => if c = ['v', 'a', 'l', 'u', 'e'] then some (.text ['N', 'o', 'n', 'e']) else none

/-- `cls.components` (`partitions/__init__.py:42-46`). -/
def components : FieldCls → List Str
  | .date => [['Y'], ['d'], ['i', 's', 'o'], ['m'], ['v', 'a', 'l', 'u', 'e']]
  | .int _ => [['h', 'e', 'x'], ['v', 'a', 'l', 'u', 'e']]
  | .null => [['v', 'a', 'l', 'u', 'e']]

/-- `cls.default_components` (`partitions/__init__.py:78,113,148`): name and component spec. -/
def defaultComponents : FieldCls → List (Str × Str)
  | .date => [(['Y'], ['Y']), (['m'], ['m', ':', '0', '2']), (['d'], ['d', ':', '0', '2'])]
  | .int _ => [(['v', 'a', 'l', 'u', 'e'], ['v', 'a', 'l', 'u', 'e'])]
  | .null => [(['v', 'a', 'l', 'u', 'e'], ['v', 'a', 'l', 'u', 'e'])]

/-- `cls.from_components(**components)` (`partitions/__init__.py:99-108,121-128,153-159` and the
base method at `48-50`). -/
def fromComponents (cls : FieldCls) (cs : PyDict Str Str) : Except Err FieldVal :=
  let names := PyDict.keys cs
  match cls with
  | .date =>
    if sameSet names [['v', 'a', 'l', 'u', 'e']] then
      match PyDict.get? cs ['v', 'a', 'l', 'u', 'e'] with
      | some s => dateFromIso s
      | none => .error .keyError
    else if sameSet names [['i', 's', 'o']] then
      match PyDict.get? cs ['i', 's', 'o'] with
      | some s => dateFromIso s
      | none => .error .keyError
    else if sameSet names [['Y'], ['m'], ['d']] then
      match PyDict.get? cs ['Y'], PyDict.get? cs ['m'], PyDict.get? cs ['d'] with
      | some y, some m, some d => do
        let y ← pyInt 10 y
        let m ← pyInt 10 m
        let d ← pyInt 10 d
        mkDate y m d
      | _, _, _ => .error .keyError
    else .error .notImplemented
  | .int k =>
    if sameSet names [['v', 'a', 'l', 'u', 'e']] then
      match PyDict.get? cs ['v', 'a', 'l', 'u', 'e'] with
      | some s => (pyInt 10 s).map (.int k ·)
      | none => .error .keyError
    else if sameSet names [['h', 'e', 'x']] then
      match PyDict.get? cs ['h', 'e', 'x'] with
      | some s => (pyInt 16 s).map (.int k ·)
      | none => .error .keyError
    else .error .notImplemented
  | .null =>
    if sameSet names [['v', 'a', 'l', 'u', 'e']] then
      match PyDict.get? cs ['v', 'a', 'l', 'u', 'e'] with
      | some s => if s = ['N', 'o', 'n', 'e'] then .ok .null else .error .valueError
      | none => .error .keyError
    else .error .notImplemented

end Part
end Arti
