import Verif.Model.Base

/-!
# `int64`, `uint64` (`src/arti/internal/utils.py:87-203`) and `Fingerprint`
(`src/arti/fingerprints/__init__.py:18-82`)
-/

namespace Arti

/-- The dynamic type of an integer argument: a plain `int`, an `int64` or a `uint64`.
Other `int` subclasses (e.g. `bool`) behave like `plain`. -/
inductive IntKind
  | plain | i64 | u64
  deriving DecidableEq, Repr

/-- An integer together with its dynamic type. -/
structure PyNum where
  kind : IntKind
  val : Int
  deriving DecidableEq, Repr

/-- `int64._min`, `int64._max` (`internal/utils.py:179`). -/
def i64Min : Int := -(2 ^ 63)
def i64Max : Int := 2 ^ 63 - 1
/-- `uint64._min`, `uint64._max` (`internal/utils.py:193`). -/
def u64Min : Int := 0
def u64Max : Int := 2 ^ 64 - 1

/-- `int64.__new__` (`internal/utils.py:181-189`). -/
def int64New (i : PyNum) : Except Err PyNum :=
  if i.val > i64Max then
    if i.kind = .u64 then
      let j := i.val - u64Max - 1
      if j < i64Min then .error .valueError else .ok ⟨.i64, j⟩
    else .error .valueError
  else if i.val < i64Min then .error .valueError
  else .ok ⟨.i64, i.val⟩

/-- `uint64.__new__` (`internal/utils.py:195-203`). -/
def uint64New (i : PyNum) : Except Err PyNum :=
  if i.val > u64Max then .error .valueError
  else if i.val < u64Min then
    if i.kind = .i64 then .ok ⟨.u64, i.val + u64Max + 1⟩
    else .error .valueError
  else .ok ⟨.u64, i.val⟩

/-- Python's `^` on unbounded ints (infinite two's complement). -/
def pyXor : Int → Int → Int
  | .ofNat m, .ofNat n => .ofNat (m ^^^ n)
  | .ofNat m, .negSucc n => .negSucc (m ^^^ n)
  | .negSucc m, .ofNat n => .negSucc (m ^^^ n)
  | .negSucc m, .negSucc n => .ofNat (m ^^^ n)

/-- Bit-level `a & ~b` on naturals, used for mixed-sign `&` and `|`. -/
def natAndNot (a b : Nat) : Nat := a ^^^ (a &&& b)

/-- Python's `&` on unbounded ints. -/
def pyAnd : Int → Int → Int
  | .ofNat m, .ofNat n => .ofNat (m &&& n)
  | .ofNat m, .negSucc n => .ofNat (natAndNot m n)
  | .negSucc m, .ofNat n => .ofNat (natAndNot n m)
  | .negSucc m, .negSucc n => .negSucc (m ||| n)

/-- Python's `|` on unbounded ints. -/
def pyOr : Int → Int → Int
  | .ofNat m, .ofNat n => .ofNat (m ||| n)
  | .ofNat m, .negSucc n => .negSucc (natAndNot n m)
  | .negSucc m, .ofNat n => .negSucc (natAndNot m n)
  | .negSucc m, .negSucc n => .negSucc (m &&& n)

/-- Python's `~`. -/
def pyInvert (a : Int) : Int := -a - 1

/-- The binary operators that `_int` overrides (`internal/utils.py:96-175`).  The reflected
versions (`__radd__`, ...) compute the same integer with the operands exchanged. -/
inductive BinOp
  | add | sub | mul | floordiv | mod | lshift | rshift | and | or | xor
  deriving DecidableEq, Repr

/-- The plain `int` result of a binary operator, or the exception that `int` raises:
division by zero and negative shift counts. -/
def plainBin : BinOp → Int → Int → Except Err Int
  | .add, a, b => .ok (a + b)
  | .sub, a, b => .ok (a - b)
  | .mul, a, b => .ok (a * b)
  | .floordiv, a, b => if b = 0 then .error .zeroDivision else .ok (Int.fdiv a b)
  | .mod, a, b => if b = 0 then .error .zeroDivision else .ok (Int.fmod a b)
  | .lshift, a, b => if b < 0 then .error .valueError else .ok (a * 2 ^ b.toNat)
  | .rshift, a, b => if b < 0 then .error .valueError else .ok (Int.fdiv a (2 ^ b.toNat))
  | .and, a, b => .ok (pyAnd a b)
  | .or, a, b => .ok (pyOr a b)
  | .xor, a, b => .ok (pyXor a b)

/-- `type(self)(i)` for the class of `self` (`cls` is `int64` or `uint64`). -/
def newOf (cls : IntKind) (i : PyNum) : Except Err PyNum :=
  match cls with
  | .i64 => int64New i
  | .u64 => uint64New i
  | .plain => .ok ⟨.plain, i.val⟩

/-- `_int.__add__`, `__sub__`, ... (`internal/utils.py:96-175`): `type(self)(super().op(x))`;
`super().op` returns a plain `int`. -/
def intBin (op : BinOp) (self x : PyNum) : Except Err PyNum := do
  let r ← plainBin op self.val x.val
  newOf self.kind ⟨.plain, r⟩

/-- The unary operators that `_int` overrides. -/
inductive UnOp
  | invert | neg | pos | ceil | floor | trunc
  deriving DecidableEq, Repr

def plainUn : UnOp → Int → Int
  | .invert, a => pyInvert a
  | .neg, a => -a
  | .pos, a => a
  | .ceil, a => a
  | .floor, a => a
  | .trunc, a => a

/-- `_int.__invert__`, `__neg__`, ... (`internal/utils.py:102-130,171-172`). -/
def intUn (op : UnOp) (self : PyNum) : Except Err PyNum :=
  newOf self.kind ⟨.plain, plainUn op self.val⟩

/-! ## Fingerprint -/

/-- The key of a `Fingerprint` as a number.  `Fingerprint` subclasses `int64`
(`fingerprints/__init__.py:18-19`). -/
abbrev Fp := Int

/-- `operator.xor(self, other)` for two fingerprints: `_int.__xor__`, i.e.
`type(self)(super().__xor__(n))` (`internal/utils.py:174-175`). -/
def fpXor (a b : Fp) : Except Err Fp := do
  let r ← intBin .xor ⟨.i64, a⟩ ⟨.i64, b⟩
  .ok r.val

/-- `Fingerprint.combine`: `reduce(operator.xor, others, self)`
(`fingerprints/__init__.py:29-30`). -/
def fpCombine (self : Fp) : List Fp → Except Err Fp
  | [] => .ok self
  | o :: os => do
    let r ← fpXor self o
    fpCombine r os

/-- `Fingerprint.from_int`: `cls(int64(x))` (`fingerprints/__init__.py:32-38`); the argument
is a plain `int`. -/
def fpFromInt (x : Int) : Except Err Fp := do
  let r ← int64New ⟨.plain, x⟩
  .ok r.val

/-- `Fingerprint.from_uint64`-style conversion of the farmhash value used by
`Fingerprint.from_string` (`fingerprints/__init__.py:40-50`):
`int64(uint64(farmhash.fingerprint64(x)))`. -/
def fpFromUint64 (h : Int) : Except Err Fp := do
  let u ← uint64New ⟨.plain, h⟩
  let r ← int64New u
  .ok r.val

/-- `Fingerprint.identity` (`fingerprints/__init__.py:52-55`). -/
def fpIdentity : Fp := 0

/-- `Fingerprint.is_identity` (`fingerprints/__init__.py:57-59`). -/
def fpIsIdentity (a : Fp) : Bool := a == 0

end Arti
