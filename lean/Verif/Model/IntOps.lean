import Verif.Model.Ints
import Mathlib.Algebra.Order.Group.Unbundled.Int

/-!
# Operators on `int64` and `uint64` as Python dispatches them
(`src/arti/internal/utils.py:87-175`)

`intBin` and `intUn` model the methods `__add__`, `__neg__`, ...; here the reflected methods, `round`
and the operators that `_int` leaves to `int`.
-/

namespace Arti

/-- `_int.__radd__`, `__rsub__`, ... (`internal/utils.py:129-166`): `type(self)(super().__rop__(x))`,
which computes `x op self`. -/
def intBinR (op : BinOp) (self x : PyNum) : Except Err PyNum := do
  let r ← plainBin op x.val self.val
  newOf self.kind ⟨.plain, r⟩

/-- The expression `a op b`.  Python asks the right operand's reflected method first if its class is
a proper subclass of the left operand's and overrides it: so for a plain `int` on the left and an
`int64` or `uint64` on the right (`internal/utils.py:87,178,192`: both derive from `_int`, which
derives from `int`, and not from each other).  Otherwise the left operand's method decides.  Left
operands of other subclasses of `int`, as `bool`, are not modelled. -/
def binary (op : BinOp) (a b : PyNum) : Except Err PyNum :=
  if a.kind = .plain ∧ b.kind ≠ .plain then intBinR op b a else intBin op a b

/-- `int.__round__(ndigits)`: the nearest multiple of `10 ** -ndigits`, of two equally near ones the
even multiple. -/
def plainRound (a : Int) (ndigits : Int) : Int :=
  if 0 ≤ ndigits then a
  else
    let p : Int := 10 ^ (-ndigits).toNat
    let q := a / p
    let r := a % p
    if 2 * r < p then q * p
    else if p < 2 * r then (q + 1) * p
    else if q % 2 = 0 then q * p else (q + 1) * p

/-- `_int.__round__` (`internal/utils.py:154-155`): `type(self)(super().__round__(ndigits))`. -/
def intRound (self : PyNum) (ndigits : Int) : Except Err PyNum :=
  newOf self.kind ⟨.plain, plainRound self.val ndigits⟩

/-- `a ** b` for `0 ≤ b`: `_int` does not override `__pow__`, so the result is a plain `int`.
(Negative exponents give a `float` and are not modelled.) -/
def power (a : PyNum) (b : Nat) : PyNum := ⟨.plain, a.val ^ b⟩

/-- `abs(a)`: `_int` does not override `__abs__`, so the result is a plain `int`. -/
def absolute (a : PyNum) : PyNum := ⟨.plain, |a.val|⟩

/-- `divmod(a, b)`: `_int` overrides neither `__divmod__` nor `__rdivmod__`: two plain `int`s. -/
def divMod (a b : PyNum) : Except Err (PyNum × PyNum) :=
  if b.val = 0 then .error .zeroDivision
  else .ok (⟨.plain, Int.fdiv a.val b.val⟩, ⟨.plain, Int.fmod a.val b.val⟩)

end Arti
