import Verif.Model.IntOps

/-!
# Specification: integer arithmetic

What each operator of Python's `int` computes, without reference to how the model computes it.
The only things taken from the model are the names of the operators.
-/

namespace Arti.Spec

/-- Bit `i` of an integer in infinite two's complement: whether the largest multiple of `2 ^ i` not
above it is an odd multiple. -/
def Bit (x : Int) (i : Nat) : Prop := ∃ q r, x = q * 2 ^ i + r ∧ 0 ≤ r ∧ r < 2 ^ i ∧ q % 2 = 1

/-- The quotient rounded towards minus infinity. -/
def FloorQuotient (a b q : Int) : Prop :=
  (0 < b → q * b ≤ a ∧ a < (q + 1) * b) ∧ (b < 0 → a ≤ q * b ∧ (q + 1) * b < a)

/-- `r` is the result of `a op b`. -/
def Computes (a b r : Int) : BinOp → Prop
  | .add => r = a + b
  | .sub => r = a - b
  | .mul => r = a * b
  | .floordiv => FloorQuotient a b r
  | .mod => (∃ q, a = q * b + r) ∧ (0 < b → 0 ≤ r ∧ r < b) ∧ (b < 0 → b < r ∧ r ≤ 0)
  | .lshift => r = a * 2 ^ b.toNat
  | .rshift => FloorQuotient a (2 ^ b.toNat) r
  | .and => ∀ i, Bit r i ↔ Bit a i ∧ Bit b i
  | .or => ∀ i, Bit r i ↔ Bit a i ∨ Bit b i
  | .xor => ∀ i, Bit r i ↔ ¬ (Bit a i ↔ Bit b i)

/-- When the operator has no result: division by zero and shifts by a negative count. -/
def NoResult (b : Int) : BinOp → Prop
  | .floordiv | .mod => b = 0
  | .lshift | .rshift => b < 0
  | _ => False

/-- `r` is the multiple of `10 ^ n` nearest to `a`, and the even multiple if two are equally near. -/
def Nearest10 (a : Int) (n : Nat) (r : Int) : Prop :=
  ∃ q, r = q * 10 ^ n ∧ 2 * |a - r| ≤ 10 ^ n ∧ (2 * |a - r| = 10 ^ n → q % 2 = 0)

end Arti.Spec
