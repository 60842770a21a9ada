/-!
# Specification: machine integers and XOR

Stated without reference to the model of `/repo`.
-/

namespace Arti.Spec

/-- The values of a signed 64-bit integer. -/
def Int64Range (x : Int) : Prop := -9223372036854775808 ≤ x ∧ x ≤ 9223372036854775807

/-- The values of an unsigned 64-bit integer. -/
def UInt64Range (x : Int) : Prop := 0 ≤ x ∧ x ≤ 18446744073709551615

instance (x : Int) : Decidable (Int64Range x) := by unfold Int64Range; infer_instance
instance (x : Int) : Decidable (UInt64Range x) := by unfold UInt64Range; infer_instance

/-- The XOR of 64-bit words: the bits set in an odd number of the words. -/
def xorAll : List (BitVec 64) → BitVec 64
  | [] => 0#64
  | w :: ws => w ^^^ xorAll ws

/-- The signed 64-bit XOR of a list of integers. -/
def signedXor (xs : List Int) : Int := (xorAll (xs.map (BitVec.ofInt 64))).toInt

end Arti.Spec
