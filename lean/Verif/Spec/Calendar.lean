/-!
# The Gregorian calendar: specification
-/

namespace Arti.Spec

/-- Every fourth year is a leap year, but not a full century unless it is divisible by 400. -/
def Leap (y : Nat) : Prop := 4 ∣ y ∧ (100 ∣ y → 400 ∣ y)

instance (y : Nat) : Decidable (Leap y) := inferInstanceAs (Decidable (_ ∧ _))

/-- The lengths of the months, January first. -/
def months (y : Nat) : List Nat :=
  [31, if Leap y then 29 else 28, 31, 30, 31, 30, 31, 31, 30, 31, 30, 31]

/-- The dates of the years 1 to 9999. -/
def IsDate (y m d : Nat) : Prop :=
  1 ≤ y ∧ y ≤ 9999 ∧ ∃ n, (months y)[m - 1]? = some n ∧ 1 ≤ m ∧ 1 ≤ d ∧ d ≤ n

/-- The calendar repeats after 400 years, which have 146097 days. -/
example : ((List.range 400).map fun y => (months y).sum).sum = 146097 := by decide +kernel

end Arti.Spec
