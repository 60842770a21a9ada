import Verif.Model.Base

/-!
# `one_or_none`, `ordinal`, `register` (`src/arti/internal/utils.py:213-245`)
-/

namespace Arti

/-- `one_or_none` (`internal/utils.py:213-218`); `values = none` is Python's `None`. -/
def oneOrNone {α : Type} (values : Option (List α)) (default : α) : Except Err α :=
  match values with
  | none => .ok default
  | some [] => .ok default
  | some [v] => .ok v
  | some _ => .error .valueError

/-- Decimal digits of a natural number, most significant first (`str(n)` for `n ≥ 0`). -/
def digitChar (d : Nat) : Char :=
  match d with
  | 0 => '0' | 1 => '1' | 2 => '2' | 3 => '3' | 4 => '4'
  | 5 => '5' | 6 => '6' | 7 => '7' | 8 => '8' | 9 => '9'
  | 10 => 'a' | 11 => 'b' | 12 => 'c' | 13 => 'd' | 14 => 'e' | _ => 'f'

/-- Digits of `n` in base `b`, most significant first; no digits for 0.  `fuel` bounds the
recursion; `n` is always enough. -/
def natDigitsAux (b : Nat) : Nat → Nat → Str
  | 0, _ => []
  | fuel + 1, n => if n = 0 then [] else natDigitsAux b fuel (n / b) ++ [digitChar (n % b)]

/-- `format(n, 'd')` / `format(n, 'x')` for `n ≥ 0`. -/
def natToStr (b n : Nat) : Str :=
  if n = 0 then ['0'] else natDigitsAux b n n

/-- `str(i)` for an `int`. -/
def intToStr (i : Int) : Str :=
  match i with
  | .ofNat n => natToStr 10 n
  | .negSucc n => '-' :: natToStr 10 (n + 1)

/-- `ordinal` (`internal/utils.py:221-227`).  Python's `%` is floored. -/
def ordinal (n : Int) : Str :=
  let m10 := (Int.fmod n 10).toNat
  let m100 := Int.fmod n 100
  let suffix := (["th", "st", "nd", "rd", "th"].getD (min m10 4) "th").toList
  let suffix := if 11 ≤ m100 ∧ m100 ≤ 13 then "th".toList else suffix
  intToStr n ++ suffix

/-- `register` (`internal/utils.py:230-245`).  Returns the updated registry; on an error the
registry is unchanged.  The returned value is always `value` and is not modelled. -/
def register {κ ν : Type} [DecidableEq κ] (registry : PyDict κ ν) (key : κ) (value : ν)
    (getPriority : Option (ν → Int)) : Except Err (PyDict κ ν) :=
  match PyDict.get? registry key with
  | some existing =>
    match getPriority with
    | none => .error .valueError
    | some prio =>
      if prio existing > prio value then .ok registry
      else if prio existing = prio value then .error .valueError
      else .ok (PyDict.set registry key value)
  | none => .ok (PyDict.set registry key value)

/-- A sequence of registrations; stops at the first error. -/
def registerAll {κ ν : Type} [DecidableEq κ] (registry : PyDict κ ν) (getPriority : Option (ν → Int)) :
    List (κ × ν) → Except Err (PyDict κ ν)
  | [] => .ok registry
  | (k, v) :: rest => do
    let r ← register registry k v getPriority
    registerAll r getPriority rest

end Arti
