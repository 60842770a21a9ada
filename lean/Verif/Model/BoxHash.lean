import Verif.Model.TypedBox

/-!
# Comparing and hashing boxes

`TypedBox.__hash__` (`src/arti/internal/mappings.py:224-231`) and the `__eq__` that it inherits from
`collections.abc.Mapping`: `dict(self.items()) == dict(other.items())`.
-/

namespace Arti.Box
variable {V : Type}

mutual
/-- `==` of values of a box: values are compared with their `__eq__` (`eqV`), boxes with
`Mapping.__eq__`, which compares dicts: as many items, and each key of the first has an equal value in
the second. -/
def nodeEq (eqV : V → V → Bool) : Node V → Node V → Bool
  | .leaf v, .leaf w => eqV v w
  | .box d, .box e => d.length == e.length && itemsIn eqV d e
  | _, _ => false
/-- Each item of the first dict has an equal one in the second. -/
def itemsIn (eqV : V → V → Bool) : List (Str × Node V) → List (Str × Node V) → Bool
  | [], _ => true
  | (k, n) :: rest, e =>
    (match PyDict.get? e k with
      | some m => nodeEq eqV n m
      | none => false) && itemsIn eqV rest e
end

mutual
/-- The hash of a value in a closed box: `hash(frozenset(self._data.items()))` for boxes
(`internal/mappings.py:227`).  As in `Verif.Model.FrozenDict`, CPython XORs the (shuffled) hashes of
the elements and mixes the result with their number; `hi` is the shuffled hash of an item, given the
hash of its value. -/
def nodeHash (hv : V → Nat) (hi : Str → Nat → Nat) (mix : Nat → Nat → Nat) : Node V → Nat
  | .leaf v => hv v
  | .box d => mix ((itemHashes hv hi mix d).foldl (· ^^^ ·) 0) d.length
/-- The hashes of the items. -/
def itemHashes (hv : V → Nat) (hi : Str → Nat → Nat) (mix : Nat → Nat → Nat) :
    List (Str × Node V) → List Nat
  | [] => []
  | (k, n) :: rest => hi k (nodeHash hv hi mix n) :: itemHashes hv hi mix rest
end

/-- `box == other` for two boxes. -/
def boxEq (eqV : V → V → Bool) (d e : BoxData V) : Bool := nodeEq eqV (.box d) (.box e)

/-- `hash(box)` (`internal/mappings.py:224-231`); nested boxes share the status. -/
def boxHash (hv : V → Nat) (hi : Str → Nat → Nat) (mix : Nat → Nat → Nat) (opn : Bool)
    (d : BoxData V) : Except Err Nat :=
  if opn then .error .valueError else .ok (nodeHash hv hi mix (.box d))

end Arti.Box
