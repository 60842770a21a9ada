import Verif.Model.Numpy

/-!
# Specification: what the NumPy and pandas type systems support, and what a round trip forgets
-/

namespace Arti
namespace Spec
open Typ

/-- The types of the values that NumPy stores: all scalars but dates and nulls, and bytes. -/
inductive Stored : Ty → Prop
  | scalar {s m} : s ≠ .date → s ≠ .null → Stored (.scalar s m)
  | binary {n m} : Stored (.binary n m)

/-- A list, or a collection (which is a list), of `e`. -/
inductive ListOf (e : Ty) : Ty → Prop
  | list {m} : ListOf e (.list e m)
  | collection {n p c m} : ListOf e (.collection n e p c m)

/-- The types with a NumPy counterpart: stored values, and lists of such types at any depth. -/
inductive NumpySupported : Ty → Prop
  | stored {t} : Stored t → NumpySupported t
  | list {e t} : ListOf e t → NumpySupported e → NumpySupported t

/-- The types with a pandas counterpart: stored values, lists of stored values (series), and lists of
structs of stored values (frames). -/
inductive PandasSupported : Ty → Prop
  | stored {t} : Stored t → PandasSupported t
  | series {e t} : ListOf e t → Stored e → PandasSupported t
  | frame {n fs m t} : ListOf (.struct n fs m) t → (∀ f ∈ fs, Stored f.2) → PandasSupported t

/-- Plain types: no descriptions, not nullable, no sizes, no names. -/
def bare : Ty → Ty
  | .scalar s _ => .scalar s {}
  | .binary _ _ => .binary none {}
  | .list e _ => .list (bare e) {}
  | .collection _ e _ _ _ => .list (bare e) {}
  | t => t

/-- As `bare`, also for lists of structs. -/
def bareRows : Ty → Ty
  | .list (.struct _ fs _) _ => .list (.struct anon (fs.map fun f => (f.1, bare f.2)) {}) {}
  | .collection _ (.struct _ fs _) _ _ _ =>
    .list (.struct anon (fs.map fun f => (f.1, bare f.2)) {}) {}
  | t => bare t

/-- A list of `e` in a list ..., `n` deep. -/
def nested : Nat → Ty → Ty
  | 0, e => e
  | n + 1, e => .list (nested n e) {}

/-- The NumPy class of a stored type. -/
def kindOf : Ty → Option NpKind
  | .binary _ _ => some .bytes
  | .scalar .boolean _ => some .bool
  | .scalar .string _ => some .str
  | .scalar .float16 _ => some .float16
  | .scalar .float32 _ => some .float32
  | .scalar .float64 _ => some .float64
  | .scalar .int8 _ => some .int8
  | .scalar .int16 _ => some .int16
  | .scalar .int32 _ => some .int32
  | .scalar .int64 _ => some .int64
  | .scalar .uint8 _ => some .uint8
  | .scalar .uint16 _ => some .uint16
  | .scalar .uint32 _ => some .uint32
  | .scalar .uint64 _ => some .uint64
  | _ => none

/-- The plain type of a NumPy class. -/
def tyOf : NpKind → Ty
  | .bytes => .binary none {}
  | .bool => .scalar .boolean {}
  | .str => .scalar .string {}
  | .float16 => .scalar .float16 {}
  | .float32 => .scalar .float32 {}
  | .float64 => .scalar .float64 {}
  | .int8 => .scalar .int8 {}
  | .int16 => .scalar .int16 {}
  | .int32 => .scalar .int32 {}
  | .int64 => .scalar .int64 {}
  | .uint8 => .scalar .uint8 {}
  | .uint16 => .scalar .uint16 {}
  | .uint32 => .scalar .uint32 {}
  | .uint64 => .scalar .uint64 {}

/-- `t` is a list of lists of ... of `e`, `n` deep. -/
inductive Nested (e : Ty) : Nat → Ty → Prop
  | zero : Nested e 0 e
  | succ {n e' t} : ListOf e' t → Nested e n e' → Nested e (n + 1) t

/-- Bytes. -/
def IsBytes (t : Ty) : Prop := ∃ n m, t = .binary n m

/-- The pandas types without bytes inside of lists. -/
inductive NoBytesInside : Ty → Prop
  | stored {t} : Stored t → NoBytesInside t
  | series {e t} : ListOf e t → Stored e → ¬ IsBytes e → NoBytesInside t
  | frame {n fs m t} : ListOf (.struct n fs m) t → (∀ f ∈ fs, Stored f.2 ∧ ¬ IsBytes f.2) →
      NoBytesInside t

end Spec
end Arti
