import Verif.Model.PythonTypes

/-!
# Specification: what the Python type system supports, and the widening of a round trip
-/

namespace Arti
namespace Spec
open Typ TH

/-- The class of the values of a type that an `Enum` can be made of. -/
def valueClass : Ty → Option PyCls
  | .scalar .boolean _ => some .bool
  | .scalar .date _ => some .date
  | .scalar .string _ => some .str
  | .scalar .float16 _ => some .float
  | .scalar .float32 _ => some .float
  | .scalar .float64 _ => some .float
  | .scalar .int8 _ => some .int
  | .scalar .int16 _ => some .int
  | .scalar .int32 _ => some .int
  | .scalar .int64 _ => some .int
  | .binary _ _ => some .bytes
  | .timestamp _ _ => some .datetime
  | _ => none

/-- The scalar has a Python counterpart (there are no unsigned integers). -/
def hasPythonScalar : Scalar → Bool
  | .uint8 => false
  | .uint16 => false
  | .uint32 => false
  | .uint64 => false
  | _ => true

mutual
/-- The types that round-trip through Python hints: scalars (a `Null` is not nullable), binaries,
timestamps, lists, sets, maps, structs without `Null` fields, collections, and enums whose items are
all exactly of the class of the enum's type. -/
def Supported : Ty → Prop
  | .scalar s m => hasPythonScalar s = true ∧ (s = .null → m.nullable = false)
  | .binary _ _ => True
  | .timestamp _ _ => True
  | .enum _ t items _ =>
      items ≠ [] ∧ items.Nodup ∧ ∃ c, valueClass t = some c ∧ ∀ x ∈ items, x.cls = c
  | .list e _ => Supported e
  | .set e _ => Supported e
  | .map k v _ => Supported k ∧ Supported v
  | .struct _ fs _ => SupportedFields fs
  | .collection _ e _ _ _ => Supported e
  | _ => False
/-- The fields of a struct. -/
def SupportedFields : List (Str × Ty) → Prop
  | [] => True
  | (_, t) :: fs => (Supported t ∧ t.isScalar .null = false) ∧ SupportedFields fs
end

/-- What a description-free copy of the metadata keeps. -/
def bareMeta (m : Meta) : Meta := { description := none, nullable := m.nullable }

mutual
/-- The documented widening: integers become `Int64`, floats `Float64`, timestamps get microsecond
precision, collections become lists, binaries lose their size, enums their name; descriptions are
dropped. -/
def widen : Ty → Ty
  | .scalar s m => .scalar (match s with
      | .int8 => .int64 | .int16 => .int64 | .int32 => .int64
      | .float16 => .float64 | .float32 => .float64
      | s => s) (bareMeta m)
  | .binary _ m => .binary none (bareMeta m)
  | .timestamp _ m => .timestamp .microsecond (bareMeta m)
  | .enum _ t items m => .enum anon ((widen t).setNullable false) items (bareMeta m)
  | .list e m => .list (widen e) (bareMeta m)
  | .set e m => .set (widen e) (bareMeta m)
  | .map k v m => .map (widen k) (widen v) (bareMeta m)
  | .struct n fs m => .struct n (widenFields fs) (bareMeta m)
  | .collection _ e _ _ m => .list (widen e) (bareMeta m)
  | t => t
def widenFields : List (Str × Ty) → List (Str × Ty)
  | [] => []
  | (n, t) :: fs => (n, widen t) :: widenFields fs
end

mutual
/-- The types that Python hints can express exactly: no narrow integers or floats, no sized binaries,
microsecond timestamps, unnamed enums of such a (non-nullable) type, no collections, and no
descriptions. -/
def Widened : Ty → Prop
  | .scalar s m => s ∉ [.int8, .int16, .int32, .float16, .float32] ∧ m.description = none
  | .binary size m => size = none ∧ m.description = none
  | .timestamp p m => p = .microsecond ∧ m.description = none
  | .enum name t _ m => name = anon ∧ Widened t ∧ t.nullable = false ∧ m.description = none
  | .list e m => Widened e ∧ m.description = none
  | .set e m => Widened e ∧ m.description = none
  | .map k v m => Widened k ∧ Widened v ∧ m.description = none
  | .struct _ fs m => WidenedFields fs ∧ m.description = none
  | _ => False
def WidenedFields : List (Str × Ty) → Prop
  | [] => True
  | (_, t) :: fs => Widened t ∧ WidenedFields fs
end

end Spec
end Arti
