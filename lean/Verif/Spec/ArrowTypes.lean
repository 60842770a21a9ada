import Verif.Model.Types

/-!
# Specification: what the Arrow type system supports, and what a round trip forgets
-/

namespace Arti
namespace Spec
open Typ

mutual
/-- The types that have an Arrow data type: no enums, sets, geographies or (nested) collections. -/
def ArrowData : Ty → Prop
  | .scalar _ _ => True
  | .binary size _ => ∀ i, size = some i → 0 ≤ i
  | .dateTime _ _ => True
  | .time _ _ => True
  | .timestamp _ _ => True
  | .list e _ => ArrowData e
  | .map k v _ => ArrowData k ∧ ArrowData v
  | .struct _ fs _ => ArrowFields fs
  | _ => False
def ArrowFields : List (Str × Ty) → Prop
  | [] => True
  | (_, t) :: fs => ArrowData t ∧ ArrowFields fs
end

/-- The types that have an Arrow counterpart: data types, and at the root collections of structs whose
partition and cluster fields exist and are disjoint (as `Collection` demands). -/
def ArrowSupported : Ty → Prop
  | .collection _ (.struct _ fs _) p c _ =>
      ArrowFields fs ∧ (∀ x ∈ p, x ∈ fs.map Prod.fst) ∧ (∀ x ∈ c, x ∈ fs.map Prod.fst) ∧
        ∀ x ∈ c, x ∉ p
  | t => ArrowData t

mutual
/-- What Arrow carries: everything but descriptions, the names of structs, and `nullable` outside of
struct fields. -/
def arrowForget : Ty → Ty
  | .scalar s _ => .scalar s {}
  | .binary n _ => .binary n {}
  | .dateTime p _ => .dateTime p {}
  | .time p _ => .time p {}
  | .timestamp p _ => .timestamp p {}
  | .list e _ => .list (arrowForget e) {}
  | .map k v _ => .map (arrowForget k) (arrowForget v) {}
  | .struct _ fs _ => .struct anon (arrowForgetFields fs) {}
  | .collection n e p c _ => .collection n (arrowForget e) p c {}
  | t => t
/-- The fields of a struct keep `nullable`. -/
def arrowForgetFields : List (Str × Ty) → List (Str × Ty)
  | [] => []
  | (n, t) :: fs => (n, (arrowForget t).setNullable t.nullable) :: arrowForgetFields fs
end

mutual
/-- The types that Arrow carries completely, apart from their own `nullable`. -/
def ArrowExact : Ty → Prop
  | .scalar _ m => m.description = none
  | .binary _ m => m.description = none
  | .dateTime _ m => m.description = none
  | .time _ m => m.description = none
  | .timestamp _ m => m.description = none
  | .list e m => (ArrowExact e ∧ e.nullable = false) ∧ m.description = none
  | .map k v m => (ArrowExact k ∧ k.nullable = false) ∧ (ArrowExact v ∧ v.nullable = false) ∧
      m.description = none
  | .struct n fs m => n = anon ∧ ArrowExactFields fs ∧ m.description = none
  | .collection _ e _ _ m => (ArrowExact e ∧ e.nullable = false) ∧ m.description = none
  | _ => False
/-- The fields of a struct may be nullable. -/
def ArrowExactFields : List (Str × Ty) → Prop
  | [] => True
  | (_, t) :: fs => ArrowExact t ∧ ArrowExactFields fs
end

end Spec
end Arti
