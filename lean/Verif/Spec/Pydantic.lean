import Verif.Model.Pydantic
import Verif.Spec.PythonTypes

/-!
# Specification: what the pydantic type system supports, and what a round trip yields
-/

namespace Arti
namespace Spec
open Typ TH

/-- What `create_model` makes has the name and the fields it was given, and distinct models are
distinct classes. -/
def LawfulModels (M : Models) : Prop :=
  ∀ name fields, M.info (.user (M.make name fields) baseModel) = (name, fields)

mutual
/-- The types with a pydantic counterpart: those with a Python hint, where no field has a name that
pydantic refuses. -/
def ModelSupported (M : Models) : Ty → Prop
  | .scalar s m => hasPythonScalar s = true ∧ (s = .null → m.nullable = false)
  | .binary _ _ => True
  | .timestamp _ _ => True
  | .enum _ t items _ =>
      items ≠ [] ∧ items.Nodup ∧ ∃ c, valueClass t = some c ∧ ∀ x ∈ items, x.cls = c
  | .list e _ => ModelSupported M e
  | .set e _ => ModelSupported M e
  | .map k v _ => ModelSupported M k ∧ ModelSupported M v
  | .struct _ fs _ => ModelSupportedFields M fs
  | .collection _ e _ _ _ => ModelSupported M e
  | _ => False
/-- The fields of a struct. -/
def ModelSupportedFields (M : Models) : List (Str × Ty) → Prop
  | [] => True
  | (n, t) :: fs =>
      (ModelSupported M t ∧ t.isScalar .null = false ∧ M.refused n = false) ∧ ModelSupportedFields M fs
end

mutual
/-- What a round trip through pydantic yields: the widening of Python hints; structs are not nullable
anymore, their fields with a leading underscore are gone, and enums and structs that are fields get
the name of the field. -/
def modelWiden : Ty → Ty
  | .list e m => .list (modelWiden e) (bareMeta m)
  | .set e m => .set (modelWiden e) (bareMeta m)
  | .map k v m => .map (modelWiden k) (modelWiden v) (bareMeta m)
  | .struct n fs _ => .struct n (modelWidenFields fs) {}
  | .collection _ e _ _ m => .list (modelWiden e) (bareMeta m)
  | t => widen t
def modelWidenFields : List (Str × Ty) → List (Str × Ty)
  | [] => []
  | (n, t) :: fs =>
    if hiddenName n then modelWidenFields fs
    else (n, (modelWiden t).rename n) :: modelWidenFields fs
end

mutual
/-- The types that pydantic models can express exactly: those that Python hints can, without nullable
structs and fields with a leading underscore, and with fields named as their enum or struct. -/
def ModelExact : Ty → Prop
  | .list e m => ModelExact e ∧ m.description = none
  | .set e m => ModelExact e ∧ m.description = none
  | .map k v m => ModelExact k ∧ ModelExact v ∧ m.description = none
  | .struct _ fs m => ModelExactFields fs ∧ m = {}
  | .enum name t _ m => name = anon ∧ Widened t ∧ t.nullable = false ∧ m.description = none
  | t => Widened t
def ModelExactFields : List (Str × Ty) → Prop
  | [] => True
  | (n, t) :: fs => hiddenName n = false ∧ ModelExactField n t ∧ ModelExactFields fs
def ModelExactField (n : Str) : Ty → Prop
  | .enum name t _ m => name = n ∧ Widened t ∧ t.nullable = false ∧ m.description = none
  | .struct name fs m => name = n ∧ ModelExactFields fs ∧ m = {}
  | t => ModelExact t
end

end Spec
end Arti
