import Verif.Model.Construct
import Verif.Spec.BigQuery
import Verif.Spec.Template
import Mathlib.Data.List.Forall2

/-!
# Specification: which artifacts can be made, and what they are
-/

namespace Arti
namespace Spec
open Typ

/-- The partition field classes and the types that they are for. -/
inductive PartitionedBy : Ty → FieldCls → Prop
  | date (m : Meta) : PartitionedBy (.scalar .date m) .date
  | int8 (m : Meta) : PartitionedBy (.scalar .int8 m) (.int .int8)
  | int16 (m : Meta) : PartitionedBy (.scalar .int16 m) (.int .int16)
  | int32 (m : Meta) : PartitionedBy (.scalar .int32 m) (.int .int32)
  | int64 (m : Meta) : PartitionedBy (.scalar .int64 m) (.int .int64)
  | null (m : Meta) : PartitionedBy (.scalar .null m) .null

/-- The names in order, each where it occurs first. -/
def firsts : List Str → List Str
  | [] => []
  | x :: xs => x :: (firsts xs).filter (· ≠ x)

/-- The key types of a type: the fields that a collection is partitioned by, each once, in order, with
the class for the type of the field; other types are not partitioned. -/
inductive KeyTypesOf : Ty → KeyTypes → Prop
  | plain {t : Ty} (h : ∀ n e p c m, t ≠ .collection n e p c m) : KeyTypesOf t []
  | collection {n sn : Str} {fs : List (Str × Ty)} {p c : List Str} {m sm : Meta} {kt : KeyTypes}
      (names : PyDict.keys kt = firsts p)
      (classes : ∀ x cls, (x, cls) ∈ kt → ∃ t, (x, t) ∈ fs ∧ PartitionedBy t cls) :
      KeyTypesOf (.collection n (.struct sn fs sm) p c m) kt

/-- A type that can be partitioned: each partition field is a date, a signed integer or null. -/
def Partitionable : Ty → Prop
  | .collection _ (.struct _ fs _) p _ _ => ∀ x ∈ p, ∃ t cls, (x, t) ∈ fs ∧ PartitionedBy t cls
  | .collection _ _ _ _ _ => False
  | _ => True

/-- A field of the storage of an artifact, given the field that the artifact was made with: texts are
resolved with the key types of the type and then with the extension of the format. -/
inductive FieldMade (kt : KeyTypes) (extension : Str) : Str × Option Str → Str × Option Str → Prop
  | other (n : Str) : FieldMade kt extension (n, none) (n, none)
  | text {n s s' : Str}
      (h : resolveAll s [Stg.typeValues kt, Stg.formatValues extension] = .ok s') :
      FieldMade kt extension (n, some s) (n, some s')

end Spec
end Arti
