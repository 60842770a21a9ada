import Verif.Model.ArrowTypes
import Verif.Model.Storage

/-!
# Making artifacts (`src/arti/artifacts/__init__.py`, `formats/__init__.py`, `storage/__init__.py`)

Pydantic's part is modelled from its documentation: fields are validated in the order of their
declaration; an error of class `ValueError` or `AssertionError` in a validator is collected, the field
is then absent for the validators that follow, and a `ValidationError` (a `ValueError`) is raised at
the end; errors of other classes are raised at once.  The arguments are of the right classes.
-/

namespace Arti
namespace Make
open PyDict Typ Stg

/-- `PartitionField.get_class_for` (`partitions/__init__.py:52-53`) with the classes that are
registered under exactly the class of the type (`partitions/__init__.py:77-144`). -/
def classFor : Ty → Except Err FieldCls
  | .scalar .date _ => .ok .date
  | .scalar .int8 _ => .ok (.int .int8)
  | .scalar .int16 _ => .ok (.int .int16)
  | .scalar .int32 _ => .ok (.int .int32)
  | .scalar .int64 _ => .ok (.int .int64)
  | .scalar .null _ => .ok .null
  | _ => .error .keyError

/-- The items of `Collection.partition_fields` (`types/__init__.py:211-213`). -/
def partitionItems (fields : List (Str × Ty)) : List Str → Except Err (List (Str × Ty))
  | [] => .ok []
  | n :: ns =>
    match get? fields n with
    | none => .error .keyError
    | some t => do
      let rest ← partitionItems fields ns
      return (n, t) :: rest

/-- The dict comprehension of `types_from`. -/
def classItems : List (Str × Ty) → Except Err KeyTypes
  | [] => .ok []
  | (n, t) :: rest => do
    let c ← classFor t
    let rest ← classItems rest
    return (n, c) :: rest

/-- `PartitionKey.types_from` (`partitions/__init__.py:62-71`). -/
def typesFrom (t : Ty) : Except Err KeyTypes :=
  match t with
  | .collection _ (.struct _ fields _) p _ _ => do
    let items ← partitionItems fields p
    classItems (ofItems items)
  | .collection _ _ _ _ _ => .error .attributeError
  | _ => .ok []

/-- A storage: its fields in the order of the class, `none` for a value that is not a string, and
`_key_types`. -/
structure Storage where
  fields : List (Str × Option Str)
  keyTypes : Option KeyTypes
  deriving DecidableEq, Repr

/-- The fields of `Storage.resolve` (`storage/__init__.py:237-246`). -/
def resolveFields (values : List (Str × Str)) :
    List (Str × Option Str) → Except Err (List (Str × Option Str))
  | [] => .ok []
  | (n, none) :: rest => do
    let rest ← resolveFields values rest
    return (n, none) :: rest
  | (n, some s) :: rest => do
    let s ← resolveField values s
    let rest ← resolveFields values rest
    return (n, some s) :: rest

/-- `Storage.resolve` (`storage/__init__.py:237-246`). -/
def Storage.resolve (s : Storage) (values : List (Str × Str)) : Except Err Storage := do
  let fields ← resolveFields values s.fields
  return { s with fields }

/-- `Storage._visit_type` (`storage/__init__.py:124-138`); the separators are the default ones. -/
def Storage.visitType (s : Storage) (t : Ty) : Except Err Storage := do
  let kt ← typesFrom t
  { s with keyTypes := some kt }.resolve (typeValues kt)

/-- `Storage._visit_format` (`storage/__init__.py:140-141`). -/
def Storage.visitFormat (s : Storage) (extension : Str) : Except Err Storage :=
  s.resolve (formatValues extension)

/-- A `Format`: whether its type system converts a type (`formats/__init__.py:23-26`), and its
extension. -/
structure Format where
  accepts : Ty → Except Err Unit
  extension : Str

/-- An `Artifact` class: the defaults of `annotations` and `statistics`. -/
structure Cls (A S : Type) where
  annotations : List A
  statistics : List S

structure Artifact (A S : Type) where
  type : Ty
  format : Format
  storage : Storage
  annotations : List A
  statistics : List S

/-- The outcome of a validator: `none` if the error is collected. -/
def collected {α : Type} : Except Err α → Except Err (Option α)
  | .ok a => .ok (some a)
  | .error .valueError => .ok none
  | .error .assertion => .ok none
  | .error e => .error e

/-- `_validate_format` (`artifacts/__init__.py:58-63`). -/
def validateFormat (t : Ty) (f : Format) : Except Err Format := do
  f.accepts t
  return f

/-- `_validate_storage` (`artifacts/__init__.py:65-72`); the format is absent if it was not valid. -/
def validateStorage (t : Ty) (f : Option Format) (s : Storage) : Except Err Storage := do
  let s ← s.visitType t
  match f with
  | some f => s.visitFormat f.extension
  | none => return s

/-- `_merge_class_defaults` (`artifacts/__init__.py:74-78`); the default value is validated too
(`validate_default=True`), so that it goes through the validator when the argument is left out. -/
def merged {α : Type} (default : List α) (given : Option (List α)) : List α :=
  default ++ given.getD default

/-- `cls(type=..., format=..., storage=..., annotations=..., statistics=...)`
(`artifacts/__init__.py:24-78`). -/
def make {A S : Type} (c : Cls A S) (t : Ty) (f : Format) (s : Storage)
    (annotations : Option (List A)) (statistics : Option (List S)) :
    Except Err (Artifact A S) := do
  let f ← collected (validateFormat t f)
  let s ← collected (validateStorage t f s)
  match f, s with
  | some f, some s =>
    return ⟨t, f, s, merged c.annotations annotations, merged c.statistics statistics⟩
  | _, _ => .error .valueError

end Make
end Arti
