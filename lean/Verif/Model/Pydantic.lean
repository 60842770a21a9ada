import Verif.Model.PythonTypes

/-!
# The pydantic type system (`src/arti/types/pydantic.py`)

The system extends the Python one with an adapter for structs.  A model class is an ordinary class
with `BaseModel` among its bases; a table says what each has as name and fields, and which class
`create_model` makes.  Defaults, validators and generic models are left out.
-/

namespace Arti
namespace Typ
open TH

/-- `pydantic.BaseModel`. -/
def baseModel : PyCls := .user 0 .object

/-- What pydantic knows: the `__name__` and the annotations in `model_fields` of a class, the classes
that `create_model` makes, and the field names it refuses (`model_config`, methods of `BaseModel` that
start with `model_`). -/
structure Models where
  info : PyCls → Str × List (Str × PyHint)
  make : Str → List (Str × PyHint) → Nat
  refused : Str → Bool

/-- Whether a field is ignored because its name starts with an underscore. -/
def hiddenName : Str → Bool
  | '_' :: _ => true
  | _ => false

variable (M : Models)

/-- `create_model(name, **{field: (hint, ...)})`: the class, or the error for a name that is refused.
Names with an underscore in front are private and do not become fields; a `None` annotation becomes
`type(None)`. -/
def createModel (name : Str) (fields : List (Str × PyHint)) : Except Err PyHint :=
  if fields.any fun f => M.refused f.1 then .error .valueError
  else .ok (.cls (.user (M.make name
    ((fields.filter fun f => !hiddenName f.1).map fun f => (f.1, fieldHint f.2))) baseModel))

/-- `BaseModelAdapter.to_system` (`types/pydantic.py:46-52`). -/
def pmStructS : Adapter Ty PyHint where
  key := "BaseModelAdapter".toList
  priority := 0
  accepts t _ := .ok t.isStruct
  convert root t h :=
    match t with
    | .struct name fields _ => do
      let fs ← convertFields (fun f => root f h) fields
      createModel M name fs
    | _ => .error .assertion

/-- `pydantic_type_system`, towards pydantic (`types/pydantic.py:12`). -/
def pmSys (ids : Ids) : TypeSystem Ty PyHint :=
  .mk "pydantic".toList [((pmStructS M).key, pmStructS M)] [pySys ids]

/-- `subtype.model_copy(update={"name": name})` for the types with a name
(`types/pydantic.py:24-26`). -/
def Ty.rename (name : Str) : Ty → Ty
  | .enum _ t i m => .enum name t i m
  | .struct _ fs m => .struct name fs m
  | .collection _ e p c m => .collection name e p c m
  | t => t

/-- The fields of a model (`types/pydantic.py:19-26` and `34-37`). -/
def modelFields (root : PyHint → Hints → Except Err Ty) (h : Hints) :
    List (Str × PyHint) → Except Err (List (Str × Ty))
  | [] => .ok []
  | (n, a) :: rest => do
    let t ← root a h
    let fs ← modelFields root h rest
    return (n, t.rename n) :: fs

/-- `BaseModelAdapter.to_artigraph` (`types/pydantic.py:28-38`); subscripted generic models are not
covered. -/
def pmConvert (root : PyHint → Hints → Except Err Ty) (x : PyHint) (h : Hints) : Except Err Ty :=
  match x with
  | .cls c => do
    let fs ← modelFields root h (M.info c).2
    return .struct (M.info c).1 fs {}
  | _ => .error .unsupported

/-- `BaseModelAdapter` (`types/pydantic.py:28-42`). -/
def pmStructA : Adapter PyHint Ty where
  key := "BaseModelAdapter".toList
  priority := 0
  accepts x _ := lenient PyCls.hier x (.cls baseModel)
  convert root x h := pmConvert M root x h

/-- `pydantic_type_system`, towards artigraph. -/
def pmArti (ids : Ids) : TypeSystem PyHint Ty :=
  .mk "pydantic".toList [((pmStructA M).key, pmStructA M)] [pyArti ids]

/-- `pydantic_type_system.to_system(t, hints=h)`. -/
def pmToSystem (ids : Ids) (t : Ty) (h : Hints) : Except Err PyHint :=
  run (pmSys M ids) (2 * t.size) t h

/-- `pydantic_type_system.to_artigraph(x, hints=h)` with a recursion limit: the fields of a class may
refer to the class. -/
def pmToArtigraph (ids : Ids) (limit : Nat) (x : PyHint) (h : Hints) : Except Err Ty :=
  run (pmArti M ids) limit x h

end Typ
end Arti
