import Verif.Model.Lifecycle
import Verif.Model.ProducerClass
import Verif.Model.Views

/-!
# Producer objects and their outputs

(`src/arti/producers/__init__.py:309-338` and `373-415`, `src/arti/artifacts/__init__.py:80-116`)

The artifacts and producers are those of `Verif.Model.Graph`, the views those of
`Verif.Model.Views`.
-/

namespace Arti
namespace Out
open PyDict Views Typ

/-- What the code asks about artifacts. -/
structure Env where
  /-- class, type, format and storage of an artifact, as far as views look at them -/
  look : ArtInfo → Views.Art
  /-- `cls(type=type)` (`artifacts/__init__.py:40-90`), which raises if the class has further
  required fields or its format or storage reject the type -/
  make : ArtCls → Ty → Except Err ArtInfo
  io : Lookup

/-- A producer class that was accepted (`Verif.Model.ProducerClass`): `_arti_type_key_`, the input
fields, `_build_inputs_` and `_outputs_`.  There is one output view for each return hint
(`producers/__init__.py:207-213`). -/
structure Cls where
  key : Str
  fields : PyDict Str ArtCls
  buildInputs : PyDict Str View
  outputs : List View

variable (env : Env)

/-- Validation of one input: pydantic's `isinstance` check and `_validate_instance_artifact_args`
(`producers/__init__.py:309-315`). -/
def checkInput (c : Cls) (name : Str) (field : ArtCls) (a : Art) : Except Err Unit :=
  if (env.look a.info).cls.sub field then
    match get? c.buildInputs name with
    | some v => checkArtifact env.io v (env.look a.info)
    | none => .ok ()
  else .error .valueError

/-- The inputs in the order of the fields; a field without a value raises. -/
def inputsOf (c : Cls) (kwargs : PyDict Str Art) : PyDict Str ArtCls → Except Err Ins
  | [] => .ok .nil
  | (n, f) :: rest =>
    match get? kwargs n with
    | none => .error .valueError
    | some a => do
      checkInput env c n f a
      let ins ← inputsOf c kwargs rest
      .ok (.cons n a ins)

/-- `cls(**kwargs, version=version)`: every field is required and there are no others
(`internal/models.py:78-85`).  Pydantic collects the `ValueError`s of all fields; here the first
exception is raised.  `annotations` are not modelled. -/
def instantiate (c : Cls) (version : Str) (kwargs : PyDict Str Art) : Except Err Pdr :=
  if kwargs.any fun (n, _) => !contains c.fields n then .error .valueError
  else do
    let ins ← inputsOf env c kwargs c.fields
    .ok (.mk c.key version ins)

/-- What `Producer.out` returns: an artifact, or a tuple of several. -/
inductive Ret
  | one (a : Art)
  | tuple (as : List Art)

/-- `validate` (`producers/__init__.py:398-410`). -/
def validate (p : Pdr) (v : View) (ord : Nat) (a : Art) : Except Err Art := do
  checkArtifact env.io v (env.look a.info)
  match a with
  | .raw i => .ok (.made i p ord)
  | .made _ _ _ => .error .valueError

/-- `tuple(validate(artifact, ord=i) for i, artifact in enumerate(outputs))`, from `ord` on
(`producers/__init__.py:412`). -/
def validateAll (p : Pdr) : Nat → List View → List Art → Except Err (List Art)
  | ord, v :: vs, a :: as => do
    let b ← validate env p v ord a
    let bs ← validateAll p (ord + 1) vs as
    .ok (b :: bs)
  | _, _, _ => .ok []

/-- The default outputs (`producers/__init__.py:389-390`). -/
def defaults (vs : List View) : Except Err (List Art) :=
  Arti.PCls.mapE (fun (v : View) => do let i ← env.make v.art v.type; .ok (Art.raw i)) vs

/-- `len(outputs) == 1` (`producers/__init__.py:413-415`). -/
def ret : List Art → Ret
  | [a] => .one a
  | as => .tuple as

/-- `Producer.out` (`producers/__init__.py:384-415`). -/
def out (c : Cls) (p : Pdr) (outputs : List Art) : Except Err Ret := do
  let outputs ← if outputs.isEmpty then defaults env c.outputs else .ok outputs
  if outputs.length ≠ c.outputs.length then .error .valueError
  else do
    let outs ← validateAll env p 0 c.outputs outputs
    .ok (ret outs)

/-- `Producer.__iter__` (`producers/__init__.py:320-324`). -/
def iter (c : Cls) (p : Pdr) : Except Err (List Art) := do
  match ← out env c p [] with
  | .one a => .ok [a]
  | .tuple as => .ok as

/-- A value that is assigned to a graph: an artifact or a producer.  For other values see
`Verif.Model.Literals`. -/
inductive Value
  | artifact (a : Art)
  | producer (c : Cls) (p : Pdr)

/-- `Artifact.cast` (`artifacts/__init__.py:80-109`). -/
def cast : Value → Except Err Art
  | .artifact a => .ok a
  | .producer c p => do
    match ← out env c p [] with
    | .one a => .ok a
    | .tuple _ => .error .valueError

/-- `ArtifactBox._cast_value` (`graphs/__init__.py:56-78`) on such a value. -/
def boxCast (graph : Option (Str × PyDict Str Str)) (ns : List Str) (key : Str) (v : Value) :
    Except Err Art := do
  let a ← cast env v
  Life.castValue graph ns key a

end Out
end Arti
