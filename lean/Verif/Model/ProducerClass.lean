import Verif.Model.World
import Verif.Model.FrozenDict

/-!
# Validation of producer classes (`src/arti/producers/__init__.py:56-307`)

Type hints are values of an arbitrary type `H`; what the code asks about them (`type_hints.py`,
`views/__init__.py`) is an argument, so the theorems hold whatever the answers are.  Classes have
one base class.  Hints that cannot be evaluated (`get_type_hints` raising `NameError`) are not
modelled.
-/

namespace Arti
namespace PCls
open PyDict

/-- The part of a `View` instance that is looked at: the artifact class, and the partition fields
with their types (`none` if the type is no `Collection`). -/
structure Vw (H : Type) where
  cls : H
  fields : Option (PyDict Str Nat)

/-- What the code asks about hints. -/
structure Hints (H : Type) where
  /-- `is_optional_hint` -/
  optional : H → Bool
  /-- `lenient_issubclass(hint, Artifact)` -/
  isArtifact : H → Bool
  /-- `View.from_annotation(hint, mode="READ")`, with the class of the field as default artifact
  class (`producers/__init__.py:172-176`) -/
  readView : H → H → Except Err (Vw H)
  /-- `View.from_annotation(hint, mode="WRITE")` -/
  writeView : H → Except Err (Vw H)
  /-- `_tidy_return(..., force_tuple_return=True)` (`internal/type_hints.py:180-185`) -/
  tuple : H → List H
  /-- `hint is NoneType` -/
  isNone : H → Bool
  /-- `StoragePartitions` and `StoragePartitionSnapshots` (`storage/__init__.py`) -/
  partitions : H
  snapshots : H
  /-- `lenient_issubclass(sub, sup)` after dropping `Annotated` of `sub` -/
  sub : H → H → Bool
  /-- `PartitionField._by_type_` (`partitions/__init__.py:53-55`) -/
  fieldClass : Nat → Option Nat

/-- `inspect.Parameter.kind`. -/
inductive PKind
  | posOnly | posOrKw | varPos | kwOnly | varKw
  deriving DecidableEq, Repr

/-- `inspect.Parameter`; `hint` is `none` for `Parameter.empty`. -/
structure Param (H : Type) where
  name : Str
  hint : Option H
  hasDefault : Bool
  kind : PKind
  deriving DecidableEq, Repr

/-- A function that is an attribute of a class: its parameters as `inspect.signature` gives them,
the return hint, and whether it is a classmethod or staticmethod. -/
structure Fn (H : Type) where
  params : List (Param H)
  ret : Option H
  bound : Bool

/-- The parameters of `signature(fn, remove_owner=True)` (`internal/type_hints.py:198-203`): those
called `cls` or `self` are dropped. -/
def Fn.sig {H : Type} (f : Fn H) : List (Param H) :=
  f.params.filter fun p => !(["cls".toList, "self".toList].contains p.name)

/-- The attribute `map`: written by the user, or generated for the given inputs
(`producers/__init__.py:280-293`). -/
inductive MapAttr (H : Type)
  | user (f : Fn H)
  | gen (names : List Str)

/-- A field of the class (`FieldInfo`). -/
structure FieldDef (H : Type) where
  hint : H
  required : Bool

/-- The attributes of a class, inherited ones included.  `fields` are those that `Producer` does not
have. -/
structure Attrs (H : Type) where
  abstract : Bool
  fields : PyDict Str (FieldDef H)
  build : Option (Fn H)
  validate : Fn H
  map : Option (MapAttr H)

/-- The attributes that are set by `__pydantic_init_subclass__`
(`producers/__init__.py:98-104`). -/
structure Derived (H : Type) where
  inputs : PyDict Str H
  buildSig : List (Param H)
  buildInputs : PyDict Str (Vw H)
  outputs : List (Vw H)
  mapSig : List (Param H)
  mapInputs : List Str

/-- A class that was accepted.  Abstract classes are not validated. -/
structure Cls (H : Type) where
  attrs : Attrs H
  derived : Option (Derived H)

variable {H : Type} [DecidableEq H] (env : Hints H)

/-- A list of results, or the first exception. -/
def mapE {α β : Type} (f : α → Except Err β) : List α → Except Err (List β)
  | [] => .ok []
  | a :: as => do
    let b ← f a
    let bs ← mapE f as
    .ok (b :: bs)

/-- One field (`producers/__init__.py:137-145`). -/
def checkField (f : FieldDef H) : Except Err Unit :=
  if env.optional f.hint then .error .valueError
  else if !f.required then .error .valueError
  else if !env.isArtifact f.hint then .error .valueError
  else .ok ()

/-- `_validate_fields` (`producers/__init__.py:126-150`). -/
def validateFields (fields : PyDict Str (FieldDef H)) : Except Err (PyDict Str H) := do
  let _ ← mapE (fun (kv : Str × FieldDef H) => checkField env kv.2) fields
  .ok (fields.map fun (n, f) => (n, f.hint))

/-- One parameter (`producers/__init__.py:160-168`). -/
def checkParam {β : Type} (validator : Str → H → Except Err β) (p : Param H) : Except Err β :=
  match p.hint with
  | none => .error .valueError
  | some h =>
    if p.hasDefault then .error .valueError
    else if p.kind = .posOrKw ∨ p.kind = .kwOnly then validator p.name h
    else .error .valueError

/-- `_validate_parameters` (`producers/__init__.py:152-168`). -/
def validateParams {β : Type} (inputs : PyDict Str H) (sig : List (Param H))
    (validator : Str → H → Except Err β) : Except Err (List β) :=
  if sig.any fun p => !contains inputs p.name then .error .valueError
  else mapE (checkParam validator) sig

/-- `_validate_build_param` (`producers/__init__.py:170-182`). -/
def buildParam (inputs : PyDict Str H) (name : Str) (h : H) : Except Err (Str × Vw H) :=
  match get? inputs name with
  | none => .error .keyError
  | some field => do
    let view ← env.readView h field
    if view.cls = field then .ok (name, view) else .error .valueError

/-- The dict comprehension in `PartitionKey.types_from` (`partitions/__init__.py:67-72`). -/
def fieldClasses : PyDict Str Nat → Except Err (PyDict Str Nat)
  | [] => .ok []
  | (n, t) :: rest =>
    match env.fieldClass t with
    | none => .error .keyError
    | some c => do
      let r ← fieldClasses rest
      .ok ((n, c) :: r)

/-- `PartitionKey.types_from(view.type)` (`partitions/__init__.py:63-72`). -/
def keyTypes (v : Vw H) : Except Err (PyDict Str Nat) :=
  match v.fields with
  | none => .ok []
  | some fs => fieldClasses env fs

/-- `is_partitioned(view.type)` (`types/__init__.py:21-23`). -/
def isPartitioned (v : Vw H) : Bool :=
  match v.fields with
  | none => false
  | some fs => !fs.isEmpty

/-- `len(seen_key_types) != 1` (`producers/__init__.py:216-218`): no outputs or different ones. -/
def sameScheme : List (PyDict Str Nat) → Bool
  | [] => false
  | k :: ks => ks.all fun k' => fdEq k k'

/-- `_validate_build_sig` (`producers/__init__.py:189-221`).  The second component of the result is
the return hints. -/
def validateBuild (inputs : PyDict Str H) (build : Option (Fn H)) :
    Except Err (List (Param H) × List H × PyDict Str (Vw H) × List (Vw H)) :=
  match build with
  | none => .error .valueError
  | some f =>
    if !f.bound then .error .valueError
    else do
      let items ← validateParams inputs f.sig (buildParam env inputs)
      match f.ret with
      | none => .error .valueError
      | some r =>
        let hints := env.tuple r
        if hints.length = 1 ∧ hints.all env.isNone then .error .valueError
        else do
          let outputs ← mapE env.writeView hints
          let keys ← mapE (keyTypes env) outputs
          if sameScheme keys then .ok (f.sig, hints, ofItems items, outputs) else .error .valueError

/-- `param_matches` (`producers/__init__.py:232-241`). -/
def paramMatches (p : Param H) (out : H) : Bool :=
  match p.hint with
  | none => true
  | some h => env.sub out h

/-- One parameter of `validate_outputs` (`producers/__init__.py:254-262`). -/
def validateParam (p : Param H) (out : H) : Except Err Unit :=
  if p.hasDefault then .error .valueError
  else if p.kind = .posOnly ∨ p.kind = .posOrKw then
    if paramMatches env p out then .ok () else .error .valueError
  else .error .valueError

/-- `_validate_validate_output_sig` (`producers/__init__.py:223-262`). -/
def validateValidate (hints : List H) (validate : Fn H) : Except Err Unit :=
  let pairwise :=
    if validate.sig.length = hints.length then do
      let _ ← mapE (fun (ph : Param H × H) => validateParam env ph.1 ph.2) (validate.sig.zip hints)
      .ok ()
    else .error .valueError
  match validate.sig with
  | [p] =>
    if p.kind = .varPos then
      if hints.all (paramMatches env p) then .ok () else .error .valueError
    else pairwise
  | _ => pairwise

/-- `_validate_map_param` (`producers/__init__.py:264-269`). -/
def mapParam (name : Str) (h : H) : Except Err Str :=
  if h = env.partitions then .ok name else .error .valueError

/-- The parameters of `signature(cls.map)`.  The generated function has the hints of
`def map(**kwargs: StoragePartitionSnapshots)`, which `tidy_signature` prefers to those of the
narrowed signature for a parameter that is called `kwargs`. -/
def MapAttr.sig : MapAttr H → List (Param H)
  | .user f => f.sig
  | .gen names =>
    (names.map fun n => ⟨n, some (if n = "kwargs".toList then env.snapshots else env.partitions),
      false, .kwOnly⟩).filter fun p => !(["cls".toList, "self".toList].contains p.name)

/-- Whether the attribute is a classmethod or staticmethod. -/
def MapAttr.bound : MapAttr H → Bool
  | .user f => f.bound
  | .gen _ => true

/-- The first part of `_validate_map_sig` (`producers/__init__.py:272-293`): the attribute `map`,
generated if there is none. -/
def chooseMap (inputs : PyDict Str H) (buildInputs : PyDict Str (Vw H)) (outputs : List (Vw H))
    (map : Option (MapAttr H)) : Except Err (MapAttr H) :=
  match map with
  | some m => .ok m
  | none =>
    if outputs.any isPartitioned then .error .valueError
    else .ok (.gen ((keys inputs).filter fun n => contains buildInputs n))

/-- `_validate_map_sig` (`producers/__init__.py:271-298`). -/
def validateMap (inputs : PyDict Str H) (buildInputs : PyDict Str (Vw H)) (outputs : List (Vw H))
    (map : Option (MapAttr H)) : Except Err (MapAttr H × List (Param H) × List Str) := do
  let m ← chooseMap inputs buildInputs outputs map
  if !m.bound then .error .valueError
  else do
    let names ← validateParams inputs (m.sig env) (mapParam env)
    .ok (m, m.sig env, names)

/-- `_validate_no_unused_fields` (`producers/__init__.py:300-307`). -/
def noUnusedFields (inputs : PyDict Str H) (buildSig mapSig : List (Param H)) : Except Err Unit :=
  if (keys inputs).all fun n => (buildSig.map (·.name)).contains n || (mapSig.map (·.name)).contains n
  then .ok () else .error .valueError

/-- `__pydantic_init_subclass__` (`producers/__init__.py:106-124`); `inherited` are the values of
the internal attributes that an abstract class keeps. -/
def initSubclass (a : Attrs H) (inherited : Option (Derived H)) : Except Err (Cls H) :=
  if a.abstract then .ok ⟨a, inherited⟩
  else do
    let inputs ← validateFields env a.fields
    let (buildSig, hints, buildInputs, outputs) ← validateBuild env inputs a.build
    validateValidate env hints a.validate
    let (m, mapSig, mapInputs) ← validateMap env inputs buildInputs outputs a.map
    noUnusedFields inputs buildSig mapSig
    .ok ⟨{ a with map := some m }, some ⟨inputs, buildSig, buildInputs, outputs, mapSig, mapInputs⟩⟩

/-! ## Class definitions -/

/-- The body of a class statement. -/
structure Def (H : Type) where
  abstract : Bool
  fields : PyDict Str (FieldDef H)
  build : Option (Fn H)
  validate : Option (Fn H)
  map : Option (Fn H)

/-- `Producer` itself (`producers/__init__.py:56-104`), which is abstract.  `anyHint` is `Any`. -/
def base (anyHint : H) : Cls H :=
  ⟨⟨true, [], none, ⟨[⟨"outputs".toList, some anyHint, false, .varPos⟩], none, true⟩, none⟩, none⟩

/-- The attributes of a subclass: its own, or those of the base class.  `_abstract_` is not
inherited (`internal/models.py:92`). -/
def inherit (parent : Attrs H) (d : Def H) : Attrs H where
  abstract := d.abstract
  fields := merge parent.fields d.fields
  build := d.build.or parent.build
  validate := d.validate.getD parent.validate
  map := (d.map.map MapAttr.user).or parent.map

/-- `class X(parent): ...`. -/
def subclass (parent : Cls H) (d : Def H) : Except Err (Cls H) :=
  initSubclass env (inherit parent.attrs d) parent.derived

/-- A chain of class statements, each a subclass of the one before. -/
def define (parent : Cls H) : List (Def H) → Except Err (Cls H)
  | [] => .ok parent
  | d :: ds => do
    let c ← subclass env parent d
    define c ds

/-- Calling `cls.map(**kwargs)`; functions of the user are arbitrary.  The generated function returns
`{NotPartitioned: kwargs}` (`producers/__init__.py:280-281`). -/
def callMap {κ σ : Type} (npKey : κ)
    (user : Fn H → List (Str × σ) → Except Err (List (κ × List (Str × σ)))) :
    MapAttr H → List (Str × σ) → Except Err (List (κ × List (Str × σ)))
  | .user f, kwargs => user f kwargs
  | .gen _, kwargs => .ok [(npKey, kwargs)]

end PCls
end Arti
