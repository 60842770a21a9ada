import Verif.Model.PythonTypes

/-!
# Views (`src/arti/views/__init__.py`, `src/arti/views/python.py`)

A view is how an artifact looks in memory.  Artifact and view classes are nominal: a `uid` and the
`uid`s of their base classes.  Only calls on the base class `View` are modelled
(`View.get_class_for`, `View.from_annotation`), which are the ones the package makes.
-/

namespace Arti
namespace Views
open TH Typ

/-! ## Equality of types -/

/-- Equality of two `frozenset`s of literal values. -/
def sameItems (a b : List Lit) : Bool :=
  a.all (fun x => b.any (Lit.pyEq x)) && b.all (fun y => a.any (Lit.pyEq y))

mutual
/-- `==` on `Type`s: pydantic compares the class and the fields (`types/__init__.py:27-276`).  The
fields of a `Struct` are a `frozendict` and the items of an `Enum` a `frozenset`, so their order
does not matter. -/
def tyEq : Ty → Ty → Bool
  | .scalar s m, .scalar s' m' => s = s' && m = m'
  | .binary s m, .binary s' m' => s = s' && m = m'
  | .geography f s m, .geography f' s' m' => f = f' && s = s' && m = m'
  | .dateTime p m, .dateTime p' m' => p = p' && m = m'
  | .time p m, .time p' m' => p = p' && m = m'
  | .timestamp p m, .timestamp p' m' => p = p' && m = m'
  | .enum n t i m, .enum n' t' i' m' => n = n' && tyEq t t' && sameItems i i' && m = m'
  | .list e m, .list e' m' => tyEq e e' && m = m'
  | .set e m, .set e' m' => tyEq e e' && m = m'
  | .map k v m, .map k' v' m' => tyEq k k' && tyEq v v' && m = m'
  | .struct n fs m, .struct n' fs' m' =>
      n = n' && fs.length = fs'.length && tyEqFields fs fs' && m = m'
  | .collection n e p c m, .collection n' e' p' c' m' =>
      n = n' && tyEq e e' && p = p' && c = c' && m = m'
  | _, _ => false
/-- Every field of the first mapping is in the second one, with an equal type. -/
def tyEqFields : List (Str × Ty) → List (Str × Ty) → Bool
  | [], _ => true
  | (n, t) :: fs, gs =>
    (match PyDict.get? gs n with
     | some u => tyEq t u
     | none => false) && tyEqFields fs gs
end

/-! ## Classes and annotations -/

/-- An `Artifact` class (`artifacts/__init__.py:24-62`): `dflt` is `get_field_default(cls, "type",
fallback=None)`. -/
structure ArtCls where
  uid : Nat
  bases : List Nat := []
  dflt : Option Ty := none

/-- `issubclass` on artifact classes. -/
def ArtCls.sub (a b : ArtCls) : Bool := a.uid == b.uid || a.bases.contains b.uid

/-- A `View` class (`views/__init__.py:20-42`): `pythonType = none` is `python_type = None`, and
`toSystem` is `type_system.to_system(..., hints={})`. -/
structure ViewCls where
  uid : Nat
  bases : List Nat := []
  abstract : Bool := false
  priority : Int := 0
  pythonType : Option PyCls
  artifactClass : ArtCls
  toSystem : Ty → Except Err PyHint

/-- An entry of `Annotated[hint, ...]`. -/
inductive Item
  /-- a `View` class -/
  | view (v : ViewCls)
  /-- an `Artifact` class -/
  | art (a : ArtCls)
  /-- a `Type` object -/
  | type (t : Ty)
  /-- anything else -/
  | other

def Item.view? : Item → Option ViewCls
  | .view v => some v
  | _ => none
def Item.art? : Item → Option ArtCls
  | .art a => some a
  | _ => none
def Item.type? : Item → Option Ty
  | .type t => some t
  | _ => none

/-- An annotation: `hint` alone if there are no `items`, else `Annotated[hint, *items]`.  The `hint`
is never an `.annotated` (nested `Annotated` are flattened). -/
structure Ann where
  hint : PyHint
  items : List Item := []

/-- `get_item_from_annotated` (`type_hints.py:130-142`) with `one_or_none` (`internal/utils.py:
213-218`); `pick` selects the entries of the wanted kind. -/
def getItem {α : Type} (ann : Ann) (pick : Item → Option α) : Except Err (Option α) :=
  oneOrNone (some ((ann.items.filterMap pick).map some)) none

inductive Mode
  | read | write | readWrite
  deriving DecidableEq, Repr

/-- A `View` object (`views/__init__.py:33-35`). -/
structure View where
  cls : ViewCls
  mode : Mode
  art : ArtCls
  type : Ty

/-- `_by_python_type_` (`views/__init__.py:27`). -/
abbrev Registry := PyDict (Option PyCls) ViewCls

/-- `__pydantic_init_subclass__` of successive view classes (`views/__init__.py:37-41`): abstract
classes are not registered. -/
def registerViews (reg : Registry) (vs : List ViewCls) : Except Err Registry :=
  registerAll reg (some fun v => v.priority)
    ((vs.filter fun v => !v.abstract).map fun v => (v.pythonType, v))

/-! ## Construction -/

/-- `_check_type_compatibility` (`views/__init__.py:43-55`). -/
def checkType (viewType artifactType : Ty) : Except Err Unit :=
  if tyEq viewType artifactType then .ok () else .error .valueError

/-- Instantiating a view class (`internal/models.py:125-128` for abstract classes, and
`_validate_type`, `views/__init__.py:57-66`). -/
def mkView (v : ViewCls) (mode : Mode) (art : ArtCls) (t : Ty) : Except Err View :=
  if v.abstract then .error .typeError
  else do
    match art.dflt with
    | some d => checkType t d
    | none => .ok ()
    return { cls := v, mode := mode, art := art, type := t }

variable (ids : Ids)

/-- The type of `_get_kwargs_from_annotation` (`views/__init__.py:75-86`). -/
def typeFrom (art : ArtCls) (ann : Ann) : Except Err Ty := do
  let t ← getItem ann Item.type?
  match t with
  | some t => return t
  | none =>
    match art.dflt with
    | some d => return d
    | none => pyToArtigraph ids ann.hint

/-- `_get_kwargs_from_annotation` (`views/__init__.py:68-89`). -/
def kwargsFrom (v : ViewCls) (ann : Ann) : Except Err (ArtCls × Ty) := do
  let a ← getItem ann Item.art?
  let art := a.getD v.artifactClass
  let t ← typeFrom ids art ann
  return (art, t)

/-- The key of a hint in the registry, which holds classes and `None`: `none` if it can have none.
A `TypedDict` class could be registered too, which is not modelled. -/
def hintKey : PyHint → Option (Option PyCls)
  | .none => some none
  | .cls c => some (some c)
  | _ => none

/-- The key of `get_origin(hint)`, if it is a class. -/
def originKey (h : PyHint) : Option (Option PyCls) :=
  match getOrigin PyCls.hier h with
  | some (.cls c) => some (some c)
  | _ => none

/-- `registry.get(key)`. -/
def find (reg : Registry) (k : Option (Option PyCls)) : Option ViewCls :=
  match k with
  | some k => PyDict.get? reg k
  | none => none

/-- `View.get_class_for` (`views/__init__.py:91-110`). -/
def getClassFor (reg : Registry) (ann : Ann) : Except Err ViewCls := do
  let v ← getItem ann Item.view?
  match v with
  | some v => return v
  | none =>
    match find reg (hintKey ann.hint) with
    | some v => return v
    | none =>
      match find reg (originKey ann.hint) with
      | some v => return v
      | none => .error .valueError

/-- `type(hint)`.  The classes of hint objects are not among the builtin classes of the model; they
are represented by reserved classes with base `object`. -/
def metaOf : PyHint → PyCls
  | .none => .noneType
  | .unionT _ _ => .unionType
  /- `type` -/
  | .cls _ => .user 0 .object
  /- `typing._AnyMeta` -/
  | .any => .user 1 (.user 0 .object)
  /- `typing._TypedDictMeta` -/
  | .tdict _ _ _ => .user 2 (.user 0 .object)
  /- `types.EllipsisType` -/
  | .ellipsis => .user 3 .object
  /- `types.GenericAlias` -/
  | .gen _ _ _ => .user 4 .object
  /- `typing._GenericAlias` -/
  | .tgen _ _ _ => .user 5 .object
  /- `typing._UnionGenericAlias` -/
  | .union _ _ => .user 6 (.user 5 .object)
  /- `typing._LiteralGenericAlias` -/
  | .literal _ _ => .user 7 (.user 5 .object)
  /- `typing.TypeVar` -/
  | .tvar _ => .user 8 .object
  | .tvarB _ _ => .user 8 .object
  /- `typing._AnnotatedAlias` -/
  | .annotated _ _ => .user 9 (.user 5 .object)

/-- `check_annotation_compatibility` (`views/__init__.py:119-128`); `hint` is the annotation without
`Annotated`. -/
def checkAnnotation (v : View) (hint : PyHint) : Except Err Unit := do
  let sys ← v.cls.toSystem v.type
  let b ← lenient PyCls.hier sys hint
  if b then return ()
  else do
    let b ← lenient PyCls.hier (.cls (metaOf sys)) hint
    if b then return () else .error .valueError

/-- `View.from_annotation` (`views/__init__.py:112-117`). -/
def fromAnnotation (reg : Registry) (ann : Ann) (mode : Mode) : Except Err View := do
  let c ← getClassFor reg ann
  let (art, t) ← kwargsFrom ids c ann
  let v ← mkView c mode art t
  checkAnnotation v ann.hint
  return v

/-! ## Artifacts -/

/-- What a view looks at in an artifact; `fmt` and `stor` stand for the classes of its format and
storage. -/
structure Art where
  cls : ArtCls
  type : Ty
  fmt : Nat
  stor : Nat

/-- `io._read.lookup` and `io._write.lookup` (`internal/dispatch.py:46-62`): whether there is an
implementation.  `Verif.Model.Dispatch` models how an implementation is chosen. -/
structure Lookup where
  reader : Ty → Nat → Nat → ViewCls → Except Err Unit
  writer : Option PyCls → Ty → Nat → Nat → ViewCls → Except Err Unit

/-- `check_artifact_compatibility` (`views/__init__.py:130-148`). -/
def checkArtifact (io : Lookup) (v : View) (a : Art) : Except Err Unit :=
  if a.cls.sub v.art then do
    checkType v.type a.type
    if v.mode = .read ∨ v.mode = .readWrite then io.reader a.type a.fmt a.stor v.cls else .ok ()
    if v.mode = .write ∨ v.mode = .readWrite then
      io.writer v.cls.pythonType a.type a.fmt a.stor v.cls
    else .ok ()
  else .error .valueError

/-! ## Reading and writing through a graph -/

/-- `annotation is None`. -/
def isNone (ann : Ann) : Bool :=
  match ann.hint, ann.items with
  | .none, [] => true
  | _, _ => false

/-- The view that `Graph.read` reads with (`graphs/__init__.py:213-224`). -/
def readView (reg : Registry) (io : Lookup) (a : Art) (ann : Option Ann) (view : Option View) :
    Except Err View :=
  match ann.filter (fun ann => !isNone ann), view with
  | none, none => .error .valueError
  | some _, some _ => .error .valueError
  | none, some v => .ok v
  | some ann, none => do
    let c ← getClassFor reg ann
    let v ← mkView c .read a.cls a.type
    checkAnnotation v ann.hint
    checkArtifact io v a
    return v

/-- The view that `Graph.write` writes with (`graphs/__init__.py:260-266`), for data whose class is
`data`. -/
def writeView (reg : Registry) (io : Lookup) (a : Art) (data : PyCls) (view : Option View) :
    Except Err View := do
  let v ← match view with
    | some v => .ok v
    | none => do
      let c ← getClassFor reg { hint := .cls data }
      mkView c .write a.cls a.type
  checkAnnotation v (.cls data)
  checkArtifact io v a
  return v

/-! ## The views of the package -/

/-- The base class `Artifact`, which has no default type. -/
def artifactBase : ArtCls := { uid := 0 }

/-- A subclass of `PythonBuiltin` (`views/python.py:9-45`); `PythonBuiltin` has the uid 1. -/
def pyView (uid : Nat) (c : Option PyCls) : ViewCls :=
  { uid := uid, bases := [1], pythonType := c, artifactClass := artifactBase,
    toSystem := pyToSystem ids }

/-- The view classes of `views/python.py`, in order. -/
def pyViews : List ViewCls := [
  { pyView ids 1 none with bases := [], abstract := true },
  pyView ids 2 (some .date), pyView ids 3 (some .datetime), pyView ids 4 (some .dict),
  pyView ids 5 (some .float), pyView ids 6 (some .int), pyView ids 7 (some .list),
  pyView ids 8 none, pyView ids 9 (some .str)]

/-- The registry after importing `arti.views.python`. -/
def pyRegistry : Registry := [
  (some .date, pyView ids 2 (some .date)), (some .datetime, pyView ids 3 (some .datetime)),
  (some .dict, pyView ids 4 (some .dict)), (some .float, pyView ids 5 (some .float)),
  (some .int, pyView ids 6 (some .int)), (some .list, pyView ids 7 (some .list)),
  (none, pyView ids 8 none), (some .str, pyView ids 9 (some .str))]

theorem pyRegistry_eq : registerViews [] (pyViews ids) = .ok (pyRegistry ids) := rfl

end Views
end Arti
