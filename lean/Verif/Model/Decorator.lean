import Verif.Model.ProducerClass

/-!
# The `producer` decorator (`src/arti/producers/__init__.py:418-461`)

The decorator makes a class from a function with `type(name, (Producer,), {...})`.  What pydantic does
with the attributes of that call is modelled as far as it matters here (`classBody`).  Hints are as
in `Model/ProducerClass`.
-/

namespace Arti
namespace PCls
open PyDict

/-- A function: `fn.__name__`, the parameters and the return hint. -/
structure PyFn (H : Type) where
  name : Str
  params : List (Param H)
  ret : Option H

/-- `staticmethod(fn)` as an attribute of a class. -/
def PyFn.static {H : Type} (f : PyFn H) : Fn H := ⟨f.params, f.ret, true⟩

/-- What the decorator asks in addition to the checks of the class. -/
structure DEnv (H : Type) where
  hints : Hints H
  /-- `View.from_annotation(hint, mode="READ")` -/
  view : H → Except Err (Vw H)
  /-- `hasattr(Producer, name)` -/
  baseAttr : Str → Bool

/-- The arguments of `producer(...)` (`producers/__init__.py:418-425`).  `A` are annotations and `V`
versions. -/
structure DecArgs (H A V : Type) where
  annotations : Option (List A) := none
  map : Option (PyFn H) := none
  name : Option Str := none
  validate : Option (PyFn H) := none
  version : Option V := none

/-- A value of the dictionary `__annotations__` (`producers/__init__.py:429-440`). -/
inductive Slot (H : Type)
  /-- an artifact class -/
  | cls (h : H)
  /-- `tuple[Annotation, ...]` -/
  | annotations
  /-- `Version` -/
  | version

/-- The arguments of `type(...)` (`producers/__init__.py:441-459`).  Attributes that are `None` are
left out. -/
structure Namespace (H A V : Type) where
  slots : PyDict Str (Slot H)
  annotations : Option (List A)
  build : Fn H
  map : Option (Fn H)
  validate : Option (Fn H)
  version : Option V

/-- A class that the decorator made: its name, `__module__`, the defaults of its fields `annotations`
and `version`, and the class itself. -/
structure DCls (H A V : Type) where
  name : Str
  module : Option Str
  annotations : List A
  version : V
  cls : Cls H

variable {H A V : Type} [DecidableEq H] (d : DEnv H)

/-- The names of the fields of `Producer` (`producers/__init__.py:60-61`). -/
def annotationsName : Str := "annotations".toList
def versionName : Str := "version".toList

/-- One round of the loop over the parameters (`producers/__init__.py:430-433`).  `Parameter.empty`
has no view, which raises `ValueError` (`views/__init__.py:106-109`). -/
def addSlot (slots : PyDict Str (Slot H)) (p : Param H) : Except Err (PyDict Str (Slot H)) :=
  match p.hint with
  | none => .error .valueError
  | some h => do
    let v ← d.view h
    .ok (set slots p.name (.cls v.cls))

/-- The loop over the parameters (`producers/__init__.py:430-433`). -/
def paramSlots : PyDict Str (Slot H) → List (Param H) → Except Err (PyDict Str (Slot H))
  | slots, [] => .ok slots
  | slots, p :: ps => do
    let slots ← addSlot d slots p
    paramSlots slots ps

/-- The hints for arguments of the decorator (`producers/__init__.py:437-440`).  An empty tuple of
annotations is false, and a version is true. -/
def ownSlots (args : DecArgs H A V) (slots : PyDict Str (Slot H)) : PyDict Str (Slot H) :=
  let slots := match args.annotations with
    | some (_ :: _) => set slots annotationsName .annotations
    | _ => slots
  match args.version with
  | some _ => set slots versionName .version
  | none => slots

/-- `__annotations__` and the attributes of the class (`producers/__init__.py:429-459`). -/
def namespaceOf (args : DecArgs H A V) (f : PyFn H) : Except Err (Namespace H A V) := do
  let slots ← paramSlots d [] f.static.sig
  .ok { slots := ownSlots args slots, annotations := args.annotations, build := f.static,
        map := args.map.map PyFn.static, validate := args.validate.map PyFn.static,
        version := args.version }

/-- `hasattr(cls, name)` when pydantic collects the fields: attributes of `Producer`, of which
`validate_outputs` is one, and those of the namespace.  Such an attribute is the default of a field
of that name. -/
def Namespace.hasAttr (ns : Namespace H A V) (n : Str) : Bool :=
  d.baseAttr n || n = "build".toList || n = "validate_outputs".toList ||
    (n = "map".toList && ns.map.isSome)

/-- Names that begin with an underscore are private attributes for pydantic. -/
def isUnderscored : Str → Bool
  | '_' :: _ => true
  | _ => false

/-- A field of the class, if the annotation makes one that `Producer` does not have
(`producers/__init__.py:132-134`). -/
def slotField (ns : Namespace H A V) (n : Str) : Slot H → Option (Str × FieldDef H)
  | .cls h =>
    if isUnderscored n || n = annotationsName || n = versionName then none
    else some (n, ⟨h, !ns.hasAttr d n⟩)
  | _ => none

/-- The class that pydantic sees.  A field of a base class that is overridden by a value without a
type hint raises `PydanticUserError` (modelled as a `TypeError`). -/
def classBody (ns : Namespace H A V) : Except Err (Def H) :=
  if ns.annotations.isSome && !contains ns.slots annotationsName then .error .typeError
  else if ns.version.isSome && !contains ns.slots versionName then .error .typeError
  else .ok {
    abstract := false
    fields := ns.slots.filterMap fun (n, s) => slotField d ns n s
    build := some ns.build
    validate := ns.validate
    map := ns.map }

/-- `get_module_name(depth)` (`internal/utils.py:31-47`) for the stack of the modules of the frames,
the innermost, that of `get_module_name`, first. -/
def moduleName : Nat → List Str → Option Str
  | _, [] => none
  | 0, m :: _ => some m
  | n + 1, _ :: ms => moduleName n ms

/-- `decorate(build)` (`producers/__init__.py:426-459`).  `st` is the variable `name` of the enclosing
call, which is assigned (`nonlocal name`); the second component of the result is its new value.
`stack` are the modules of the frames that call `decorate`, innermost first; `any` is `Any`, `dflt`
the default version of producers. -/
def decorate (any : H) (dflt : V) (args : DecArgs H A V) (stack : List Str) (st : Option Str)
    (f : PyFn H) : Except Err (DCls H A V) × Option Str :=
  let name := st.getD f.name
  let r := do
    let ns ← namespaceOf d args f
    let body ← classBody d ns
    let c ← subclass d.hints (base any) body
    .ok { name, module := moduleName 2 ("arti.internal.utils".toList :: "arti.producers".toList :: stack),
          annotations := ns.annotations.getD [], version := ns.version.getD dflt, cls := c }
  (r, some name)

/-- Decorating functions one after the other with the same object `producer(...)`
(`producers/__init__.py:426-461`). -/
def decorateAll (any : H) (dflt : V) (args : DecArgs H A V) (stack : List Str) :
    Option Str → List (PyFn H) → List (Except Err (DCls H A V))
  | _, [] => []
  | st, f :: fs =>
    let (r, st') := decorate d any dflt args stack st f
    r :: decorateAll any dflt args stack st' fs

/-- `producer(...)` (`producers/__init__.py:418-461`) applied to functions in turn. -/
def producer (any : H) (dflt : V) (args : DecArgs H A V) (stack : List Str) (fs : List (PyFn H)) :
    List (Except Err (DCls H A V)) :=
  decorateAll d any dflt args stack args.name fs

/-- `self.map` of an instance (`producers/__init__.py:354`): values of fields come before attributes
of the class that are functions. -/
inductive Found (H : Type)
  /-- the artifact that was passed for the field of that name -/
  | artifact
  | function (m : MapAttr H)

def instMap (c : Cls H) : Option (Found H) :=
  if contains c.attrs.fields "map".toList then some .artifact
  else c.attrs.map.map .function

/-- `self.map(**kwargs)` (`producers/__init__.py:354-360`); artifacts cannot be called. -/
def callInstMap {κ σ : Type} (npKey : κ)
    (user : Fn H → List (Str × σ) → Except Err (List (κ × List (Str × σ))))
    (c : Cls H) (kwargs : List (Str × σ)) : Except Err (List (κ × List (Str × σ))) :=
  match instMap c with
  | none => .error .attributeError
  | some .artifact => .error .typeError
  | some (.function m) => callMap npKey user m kwargs

end PCls
end Arti
