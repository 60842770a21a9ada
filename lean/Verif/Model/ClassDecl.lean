import Verif.Model.Utils
import Verif.Model.FrozenDict

/-!
# Declaring model, partition field and storage classes

`internal/models.py:88-129` (`Model.__pydantic_init_subclass__`, `Model.__new__`),
`partitions/__init__.py:20-53` (`PartitionField`) and `storage/__init__.py:65-116,193-225`
(`Storage.__class_getitem__`, `Storage.__pydantic_init_subclass__`, `Storage.generate_partition`).

Classes are numbered in the order of their creation.  Simplifications: every class has one base
class; the checks that Pydantic itself makes of field definitions are not modelled; annotations and
`Type` classes are compared with `==` and are otherwise abstract.
-/

namespace Arti.Decl
open Arti

/-- What an attribute of a class body that is not a field is: a `field_component`
(`partitions/__init__.py:16-17`), an `abc.abstractmethod`, or something else. -/
inductive Attr
  | component
  | abstractMethod
  | other
  deriving DecidableEq, Repr

/-- Which of the root classes a class descends from: `Model`, `PartitionField`,
`StoragePartition` or `Storage`. -/
inductive Kind
  | model
  | field
  | partition
  | storage
  deriving DecidableEq, Repr

/-- A class body: `_abstract_` if it is assigned, the annotated fields, the other attributes, and
the class variables `default_components`, `matching_type` and `storage_partition_type` if they are
assigned.  `Ty` is the type of `Type` classes, `Ann` that of annotations. -/
structure Body (Ty Ann : Type) where
  abstract : Option Bool := none
  fields : PyDict Str Ann := []
  attrs : PyDict Str Attr := []
  defaults : Option (PyDict Str Str) := none
  matching : Option Ty := none
  partType : Option Nat := none
  deriving DecidableEq, Repr

/-- A class.  `body` is what was written; the other members are what attribute access finds:
`abstract` is `cls._abstract_`, `fields` is `cls.model_fields`, the others are found in the class
or inherited. -/
structure Cls (Ty Ann : Type) where
  kind : Kind
  parent : Option Nat
  body : Body Ty Ann
  abstract : Bool
  fields : PyDict Str Ann
  attrs : PyDict Str Attr
  defaults : Option (PyDict Str Str)
  matching : Option Ty
  partType : Option Nat
  deriving DecidableEq, Repr

/-- The classes of a process, and `PartitionField._by_type_` (`partitions/__init__.py:23`). -/
structure Classes (Ty Ann : Type) where
  classes : List (Cls Ty Ann)
  byType : PyDict Ty Nat
  deriving DecidableEq, Repr

variable {Ty Ann : Type} [DecidableEq Ty] [DecidableEq Ann]

/-- The class object that Python and Pydantic make of a body, with inheritance, and
`Model.__pydantic_init_subclass__` (`internal/models.py:88-92`): `_abstract_` is that of the body
and `False` if the body does not set it. -/
def derive (p : Cls Ty Ann) (base : Nat) (b : Body Ty Ann) : Cls Ty Ann where
  kind := p.kind
  parent := some base
  body := b
  abstract := b.abstract.getD false
  fields := PyDict.merge p.fields b.fields
  attrs := PyDict.merge p.attrs b.attrs
  defaults := b.defaults.or p.defaults
  matching := b.matching.or p.matching
  partType := b.partType.or p.partType

/-- `PartitionField.components` (`partitions/__init__.py:41-45`). -/
def components (c : Cls Ty Ann) : List Str :=
  PyDict.keys c.fields ++
    (PyDict.keys c.attrs).filter fun n => PyDict.get? c.attrs n == some .component

/-- `PartitionField.__pydantic_init_subclass__` (`partitions/__init__.py:28-39`) for the class `c`
that gets the number `id`; the new `_by_type_`. -/
def fieldHook (byType : PyDict Ty Nat) (id : Nat) (c : Cls Ty Ann) : Except Err (PyDict Ty Nat) :=
  if c.abstract then .ok byType
  else
    match c.defaults, c.matching with
    | some d, some t =>
      if (PyDict.keys d).any fun n => !(components c).contains n then .error .typeError
      else register byType t id none
    | _, _ => .error .typeError

/-- `StoragePartition.model_fields` (`storage/__init__.py:25-27`). -/
def partitionRootFields : List Str :=
  ["input_fingerprint".toList, "partition_key".toList, "storage".toList]

/-- `Storage.model_fields` is empty (`storage/__init__.py:65-85`). -/
def storageRootFields : List Str := []

/-- `{name: info.annotation for name, info in fields if name not in root}`
(`storage/__init__.py:103-112`). -/
def ownFields (root : List Str) (fields : PyDict Str Ann) : PyDict Str Ann :=
  fields.filter fun kv => !root.contains kv.1

/-- `Storage.__pydantic_init_subclass__` (`storage/__init__.py:93-116`). -/
def storageHook (w : Classes Ty Ann) (c : Cls Ty Ann) : Except Err Unit :=
  if c.abstract then .ok ()
  else
    match c.partType with
    | none => .ok ()
    | some p =>
      match w.classes[p]? with
      | none => .error .attributeError
      | some pc =>
        if fdEq (ownFields storageRootFields c.fields)
            (ownFields partitionRootFields pc.fields) then .ok ()
        else .error .typeError

/-- A `class` statement: the class gets the next number; if a hook raises, the class is not bound
to a name and nothing is kept of it.  `base` is the number of the base class. -/
def declare (w : Classes Ty Ann) (base : Nat) (b : Body Ty Ann) : Except Err (Classes Ty Ann) :=
  match w.classes[base]? with
  | none => .error .attributeError
  | some p =>
    let c := derive p base b
    match c.kind with
    | .field => do
      let r ← fieldHook w.byType w.classes.length c
      .ok { classes := w.classes ++ [c], byType := r }
    | .storage => do
      let _ ← storageHook w c
      .ok { w with classes := w.classes ++ [c] }
    | _ => .ok { w with classes := w.classes ++ [c] }

/-- `Storage.__class_getitem__` (`storage/__init__.py:86-91`): Pydantic makes a subclass with an
empty body, for which the hook runs, and then `_abstract_` and `storage_partition_type` are set on
it.  Pydantic returns the same class for the same argument; here each use makes a new one. -/
def subscript (w : Classes Ty Ann) (base item : Nat) : Except Err (Classes Ty Ann) :=
  match w.classes[base]?, w.classes[item]? with
  | some p, some i =>
    if p.kind = .storage ∧ i.kind = .partition then do
      let _ ← storageHook w (derive p base {})
      .ok { w with classes := w.classes ++
              [derive p base { abstract := some true, partType := some item }] }
    else .error .typeError
  | _, _ => .error .attributeError

/-- What a program does with classes: `class X(base): …` or `base[item]`. -/
inductive Op (Ty Ann : Type)
  | declare (base : Nat) (b : Body Ty Ann)
  | subscript (base item : Nat)
  deriving DecidableEq, Repr

/-- One step of a program; an exception leaves the classes as they are. -/
def step (w : Classes Ty Ann) (op : Op Ty Ann) : Classes Ty Ann :=
  match (match op with
    | .declare base b => declare w base b
    | .subscript base item => subscript w base item) with
  | .ok w' => w'
  | .error _ => w

/-- `Model.__new__` (`internal/models.py:125-129`) and `object.__new__`: may `cls()` go on to the
validation of its arguments? -/
def new (w : Classes Ty Ann) (c : Nat) : Except Err Unit :=
  match w.classes[c]? with
  | none => .error .attributeError
  | some k =>
    if k.abstract then .error .typeError
    else if (PyDict.keys k.attrs).any fun n => PyDict.get? k.attrs n == some .abstractMethod then
      .error .typeError
    else .ok ()

/-- `PartitionField.get_class_for` (`partitions/__init__.py:51-53`); `t` is `type(type_)`. -/
def getClassFor (w : Classes Ty Ann) (t : Ty) : Except Err Nat :=
  match PyDict.get? w.byType t with
  | some c => .ok c
  | none => .error .keyError

/-- The fields that `generate_partition` (`storage/__init__.py:209-225`) passes to
`storage_partition_type(…)` besides `input_fingerprint`, `partition_key` and `storage`: the
storage's values of the fields of the partition type, with strings formatted by `fmt`
(`strip_partition_indexes(original).format(**format_kwargs)`).  `vals` holds the values of the
instance; `toStr` is `value` if it is a string. -/
def generateFields {Val : Type} (w : Classes Ty Ann) (c : Nat) (vals : PyDict Str Val)
    (toStr : Val → Option Str) (ofStr : Str → Val) (fmt : Str → Except Err Str) :
    Except Err (PyDict Str Val) :=
  match w.classes[c]? with
  | none => .error .attributeError
  | some k =>
    match k.partType with
    | none => .error .attributeError
    | some p =>
      match w.classes[p]? with
      | none => .error .attributeError
      | some pc =>
        ((PyDict.keys k.fields).filter fun n => (PyDict.keys pc.fields).contains n).mapM fun n =>
          match PyDict.get? vals n with
          | none => .error .attributeError
          | some v =>
            match toStr v with
            | none => .ok (n, v)
            | some s => do
              let s' ← fmt s
              .ok (n, ofStr s')

/-- Calling a class with keyword arguments (Pydantic with `extra="forbid"`,
`internal/models.py:76-87`): unknown names, repeated names and missing names are errors, and each
value is validated against the annotation of its field.  Fields with default values are not
modelled: every field must be given. -/
def construct {Val : Type} (valid : Ann → Val → Bool) (k : Cls Ty Ann) (args : PyDict Str Val) :
    Except Err (PyDict Str Val) :=
  if !(decide (PyDict.keys args).Nodup) then .error .typeError
  else if (PyDict.keys args).any fun n => !(PyDict.keys k.fields).contains n then
    .error .valueError
  else if (PyDict.keys k.fields).any fun n => !(PyDict.keys args).contains n then
    .error .valueError
  else if args.any fun nv =>
      match PyDict.get? k.fields nv.1 with
      | some a => !valid a nv.2
      | none => true then .error .valueError
  else .ok args

/-- `Storage.generate_partition` (`storage/__init__.py:193-225`) after the checks of the partition
key and the input fingerprint (which are in `Model/Storage.lean`): `ifp`, `pk` and `st` are the
values of `input_fingerprint`, `partition_key` and `storage`. -/
def generatePartition {Val : Type} (valid : Ann → Val → Bool) (w : Classes Ty Ann) (c : Nat)
    (vals : PyDict Str Val) (toStr : Val → Option Str) (ofStr : Str → Val)
    (fmt : Str → Except Err Str) (ifp pk st : Val) : Except Err (PyDict Str Val) := do
  let fs ← generateFields w c vals toStr ofStr fmt
  match w.classes[c]? with
  | none => .error .attributeError
  | some k =>
    match k.partType with
    | none => .error .attributeError
    | some p =>
      match w.classes[p]? with
      | none => .error .attributeError
      | some pc => construct valid pc (partitionRootFields.zip [ifp, pk, st] ++ fs)

/-- The classes after `import arti.partitions, arti.storage` without the concrete field classes:
`Model`, `PartitionField`, `StoragePartition` and `Storage`.  `fieldAnn` gives the annotations of
the fields of `StoragePartition`. -/
def init (fieldAnn : Str → Ann) : Classes Ty Ann :=
  let root : Cls Ty Ann :=
    { kind := .model, parent := none, body := { abstract := some true }, abstract := true,
      fields := [], attrs := [], defaults := none, matching := none, partType := none }
  let fieldBody : Body Ty Ann :=
    { abstract := some true, attrs := [("from_components".toList, .abstractMethod)] }
  let partBody : Body Ty Ann :=
    { fields := partitionRootFields.map fun n => (n, fieldAnn n),
      attrs := [("compute_content_fingerprint".toList, .abstractMethod)] }
  let storBody : Body Ty Ann :=
    { abstract := some true, attrs := [("discover_partitions".toList, .abstractMethod)] }
  { classes := [root, { derive root 0 fieldBody with kind := .field },
      { derive root 0 partBody with kind := .partition },
      { derive root 0 storBody with kind := .storage }],
    byType := [] }

/-- The classes after a program has run. -/
def run (fieldAnn : Str → Ann) (ops : List (Op Ty Ann)) : Classes Ty Ann :=
  ops.foldl step (init fieldAnn)

end Arti.Decl
