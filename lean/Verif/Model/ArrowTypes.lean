import Verif.Model.Types
import Verif.Model.Json

/-!
# The PyArrow type system (`src/arti/types/pyarrow.py`) and `Collection`

pyarrow is modelled from its documentation.  The name and the nullability of the value field of a
list and of the fields of a map are left out: the adapters do not set or read them.
-/

namespace Arti
namespace Typ

/-- `pa.DataType`s without parameters. -/
inductive PaPrim
  | null | string | boolean | date32 | date64
  | float16 | float32 | float64
  | int8 | int16 | int32 | int64 | uint8 | uint16 | uint32 | uint64
  deriving DecidableEq, Repr

/-- The `unit` of a time type. -/
inductive PaUnit
  | s | ms | us | ns
  deriving DecidableEq, Repr

/-- A `pa.DataType`.  `other` stands for the types without an adapter (`decimal128`,
`large_string`, ...).  The fields of a struct have a name, a type and `nullable`. -/
inductive PaTy
  | prim (p : PaPrim)
  | binary
  | fixedBinary (width : Nat)
  | timestamp (unit : PaUnit) (tz : Option Str)
  | time32 (unit : PaUnit)
  | time64 (unit : PaUnit)
  | list (value : PaTy)
  | map (key item : PaTy)
  | struct (fields : List (Str × (PaTy × Bool)))
  | other (n : Nat)

/-- A `pa.DataType` or a `pa.Schema`. -/
inductive PaObj
  | ty (t : PaTy)
  | schema (fields : List (Str × (PaTy × Bool))) (metadata : PyDict Str Str)

/-- `pa.list_`, `pa.map_` and `pa.field` raise a `TypeError` when given a schema. -/
def asType : PaObj → Except Err PaTy
  | .ty t => .ok t
  | .schema _ _ => .error .typeError

/-! ## `Collection` -/

/-- `Collection(name=..., element=..., partition_by=..., cluster_by=...)` with its validators
(`types/__init__.py:175-203`). -/
def mkCollection (name : Str) (element : Ty) (partitionBy clusterBy : List Str) (m : Meta) :
    Except Err Ty :=
  match element with
  | .struct _ fields _ =>
    if partitionBy.all (fun r => (fields.map Prod.fst).contains r) then
      if clusterBy.all (fun r => (fields.map Prod.fst).contains r) then
        if clusterBy.any (fun r => partitionBy.contains r) then .error .valueError
        else .ok (.collection name element partitionBy clusterBy m)
      else .error .valueError
    else .error .valueError
  | _ => .error .valueError

/-! ## `to_system` -/

/-- `_PyarrowTypeAdapter` towards Arrow (`types/pyarrow.py:36-38`). -/
def primS (key : String) (s : Scalar) (p : PaPrim) (priority : Int) : Adapter Ty PaObj where
  key := key.toList
  priority := priority
  accepts t _ := .ok (t.isScalar s)
  convert _ _ _ := .ok (.ty (.prim p))

/-- The generated adapters (`types/pyarrow.py:51-74`), in registration order. -/
def paPrims : List (String × Scalar × PaPrim × Int) := [
  ("Pyarrowstring", .string, .string, 0),
  ("Pyarrownull", .null, .null, 0),
  ("Pyarrowdate32", .date, .date32, 32),
  ("Pyarrowdate64", .date, .date64, 64),
  ("Pyarrowfloat16", .float16, .float16, 0),
  ("Pyarrowfloat32", .float32, .float32, 0),
  ("Pyarrowfloat64", .float64, .float64, 0),
  ("Pyarrowint8", .int8, .int8, 0),
  ("Pyarrowuint8", .uint8, .uint8, 0),
  ("Pyarrowint16", .int16, .int16, 0),
  ("Pyarrowuint16", .uint16, .uint16, 0),
  ("Pyarrowint32", .int32, .int32, 0),
  ("Pyarrowuint32", .uint32, .uint32, 0),
  ("Pyarrowint64", .int64, .int64, 0),
  ("Pyarrowuint64", .uint64, .uint64, 0)]

def isTyBinary : Ty → Bool
  | .binary _ _ => true
  | _ => false

def isTyGeography : Ty → Bool
  | .geography _ _ _ => true
  | _ => false

def isTyMap : Ty → Bool
  | .map _ _ _ => true
  | _ => false

def isTyDateTime : Ty → Bool
  | .dateTime _ _ => true
  | _ => false

def isTyTimestamp : Ty → Bool
  | .timestamp _ _ => true
  | _ => false

/-- `BinaryTypeAdapter.to_system` (`types/pyarrow.py:94-97`); `pa.binary` with the length -1 is the
type of variable length.  Other negative lengths are not covered. -/
def paBinaryS : Adapter Ty PaObj where
  key := "BinaryTypeAdapter".toList
  priority := 0
  accepts t _ := .ok (isTyBinary t)
  convert _ t _ :=
    match t with
    | .binary none _ => .ok (.ty .binary)
    | .binary (some (.ofNat n)) _ => .ok (.ty (.fixedBinary n))
    | .binary (some i) _ => if i = -1 then .ok (.ty .binary) else .error .unsupported
    | _ => .error .assertion

/-- `BoolTypeAdapter` (`types/pyarrow.py:101-108`). -/
def paBoolS : Adapter Ty PaObj := primS "BoolTypeAdapter" .boolean .boolean 0

/-- `GeographyTypeAdapter.to_system` (`types/pyarrow.py:124-127`). -/
def paGeographyS : Adapter Ty PaObj where
  key := "GeographyTypeAdapter".toList
  priority := 0
  accepts t _ := .ok (isTyGeography t)
  convert _ t _ :=
    match t with
    | .geography format _ _ =>
      .ok (.ty (if format = some "WKB".toList then .binary else .prim .string))
    | _ => .error .assertion

/-- `ListTypeAdapter.to_system` (`types/pyarrow.py:145-148`). -/
def paListS : Adapter Ty PaObj where
  key := "ListTypeAdapter".toList
  priority := 0
  accepts t _ := .ok t.isList
  convert root t h :=
    match t with
    | .list e _ => do
      let o ← root e h
      let v ← asType o
      return .ty (.list v)
    | .collection _ e _ _ _ => do
      let o ← root e h
      let v ← asType o
      return .ty (.list v)
    | _ => .error .assertion

/-- `MapTypeAdapter.to_system` (`types/pyarrow.py:167-173`). -/
def paMapS : Adapter Ty PaObj where
  key := "MapTypeAdapter".toList
  priority := 0
  accepts t _ := .ok (isTyMap t)
  convert root t h :=
    match t with
    | .map k v _ => do
      let k ← root k h
      let v ← root v h
      let k ← asType k
      let v ← asType v
      return .ty (.map k v)
    | _ => .error .assertion

/-- `StructTypeAdapter._field_to_system` (`types/pyarrow.py:201-205`). -/
def fieldToSystem (root : Ty → Hints → Except Err PaObj) (h : Hints) (t : Ty) :
    Except Err (PaTy × Bool) := do
  let o ← root t h
  let ty ← asType o
  return (ty, t.nullable)

/-- `StructTypeAdapter.to_system` (`types/pyarrow.py:207-215`), before the type is made. -/
def structFieldsS (root : Ty → Hints → Except Err PaObj) (h : Hints) :
    Ty → Except Err (List (Str × (PaTy × Bool)))
  | .struct _ fields _ => convertFields (fieldToSystem root h) fields
  | _ => .error .assertion

def paStructS : Adapter Ty PaObj where
  key := "StructTypeAdapter".toList
  priority := 0
  accepts t _ := .ok t.isStruct
  convert root t h := do
    let fs ← structFieldsS root h t
    return .ty (.struct fs)

/-- The metadata of a schema (`types/pyarrow.py:266-276`). -/
def collectionDoc (name : Str) (p c : List Str) : Json :=
  .obj [("name".toList, .str name), ("partition_by".toList, .arr (p.map .str)),
    ("cluster_by".toList, .arr (c.map .str))]

/-- The key of the metadata. -/
def metaKey : Str := "artigraph".toList

/-- `SchemaTypeAdapter.matches_artigraph` and `to_system` (`types/pyarrow.py:226-232` and
`254-276`). -/
def paSchemaS : Adapter Ty PaObj where
  key := "SchemaTypeAdapter".toList
  priority := 1
  accepts t _ := .ok (match t with
    | .collection _ e _ _ _ => e.isStruct
    | _ => false)
  convert root t h :=
    match t with
    | .collection name e p c _ => do
      let fs ← structFieldsS root h e
      return .schema fs [(metaKey, Json.write Json.python (collectionDoc name p c))]
    | _ => .error .assertion

/-- `precision_to_unit` (`types/pyarrow.py:280-285`). -/
def precisionToUnit : Prec → PaUnit
  | .second => .s
  | .millisecond => .ms
  | .microsecond => .us
  | .nanosecond => .ns

/-- `unit_to_precision` (`types/pyarrow.py:287-289`). -/
def unitToPrecision : PaUnit → Prec
  | .s => .second
  | .ms => .millisecond
  | .us => .microsecond
  | .ns => .nanosecond

def utc : Str := "UTC".toList

/-- `DateTimeTypeAdapter.to_system` (`types/pyarrow.py:301-308`). -/
def paDateTimeS : Adapter Ty PaObj where
  key := "DateTimeTypeAdapter".toList
  priority := 0
  accepts t _ := .ok (isTyDateTime t)
  convert _ t _ :=
    match t with
    | .dateTime p _ => .ok (.ty (.timestamp (precisionToUnit p) none))
    | _ => .error .attributeError

/-- `TimestampTypeAdapter.to_system` (`types/pyarrow.py:337-339`). -/
def paTimestampS : Adapter Ty PaObj where
  key := "TimestampTypeAdapter".toList
  priority := 0
  accepts t _ := .ok (isTyTimestamp t)
  convert _ t _ :=
    match t with
    | .timestamp p _ => .ok (.ty (.timestamp (precisionToUnit p) (some utc)))
    | _ => .error .attributeError

/-- The precisions of `Time32TypeAdapter` (`types/pyarrow.py:360-365`). -/
def is32 : Prec → Bool
  | .second => true
  | .millisecond => true
  | _ => false

/-- `_BaseSizedTimeTypeAdapter` (`types/pyarrow.py:342-356`). -/
def paTimeS (key : String) (ok : Prec → Bool) (mk : PaUnit → PaTy) : Adapter Ty PaObj where
  key := key.toList
  priority := 0
  accepts t _ := .ok (match t with
    | .time p _ => ok p
    | _ => false)
  convert _ t _ :=
    match t with
    | .time p _ => .ok (.ty (mk (precisionToUnit p)))
    | _ => .error .attributeError

/-- `pyarrow_type_system`, towards Arrow. -/
def paAdaptersS : List (Adapter Ty PaObj) :=
  paPrims.map (fun (k, s, p, pr) => primS k s p pr) ++
  [paBinaryS, paBoolS, paGeographyS, paListS, paMapS, paStructS, paSchemaS, paDateTimeS,
   paTimestampS, paTimeS "Time32TypeAdapter" is32 .time32,
   paTimeS "Time64TypeAdapter" (fun p => !is32 p) .time64]

def paSys : TypeSystem Ty PaObj :=
  .mk "pyarrow".toList (paAdaptersS.map fun a => (a.key, a)) []

/-- `pyarrow_type_system.to_system(type_, hints={})`. -/
def paToSystem (t : Ty) : Except Err PaObj := run paSys t.size t []

/-! ## `to_artigraph` -/

/-- `_PyarrowTypeAdapter` towards artigraph (`types/pyarrow.py:28-34`). -/
def primA (key : String) (s : Scalar) (p : PaPrim) (priority : Int) : Adapter PaObj Ty where
  key := key.toList
  priority := priority
  accepts o _ := .ok (match o with
    | .ty (.prim q) => q = p
    | _ => false)
  convert _ _ _ := .ok (.scalar s {})

/-- `pa.types.is_...(type_)` of the adapters that do not check for `pa.DataType` first: a schema has
no `id`. -/
def dataTypeOnly (f : PaTy → Bool) : PaObj → Except Err Bool
  | .ty t => .ok (f t)
  | .schema _ _ => .error .attributeError

/-- `BinaryTypeAdapter` (`types/pyarrow.py:82-92`). -/
def paBinaryA : Adapter PaObj Ty where
  key := "BinaryTypeAdapter".toList
  priority := 0
  accepts o _ := dataTypeOnly (fun | .binary => true | .fixedBinary _ => true | _ => false) o
  convert _ o _ :=
    match o with
    | .ty (.fixedBinary n) => .ok (.binary (some (.ofNat n)) {})
    | _ => .ok (.binary none {})

/-- `BoolTypeAdapter.matches_system` (`types/pyarrow.py:106-108`). -/
def paBoolA : Adapter PaObj Ty where
  key := "BoolTypeAdapter".toList
  priority := 0
  accepts o _ := dataTypeOnly (fun | .prim q => q = .boolean | _ => false) o
  convert _ _ _ := .ok (.scalar .boolean {})

/-- `GeographyTypeAdapter.matches_system` (`types/pyarrow.py:118-122`). -/
def paGeographyA : Adapter PaObj Ty where
  key := "GeographyTypeAdapter".toList
  priority := 0
  accepts _ _ := .ok false
  convert _ _ _ := .ok (.geography none none {})

/-- `ListTypeAdapter` (`types/pyarrow.py:135-143`). -/
def paListA : Adapter PaObj Ty where
  key := "ListTypeAdapter".toList
  priority := 0
  accepts o _ := dataTypeOnly (fun | .list _ => true | _ => false) o
  convert root o h :=
    match o with
    | .ty (.list v) => do
      let e ← root (.ty v) h
      return .list e {}
    | _ => .error .attributeError

/-- `MapTypeAdapter` (`types/pyarrow.py:156-165`). -/
def paMapA : Adapter PaObj Ty where
  key := "MapTypeAdapter".toList
  priority := 0
  accepts o _ := dataTypeOnly (fun | .map _ _ => true | _ => false) o
  convert root o h :=
    match o with
    | .ty (.map k v) => do
      let k ← root (.ty k) h
      let v ← root (.ty v) h
      return .map k v {}
    | _ => .error .attributeError

/-- `StructTypeAdapter._field_to_artigraph` (`types/pyarrow.py:181-188`). -/
def fieldToArtigraph (root : PaObj → Hints → Except Err Ty) (h : Hints) (f : PaTy × Bool) :
    Except Err Ty := do
  let t ← root (.ty f.1) h
  return if f.2 != t.nullable then t.setNullable f.2 else t

/-- `StructTypeAdapter.to_artigraph` (`types/pyarrow.py:190-197`). -/
def structA (root : PaObj → Hints → Except Err Ty) (h : Hints)
    (fields : List (Str × (PaTy × Bool))) : Except Err Ty := do
  let fs ← convertFields (fieldToArtigraph root h) fields
  return .struct anon fs {}

def paStructA : Adapter PaObj Ty where
  key := "StructTypeAdapter".toList
  priority := 0
  accepts o _ := .ok (match o with
    | .ty (.struct _) => true
    | _ => false)
  convert root o h :=
    match o with
    | .ty (.struct fs) => structA root h fs
    | _ => .error .attributeError

/-- A JSON array of strings as a tuple. -/
def strTuple : List Json → Except Err (List Str)
  | [] => .ok []
  | .str s :: js => do
    let r ← strTuple js
    return s :: r
  | _ :: _ => .error .valueError

/-- The keyword arguments read from the metadata (`types/pyarrow.py:236-242`).  Other documents than
those that `to_system` writes are not covered. -/
def collectionKwargs (text : Str) : Except Err (Str × List Str × List Str) :=
  match Json.loads text with
  | none => .error .valueError
  | some (.obj [(k1, .str name), (k2, .arr p), (k3, .arr c)]) =>
    if k1 = "name".toList ∧ k2 = "partition_by".toList ∧ k3 = "cluster_by".toList then do
      let p ← strTuple p
      let c ← strTuple c
      return (name, p, c)
    else .error .unsupported
  | some _ => .error .unsupported

/-- `SchemaTypeAdapter` (`types/pyarrow.py:234-252`). -/
def paSchemaA : Adapter PaObj Ty where
  key := "SchemaTypeAdapter".toList
  priority := 1
  accepts o _ := .ok (match o with
    | .schema _ _ => true
    | _ => false)
  convert root o h :=
    match o with
    | .schema fs metadata => do
      let (name, p, c) ← match metadata.get? metaKey with
        | some text => collectionKwargs text
        | none => .ok (anon, [], [])
      let e ← structA root h fs
      mkCollection name e p c {}
    | _ => .error .attributeError

/-- `DateTimeTypeAdapter.matches_system` and `to_artigraph` (`types/pyarrow.py:291-299` and
`316-318`). -/
def paDateTimeA : Adapter PaObj Ty where
  key := "DateTimeTypeAdapter".toList
  priority := 0
  accepts o _ := .ok (match o with
    | .ty (.timestamp _ none) => true
    | _ => false)
  convert _ o _ :=
    match o with
    | .ty (.timestamp u _) => .ok (.dateTime (unitToPrecision u) {})
    | _ => .error .attributeError

/-- `TimestampTypeAdapter.matches_system` and `to_artigraph` (`types/pyarrow.py:326-335`); `upper`
is that of ASCII. -/
def paTimestampA : Adapter PaObj Ty where
  key := "TimestampTypeAdapter".toList
  priority := 0
  accepts o _ := .ok (match o with
    | .ty (.timestamp _ (some _)) => true
    | _ => false)
  convert _ o _ :=
    match o with
    | .ty (.timestamp u (some tz)) =>
      if tz.map Char.toUpper = utc then .ok (.timestamp (unitToPrecision u) {})
      else .error .valueError
    | _ => .error .attributeError

/-- `_BaseSizedTimeTypeAdapter.matches_system` and `to_artigraph` (`types/pyarrow.py:352-356`). -/
def paTimeA (key : String) (ok : Prec → Bool) (unit : PaTy → Option PaUnit) : Adapter PaObj Ty where
  key := key.toList
  priority := 0
  accepts o _ := .ok (match o with
    | .ty t => (match unit t with
      | some u => ok (unitToPrecision u)
      | none => false)
    | _ => false)
  convert _ o _ :=
    match o with
    | .ty t => (match unit t with
      | some u => .ok (.time (unitToPrecision u) {})
      | none => .error .attributeError)
    | _ => .error .attributeError

def time32Unit : PaTy → Option PaUnit
  | .time32 u => some u
  | _ => none

def time64Unit : PaTy → Option PaUnit
  | .time64 u => some u
  | _ => none

/-- `pyarrow_type_system`, towards artigraph. -/
def paAdaptersA : List (Adapter PaObj Ty) :=
  paPrims.map (fun (k, s, p, pr) => primA k s p pr) ++
  [paBinaryA, paBoolA, paGeographyA, paListA, paMapA, paStructA, paSchemaA, paDateTimeA,
   paTimestampA, paTimeA "Time32TypeAdapter" is32 time32Unit,
   paTimeA "Time64TypeAdapter" (fun p => !is32 p) time64Unit]

def paArti : TypeSystem PaObj Ty :=
  .mk "pyarrow".toList (paAdaptersA.map fun a => (a.key, a)) []

/-- The two directions describe the same adapters. -/
theorem pa_same_registry : paAdaptersS.map (fun a => (a.key, a.priority)) =
    paAdaptersA.map (fun a => (a.key, a.priority)) := rfl

mutual
/-- The number of types inside a type. -/
def PaTy.size : PaTy → Nat
  | .list v => 1 + v.size
  | .map k v => 1 + k.size + v.size
  | .struct fs => 1 + PaTy.sizes fs
  | _ => 1
def PaTy.sizes : List (Str × (PaTy × Bool)) → Nat
  | [] => 0
  | (_, t, _) :: fs => t.size + PaTy.sizes fs
end

def PaObj.size : PaObj → Nat
  | .ty t => t.size
  | .schema fs _ => 1 + PaTy.sizes fs

/-- `pyarrow_type_system.to_artigraph(type_, hints={})`. -/
def paToArtigraph (o : PaObj) : Except Err Ty := run paArti o.size o []

end Typ
end Arti
