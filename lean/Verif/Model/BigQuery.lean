import Verif.Model.ArrowTypes

/-!
# The BigQuery type system (`src/arti/types/bigquery.py`)

The client library is modelled from its documentation: a `SchemaField` is its name, type, mode,
description and fields; a `Table` is its id, schema, partitioning and clustering.  Warnings are left
out.
-/

namespace Arti
namespace Typ

/-- The SQL types with an adapter; `other` stands for the rest (`NUMERIC`, `JSON`, ...). -/
inductive BqKind
  | bytes | bool | date | geography | string | float64 | int64 | datetime | time | timestamp | struct
  | other (n : Nat)
  deriving DecidableEq, Repr

/-- `BIGQUERY_MODE` (`types/bigquery.py:22-25`). -/
inductive BqMode
  | required | nullable | repeated
  deriving DecidableEq, Repr

/-- A `bigquery.SchemaField`. -/
inductive BqField
  | mk (name : Str) (kind : BqKind) (mode : BqMode) (description : Option Str)
      (fields : List BqField)

def BqField.name : BqField → Str
  | .mk n _ _ _ _ => n

def BqField.kind : BqField → BqKind
  | .mk _ k _ _ _ => k

def BqField.mode : BqField → BqMode
  | .mk _ _ m _ _ => m

def BqField.description : BqField → Option Str
  | .mk _ _ _ d _ => d

def BqField.fields : BqField → List BqField
  | .mk _ _ _ _ fs => fs

/-- `field._properties["mode"] = mode`, on a copy or on the field itself. -/
def BqField.withMode (m : BqMode) : BqField → BqField
  | .mk n k _ d fs => .mk n k m d fs

/-- A `bigquery.Table`.  `timePart` is the time partitioning: whether its type is `DAY`, and its
field, which is absent for partitioning by ingestion time. -/
structure BqTable where
  id : Str
  schema : List BqField
  timePart : Option (Bool × Option Str)
  rangePart : Bool
  requireFilter : Bool
  clustering : Option (List Str)

/-- What the adapters convert to and from. -/
inductive BqObj
  | field (f : BqField)
  | table (t : BqTable)

/-- Where a field is expected; a table among the fields of a `SchemaField` is not covered. -/
def asField : BqObj → Except Err BqField
  | .field f => .ok f
  | .table _ => .error .unsupported

/-! ## `to_system` -/

/-- `BIGQUERY_HINT_FIELD_NAME` (`types/bigquery.py:31`). -/
def bqHint : Str := "bigquery.field_name".toList

/-- `_create_schema_field` (`types/bigquery.py:34-45`). -/
def createField (kind : BqKind) (t : Ty) (h : Hints) (fields : List BqField) : BqField :=
  .mk ((PyDict.get? h bqHint).getD anon) kind (if t.nullable then .nullable else .required)
    t.info.description fields

/-- A `_BigQueryTypeAdapter` without further attributes: the class, the SQL type, the priority and
the result of calling the class. -/
structure BqSimple where
  key : String
  isInstance : Ty → Bool
  kind : BqKind
  make : Meta → Ty
  priority : Int

def isTyTime : Ty → Bool
  | .time _ _ => true
  | _ => false

/-- The generated adapters (`types/bigquery.py:64-91`) and those of the time types
(`types/bigquery.py:94-121`), in registration order. -/
def bqSimples : List BqSimple := [
  ⟨"BigQuerySqlTypeNames.BYTES<class 'arti.types.Binary'>", isTyBinary, .bytes, .binary none, 0⟩,
  ⟨"BigQuerySqlTypeNames.BOOLEAN<class 'arti.types.Boolean'>", Ty.isScalar .boolean, .bool,
    .scalar .boolean, 0⟩,
  ⟨"BigQuerySqlTypeNames.DATE<class 'arti.types.Date'>", Ty.isScalar .date, .date, .scalar .date, 0⟩,
  ⟨"BigQuerySqlTypeNames.GEOGRAPHY<class 'arti.types.Geography'>", isTyGeography, .geography,
    .geography none none, 0⟩,
  ⟨"BigQuerySqlTypeNames.STRING<class 'arti.types.String'>", Ty.isScalar .string, .string,
    .scalar .string, 0⟩,
  ⟨"BigQuerySqlTypeNames.FLOAT<class 'arti.types.Float16'>", Ty.isScalar .float16, .float64,
    .scalar .float16, 16⟩,
  ⟨"BigQuerySqlTypeNames.FLOAT<class 'arti.types.Float32'>", Ty.isScalar .float32, .float64,
    .scalar .float32, 32⟩,
  ⟨"BigQuerySqlTypeNames.FLOAT<class 'arti.types.Float64'>", Ty.isScalar .float64, .float64,
    .scalar .float64, 64⟩,
  ⟨"BigQuerySqlTypeNames.INTEGER<class 'arti.types.Int8'>", Ty.isScalar .int8, .int64,
    .scalar .int8, 8⟩,
  ⟨"BigQuerySqlTypeNames.INTEGER<class 'arti.types.Int16'>", Ty.isScalar .int16, .int64,
    .scalar .int16, 16⟩,
  ⟨"BigQuerySqlTypeNames.INTEGER<class 'arti.types.Int32'>", Ty.isScalar .int32, .int64,
    .scalar .int32, 32⟩,
  ⟨"BigQuerySqlTypeNames.INTEGER<class 'arti.types.Int64'>", Ty.isScalar .int64, .int64,
    .scalar .int64, 64⟩,
  ⟨"DateTimeTypeAdapter", isTyDateTime, .datetime, .dateTime .microsecond, 0⟩,
  ⟨"TimeTypeAdapter", isTyTime, .time, .time .microsecond, 0⟩,
  ⟨"TimestampTypeAdapter", isTyTimestamp, .timestamp, .timestamp .microsecond, 0⟩]

/-- `_BigQueryTypeAdapter.to_system` (`types/bigquery.py:59-61`). -/
def bqSimpleS (a : BqSimple) : Adapter Ty BqObj where
  key := a.key.toList
  priority := a.priority
  accepts t _ := .ok (a.isInstance t)
  convert _ t h := .ok (.field (createField a.kind t h []))

/-- The fields of a struct, each converted with its name as a hint (`types/bigquery.py:150-153`). -/
def bqFieldsS (root : Ty → Hints → Except Err BqObj) (h : Hints) :
    List (Str × Ty) → Except Err (List BqField)
  | [] => .ok []
  | (n, t) :: rest => do
    let o ← root t (PyDict.set h bqHint n)
    let f ← asField o
    let fs ← bqFieldsS root h rest
    return f :: fs

/-- `StructTypeAdapter.to_system` (`types/bigquery.py:143-154`). -/
def bqStructS : Adapter Ty BqObj where
  key := "StructTypeAdapter".toList
  priority := 0
  accepts t _ := .ok t.isStruct
  convert root t h :=
    match t with
    | .struct _ fields _ => do
      let fs ← bqFieldsS root h fields
      return .field (createField .struct t h fs)
    | _ => .error .assertion

/-- `ListFieldTypeAdapter.to_system` (`types/bigquery.py:190-205`). -/
def bqListToSystem (root : Ty → Hints → Except Err BqObj) (t : Ty) (h : Hints) : Except Err BqObj :=
  match t with
  | .list e _ => do
    let e := if e.nullable then e.setNullable false else e
    if e.isList then .error .valueError
    let o ← root e h
    let f ← asField o
    if f.mode = .required then return .field (f.withMode .repeated) else .error .assertion
  | _ => .error .assertion

/-- `ListFieldTypeAdapter`, with `matches_artigraph` (`types/bigquery.py:183-188`). -/
def bqListS : Adapter Ty BqObj where
  key := "ListFieldTypeAdapter".toList
  priority := 1000000000
  accepts t _ := .ok (t.isList && !t.isCollection)
  convert := bqListToSystem

/-- `Table(name)`: the id must have three parts.  Ids of domain-scoped projects, which have a colon,
are not covered. -/
def bqTableId (name : Str) : Except Err Str :=
  if ':' ∈ name then .error .unsupported
  else if (splitOn '.' name).length = 3 then .ok name else .error .valueError

def isDayPart : Ty → Bool
  | .scalar .date _ => true
  | .dateTime _ _ => true
  | .timestamp _ _ => true
  | _ => false

/-- `isinstance(type_, _Int)`. -/
def isTyInt : Ty → Bool
  | .scalar s _ => [.int8, .int16, .int32, .int64, .uint8, .uint16, .uint32, .uint64].contains s
  | _ => false

/-- The partitioning and the clustering of a table (`types/bigquery.py:257-278`). -/
def bqPartitioning (fields : List (Str × Ty)) (partitionBy clusterBy : List Str) :
    Except Err (Option (Bool × Option Str) × List Str) :=
  match partitionBy with
  | [] => .ok (none, clusterBy)
  | head :: tail =>
    match PyDict.get? fields head with
    | none => .error .keyError
    | some t =>
      if isDayPart t then .ok (some (true, some head), tail ++ clusterBy)
      else if isTyInt t then .error .notImplemented
      else .error .valueError

/-- `TableTypeAdapter.to_system` (`types/bigquery.py:248-279`). -/
def bqTableS : Adapter Ty BqObj where
  key := "TableTypeAdapter".toList
  priority := 1000000001
  accepts t _ := .ok t.isCollection
  convert root t h :=
    match t with
    | .collection name (.struct sn fields sm) p c _ => do
      let name := if name = anon then "project.dataset.table".toList else name
      let o ← root (.struct sn fields sm) h
      let f ← asField o
      let id ← bqTableId name
      let (part, cluster) ← bqPartitioning fields p c
      return .table
        { id, schema := f.fields, timePart := part, rangePart := false, requireFilter := part.isSome,
          clustering := if cluster = [] then none else some cluster }
    | _ => .error .assertion

/-- `bigquery_type_system`, towards BigQuery. -/
def bqAdaptersS : List (Adapter Ty BqObj) :=
  bqSimples.map bqSimpleS ++ [bqStructS, bqListS, bqTableS]

def bqSys : TypeSystem Ty BqObj :=
  .mk "bigquery".toList (bqAdaptersS.map fun a => (a.key, a)) []

/-- `bigquery_type_system.to_system(type_, hints={})`. -/
def bqToSystem (t : Ty) : Except Err BqObj := run bqSys t.size t []

/-! ## `to_artigraph` -/

/-- `description=type_.description, nullable=type_.is_nullable`. -/
def bqMeta (f : BqField) : Meta :=
  { description := f.description, nullable := decide (f.mode = .nullable) }

/-- `_BigQueryTypeAdapter.matches_system` and `to_artigraph` (`types/bigquery.py:49-57`), and
`_BaseTimeTypeAdapter.to_artigraph` (`types/bigquery.py:98-103`). -/
def bqSimpleA (a : BqSimple) : Adapter BqObj Ty where
  key := a.key.toList
  priority := a.priority
  accepts o _ := .ok (match o with
    | .field f => decide (f.kind = a.kind)
    | .table _ => false)
  convert _ o _ :=
    match o with
    | .field f => .ok (a.make (bqMeta f))
    | .table _ => .error .attributeError

/-- The fields of a struct, in order. -/
def bqFieldsA (root : BqObj → Hints → Except Err Ty) (h : Hints) :
    List BqField → Except Err (List (Str × Ty))
  | [] => .ok []
  | f :: rest => do
    let t ← root (.field f) h
    let ts ← bqFieldsA root h rest
    return (f.name, t) :: ts

/-- `StructTypeAdapter.to_artigraph` (`types/bigquery.py:131-141`): the fields are a dictionary. -/
def bqStructA : Adapter BqObj Ty where
  key := "StructTypeAdapter".toList
  priority := 0
  accepts o _ := .ok (match o with
    | .field f => decide (f.kind = .struct)
    | .table _ => false)
  convert root o h :=
    match o with
    | .field f => do
      let fs ← bqFieldsA root h f.fields
      return .struct anon (PyDict.ofItems fs) (bqMeta f)
    | .table _ => .error .attributeError

/-- `ListFieldTypeAdapter.to_artigraph` and `matches_system` (`types/bigquery.py:165-181`). -/
def bqListA : Adapter BqObj Ty where
  key := "ListFieldTypeAdapter".toList
  priority := 1000000000
  accepts o _ := .ok (match o with
    | .field f => decide (f.mode = .repeated)
    | .table _ => false)
  convert root o h :=
    match o with
    | .field f => do
      let e ← root (.field (f.withMode .required)) h
      return .list e { description := f.description, nullable := false }
    | .table _ => .error .attributeError

/-- `partition_by` of a table (`types/bigquery.py:218-227`); a table that is partitioned by ingestion
time has no field, and `(None,)` is not valid. -/
def bqPartitionBy (t : BqTable) : Except Err (List Str) :=
  match t.timePart with
  | none => if t.rangePart then .error .notImplemented else .ok []
  | some (false, _) => .error .notImplemented
  | some (true, field) =>
    if t.rangePart then .error .notImplemented
    else match field with
      | none => .error .valueError
      | some f => .ok [f]

/-- `TableTypeAdapter.to_artigraph` (`types/bigquery.py:214-242`). -/
def bqTableA : Adapter BqObj Ty where
  key := "TableTypeAdapter".toList
  priority := 1000000001
  accepts o _ := .ok (match o with
    | .field _ => false
    | .table _ => true)
  convert root o h :=
    match o with
    | .table t => do
      let p ← bqPartitionBy t
      let e ← root (.field (.mk anon .struct .required none t.schema)) h
      mkCollection t.id e p (t.clustering.getD []) {}
    | .field _ => .error .attributeError

/-- `bigquery_type_system`, towards artigraph. -/
def bqAdaptersA : List (Adapter BqObj Ty) :=
  bqSimples.map bqSimpleA ++ [bqStructA, bqListA, bqTableA]

def bqArti : TypeSystem BqObj Ty :=
  .mk "bigquery".toList (bqAdaptersA.map fun a => (a.key, a)) []

/-- The two directions describe the same adapters. -/
theorem bq_same_registry : bqAdaptersS.map (fun a => (a.key, a.priority)) =
    bqAdaptersA.map (fun a => (a.key, a.priority)) := rfl

mutual
/-- The depth of the conversions of a field: a repeated field takes two. -/
def BqField.size : BqField → Nat
  | .mk _ _ m _ fs => (if m = .repeated then 2 else 1) + BqField.sizes fs
def BqField.sizes : List BqField → Nat
  | [] => 0
  | f :: fs => f.size + BqField.sizes fs
end

def BqObj.size : BqObj → Nat
  | .field f => f.size
  | .table t => 2 + BqField.sizes t.schema

/-- `bigquery_type_system.to_artigraph(type_, hints={})`. -/
def bqToArtigraph (o : BqObj) : Except Err Ty := run bqArti o.size o []

end Typ
end Arti
