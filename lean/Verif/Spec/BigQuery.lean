import Verif.Model.BigQuery
import Verif.Spec.Views

/-!
# Specification: what the BigQuery type system supports, and what a round trip changes
-/

namespace Arti
namespace Spec
open Typ

/-- The scalars of BigQuery: signed integers and floats of every width, but no unsigned integers and
no `Null`. -/
def BqScalar : Scalar → Prop
  | .boolean | .date | .string | .float16 | .float32 | .float64 | .int8 | .int16 | .int32 | .int64 =>
      True
  | _ => False

mutual
/-- The types that a BigQuery column can have: no enums, sets, maps or collections, and no lists
directly in lists. -/
def BqData : Ty → Prop
  | .scalar s _ => BqScalar s
  | .binary _ _ => True
  | .geography _ _ _ => True
  | .dateTime _ _ => True
  | .time _ _ => True
  | .timestamp _ _ => True
  | .list e _ => (∀ e' m, e ≠ .list e' m) ∧ BqData e
  | .struct _ fs _ => BqFields fs
  | _ => False
def BqFields : List (Str × Ty) → Prop
  | [] => True
  | (_, t) :: fs => BqData t ∧ BqFields fs
end

/-- A column that a table can be partitioned by. -/
def BqDay : Ty → Prop
  | .scalar .date _ => True
  | .dateTime _ _ => True
  | .timestamp _ _ => True
  | _ => False

/-- The fully qualified id of a table: three parts separated by dots. -/
def BqId (name : Str) : Prop :=
  ':' ∉ name ∧ ∃ a b c : Str, '.' ∉ a ∧ '.' ∉ b ∧ '.' ∉ c ∧ name = a ++ '.' :: b ++ '.' :: c

/-- The types that have a BigQuery counterpart: column types, and at the root collections of structs
whose name is the id of a table or the default, and that are partitioned by a day first. -/
def BqSupported : Ty → Prop
  | .collection name (.struct _ fs _) p _ _ =>
      BqFields fs ∧ (name = anon ∨ BqId name) ∧
        ∀ head tail, p = head :: tail → ∃ t, (head, t) ∈ fs ∧ BqDay t
  | .collection _ _ _ _ _ => False
  | t => BqData t

mutual
/-- There is no collection inside the type. -/
def NoCollection : Ty → Prop
  | .enum _ t _ _ => NoCollection t
  | .list e _ => NoCollection e
  | .set e _ => NoCollection e
  | .map k v _ => NoCollection k ∧ NoCollection v
  | .struct _ fs _ => NoCollectionF fs
  | .collection _ _ _ _ _ => False
  | _ => True
def NoCollectionF : List (Str × Ty) → Prop
  | [] => True
  | (_, t) :: fs => NoCollection t ∧ NoCollectionF fs
end

/-- What is known of every type that can be made: the names of fields are distinct, collections are
collections of structs, their partition and cluster fields exist and are disjoint.  Collections "should
not be nested in other types" (`types/__init__.py:171-172`). -/
def Valid : Ty → Prop
  | .collection _ (.struct _ fs _) p c _ =>
      ((fs.map Prod.fst).Nodup ∧ DistinctNamesF fs) ∧ NoCollectionF fs ∧
        (∀ x ∈ p, x ∈ fs.map Prod.fst) ∧ (∀ x ∈ c, x ∈ fs.map Prod.fst) ∧ ∀ x ∈ c, x ∉ p
  | .collection _ _ _ _ _ => False
  | t => DistinctNames t ∧ NoCollection t

/-- The widest scalar of the kind. -/
def bqWiden : Scalar → Scalar
  | .float16 | .float32 => .float64
  | .int8 | .int16 | .int32 => .int64
  | s => s

/-- The SQL type of a column; a repeated column has the type of its elements. -/
def bqKindOf : Ty → Option BqKind
  | .scalar .boolean _ => some .bool
  | .scalar .date _ => some .date
  | .scalar .string _ => some .string
  | .scalar .float16 _ | .scalar .float32 _ | .scalar .float64 _ => some .float64
  | .scalar .int8 _ | .scalar .int16 _ | .scalar .int32 _ | .scalar .int64 _ => some .int64
  | .binary _ _ => some .bytes
  | .geography _ _ _ => some .geography
  | .dateTime _ _ => some .datetime
  | .time _ _ => some .time
  | .timestamp _ _ => some .timestamp
  | .struct _ _ _ => some .struct
  | .list e _ => bqKindOf e
  | _ => none

/-- The column that stands for a field: named after it, of the SQL type of the field, repeated if the
field is a list, and otherwise nullable if the field is. -/
structure BqColumn (n : Str) (t : Ty) (f : BqField) : Prop where
  name : f.name = n
  kind : bqKindOf t = some f.kind
  repeated : (∃ e m, t = .list e m) → f.mode = .repeated
  mode : (∀ e m, t ≠ .list e m) → f.mode = if t.nullable then .nullable else .required
  description : (∀ e m, t ≠ .list e m) → f.description = t.info.description

mutual
/-- What comes back: numbers are widened to 64 bits, times have microseconds, sizes of binaries,
attributes of geographies and names of structs are lost, and lists have the description of their
elements and are not nullable, nor are their elements. -/
def bqForget : Ty → Ty
  | .scalar s m => .scalar (bqWiden s) m
  | .binary _ m => .binary none m
  | .geography _ _ m => .geography none none m
  | .dateTime _ m => .dateTime .microsecond m
  | .time _ m => .time .microsecond m
  | .timestamp _ m => .timestamp .microsecond m
  | .list e _ => .list ((bqForget e).setNullable false) { description := e.info.description }
  | .struct _ fs m => .struct anon (bqForgetFields fs) m
  | t => t
def bqForgetFields : List (Str × Ty) → List (Str × Ty)
  | [] => []
  | (n, t) :: fs => (n, bqForget t) :: bqForgetFields fs
end

/-- The same for root types: a table is partitioned by one column and clustered by the other ones, and
has a qualified name. -/
def bqForgetRoot : Ty → Ty
  | .collection name (.struct _ fs _) p c _ =>
      .collection (if name = anon then "project.dataset.table".toList else name)
        (.struct anon (bqForgetFields fs) {}) p.head?.toList (p.tail ++ c) {}
  | t => bqForget t

mutual
/-- The types that BigQuery carries completely. -/
def BqExact : Ty → Prop
  | .scalar s _ => bqWiden s = s
  | .binary size _ => size = none
  | .geography f s _ => f = none ∧ s = none
  | .dateTime p _ => p = .microsecond
  | .time p _ => p = .microsecond
  | .timestamp p _ => p = .microsecond
  | .list e m => BqExact e ∧ e.nullable = false ∧ m.nullable = false ∧
      m.description = e.info.description
  | .struct n fs _ => n = anon ∧ BqExactFields fs
  | _ => False
def BqExactFields : List (Str × Ty) → Prop
  | [] => True
  | (_, t) :: fs => BqExact t ∧ BqExactFields fs
end

/-- The type of a column that has no columns of its own. -/
def bqPlain : BqKind → Option (Meta → Ty)
  | .bytes => some (.binary none)
  | .bool => some (.scalar .boolean)
  | .date => some (.scalar .date)
  | .geography => some (.geography none none)
  | .string => some (.scalar .string)
  | .float64 => some (.scalar .float64)
  | .int64 => some (.scalar .int64)
  | .datetime => some (.dateTime .microsecond)
  | .time => some (.time .microsecond)
  | .timestamp => some (.timestamp .microsecond)
  | .struct => none
  | .other _ => none

mutual
/-- The type that describes a column of an existing table, if its SQL type and those of its columns are
known: nullable if the mode is `NULLABLE`, and a list if it is `REPEATED`. -/
def bqRead : BqField → Option Ty
  | .mk _ k mode d fs =>
    let m : Meta := { description := d, nullable := decide (mode = .nullable) }
    let e := if k = .struct then (bqReadFields fs).map fun ts => .struct anon (PyDict.ofItems ts) m
      else (bqPlain k).map (· m)
    if mode = .repeated then e.map fun e => .list e { description := d } else e
def bqReadFields : List BqField → Option (List (Str × Ty))
  | [] => some []
  | f :: fs =>
    match bqRead f, bqReadFields fs with
    | some t, some ts => some ((f.name, t) :: ts)
    | _, _ => none
end

/-- The collection that describes an existing table: its columns are known, and it is either not
partitioned or partitioned by the days of one column, which is not a clustering column. -/
structure BqReadTable (t : BqTable) (c : Ty) : Prop where
  range : t.rangePart = false
  described : ∃ fs p, bqReadFields t.schema = some fs ∧
    (t.timePart = none ∧ p = [] ∨ ∃ f, t.timePart = some (true, some f) ∧ p = [f]) ∧
    (∀ x ∈ p, x ∈ t.schema.map BqField.name) ∧
    (∀ x ∈ t.clustering.getD [], x ∈ t.schema.map BqField.name ∧ x ∉ p) ∧
    c = .collection t.id (.struct anon (PyDict.ofItems fs) {}) p (t.clustering.getD []) {}

end Spec
end Arti
