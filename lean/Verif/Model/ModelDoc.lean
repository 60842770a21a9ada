import Verif.Model.Json

/-!
# The documents that models are fingerprinted by

`Model.fingerprint` (`/repo/src/arti/internal/models.py:162-168`) hashes `self.model_dump_json()`. This
file models the values that models hold, the names of the fields that enter the document
(`models.py:88-122`, narrowed for `SemVer` in `/repo/src/arti/versions/__init__.py:42-58`), the
serialiser (`models.py:138-144`) and the caching of the fingerprint (`models.py:162`).

Simplified:
* Values that pydantic writes as a JSON string without being one (dates, naive datetimes, timedeltas, ...) are
  `text kind s` with `s` the text that is written. Aware datetimes (`versions/__init__.py:75-88`) are
  `stamp us offset`: an instant in microseconds and the offset of its timezone in minutes; the ISO text
  is replaced by the local time and the offset, of which it is a one-to-one rendering. Floats are left
  out: no model of the package has a float field. A `Fingerprint` field is its int.
* Mappings have string keys (all mapping fields of the package do). A `TypedBox` is serialised as
  `dict(sorted(b.walk()))` (`mappings.py:251-254`): it stands here as the mapping after that function.
* Classes have no computed field other than `_arti_type_` (none of the package does).
-/

namespace Arti.MDoc
open Json

/-- `_arti_type_`, the name of the computed field (`models.py:70-77`). -/
def typeName : Str := "_arti_type_".toList

/-- The declared types of fields, as far as the kinds of their values go. -/
inductive Ty
  | bool
  | int
  | str
  | text (kind : Nat)
  | stamp
  | opt (t : Ty)
  | seq (t : Ty)
  | set (t : Ty)
  | map (t : Ty)
  | model
  | any
  deriving DecidableEq

/-- A field of a class: its `field_info.exclude`, and whether its annotation carries a true
`SkipFingerprint` (`/repo/src/arti/fingerprints/__init__.py:69-90`). -/
structure FieldInfo where
  name : Str
  exclude : Bool
  skip : Bool
  ty : Ty
  deriving DecidableEq

/-- A concrete class. `uid` is its identity and `name` its `_arti_type_key_`, the bare `__name__`
(`models.py:67`); `semver` marks `SemVer` and its subclasses. -/
structure Cls where
  uid : Nat
  name : Str
  fields : List FieldInfo
  semver : Bool
  deriving DecidableEq

/-- The values of fields. Frozensets list their items in iteration order, mappings and models in
insertion order. -/
inductive Val
  | null
  | bool (b : Bool)
  | int (i : Int)
  | str (s : Str)
  | text (kind : Nat) (s : Str)
  | stamp (us offset : Int)
  | seq (items : List Val)
  | set (items : List Val)
  | map (items : List (Str × Val))
  | model (cls : Cls) (values : List (Str × Val))

/-- Python's `<=` on strings: by code points. -/
def strLe : Str → Str → Bool
  | [], _ => true
  | _ :: _, [] => false
  | a :: as, b :: bs => decide (a.toNat < b.toNat) || (a == b && strLe as bs)

/-- Insert into a sorted list. -/
def insertName (a : Str) : List Str → List Str
  | [] => [a]
  | b :: l => if strLe a b then a :: b :: l else b :: insertName a l

/-- `sorted(names)`. -/
def sortNames : List Str → List Str
  | [] => []
  | a :: l => insertName a (sortNames l)

/-- The class attribute `_arti_fingerprint_fields_`; `models.py:94-122`. -/
def classFields (c : Cls) : List Str :=
  sortNames ((((c.fields.filter fun f => !f.exclude).filter fun f => !f.skip).map (·.name)) ++ [typeName])

/-- `self.major > 0`. -/
def majorPos (values : List (Str × Val)) : Bool :=
  match PyDict.get? values "major".toList with
  | some (.int m) => decide (0 < m)
  | _ => false

/-- `self._arti_fingerprint_fields_`: `SemVer.model_post_init` sets it on the instance
(`versions/__init__.py:42-58`), other models use the class attribute. -/
def instFields (c : Cls) (values : List (Str × Val)) : List Str :=
  if c.semver then
    let desired := if majorPos values then [typeName, "major".toList]
      else [typeName, "major".toList, "minor".toList, "patch".toList]
    (classFields c).filter fun f => decide (f ∈ desired)
  else classFields c

/-- Whether the class excludes the field. -/
def excluded (c : Cls) (n : Str) : Bool := c.fields.any fun f => f.name == n && f.exclude

/-- The text of an aware datetime. -/
def stampText (us offset : Int) : Str :=
  intToStr (us + offset * 60000000) ++ '@' :: intToStr offset

mutual
/-- What pydantic writes for a value; for models `_arti_serialize_model` (`models.py:138-144`): `data` has
the fields that are not excluded, then the computed `_arti_type_`. -/
def toJson : Val → Json
  | .null => .null
  | .bool b => .bool b
  | .int i => .int i
  | .str s => .str s
  | .text _ s => .str s
  | .stamp us offset => .str (stampText us offset)
  | .seq items => .arr (toItems items)
  | .set items => .arr (toItems items)
  | .map items => .obj (toFields items)
  | .model c values =>
    let data := (toFields values).filter (fun p => !excluded c p.1) ++ [(typeName, .str c.name)]
    .obj ((instFields c values).filterMap fun f => (PyDict.get? data f).map fun j => (f, j))
def toItems : List Val → List Json
  | [] => []
  | v :: vs => toJson v :: toItems vs
def toFields : List (Str × Val) → List (Str × Json)
  | [] => []
  | (k, v) :: vs => (k, toJson v) :: toFields vs
end

/-- `model_dump_json()`; `models.py:150-152`. -/
def doc (v : Val) : Str := write compact (toJson v)

/-- A field without metadata. -/
def plain (n : String) (t : Ty) : FieldInfo := ⟨n.toList, false, false, t⟩

/-- `SemVer`; `versions/__init__.py:31-40`. -/
def semverCls : Cls := ⟨0, "SemVer".toList, [plain "major" .int, plain "minor" .int, plain "patch" .int], true⟩

/-- `SemVer(major=a, minor=b, patch=c)`. -/
def semver (a b c : Int) : Val :=
  .model semverCls [("major".toList, .int a), ("minor".toList, .int b), ("patch".toList, .int c)]

/-- `versions.Timestamp`; `versions/__init__.py:75-88`. -/
def timestampCls : Cls := ⟨1, "Timestamp".toList, [plain "dt" .stamp], false⟩

/-- `Type.description`, which is skipped, and `Type.nullable`; `/repo/src/arti/types/__init__.py:32-33`. -/
def typeFields : List FieldInfo :=
  [⟨"description".toList, false, true, .opt .str⟩, plain "nullable" .bool]

/-- `types.Int64`; `types/__init__.py:159`. -/
def int64Cls : Cls := ⟨2, "Int64".toList, typeFields, false⟩

/-- `types.Struct`; `types/__init__.py:48-49,243-249`. -/
def structCls : Cls :=
  ⟨3, "Struct".toList, typeFields ++ [plain "name" .str, plain "fields" (.map .model)], false⟩

/-- `types.Enum`; `types/__init__.py:48-49,98-123`. -/
def enumCls : Cls :=
  ⟨4, "Enum".toList, typeFields ++ [plain "name" .str, plain "type" .model, plain "items" (.set .any)], false⟩

/-- `Int64(description=...)`. -/
def int64 (description : Val) : Val :=
  .model int64Cls [("description".toList, description), ("nullable".toList, .bool false)]

/-- `Struct(name=..., fields={...})`. -/
def struct (name : Str) (fields : List (Str × Val)) : Val :=
  .model structCls [("description".toList, .null), ("nullable".toList, .bool false),
    ("name".toList, .str name), ("fields".toList, .map fields)]

/-- `Enum(name=..., type=..., items=...)`. -/
def enum (name : Str) (type : Val) (items : List Val) : Val :=
  .model enumCls [("description".toList, .null), ("nullable".toList, .bool false),
    ("name".toList, .str name), ("type".toList, type), ("items".toList, .set items)]

/-- A model object: its field values, and the `fingerprint` entry of its `__dict__` once it was computed. -/
structure Obj where
  cls : Cls
  values : List (Str × Val)
  cached : Option Fp

/-- A newly validated model. -/
def Obj.new (c : Cls) (values : List (Str × Val)) : Obj := ⟨c, values, none⟩

/-- `o.fingerprint`: a `cached_property`, so the first value stays; `models.py:162-168`. `hash` is
`Fingerprint.from_string`. -/
def Obj.fingerprint (hash : Str → Fp) (o : Obj) : Fp × Obj :=
  match o.cached with
  | some f => (f, o)
  | none =>
    let f := hash (doc (.model o.cls o.values))
    (f, { o with cached := some f })

/-- `o.model_copy(update=update)` of pydantic: a shallow copy of `__dict__` - which holds the cached
fingerprint - updated in place. (The copy of a `SemVer` also keeps the instance's field names, which is
left out here.) -/
def Obj.copy (o : Obj) (update : List (Str × Val)) : Obj :=
  { o with values := o.values.map fun p => (p.1, (PyDict.get? update p.1).getD p.2) }

end Arti.MDoc
