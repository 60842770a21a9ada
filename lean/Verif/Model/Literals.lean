import Verif.Model.Json
import Verif.Model.PythonTypes
import Verif.Model.Storage
import Verif.Model.Io

/-!
# Literals assigned to graphs

(`src/arti/artifacts/__init__.py:80-116`, `src/arti/internal/type_hints.py:143-162`,
`src/arti/io/json_stringliteral_python.py`, `src/arti/graphs/__init__.py:58-78` and `205-247`)
-/

namespace Arti
namespace Lit
open TH Typ Stg

/-- A Python value of builtin classes.  A float is its `repr`; bytes, dates and datetimes are only
told apart. -/
inductive Val
  | none
  | bool (b : Bool)
  | int (i : Int)
  | flt (text : Str)
  | str (s : Str)
  | bytes (s : Str)
  | date (n : Nat)
  | datetime (n : Nat)
  | list (xs : List Val)
  | tuple (xs : List Val)
  | set (xs : List Val)
  | frozenset (xs : List Val)
  | dict (items : List (Val × Val))

namespace Val

/-- `type(value)`. -/
def cls : Val → PyCls
  | .none => .noneType
  | .bool _ => .bool
  | .int _ => .int
  | .flt _ => .float
  | .str _ => .str
  | .bytes _ => .bytes
  | .date _ => .date
  | .datetime _ => .datetime
  | .list _ => .list
  | .tuple _ => .tuple
  | .set _ => .set
  | .frozenset _ => .frozenset
  | .dict _ => .dict

/-- `isinstance(value, c)`. -/
def isInstance (v : Val) (c : PyCls) : Bool := decide (c ∈ PyCls.mro v.cls)

end Val

variable (ids : Ids)

/-- The branch of `get_annotation_from_value` for tuples, lists and sets
(`type_hints.py:148-154`); `first, *tail = tuple(value)` raises for an empty value. -/
def elementClass : List Val → Except Err PyCls
  | [] => .error .valueError
  | x :: tail => if tail.all (·.isInstance x.cls) then .ok x.cls else .error .notImplemented

/-- `get_annotation_from_value` (`type_hints.py:143-162`). -/
def annotationOf (v : Val) : Except Err PyHint :=
  match v with
  | .none => .ok .none
  | .list xs => (elementClass xs).map fun c => .gen ids.new .list [.cls c]
  | .set xs => (elementClass xs).map fun c => .gen ids.new .set [.cls c]
  | .frozenset xs => (elementClass xs).map fun c => .gen ids.new .frozenset [.cls c]
  | .tuple xs => (elementClass xs).map fun c => .gen ids.new .tuple [.cls c, .ellipsis]
  | .dict [] => .error .stopIteration
  | .dict ((k, x) :: items) =>
    if items.all (fun p => p.1.isInstance k.cls && p.2.isInstance x.cls) then
      .ok (.gen ids.new .dict [.cls k.cls, .cls x.cls])
    else .error .notImplemented
  | v => .ok (.cls v.cls)

/-! ## `json.dumps` and `json.loads` on values -/

/-- The text of a key: `json.dumps` accepts strings, numbers, booleans and `None`. -/
def keyText : Val → Except Err Str
  | .str s => .ok s
  | .flt t => .ok t
  | .bool true => .ok "true".toList
  | .bool false => .ok "false".toList
  | .none => .ok "null".toList
  | .int i => .ok (intToStr i)
  | _ => .error .typeError

mutual
/-- The document that `json.dumps` writes: tuples are arrays; sets, bytes and dates raise. -/
def toJson : Val → Except Err Json
  | .none => .ok .null
  | .bool b => .ok (.bool b)
  | .int i => .ok (.int i)
  | .flt t => .ok (.flt t)
  | .str s => .ok (.str s)
  | .list xs => (toJsons xs).map .arr
  | .tuple xs => (toJsons xs).map .arr
  | .dict items => (toJsonItems items).map .obj
  | _ => .error .typeError
def toJsons : List Val → Except Err (List Json)
  | [] => .ok []
  | x :: xs => do
    let j ← toJson x
    let js ← toJsons xs
    return j :: js
def toJsonItems : List (Val × Val) → Except Err (List (Str × Json))
  | [] => .ok []
  | (k, x) :: items => do
    let k ← keyText k
    let j ← toJson x
    let js ← toJsonItems items
    return (k, j) :: js
end

/-- `json.dumps(value)`. -/
def dumps (v : Val) : Except Err Str := (toJson v).map (Json.write Json.python)

mutual
/-- The value that `json.loads` makes of a document: the last of several equal keys wins. -/
def ofJson : Json → Val
  | .null => .none
  | .bool b => .bool b
  | .int i => .int i
  | .flt t => .flt t
  | .str s => .str s
  | .arr js => .list (ofJsons js)
  | .obj items => .dict ((PyDict.ofItems (ofJsonItems items)).map fun (k, v) => (.str k, v))
def ofJsons : List Json → List Val
  | [] => []
  | j :: js => ofJson j :: ofJsons js
def ofJsonItems : List (Str × Json) → List (Str × Val)
  | [] => []
  | (k, j) :: js => (k, ofJson j) :: ofJsonItems js
end

/-- `json.loads(text)`; a `JSONDecodeError` is a `ValueError`. -/
def loads (text : Str) : Except Err Val :=
  match Json.loads text with
  | some j => .ok (ofJson j)
  | .none => .error .valueError

/-! ## `Artifact.cast` and assignment to a graph -/

/-- The default of `StringLiteral.id` (`storage/literal.py:29`). -/
def defaultId : Str :=
  ("{graph_name}/{path_tags}/{names}/{partition_key_spec}/{input_fingerprint}/" ++
    "{name}{extension}").toList

/-- An artifact in JSON format with `StringLiteral` storage. -/
structure LitArtifact where
  type : Ty
  storage : LitStorage

/-- `Storage.resolve` (`storage/__init__.py:237-247`) of a `StringLiteral`: all of its string
fields are resolved, also the value. -/
def resolveLit (values : List (Str × Str)) (st : LitStorage) : Except Err LitStorage := do
  let id ← resolveField values st.id
  match st.value with
  | none => .ok { st with id := id }
  | some v => do
    let v ← resolveField values v
    .ok { st with id := id, value := some v }

/-- `PartitionKey.types_from(type_)` (`partitions/__init__.py:59-71`) for types that are not
collections.  `Artifact.cast` makes no collections. -/
def keyTypesFrom (t : Ty) : Except Err KeyTypes :=
  if t.isCollection then .error .unsupported else .ok []

/-- `JSON().extension` (`formats/json.py:7`). -/
def jsonExtension : Str := ".json".toList

/-- `Artifact.cast(value)` of a value that is neither an `Artifact` nor a `Producer`
(`artifacts/__init__.py:111-116`), with the validators of the format and the storage
(`artifacts/__init__.py:56-73`, `formats/__init__.py:23-26`). -/
def castValue (v : Val) : Except Err LitArtifact := do
  let annotation ← annotationOf ids v
  let t ← pyToArtigraph ids annotation
  let text ← dumps v
  let _ ← pyToSystem ids t
  let kt ← keyTypesFrom t
  let st ← resolveLit (typeValues kt) ⟨defaultId, some text, some kt⟩
  let st ← resolveLit (formatValues jsonExtension) st
  .ok ⟨t, st⟩

/-- What assigning a raw artifact to an open graph makes of its storage
(`graphs/__init__.py:58-78`). -/
def assign (graphName : Str) (pathTags : PyDict Str Str) (names : List Str) (a : LitArtifact) :
    Except Err LitArtifact := do
  let st ← resolveLit (graphValues graphName pathTags) a.storage
  let st ← resolveLit (namesValues names) st
  let st ← resolveLit (ifpValues none) st
  .ok { a with storage := st }

/-- `_read_json_literal` (`io/json_stringliteral_python.py:15-20`). -/
def readLiteral (p : LitPartition) : Except Err Val :=
  match p.value with
  | none => .error .assertion
  | some text => loads text

/-- `Graph.read` of a raw literal (`graphs/__init__.py:231-247`) through `io.read`
(`io/__init__.py:43-63`), for a type that is not partitioned. -/
def read (hash : Str → Fp) (a : LitArtifact) : Except Err Val := do
  let ss ← discoverLit hash a.storage []
  match ss with
  | [] => .error .fileNotFound
  | [s] => readLiteral s.partition
  | _ => .error .valueError

/-- Casting a value, assigning the artifact to a graph and reading it
(`g.artifacts.x = Artifact.cast(value)`; a `dict` that is assigned directly becomes a nested box of
its values instead, see `Verif.Model.TypedBox`). -/
def roundTrip (hash : Str → Fp) (graphName : Str) (pathTags : PyDict Str Str) (names : List Str)
    (v : Val) : Except Err Val := do
  let a ← castValue ids v
  let a ← assign graphName pathTags names a
  read hash a

end Lit
end Arti
