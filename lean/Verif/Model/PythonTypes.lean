import Verif.Model.Types

/-!
# The Python type system (`src/arti/types/python.py`) and `Enum` (`src/arti/types/__init__.py`)

Each adapter is given in its two directions (`...S` is `to_system`, `...A` is `to_artigraph`), in
registration order.
-/

namespace Arti
namespace Typ
open TH

/-- A Python type hint. -/
abbrev PyHint := Hint PyCls

/-- Identities of the objects that conversions create: `Optional[h]` and `Literal[...]` objects are
cached by `typing`, so they have an identity of their own; the others are new objects. -/
structure Ids where
  opt : PyHint → Nat
  union : List PyHint → Nat
  lit : List Lit → Nat
  new : Nat

variable (ids : Ids)

/-! ## Hints that the adapters build -/

/-- `Optional[h]` (`typing.Optional`): `Optional[None]` is `type(None)`, and an optional stays as it
is. -/
def mkOptional (h : PyHint) : PyHint :=
  match h with
  | .none => .cls .noneType
  | .cls .noneType => .cls .noneType
  | h => .union (ids.opt h) [h, .cls .noneType]

/-- The annotations of a `TypedDict`: `None` becomes `type(None)` (`typing._type_check`). -/
def fieldHint (h : PyHint) : PyHint :=
  match h with
  | .none => .cls .noneType
  | h => h

mutual
/-- `typing._strip_annotations`, which `get_type_hints` applies to every annotation. -/
def strip : PyHint → PyHint
  | .annotated _ h => strip h
  | .gen i o args => .gen i o (strips args)
  | .tgen i o args => .tgen i o (strips args)
  | .union i args => .union i (strips args)
  | .unionT i args => .unionT i (strips args)
  | h => h
def strips : List PyHint → List PyHint
  | [] => []
  | h :: hs => strip h :: strips hs
end

/-! ## `to_system` -/

def isBinary : Ty → Bool
  | .binary _ _ => true
  | _ => false

def isTimestamp : Ty → Bool
  | .timestamp _ _ => true
  | _ => false

def isEnum : Ty → Bool
  | .enum _ _ _ _ => true
  | _ => false

def isMap : Ty → Bool
  | .map _ _ _ => true
  | _ => false

def isTypedDict : PyHint → Bool
  | .tdict _ _ _ => true
  | _ => false

/-- The artigraph classes and Python classes of the generated scalar adapters, with priorities
(`types/python.py:22-38`, in registration order). -/
def scalarAdapters : List (String × (Ty → Bool) × Ty × PyCls × Int) := [
  ("pythonBinary", isBinary, .binary none {}, .bytes, 0),
  ("pythonBoolean", Ty.isScalar .boolean, .scalar .boolean {}, .bool, 1000),
  ("pythonDate", Ty.isScalar .date, .scalar .date {}, .date, 0),
  ("pythonString", Ty.isScalar .string, .scalar .string {}, .str, 0),
  ("pythonFloat16", Ty.isScalar .float16, .scalar .float16 {}, .float, 16),
  ("pythonFloat32", Ty.isScalar .float32, .scalar .float32 {}, .float, 32),
  ("pythonFloat64", Ty.isScalar .float64, .scalar .float64 {}, .float, 64),
  ("pythonInt8", Ty.isScalar .int8, .scalar .int8 {}, .int, 8),
  ("pythonInt16", Ty.isScalar .int16, .scalar .int16 {}, .int, 16),
  ("pythonInt32", Ty.isScalar .int32, .scalar .int32 {}, .int, 32),
  ("pythonInt64", Ty.isScalar .int64, .scalar .int64 {}, .int, 64)]

/-- `_ScalarClassTypeAdapter.to_system` (`types/__init__.py:322-324`). -/
def scalarS (key : String) (isa : Ty → Bool) (sys : PyHint) (priority : Int) : Adapter Ty PyHint where
  key := key.toList
  priority := priority
  accepts t _ := .ok (isa t)
  convert _ _ _ := .ok sys

/-- `PyNone` (`types/python.py:42-50`). -/
def pyNoneS : Adapter Ty PyHint := scalarS "PyNone" (Ty.isScalar .null) .none 0

/-- `PyDatetime` (`types/python.py:54-61`). -/
def pyDatetimeS : Adapter Ty PyHint :=
  scalarS "PyDatetime" isTimestamp (.cls .datetime) 1

/-- The `element` of the types with one. -/
def elementOf : Ty → Option Ty
  | .list e _ => some e
  | .collection _ e _ _ _ => some e
  | .set e _ => some e
  | _ => none

/-- `PyValueContainer.to_system` (`types/python.py:77-80`). -/
def containerS (key : String) (isa : Ty → Bool) (sys : PyCls) (priority : Int) : Adapter Ty PyHint where
  key := key.toList
  priority := priority
  accepts t _ := .ok (isa t)
  convert root t h :=
    match elementOf t with
    | some e => do
      let a ← root e h
      return .gen ids.new sys [a]
    | none => .error .assertion

def pyListS : Adapter Ty PyHint := containerS ids "PyList" Ty.isList .list 1

/-- `PyTuple.to_system` (`types/python.py:112-118`). -/
def pyTupleS : Adapter Ty PyHint where
  key := "PyTuple".toList
  priority := 0
  accepts t _ := .ok t.isList
  convert root t h :=
    match elementOf t with
    | some e => do
      let a ← root e h
      return .gen ids.new .tuple [a, .ellipsis]
    | none => .error .assertion

def isSet : Ty → Bool
  | .set _ _ => true
  | _ => false

def pyFrozensetS : Adapter Ty PyHint := containerS ids "PyFrozenset" isSet .frozenset 0
def pySetS : Adapter Ty PyHint := containerS ids "PySet" isSet .set 1

/-- `PyLiteral.to_system` (`types/python.py:170-173`). -/
def pyLiteralS : Adapter Ty PyHint where
  key := "PyLiteral".toList
  priority := 0
  accepts t _ := .ok (isEnum t)
  convert _ t _ :=
    match t with
    | .enum _ _ items _ => .ok (.literal (ids.lit items) items)
    | _ => .error .assertion

/-- `PyMap.to_system` (`types/python.py:193-199`). -/
def pyMapS : Adapter Ty PyHint where
  key := "PyMap".toList
  priority := 0
  accepts t _ := .ok (isMap t)
  convert root t h :=
    match t with
    | .map k v _ => do
      let k ← root k h
      let v ← root v h
      return .gen ids.new .dict [k, v]
    | _ => .error .assertion

/-- `int(1e9)` (`types/python.py:207`). -/
def int1e9 : Int := 1000000000

/-- `PyOptional.matches_artigraph` and `to_system` (`types/python.py:209-211` and `223-227`). -/
def pyOptionalS : Adapter Ty PyHint where
  key := "PyOptional".toList
  priority := int1e9
  accepts t _ := .ok t.nullable
  convert root t h := do
    let a ← root (t.setNullable false) h
    return mkOptional ids a

/-- `PyStruct.to_system` (`types/python.py:253-262`). -/
def pyStructS : Adapter Ty PyHint where
  key := "PyStruct".toList
  priority := 0
  accepts t _ := .ok t.isStruct
  convert root t h :=
    match t with
    | .struct name fields _ => do
      let fs ← convertFields (fun f => root f h) fields
      return .tdict ids.new name (fs.map fun (n, a) => (n, fieldHint a))
    | _ => .error .assertion

/-- `python_type_system`, towards Python. -/
def pyAdaptersS : List (Adapter Ty PyHint) :=
  scalarAdapters.map (fun (k, isa, _, c, p) => scalarS k isa (.cls c) p) ++
  [pyNoneS, pyDatetimeS, pyListS ids, pyTupleS ids, pyFrozensetS ids, pySetS ids, pyLiteralS ids,
   pyMapS ids, pyOptionalS ids, pyStructS ids]

def pySys : TypeSystem Ty PyHint :=
  .mk "python".toList ((pyAdaptersS ids).map fun a => (a.key, a)) []

/-- `python_type_system.to_system(type_, hints={})`, with fuel for every type (a nullable type takes
two steps). -/
def pyToSystem (t : Ty) : Except Err PyHint := run (pySys ids) (2 * t.size) t []

/-! ## `Enum` -/

/-- Python's `==` on literal values: `True == 1`. -/
def Lit.pyEq : Lit → Lit → Bool
  | .bool a, .int b => (if a then 1 else 0) = b
  | .int a, .bool b => a = (if b then 1 else 0)
  | a, b => a = b

/-- `frozenset(items)` (`types/__init__.py:102-107`): equal items are kept once. -/
def frozenset : List Lit → List Lit
  | [] => []
  | x :: xs => x :: (frozenset xs).filter fun y => !Lit.pyEq x y

/-- The items that `_validate_values` reports (`types/__init__.py:120`). -/
def mismatched (py : PyHint) : List Lit → Except Err (List Lit)
  | [] => .ok []
  | x :: xs => do
    let b ← lenient PyCls.hier (.cls x.cls) py
    let rest ← mismatched py xs
    return if b then rest else x :: rest

/-- `Enum(name=..., type=..., items=...)` with its validators (`types/__init__.py:98-123`). -/
def mkEnum (name : Str) (t : Ty) (items : List Lit) (m : Meta) : Except Err Ty := do
  let items := frozenset items
  if items.isEmpty then .error .valueError
  else do
    let py ← pyToSystem ids t
    let bad ← mismatched py items
    if bad.isEmpty then return .enum name t items m else .error .valueError

/-! ## `to_artigraph` -/

/-- `_ScalarClassTypeAdapter` (`types/__init__.py:313-320`). -/
def scalarA (key : String) (art : Ty) (sys : PyCls) (priority : Int) : Adapter PyHint Ty where
  key := key.toList
  priority := priority
  accepts h _ := lenient PyCls.hier h (.cls sys)
  convert _ _ _ := .ok art

/-- `PyNone.matches_system` (`types/python.py:48-50`). -/
def pyNoneA : Adapter PyHint Ty where
  key := "PyNone".toList
  priority := 0
  accepts h _ := .ok (isSame h .none)
  convert _ _ _ := .ok (.scalar .null {})

/-- `PyDatetime.to_artigraph` (`types/python.py:59-61`). -/
def pyDatetimeA : Adapter PyHint Ty := scalarA "PyDatetime" (.timestamp .microsecond {}) .datetime 1

/-- `lenient_issubclass(get_origin(type_), cls)`: `False` for special forms and `None`. -/
def originIs (h : PyHint) (c : PyCls) : Except Err Bool :=
  match getOrigin PyCls.hier h with
  | some (.cls o) => lenient PyCls.hier (.cls o) (.cls c)
  | _ => .ok false

/-- `PyValueContainer.to_artigraph` and `matches_system` (`types/python.py:64-75`); `mk` builds the
type. -/
def containerA (key : String) (mk : Ty → Ty) (sys : PyCls) (priority : Int) : Adapter PyHint Ty where
  key := key.toList
  priority := priority
  accepts h _ := originIs h sys
  convert root h hs :=
    match getArgs h with
    | [e] => do
      let t ← root e hs
      return mk t
    | _ => .error .valueError

def pyListA : Adapter PyHint Ty := containerA "PyList" (fun e => .list e {}) .list 1

/-- `args[1] is ...` for two arguments. -/
def variadic (h : PyHint) : Option PyHint :=
  match getArgs h with
  | [e, .ellipsis] => some e
  | _ => none

/-- `PyTuple` (`types/python.py:92-110`). -/
def pyTupleA : Adapter PyHint Ty where
  key := "PyTuple".toList
  priority := 0
  accepts h _ := do
    let b ← originIs h .tuple
    return b && (variadic h).isSome
  convert root h hs :=
    match variadic h with
    | some e => do
      let t ← root e hs
      return .list t {}
    | none => .error .assertion

def pyFrozensetA : Adapter PyHint Ty := containerA "PyFrozenset" (fun e => .set e {}) .frozenset 0
def pySetA : Adapter PyHint Ty := containerA "PySet" (fun e => .set e {}) .set 1

/-- `get_args` of a hint that is a `Literal`. -/
def literalItems : PyHint → List Lit
  | .literal _ items => items
  | _ => []

/-- `PyLiteral` (`types/python.py:135-168`). -/
def pyLiteralA : Adapter PyHint Ty where
  key := "PyLiteral".toList
  priority := 0
  accepts h _ := .ok (isLiteral h || (isUnionHint h && (getArgs h).all isLiteral))
  convert root h hs :=
    let items := if isUnionHint h then (getArgs h).flatMap literalItems else literalItems h
    match items with
    | [] => .error .notImplemented
    | x :: xs =>
      if xs.all (fun y => y.cls = x.cls) then do
        let t ← root (.cls x.cls) hs
        mkEnum ids anon t (x :: xs) {}
      else .error .valueError

/-- `PyMap` (`types/python.py:177-191`). -/
def pyMapA : Adapter PyHint Ty where
  key := "PyMap".toList
  priority := 0
  accepts h _ := do
    let b ← originIs h .dict
    if b then return true else originIs h .mapping
  convert root h hs :=
    match getArgs h with
    | [k, v] => do
      let k ← root k hs
      let v ← root v hs
      return .map k v {}
    | _ => .error .valueError

/-- `Union[tuple(...)]` (`types/python.py:216`). -/
def mkUnion : List PyHint → Except Err PyHint
  | [] => .error .typeError
  | [h] => .ok h
  | hs => .ok (.union (ids.union hs) hs)

/-- `PyOptional` (`types/python.py:203-221`). -/
def pyOptionalA : Adapter PyHint Ty where
  key := "PyOptional".toList
  priority := int1e9
  accepts h _ := .ok (isUnionHint h && (getArgs h).any (fun a => isSame a (.cls .noneType)))
  convert root h hs := do
    let u ← mkUnion ids ((getArgs h).filter fun a => !isSame a (.cls .noneType))
    let t ← root u hs
    return t.setNullable true

/-- `PyStruct` (`types/python.py:231-251`). -/
def pyStructA : Adapter PyHint Ty where
  key := "PyStruct".toList
  priority := 0
  accepts h _ := .ok (isTypedDict h)
  convert root h hs :=
    match h with
    | .tdict _ name fields => do
      let fs ← convertFields (fun a => root (strip (fieldHint a)) hs) fields
      return .struct name fs {}
    | _ => .error .assertion

/-- `python_type_system`, towards artigraph. -/
def pyAdaptersA : List (Adapter PyHint Ty) :=
  scalarAdapters.map (fun (k, _, art, c, p) => scalarA k art c p) ++
  [pyNoneA, pyDatetimeA, pyListA, pyTupleA, pyFrozensetA, pySetA, pyLiteralA ids,
   pyMapA, pyOptionalA ids, pyStructA]

def pyArti : TypeSystem PyHint Ty :=
  .mk "python".toList ((pyAdaptersA ids).map fun a => (a.key, a)) []

/-- The two directions describe the same adapters. -/
theorem same_registry : (pyAdaptersS ids).map (fun a => (a.key, a.priority)) =
    (pyAdaptersA ids).map (fun a => (a.key, a.priority)) := rfl

mutual
/-- A bound on the depth of a hint. -/
def hintSize : PyHint → Nat
  | .tdict _ _ fs => 1 + hintSizesF fs
  | .gen _ _ as => 1 + hintSizes as
  | .tgen _ _ as => 1 + hintSizes as
  | .union _ as => 1 + hintSizes as
  | .unionT _ as => 1 + hintSizes as
  | .tvarB _ h => 1 + hintSize h
  | .annotated _ h => 1 + hintSize h
  | _ => 1
def hintSizes : List PyHint → Nat
  | [] => 0
  | h :: hs => hintSize h + hintSizes hs
def hintSizesF : List (Str × PyHint) → Nat
  | [] => 0
  | (_, h) :: hs => hintSize h + hintSizesF hs
end

/-- `python_type_system.to_artigraph(hint, hints={})`. -/
def pyToArtigraph (h : PyHint) : Except Err Ty := run (pyArti ids) (2 * hintSize h) h []

end Typ
end Arti
