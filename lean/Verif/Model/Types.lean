import Verif.Model.Hints
import Verif.Model.Utils

/-!
# Types and type systems (`src/arti/types/__init__.py`)
-/

namespace Arti
namespace Typ
open TH

/-- `precision` of the time types (`types/__init__.py:61-62`). -/
inductive Prec
  | second | millisecond | microsecond | nanosecond
  deriving DecidableEq, Repr

/-- The types without further attributes (`types/__init__.py:86-276`). -/
inductive Scalar
  | boolean | date | null | string
  | float16 | float32 | float64
  | int8 | int16 | int32 | int64
  | uint8 | uint16 | uint32 | uint64
  deriving DecidableEq, Repr

/-- The fields of every `Type` (`types/__init__.py:31-33`). -/
structure Meta where
  description : Option Str := none
  nullable : Bool := false
  deriving DecidableEq, Repr

/-- A `Type` (`types/__init__.py:82-276`).  The items of an `Enum` are a `frozenset`: a list without
duplicates, in an order that theorems must not depend on. -/
inductive Ty
  | scalar (s : Scalar) (m : Meta)
  | binary (size : Option Int) (m : Meta)
  | geography (format srid : Option Str) (m : Meta)
  | dateTime (p : Prec) (m : Meta)
  | time (p : Prec) (m : Meta)
  | timestamp (p : Prec) (m : Meta)
  | enum (name : Str) (type : Ty) (items : List Lit) (m : Meta)
  | list (element : Ty) (m : Meta)
  | set (element : Ty) (m : Meta)
  | map (key value : Ty) (m : Meta)
  | struct (name : Str) (fields : List (Str × Ty)) (m : Meta)
  | collection (name : Str) (element : Ty) (partitionBy clusterBy : List Str) (m : Meta)

/-- `DEFAULT_ANONYMOUS_NAME` (`types/__init__.py:18`). -/
def anon : Str := "anon".toList

namespace Ty

def info : Ty → Meta
  | .scalar _ m => m
  | .binary _ m => m
  | .geography _ _ m => m
  | .dateTime _ m => m
  | .time _ m => m
  | .timestamp _ m => m
  | .enum _ _ _ m => m
  | .list _ m => m
  | .set _ m => m
  | .map _ _ m => m
  | .struct _ _ m => m
  | .collection _ _ _ _ m => m

def withMeta (m : Meta) : Ty → Ty
  | .scalar s _ => .scalar s m
  | .binary s _ => .binary s m
  | .geography f s _ => .geography f s m
  | .dateTime p _ => .dateTime p m
  | .time p _ => .time p m
  | .timestamp p _ => .timestamp p m
  | .enum n t i _ => .enum n t i m
  | .list e _ => .list e m
  | .set e _ => .set e m
  | .map k v _ => .map k v m
  | .struct n f _ => .struct n f m
  | .collection n e p c _ => .collection n e p c m

def nullable (t : Ty) : Bool := t.info.nullable

/-- `type_.model_copy(update={"nullable": b})`. -/
def setNullable (t : Ty) (b : Bool) : Ty := t.withMeta { t.info with nullable := b }

/-- `isinstance(type_, <scalar class>)`. -/
def isScalar (s : Scalar) : Ty → Bool
  | .scalar s' _ => s' = s
  | _ => false

/-- `isinstance(type_, List)`: a `Collection` is a `List` (`types/__init__.py:169`). -/
def isList : Ty → Bool
  | .list _ _ => true
  | .collection _ _ _ _ _ => true
  | _ => false

def isCollection : Ty → Bool
  | .collection _ _ _ _ _ => true
  | _ => false

def isStruct : Ty → Bool
  | .struct _ _ _ => true
  | _ => false

end Ty

mutual
/-- The number of types inside a type. -/
def Ty.size : Ty → Nat
  | .enum _ t _ _ => 1 + t.size
  | .list e _ => 1 + e.size
  | .set e _ => 1 + e.size
  | .map k v _ => 1 + k.size + v.size
  | .struct _ fs _ => 1 + Ty.sizes fs
  | .collection _ e _ _ _ => 1 + e.size
  | _ => 1
def Ty.sizes : List (Str × Ty) → Nat
  | [] => 0
  | (_, t) :: fs => t.size + Ty.sizes fs
end


/-! ## Type systems -/

/-- The `hints` of a conversion. -/
abbrev Hints := PyDict Str Str

/-- One direction of a `TypeAdapter` (`types/__init__.py:284-308`): `accepts` is
`matches_artigraph` and `convert` is `to_system` for the direction from artigraph, `accepts` is
`matches_system` and `convert` is `to_artigraph` for the other one.  `convert` is given the
conversion of the (root) type system. -/
structure Adapter (X Y : Type) where
  key : Str
  priority : Int
  accepts : X → Hints → Except Err Bool
  convert : (X → Hints → Except Err Y) → X → Hints → Except Err Y

/-- One direction of a `TypeSystem` (`types/__init__.py:347-354`): the registry of adapters and
the systems it extends. -/
inductive TypeSystem (X Y : Type)
  | mk (key : Str) (adapterByKey : PyDict Str (Adapter X Y)) (ext : List (TypeSystem X Y))

variable {X Y : Type}

/-- `register_adapter` (`types/__init__.py:356-357`). -/
def registerAdapter (ts : TypeSystem X Y) (a : Adapter X Y) : Except Err (TypeSystem X Y) :=
  match ts with
  | .mk key adapters ext => do
    let adapters ← register adapters a.key a Option.none
    return .mk key adapters ext

/-- Registering adapters one after the other. -/
def registerAdapters (ts : TypeSystem X Y) : List (Adapter X Y) → Except Err (TypeSystem X Y)
  | [] => .ok ts
  | a :: as => do
    let ts ← registerAdapter ts a
    registerAdapters ts as

/-- Insertion in front of the first element whose priority is not higher. -/
def insertByPriority (a : Adapter X Y) : List (Adapter X Y) → List (Adapter X Y)
  | [] => [a]
  | b :: bs => if b.priority ≤ a.priority then a :: b :: bs else b :: insertByPriority a bs

/-- `sorted(adapters, key=attrgetter("priority"), reverse=True)` (`types/__init__.py:359-361`):
highest priority first, and in the original order among equals (`reverse=True` keeps the sort
stable). -/
def sortByPriority : List (Adapter X Y) → List (Adapter X Y)
  | [] => []
  | a :: as => insertByPriority a (sortByPriority as)

/-- The loop over the adapters (`types/__init__.py:367-369` and `383-385`). -/
def firstMatch : List (Adapter X Y) → X → Hints → Except Err (Option (Adapter X Y))
  | [], _, _ => .ok Option.none
  | a :: as, x, h =>
    match a.accepts x h with
    | .error e => .error e
    | .ok true => .ok (some a)
    | .ok false => firstMatch as x h

mutual
/-- `to_artigraph` and `to_system` (`types/__init__.py:363-391`), which differ only in the methods
of the adapters they call.  `root` is the conversion of the root type system. -/
def convert (root : X → Hints → Except Err Y) : TypeSystem X Y → X → Hints → Except Err Y
  | .mk _ adapters ext, x, h =>
    match firstMatch (sortByPriority (adapters.map Prod.snd)) x h with
    | .error e => .error e
    | .ok (some a) => a.convert root x h
    | .ok Option.none => convertExt root ext x h
/-- The loop over `extends` (`types/__init__.py:370-377` and `386-391`): a `NotImplementedError`,
wherever it comes from, means that the next system is tried. -/
def convertExt (root : X → Hints → Except Err Y) :
    List (TypeSystem X Y) → X → Hints → Except Err Y
  | [], _, _ => .error .notImplemented
  | ts :: rest, x, h =>
    match convert root ts x h with
    | .error .notImplemented => convertExt root rest x h
    | r => r
end

/-- The conversion of a root type system.  The recursion goes through the adapters; `fuel` bounds
its depth (Python has a recursion limit). -/
def run (ts : TypeSystem X Y) : Nat → X → Hints → Except Err Y
  | 0, _, _ => .error .unsupported
  | n + 1, x, h => convert (run ts n) ts x h

/-- Convert the values of an ordered mapping. -/
def convertFields {X Y : Type} (f : X → Except Err Y) : List (Str × X) → Except Err (List (Str × Y))
  | [] => .ok []
  | (n, x) :: rest => do
    let y ← f x
    let ys ← convertFields f rest
    return (n, y) :: ys

end Typ
end Arti
