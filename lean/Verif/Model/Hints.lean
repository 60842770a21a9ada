import Verif.Model.Base

/-!
# Type hints (`src/arti/internal/type_hints.py`)

A hint is a Python object.  Classes form an arbitrary hierarchy (`Hier`).  Every object that is
not a singleton carries an identity (`oid`), because the code compares generic arguments with
`is`.  Python facts used (CPython 3.12, the version the project requires):

* `isinstance(x, type)` holds of classes (including `TypedDict` classes), `isinstance(x,
  types.GenericAlias)` of `list[int]`; neither holds of `typing.List[int]`, of unions, of
  `Literal[...]`, of `None` or of `...`;
* `typing.Union` and `typing.Literal` are special forms, `issubclass` with either of them raises
  `TypeError`; `types.UnionType` is an ordinary class;
* `issubclass(x, TD)` raises `TypeError` if `TD` is a `TypedDict`; `TD` itself is a class whose
  base is `dict`;
* the first argument of `Annotated` is never `Annotated` (they are flattened).
-/

namespace Arti
namespace TH

/-- A value inside `Literal[...]` or an `Enum`.  Floats, dates and timestamps are opaque codes. -/
inductive Lit
  | none
  | bool (b : Bool)
  | int (i : Int)
  | str (s : Str)
  | bytes (s : Str)
  | float (n : Nat)
  | date (n : Nat)
  | datetime (n : Nat)
  deriving DecidableEq, Repr

/-- A type hint over a type `C` of ordinary classes. -/
inductive Hint (C : Type)
  /-- `typing.Any` -/
  | any
  /-- the value `None` -/
  | none
  /-- `...` -/
  | ellipsis
  /-- an ordinary class -/
  | cls (c : C)
  /-- a `TypedDict` class -/
  | tdict (oid : Nat) (name : Str) (fields : List (Str × Hint C))
  /-- `types.GenericAlias`, eg: `list[int]` -/
  | gen (oid : Nat) (origin : C) (args : List (Hint C))
  /-- `typing._GenericAlias`, eg: `typing.List[int]` -/
  | tgen (oid : Nat) (origin : C) (args : List (Hint C))
  /-- `typing.Union[...]`, including `Optional[...]` -/
  | union (oid : Nat) (args : List (Hint C))
  /-- `types.UnionType`, eg: `int | str` -/
  | unionT (oid : Nat) (args : List (Hint C))
  /-- `Literal[...]` -/
  | literal (oid : Nat) (items : List Lit)
  /-- an unbounded `TypeVar` -/
  | tvar (oid : Nat)
  /-- a bounded `TypeVar` -/
  | tvarB (oid : Nat) (bound : Hint C)
  /-- `Annotated[inner, ...]`; the metadata is in `Verif.Model.Views` -/
  | annotated (oid : Nat) (inner : Hint C)

/-- The class hierarchy.  `issub c d` is `issubclass(c, d)`, which may raise (eg: for protocols). -/
structure Hier (C : Type) where
  issub : C → C → Except Err Bool
  /-- `type(None)` -/
  noneType : C
  /-- `types.UnionType` -/
  unionType : C
  /-- `dict`, the base of every `TypedDict` -/
  dict : C

/-- What `get_origin` returns when it is not `None`. -/
inductive Origin (C : Type)
  | cls (c : C)
  /-- `typing.Union` -/
  | unionForm
  /-- `typing.Literal` -/
  | literalForm
  /-- `typing.Annotated` -/
  | annotatedForm

variable {C : Type} (H : Hier C)

/-- `typing.get_origin`. -/
def getOrigin : Hint C → Option (Origin C)
  | .gen _ o _ => some (.cls o)
  | .tgen _ o _ => some (.cls o)
  | .union _ _ => some .unionForm
  | .unionT _ _ => some (.cls H.unionType)
  | .literal _ _ => some .literalForm
  | .annotated _ _ => some .annotatedForm
  | _ => Option.none

/-- `typing.get_args`, for the hints whose arguments are hints.  The values of a `Literal` are not
hints, see `hasArgs` and `checkIssubclass`; `Annotated` is handled by `discardAnnotated`. -/
def getArgs : Hint C → List (Hint C)
  | .gen _ _ as => as
  | .tgen _ _ as => as
  | .union _ as => as
  | .unionT _ as => as
  | _ => []

/-- Whether the hint is a `Literal`. -/
def isLiteral : Hint C → Bool
  | .literal _ _ => true
  | _ => false

/-- `is_union_hint` (`type_hints.py:262-268`). -/
def isUnionHint : Hint C → Bool
  | .union _ _ => true
  | .unionT _ _ => true
  | _ => false

/-- `is_annotated_hint` (`type_hints.py:247-248`). -/
def isAnnotatedHint : Hint C → Bool
  | .annotated _ _ => true
  | _ => false

/-- `discard_Annotated` (`type_hints.py:89-90`). -/
def discardAnnotated : Hint C → Hint C
  | .annotated _ h => h
  | h => h

/-- The identity of an object: two hints are the same object (`is`) iff these agree. -/
inductive Ident (C : Type)
  | any
  | none
  | ellipsis
  | cls (c : C)
  | obj (oid : Nat)
  deriving DecidableEq

def ident : Hint C → Ident C
  | .any => .any
  | .none => .none
  | .ellipsis => .ellipsis
  | .cls c => .cls c
  | .tdict i _ _ => .obj i
  | .gen i _ _ => .obj i
  | .tgen i _ _ => .obj i
  | .union i _ => .obj i
  | .unionT i _ => .obj i
  | .literal i _ => .obj i
  | .tvar i => .obj i
  | .tvarB i _ => .obj i
  | .annotated i _ => .obj i

/-- `a is b`. -/
def isSame [DecidableEq C] (a b : Hint C) : Bool := ident a = ident b

/-- `isinstance(klass, type | GenericAlias | TypeVar) or is_annotated_hint(klass) or klass is Any`
(`type_hints.py:167-169`). -/
def classLike : Hint C → Bool
  | .cls _ => true
  | .tdict _ _ _ => true
  | .gen _ _ _ => true
  | .tvar _ => true
  | .tvarB _ _ => true
  | .annotated _ _ => true
  | .any => true
  | _ => false

/-- Replace a `TypeVar` by its bound, or by `Any` (`type_hints.py:43-45` and `50-52`). -/
def unbind : Hint C → Hint C
  | .tvar _ => .any
  | .tvarB _ b => b
  | h => h

/-- `discard_Annotated` and then the bound of a `TypeVar` (`type_hints.py:41-52`). -/
def bare (h : Hint C) : Hint C := unbind (discardAnnotated h)

/-- Python's `issubclass` when the second argument is an ordinary class. -/
def issubclassCls (k : Hint C) (d : C) : Except Err Bool :=
  match k with
  | .cls c => H.issub c d
  | .tdict _ _ _ => H.issub H.dict d
  | _ => .error .typeError

/-- Python's `issubclass(klass, check_type)` for two hints without an origin
(`type_hints.py:60-61`). -/
def issubclassHint (k c : Hint C) : Except Err Bool :=
  match c with
  | .cls d => issubclassCls H k d
  | _ => .error .typeError

/-- `issubclass(klass_origin, check_type)` (`type_hints.py:64`).  A `TypeVar` bound by an
`Annotated` is not covered. -/
def issubclassOrigin (o : Origin C) (c : Hint C) : Except Err Bool :=
  match o with
  | .cls c' => issubclassHint H (.cls c') c
  | .annotatedForm => .error .unsupported
  | _ => .error .typeError

/-- `issubclass(klass, check_type_origin)` (`type_hints.py:67`). -/
def issubclassToOrigin (k : Hint C) (o : Origin C) : Except Err Bool :=
  match o with
  | .cls d => issubclassCls H k d
  | .annotatedForm => .error .unsupported
  | _ => .error .typeError

/-- `lenient_issubclass(klass_origin, check_type_origin)` (`type_hints.py:84`): the origins are
not hints with arguments, so this is `issubclass` if the first one is a class and `False` if it
is a special form. -/
def lenientOrigins (o o' : Origin C) : Except Err Bool :=
  match o, o' with
  | .cls c, .cls d => H.issub c d
  | .cls _, .annotatedForm => .error .unsupported
  | .cls _, _ => .error .typeError
  | .annotatedForm, _ => .error .unsupported
  | _, _ => .ok false

/-- Python's `a and b` on booleans: the second operand is evaluated only if the first is true. -/
def pyAnd (a b : Except Err Bool) : Except Err Bool :=
  match a with
  | .error e => .error e
  | .ok true => b
  | .ok false => .ok false

/-- Whether the hint has arguments: `bool(get_args(check_type))`. -/
def hasArgs : Hint C → Bool
  | .literal _ items => !items.isEmpty
  | h => !(getArgs h).isEmpty

theorem sizeOf_bare_le (h : Hint C) : sizeOf (bare h) ≤ sizeOf h := by
  have h1 : ∀ g : Hint C, sizeOf (unbind g) ≤ sizeOf g := by
    intro g; cases g <;> simp [unbind]
  have h2 : sizeOf (discardAnnotated h) ≤ sizeOf h := by
    cases h <;> simp [discardAnnotated]
  exact Nat.le_trans (h1 _) h2

theorem sizeOf_getArgs_le (h : Hint C) : sizeOf (getArgs h) ≤ sizeOf h := by
  cases h <;> simp [getArgs] <;> omega

mutual

/-- `lenient_issubclass(klass, check_type)` (`type_hints.py:166-177`) where the second argument
is not a tuple. -/
def lenient [DecidableEq C] (k c : Hint C) : Except Err Bool :=
  if classLike k then
    if isUnionHint c then lenientAny k (getArgs c) else checkIssubclass k c
  else .ok false
termination_by (sizeOf c, 2)
decreasing_by
  · have := sizeOf_getArgs_le c
    rcases Nat.lt_or_eq_of_le this with h | h
    · exact Prod.Lex.left _ _ h
    · rw [h]; exact Prod.Lex.right _ (by omega)
  · exact Prod.Lex.right _ (by omega)

/-- `any(lenient_issubclass(klass, subtype) for subtype in ...)` (`type_hints.py:172` and
`176`); also the case of a tuple as the second argument. -/
def lenientAny [DecidableEq C] (k : Hint C) (cs : List (Hint C)) : Except Err Bool :=
  match cs with
  | [] => .ok false
  | c :: cs =>
    match lenient k c with
    | .error e => .error e
    | .ok true => .ok true
    | .ok false => lenientAny k cs
termination_by (sizeOf cs, 0)

/-- `all(lenient_issubclass(klass_arg, check_type_arg) or klass_arg is check_type_arg ...)` over
two lists of the same length (`type_hints.py:77-81`). -/
def lenientArgs [DecidableEq C] (ks : List (Hint C)) (cs : List (Hint C)) : Except Err Bool :=
  match ks, cs with
  | k :: ks, c :: cs =>
    match lenient k c with
    | .error e => .error e
    | .ok b => if b || isSame k c then lenientArgs ks cs else .ok false
  | _, _ => .ok true
termination_by (sizeOf cs, 0)

/-- `_check_issubclass` (`type_hints.py:38-86`).  Comparing a generic with the values of a
`Literal` is not covered. -/
def checkIssubclass [DecidableEq C] (klass check : Hint C) : Except Err Bool :=
  let k := bare klass
  let c := bare check
  if isSame k .any then .ok (isSame c .any)
  else if isSame c .any then .ok true
  else if isSame c .none then .ok (isSame k (.cls H.noneType))
  else match getOrigin H k, getOrigin H c with
    | Option.none, Option.none => issubclassHint H k c
    | some o, Option.none => issubclassOrigin H o c
    | Option.none, some o' =>
      match issubclassToOrigin H k o' with
      | .error e => .error e
      | .ok b => .ok (b && !hasArgs c)
    | some o, some o' =>
      if isLiteral c then .error .unsupported
      else if hasArgs c then
        if (getArgs k).length = (getArgs c).length then
          pyAnd (lenientArgs (getArgs k) (getArgs c)) (lenientOrigins H o o')
        else .ok false
      else lenientOrigins H o o'
termination_by (sizeOf check, 1)
decreasing_by
  have := Nat.le_trans (sizeOf_getArgs_le (bare check)) (sizeOf_bare_le check)
  rcases Nat.lt_or_eq_of_le this with h | h
  · exact Prod.Lex.left _ _ h
  · rw [h]; exact Prod.Lex.right _ (by omega)

end

/-! ## The builtin classes -/

/-- The classes that the Python type system mentions, and user classes with one base class each
(multiple inheritance is covered by the abstract `Hier`, not here). -/
inductive PyCls
  | object | bool | int | float | str | bytes | date | datetime
  | list | tuple | set | frozenset | dict | mapping | noneType | unionType
  | user (n : Nat) (base : PyCls)
  deriving DecidableEq, Repr

namespace PyCls

/-- The `__mro__` of a class; `Mapping` is included for `dict`, because `issubclass(dict, Mapping)`
holds through its registration.  `type(None)` cannot be subclassed. -/
def mro : PyCls → List PyCls
  | .object => [.object]
  | .bool => [.bool, .int, .object]
  | .datetime => [.datetime, .date, .object]
  | .dict => [.dict, .mapping, .object]
  | .user n b => .user n b :: (if b = .noneType then [.object] else mro b)
  | c => [c, .object]

/-- `issubclass` on builtin classes. -/
def hier : Hier PyCls where
  issub c d := .ok (decide (d ∈ mro c))
  noneType := .noneType
  unionType := .unionType
  dict := .dict

end PyCls

/-- `type(value)` of a literal value. -/
def Lit.cls : Lit → PyCls
  | .none => .noneType
  | .bool _ => .bool
  | .int _ => .int
  | .str _ => .str
  | .bytes _ => .bytes
  | .float _ => .float
  | .date _ => .date
  | .datetime _ => .datetime

end TH
end Arti
