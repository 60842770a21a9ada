import Verif.Model.Base

/-!
# The arguments of generic classes

`get_class_type_vars` (`src/arti/internal/type_hints.py:93-114`), with which
`frozendict.__get_pydantic_core_schema__` (`src/arti/internal/mappings.py:52-60`) finds the types of
keys and values for a field whose hint is a `frozendict` or a subclass of it.

Simplification: classes with one base each; generic pydantic models (lines 99-100) are left out.
-/

namespace Arti.TypeVars

/-- A type argument: a `TypeVar`, a class, or a generic with an argument (`list[T]`). -/
inductive TArg
  | var (name : Str)
  | ty (name : Str)
  | app (name : Str) (arg : TArg)
deriving DecidableEq

/-- A class.  `gen` is the generic class in question (`class frozendict[K, V](Mapping[K, V])`),
`plain` is `class C(P)`, `sub` is `class C[params](P[args])`. -/
inductive Cls
  | gen (params : List Str)
  | plain (parent : Cls)
  | sub (params : List Str) (parent : Cls) (args : List TArg)
deriving DecidableEq

/-- `__type_params__`. -/
def Cls.params : Cls → List Str
  | .gen ps => ps
  | .plain _ => []
  | .sub ps _ _ => ps

/-- The hint of a field: a class, or a class with arguments (`frozendict[str, int]`). -/
inductive Hint
  | cls (c : Cls)
  | alias (c : Cls) (args : List TArg)
deriving DecidableEq

/-- The arguments of the generic aliases in `klass.__orig_bases__`.  A class without aliases among
its bases has no such attribute of its own, so that of its parent is found.  With parameters,
`Generic[params]` is appended. -/
def origBases : Cls → List (List TArg)
  | .gen ps => [ps.map .var, ps.map .var]
  | .plain p => origBases p
  | .sub [] _ args => [args]
  | .sub (p :: ps) _ args => [args, (p :: ps).map .var]

/-- `isinstance(arg, TypeVar)` (`internal/type_hints.py:108`). -/
def TArg.isVar : TArg → Bool
  | .var _ => true
  | _ => false

/-- The loop over the bases (`internal/type_hints.py:103-111`). -/
def firstArgs : List (List TArg) → Except Err (List TArg)
  | [] => .error .typeError
  | args :: rest => if args.any TArg.isVar then firstArgs rest else .ok args

/-- `get_class_type_vars` (`internal/type_hints.py:93-114`). -/
def getClassTypeVars : Hint → Except Err (List TArg)
  | .alias _ args => firstArgs [args]
  | .cls c => firstArgs (origBases c)

/-- `K, V = get_class_type_vars(source_type)` in `frozendict.__get_pydantic_core_schema__`
(`internal/mappings.py:60`): the types that keys and values are validated with. -/
def mappingTypes (h : Hint) : Except Err (TArg × TArg) :=
  match getClassTypeVars h with
  | .ok [k, v] => .ok (k, v)
  | .ok _ => .error .valueError
  | .error e => .error e

end Arti.TypeVars
