import Verif.Model.Hints

/-!
# Multiple dispatch (`src/arti/internal/dispatch.py`)

`io._read` and `io._write` (`io/__init__.py:30-74`) are tables of functions, chosen by the classes of
the arguments.  The table itself is `multimethod.multidispatch`, of a library that is not part of the
repository.  It is modelled from its documentation: an exact match is called; otherwise the closest
method by `issubclass`, with the position in the method resolution order as a tie-breaker; if several
remain a `DispatchError` (a `TypeError`) is raised; the result is cached, and the cache is emptied
when a function is registered.
-/

namespace Arti
namespace Disp
open TH

/-- `inspect.Parameter.kind`. -/
inductive Kind
  | posOnly | posOrKw | varPos | kwOnly | varKw
  deriving DecidableEq, Repr

/-- A function object; `abstract` is its attribute `_abstract_`
(`internal/dispatch.py:94-95`). -/
structure Fn where
  id : Nat
  abstract : Bool := false
  deriving DecidableEq, Repr

/-- A parameter of a signature; an annotation that is missing is the class `inspect._empty`. -/
structure Param (C : Type) where
  name : Str
  kind : Kind
  ann : Hint C

/-- A signature, `tidy_signature(func, inspect.signature(func))` (`internal/type_hints.py:188-208`). -/
structure Sig (C : Type) where
  params : List (Param C)
  ret : Hint C

/-- A function with its signature. -/
structure Handler (C : Type) where
  fn : Fn
  sig : Sig C

/-- What the table knows about the classes `K` it dispatches on: `multimethod.subtype` of a hint,
`issubclass` and `mro`, which ends with `object`. -/
structure Classes (C K : Type) where
  subtype : Hint C → K
  sub : K → K → Bool
  mro : K → List K

/-- A `_multipledispatch` (`internal/dispatch.py:17-35`): the signature of the first function, the
registered functions, the cache, and what the modules that `discovery_func` imports have yet to
register (`io/__init__.py:21-27`; a module is run once). -/
structure Table (C K : Type) where
  spec : Sig C
  funcs : PyDict (List K) Fn
  cache : PyDict (List K) Fn
  pending : List (Handler C)

section
variable {C K : Type} [DecidableEq C] [DecidableEq K] (H : Hier C) (E : Classes C K)

/-- `key <= types` of signatures: each argument is of a subclass.  A signature may be shorter. -/
def applies (key types : List K) : Bool :=
  decide (key.length ≤ types.length) && (key.zip types).all fun x => E.sub x.2 x.1

/-- `key < other`: `other` is more specific. -/
def below (key other : List K) : Bool := decide (key ≠ other) && applies E key other

/-- The position of a class in the method resolution order of another one; that of `object`, which is
the last, for a class that is not there. -/
def position (k : K) : List K → Nat
  | [] => 0
  | [_] => 0
  | c :: cs => if c = k then 0 else position k cs + 1

/-- The distances of the arguments. -/
def distance (types key : List K) : List Nat := (types.zip key).map fun x => position x.2 (E.mro x.1)

/-- `<=` of tuples of numbers. -/
def lexLe : List Nat → List Nat → Bool
  | [], _ => true
  | _ :: _, [] => false
  | a :: as, b :: bs => decide (a < b) || (decide (a = b) && lexLe as bs)

/-- The registered functions that can be called and that are not less specific than another one that
can be called. -/
def closest (funcs : PyDict (List K) Fn) (types : List K) : List (List K × Fn) :=
  (funcs.filter fun x => applies E x.1 types).filter fun x =>
    !(funcs.filter fun x => applies E x.1 types).any fun y => below E x.1 y.1

/-- Those of them at the least distance. -/
def nearest (funcs : PyDict (List K) Fn) (types : List K) : List (List K × Fn) :=
  (closest E funcs types).filter fun x =>
    (closest E funcs types).all fun y => lexLe (distance E types x.1) (distance E types y.1)

/-- The function of the table for arguments of these classes. -/
def select (funcs : PyDict (List K) Fn) (types : List K) : Except Err Fn :=
  match (nearest E funcs types).map Prod.snd with
  | [] => .error .typeError
  | f :: fs => if fs.all (· = f) then .ok f else .error .typeError

/-- `self[types] = func` of the library: the cache is emptied, and an equal key is replaced. -/
def setItem (types : List K) (f : Fn) (T : Table C K) : Table C K :=
  { T with funcs := PyDict.set T.funcs types f, cache := [] }

/-- The loop over the parameters in `register` (`internal/dispatch.py:70-81`). -/
def checkParams (spec : List (Param C)) : List (Param C) → Except Err Unit
  | [] => .ok ()
  | p :: ps =>
    match spec.find? fun q => q.name = p.name with
    | none => .error .keyError
    | some q =>
      if p.kind ≠ q.kind then .error .typeError
      else if isSame p.ann .any then checkParams spec ps
      else match lenient H p.ann q.ann with
        | .error e => .error e
        | .ok false => .error .typeError
        | .ok true => checkParams spec ps

/-- The checks in `register` (`internal/dispatch.py:61-85`). -/
def check (spec sig : Sig C) : Except Err Unit :=
  if !sameSet (sig.params.map Param.name) (spec.params.map Param.name) then .error .typeError
  else match checkParams H spec.params sig.params with
    | .error e => .error e
    | .ok _ =>
      match lenient H sig.ret spec.ret with
      | .error e => .error e
      | .ok false => .error .typeError
      | .ok true => .ok ()

/-- The classes that a function is registered for: those of its parameters, in its order. -/
def keyOf (sig : Sig C) : List K := sig.params.map fun p => E.subtype p.ann

/-- `register(func)` (`internal/dispatch.py:60-86`): the function is checked and added. -/
def register (h : Handler C) (T : Table C K) : Except Err Unit × Table C K :=
  match check H T.spec h.sig with
  | .error e => (.error e, T)
  | .ok _ => (.ok (), setItem (keyOf E h.sig) h.fn T)

/-- `register(*types)(func)` (`internal/dispatch.py:58` and `86`): nothing is checked. -/
def registerBare (types : List K) (f : Fn) (T : Table C K) : Table C K := setItem types f T

/-- The imports of `discovery_func` (`io/__init__.py:24-27`): each module registers its functions; an
error stops it, and the modules before are not run again. -/
def discover : List (Handler C) → Table C K → Except Err Unit × Table C K
  | [], T => (.ok (), { T with pending := [] })
  | h :: hs, T =>
    match register H E h { T with pending := h :: hs } with
    | (.error e, T') => (.error e, T')
    | (.ok _, T') => discover hs T'

/-- `__missing__` (`internal/dispatch.py:37-40`). -/
def missing (types : List K) (T : Table C K) : Except Err Fn × Table C K :=
  match discover H E T.pending T with
  | (.error e, T') => (.error e, T')
  | (.ok _, T') =>
    match PyDict.get? T'.funcs types with
    | some f => (.ok f, T')
    | none =>
      match select E T'.funcs types with
      | .error e => (.error e, T')
      | .ok f => (.ok f, { T' with cache := PyDict.set T'.cache types f })

/-- `self[types]`, which is also how a call finds its function. -/
def getItem (types : List K) (T : Table C K) : Except Err Fn × Table C K :=
  match PyDict.get? T.funcs types with
  | some f => (.ok f, T)
  | none =>
    match PyDict.get? T.cache types with
    | some f => (.ok f, T)
    | none => missing H E types T

/-- `lookup` (`internal/dispatch.py:42-56`): a `TypeError`, wherever it comes from, and the first
function become a `ValueError`. -/
def lookup (types : List K) (T : Table C K) : Except Err Fn × Table C K :=
  match getItem H E types T with
  | (.error .typeError, T') => (.error .valueError, T')
  | (.error e, T') => (.error e, T')
  | (.ok f, T') => if f.abstract then (.error .valueError, T') else (.ok f, T')

/-- `multipledispatch(...)(func)` (`internal/dispatch.py:89-101`). -/
def new (base : Handler C) (pending : List (Handler C)) : Table C K :=
  ⟨base.sig, [(keyOf E base.sig, { base.fn with abstract := true })], [], pending⟩

/-- What can be done with a table. -/
inductive Op (C K : Type)
  | register (h : Handler C)
  | registerBare (types : List K) (f : Fn)
  | lookup (types : List K)
  | call (types : List K)

def Op.run (T : Table C K) : Op C K → Table C K
  | .register h => (Disp.register H E h T).2
  | .registerBare types f => Disp.registerBare types f T
  | .lookup types => (Disp.lookup H E types T).2
  | .call types => (getItem H E types T).2

/-- A history of a table. -/
def runOps (T : Table C K) (ops : List (Op C K)) : Table C K := ops.foldl (Op.run H E) T

end
end Disp
end Arti
