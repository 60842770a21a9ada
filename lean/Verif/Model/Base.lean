/-!
# Python base: strings, exceptions, dicts, ints

Shared, code-independent Python semantics used by the model of `/repo/src/arti`.
Strings are lists of characters.  A Python `dict` is an insertion-ordered association
list whose keys are distinct (distinctness is an invariant proved where it is needed, it
is not part of the type).
-/

namespace Arti

/-- A Python `str`. -/
abbrev Str := List Char

/-- The exception classes that the modelled code raises (or lets escape).  The message is
not modelled. -/
inductive Err
  | valueError
  | typeError
  | keyError
  | indexError
  | attributeError
  | invalidKeyError
  | notImplemented
  | fileNotFound
  | isADirectory
  | cycleError
  | zeroDivision
  | stopIteration
  | assertion
  /-- raised by user supplied code -/
  | user (n : Nat)
  /-- the process was interrupted (crash budget exhausted) -/
  | crash
  /-- behaviour that the model does not cover; never produced by a success path -/
  | unsupported
  deriving DecidableEq, Repr

deriving instance DecidableEq for Except

/-- A Python `dict` (insertion ordered). -/
abbrev PyDict (κ ν : Type) := List (κ × ν)

namespace PyDict
variable {κ ν : Type} [DecidableEq κ]

/-- `d.get(k)`. -/
def get? : PyDict κ ν → κ → Option ν
  | [], _ => none
  | (k', v) :: d, k => if k' = k then some v else get? d k

/-- `d[k] = v`: replaces the value in place, or appends a new item. -/
def set : PyDict κ ν → κ → ν → PyDict κ ν
  | [], k, v => [(k, v)]
  | (k', v') :: d, k, v => if k' = k then (k', v) :: d else (k', v') :: set d k v

/-- `k in d`. -/
def contains (d : PyDict κ ν) (k : κ) : Bool := (get? d k).isSome

/-- `list(d)`. -/
def keys (d : PyDict κ ν) : List κ := d.map Prod.fst

/-- `dict(items)`: later items override earlier ones, keeping the first position. -/
def ofItems (items : List (κ × ν)) : PyDict κ ν :=
  items.foldl (fun d kv => set d kv.1 kv.2) []

/-- `{**a, **b}`. -/
def merge (a b : PyDict κ ν) : PyDict κ ν :=
  b.foldl (fun d kv => set d kv.1 kv.2) (a.foldl (fun d kv => set d kv.1 kv.2) [])

end PyDict

/-- `set(a) == set(b)` for two lists. -/
def sameSet {α : Type} [DecidableEq α] (a b : List α) : Bool :=
  a.all (fun x => b.contains x) && b.all (fun x => a.contains x)

/-- Adding elements to a Python `set`, kept as a duplicate-free list in insertion order.
CPython's iteration order is unspecified; theorems must not depend on it. -/
def setInsert {α : Type} [DecidableEq α] (s : List α) (x : α) : List α :=
  if x ∈ s then s else s ++ [x]

/-- `s.update(xs)`. -/
def setUpdate {α : Type} [DecidableEq α] (s xs : List α) : List α :=
  xs.foldl setInsert s

/-- `str.split(sep)` for a one-character separator. -/
def splitOn (sep : Char) : Str → List Str
  | [] => [[]]
  | c :: cs =>
    if c = sep then [] :: splitOn sep cs
    else match splitOn sep cs with
      | [] => [[c]]
      | p :: ps => (c :: p) :: ps

/-- `sep.join(parts)`. -/
def joinWith (sep : Str) : List Str → Str
  | [] => []
  | [p] => p
  | p :: ps => p ++ sep ++ joinWith sep ps

end Arti
