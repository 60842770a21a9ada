import Verif.Model.Base

/-!
# `TypedBox` (`src/arti/internal/mappings.py:94-257`)

A box is the insertion-ordered dict `_data`, whose values are leaves (instances of the target
type) or nested boxes.  The status object is shared by all nested boxes, so it is a single
argument `opn` of every operation.  `_namespace` is the path from the root and is passed down.
Operations return the box after the call and the result or exception, so partial effects of a
failing call are visible.  Python reassigns `self` while walking down a dotted key; here the
walk is a recursion that rebuilds the parents.
-/

namespace Arti

/-- `TypedNode` (`internal/mappings.py:76`): a value or a nested box. -/
inductive Node (V : Type)
  | leaf (v : V)
  | box (d : List (Str × Node V))

/-- The `_data` of a box. -/
abbrev BoxData (V : Type) := PyDict Str (Node V)

mutual
/-- `InputElement` (`internal/mappings.py:79`): a value to cast, or a mapping. -/
inductive Inp (α : Type)
  | raw (a : α)
  | map (items : InpItems α)
/-- The items of a mapping, in order. -/
inductive InpItems (α : Type)
  | nil
  | cons (key : Str) (value : Inp α) (rest : InpItems α)
end

namespace Box
variable {α V ρ : Type}

/-- `key.startswith("_")`. -/
def isPrivate : Str → Bool
  | '_' :: _ => true
  | _ => false

/-- `_get_leaf_and_key` (`internal/mappings.py:150-160`) followed by `f` on the container and the
last key part that it returns.  `short` is `short_circuit_missing`.

`self[part]` on a missing part creates an empty box if the box is open (`__getitem__`,
`internal/mappings.py:170-174`) and raises `KeyError` if it is closed.  If a part leads to a
leaf, the code goes on with the leaf as `self`: subscripting it raises `TypeError`, and using it
as the final container fails on `self._data` / `self._status` with `AttributeError` (with
`short`, both give `AttributeError`, as `part not in leaf` is `True` for a pydantic model).  A
private last part is rejected before that container is used. -/
def atPath (opn short : Bool) (f : List Str → BoxData V → Str → BoxData V × Except Err ρ) :
    List Str → BoxData V → List Str → BoxData V × Except Err ρ
  | _, d, [] => (d, .error .unsupported)
  | ns, d, [tail] => if isPrivate tail then (d, .error .invalidKeyError) else f ns d tail
  | ns, d, part :: rest =>
    if isPrivate part then (d, .error .invalidKeyError)
    else match PyDict.get? d part with
      | none =>
        if short then f ns d part
        else if opn then
          let (c, r) := atPath opn short f (ns ++ [part]) [] rest
          (PyDict.set d part (.box c), r)
        else (d, .error .keyError)
      | some (.box c) =>
        let (c', r) := atPath opn short f (ns ++ [part]) c rest
        (PyDict.set d part (.box c'), r)
      | some (.leaf _) =>
        match rest with
        | [tail] => (d, .error (if isPrivate tail then .invalidKeyError else .attributeError))
        | _ => (d, .error (if short then .attributeError else .typeError))

mutual
/-- `__setitem__` after `_get_leaf_and_key` (`internal/mappings.py:191-201`) with `_cast`
(`internal/mappings.py:145-148`); `castV ns key` is `_cast_value` of the box at `ns`. -/
def assign (castV : List Str → Str → α → Except Err V) (opn : Bool) :
    Inp α → List Str → BoxData V → Str → BoxData V × Except Err Unit
  | .raw a, ns, d, key =>
    if opn then
      match PyDict.get? d key with
      | some _ => (d, .error .valueError)
      | none =>
        match castV ns key a with
        | .ok v => (PyDict.set d key (.leaf v), .ok ())
        | .error e => (d, .error e)
    else (d, .error .valueError)
  | .map items, ns, d, key =>
    if opn then
      match PyDict.get? d key with
      | some (.box c) =>
        let (c', r) := assignAll castV opn items (ns ++ [key]) c
        (PyDict.set d key (.box c'), r)
      | some (.leaf _) => (d, .error .valueError)
      | none =>
        match assignAll castV opn items (ns ++ [key]) [] with
        | (c, .ok _) => (PyDict.set d key (.box c), .ok ())
        | (_, .error e) => (d, .error e)
    else (d, .error .valueError)
/-- `for k, v in items: self[k] = v` (`internal/mappings.py:129-130` and `197-198`). -/
def assignAll (castV : List Str → Str → α → Except Err V) (opn : Bool) :
    InpItems α → List Str → BoxData V → BoxData V × Except Err Unit
  | .nil, _, d => (d, .ok ())
  | .cons k v rest, ns, d =>
    match atPath opn false (fun ns d key => assign castV opn v ns d key) ns d (splitOn '.' k) with
    | (d', .ok _) => assignAll castV opn rest ns d'
    | (d', .error e) => (d', .error e)
end

/-- `box[key] = value` (`internal/mappings.py:189-201`). -/
def setItem (castV : List Str → Str → α → Except Err V) (opn : Bool) (d : BoxData V) (key : Str)
    (value : Inp α) : BoxData V × Except Err Unit :=
  atPath opn false (fun ns d key => assign castV opn value ns d key) [] d (splitOn '.' key)

/-- `TypedBox(items)` (`internal/mappings.py:113-130`): a fresh open box. -/
def construct (castV : List Str → Str → α → Except Err V) (items : InpItems α) :
    Except Err (BoxData V) :=
  match assignAll castV true items [] [] with
  | (d, .ok _) => .ok d
  | (_, .error e) => .error e

/-- The last step of `__getitem__` (`internal/mappings.py:172-174`). -/
def getLast (opn : Bool) (_ns : List Str) (d : BoxData V) (key : Str) :
    BoxData V × Except Err (Node V) :=
  match PyDict.get? d key with
  | some n => (d, .ok n)
  | none => if opn then (PyDict.set d key (.box []), .ok (.box [])) else (d, .error .keyError)

/-- `box[key]` (`internal/mappings.py:170-174`). -/
def getItem (opn : Bool) (d : BoxData V) (key : Str) : BoxData V × Except Err (Node V) :=
  atPath opn false (getLast opn) [] d (splitOn '.' key)

/-- `key in box` (`internal/mappings.py:162-168`). -/
def containsKey (opn : Bool) (d : BoxData V) (key : Str) : BoxData V × Except Err Bool :=
  atPath opn true (fun _ d k => (d, .ok (PyDict.contains d k))) [] d (splitOn '.' key)

/-- `getattr(box, key)` (`internal/mappings.py:176-187`); private attributes that exist on the
object are not modelled, unknown ones raise `InvalidKeyError`. -/
def getAttr (opn : Bool) (d : BoxData V) (key : Str) : BoxData V × Except Err (Node V) :=
  if isPrivate key then (d, .error .invalidKeyError)
  else match getItem opn d key with
    | (d', .error .keyError) => (d', .error .attributeError)
    | r => r

/-- `setattr(box, key, value)` (`internal/mappings.py:203-210`), private attributes as above. -/
def setAttr (castV : List Str → Str → α → Except Err V) (opn : Bool) (d : BoxData V) (key : Str)
    (value : Inp α) : BoxData V × Except Err Unit :=
  if isPrivate key then (d, .error .invalidKeyError) else setItem castV opn d key value

mutual
/-- `walk(root)` (`internal/mappings.py:233-240`) on one node. -/
def walkNode : List Str → Node V → List (Str × V)
  | root, .leaf v => [(joinWith ['.'] root, v)]
  | root, .box d => walkData root d
/-- `walk(root)` on the items of a box. -/
def walkData : List Str → List (Str × Node V) → List (Str × V)
  | _, [] => []
  | root, (k, n) :: rest => walkNode (root ++ [k]) n ++ walkData root rest
end

/-- `box.walk()`. -/
def walk (d : BoxData V) : List (Str × V) := walkData [] d

/-- The operations of a box that a program can call. -/
inductive Op (α : Type)
  | getItem (key : Str)
  | getAttr (key : Str)
  | contains (key : Str)
  | walk
  | setItem (key : Str) (value : Inp α)
  | setAttr (key : Str) (value : Inp α)

/-- Whether an operation is an assignment. -/
def Op.isAssign : Op α → Bool
  | .setItem _ _ | .setAttr _ _ => true
  | _ => false

/-- One operation: the box after it, and the exception if it raised. -/
def step (castV : List Str → Str → α → Except Err V) (opn : Bool) (d : BoxData V) :
    Op α → BoxData V × Option Err
  | .getItem key => let (d', r) := getItem opn d key
    (d', match r with | .ok _ => none | .error e => some e)
  | .getAttr key => let (d', r) := getAttr opn d key
    (d', match r with | .ok _ => none | .error e => some e)
  | .contains key => let (d', r) := containsKey opn d key
    (d', match r with | .ok _ => none | .error e => some e)
  | .walk => (d, none)
  | .setItem key v => let (d', r) := setItem castV opn d key v
    (d', match r with | .ok _ => none | .error e => some e)
  | .setAttr key v => let (d', r) := setAttr castV opn d key v
    (d', match r with | .ok _ => none | .error e => some e)

/-- A program: operations, each with the status the box has when it is called (a graph is open
inside its `with` block and closed outside, `graphs/__init__.py:135-141`).  Exceptions are
caught and the program goes on; the results are collected. -/
def run (castV : List Str → Str → α → Except Err V) (d : BoxData V) :
    List (Bool × Op α) → BoxData V × List (Option Err)
  | [] => (d, [])
  | (opn, op) :: rest =>
    let (d1, r) := step castV opn d op
    let (d2, rs) := run castV d1 rest
    (d2, r :: rs)

/-- `lambda b: dict(sorted(b.walk()))` (`internal/mappings.py:251-252`), with the order of keys
given by `le` (the code compares `(key, value)` tuples, but keys are distinct, see C15). -/
def serialize (le : Str → Str → Bool) (d : BoxData V) : PyDict Str V :=
  PyDict.ofItems ((walk d).mergeSort (fun a b => le a.1 b.1))

end Box
end Arti
