import Verif.Model.World

/-!
# Readers of the Python view, and `Graph.read`

(`src/arti/io/json_localfile_python.py`, `src/arti/io/pickle_localfile_python.py`,
`src/arti/io/json_stringliteral_python.py`, `src/arti/graphs/__init__.py:205-247`)

The three readers are the same up to how a value is loaded from the data of one partition.
-/

namespace Arti.Io
variable {V : Type}

/-- What a reader needs of the value type: `json.load` or `pickle.load`, iterating a value (which
raises if it is not iterable), and making a list. -/
structure Loader (V : Type) where
  load : Str → Except Err V
  elems : V → Except Err (List V)
  list : List V → V

/-- `chain.from_iterable(read(partition) for partition in partitions)`
(`io/json_localfile_python.py:31-35`). -/
def chain (L : Loader V) : List Str → Except Err (List V)
  | [] => .ok []
  | c :: cs => do
    let v ← L.load c
    let xs ← L.elems v
    let rest ← chain L cs
    .ok (xs ++ rest)

/-- A reader (`io/json_localfile_python.py:23-37`, `io/pickle_localfile_python.py:20-35`,
`io/json_stringliteral_python.py:24-38`) of the contents of partitions; `partitioned` is
`is_partitioned(type_)`. -/
def reader (L : Loader V) (partitioned : Bool) (cs : List Str) : Except Err V :=
  if partitioned then (chain L cs).map L.list
  else match cs with
    | [c] => L.load c
    | _ => .error .assertion

end Arti.Io

namespace Arti.World
variable {κ D : Type} [DecidableEq κ] (env : Env κ D)
open M

/-- `Graph.read` without a snapshot (`graphs/__init__.py:205-247`): the current partitions of a raw
artifact, the partitions of a new snapshot for a produced one. -/
def graphRead (g : Graph) (a : Art) (view : Nat) : M κ D D := do
  let _ ← need (g.keyOf a) .keyError
  match a with
  | .raw i => do
    let files ← gets fun s => s.files
    let ss ← lift (discover env files i.sto [])
    lift (ioRead env files i view ss)
  | .made _ _ _ => do
    let σ ← fromGraph env g
    readSnapshotData env σ a view

end Arti.World
