import Verif.Model.Base

/-!
# Threads that share a memory backend

`MemoryBackend.connect` (`backends/memory.py:132-138`) hands the same container to everybody, so
threads that use one backend change the same dictionaries and sets, without locks.  A method of a
connection is a program here; each look at, and each change of, an object of the container is a step
of its own, and other threads may do anything between two steps.

What is one step: a lookup in a dictionary, putting an entry into a dictionary, adding one element to
a set, making a new object, copying a set into a tuple.  The hashes of storages, snapshots and
partitions are computed by Python code (they are Pydantic models), so that the interpreter may
switch threads between a lookup that fails and the entry that `defaultdict.__missing__` makes after
it, and between two elements in `set.update`.  For keys that are strings the model allows more
switches than CPython with its global lock does.
-/

namespace Arti.Thr
open PyDict

/-- An object of the container: a `defaultdict` of other objects, a set of partitions, or a dictionary
of graphs or snapshots. -/
inductive Obj (K P V : Type)
  | dict (d : PyDict K Nat)
  | set (ps : List P)
  | vals (d : PyDict K V)
  deriving DecidableEq

/-- Where an object belongs: one of the attributes of the container, and the keys below it. -/
abbrev Path (K : Type) := Nat × List K

/-- An object and the path that it was made for.  No program looks at the path. -/
structure Cell (K P V : Type) where
  path : Path K
  obj : Obj K P V
  deriving DecidableEq

/-- The objects, in the order in which they were made. -/
abbrev Heap (K P V : Type) := List (Cell K P V)

/-- A program: it is finished, or it makes a step and goes on depending on what it saw. -/
inductive Code (H R : Type)
  | ret (r : R)
  | act (f : H → H) (k : H → Code H R)

/-- What a method returns or raises. -/
inductive Res (P V : Type)
  | done
  | found (ps : List P)
  | got (v : V)
  | valueError
  | keyError
  | runtimeError
  deriving DecidableEq

variable {K P V : Type} [DecidableEq K] [DecidableEq P]

/-- `_NoCopyContainer.__init__` (`backends/memory.py:45-57`): `storage_partitions`,
`snapshot_partitions`, `snapshot_tags`, `graphs` and `snapshots`. -/
def fresh : Heap K P V :=
  [⟨(0, []), .dict []⟩, ⟨(1, []), .dict []⟩, ⟨(2, []), .dict []⟩, ⟨(3, []), .dict []⟩,
    ⟨(4, []), .dict []⟩]

/-- The entry for a key. -/
def entry (h : Heap K P V) (r : Nat) (k : K) : Option Nat :=
  match h[r]? with
  | some ⟨_, .dict d⟩ => get? d k
  | _ => none

/-- The elements of a set. -/
def elems (h : Heap K P V) (r : Nat) : List P :=
  match h[r]? with
  | some ⟨_, .set ps⟩ => ps
  | _ => []

/-- The graph or snapshot at a key. -/
def value (h : Heap K P V) (r : Nat) (t : K) : Option V :=
  match h[r]? with
  | some ⟨_, .vals d⟩ => get? d t
  | _ => none

/-- The path of an object. -/
def pathAt (h : Heap K P V) (r : Nat) : Path K :=
  match h[r]? with
  | some c => c.path
  | none => (0, [])

/-- Put an entry into a dictionary. -/
def store (r : Nat) (k : K) (r' : Nat) (h : Heap K P V) : Heap K P V :=
  h.modify r fun c => match c.obj with
    | .dict d => { c with obj := .dict (PyDict.set d k r') }
    | _ => c

/-- Add an element to a set. -/
def insertAt (r : Nat) (p : P) (h : Heap K P V) : Heap K P V :=
  h.modify r fun c => match c.obj with
    | .set ps => { c with obj := .set (setInsert ps p) }
    | _ => c

/-- Put a graph or a snapshot into a dictionary. -/
def assign (r : Nat) (t : K) (v : V) (h : Heap K P V) : Heap K P V :=
  h.modify r fun c => match c.obj with
    | .vals d => { c with obj := .vals (PyDict.set d t v) }
    | _ => c

/-- `d[k]` of a `defaultdict`: if there is no entry, `__missing__` makes a new object and then puts
it into the dictionary, whatever is there by then. -/
def sub {R : Type} (r : Nat) (k : K) (new : Obj K P V) (next : Nat → Code (Heap K P V) R) :
    Code (Heap K P V) R :=
  .act id fun h => match entry h r k with
    | some r' => next r'
    | none =>
      .act (fun h => h ++ [⟨((pathAt h r).1, (pathAt h r).2 ++ [k]), new⟩]) fun h =>
      .act (store r k h.length) fun _ => next h.length

/-- `set.update`. -/
def addAll {R : Type} (r : Nat) : List P → Code (Heap K P V) R → Code (Heap K P V) R
  | [], next => next
  | p :: ps, next => .act (insertAt r p) fun _ => addAll r ps next

/-- The methods of a connection. -/
inductive Call (K P V : Type)
  | writeArtifact (sto : K) (ps : List P)
  /-- `found` is what `discover_partitions` would return, `keep` says which partitions have the input
  fingerprints that were asked for -/
  | readArtifact (sto : K) (found : List P) (keep : Option (P → Bool))
  | writeLinks (snap key : K) (ps : List P)
  | readLinks (snap key : K)
  | writeTag (name tag : K) (v : V) (overwrite : Bool)
  | readTag (name tag : K)
  /-- keys are graph names, tags, and fingerprints of graphs and snapshots -/
  | writeGraph (name fp : K) (v : V)
  | readGraph (name fp : K)
  | writeSnapshot (name fp : K) (v : V)
  | readSnapshot (name fp : K)

/-- `self.container.storage_partitions[artifact.storage]`. -/
def storageSet {R : Type} (sto : K) (next : Nat → Code (Heap K P V) R) : Code (Heap K P V) R :=
  sub 0 sto (.set []) next

/-- `self.container.snapshot_partitions[snapshot][artifact_key]`. -/
def linkSet {R : Type} (snap key : K) (next : Nat → Code (Heap K P V) R) : Code (Heap K P V) R :=
  sub 1 snap (.dict []) fun r => sub r key (.set []) next

/-- `self.container.snapshot_tags[name]`. -/
def tagDict {R : Type} (name : K) (next : Nat → Code (Heap K P V) R) : Code (Heap K P V) R :=
  sub 2 name (.vals []) next

/-- `self.container.graphs[name]`. -/
def graphDict {R : Type} (name : K) (next : Nat → Code (Heap K P V) R) : Code (Heap K P V) R :=
  sub 3 name (.vals []) next

/-- `self.container.snapshots[name]`. -/
def snapshotDict {R : Type} (name : K) (next : Nat → Code (Heap K P V) R) : Code (Heap K P V) R :=
  sub 4 name (.vals []) next

/-- `d[fp]` of a dictionary of graphs or snapshots. -/
def lookUp (fp : K) (r : Nat) : Code (Heap K P V) (Res P V) :=
  .act id fun h => .ret (match value h r fp with
    | some v => .got v
    | none => .keyError)

/-- The end of `read_artifact_partitions` (`backends/memory.py:75-82`).  A set comprehension raises
`RuntimeError` if it sees that the set has another size than at the beginning. -/
def listSet (keep : Option (P → Bool)) (r : Nat) : Code (Heap K P V) (Res P V) :=
  match keep with
  | none => .act id fun h => .ret (.found (elems h r))
  | some f => .act id fun h => .act id fun h' =>
      .ret (if (elems h' r).length = (elems h r).length then .found ((elems h r).filter f)
        else .runtimeError)

/-- The methods (`backends/memory.py:66-129`). -/
def code : Call K P V → Code (Heap K P V) (Res P V)
  | .writeArtifact sto ps => storageSet sto fun r => addAll r ps (.ret .done)
  | .readArtifact sto found keep => .act id fun h =>
      if (entry h 0 sto).isSome then storageSet sto (listSet keep)
      else storageSet sto fun r => addAll r found (storageSet sto (listSet keep))
  | .writeLinks snap key ps => linkSet snap key fun r => addAll r ps (.ret .done)
  | .readLinks snap key => linkSet snap key (listSet none)
  | .writeTag name tag v overwrite => tagDict name fun r => .act id fun h =>
      if (value h r tag).isSome && !overwrite then .ret .valueError
      else tagDict name fun r => .act (assign r tag v) fun _ => .ret .done
  | .readTag name tag => tagDict name fun r => .act id fun h =>
      if (value h r tag).isNone then .ret .valueError
      else tagDict name (lookUp tag)
  | .writeGraph name fp v => graphDict name fun r => .act (assign r fp v) fun _ => .ret .done
  | .readGraph name fp => graphDict name (lookUp fp)
  | .writeSnapshot name fp v => snapshotDict name fun r => .act (assign r fp v) fun _ => .ret .done
  | .readSnapshot name fp => snapshotDict name (lookUp fp)

/-! ## Threads -/

/-- What happened: a thread called a method, or a method returned or raised; `since` is how many
events there had been when it was called. -/
inductive Ev (K P V : Type)
  | called (thread : Nat) (c : Call K P V)
  | returned (thread : Nat) (c : Call K P V) (since : Nat) (r : Res P V)

/-- A thread: what it is doing, and the calls that it is yet to make. -/
structure Thread (K P V : Type) where
  cur : Option (Call K P V × Nat × Code (Heap K P V) (Res P V))
  todo : List (Call K P V)

structure Sys (K P V : Type) where
  heap : Heap K P V
  threads : List (Thread K P V)
  log : List (Ev K P V)

/-- Threads that are yet to make these calls. -/
def start (h : Heap K P V) (calls : List (List (Call K P V))) : Sys K P V :=
  ⟨h, calls.map fun cs => ⟨none, cs⟩, []⟩

/-- A thread makes one step. -/
def step (s : Sys K P V) (i : Nat) : Sys K P V :=
  match s.threads[i]? with
  | none => s
  | some t =>
    match t.cur with
    | none =>
      match t.todo with
      | [] => s
      | c :: cs => ⟨s.heap, s.threads.set i ⟨some (c, s.log.length, code c), cs⟩,
          s.log ++ [.called i c]⟩
    | some (c, n, .ret r) => ⟨s.heap, s.threads.set i ⟨none, t.todo⟩, s.log ++ [.returned i c n r]⟩
    | some (c, n, .act f k) => ⟨f s.heap, s.threads.set i ⟨some (c, n, k s.heap), t.todo⟩, s.log⟩

/-- The threads make steps in this order. -/
def run (s : Sys K P V) (schedule : List Nat) : Sys K P V := schedule.foldl step s

end Arti.Thr
