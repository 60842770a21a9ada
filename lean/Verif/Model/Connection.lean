import Verif.Model.Io

/-!
# Explicit connections

`Graph.snapshot`, `Graph.read`, `Graph.write`, `GraphSnapshot.tag`, `.read` and `.write` take an
optional `connection`; `GraphSnapshot.from_tag` takes a `connectable`; `build` takes neither
(`src/arti/graphs/__init__.py:147-163,205-291,317-427`, `src/arti/executors/local.py:22-57`).

Two backends share the file system: the one of the graph and another one, to which connections may
be passed.  Simplification: both are memory backends and there is one other backend.
-/

namespace Arti

/-- The container of a memory backend (`backends/memory.py:49-62`). -/
structure Bk (κ : Type) where
  graphs : PyDict (Str × Fp) Graph
  snapshots : PyDict (Str × Fp) Snapshot
  tags : PyDict (Str × Str) Snapshot
  storage : PyDict Sto (List (PSnap κ))
  links : PyDict (Snapshot × Str) (List (PSnap κ))

namespace St
variable {κ D : Type}

/-- The backend of a world (`backends/memory.py:49-62`). -/
def bk (s : St κ D) : Bk κ := ⟨s.graphs, s.snapshots, s.tags, s.storage, s.links⟩

/-- The same files and logs with another backend. -/
def withBk (s : St κ D) (b : Bk κ) : St κ D :=
  { s with graphs := b.graphs, snapshots := b.snapshots, tags := b.tags, storage := b.storage,
           links := b.links }

end St

/-- A world with the backend of the graph (`st`) and another backend. -/
structure Two (κ D : Type) where
  st : St κ D
  other : Bk κ

namespace Two
variable {κ D α β : Type}

/-- Code that connects to the backend of the graph
(`with snapshot.backend.connect()`, `executors/local.py:24`). -/
def onOwn (m : M κ D α) (t : Two κ D) : Except Err α × Two κ D :=
  let (r, s) := m t.st
  (r, { t with st := s })

/-- Code that connects to the other backend. -/
def onOther (m : M κ D α) (t : Two κ D) : Except Err α × Two κ D :=
  let (r, s) := m (t.st.withBk t.other)
  (r, ⟨s.withBk t.st.bk, s.bk⟩)

/-- `with (connection or self.backend).connect()` (`graphs/__init__.py:237,280,353,372`). -/
def via (connection : Bool) (m : M κ D α) : Two κ D → Except Err α × Two κ D :=
  if connection then onOther m else onOwn m

/-- One after the other, unless the first raises. -/
def andThen (m : Two κ D → Except Err α × Two κ D) (f : α → Two κ D → Except Err β × Two κ D) :
    Two κ D → Except Err β × Two κ D := fun t =>
  match m t with
  | (.ok a, t') => f a t'
  | (.error e, t') => (.error e, t')

end Two

/-- What calls return. -/
inductive Ret (κ D : Type)
  | none
  | snapshot (σ : Snapshot)
  | part (p : PSnap κ)
  | data (d : D)
deriving DecidableEq

/-- Calls of the API that may be given a connection, and `GraphSnapshot.build`. -/
inductive Call (κ D : Type)
  /-- `graph.snapshot(connection=…)` -/
  | snapshot (g : Graph)
  /-- `snapshot.tag(tag, overwrite=…, connection=…)` -/
  | tag (σ : Snapshot) (tag : Str) (overwrite : Bool)
  /-- `GraphSnapshot.from_tag(name, tag, connectable=…)` -/
  | fromTag (name tag : Str)
  /-- `graph.write(…, snapshot=…, connection=…)`, `snapshot.write(…, connection=…)` -/
  | write (g : Graph) (σ : Option Snapshot) (d : D) (a : Art) (fp : Option Fp) (pk : κ) (view : Nat)
  /-- `snapshot.read(artifact, view=…, connection=…)` -/
  | read (σ : Snapshot) (a : Art) (view : Nat)
  /-- `graph.read(artifact, view=…, connection=…)` -/
  | readGraph (g : Graph) (a : Art) (view : Nat)
  /-- `snapshot.build()` -/
  | build (σ : Snapshot)

namespace Call
variable {κ D : Type} [DecidableEq κ] (env : Env κ D)
open World M

/-- A call in a process with one backend, that of the graph. -/
def alone : Call κ D → M κ D (Ret κ D)
  | .snapshot g => do return .snapshot (← fromGraph env g)
  | .tag σ t ov => do writeSnapshotTag σ t ov; return .none
  | .fromTag n t => do return .snapshot (← readSnapshotTag n t)
  | .write g σ d a fp pk view => do return .part (← World.write env g σ d a fp pk view)
  | .read σ a view => do return .data (← readSnapshotData env σ a view)
  | .readGraph g a view => do return .data (← graphRead env g a view)
  | .build σ => do World.build env σ; return .none

/-- `Graph.read` with a connection and no snapshot (`graphs/__init__.py:205-247`): the snapshot is
taken with `self.snapshot()`, without the connection (line 236); the links are read with it. -/
def readGraphVia (connection : Bool) (g : Graph) (a : Art) (view : Nat) (t : Two κ D) :
    Except Err D × Two κ D :=
  match g.keyOf a with
  | none => (.error .keyError, t)
  | some _ => match a with
    | .raw i => Two.onOwn (do
        let files ← gets fun s => s.files
        let ss ← lift (discover env files i.sto [])
        lift (ioRead env files i view ss)) t
    | .made _ _ _ =>
      Two.andThen (Two.onOwn (fromGraph env g))
        (fun σ => Two.via connection (readSnapshotData env σ a view)) t

/-- A call, with a connection to the other backend or without
(`graphs/__init__.py:152-163,205-291,317-427`); `build` connects to the backend of the snapshot
(`executors/local.py:24`), whatever connection the snapshot was made with. -/
def run (connection : Bool) : Call κ D → Two κ D → Except Err (Ret κ D) × Two κ D
  | .snapshot g => Two.andThen (Two.via connection (fromGraph env g))
      fun σ t => (.ok (.snapshot σ), t)
  | .tag σ tg ov => Two.andThen (Two.via connection (writeSnapshotTag σ tg ov))
      fun _ t => (.ok .none, t)
  | .fromTag n tg => Two.andThen (Two.via connection (readSnapshotTag n tg))
      fun σ t => (.ok (.snapshot σ), t)
  | .write g σ d a fp pk view =>
      Two.andThen (Two.via connection (World.write env g σ d a fp pk view))
        fun p t => (.ok (.part p), t)
  | .read σ a view => Two.andThen (Two.via connection (readSnapshotData env σ a view))
      fun d t => (.ok (.data d), t)
  | .readGraph g a view => Two.andThen (readGraphVia env connection g a view)
      fun d t => (.ok (.data d), t)
  | .build σ => Two.andThen (Two.onOwn (World.build env σ)) fun _ t => (.ok .none, t)

/-- A sequence of calls, each with or without the connection; errors are caught by the caller. -/
def runAll : List (Bool × Call κ D) → Two κ D → List (Except Err (Ret κ D)) × Two κ D
  | [], t => ([], t)
  | (b, c) :: rest, t =>
    let (r, t') := c.run env b t
    let (rs, t'') := runAll rest t'
    (r :: rs, t'')

/-- The same in a process with one backend. -/
def aloneAll : List (Call κ D) → St κ D → List (Except Err (Ret κ D)) × St κ D
  | [], s => ([], s)
  | c :: rest, s =>
    let (r, s') := c.alone env s
    let (rs, s'') := aloneAll rest s'
    (r :: rs, s'')

end Call
end Arti
