import Verif.Model.World

/-!
# Processes that build at the same time

Several processes share the local file system (`storage/local.py`); each has its own memory backend
(`backends/memory.py`).  A process is a program in which each access to the shared files is a step
of its own, so that other processes may do anything between two accesses: listing the names that
match a template, reading the content of one file to compute its fingerprint or to load it, and
writing one file.  What a process does between two accesses only touches its own memory; it is done
in one step.  The functions are those of `Verif.Model.World`, step by step; `Verif.Lemmas.Par`
proves that a process that is alone does what is said there.

Not modelled: file systems that show a listing that never was the listing at one moment, and threads
that share a backend.
-/

namespace Arti

/-- A program: it is finished, with a result or by raising, or it makes a step and goes on depending
on what it saw before the step. -/
inductive Prog (κ D α : Type) : Type
  | ret (r : Except Err α)
  | act (f : St κ D → St κ D) (k : St κ D → Prog κ D α)

namespace Prog
variable {κ D α β : Type}

protected def bind : Prog κ D α → (α → Prog κ D β) → Prog κ D β
  | .ret (.ok a), g => g a
  | .ret (.error e), _ => .ret (.error e)
  | .act f k, g => .act f fun s => (k s).bind g

instance : Monad (Prog κ D) where
  pure a := .ret (.ok a)
  bind := Prog.bind

/-- One step. -/
def atom (m : M κ D α) : Prog κ D α := .act (fun s => (m s).2) fun s => .ret (m s).1

/-- Raise, or go on with the value. -/
def lift (x : Except Err α) : Prog κ D α := .ret x

/-- Raise unless there is a value. -/
def need (x : Option α) (e : Err) : Prog κ D α :=
  match x with
  | some a => .ret (.ok a)
  | none => .ret (.error e)

/-- Raise if the condition holds. -/
def raiseIf (b : Bool) (e : Err) : Prog κ D Unit :=
  if b then .ret (.error e) else .ret (.ok ())

/-- Run the program alone. -/
def run : Prog κ D α → M κ D α
  | .ret r => fun s => (r, s)
  | .act f k => fun s => (k s).run (f s)

end Prog

/-- How files are written. -/
inductive WriteMode where
  /-- a file appears with its content, as if it were written elsewhere and renamed; this is not what
  the code does -/
  | whole
  /-- the file is opened for writing, which makes it empty, and then filled
  (`io/json_localfile_python.py:47-48`, `io/pickle_localfile_python.py:49-50`).  Simplification: it
  is filled in one step; `Verif.Model.Torn` has the steps in between. -/
  | inPlace
  deriving DecidableEq

namespace Par
variable {κ D : Type} [DecidableEq κ] (env : Env κ D)
open Prog

/-! ## Storage -/

/-- The data of a partition, `World.content`; for a file, one access. -/
def content (l : Loc) : Prog κ D (Option Str) := atom (M.gets fun s => World.content s.files l)

/-- `StoragePartition.snapshot` (`storage/__init__.py:36-39`, `storage/local.py:22-28`,
`storage/literal.py:20-23`), `World.snap`. -/
def snap (p : Prt κ) : Prog κ D (PSnap κ) := do
  let c ← content p.loc
  let c ← need c .fileNotFound
  return ⟨World.contentFp env p.loc c, p⟩

/-- `generate_partition(...).snapshot()` for several partitions, `World.snapAll`
(`storage/local.py:54-58`). -/
def snapAll (sto : Sto) : List (Option Fp × κ) → Prog κ D (List (PSnap κ))
  | [] => pure []
  | (fp, pk) :: rest => do
    let p ← lift (World.generate env sto fp pk)
    let s ← snap env p
    let ss ← snapAll sto rest
    return s :: ss

/-- `Storage.discover_partitions` (`storage/local.py:47-58`, `storage/literal.py:31-52`),
`World.discover`: the names are listed, then the files are read. -/
def discover (sto : Sto) (ifps : PyDict κ Fp) : Prog κ D (List (PSnap κ)) :=
  match sto with
  | .file t => do
    let names ← atom (M.gets fun s => PyDict.keys s.files)
    let found ← lift (env.scan t names)
    snapAll env sto (found.filter fun (fp, pk) => PyDict.get? ifps pk = fp)
  | .lit t v =>
    if !ifps.isEmpty && v.isSome then lift (.error .valueError)
    else if t.keyed && ifps.isEmpty then lift (.error .valueError)
    else if v.isNone then pure []
    else snapAll env sto
      (if ifps.isEmpty then [(none, env.npKey)] else ifps.map fun (pk, fp) => (some fp, pk))

/-! ## The memory backend -/

/-- Warming the cache in `read_artifact_partitions` (`backends/memory.py:69-74`), `World.warm`. -/
def warm (a : Art) (ifps : PyDict κ Fp) : Prog κ D Unit := do
  let known ← atom (M.gets fun s => PyDict.contains s.storage a.info.sto)
  if known then pure ()
  else do
    let found ← discover env a.info.sto ifps
    atom (World.writeArtifactPartitions a found)

/-- `read_artifact_partitions` (`backends/memory.py:66-82`), `World.readArtifactPartitions`. -/
def readArtifactPartitions (a : Art) (ifps : PyDict κ Fp) : Prog κ D (List (PSnap κ)) := do
  warm env a ifps
  let ps ← atom (M.gets fun s => (PyDict.get? s.storage a.info.sto).getD [])
  return env.iter (if ifps.isEmpty then ps
    else ps.filter fun s => PyDict.get? ifps s.part.key = s.part.inputFp)

/-! ## io and writes -/

/-- The contents of some partitions, `World.contents`. -/
def contents : List (PSnap κ) → Prog κ D (List Str)
  | [] => pure []
  | s :: ss => do
    let c ← content s.part.loc
    let c ← need c .fileNotFound
    let cs ← contents ss
    return c :: cs

/-- `io.read` (`io/__init__.py:42-62`), `World.ioRead`. -/
def ioRead (i : ArtInfo) (view : Nat) (ss : List (PSnap κ)) : Prog κ D D :=
  if ss.isEmpty then lift (.error .fileNotFound)
  else if 1 < ss.length && !i.partitioned then lift (.error .valueError)
  else do
    let cs ← contents ss
    lift (env.dec i view cs)

/-- Writing a file. -/
def writeFile (mode : WriteMode) (path c : Str) : Prog κ D Unit :=
  match mode with
  | .whole => atom (M.effect fun s => { s with files := PyDict.set s.files path c })
  | .inPlace => do
    atom (M.effect fun s => { s with files := PyDict.set s.files path [] })
    atom (M.effect fun s => { s with files := PyDict.set s.files path c })

/-- `io.write` (`io/__init__.py:77-82`), `World.ioWrite`. -/
def ioWrite (mode : WriteMode) (i : ArtInfo) (view : Nat) (d : D) (p : Prt κ) :
    Prog κ D (PSnap κ) :=
  match p.loc with
  | .file path => do
    let c ← lift (env.enc i view d)
    writeFile mode path c
    snap env p
  | .lit id v => do
    raiseIf v.isSome .valueError
    let c ← lift (env.enc i view d)
    lift (World.snap env [] { p with loc := .lit id (some c) })

/-- `Graph.write` (`graphs/__init__.py:249-291`), `World.write`. -/
def write (mode : WriteMode) (g : Graph) (σ : Option Snapshot) (d : D) (a : Art) (fp : Option Fp)
    (pk : κ) (view : Nat) : Prog κ D (PSnap κ) := do
  let key ← need (g.keyOf a) .keyError
  raiseIf (σ.isSome && a.out.isNone) .valueError
  let p ← lift (World.generate env a.info.sto fp pk)
  let sn ← ioWrite env mode a.info view d p
  atom (World.writeArtifactPartitions a [sn])
  atom (World.linkWritten σ key sn)
  return sn

/-! ## Snapshots -/

/-- The loop of `GraphSnapshot.from_graph` (`graphs/__init__.py:331-350`), `World.scanNodes`. -/
def scanNodes (g : Graph) : List Nd → Fp → PyDict Str (List (PSnap κ)) →
    Prog κ D (Fp × PyDict Str (List (PSnap κ)))
  | [], id, known => pure (id, known)
  | n :: rest, id, known => do
    let id ← lift (fpCombine id [env.nodeFp n])
    match n with
    | .pdr _ => scanNodes g rest id known
    | .art a => do
      let key ← need (g.keyOf a) .keyError
      let id ← lift (fpCombine id [env.strHash key])
      match a.out with
      | some _ => scanNodes g rest id known
      | none => do
        let ps ← discover env a.info.sto []
        if ps.isEmpty then lift (.error .valueError)
        else do
          let id ← lift (fpCombine id (ps.map env.snapFp))
          scanNodes g rest id (PyDict.set known key ps)

/-- `Graph.snapshot`, `GraphSnapshot.from_graph` (`graphs/__init__.py:317-360`),
`World.fromGraph`. -/
def fromGraph (g : Graph) : Prog κ D Snapshot := do
  let (id, known) ← scanNodes env g (PyDict.keys g.dependencies) (env.graphFp g) []
  let σ : Snapshot := ⟨id, g⟩
  atom (M.ghost fun s => { s with raws := s.raws ++ [(σ, World.withContents s.files known)] })
  atom (World.writeGraph env g)
  atom (World.writeSnapshot env σ)
  atom (World.linkAll σ known)
  return σ

/-! ## The executor -/

/-- The dict comprehension in `discover_producer_partitions` (`executors/__init__.py:48-51`),
`World.readOutputs`. -/
def readOutputs (ifps : PyDict κ Fp) : List Art → Prog κ D (List (Art × List (PSnap κ)))
  | [] => pure []
  | a :: rest => do
    let ps ← readArtifactPartitions env a ifps
    let r ← readOutputs ifps rest
    return (a, ps) :: r

/-- `Executor.discover_producer_partitions` (`executors/__init__.py:34-60`),
`World.discoverProducerPartitions`. -/
def discoverProducerPartitions (σ : Snapshot) (p : Pdr) (ifps : PyDict κ Fp) :
    Prog κ D (List κ) := do
  let outs ← lift (σ.graph.producerOutputs p)
  let found ← readOutputs env ifps outs
  atom (World.linkOutputs σ found)
  return found.flatMap fun (_, ps) => ps.map fun s => s.part.key

/-- The arguments of `build` (`executors/__init__.py:83-90`), `World.readArgs`. -/
def readArgs (inputs : List (Str × Art)) (deps : List (Str × List (PSnap κ))) :
    List (Str × Nat) → Prog κ D (List (Str × D))
  | [] => pure []
  | (name, view) :: rest => do
    let a ← need (PyDict.get? inputs name) .keyError
    let ss ← need (PyDict.get? deps name) .keyError
    let d ← ioRead env a.info view ss
    let r ← readArgs inputs deps rest
    return (name, d) :: r

/-- The loop that writes the outputs (`executors/__init__.py:97-105`), `World.writeOutputs`. -/
def writeOutputs (mode : WriteMode) (σ : Snapshot) (p : Pdr) (fp : Fp) (pk : κ) :
    Nat → List D → Prog κ D Unit
  | _, [] => pure ()
  | i, d :: rest => do
    let outs ← lift (σ.graph.producerOutputs p)
    let a ← need outs[i]? .indexError
    let view ← need (World.cls env p).outputs[i]? .indexError
    let _ ← write env mode σ.graph (some σ) d a (some fp) pk view
    writeOutputs mode σ p fp pk (i + 1) rest

/-- `Executor.build_producer_partition` (`executors/__init__.py:62-105`),
`World.buildPartition`. -/
def buildPartition (mode : WriteMode) (σ : Snapshot) (p : Pdr) (existing : List κ) (fp : Fp)
    (deps : List (Str × List (PSnap κ))) (pk : κ) : Prog κ D Unit :=
  if existing.contains pk then pure ()
  else do
    let args ← readArgs env p.inputs deps (World.cls env p).buildInputs
    atom (M.ghost fun s => { s with calls := s.calls ++ [(p, pk)] })
    let outs ← lift ((World.cls env p).build args)
    let passed ← lift ((World.cls env p).validate outs)
    raiseIf (!passed) .valueError
    writeOutputs env mode σ p fp pk 0 outs

/-- The loop over the partition dependencies in `LocalExecutor.build`
(`executors/local.py:44-55`), `World.buildPartitions`. -/
def buildPartitions (mode : WriteMode) (σ : Snapshot) (p : Pdr) (existing : List κ)
    (ifps : PyDict κ Fp) : List (κ × List (Str × List (PSnap κ))) → Prog κ D Unit
  | [] => pure ()
  | (pk, deps) :: rest => do
    let fp ← need (PyDict.get? ifps pk) .keyError
    buildPartition env mode σ p existing fp deps pk
    buildPartitions mode σ p existing ifps rest

/-- One producer of `LocalExecutor.build` (`executors/local.py:30-55`), `World.buildProducer`. -/
def buildProducer (mode : WriteMode) (σ : Snapshot) (p : Pdr) : Prog κ D Unit := do
  let ins ← atom (World.getInputs env σ p.inputs)
  let (deps, ifps) ← lift (World.computeDependencies env p ins)
  atom (M.ghost fun s => { s with invs := s.invs ++ World.invsOf env s.files p ifps deps })
  let existing ← discoverProducerPartitions env σ p ifps
  buildPartitions env mode σ p existing ifps deps

/-- The loop of `LocalExecutor.build` (`executors/local.py:25-56`) over a given order,
`World.buildOrder`. -/
def buildOrder (mode : WriteMode) (σ : Snapshot) : List Nd → Prog κ D Unit
  | [] => pure ()
  | .art _ :: rest => buildOrder mode σ rest
  | .pdr p :: rest => do
    buildProducer env mode σ p
    buildOrder mode σ rest

/-- `LocalExecutor.build` (`executors/local.py:22-57`), `World.build`. -/
def build (mode : WriteMode) (σ : Snapshot) : Prog κ D Unit := do
  let order ← lift (Topo.staticOrder σ.graph.dependencies)
  buildOrder env mode σ order

/-- `Graph.build` (`graphs/__init__.py:147-149`), `World.graphBuild`. -/
def graphBuild (mode : WriteMode) (g : Graph) : Prog κ D Snapshot := do
  let σ ← fromGraph env g
  build env mode σ
  return σ

/-! ## Processes -/

/-- A process: its memory, with the files as it last saw them, and what it has yet to do. -/
structure Proc (κ D : Type) where
  st : St κ D
  prog : Prog κ D Snapshot

/-- The shared files, the processes, and a ghost log of the dependencies that were computed by any
process, also one that is gone. -/
structure Sys (κ D : Type) where
  files : PyDict Str Str
  procs : List (Proc κ D)
  log : List (Inv κ D)

/-- A new process, with an empty backend (`backends/memory.py:49-62`), that is about to build a graph
and is interrupted after a number of effects. -/
def Proc.start (mode : WriteMode) (g : Graph) (budget : Option Nat) : Proc κ D :=
  ⟨⟨[], [], [], [], [], [], budget, [], [], []⟩, graphBuild env mode g⟩

/-- A process makes its next step, on the files as they are now. -/
def Proc.step (files : PyDict Str Str) (p : Proc κ D) : Proc κ D :=
  match p.prog with
  | .ret _ => { p with st := { p.st with files := files } }
  | .act f k => ⟨f { p.st with files := files }, k { p.st with files := files }⟩

/-- The process with this number makes its next step. -/
def Sys.step (n : Nat) (S : Sys κ D) : Sys κ D :=
  match S.procs[n]? with
  | none => S
  | some p => ⟨(p.step S.files).st.files, S.procs.set n (p.step S.files),
      S.log ++ (p.step S.files).st.invs⟩

/-- Processes make steps in the given order. -/
def Sys.steps (S : Sys κ D) (order : List Nat) : Sys κ D := order.foldl (fun S n => S.step n) S

end Par
end Arti
