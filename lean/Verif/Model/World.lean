import Verif.Model.Graph

/-!
# The world: files, the memory backend, producers, snapshots, the executor

(`src/arti/backends/memory.py`, `src/arti/backends/__init__.py`, `src/arti/io/__init__.py`,
`src/arti/producers/__init__.py:326-371`, `src/arti/graphs/__init__.py:205-385`,
`src/arti/executors/__init__.py`, `src/arti/executors/local.py`)

The type `κ` of partition keys is a parameter whose equality is Python's `==` on `PartitionKey`;
`D` is the type of the data that producers see.  File contents and literal values are strings.
-/

namespace Arti

/-- Where the data of a partition is: the path of a `LocalFilePartition` or the id and the value
of a `StringLiteralPartition`. -/
inductive Loc
  | file (path : Str)
  | lit (id : Str) (value : Option Str)
  deriving DecidableEq, Repr

/-- `StoragePartition` (`storage/__init__.py:25-29`). -/
structure Prt (κ : Type) where
  sto : Sto
  inputFp : Option Fp
  key : κ
  loc : Loc
  deriving DecidableEq, Repr

/-- `StoragePartitionSnapshot` (`storage/__init__.py:47-49`). -/
structure PSnap (κ : Type) where
  contentFp : Fp
  part : Prt κ
  deriving DecidableEq, Repr

/-- A concrete producer class at one version: the class attributes computed by
`__pydantic_init_subclass__` and the user's functions.  Views are opaque numbers.  `map` returns
the items of a dict of dicts. -/
structure PClass (κ D : Type) where
  /-- `_build_inputs_`: parameter name and view -/
  buildInputs : List (Str × Nat)
  /-- `_map_inputs_` -/
  mapInputs : List Str
  /-- `_outputs_`: the views -/
  outputs : List Nat
  map : List (Str × List (PSnap κ)) → Except Err (List (κ × List (Str × List (PSnap κ))))
  /-- The outputs as a tuple (a single output is wrapped, `executors/__init__.py:92-93`). -/
  build : List (Str × D) → Except Err (List D)
  validate : List D → Except Err Bool

/-- Everything the modelled code calls but does not define. -/
structure Env (κ D : Type) where
  /-- `PartitionKey()` -/
  npKey : κ
  /-- `strip_partition_indexes(field).format(**kwargs)` in `generate_partition`
  (`storage/__init__.py:208-212`) for one string field -/
  render : Str → Option Fp → κ → Except Err Str
  /-- `glob` and `parse_spec` without the filter (`storage/local.py:50-54`,
  `storage/_internal.py:161-183`): what the names of the existing files say about a template -/
  scan : Tmpl → List Str → Except Err (List (Option Fp × κ))
  /-- `LocalFilePartition.compute_content_fingerprint` of a file with this content
  (`storage/local.py:22-28`) -/
  fileHash : Str → Fp
  /-- `Fingerprint.from_string` -/
  strHash : Str → Fp
  /-- `Model.fingerprint` of a node, a graph, a snapshot of a partition -/
  nodeFp : Nd → Fp
  graphFp : Graph → Fp
  snapFp : PSnap κ → Fp
  /-- `GraphSnapshot.fingerprint` -/
  snapshotFp : Snapshot → Fp
  /-- `version.fingerprint` -/
  versionFp : Str → Fp
  /-- the code of a producer class; it may change with the version, if the fingerprint of the
  version changes with it -/
  impl : Str → Fp → PClass κ D
  /-- checking the view (`graphs/__init__.py:268-269`) and serialising -/
  enc : ArtInfo → Nat → D → Except Err Str
  /-- checking the view and deserialising the contents of some partitions -/
  dec : ArtInfo → Nat → List Str → Except Err D
  /-- the order in which a `set` of partition snapshots is iterated -/
  iter : List (PSnap κ) → List (PSnap κ)

/-- Ghost: one partition dependency that was computed during a build: the producer, the partition
key, the input fingerprint, and the arguments that `build` would get. -/
structure Inv (κ D : Type) where
  pdr : Pdr
  key : κ
  fp : Fp
  args : Except Err (List (Str × D))

/-- The world: the file system, the container of the memory backend (`backends/memory.py:49-62`;
nested dicts are flattened), a budget of effects after which the process is interrupted, and ghost
logs. -/
structure St (κ D : Type) where
  files : PyDict Str Str
  graphs : PyDict (Str × Fp) Graph
  snapshots : PyDict (Str × Fp) Snapshot
  tags : PyDict (Str × Str) Snapshot
  storage : PyDict Sto (List (PSnap κ))
  links : PyDict (Snapshot × Str) (List (PSnap κ))
  budget : Option Nat
  /-- ghost: calls of `Producer.build` -/
  calls : List (Pdr × κ)
  /-- ghost: computed dependencies -/
  invs : List (Inv κ D)
  /-- ghost: the raw partitions and their contents, by artifact key, when snapshots were taken -/
  raws : List (Snapshot × PyDict Str (List (PSnap κ × Str)))

/-- Stateful code that may raise; the state persists when it raises. -/
def M (κ D α : Type) : Type := St κ D → Except Err α × St κ D

namespace M
variable {κ D α β : Type}

protected def pure (a : α) : M κ D α := fun s => (.ok a, s)

protected def bind (m : M κ D α) (f : α → M κ D β) : M κ D β := fun s =>
  match m s with
  | (.ok a, s') => f a s'
  | (.error e, s') => (.error e, s')

instance : Monad (M κ D) where
  pure := M.pure
  bind := M.bind

/-- Raise, or go on with the value. -/
def lift (x : Except Err α) : M κ D α := fun s => (x, s)

/-- Raise unless there is a value. -/
def need (x : Option α) (e : Err) : M κ D α := fun s =>
  match x with
  | some a => (.ok a, s)
  | none => (.error e, s)

/-- Raise if the condition holds. -/
def raiseIf (b : Bool) (e : Err) : M κ D Unit := fun s =>
  if b then (.error e, s) else (.ok (), s)

/-- Read the state. -/
def gets (f : St κ D → α) : M κ D α := fun s => (.ok (f s), s)

/-- An atomic effect on the world.  It does not happen if the process is interrupted before. -/
def effect (f : St κ D → St κ D) : M κ D Unit := fun s =>
  match s.budget with
  | none => (.ok (), f s)
  | some 0 => (.error .crash, s)
  | some (n + 1) => (.ok (), { f s with budget := some n })

/-- A ghost update. -/
def ghost (f : St κ D → St κ D) : M κ D Unit := fun s => (.ok (), f s)

end M

namespace World
variable {κ D : Type} [DecidableEq κ] (env : Env κ D)
open M

/-! ## Storage -/

/-- `Storage._check_key` (`storage/__init__.py:180-185`). -/
def checkKey (keyed : Bool) (pk : κ) : Except Err Unit :=
  if keyed && pk = env.npKey then .error .valueError
  else if pk ≠ env.npKey && !keyed then .error .valueError
  else .ok ()

/-- `Storage.generate_partition` (`storage/__init__.py:193-222`). -/
def generate (sto : Sto) (fp : Option Fp) (pk : κ) : Except Err (Prt κ) := do
  checkKey env sto.tmpl.keyed pk
  if fp.isNone && sto.hasFp then .error .valueError
  else if fp.isSome && !sto.hasFp then .error .valueError
  else match sto with
    | .file t => do
      let path ← env.render t.text fp pk
      .ok ⟨sto, fp, pk, .file path⟩
    | .lit t v => do
      let id ← env.render t.text fp pk
      match v with
      | none => .ok ⟨sto, fp, pk, .lit id none⟩
      | some v => do
        let v ← env.render v fp pk
        .ok ⟨sto, fp, pk, .lit id (some v)⟩

/-- The data of a partition: the file content or the literal value. -/
def content (files : PyDict Str Str) : Loc → Option Str
  | .file p => PyDict.get? files p
  | .lit _ v => v

/-- `compute_content_fingerprint` of existing data. -/
def contentFp (l : Loc) (c : Str) : Fp :=
  match l with
  | .file _ => env.fileHash c
  | .lit _ _ => env.strHash c

/-- `StoragePartition.snapshot` (`storage/__init__.py:36-39`, `storage/local.py:22-28`,
`storage/literal.py:20-23`). -/
def snap (files : PyDict Str Str) (p : Prt κ) : Except Err (PSnap κ) :=
  match content files p.loc with
  | some c => .ok ⟨contentFp env p.loc c, p⟩
  | none => .error .fileNotFound

/-- `generate_partition(...).snapshot()` for several partitions. -/
def snapAll (files : PyDict Str Str) (sto : Sto) :
    List (Option Fp × κ) → Except Err (List (PSnap κ))
  | [] => .ok []
  | (fp, pk) :: rest => do
    let p ← generate env sto fp pk
    let s ← snap env files p
    let ss ← snapAll files sto rest
    .ok (s :: ss)

/-- `Storage.discover_partitions` (`storage/local.py:47-58`, `storage/literal.py:31-52`).
The executor only passes input fingerprints that are not `None`. -/
def discover (files : PyDict Str Str) (sto : Sto) (ifps : PyDict κ Fp) :
    Except Err (List (PSnap κ)) :=
  match sto with
  | .file t => do
    let found ← env.scan t (PyDict.keys files)
    snapAll env files sto (found.filter fun (fp, pk) => PyDict.get? ifps pk = fp)
  | .lit t v =>
    if !ifps.isEmpty && v.isSome then .error .valueError
    else if t.keyed && ifps.isEmpty then .error .valueError
    else if v.isNone then .ok []
    else snapAll env files sto
      (if ifps.isEmpty then [(none, env.npKey)] else ifps.map fun (pk, fp) => (some fp, pk))

/-! ## The memory backend -/

/-- `write_artifact_partitions` (`backends/memory.py:84-87`). -/
def writeArtifactPartitions (a : Art) (ps : List (PSnap κ)) : M κ D Unit :=
  effect fun s => { s with
    storage := PyDict.set s.storage a.info.sto
      (setUpdate ((PyDict.get? s.storage a.info.sto).getD []) ps) }

/-- Warming the cache in `read_artifact_partitions` (`backends/memory.py:69-74`). -/
def warm (a : Art) (ifps : PyDict κ Fp) : M κ D Unit := do
  let known ← gets fun s => PyDict.contains s.storage a.info.sto
  if known then pure ()
  else do
    let files ← gets fun s => s.files
    let found ← lift (discover env files a.info.sto ifps)
    writeArtifactPartitions a found

/-- `read_artifact_partitions` (`backends/memory.py:66-82`). -/
def readArtifactPartitions (a : Art) (ifps : PyDict κ Fp) : M κ D (List (PSnap κ)) := do
  warm env a ifps
  let ps ← gets fun s => (PyDict.get? s.storage a.info.sto).getD []
  return env.iter (if ifps.isEmpty then ps
    else ps.filter fun s => PyDict.get? ifps s.part.key = s.part.inputFp)

/-- `read_snapshot_partitions` (`backends/memory.py:118-121`). -/
def readSnapshotPartitions (σ : Snapshot) (key : Str) : M κ D (List (PSnap κ)) :=
  gets fun s => env.iter ((PyDict.get? s.links (σ, key)).getD [])

/-- `write_snapshot_partitions` (`backends/memory.py:123-130`). -/
def writeSnapshotPartitions (σ : Snapshot) (key : Str) (ps : List (PSnap κ)) : M κ D Unit :=
  effect fun s => { s with
    links := PyDict.set s.links (σ, key)
      (setUpdate ((PyDict.get? s.links (σ, key)).getD []) ps) }

/-- `write_graph` (`backends/memory.py:92-93`). -/
def writeGraph (g : Graph) : M κ D Unit :=
  effect fun s => { s with graphs := PyDict.set s.graphs (g.name, env.graphFp g) g }

/-- `read_graph` (`backends/memory.py:89-90`). -/
def readGraph (name : Str) (fp : Fp) : M κ D Graph := do
  let g ← gets fun s => PyDict.get? s.graphs (name, fp)
  need g .keyError

/-- `write_snapshot` (`backends/memory.py:98-99`). -/
def writeSnapshot (σ : Snapshot) : M κ D Unit :=
  effect fun s => { s with
    snapshots := PyDict.set s.snapshots (σ.graph.name, env.snapshotFp σ) σ }

/-- `read_snapshot` (`backends/memory.py:95-96`). -/
def readSnapshot (name : Str) (fp : Fp) : M κ D Snapshot := do
  let σ ← gets fun s => PyDict.get? s.snapshots (name, fp)
  need σ .keyError

/-- `read_snapshot_tag` (`backends/memory.py:101-104`), `GraphSnapshot.from_tag`. -/
def readSnapshotTag (name tag : Str) : M κ D Snapshot := do
  let σ ← gets fun s => PyDict.get? s.tags (name, tag)
  need σ .valueError

/-- `write_snapshot_tag` (`backends/memory.py:106-116`), `GraphSnapshot.tag`. -/
def writeSnapshotTag (σ : Snapshot) (tag : Str) (overwrite : Bool) : M κ D Unit := do
  let existing ← gets fun s => PyDict.get? s.tags (σ.graph.name, tag)
  raiseIf (existing.isSome && !overwrite) .valueError
  effect fun s => { s with tags := PyDict.set s.tags (σ.graph.name, tag) σ }

/-- `write_artifact_and_graph_partitions` (`backends/__init__.py:112-120`). -/
def writeArtifactAndGraphPartitions (σ : Snapshot) (key : Str) (a : Art) (ps : List (PSnap κ)) :
    M κ D Unit := do
  writeArtifactPartitions a ps
  writeSnapshotPartitions σ key ps

/-! ## Producers -/

/-- The class of a producer. -/
def cls (p : Pdr) : PClass κ D := env.impl p.cls (env.versionFp p.ver)

/-- `Producer.compute_input_fingerprint` (`producers/__init__.py:326-346`). -/
def computeInputFingerprint (p : Pdr) (deps : List (Str × List (PSnap κ))) : Except Err Fp :=
  if sameSet (PyDict.keys deps) (PyDict.keys (cls env p).buildInputs) then
    fpCombine (env.strHash p.cls)
      (env.versionFp p.ver :: deps.flatMap fun (_, ss) => ss.map PSnap.contentFp)
  else .error .valueError

/-- The dict comprehension in `Producer.compute_dependencies` (`producers/__init__.py:361-366`). -/
def inputFingerprints (p : Pdr) :
    List (κ × List (Str × List (PSnap κ))) → Except Err (PyDict κ Fp)
  | [] => .ok []
  | (pk, d) :: rest => do
    let fp ← computeInputFingerprint env p d
    let r ← inputFingerprints p rest
    .ok ((pk, fp) :: r)

/-- `Producer.compute_dependencies` (`producers/__init__.py:348-367`). -/
def computeDependencies (p : Pdr) (ins : List (Str × List (PSnap κ))) :
    Except Err (List (κ × List (Str × List (PSnap κ))) × PyDict κ Fp) := do
  let items ← (cls env p).map (ins.filter fun (n, _) => (cls env p).mapInputs.contains n)
  let deps := PyDict.ofItems items
  let fps ← inputFingerprints env p deps
  .ok (deps, fps)

/-! ## io and graph reads and writes -/

/-- The contents of some partitions. -/
def contents (files : PyDict Str Str) : List (PSnap κ) → Except Err (List Str)
  | [] => .ok []
  | s :: ss =>
    match content files s.part.loc with
    | none => .error .fileNotFound
    | some c => (contents files ss).map (c :: ·)

/-- `io.read` (`io/__init__.py:42-62`). -/
def ioRead (files : PyDict Str Str) (i : ArtInfo) (view : Nat) (ss : List (PSnap κ)) :
    Except Err D :=
  if ss.isEmpty then .error .fileNotFound
  else if 1 < ss.length && !i.partitioned then .error .valueError
  else do
    let cs ← contents files ss
    env.dec i view cs

/-- `GraphSnapshot.read` (`graphs/__init__.py:205-247,386-400`) of an artifact of the snapshot,
with a view. -/
def readSnapshotData (σ : Snapshot) (a : Art) (view : Nat) : M κ D D := do
  let key ← need (σ.graph.keyOf a) .keyError
  let ss ← readSnapshotPartitions env σ key
  let files ← gets fun s => s.files
  lift (ioRead env files a.info view ss)

/-- `io.write` (`io/__init__.py:77-82`) with the writers of `io/*_localfile_python.py` and
`io/json_stringliteral_python.py:45-58`.  Simplification: a file is written in one effect, and not
at all if serialising raises; `Verif.Model.Torn` models the steps in between, and
`Verif.Lemmas.Torn` proves how the two models are related. -/
def ioWrite (i : ArtInfo) (view : Nat) (d : D) (p : Prt κ) : M κ D (PSnap κ) :=
  match p.loc with
  | .file path => do
    let c ← lift (env.enc i view d)
    effect fun s => { s with files := PyDict.set s.files path c }
    let files ← gets fun s => s.files
    lift (snap env files p)
  | .lit id v => do
    raiseIf v.isSome .valueError
    let c ← lift (env.enc i view d)
    lift (snap env [] { p with loc := .lit id (some c) })

/-- Linking what was written (`graphs/__init__.py:287-290`). -/
def linkWritten (σ : Option Snapshot) (key : Str) (sn : PSnap κ) : M κ D Unit :=
  match σ with
  | some σ => writeSnapshotPartitions σ key [sn]
  | none => pure ()

/-- `Graph.write` (`graphs/__init__.py:249-291`), with the snapshot if called through it. -/
def write (g : Graph) (σ : Option Snapshot) (d : D) (a : Art) (fp : Option Fp) (pk : κ)
    (view : Nat) : M κ D (PSnap κ) := do
  let key ← need (g.keyOf a) .keyError
  raiseIf (σ.isSome && a.out.isNone) .valueError
  let p ← lift (generate env a.info.sto fp pk)
  let sn ← ioWrite env a.info view d p
  writeArtifactPartitions a [sn]
  linkWritten σ key sn
  return sn

/-! ## Snapshots -/

/-- The loop of `GraphSnapshot.from_graph` (`graphs/__init__.py:331-350`). -/
def scanNodes (files : PyDict Str Str) (g : Graph) :
    List Nd → Fp → PyDict Str (List (PSnap κ)) → Except Err (Fp × PyDict Str (List (PSnap κ)))
  | [], id, known => .ok (id, known)
  | n :: rest, id, known => do
    let id ← fpCombine id [env.nodeFp n]
    match n with
    | .pdr _ => scanNodes files g rest id known
    | .art a => do
      let key ← match g.keyOf a with | some k => Except.ok k | none => .error .keyError
      let id ← fpCombine id [env.strHash key]
      match a.out with
      | some _ => scanNodes files g rest id known
      | none => do
        let ps ← discover env files a.info.sto []
        if ps.isEmpty then .error .valueError
        else do
          let id ← fpCombine id (ps.map env.snapFp)
          scanNodes files g rest id (PyDict.set known key ps)

/-- The loop that links the raw partitions (`graphs/__init__.py:356-359`). -/
def linkAll (σ : Snapshot) : PyDict Str (List (PSnap κ)) → M κ D Unit
  | [] => pure ()
  | (key, ps) :: rest => do
    let a ← need (σ.graph.artAt key) .keyError
    writeArtifactAndGraphPartitions σ key a ps
    linkAll σ rest

/-- Ghost: partitions with their contents. -/
def withContents (files : PyDict Str Str) (known : PyDict Str (List (PSnap κ))) :
    PyDict Str (List (PSnap κ × Str)) :=
  known.map fun (k, ps) =>
    (k, ps.filterMap fun sn => (content files sn.part.loc).map fun c => (sn, c))

/-- `Graph.snapshot`, `GraphSnapshot.from_graph` (`graphs/__init__.py:317-360`). -/
def fromGraph (g : Graph) : M κ D Snapshot := do
  let files ← gets fun s => s.files
  let (id, known) ← lift (scanNodes env files g (PyDict.keys g.dependencies) (env.graphFp g) [])
  let σ : Snapshot := ⟨id, g⟩
  ghost fun s => { s with raws := s.raws ++ [(σ, withContents files known)] }
  writeGraph env g
  writeSnapshot env σ
  linkAll σ known
  return σ

/-! ## The executor -/

/-- `Executor.get_producer_inputs` (`executors/__init__.py:22-32`). -/
def getInputs (σ : Snapshot) : List (Str × Art) → M κ D (List (Str × List (PSnap κ)))
  | [] => pure []
  | (name, a) :: rest => do
    let key ← need (σ.graph.keyOf a) .keyError
    let ps ← readSnapshotPartitions env σ key
    let r ← getInputs σ rest
    return (name, ps) :: r

/-- The dict comprehension in `discover_producer_partitions` (`executors/__init__.py:48-51`). -/
def readOutputs (ifps : PyDict κ Fp) : List Art → M κ D (List (Art × List (PSnap κ)))
  | [] => pure []
  | a :: rest => do
    let ps ← readArtifactPartitions env a ifps
    let r ← readOutputs ifps rest
    return (a, ps) :: r

/-- The loop that links existing partitions (`executors/__init__.py:52-55`). -/
def linkOutputs (σ : Snapshot) : List (Art × List (PSnap κ)) → M κ D Unit
  | [] => pure ()
  | (a, ps) :: rest => do
    let key ← need (σ.graph.keyOf a) .keyError
    writeSnapshotPartitions σ key ps
    linkOutputs σ rest

/-- `Executor.discover_producer_partitions` (`executors/__init__.py:34-60`). -/
def discoverProducerPartitions (σ : Snapshot) (p : Pdr) (ifps : PyDict κ Fp) :
    M κ D (List κ) := do
  let outs ← lift (σ.graph.producerOutputs p)
  let found ← readOutputs env ifps outs
  linkOutputs σ found
  return found.flatMap fun (_, ps) => ps.map fun s => s.part.key

/-- The arguments of `build` (`executors/__init__.py:83-90`). -/
def readArgs (files : PyDict Str Str) (inputs : List (Str × Art))
    (deps : List (Str × List (PSnap κ))) : List (Str × Nat) → Except Err (List (Str × D))
  | [] => .ok []
  | (name, view) :: rest => do
    let a ← match PyDict.get? inputs name with | some a => Except.ok a | none => .error .keyError
    let ss ← match PyDict.get? deps name with | some s => Except.ok s | none => .error .keyError
    let d ← ioRead env files a.info view ss
    let r ← readArgs files inputs deps rest
    .ok ((name, d) :: r)

/-- The loop that writes the outputs (`executors/__init__.py:97-105`); `i` counts up. -/
def writeOutputs (σ : Snapshot) (p : Pdr) (fp : Fp) (pk : κ) : Nat → List D → M κ D Unit
  | _, [] => pure ()
  | i, d :: rest => do
    let outs ← lift (σ.graph.producerOutputs p)
    let a ← need outs[i]? .indexError
    let view ← need (cls env p).outputs[i]? .indexError
    let _ ← write env σ.graph (some σ) d a (some fp) pk view
    writeOutputs σ p fp pk (i + 1) rest

/-- `Executor.build_producer_partition` (`executors/__init__.py:62-105`). -/
def buildPartition (σ : Snapshot) (p : Pdr) (existing : List κ) (fp : Fp)
    (deps : List (Str × List (PSnap κ))) (pk : κ) : M κ D Unit :=
  if existing.contains pk then pure ()
  else do
    let files ← gets fun s => s.files
    let args ← lift (readArgs env files p.inputs deps (cls env p).buildInputs)
    ghost fun s => { s with calls := s.calls ++ [(p, pk)] }
    let outs ← lift ((cls env p).build args)
    let passed ← lift ((cls env p).validate outs)
    raiseIf (!passed) .valueError
    writeOutputs env σ p fp pk 0 outs

/-- The loop over the partition dependencies in `LocalExecutor.build`
(`executors/local.py:44-55`). -/
def buildPartitions (σ : Snapshot) (p : Pdr) (existing : List κ) (ifps : PyDict κ Fp) :
    List (κ × List (Str × List (PSnap κ))) → M κ D Unit
  | [] => pure ()
  | (pk, deps) :: rest => do
    let fp ← need (PyDict.get? ifps pk) .keyError
    buildPartition env σ p existing fp deps pk
    buildPartitions σ p existing ifps rest

/-- Ghost: the log entries for the computed dependencies of a producer. -/
def invsOf (files : PyDict Str Str) (p : Pdr) (ifps : PyDict κ Fp)
    (deps : List (κ × List (Str × List (PSnap κ)))) : List (Inv κ D) :=
  deps.filterMap fun (pk, d) =>
    (PyDict.get? ifps pk).map fun fp =>
      ⟨p, pk, fp, readArgs env files p.inputs d (cls env p).buildInputs⟩

/-- One producer of `LocalExecutor.build` (`executors/local.py:30-55`). -/
def buildProducer (σ : Snapshot) (p : Pdr) : M κ D Unit := do
  let ins ← getInputs env σ p.inputs
  let (deps, ifps) ← lift (computeDependencies env p ins)
  ghost fun s => { s with invs := s.invs ++ invsOf env s.files p ifps deps }
  let existing ← discoverProducerPartitions env σ p ifps
  buildPartitions env σ p existing ifps deps

/-- The loop of `LocalExecutor.build` (`executors/local.py:25-56`) over a given order. -/
def buildOrder (σ : Snapshot) : List Nd → M κ D Unit
  | [] => pure ()
  | .art _ :: rest => buildOrder σ rest
  | .pdr p :: rest => do
    buildProducer env σ p
    buildOrder σ rest

/-- `LocalExecutor.build` (`executors/local.py:22-57`), `GraphSnapshot.build`. -/
def build (σ : Snapshot) : M κ D Unit := do
  let order ← lift (Topo.staticOrder σ.graph.dependencies)
  buildOrder env σ order

/-- `Graph.build` (`graphs/__init__.py:147-149`). -/
def graphBuild (g : Graph) : M κ D Snapshot := do
  let σ ← fromGraph env g
  build env σ
  return σ

end World
end Arti
