import Verif.Model.World

/-!
# Files that are written piece by piece

`Verif.Model.World` writes a file in one effect.  The writers of `io/json_localfile_python.py:41-48`
and `io/pickle_localfile_python.py:37-49` do not: `path.open("w")` makes an empty file, or empties
the one that is there, and `json.dump` and `pickle.dump` then write to it piece by piece.  If the
process is interrupted, or if `dump` raises because part of the data cannot be serialised, then a
torn file is left behind.

This is the same world, with these steps.  Only the functions that write a file, and those that
call them, differ; they are repeated here.  Simplification: the pieces reach the disk as soon as
they are written; the file object and the operating system may hold some of them back, which
means that there are fewer points at which the file can be torn.  The directory that is made before
(`path.parent.mkdir`) is not modelled, as everywhere.
-/

namespace Arti

/-- The world, and a ghost log of the files of which the writing was cut off. -/
structure FSt (κ D : Type) where
  w : St κ D
  torn : List Str

/-- Stateful code that may raise. -/
def FM (κ D α : Type) : Type := FSt κ D → Except Err α × FSt κ D

namespace FM
variable {κ D α β : Type}

protected def pure (a : α) : FM κ D α := fun s => (.ok a, s)

protected def bind (m : FM κ D α) (f : α → FM κ D β) : FM κ D β := fun s =>
  match m s with
  | (.ok a, s') => f a s'
  | (.error e, s') => (.error e, s')

instance : Monad (FM κ D) where
  pure := FM.pure
  bind := FM.bind

/-- Code that does not write files is the same. -/
def up (m : M κ D α) : FM κ D α := fun s =>
  match m s.w with
  | (r, w) => (r, ⟨w, s.torn⟩)

/-- Ghost: log the path if the code raises or is interrupted. -/
def marking (path : Str) (m : FM κ D α) : FM κ D α := fun s =>
  match m s with
  | (.ok a, s') => (.ok a, s')
  | (.error e, s') => (.error e, ⟨s'.w, s'.torn ++ [path]⟩)

end FM

/-- What serialising does: it raises before the file is opened (the check of the view,
`graphs/__init__.py:268-269`, or no writer), or it writes some pieces and then it may raise. -/
abbrev Serial (D : Type) : Type := ArtInfo → Nat → D → Except Err (List Str × Option Err)

namespace Torn
variable {κ D : Type} [DecidableEq κ] (env : Env κ D) (ser : Serial D)
open M FM World

/-- `file.write` of the pieces, one by one. -/
def appendAll (path : Str) : List Str → FM κ D Unit
  | [] => pure ()
  | c :: cs => do
    up (effect fun s => { s with
      files := PyDict.set s.files path ((PyDict.get? s.files path).getD [] ++ c) })
    appendAll path cs

/-- Raise the error of `dump`, if any. -/
def finish : Option Err → Except Err Unit
  | none => .ok ()
  | some e => .error e

/-- The writers `_write_json_localfile_python` (`io/json_localfile_python.py:41-48`) and
`_write_pickle_localfile_python` (`io/pickle_localfile_python.py:37-49`). -/
def writeFile (i : ArtInfo) (view : Nat) (d : D) (path : Str) : FM κ D Unit := do
  let (pieces, err) ← up (lift (ser i view d))
  up (effect fun s => { s with files := PyDict.set s.files path [] })
  marking path (do
    appendAll path pieces
    up (lift (finish err)))

/-- `io.write` (`io/__init__.py:77-82`). -/
def ioWrite (i : ArtInfo) (view : Nat) (d : D) (p : Prt κ) : FM κ D (PSnap κ) :=
  match p.loc with
  | .file path => do
    writeFile ser i view d path
    let files ← up (gets fun s => s.files)
    up (lift (snap env files p))
  | .lit _ _ => up (World.ioWrite env i view d p)

/-- `Graph.write` (`graphs/__init__.py:249-291`), with the snapshot if called through it. -/
def write (g : Graph) (σ : Option Snapshot) (d : D) (a : Art) (fp : Option Fp) (pk : κ)
    (view : Nat) : FM κ D (PSnap κ) := do
  let key ← up (need (g.keyOf a) .keyError)
  up (raiseIf (σ.isSome && a.out.isNone) .valueError)
  let p ← up (lift (generate env a.info.sto fp pk))
  let sn ← ioWrite env ser a.info view d p
  up (writeArtifactPartitions a [sn])
  up (linkWritten σ key sn)
  return sn

/-- The loop that writes the outputs (`executors/__init__.py:97-105`); `i` counts up. -/
def writeOutputs (σ : Snapshot) (p : Pdr) (fp : Fp) (pk : κ) : Nat → List D → FM κ D Unit
  | _, [] => pure ()
  | i, d :: rest => do
    let outs ← up (lift (σ.graph.producerOutputs p))
    let a ← up (need outs[i]? .indexError)
    let view ← up (need (cls env p).outputs[i]? .indexError)
    let _ ← write env ser σ.graph (some σ) d a (some fp) pk view
    writeOutputs σ p fp pk (i + 1) rest

/-- `Executor.build_producer_partition` (`executors/__init__.py:62-105`). -/
def buildPartition (σ : Snapshot) (p : Pdr) (existing : List κ) (fp : Fp)
    (deps : List (Str × List (PSnap κ))) (pk : κ) : FM κ D Unit :=
  if existing.contains pk then pure ()
  else do
    let files ← up (gets fun s => s.files)
    let args ← up (lift (readArgs env files p.inputs deps (cls env p).buildInputs))
    up (ghost fun s => { s with calls := s.calls ++ [(p, pk)] })
    let outs ← up (lift ((cls env p).build args))
    let passed ← up (lift ((cls env p).validate outs))
    up (raiseIf (!passed) .valueError)
    writeOutputs env ser σ p fp pk 0 outs

/-- The loop over the partition dependencies in `LocalExecutor.build`
(`executors/local.py:44-55`). -/
def buildPartitions (σ : Snapshot) (p : Pdr) (existing : List κ) (ifps : PyDict κ Fp) :
    List (κ × List (Str × List (PSnap κ))) → FM κ D Unit
  | [] => pure ()
  | (pk, deps) :: rest => do
    let fp ← up (need (PyDict.get? ifps pk) .keyError)
    buildPartition env ser σ p existing fp deps pk
    buildPartitions σ p existing ifps rest

/-- One producer of `LocalExecutor.build` (`executors/local.py:30-55`). -/
def buildProducer (σ : Snapshot) (p : Pdr) : FM κ D Unit := do
  let ins ← up (getInputs env σ p.inputs)
  let (deps, ifps) ← up (lift (computeDependencies env p ins))
  up (ghost fun s => { s with invs := s.invs ++ invsOf env s.files p ifps deps })
  let existing ← up (discoverProducerPartitions env σ p ifps)
  buildPartitions env ser σ p existing ifps deps

/-- The loop of `LocalExecutor.build` (`executors/local.py:25-56`) over a given order. -/
def buildOrder (σ : Snapshot) : List Nd → FM κ D Unit
  | [] => pure ()
  | .art _ :: rest => buildOrder σ rest
  | .pdr p :: rest => do
    buildProducer env ser σ p
    buildOrder σ rest

/-- `LocalExecutor.build` (`executors/local.py:22-57`), `GraphSnapshot.build`. -/
def build (σ : Snapshot) : FM κ D Unit := do
  let order ← up (lift (Topo.staticOrder σ.graph.dependencies))
  buildOrder env ser σ order

/-- `Graph.build` (`graphs/__init__.py:147-149`). -/
def graphBuild (g : Graph) : FM κ D Snapshot := do
  let σ ← up (fromGraph env g)
  build env ser σ
  return σ

end Torn
end Arti
