import Verif.Model.World

/-!
# Specification: an ideal backend

Calls of the methods of a backend connection, in any order, and what they mean for an ideal
backend that keeps plain maps and sets.  Interruptions are not part of these histories; builds,
snapshots and interruptions are in `Spec/Ops.lean`.
-/

namespace Arti.Spec
variable {κ D : Type} [DecidableEq κ]

/-- A call of a method of the backend connection, or a change of the files. -/
inductive Call (κ : Type)
  | readArtifactPartitions (a : Art) (ifps : PyDict κ Fp)
  | writeArtifactPartitions (a : Art) (ps : List (PSnap κ))
  | readGraph (name : Str) (fp : Fp)
  | writeGraph (g : Graph)
  | readSnapshot (name : Str) (fp : Fp)
  | writeSnapshot (σ : Snapshot)
  | readSnapshotTag (name tag : Str)
  | writeSnapshotTag (σ : Snapshot) (tag : Str) (overwrite : Bool)
  | readSnapshotPartitions (σ : Snapshot) (key : Str)
  | writeSnapshotPartitions (σ : Snapshot) (key : Str) (ps : List (PSnap κ))
  | writeArtifactAndGraphPartitions (σ : Snapshot) (key : Str) (a : Art) (ps : List (PSnap κ))
  | files (fs : PyDict Str Str)

/-- The world after a call. -/
def Call.run (env : Env κ D) (s : St κ D) : Call κ → St κ D
  | .readArtifactPartitions a ifps => (World.readArtifactPartitions env a ifps s).2
  | .writeArtifactPartitions a ps => (World.writeArtifactPartitions a ps s).2
  | .readGraph name fp => (World.readGraph name fp s).2
  | .writeGraph g => (World.writeGraph env g s).2
  | .readSnapshot name fp => (World.readSnapshot name fp s).2
  | .writeSnapshot σ => (World.writeSnapshot env σ s).2
  | .readSnapshotTag name tag => (World.readSnapshotTag name tag s).2
  | .writeSnapshotTag σ tag o => (World.writeSnapshotTag σ tag o s).2
  | .readSnapshotPartitions σ key => (World.readSnapshotPartitions env σ key s).2
  | .writeSnapshotPartitions σ key ps => (World.writeSnapshotPartitions σ key ps s).2
  | .writeArtifactAndGraphPartitions σ key a ps =>
    (World.writeArtifactAndGraphPartitions σ key a ps s).2
  | .files fs => { s with files := fs }

/-- The world after some calls. -/
def runCalls (env : Env κ D) (s : St κ D) (cs : List (Call κ)) : St κ D :=
  cs.foldl (Call.run env) s

/-- A new backend. -/
def fresh (files : PyDict Str Str) : St κ D := ⟨files, [], [], [], [], [], none, [], [], []⟩

/-- Tags as a map from name and tag: a write is refused if there is a tag and it must not be
overwritten. -/
def tagStep (m : Str → Str → Option Snapshot) : Call κ → Str → Str → Option Snapshot
  | .writeSnapshotTag σ tag o => fun n t =>
    if n = σ.graph.name ∧ t = tag ∧ (o = true ∨ m n t = none) then some σ else m n t
  | _ => m

/-- The tags after some calls. -/
def tagsAfter (cs : List (Call κ)) : Str → Str → Option Snapshot :=
  cs.foldl tagStep fun _ _ => none

/-- The call links the partition to the key of the snapshot. -/
def Links (σ : Snapshot) (key : Str) (x : PSnap κ) : Call κ → Prop
  | .writeSnapshotPartitions σ' key' ps => σ' = σ ∧ key' = key ∧ x ∈ ps
  | .writeArtifactAndGraphPartitions σ' key' _ ps => σ' = σ ∧ key' = key ∧ x ∈ ps
  | _ => False

/-- A set of partitions for each storage that was ever read or written. -/
abbrev Known (κ : Type) := Sto → Option (PSnap κ → Prop)

/-- Add to a storage. -/
def Known.add (m : Known κ) (sto : Sto) (ps : List (PSnap κ)) : Known κ := fun t =>
  if t = sto then some fun x => (∃ P, m sto = some P ∧ P x) ∨ x ∈ ps else m t

/-- What a call means for the sets: writing adds; the first read of a storage that was neither read
nor written adds what is found, unless looking for it raises. -/
def knownStep (env : Env κ D) (s : St κ D) (m : Known κ) : Call κ → Known κ
  | .writeArtifactPartitions a ps => m.add a.info.sto ps
  | .writeArtifactAndGraphPartitions _ _ a ps => m.add a.info.sto ps
  | .readArtifactPartitions a ifps =>
    match m a.info.sto, World.discover env s.files a.info.sto ifps with
    | none, .ok found => m.add a.info.sto found
    | _, _ => m
  | _ => m

/-- The sets after some calls. -/
def knownAfter (env : Env κ D) (s : St κ D) (m : Known κ) : List (Call κ) → Known κ
  | [] => m
  | c :: cs => knownAfter env (c.run env s) (knownStep env s m c) cs

/-- The partition is among those asked for. -/
def Wanted (ifps : PyDict κ Fp) (x : PSnap κ) : Prop :=
  ifps = [] ∨ PyDict.get? ifps x.part.key = x.part.inputFp

/-- The call reads or writes the partitions of the storage. -/
def Touches (sto : Sto) : Call κ → Prop
  | .readArtifactPartitions a _ => a.info.sto = sto
  | .writeArtifactPartitions a _ => a.info.sto = sto
  | .writeArtifactAndGraphPartitions _ _ a _ => a.info.sto = sto
  | _ => False

end Arti.Spec
