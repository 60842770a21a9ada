import Verif.Spec.History

/-!
# Histories

What can happen to the world between and during builds: raw data is written or deleted, other
code reads through the backend, snapshots are taken, tagged and built, processes are interrupted
at any effect, and processes are restarted, which loses the memory backend.
-/

namespace Arti.Spec
open PyDict
variable {κ D : Type} [DecidableEq κ] (env : Env κ D) (gs : Graph → Prop)

/-- One event.  A budget is the number of effects after which the process is interrupted. -/
inductive HOp (κ D : Type)
  /-- a file is written -/
  | put (path content : Str)
  /-- a file is deleted -/
  | del (path : Str)
  /-- `Graph.write` of a raw artifact -/
  | writeRaw (g : Graph) (i : ArtInfo) (d : D) (pk : κ) (view : Nat) (budget : Option Nat)
  /-- the backend is asked for the partitions of an artifact -/
  | lookup (a : Art) (ifps : PyDict κ Fp)
  /-- `Graph.snapshot` -/
  | snapshot (g : Graph) (budget : Option Nat)
  /-- `Graph.build` -/
  | build (g : Graph) (budget : Option Nat)
  /-- `GraphSnapshot.build` of an existing snapshot, maybe for the second time -/
  | rebuild (σ : Snapshot) (budget : Option Nat)
  /-- `GraphSnapshot.tag` -/
  | tag (σ : Snapshot) (name : Str) (overwrite : Bool)
  /-- a new process with an empty backend starts; before, files were deleted -/
  | restart (keep : Str → Bool)

/-- The world after an event. -/
def HOp.run (s : St κ D) : HOp κ D → St κ D
  | .put path c => { s with files := PyDict.set s.files path c }
  | .del path => { s with files := s.files.filter fun x => x.1 ≠ path }
  | .writeRaw g i d pk view b =>
    (World.write env g none d (.raw i) none pk view { s with budget := b }).2
  | .lookup a ifps => (World.readArtifactPartitions env a ifps { s with budget := none }).2
  | .snapshot g b => (World.fromGraph env g { s with budget := b }).2
  | .build g b => (World.graphBuild env g { s with budget := b }).2
  | .rebuild σ b => (World.build env σ { s with budget := b }).2
  | .tag σ name o => (World.writeSnapshotTag σ name o { s with budget := none }).2
  | .restart keep =>
    ⟨s.files.filter fun x => keep x.1, [], [], [], [], [], s.budget, s.calls, s.invs, s.raws⟩

/-- Paths at which produced artifacts are stored. -/
def ProducedPath (path : Str) : Prop :=
  ∃ i p pos f pk part, Made gs i p pos ∧ World.generate env i.sto (some f) pk = .ok part ∧
    part.loc = .file path

/-- When an event is admitted: raw data is not written over produced data, a produced file is not
deleted while the backend lives, and a snapshot is only built while the raw data that it
was taken of is still there. -/
def HOp.Valid (s : St κ D) : HOp κ D → Prop
  | .put path _ => ¬ ProducedPath env gs path
  | .del path => ¬ ProducedPath env gs path
  | .writeRaw _ i _ pk _ _ => ∀ part path, World.generate env i.sto none pk = .ok part →
      part.loc = .file path → ¬ ProducedPath env gs path
  | .lookup _ _ => True
  | .snapshot g _ => gs g
  | .build g _ => gs g
  | .rebuild σ _ => gs σ.graph ∧ ∃ r, (σ, r) ∈ s.raws ∧
      ∀ k i, (k, Art.raw i) ∈ σ.graph.arts → Full env s σ (rawOf σ r) (.raw i)
  | .tag _ _ _ => True
  | .restart _ => True

/-- The states of the world in histories.  At first the backend is empty and there are no produced
files. -/
inductive Reach : St κ D → Prop
  | init (files : PyDict Str Str) (b : Option Nat) :
      (∀ path, get? files path ≠ none → ¬ ProducedPath env gs path) →
      Reach ⟨files, [], [], [], [], [], b, [], [], []⟩
  | step {s : St κ D} (op : HOp κ D) : Reach s → op.Valid env gs s → Reach (op.run env s)

/-- A sequence of events. -/
def runOps (s : St κ D) : List (HOp κ D) → St κ D
  | [] => s
  | op :: ops => runOps (op.run env s) ops

/-- Each event is admitted when it occurs. -/
def ValidOps (s : St κ D) : List (HOp κ D) → Prop
  | [] => True
  | op :: ops => op.Valid env gs s ∧ ValidOps (op.run env s) ops

theorem Reach.ops {s : St κ D} {ops : List (HOp κ D)} (h : Reach env gs s)
    (hv : ValidOps env gs s ops) : Reach env gs (runOps env s ops) := by
  induction ops generalizing s with
  | nil => exact h
  | cons op ops ih => exact ih (.step op h hv.1) hv.2

end Arti.Spec
