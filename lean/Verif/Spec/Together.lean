import Verif.Spec.Ops
import Verif.Spec.Reuse

/-!
# Producers with several outputs, in histories without interruptions

Under which conditions on graphs and histories the outputs of a producer stay together: a partition
of one output is there if and only if that of the other one is.
-/

namespace Arti.Spec
open PyDict
variable {κ D : Type} [DecidableEq κ] (env : Env κ D) (gs : Graph → Prop)

/-- In some graph, a producer has an output in each of these storages. -/
def Beside (a b : Sto) : Prop :=
  ∃ g, gs g ∧ ∃ p k i pos k' i' pos', (k, Art.made i p pos) ∈ g.arts ∧
    (k', Art.made i' p pos') ∈ g.arts ∧ i.sto = a ∧ i'.sto = b

/-- How the outputs of the producers of the graphs are stored. -/
structure Together : Prop where
  /-- each output of a producer is one artifact, with its own storage -/
  one : ∀ g, gs g → ∀ p k i pos k' i' pos', (k, Art.made i p pos) ∈ g.arts →
    (k', Art.made i' p pos') ∈ g.arts → i.sto = i'.sto ∨ pos = pos' → i = i' ∧ pos = pos'
  /-- storages in which outputs of a producer are stored together are always used together -/
  beside : ∀ g, gs g → ∀ k i p pos, (k, Art.made i p pos) ∈ g.arts → ∀ b, Beside gs i.sto b →
    ∃ k' i' pos', (k', Art.made i' p pos') ∈ g.arts ∧ i'.sto = b
  /-- `build` returns a value for each output -/
  counts : ∀ g, gs g → ∀ k i p pos, (k, Art.made i p pos) ∈ g.arts → ∀ args outs,
    (World.cls env p).build args = .ok outs → pos < outs.length
  /-- the outputs of a producer that has several are stored in files -/
  inFiles : ∀ a b, Beside gs a b → a ≠ b → ∃ t, a = .file t
  /-- different produced partitions have different paths -/
  apart : ∀ i p pos i' p' pos', Made gs i p pos → Made gs i' p' pos' →
    ∀ f pk part f' pk' part' path, World.generate env i.sto (some f) pk = .ok part →
    World.generate env i'.sto (some f') pk' = .ok part' → part.loc = .file path →
    part'.loc = .file path → i.sto = i'.sto ∧ f = f' ∧ pk = pk'

/-- Discovery does not miss a partition, however many produced files are added to these files. -/
def FindsAll (files : PyDict Str Str) : Prop :=
  ∀ files' : PyDict Str Str, (∀ path, get? files' path ≠ none →
    get? files path ≠ none ∨ ProducedPath env gs path) → Finds env gs files'

/-- Events that do not separate the outputs of producers.  Builds succeed.  The backend is not
asked for a produced artifact between builds.  Before a restart, the files of all outputs for a
partition are deleted, or none. -/
def HOp.Calm (s : St κ D) : HOp κ D → Prop
  | .put _ _ => True
  | .del _ => True
  | .writeRaw _ _ _ _ _ _ => True
  | .lookup a _ => ∀ i p pos, Made gs i p pos → i.sto ≠ a.info.sto
  | .snapshot _ _ => True
  | .build g b => FindsAll env gs s.files ∧
      ∃ σ, (World.graphBuild env g { s with budget := b }).1 = .ok σ
  | .rebuild σ b => FindsAll env gs s.files ∧
      (World.build env σ { s with budget := b }).1 = .ok ()
  | .tag _ _ _ => True
  | .restart keep => ∀ a b, Beside gs a b → ∀ f pk part part' path path',
      World.generate env a (some f) pk = .ok part → World.generate env b (some f) pk = .ok part' →
      part.loc = .file path → part'.loc = .file path' → keep path = keep path'

/-- The states of the world in histories of such events. -/
inductive ReachCalm : St κ D → Prop
  | init (files : PyDict Str Str) (b : Option Nat) :
      (∀ path, get? files path ≠ none → ¬ ProducedPath env gs path) →
      ReachCalm ⟨files, [], [], [], [], [], b, [], [], []⟩
  | step {s : St κ D} (op : HOp κ D) : ReachCalm s → op.Valid env gs s → op.Calm env gs s →
      ReachCalm (op.run env s)

/-- They are histories. -/
theorem ReachCalm.reach {env : Env κ D} {gs : Graph → Prop} {s : St κ D}
    (h : ReachCalm env gs s) : Reach env gs s := by
  induction h with
  | init files b hf => exact .init files b hf
  | step op _ hv _ ih => exact .step op ih hv

/-- The events happen one after the other from this state, and none separates outputs. -/
def CalmOps : St κ D → List (HOp κ D) → Prop
  | _, [] => True
  | s, op :: ops => op.Calm env gs s ∧ CalmOps (op.run env s) ops

theorem ReachCalm.ops {env : Env κ D} {gs : Graph → Prop} {ops : List (HOp κ D)} :
    ∀ {s : St κ D}, ReachCalm env gs s → ValidOps env gs s ops → CalmOps env gs s ops →
    ReachCalm env gs (runOps env s ops) := by
  induction ops with
  | nil => intro s h _ _; exact h
  | cons op ops ih => intro s h hv hc; exact ih (.step op h hv.1 hc.1) hv.2 hc.2

end Arti.Spec
