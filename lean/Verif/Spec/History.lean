import Verif.Spec.Build
import Verif.Lemmas.Eval

/-!
# Under which conditions builds are supposed to compute what the evaluator computes

The conditions on the graphs of a history, on user code, and on fingerprints.
-/

namespace Arti.Spec
open PyDict
variable {κ D : Type} [DecidableEq κ] (env : Env κ D)

/-- One of the graphs holds this produced artifact. -/
def Made (gs : Graph → Prop) (i : ArtInfo) (p : Pdr) (pos : Nat) : Prop :=
  ∃ g, gs g ∧ ∃ k, (k, Art.made i p pos) ∈ g.arts

/-- Two produced partitions, given by storage, input fingerprint and key, have the same place:
they are the same partition or they have the same path. -/
def SamePlace (s1 : Sto) (f1 : Fp) (k1 : κ) (s2 : Sto) (f2 : Fp) (k2 : κ) : Prop :=
  (s1 = s2 ∧ f1 = f2 ∧ k1 = k2) ∨
  ∃ p1 p2 path, World.generate env s1 (some f1) k1 = .ok p1 ∧
    World.generate env s2 (some f2) k2 = .ok p2 ∧ p1.loc = .file path ∧ p2.loc = .file path

/-- Fingerprints and paths do not collide on what occurred: if outputs of two computed partition
dependencies have the same place, then they are the same output of the same code for the same
arguments. -/
def NoClash (gs : Graph → Prop) (log : List (Inv κ D)) : Prop :=
  ∀ e1 ∈ log, ∀ e2 ∈ log, ∀ i1 pos1 i2 pos2,
    Made gs i1 e1.pdr pos1 → Made gs i2 e2.pdr pos2 →
    SamePlace env i1.sto e1.fp e1.key i2.sto e2.fp e2.key →
    e1.pdr.cls = e2.pdr.cls ∧ env.versionFp e1.pdr.ver = env.versionFp e2.pdr.ver ∧
    e1.args = e2.args ∧ pos1 = pos2 ∧ ∀ v d, env.enc i1 v d = env.enc i2 v d

/-- The raw data of an artifact in what was recorded for a snapshot. -/
def rawOf (σ : Snapshot) (r : PyDict Str (Data κ)) (i : ArtInfo) : Data κ :=
  match σ.graph.keyOf (.raw i) with
  | some k => ofItems ((get? r k).getD [])
  | none => []

/-- The partitions of the raw artifacts of a graph that are discovered in the files, with their
contents. -/
def rawNow (g : Graph) (files : PyDict Str Str) (i : ArtInfo) : Data κ :=
  if g.arts.any (fun x => x.2 = .raw i) then
    match World.discover env files i.sto [] with
    | .ok ps => ofItems (ps.filterMap fun sn =>
        (World.content files sn.part.loc).map fun c => (sn, c))
    | .error _ => []
  else []

/-- Snapshot ids do not collide on what occurred: equal snapshots were taken of the same raw
data. -/
def SnapUnique (raws : List (Snapshot × PyDict Str (Data κ))) : Prop :=
  ∀ σ r r', (σ, r) ∈ raws → (σ, r') ∈ raws → ∀ i x, x ∈ rawOf σ r i ↔ x ∈ rawOf σ r' i

/-- The conditions on the graphs of a history and on user code. -/
structure Disciplined (gs : Graph → Prop) : Prop where
  /-- iterating a set is deterministic -/
  iter : IterOk env
  /-- the keys of the artifacts of a graph are distinct -/
  keys : ∀ g, gs g → (PyDict.keys g.arts).Nodup
  /-- storages of produced artifacts have the input fingerprint placeholder (`ArtifactBox`) -/
  hasFp : ∀ i p pos, Made gs i p pos → i.sto.hasFp = true
  /-- if an output of a producer is in the graph then so are all earlier ones -/
  noGap : ∀ g, gs g → ∀ k i p pos, (k, Art.made i p pos) ∈ g.arts →
    ∀ j, j ≤ pos → ∃ k' i', (k', Art.made i' p j) ∈ g.arts
  /-- `map` chooses from the partitions that it is given -/
  mapSelects : ∀ i p pos, Made gs i p pos → ∀ ins items,
    (World.cls env p).map ins = .ok items → ∀ pk d, (pk, d) ∈ items → ∀ n ss, (n, ss) ∈ d →
    ∀ sn ∈ ss, ∃ l, get? ins n = some l ∧ sn ∈ l
  /-- `map` never returns an empty dict -/
  mapNonempty : ∀ i p pos, Made gs i p pos → ∀ ins items,
    (World.cls env p).map ins = .ok items → items ≠ []

/-- Each producer of the graph has one output, so its outputs are wrapped in a tuple of length one
(`executors/__init__.py:92-93`). -/
structure SingleOutput (g : Graph) : Prop where
  unique : ∀ k i p pos k' i' pos', (k, Art.made i p pos) ∈ g.arts →
    (k', Art.made i' p pos') ∈ g.arts → i = i' ∧ pos = pos'
  one : ∀ k i p pos, (k, Art.made i p pos) ∈ g.arts →
    (World.cls env p).outputs.length = 1 ∧
    ∀ args outs, (World.cls env p).build args = .ok outs → outs.length = 1

/-- No two produced artifacts of the graph share a storage. -/
def OwnStorage (g : Graph) : Prop :=
  ∀ k i p pos k' i' p' pos', (k, Art.made i p pos) ∈ g.arts → (k', Art.made i' p' pos') ∈ g.arts →
    i.sto = i'.sto → Art.made i p pos = Art.made i' p' pos'

/-- No two artifacts of the graph are the same output of a producer. -/
def OneEach (g : Graph) : Prop :=
  ∀ k i p pos k' i', (k, Art.made i p pos) ∈ g.arts → (k', Art.made i' p pos) ∈ g.arts → i = i'

/-- All values that `build` of the producers of the graph returns have an artifact in the graph. -/
def AllOutputs (g : Graph) : Prop :=
  ∀ k i p pos, (k, Art.made i p pos) ∈ g.arts → ∀ args outs,
    (World.cls env p).build args = .ok outs → ∀ j, j < outs.length →
    ∃ k' i', (k', Art.made i' p j) ∈ g.arts

/-- `build` of the producers of the graph never returns an empty tuple. -/
def SomeOutput (g : Graph) : Prop :=
  ∀ k i p pos, (k, Art.made i p pos) ∈ g.arts → ∀ args outs,
    (World.cls env p).build args = .ok outs → outs ≠ []

/-- The partitions linked to a key of a snapshot. -/
def linksOf (s : St κ D) (σ : Snapshot) (k : Str) : List (PSnap κ) :=
  (get? s.links (σ, k)).getD []

/-- The snapshot holds an artifact as evaluated from the raw data: exactly the evaluated partitions
are linked, and their contents are there. -/
def Full (s : St κ D) (σ : Snapshot) (ρ : ArtInfo → Data κ) (a : Art) : Prop :=
  ∃ k ℓ, σ.graph.keyOf a = some k ∧ evalArt env ρ a = .ok ℓ ∧ (keys ℓ).Nodup ∧
    (∀ sn, sn ∈ linksOf s σ k ↔ sn ∈ keys ℓ) ∧ ∀ x ∈ ℓ, World.content s.files x.1.part.loc = some x.2

end Arti.Spec
