import Verif.Spec.Resume

/-!
# When the outputs of the producers of a graph are kept apart

Used to state that the order in which producers are built does not matter, for any number of outputs.
-/

namespace Arti.Spec
open PyDict
variable {κ D : Type} [DecidableEq κ] (env : Env κ D)

/-- A path of a file of the storage, for some partition key and input fingerprint. -/
def PathOf (sto : Sto) (path : Str) : Prop :=
  ∃ fp pk part, World.generate env sto fp pk = .ok part ∧ part.loc = .file path

/-- The outputs of the producers of a graph are kept apart. -/
structure Separate (g : Graph) : Prop where
  /-- different producers have different storages -/
  storages : ∀ k i p pos k' i' p' pos', (k, Art.made i p pos) ∈ g.arts →
    (k', Art.made i' p' pos') ∈ g.arts → i.sto = i'.sto → p = p'
  /-- a file of an output of a producer is not a file of an artifact that the producer does not make -/
  paths : ∀ k i q pos k' a, (k, Art.made i q pos) ∈ g.arts → (k', a) ∈ g.arts →
    (∀ pos', a.out ≠ some (q, pos')) → ∀ path, PathOf env i.sto path → ¬ PathOf env a.info.sto path
  /-- and is not found when the partitions of an output of another producer are looked for -/
  scans : ∀ k i q pos k' i' p pos' t, (k, Art.made i q pos) ∈ g.arts →
    (k', Art.made i' p pos') ∈ g.arts → p ≠ q → i'.sto = .file t → ∀ path, PathOf env i.sto path →
    ∀ names, env.scan t (names ++ [path]) = env.scan t names

/-- The file of a partition, if it has one, is a file of the storage. -/
def At (sto : Sto) (sn : PSnap κ) : Prop := ∀ path, sn.part.loc = .file path → PathOf env sto path

/-- The partitions that are known of a storage, and those that are linked to an artifact of a
snapshot of one of the graphs, have their files where the storage has them. -/
structure InPlace (gs : Graph → Prop) (s : St κ D) : Prop where
  known : ∀ sto ps, get? s.storage sto = some ps → ∀ sn ∈ ps, At env sto sn
  linked : ∀ τ : Snapshot, gs τ.graph → ∀ a k, τ.graph.keyOf a = some k → ∀ sn ∈ linksOf s τ k,
    At env a.info.sto sn

/-- `map` of the producers of the graph chooses from the partitions that it is given. -/
def Selects (g : Graph) : Prop :=
  ∀ k i p pos, (k, Art.made i p pos) ∈ g.arts → ∀ ins items,
    (World.cls env p).map ins = .ok items → ∀ pk d, (pk, d) ∈ items → ∀ n ss, (n, ss) ∈ d →
    ∀ sn ∈ ss, ∃ l, get? ins n = some l ∧ sn ∈ l

end Arti.Spec
