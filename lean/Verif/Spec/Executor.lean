import Verif.Spec.History

/-! # What a producer is asked for in a state -/

namespace Arti.Spec
open PyDict
variable {κ D : Type} [DecidableEq κ] (env : Env κ D)

/-- The partitions linked to the inputs of a producer. -/
def inputsOf (s : St κ D) (σ : Snapshot) (p : Pdr) : List (Str × List (PSnap κ)) :=
  p.inputs.map fun x => (x.1, env.iter (linksOf s σ ((σ.graph.keyOf x.2).getD [])))

/-- Given the partitions linked to its inputs, `map` of the producer returns an entry for this
partition key, and this is the input fingerprint of the entry. -/
def Asked (s : St κ D) (σ : Snapshot) (p : Pdr) (pk : κ) (fp : Fp) : Prop :=
  ∃ items d,
    (World.cls env p).map ((inputsOf env s σ p).filter fun x =>
      (World.cls env p).mapInputs.contains x.1) = .ok items ∧
    get? (ofItems items) pk = some d ∧ World.computeInputFingerprint env p d = .ok fp

end Arti.Spec
