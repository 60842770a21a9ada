import Verif.Spec.Resume

/-!
# Produced files are found again
-/

namespace Arti.Spec
open PyDict
variable {κ D : Type} [DecidableEq κ] (env : Env κ D) (gs : Graph → Prop)

/-- Discovering the partitions of a produced artifact among these files does not miss any that is
asked for: if the file of a partition exists then the partition is found. -/
def Finds (files : PyDict Str Str) : Prop :=
  ∀ i p pos, Made gs i p pos → ∀ (ifps : PyDict κ Fp) ps,
    World.discover env files i.sto ifps = .ok ps → ∀ f pk part path, get? ifps pk = some f →
    World.generate env i.sto (some f) pk = .ok part → part.loc = .file path →
    get? files path ≠ none → ∃ sn ∈ ps, sn.part = part

/-- Since it was created the backend has not looked at the storages of the produced artifacts of the
graph. -/
def Unseen (g : Graph) (s : St κ D) : Prop :=
  ∀ k i p pos, (k, Art.made i p pos) ∈ g.arts → get? s.storage i.sto = none

/-- The produced artifacts of the graph are stored in files. -/
def InFiles (g : Graph) : Prop :=
  ∀ k i p pos, (k, Art.made i p pos) ∈ g.arts → ∃ t, i.sto = .file t

/-- No files are lost in the event. -/
def HOp.KeepsFiles : HOp κ D → Prop
  | .restart keep => ∀ path, keep path = true
  | _ => True

/-- The event is not a restart. -/
def HOp.SameProcess : HOp κ D → Prop
  | .restart _ => False
  | _ => True

end Arti.Spec
