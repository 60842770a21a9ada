import Verif.Spec.Ops

/-!
# What happens between two attempts at a build, and schedules
-/

namespace Arti.Spec
open PyDict
variable {κ D : Type} [DecidableEq κ] (env : Env κ D) (gs : Graph → Prop)

/-- Files have been added, only at paths of produced artifacts. -/
structure Adds (files0 files : PyDict Str Str) : Prop where
  old : ∀ path c, get? files0 path = some c → get? files path = some c
  new : ∀ path, get? files path ≠ none → get? files0 path ≠ none ∨ ProducedPath env gs path

/-- Produced files are not mistaken for something else: adding produced files does not change what
raw data is discovered, and discovering the partitions of a produced artifact among them does not
raise. -/
structure Apart (g : Graph) (files0 : PyDict Str Str) : Prop where
  raw : ∀ files, Adds env gs files0 files →
    RawEq (rawNow env g files0) (rawNow env g files)
  disc : ∀ files, (∀ path, get? files path ≠ none →
      get? files0 path ≠ none ∨ ProducedPath env gs path) →
    ∀ i p pos, Made gs i p pos → ∀ ifps : PyDict κ Fp, ifps ≠ [] →
    ∃ ps, World.discover env files i.sto ifps = .ok ps

/-- Events that leave the raw data alone: builds and snapshots of any of the graphs, interrupted
anywhere or not, restarts of the process, look-ups and tags. -/
def HOp.Quiet : HOp κ D → Prop
  | .put _ _ | .del _ | .writeRaw _ _ _ _ _ _ => False
  | .lookup _ _ | .snapshot _ _ | .build _ _ | .rebuild _ _ | .tag _ _ _ => True
  | .restart keep => ∀ path, keep path = true

/-- An order in which the producers of a graph may be built: it lists exactly the producers that
have an output in the graph, each one after the producers of its inputs.  It may list artifacts
anywhere. -/
structure IsSchedule (g : Graph) (order : List Nd) : Prop where
  all : ∀ p, Nd.pdr p ∈ order ↔ ∃ k i pos, (k, Art.made i p pos) ∈ g.arts
  after : ∀ l p r, order = l ++ Nd.pdr p :: r → ∀ n i q pos, (n, Art.made i q pos) ∈ p.inputs →
    (∃ k, (k, Art.made i q pos) ∈ g.arts) → Nd.pdr q ∈ l

end Arti.Spec
