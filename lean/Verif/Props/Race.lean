import Verif.Props.Build
import Verif.Lemmas.Ops

/-!
# Raw data that changes between taking a snapshot and building it

A snapshot records the content fingerprints of the raw partitions; the producers read the files
when the snapshot is built (see the note in `GraphSnapshot.from_graph`, `graphs/__init__.py`).
The histories of `C42` only build a snapshot while the raw data that it was taken of is there.
This shows that the condition is needed, and that the damage is not confined to the one build.
-/

namespace Arti.Props
open PyDict World Spec M

namespace Ex42r
open Ex Ex42

/-- A snapshot of the graph of `C42` is taken. -/
def σ0 : Snapshot := ⟨979615, g⟩
def s1 : St Nat Str := (HOp.snapshot g none).run Ex.env s0
/-- The file changes, the snapshot is built, the file is changed back. -/
def ops : List (HOp Nat Str) :=
  [.put "a~1".toList ['w'], .rebuild σ0 none, .put "a~1".toList ['u']]
def s2 : St Nat Str := runOps Ex.env s1 ops
/-- The process ends, a new one starts, no file is lost. -/
def s3 : St Nat Str := runOps Ex.env s2 [.restart fun _ => true]

def buildAndRead (x : Art) : M Nat Str Str := do
  let σ ← graphBuild Ex.env g
  readSnapshotData Ex.env σ x 0

end Ex42r

/-- **C42** is violated by raw data that changes after a snapshot was taken and before it is
built: the outputs are computed from the new contents and stored as the outputs of the old ones.
When the files have their old contents again, every build succeeds without running anything and
returns the outputs of the other contents (a set of partitions is iterated in another order), also
in new processes. -/
theorem C42_violated_by_raw_data_that_changes_before_the_build :
    (fromGraph Ex.env Ex42.g Ex42.s0).1 = .ok Ex42r.σ0 ∧
    Ex42r.s2.files.lookup "a~1".toList = some ['u'] ∧
    Ex42r.s2.files.lookup "a~2".toList = some ['v'] ∧
    (Ex42r.buildAndRead Ex42.c Ex42.s0).1 = .ok "u1v11".toList ∧
    (Ex42r.buildAndRead Ex42.c Ex42r.s2).1 = .ok "v1w11".toList ∧
    (Ex42r.buildAndRead Ex42.c Ex42r.s3).1 = .ok "v1w11".toList ∧
    (graphBuild Ex.env Ex42.g Ex42r.s3).2.calls = Ex42r.s3.calls := by
  refine ⟨?_, ?_, ?_, ?_, ?_, ?_, ?_⟩ <;> decide +kernel

end Arti.Props
