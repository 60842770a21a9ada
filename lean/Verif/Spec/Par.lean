import Verif.Model.Par
import Verif.Spec.Resume

/-!
# Histories with processes that build at the same time
-/

namespace Arti.Spec
open PyDict Par
variable {κ D : Type} [DecidableEq κ] (env : Env κ D) (gs : Graph → Prop) (mode : WriteMode)

/-- Processes make steps, in any order, and start to build graphs at any time, each to be
interrupted after any number of effects or never. -/
inductive Later (S : Sys κ D) : Sys κ D → Prop
  | refl : Later S S
  | step {T : Sys κ D} (n : Nat) : Later S T → Later S (T.step n)
  | spawn {T : Sys κ D} (g : Graph) (b : Option Nat) : gs g → Later S T →
      Later S { T with procs := T.procs ++ [Proc.start env mode g b] }

/-- The states of a history in which any number of processes run at the same time.  It begins with
any history of processes that run one after the other.  New raw files may arrive at any time; raw
files are changed or deleted, and produced files deleted, only when all processes have stopped. -/
inductive ParReach : Sys κ D → Prop
  | init {s : St κ D} : Reach env gs s → SnapUnique s.raws → ParReach ⟨s.files, [], s.invs⟩
  | step {S : Sys κ D} (n : Nat) : ParReach S → ParReach (S.step n)
  | spawn {S : Sys κ D} (g : Graph) (b : Option Nat) : gs g → ParReach S →
      ParReach { S with procs := S.procs ++ [Proc.start env mode g b] }
  | arrive {S : Sys κ D} (path c : Str) : ¬ ProducedPath env gs path → get? S.files path = none →
      ParReach S → ParReach { S with files := PyDict.set S.files path c }
  | pause {S : Sys κ D} (files : PyDict Str Str) :
      (∀ path c, get? files path = some c → ProducedPath env gs path →
        get? S.files path = some c) →
      ParReach S → ParReach ⟨files, [], S.log⟩

/-- The memory of a process that finished, with the files as they are now: what it reads from. -/
def Proc.now (S : Sys κ D) (p : Proc κ D) : St κ D := { p.st with files := S.files }

/-- Each raw artifact of the graph has data. -/
def RawThere (g : Graph) (files : PyDict Str Str) : Prop :=
  ∀ k i, (k, Art.raw i) ∈ g.arts → ∃ ps, World.discover env files i.sto [] = .ok ps ∧ ps ≠ []

end Arti.Spec
