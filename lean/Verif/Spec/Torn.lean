import Verif.Model.Torn
import Verif.Spec.Ops

/-!
# Histories in which files may be torn
-/

namespace Arti.Spec
open PyDict
variable {κ D : Type} [DecidableEq κ] (env : Env κ D) (gs : Graph → Prop) (ser : Serial D)

/-- The pieces are the pieces of the serialised data, and serialising raises if and only if it
raises at some point. -/
def SerOk : Prop :=
  ∀ i view d, env.enc i view d =
    match ser i view d with
    | .error e => .error e
    | .ok (_, some e) => .error e
    | .ok (pieces, none) => .ok pieces.flatten

/-- The world after an event in which files are written piece by piece. -/
def HOp.tornRun (s : FSt κ D) : HOp κ D → FSt κ D
  | .writeRaw g i d pk view b =>
    (Torn.write env ser g none d (.raw i) none pk view ⟨{ s.w with budget := b }, s.torn⟩).2
  | .build g b => (Torn.graphBuild env ser g ⟨{ s.w with budget := b }, s.torn⟩).2
  | .rebuild σ b => (Torn.build env ser σ ⟨{ s.w with budget := b }, s.torn⟩).2
  | op => ⟨op.run env s.w, s.torn⟩

/-- The states of the world in such histories. -/
inductive TornReach : FSt κ D → Prop
  | init (files : PyDict Str Str) (b : Option Nat) :
      (∀ path, get? files path ≠ none → ¬ ProducedPath env gs path) →
      TornReach ⟨⟨files, [], [], [], [], [], b, [], [], []⟩, []⟩
  | step {s : FSt κ D} (op : HOp κ D) : TornReach s → op.Valid env gs s.w →
      TornReach (op.tornRun env ser s)

/-- A sequence of events. -/
def tornOps (s : FSt κ D) : List (HOp κ D) → FSt κ D
  | [] => s
  | op :: ops => tornOps (op.tornRun env ser s) ops

/-- Each event is admitted when it occurs. -/
def ValidTornOps (s : FSt κ D) : List (HOp κ D) → Prop
  | [] => True
  | op :: ops => op.Valid env gs s.w ∧ ValidTornOps (op.tornRun env ser s) ops

/-- The states of the world in histories in which, whenever a file is torn, the process ends and the
torn file is deleted, with others maybe, before anything else happens. -/
inductive CleanReach : St κ D → Prop
  | init (files : PyDict Str Str) (b : Option Nat) :
      (∀ path, get? files path ≠ none → ¬ ProducedPath env gs path) →
      CleanReach ⟨files, [], [], [], [], [], b, [], [], []⟩
  | step {s : St κ D} (op : HOp κ D) : CleanReach s → op.Valid env gs s →
      (op.tornRun env ser ⟨s, []⟩).torn = [] → CleanReach (op.tornRun env ser ⟨s, []⟩).w
  | clean {s : St κ D} (op : HOp κ D) (keep : Str → Bool) : CleanReach s → op.Valid env gs s →
      (∀ path ∈ (op.tornRun env ser ⟨s, []⟩).torn, keep path = false) →
      CleanReach ((HOp.restart keep).run env (op.tornRun env ser ⟨s, []⟩).w)

end Arti.Spec
