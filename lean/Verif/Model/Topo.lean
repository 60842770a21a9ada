import Verif.Model.Base

/-!
# `graphlib.TopologicalSorter` as used by `graphs/__init__.py:133` and `executors/local.py:25`
-/

namespace Arti
namespace Topo
variable {α : Type} [DecidableEq α]

/-- The nodes of `TopologicalSorter(deps)`: every key and every predecessor. -/
def nodes (deps : List (α × List α)) : List α :=
  setUpdate [] (deps.flatMap fun (n, ps) => n :: ps)

/-- The predecessors of a node. -/
def preds (deps : List (α × List α)) (n : α) : List α :=
  (deps.filter fun (m, _) => m = n).flatMap Prod.snd

/-- The `get_ready`/`done` loop of `static_order`.  Each round yields the nodes whose
predecessors have all been yielded; within a round the model uses the order of the table, the
standard library the order in which the last predecessor was finished.  `fuel` is the number of
nodes. -/
def loop (deps : List (α × List α)) : Nat → List α → List α → Except Err (List α)
  | _, done, [] => .ok done
  | 0, _, _ :: _ => .error .cycleError
  | fuel + 1, done, r :: rest =>
    let ready := (r :: rest).filter fun n => (preds deps n).all (· ∈ done)
    if ready.isEmpty then .error .cycleError
    else loop deps fuel (done ++ ready) ((r :: rest).filter fun n => n ∉ ready)

/-- `tuple(TopologicalSorter(deps).static_order())`; `prepare()` raises `CycleError` exactly if
the loop gets stuck. -/
def staticOrder (deps : List (α × List α)) : Except Err (List α) :=
  loop deps (nodes deps).length [] (nodes deps)

end Topo
end Arti
