import Verif.Model.Lifecycle

/-! # Histories of graph definitions -/

namespace Arti.Spec
open Life

/-- A history: what was called, and whether it raised. -/
abbrev Trace := List (Ev × Option Err)

/-- Whether the graph is being defined (`some true`: its last successful `__enter__` comes after
its last `__exit__`), has been closed (`some false`), or has never been entered. -/
def beingDefined (i : Nat) (t : Trace) : Option Bool :=
  t.foldl (fun b x => match x with
    | (.enter j, none) => if j = i then some true else b
    | (.leave j, none) => if j = i then some false else b
    | _ => b) none

/-- `__exit__` is only called by the end of a `with` block, that is, on a graph that is being
defined. -/
def WithBlocks (t : Trace) : Prop :=
  ∀ l i r rest, t = l ++ (.leave i, r) :: rest → beingDefined i l = some true

/-- How often the graph was entered. -/
def timesEntered (i : Nat) (t : Trace) : Nat :=
  (t.filter fun x => match x with
    | (.enter j, none) => j = i
    | _ => false).length

/-- The uses of a graph that need it to be sealed. -/
def needsSealed : Ev → Bool
  | .read _ _ | .write _ _ | .build _ _ | .snapshot _ _ | .snapRead _ _ | .snapWrite _ _ => true
  | _ => false

/-- The uses of a graph through a snapshot, and taking one. -/
def usesSnapshot : Ev → Bool
  | .snapshot _ _ | .fromGraph _ _ | .snapBuild _ _ | .snapTag _ _ | .snapRead _ _
  | .snapWrite _ _ => true
  | _ => false

end Arti.Spec
