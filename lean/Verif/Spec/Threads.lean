import Verif.Model.Threads

/-!
# Specification for threads that share a backend
-/

namespace Arti.Spec
open Thr

variable {K P V : Type}

/-- What a backend keeps partitions for: a storage, or an artifact of a snapshot. -/
inductive Slot (K : Type)
  | storage (sto : K)
  | links (snap key : K)
  deriving DecidableEq

/-- The call writes these partitions. -/
inductive Writes : Call K P V → Slot K → List P → Prop
  | artifact (sto : K) (ps : List P) : Writes (.writeArtifact sto ps) (.storage sto) ps
  | links (snap key : K) (ps : List P) : Writes (.writeLinks snap key ps) (.links snap key) ps

/-- The call reads the partitions with this property. -/
inductive Reads : Call K P V → Slot K → (P → Bool) → Prop
  | all (sto : K) (found : List P) : Reads (.readArtifact sto found none) (.storage sto) fun _ => true
  | some (sto : K) (found : List P) (f : P → Bool) :
      Reads (.readArtifact sto found (some f)) (.storage sto) f
  | links (snap key : K) : Reads (.readLinks snap key) (.links snap key) fun _ => true

/-- Where a backend keeps single graphs and snapshots: a tag of a graph, a graph of a name and a
fingerprint, a snapshot of a name and a fingerprint. -/
inductive Place (K : Type)
  | tag (name tag : K)
  | graph (name fp : K)
  | snapshot (name fp : K)
  deriving DecidableEq

/-- The call puts `v` at a place. -/
inductive Puts : Call K P V → Place K → V → Prop
  | tag (name tag : K) (v : V) (overwrite : Bool) : Puts (.writeTag name tag v overwrite) (.tag name tag) v
  | graph (name fp : K) (v : V) : Puts (.writeGraph name fp v) (.graph name fp) v
  | snapshot (name fp : K) (v : V) : Puts (.writeSnapshot name fp v) (.snapshot name fp) v

/-- The call gets what is at a place. -/
inductive Gets : Call K P V → Place K → Prop
  | tag (name tag : K) : Gets (.readTag name tag) (.tag name tag)
  | graph (name fp : K) : Gets (.readGraph name fp) (.graph name fp)
  | snapshot (name fp : K) : Gets (.readSnapshot name fp) (.snapshot name fp)

/-- Somebody began to put `v` there. -/
def PutBegun (log : List (Ev K P V)) (y : Place K) (v : V) : Prop :=
  ∃ i c, .called i c ∈ log ∧ Puts c y v

/-- Somebody put something there, and the call has returned. -/
def PutDone (log : List (Ev K P V)) (y : Place K) : Prop :=
  ∃ i c n v, .returned i c n .done ∈ log ∧ Puts c y v

/-- Somebody began to write `p`, or looked for it and may have found it in the storage. -/
def Offered (log : List (Ev K P V)) (x : Slot K) (p : P) : Prop :=
  (∃ i c ps, .called i c ∈ log ∧ Writes c x ps ∧ p ∈ ps) ∨
  ∃ i sto found keep, .called i (.readArtifact sto found keep) ∈ log ∧ x = .storage sto ∧ p ∈ found

/-- Somebody wrote `p`, and the call has returned. -/
def Written (log : List (Ev K P V)) (x : Slot K) (p : P) : Prop :=
  ∃ i c n ps, .returned i c n .done ∈ log ∧ Writes c x ps ∧ p ∈ ps

variable [DecidableEq K]

/-- The partitions that the container has for a slot; `none` if it was never asked for. -/
def contents (h : Heap K P V) : Slot K → Option (List P)
  | .storage sto => (entry h 0 sto).map (elems h)
  | .links snap key => ((entry h 1 snap).bind fun r => entry h r key).map (elems h)

/-- The container has a dictionary for the places of this kind and name. -/
def knows (h : Heap K P V) : Place K → Prop
  | .tag name _ => (entry h 2 name).isSome
  | .graph name _ => (entry h 3 name).isSome
  | .snapshot name _ => (entry h 4 name).isSome

/-- What the container has at a place. -/
def at? (h : Heap K P V) : Place K → Option V
  | .tag name tag => (entry h 2 name).bind fun r => value h r tag
  | .graph name fp => (entry h 3 name).bind fun r => value h r fp
  | .snapshot name fp => (entry h 4 name).bind fun r => value h r fp

end Arti.Spec
