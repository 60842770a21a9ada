import Verif.Lemmas.World

/-! Predicates on the state that code keeps. -/

namespace Arti
open PyDict M

namespace M
variable {κ D α β : Type}

/-- The code keeps the predicate, whether it returns or raises. -/
def Keeps (P : St κ D → Prop) (m : M κ D α) : Prop := ∀ s, P s → P (m s).2

variable {P : St κ D → Prop}

theorem Keeps.bind {m : M κ D α} {f : α → M κ D β} (h : Keeps P m) (hf : ∀ a, Keeps P (f a)) :
    Keeps P (m >>= f) := by
  intro s hs
  rw [run_bind]
  have := h s hs
  revert this
  cases m s with
  | mk r s' =>
    intro h'
    cases r with
    | ok a => exact hf a s' h'
    | error e => exact h'

theorem Keeps.pure (a : α) : Keeps P (pure a : M κ D α) := fun _ h => h
theorem Keeps.lift (x : Except Err α) : Keeps P (lift x : M κ D α) := fun _ h => h
theorem Keeps.gets (f : St κ D → α) : Keeps P (gets f) := fun _ h => h
theorem Keeps.need (x : Option α) (e : Err) : Keeps P (need x e : M κ D α) := by
  intro s hs; cases x <;> exact hs
theorem Keeps.raiseIf (b : Bool) (e : Err) : Keeps P (raiseIf b e : M κ D Unit) := by
  intro s hs; cases b <;> exact hs
theorem Keeps.ghost {f : St κ D → St κ D} (h : ∀ s, P s → P (f s)) : Keeps P (ghost f) :=
  fun s hs => h s hs
theorem Keeps.effect {f : St κ D → St κ D} (h : ∀ s, P s → P (f s))
    (hb : ∀ s n, P s → P { s with budget := n }) : Keeps P (effect f) := by
  intro s hs
  unfold M.effect
  cases s.budget with
  | none => exact h s hs
  | some n =>
    cases n with
    | zero => exact hs
    | succ n => exact hb _ _ (h s hs)

end M

namespace World
variable {κ D : Type} [DecidableEq κ] {env : Env κ D}

/-- A predicate that does not depend on parts of the state that are changed by effects of the
executor. -/
structure Frame (P : St κ D → Prop) : Prop where
  budget : ∀ s n, P s → P { s with budget := n }
  storage : ∀ s x, P s → P { s with storage := x }
  links : ∀ s x, P s → P { s with links := x }
  files : ∀ s x, P s → P { s with files := x }
  calls : ∀ s x, P s → P { s with calls := x }

variable {P : St κ D → Prop}

theorem Frame.writeArtifactPartitions (h : Frame P) (a : Art) (ps : List (PSnap κ)) :
    Keeps P (World.writeArtifactPartitions a ps) :=
  .effect (fun s hs => h.storage s _ hs) h.budget

theorem Frame.writeSnapshotPartitions (h : Frame P) (σ : Snapshot) (k : Str)
    (ps : List (PSnap κ)) : Keeps P (World.writeSnapshotPartitions σ k ps) :=
  .effect (fun s hs => h.links s _ hs) h.budget

theorem Frame.warm (h : Frame P) (a : Art) (ifps : PyDict κ Fp) : Keeps P (World.warm env a ifps) := by
  refine Keeps.bind (Keeps.gets _) ?_
  intro b
  split
  · exact Keeps.pure _
  · exact Keeps.bind (Keeps.gets _) fun _ => Keeps.bind (Keeps.lift _) fun _ =>
      h.writeArtifactPartitions _ _

theorem Frame.readArtifactPartitions (h : Frame P) (a : Art) (ifps : PyDict κ Fp) :
    Keeps P (World.readArtifactPartitions env a ifps) :=
  Keeps.bind (h.warm a ifps) fun _ => Keeps.bind (Keeps.gets _) fun _ => Keeps.pure _

theorem Frame.readOutputs (h : Frame P) (ifps : PyDict κ Fp) (outs : List Art) :
    Keeps P (World.readOutputs env ifps outs) := by
  induction outs with
  | nil => exact Keeps.pure _
  | cons a outs ih =>
    exact Keeps.bind (h.readArtifactPartitions a ifps) fun _ => Keeps.bind ih fun _ => Keeps.pure _

theorem Frame.linkOutputs (h : Frame P) (σ : Snapshot) (found : List (Art × List (PSnap κ))) :
    Keeps P (World.linkOutputs σ found) := by
  induction found with
  | nil => exact Keeps.pure _
  | cons x found ih =>
    exact Keeps.bind (Keeps.need _ _) fun _ =>
      Keeps.bind (h.writeSnapshotPartitions _ _ _) fun _ => ih

theorem Frame.discover (h : Frame P) (σ : Snapshot) (p : Pdr) (ifps : PyDict κ Fp) :
    Keeps P (World.discoverProducerPartitions env σ p ifps) :=
  Keeps.bind (Keeps.lift _) fun _ => Keeps.bind (h.readOutputs _ _) fun _ =>
    Keeps.bind (h.linkOutputs _ _) fun _ => Keeps.pure _

theorem Frame.ioWrite (h : Frame P) (i : ArtInfo) (v : Nat) (d : D) (p : Prt κ) :
    Keeps P (World.ioWrite env i v d p) := by
  unfold World.ioWrite
  split
  · exact Keeps.bind (Keeps.lift _) fun _ =>
      Keeps.bind (Keeps.effect (fun s hs => h.files s _ hs) h.budget) fun _ =>
      Keeps.bind (Keeps.gets _) fun _ => Keeps.lift _
  · exact Keeps.bind (Keeps.raiseIf _ _) fun _ => Keeps.bind (Keeps.lift _) fun _ => Keeps.lift _

theorem Frame.linkWritten (h : Frame P) (σ : Option Snapshot) (k : Str) (sn : PSnap κ) :
    Keeps P (World.linkWritten σ k sn) := by
  cases σ with
  | none => exact Keeps.pure _
  | some σ => exact h.writeSnapshotPartitions _ _ _

theorem Frame.write (h : Frame P) (g : Graph) (σ : Option Snapshot) (d : D) (a : Art)
    (fp : Option Fp) (pk : κ) (v : Nat) : Keeps P (World.write env g σ d a fp pk v) :=
  Keeps.bind (Keeps.need _ _) fun _ => Keeps.bind (Keeps.raiseIf _ _) fun _ =>
    Keeps.bind (Keeps.lift _) fun _ => Keeps.bind (h.ioWrite _ _ _ _) fun _ =>
    Keeps.bind (h.writeArtifactPartitions _ _) fun _ =>
    Keeps.bind (h.linkWritten _ _ _) fun _ => Keeps.pure _

theorem Frame.writeOutputs (h : Frame P) (σ : Snapshot) (p : Pdr) (fp : Fp) (pk : κ)
    (n : Nat) (l : List D) : Keeps P (World.writeOutputs env σ p fp pk n l) := by
  induction l generalizing n with
  | nil => exact Keeps.pure _
  | cons d l ih =>
    exact Keeps.bind (Keeps.lift _) fun _ => Keeps.bind (Keeps.need _ _) fun _ =>
      Keeps.bind (Keeps.need _ _) fun _ => Keeps.bind (h.write _ _ _ _ _ _ _) fun _ => ih _

theorem Frame.buildPartition (h : Frame P) (σ : Snapshot) (p : Pdr) (ex : List κ) (fp : Fp)
    (d : List (Str × List (PSnap κ))) (pk : κ) :
    Keeps P (World.buildPartition env σ p ex fp d pk) := by
  unfold World.buildPartition
  split
  · exact Keeps.pure _
  · exact Keeps.bind (Keeps.gets _) fun _ => Keeps.bind (Keeps.lift _) fun _ =>
      Keeps.bind (Keeps.ghost fun s hs => h.calls s _ hs) fun _ =>
      Keeps.bind (Keeps.lift _) fun _ => Keeps.bind (Keeps.lift _) fun _ =>
      Keeps.bind (Keeps.raiseIf _ _) fun _ => h.writeOutputs _ _ _ _ _ _

theorem Frame.buildPartitions (h : Frame P) (σ : Snapshot) (p : Pdr) (ex : List κ)
    (ifps : PyDict κ Fp) (deps : List (κ × List (Str × List (PSnap κ)))) :
    Keeps P (World.buildPartitions env σ p ex ifps deps) := by
  induction deps with
  | nil => exact Keeps.pure _
  | cons x deps ih =>
    exact Keeps.bind (Keeps.need _ _) fun _ => Keeps.bind (h.buildPartition _ _ _ _ _ _) fun _ => ih

theorem Frame.getInputs (l : List (Str × Art)) (σ : Snapshot) :
    Keeps P (World.getInputs env σ l) := by
  induction l with
  | nil => exact Keeps.pure _
  | cons x l ih =>
    exact Keeps.bind (Keeps.need _ _) fun _ => Keeps.bind (Keeps.gets _) fun _ =>
      Keeps.bind ih fun _ => Keeps.pure _

theorem Frame.buildProducer (h : Frame P) (hi : ∀ s x, P s → P { s with invs := s.invs ++ x })
    (σ : Snapshot) (p : Pdr) : Keeps P (World.buildProducer env σ p) :=
  Keeps.bind (Frame.getInputs _ _) fun _ => Keeps.bind (Keeps.lift _) fun _ =>
    Keeps.bind (Keeps.ghost fun s hs => hi s _ hs) fun _ =>
    Keeps.bind (h.discover _ _ _) fun _ => h.buildPartitions _ _ _ _ _

theorem Frame.buildOrder (h : Frame P) (hi : ∀ s x, P s → P { s with invs := s.invs ++ x })
    (σ : Snapshot) (l : List Nd) : Keeps P (World.buildOrder env σ l) := by
  induction l with
  | nil => exact Keeps.pure _
  | cons x l ih =>
    cases x with
    | art a => exact ih
    | pdr p => exact Keeps.bind (h.buildProducer hi σ p) fun _ => ih

theorem Frame.build (h : Frame P) (hi : ∀ s x, P s → P { s with invs := s.invs ++ x })
    (σ : Snapshot) : Keeps P (World.build env σ) :=
  Keeps.bind (Keeps.lift _) fun _ => h.buildOrder hi σ _

end World
end Arti
