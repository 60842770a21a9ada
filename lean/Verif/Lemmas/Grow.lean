import Verif.Lemmas.Keeps

/-! Predicates on the state that building a snapshot keeps because it only adds. -/

namespace Arti
open PyDict M

namespace World
variable {κ D : Type} [DecidableEq κ] {env : Env κ D}

/-- A predicate that is kept by each effect of building a snapshot. -/
structure Grow (σ : Snapshot) (P : St κ D → Prop) : Prop where
  budget : ∀ s n, P s → P { s with budget := n }
  storage : ∀ s sto ps, P s → P { s with
    storage := PyDict.set s.storage sto (setUpdate ((PyDict.get? s.storage sto).getD []) ps) }
  links : ∀ s k ps, P s → P { s with
    links := PyDict.set s.links (σ, k) (setUpdate ((PyDict.get? s.links (σ, k)).getD []) ps) }
  files : ∀ s path c, P s → P { s with files := PyDict.set s.files path c }
  calls : ∀ s x, P s → P { s with calls := x }

variable {P : St κ D → Prop} {σ : Snapshot}

theorem Grow.writeArtifactPartitions (h : Grow σ P) (a : Art) (ps : List (PSnap κ)) :
    Keeps P (World.writeArtifactPartitions a ps) :=
  .effect (fun s hs => h.storage s _ _ hs) h.budget

theorem Grow.writeSnapshotPartitions (h : Grow σ P) (k : Str)
    (ps : List (PSnap κ)) : Keeps P (World.writeSnapshotPartitions σ k ps) :=
  .effect (fun s hs => h.links s _ _ hs) h.budget

theorem Grow.warm (h : Grow σ P) (a : Art) (ifps : PyDict κ Fp) : Keeps P (World.warm env a ifps) := by
  refine Keeps.bind (Keeps.gets _) ?_
  intro b
  split
  · exact Keeps.pure _
  · exact Keeps.bind (Keeps.gets _) fun _ => Keeps.bind (Keeps.lift _) fun _ =>
      h.writeArtifactPartitions _ _

theorem Grow.readArtifactPartitions (h : Grow σ P) (a : Art) (ifps : PyDict κ Fp) :
    Keeps P (World.readArtifactPartitions env a ifps) :=
  Keeps.bind (h.warm a ifps) fun _ => Keeps.bind (Keeps.gets _) fun _ => Keeps.pure _

theorem Grow.readOutputs (h : Grow σ P) (ifps : PyDict κ Fp) (outs : List Art) :
    Keeps P (World.readOutputs env ifps outs) := by
  induction outs with
  | nil => exact Keeps.pure _
  | cons a outs ih =>
    exact Keeps.bind (h.readArtifactPartitions a ifps) fun _ => Keeps.bind ih fun _ => Keeps.pure _

theorem Grow.linkOutputs (h : Grow σ P) (found : List (Art × List (PSnap κ))) :
    Keeps P (World.linkOutputs σ found) := by
  induction found with
  | nil => exact Keeps.pure _
  | cons x found ih =>
    exact Keeps.bind (Keeps.need _ _) fun _ =>
      Keeps.bind (h.writeSnapshotPartitions _ _) fun _ => ih

theorem Grow.discover (h : Grow σ P) (p : Pdr) (ifps : PyDict κ Fp) :
    Keeps P (World.discoverProducerPartitions env σ p ifps) :=
  Keeps.bind (Keeps.lift _) fun _ => Keeps.bind (h.readOutputs _ _) fun _ =>
    Keeps.bind (h.linkOutputs _) fun _ => Keeps.pure _

theorem Grow.ioWrite (h : Grow σ P) (i : ArtInfo) (v : Nat) (d : D) (p : Prt κ) :
    Keeps P (World.ioWrite env i v d p) := by
  unfold World.ioWrite
  split
  · exact Keeps.bind (Keeps.lift _) fun _ =>
      Keeps.bind (Keeps.effect (fun s hs => h.files s _ _ hs) h.budget) fun _ =>
      Keeps.bind (Keeps.gets _) fun _ => Keeps.lift _
  · exact Keeps.bind (Keeps.raiseIf _ _) fun _ => Keeps.bind (Keeps.lift _) fun _ => Keeps.lift _

theorem Grow.linkWritten (h : Grow σ P) {o : Option Snapshot} (ho : o = none ∨ o = some σ)
    (k : Str) (sn : PSnap κ) : Keeps P (World.linkWritten o k sn) := by
  rcases ho with rfl | rfl
  · exact Keeps.pure _
  · exact h.writeSnapshotPartitions _ _

theorem Grow.write (h : Grow σ P) (g : Graph) {o : Option Snapshot} (ho : o = none ∨ o = some σ)
    (d : D) (a : Art) (fp : Option Fp) (pk : κ) (v : Nat) :
    Keeps P (World.write env g o d a fp pk v) :=
  Keeps.bind (Keeps.need _ _) fun _ => Keeps.bind (Keeps.raiseIf _ _) fun _ =>
    Keeps.bind (Keeps.lift _) fun _ => Keeps.bind (h.ioWrite _ _ _ _) fun _ =>
    Keeps.bind (h.writeArtifactPartitions _ _) fun _ =>
    Keeps.bind (h.linkWritten ho _ _) fun _ => Keeps.pure _

theorem Grow.writeOutputs (h : Grow σ P) (p : Pdr) (fp : Fp) (pk : κ)
    (n : Nat) (l : List D) : Keeps P (World.writeOutputs env σ p fp pk n l) := by
  induction l generalizing n with
  | nil => exact Keeps.pure _
  | cons d l ih =>
    exact Keeps.bind (Keeps.lift _) fun _ => Keeps.bind (Keeps.need _ _) fun _ =>
      Keeps.bind (Keeps.need _ _) fun _ => Keeps.bind (h.write _ (.inr rfl) _ _ _ _ _) fun _ => ih _

theorem Grow.buildPartition (h : Grow σ P) (p : Pdr) (ex : List κ) (fp : Fp)
    (d : List (Str × List (PSnap κ))) (pk : κ) :
    Keeps P (World.buildPartition env σ p ex fp d pk) := by
  unfold World.buildPartition
  split
  · exact Keeps.pure _
  · exact Keeps.bind (Keeps.gets _) fun _ => Keeps.bind (Keeps.lift _) fun _ =>
      Keeps.bind (Keeps.ghost fun s hs => h.calls s _ hs) fun _ =>
      Keeps.bind (Keeps.lift _) fun _ => Keeps.bind (Keeps.lift _) fun _ =>
      Keeps.bind (Keeps.raiseIf _ _) fun _ => h.writeOutputs _ _ _ _ _

theorem Grow.buildPartitions (h : Grow σ P) (p : Pdr) (ex : List κ)
    (ifps : PyDict κ Fp) (deps : List (κ × List (Str × List (PSnap κ)))) :
    Keeps P (World.buildPartitions env σ p ex ifps deps) := by
  induction deps with
  | nil => exact Keeps.pure _
  | cons x deps ih =>
    exact Keeps.bind (Keeps.need _ _) fun _ => Keeps.bind (h.buildPartition _ _ _ _ _) fun _ => ih

omit [DecidableEq κ] in
theorem Grow.getInputs (l : List (Str × Art)) (σ : Snapshot) :
    Keeps P (World.getInputs env σ l) := by
  induction l with
  | nil => exact Keeps.pure _
  | cons x l ih =>
    exact Keeps.bind (Keeps.need _ _) fun _ => Keeps.bind (Keeps.gets _) fun _ =>
      Keeps.bind ih fun _ => Keeps.pure _

theorem Grow.buildProducer (h : Grow σ P) (hi : ∀ s x, P s → P { s with invs := s.invs ++ x })
    (p : Pdr) : Keeps P (World.buildProducer env σ p) :=
  Keeps.bind (Grow.getInputs _ _) fun _ => Keeps.bind (Keeps.lift _) fun _ =>
    Keeps.bind (Keeps.ghost fun s hs => hi s _ hs) fun _ =>
    Keeps.bind (h.discover _ _) fun _ => h.buildPartitions _ _ _ _

theorem Grow.buildOrder (h : Grow σ P) (hi : ∀ s x, P s → P { s with invs := s.invs ++ x })
    (l : List Nd) : Keeps P (World.buildOrder env σ l) := by
  induction l with
  | nil => exact Keeps.pure _
  | cons x l ih =>
    cases x with
    | art a => exact ih
    | pdr p => exact Keeps.bind (h.buildProducer hi p) fun _ => ih

theorem Grow.build (h : Grow σ P) (hi : ∀ s x, P s → P { s with invs := s.invs ++ x })
    : Keeps P (World.build env σ) :=
  Keeps.bind (Keeps.lift _) fun _ => h.buildOrder hi _

end World
end Arti
