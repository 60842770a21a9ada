import Verif.Lemmas.Keeps
import Verif.Lemmas.GraphOut
import Verif.Lemmas.Build

/-! What building one producer touches: storages and links of its outputs. -/

namespace Arti.Spec
open PyDict World M
variable {κ D : Type} [DecidableEq κ] {env : Env κ D}

/-- A predicate that survives what is done for these outputs in a build of this snapshot. -/
structure Local (env : Env κ D) (σ : Snapshot) (p : Pdr) (outs : List Art)
    (P : St κ D → Prop) : Prop where
  budget : ∀ s n, P s → P { s with budget := n }
  files : ∀ s a fp pk part path c, a ∈ outs → generate env a.info.sto fp pk = .ok part →
    part.loc = .file path → P s → P { s with files := PyDict.set s.files path c }
  calls : ∀ s pk, P s → P { s with calls := s.calls ++ [(p, pk)] }
  storage : ∀ s a ps, a ∈ outs → P s → P (addStorage s a.info.sto ps)
  links : ∀ s a k ps, a ∈ outs → σ.graph.keyOf a = some k → P s → P (addLinks s σ k ps)

variable {σ : Snapshot} {p : Pdr} {outs : List Art} {P : St κ D → Prop}

theorem Local.writeArtifactPartitions (h : Local env σ p outs P) {a : Art} (ha : a ∈ outs)
    (ps : List (PSnap κ)) : Keeps P (World.writeArtifactPartitions a ps) :=
  .effect (fun s hs => h.storage s a ps ha hs) h.budget

theorem Local.writeSnapshotPartitions (h : Local env σ p outs P) {a : Art} (ha : a ∈ outs) {k : Str}
    (hk : σ.graph.keyOf a = some k) (ps : List (PSnap κ)) :
    Keeps P (World.writeSnapshotPartitions σ k ps) :=
  .effect (fun s hs => h.links s a k ps ha hk hs) h.budget

theorem Local.warm (h : Local env σ p outs P) {a : Art} (ha : a ∈ outs) (ifps : PyDict κ Fp) :
    Keeps P (World.warm env a ifps) := by
  refine Keeps.bind (Keeps.gets _) ?_
  intro b
  split
  · exact Keeps.pure _
  · exact Keeps.bind (Keeps.gets _) fun _ => Keeps.bind (Keeps.lift _) fun _ =>
      h.writeArtifactPartitions ha _

theorem Local.readArtifactPartitions (h : Local env σ p outs P) {a : Art} (ha : a ∈ outs)
    (ifps : PyDict κ Fp) : Keeps P (World.readArtifactPartitions env a ifps) :=
  Keeps.bind (h.warm ha ifps) fun _ => Keeps.bind (Keeps.gets _) fun _ => Keeps.pure _

theorem Local.readOutputs (h : Local env σ p outs P) (ifps : PyDict κ Fp) (l : List Art)
    (hl : ∀ a ∈ l, a ∈ outs) : Keeps P (World.readOutputs env ifps l) := by
  induction l with
  | nil => exact Keeps.pure _
  | cons a l ih =>
    exact Keeps.bind (h.readArtifactPartitions (hl a (by simp)) ifps) fun _ =>
      Keeps.bind (ih fun a ha => hl a (List.mem_cons_of_mem _ ha)) fun _ => Keeps.pure _

theorem readOutputs_fst (ifps : PyDict κ Fp) (l : List Art) :
    Tri (fun _ : St κ D => True) (World.readOutputs env ifps l)
      (fun found _ => found.map Prod.fst = l) (fun _ => True) := by
  induction l with
  | nil => exact Tri.pure fun _ _ => rfl
  | cons a l ih =>
    refine Tri.bind (Q := fun _ _ => True) ?_ fun ps => Tri.bind ih fun found =>
      Tri.pure fun s hs => by simp [hs]
    intro s _
    cases World.readArtifactPartitions env a ifps s with
    | mk r s' => cases r <;> trivial

theorem Local.linkOutputs (h : Local env σ p outs P) (found : List (Art × List (PSnap κ)))
    (hl : ∀ x ∈ found, x.1 ∈ outs) : Keeps P (World.linkOutputs σ found) := by
  induction found with
  | nil => exact Keeps.pure _
  | cons x found ih =>
    intro s hs
    have ih' := ih fun a ha => hl a (List.mem_cons_of_mem _ ha)
    simp only [World.linkOutputs, run_bind, M.need]
    cases hk : σ.graph.keyOf x.1 with
    | none => exact hs
    | some k =>
      simp only
      have := h.writeSnapshotPartitions (hl x (by simp)) hk x.2 s hs
      revert this
      cases World.writeSnapshotPartitions σ k x.2 s with
      | mk r s' =>
        intro h'
        cases r with
        | error e => exact h'
        | ok u => exact ih' s' h'

theorem Local.discover (ho : σ.graph.producerOutputs p = .ok outs)
    (h : Local env σ p outs P) (ifps : PyDict κ Fp) :
    Keeps P (World.discoverProducerPartitions env σ p ifps) := by
  intro s hs
  simp only [World.discoverProducerPartitions, run_bind, run_lift, ho]
  have h1 := h.readOutputs (env := env) ifps outs (fun _ => id) s hs
  have h2 := readOutputs_fst (env := env) ifps outs s trivial
  revert h1 h2
  cases World.readOutputs env ifps outs s with
  | mk r s' =>
    intro h1 h2
    cases r with
    | error e => exact h1
    | ok found =>
      simp only at h2 ⊢
      have h3 := h.linkOutputs found (fun x hx => by
        rw [← h2]; exact List.mem_map.2 ⟨x, hx, rfl⟩) s' h1
      revert h3
      cases World.linkOutputs σ found s' with
      | mk r s'' => cases r <;> exact id

theorem Local.ioWrite (h : Local env σ p outs P) {a : Art} (ha : a ∈ outs) (v : Nat) (d : D)
    {part : Prt κ} {fp : Option Fp} {pk : κ} (hp : generate env a.info.sto fp pk = .ok part) :
    Keeps P (World.ioWrite env a.info v d part) := by
  unfold World.ioWrite
  split
  · rename_i path hl
    exact Keeps.bind (Keeps.lift _) fun _ =>
      Keeps.bind (Keeps.effect (fun s hs => h.files s a fp pk part path _ ha hp hl hs) h.budget)
        fun _ => Keeps.bind (Keeps.gets _) fun _ => Keeps.lift _
  · exact Keeps.bind (Keeps.raiseIf _ _) fun _ => Keeps.bind (Keeps.lift _) fun _ => Keeps.lift _

theorem Keeps.need_bind {α β : Type} {x : Option α} {e : Err} {f : α → M κ D β}
    (h : ∀ a, x = some a → Keeps P (f a)) : Keeps P (M.need x e >>= f) := by
  intro s hs
  rw [run_bind]
  cases x with
  | none => exact hs
  | some a => exact h a rfl s hs

theorem Keeps.lift_bind {α β : Type} {x : Except Err α} {f : α → M κ D β}
    (h : ∀ a, x = .ok a → Keeps P (f a)) : Keeps P (M.lift x >>= f) := by
  intro s hs
  rw [run_bind]
  cases x with
  | error e => exact hs
  | ok a => exact h a rfl s hs

theorem Local.write (h : Local env σ p outs P) (d : D) {a : Art} (ha : a ∈ outs)
    (fp : Option Fp) (pk : κ) (v : Nat) :
    Keeps P (World.write env σ.graph (some σ) d a fp pk v) :=
  Keeps.need_bind fun _ hk => Keeps.bind (Keeps.raiseIf _ _) fun _ =>
    Keeps.lift_bind fun _ hp => Keeps.bind (h.ioWrite ha _ _ hp) fun _ =>
    Keeps.bind (h.writeArtifactPartitions ha _) fun _ =>
    Keeps.bind (h.writeSnapshotPartitions ha hk _) fun _ => Keeps.pure _

theorem Local.writeOutputs (ho : σ.graph.producerOutputs p = .ok outs)
    (h : Local env σ p outs P) (fp : Fp) (pk : κ)
    (n : Nat) (l : List D) : Keeps P (World.writeOutputs env σ p fp pk n l) := by
  induction l generalizing n with
  | nil => exact Keeps.pure _
  | cons d l ih =>
    refine Keeps.lift_bind fun outs' ho' => Keeps.need_bind fun a ha => ?_
    rw [ho] at ho'
    obtain rfl := Except.ok.inj ho'
    exact Keeps.bind (Keeps.need _ _) fun _ =>
      Keeps.bind (h.write _ (List.mem_of_getElem? ha) _ _ _) fun _ => ih _

theorem Local.buildPartition (ho : σ.graph.producerOutputs p = .ok outs)
    (h : Local env σ p outs P) (ex : List κ) (fp : Fp)
    (d : List (Str × List (PSnap κ))) (pk : κ) :
    Keeps P (World.buildPartition env σ p ex fp d pk) := by
  unfold World.buildPartition
  split
  · exact Keeps.pure _
  · exact Keeps.bind (Keeps.gets _) fun _ => Keeps.bind (Keeps.lift _) fun _ =>
      Keeps.bind (Keeps.ghost fun s hs => h.calls s _ hs) fun _ =>
      Keeps.bind (Keeps.lift _) fun _ => Keeps.bind (Keeps.lift _) fun _ =>
      Keeps.bind (Keeps.raiseIf _ _) fun _ => h.writeOutputs ho _ _ _ _

theorem Local.buildPartitions (ho : σ.graph.producerOutputs p = .ok outs)
    (h : Local env σ p outs P) (ex : List κ)
    (ifps : PyDict κ Fp) (deps : List (κ × List (Str × List (PSnap κ)))) :
    Keeps P (World.buildPartitions env σ p ex ifps deps) := by
  induction deps with
  | nil => exact Keeps.pure _
  | cons x deps ih =>
    exact Keeps.bind (Keeps.need _ _) fun _ =>
      Keeps.bind (h.buildPartition ho _ _ _ _) fun _ => ih

theorem Local.buildProducer (ho : σ.graph.producerOutputs p = .ok outs)
    (h : Local env σ p outs P) (hi : ∀ s x, P s → P { s with invs := s.invs ++ x }) :
    Keeps P (World.buildProducer env σ p) :=
  Keeps.bind (Frame.getInputs _ _) fun _ => Keeps.bind (Keeps.lift _) fun _ =>
    Keeps.bind (Keeps.ghost fun s hs => hi s _ hs) fun _ =>
    Keeps.bind (h.discover ho _) fun _ => h.buildPartitions ho _ _ _

end Arti.Spec
