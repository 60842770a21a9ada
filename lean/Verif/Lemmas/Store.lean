import Verif.Lemmas.Linked
import Verif.Lemmas.Ops

/-! The partitions that the backend knows for a storage are partitions of the storage, whatever
happens. -/

namespace Arti.Spec
open PyDict World M
variable {κ D : Type} [DecidableEq κ] {env : Env κ D}

theorem _root_.Arti.M.Tri.keeps {α : Type} {P : St κ D → Prop} {m : M κ D α}
    (h : Tri P m (fun _ => P) P) : Keeps P m := by
  intro s hs
  have := h s hs
  revert this
  cases m s with
  | mk r s' => cases r <;> exact fun h => h

theorem _root_.Arti.M.Keeps.tri {α : Type} {P : St κ D → Prop} {m : M κ D α} (h : Keeps P m) :
    Tri P m (fun _ => P) P := by
  intro s hs
  have := h s hs
  revert this
  cases m s with
  | mk r s' => cases r <;> exact fun h => h

/-- A partition of the storage: with an input fingerprint iff the storage has the placeholder. -/
def OfSto (sto : Sto) (sn : PSnap κ) : Prop :=
  sn.part.sto = sto ∧ sn.part.inputFp.isSome = sto.hasFp

/-- Known partitions belong to their storages. -/
def StoreOk (s : St κ D) : Prop :=
  ∀ sto ps, get? s.storage sto = some ps → ∀ sn ∈ ps, OfSto sto sn

theorem generate_ofSto {sto : Sto} {fp : Option Fp} {pk : κ} {part : Prt κ}
    (h : generate env sto fp pk = .ok part) :
    part.sto = sto ∧ part.inputFp.isSome = sto.hasFp := by
  obtain ⟨h1, h2, _, h4, _⟩ := generate_ok h
  exact ⟨h1, by rw [h2]; exact h4⟩

theorem discover_ofSto {files : PyDict Str Str} {sto : Sto} {ifps : PyDict κ Fp}
    {ps : List (PSnap κ)} (h : discover env files sto ifps = .ok ps) :
    ∀ sn ∈ ps, OfSto sto sn := by
  intro sn hsn
  have : ∃ l, snapAll env files sto l = .ok ps := by
    cases sto with
    | file t =>
      simp only [discover, bind, Except.bind] at h
      split at h
      · simp at h
      · exact ⟨_, h⟩
    | lit t v =>
      simp only [discover] at h
      split at h
      · simp at h
      · split at h
        · simp at h
        · split at h
          · simp only [Except.ok.injEq] at h; subst h; simp at hsn
          · exact ⟨_, h⟩
  obtain ⟨l, hl⟩ := this
  obtain ⟨fp, pk, c, h1, h2, _⟩ := mem_snapAll hl hsn
  exact generate_ofSto h2

theorem StoreOk.add {s : St κ D} (h : StoreOk s) {sto : Sto} {ps : List (PSnap κ)}
    (hps : ∀ sn ∈ ps, OfSto sto sn) : StoreOk (addStorage s sto ps) := by
  intro sto' ps' hg sn hsn
  simp only [addStorage, get?_set] at hg
  split at hg
  · rename_i he
    subst he
    simp only [Option.some.injEq] at hg
    subst hg
    rcases (mem_setUpdate _ _ _).1 hsn with h1 | h1
    · cases hgs : get? s.storage sto with
      | none => rw [hgs] at h1; simp at h1
      | some l => rw [hgs] at h1; exact h sto l hgs sn h1
    · exact hps sn h1
  · exact h sto' ps' hg sn hsn

theorem StoreOk.writeArtifactPartitions (a : Art) {ps : List (PSnap κ)}
    (hps : ∀ sn ∈ ps, OfSto a.info.sto sn) :
    Keeps (StoreOk (D := D)) (World.writeArtifactPartitions a ps) :=
  Keeps.effect (fun _ h => h.add hps) (fun _ _ h => h)

theorem StoreOk.writeSnapshotPartitions (σ : Snapshot) (k : Str) (ps : List (PSnap κ)) :
    Keeps (StoreOk (D := D)) (World.writeSnapshotPartitions σ k ps) :=
  Keeps.effect (fun _ h => h) (fun _ _ h => h)

theorem StoreOk.readArtifactPartitions (a : Art) (ifps : PyDict κ Fp) :
    Keeps StoreOk (World.readArtifactPartitions env a ifps) := by
  refine Keeps.bind ?_ fun _ => Keeps.bind (Keeps.gets _) fun _ => Keeps.pure _
  refine Keeps.bind (Keeps.gets _) ?_
  intro b
  split
  · exact Keeps.pure _
  · exact Keeps.bind (Keeps.gets _) fun _ => Keeps.lift_bind fun ps hps =>
      StoreOk.writeArtifactPartitions a (discover_ofSto hps)

theorem StoreOk.readOutputs (ifps : PyDict κ Fp) (outs : List Art) :
    Keeps StoreOk (World.readOutputs env ifps outs) := by
  induction outs with
  | nil => exact Keeps.pure _
  | cons a outs ih =>
    exact Keeps.bind (StoreOk.readArtifactPartitions a ifps) fun _ =>
      Keeps.bind ih fun _ => Keeps.pure _

theorem StoreOk.linkOutputs (σ : Snapshot) (found : List (Art × List (PSnap κ))) :
    Keeps (StoreOk (D := D)) (World.linkOutputs σ found) := by
  induction found with
  | nil => exact Keeps.pure _
  | cons x found ih =>
    exact Keeps.bind (Keeps.need _ _) fun _ =>
      Keeps.bind (StoreOk.writeSnapshotPartitions _ _ _) fun _ => ih

theorem StoreOk.linkWritten (σ : Option Snapshot) (k : Str) (sn : PSnap κ) :
    Keeps (StoreOk (D := D)) (World.linkWritten σ k sn) := by
  cases σ with
  | none => exact Keeps.pure _
  | some σ => exact StoreOk.writeSnapshotPartitions _ _ _

theorem StoreOk.write (g : Graph) (σ : Option Snapshot) (d : D) (a : Art) (fp : Option Fp) (pk : κ)
    (v : Nat) : Keeps StoreOk (World.write env g σ d a fp pk v) := by
  refine Keeps.bind (Keeps.need _ _) fun k => Keeps.bind (Keeps.raiseIf _ _) fun _ =>
    Keeps.lift_bind fun part hpart => ?_
  have hp := generate_ofSto hpart
  have hsn : ∀ (loc : Loc) (files : PyDict Str Str) (sn : PSnap κ),
      snap env files { part with loc := loc } = .ok sn → OfSto a.info.sto sn := by
    intro loc files sn h
    unfold snap at h
    split at h
    · simp only [Except.ok.injEq] at h; subst h; exact hp
    · simp at h
  refine Tri.keeps ?_
  refine Tri.bind (Q := fun sn s => StoreOk s ∧ OfSto a.info.sto sn) ?_ fun sn => ?_
  · unfold World.ioWrite
    split
    · refine Tri.lift_bind (fun c _ => ?_) (fun _ h => h)
      refine Tri.bind (Q := fun _ => StoreOk) (Tri.effect (fun _ h => h) (fun _ _ h => h)
        (fun _ h => h)) fun _ => Tri.gets_bind fun s hs => Tri.lift ?_ ?_
      · rintro sn s' h rfl
        exact ⟨hs, hsn part.loc _ sn h⟩
      · rintro s' rfl
        exact hs
    · refine Tri.raiseIf_bind (fun _ => ?_) (fun _ h => h)
      refine Tri.lift_bind (fun c _ => Tri.lift ?_ (fun _ h => h)) (fun _ h => h)
      intro sn s' h hs
      exact ⟨hs, hsn _ _ sn h⟩
  · refine Tri.of_state fun s hs => ?_
    have : Keeps StoreOk (do
      World.writeArtifactPartitions (D := D) a [sn]
      World.linkWritten σ k sn
      return sn) := Keeps.bind (StoreOk.writeArtifactPartitions a (by simpa using hs.2)) fun _ =>
        Keeps.bind (StoreOk.linkWritten _ _ _) fun _ => Keeps.pure _
    exact this.tri.conseq (fun s' h => by rw [h]; exact hs.1) (fun _ _ h => h) (fun _ h => h)

theorem StoreOk.writeOutputs (σ : Snapshot) (p : Pdr) (fp : Fp) (pk : κ)
    (n : Nat) (l : List D) : Keeps StoreOk (World.writeOutputs env σ p fp pk n l) := by
  induction l generalizing n with
  | nil => exact Keeps.pure _
  | cons d l ih =>
    exact Keeps.bind (Keeps.lift _) fun _ => Keeps.bind (Keeps.need _ _) fun _ =>
      Keeps.bind (Keeps.need _ _) fun _ => Keeps.bind (StoreOk.write _ _ _ _ _ _ _) fun _ => ih _

theorem StoreOk.buildPartitions (σ : Snapshot) (p : Pdr) (ex : List κ)
    (ifps : PyDict κ Fp) (deps : List (κ × List (Str × List (PSnap κ)))) :
    Keeps StoreOk (World.buildPartitions env σ p ex ifps deps) := by
  induction deps with
  | nil => exact Keeps.pure _
  | cons x deps ih =>
    refine Keeps.bind (Keeps.need _ _) fun _ => Keeps.bind ?_ fun _ => ih
    unfold World.buildPartition
    split
    · exact Keeps.pure _
    · exact Keeps.bind (Keeps.gets _) fun _ => Keeps.bind (Keeps.lift _) fun _ =>
        Keeps.bind (Keeps.ghost fun s hs => hs) fun _ =>
        Keeps.bind (Keeps.lift _) fun _ => Keeps.bind (Keeps.lift _) fun _ =>
        Keeps.bind (Keeps.raiseIf _ _) fun _ => StoreOk.writeOutputs _ _ _ _ _ _

theorem StoreOk.buildOrder (σ : Snapshot) (l : List Nd) :
    Keeps StoreOk (World.buildOrder env σ l) := by
  induction l with
  | nil => exact Keeps.pure _
  | cons x l ih =>
    cases x with
    | art a => exact ih
    | pdr p =>
      refine Keeps.bind ?_ fun _ => ih
      exact Keeps.bind (Frame.getInputs _ _) fun _ => Keeps.bind (Keeps.lift _) fun _ =>
        Keeps.bind (Keeps.ghost fun s hs => hs) fun _ =>
        Keeps.bind (Keeps.bind (Keeps.lift _) fun _ => Keeps.bind (StoreOk.readOutputs _ _) fun _ =>
          Keeps.bind (StoreOk.linkOutputs _ _) fun _ => Keeps.pure _) fun _ =>
        StoreOk.buildPartitions _ _ _ _ _

theorem StoreOk.build (σ : Snapshot) : Keeps StoreOk (World.build env σ) :=
  Keeps.bind (Keeps.lift _) fun _ => StoreOk.buildOrder σ _

theorem StoreOk.fromGraph {g : Graph} (hk : (keys g.arts).Nodup) :
    Keeps StoreOk (World.fromGraph env g) := by
  refine Keeps.bind (Keeps.gets _) fun files => Keeps.lift_bind fun x hx => ?_
  obtain ⟨fp, known⟩ := x
  have hsc := (scanNodes_spec _ _ _ _ _ hx (by simp [get?])).1
  have hnd := (scanNodes_spec _ _ _ _ _ hx (by simp [get?])).2.2.1 (by simp [keys])
  refine Keeps.bind (Keeps.ghost fun _ h => h) fun _ => Keeps.bind (Keeps.effect (fun _ h => h)
    (fun _ _ h => h)) fun _ => Keeps.bind (Keeps.effect (fun _ h => h) (fun _ _ h => h))
    fun _ => Keeps.bind ?_ fun _ => Keeps.pure _
  have : ∀ l : PyDict Str (List (PSnap κ)), (∀ x ∈ l, ∃ a, g.artAt x.1 = some a ∧
      ∀ sn ∈ x.2, OfSto a.info.sto sn) → Keeps (StoreOk (D := D)) (linkAll ⟨fp, g⟩ l) := by
    intro l
    induction l with
    | nil => exact fun _ => Keeps.pure _
    | cons x l ih =>
      intro h
      obtain ⟨k, ps⟩ := x
      obtain ⟨a, h1, h2⟩ := h (k, ps) (by simp)
      refine Keeps.need_bind fun b hb => ?_
      rw [h1] at hb
      obtain rfl := Option.some.inj hb
      exact Keeps.bind (Keeps.bind (StoreOk.writeArtifactPartitions a h2) fun _ =>
        StoreOk.writeSnapshotPartitions _ _ _) fun _ => ih fun x hx => h x (List.mem_cons_of_mem _ hx)
  refine this known fun x hx => ?_
  obtain ⟨i, h1, h2⟩ := hsc x.1 x.2 ((mem_iff_get? hnd).1 hx)
  exact ⟨.raw i, Graph.artAt_of_keyOf hk h1, discover_ofSto h2⟩

/-- Known partitions belong to their storages in every history. -/
theorem Reach.storeOk {gs : Graph → Prop} (hk : ∀ g, gs g → (keys g.arts).Nodup) {s : St κ D}
    (h : Reach env gs s) : StoreOk s := by
  induction h with
  | init files b _ => intro sto ps h; simp [get?] at h
  | @step s op _ hv ih =>
    have hb : ∀ b, StoreOk { s with budget := b } := fun _ => ih
    cases op with
    | put path c => exact ih
    | del path => exact ih
    | writeRaw g i d pk view b => exact StoreOk.write g none d (.raw i) none pk view _ (hb b)
    | lookup a ifps => exact StoreOk.readArtifactPartitions a ifps _ (hb none)
    | snapshot g b => exact StoreOk.fromGraph (hk g hv) _ (hb b)
    | build g b =>
      exact (Keeps.bind (StoreOk.fromGraph (hk g hv)) fun σ => Keeps.bind (StoreOk.build σ)
        fun _ => Keeps.pure _) _ (hb b)
    | rebuild σ b => exact StoreOk.build σ _ (hb b)
    | tag σ name o =>
      exact (Keeps.bind (Keeps.gets _) fun _ => Keeps.bind (Keeps.raiseIf _ _) fun _ =>
        Keeps.effect (fun _ h => h) (fun _ _ h => h) : Keeps StoreOk (writeSnapshotTag σ name o)) _
        (hb none)
    | restart keep => intro sto ps h; simp [HOp.run, get?] at h

end Arti.Spec
