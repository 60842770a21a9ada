import Verif.Lemmas.Order

/-! The files of known and of linked partitions are where the storages have them. -/

namespace Arti.Spec
open PyDict World M
variable {κ D : Type} [DecidableEq κ] {env : Env κ D} {gs : Graph → Prop}

theorem InPlace.mono {gs' : Graph → Prop} {s : St κ D} (h : InPlace env gs s)
    (hg : ∀ g, gs' g → gs g) : InPlace env gs' s :=
  ⟨h.known, fun τ hτ => h.linked τ (hg _ hτ)⟩

theorem discover_at {files : PyDict Str Str} {sto : Sto} {ifps : PyDict κ Fp}
    {ps : List (PSnap κ)} (h : discover env files sto ifps = .ok ps) : ∀ sn ∈ ps, At env sto sn := by
  intro sn hsn
  have : ∃ l, snapAll env files sto l = .ok ps := by
    cases sto with
    | file t =>
      simp only [discover, bind, Except.bind] at h
      split at h
      · simp at h
      · exact ⟨_, h⟩
    | lit t v =>
      simp only [discover] at h
      split at h
      · simp at h
      · split at h
        · simp at h
        · split at h
          · simp only [Except.ok.injEq] at h; subst h; simp at hsn
          · exact ⟨_, h⟩
  obtain ⟨l, hl⟩ := this
  obtain ⟨fp, pk, c, h1, h2, _⟩ := mem_snapAll hl hsn
  exact fun path hp => ⟨fp, pk, sn.part, h2, hp⟩

theorem InPlace.addStorage {s : St κ D} (h : InPlace env gs s) {sto : Sto} {ps : List (PSnap κ)}
    (hps : ∀ sn ∈ ps, At env sto sn) : InPlace env gs (addStorage s sto ps) := by
  refine ⟨fun sto' ps' hg sn hsn => ?_, h.linked⟩
  simp only [Spec.addStorage, get?_set] at hg
  split at hg
  · rename_i he
    subst he
    simp only [Option.some.injEq] at hg
    subst hg
    rcases (mem_setUpdate _ _ _).1 hsn with h1 | h1
    · cases hgs : get? s.storage sto with
      | none => rw [hgs] at h1; simp at h1
      | some l => rw [hgs] at h1; exact h.known sto l hgs sn h1
    · exact hps sn h1
  · exact h.known sto' ps' hg sn hsn

theorem InPlace.addLinks (hk : ∀ g, gs g → (keys g.arts).Nodup) {s : St κ D}
    (h : InPlace env gs s) {σ : Snapshot} {a : Art} {k : Str} (ha : σ.graph.keyOf a = some k)
    {ps : List (PSnap κ)} (hps : ∀ sn ∈ ps, At env a.info.sto sn) :
    InPlace env gs (addLinks s σ k ps) := by
  refine ⟨h.known, fun τ hτ b k' hb sn hsn => ?_⟩
  simp only [linksOf, Spec.addLinks, get?_set] at hsn
  split at hsn
  · rename_i he
    simp only [Prod.mk.injEq] at he
    obtain ⟨rfl, rfl⟩ := he
    obtain rfl := Graph.keyOf_inj (hk _ hτ) ha hb
    simp only [Option.getD_some] at hsn
    rcases (mem_setUpdate _ _ _).1 hsn with h1 | h1
    · exact h.linked _ hτ _ _ hb sn h1
    · exact hps sn h1
  · exact h.linked _ hτ _ _ hb sn hsn

variable (hk : ∀ g, gs g → (keys g.arts).Nodup) (hi : IterOk env)

theorem InPlace.writeArtifactPartitions (a : Art) {ps : List (PSnap κ)}
    (hps : ∀ sn ∈ ps, At env a.info.sto sn) :
    Keeps (InPlace (D := D) env gs) (World.writeArtifactPartitions a ps) :=
  Keeps.effect (fun _ h => h.addStorage hps) (fun _ _ h => ⟨h.known, h.linked⟩)

include hk in
theorem InPlace.writeSnapshotPartitions {σ : Snapshot} {a : Art} {k : Str}
    (ha : σ.graph.keyOf a = some k) {ps : List (PSnap κ)} (hps : ∀ sn ∈ ps, At env a.info.sto sn) :
    Keeps (InPlace (D := D) env gs) (World.writeSnapshotPartitions σ k ps) :=
  Keeps.effect (fun _ h => h.addLinks hk ha hps) (fun _ _ h => ⟨h.known, h.linked⟩)

include hi in
theorem InPlace.readArtifactPartitions (a : Art) (ifps : PyDict κ Fp) :
    Tri (InPlace (D := D) env gs) (World.readArtifactPartitions env a ifps)
      (fun ps s => InPlace env gs s ∧ ∀ sn ∈ ps, At env a.info.sto sn) (InPlace env gs) := by
  refine Tri.bind (Q := fun _ => InPlace env gs) (Keeps.tri ?_) fun _ => ?_
  · refine Keeps.bind (Keeps.gets _) ?_
    intro b
    split
    · exact Keeps.pure _
    · exact Keeps.bind (Keeps.gets _) fun _ => Keeps.lift_bind fun ps hps =>
        InPlace.writeArtifactPartitions a (discover_at hps)
  · refine Tri.gets_bind fun s hs => Tri.pure ?_
    intro s' h
    rw [h]
    refine ⟨hs, fun sn hsn => ?_⟩
    rw [(hi.perm _).mem_iff, mem_filtered] at hsn
    cases hg : get? s.storage a.info.sto with
    | none => rw [hg] at hsn; simp at hsn
    | some l => rw [hg] at hsn; exact hs.known _ _ hg sn hsn.1

include hi in
theorem InPlace.readOutputs (ifps : PyDict κ Fp) (outs : List Art) :
    Tri (InPlace (D := D) env gs) (World.readOutputs env ifps outs)
      (fun found s => InPlace env gs s ∧ ∀ x ∈ found, ∀ sn ∈ x.2, At env x.1.info.sto sn)
      (InPlace env gs) := by
  induction outs with
  | nil => exact Tri.pure fun s hs => ⟨hs, by simp⟩
  | cons a outs ih =>
    refine Tri.bind (InPlace.readArtifactPartitions hi a ifps) fun ps => ?_
    refine Tri.of_state fun s0 hs0 => ?_
    refine Tri.bind (ih.conseq (fun s h => by rw [h]; exact hs0.1) (fun _ _ h => h) (fun _ h => h))
      fun found => Tri.pure fun s hs => ⟨hs.1, ?_⟩
    intro x hx
    rcases List.mem_cons.1 hx with rfl | hx
    · exact hs0.2
    · exact hs.2 x hx

include hk in
theorem InPlace.linkOutputs (σ : Snapshot) {found : List (Art × List (PSnap κ))}
    (h : ∀ x ∈ found, ∀ sn ∈ x.2, At env x.1.info.sto sn) :
    Keeps (InPlace (D := D) env gs) (World.linkOutputs σ found) := by
  induction found with
  | nil => exact Keeps.pure _
  | cons x found ih =>
    exact Keeps.need_bind fun k hkx =>
      Keeps.bind (InPlace.writeSnapshotPartitions hk hkx (h x (by simp))) fun _ =>
        ih fun y hy => h y (by simp [hy])

include hk in
theorem InPlace.write {g : Graph} {σ : Option Snapshot} (hg : ∀ τ, σ = some τ → τ.graph = g) (d : D)
    (a : Art) (fp : Option Fp) (pk : κ)
    (v : Nat) : Keeps (InPlace env gs) (World.write env g σ d a fp pk v) := by
  refine Keeps.need_bind fun k hka => Keeps.bind (Keeps.raiseIf _ _) fun _ =>
    Keeps.lift_bind fun part hpart => ?_
  have hsn : ∀ (files : PyDict Str Str) (sn : PSnap κ),
      snap env files part = .ok sn → At env a.info.sto sn := by
    intro files sn h
    unfold snap at h
    split at h
    · simp only [Except.ok.injEq] at h; subst h; exact fun path hp => ⟨fp, pk, part, hpart, hp⟩
    · simp at h
  refine Tri.keeps ?_
  refine Tri.bind (Q := fun sn s => InPlace env gs s ∧ At env a.info.sto sn) ?_ fun sn => ?_
  · unfold World.ioWrite
    split
    · refine Tri.lift_bind (fun c _ => ?_) (fun _ h => h)
      refine Tri.bind (Q := fun _ => InPlace env gs) (Tri.effect (fun _ h => ⟨h.known, h.linked⟩)
        (fun _ _ h => ⟨h.known, h.linked⟩)
        (fun _ h => h)) fun _ => Tri.gets_bind fun s hs => Tri.lift ?_ ?_
      · rintro sn s' h rfl
        exact ⟨hs, hsn _ sn h⟩
      · rintro s' rfl
        exact hs
    · refine Tri.raiseIf_bind (fun _ => ?_) (fun _ h => h)
      refine Tri.lift_bind (fun c _ => Tri.lift ?_ (fun _ h => h)) (fun _ h => h)
      intro sn s' h hs
      refine ⟨hs, fun path hp => ?_⟩
      unfold snap at h
      simp only [content, Except.ok.injEq] at h
      subst h
      simp at hp
  · refine Tri.of_state fun s hs => ?_
    have : Keeps (InPlace env gs) (do
      World.writeArtifactPartitions (D := D) a [sn]
      World.linkWritten σ k sn
      return sn) := Keeps.bind (InPlace.writeArtifactPartitions a (by simpa using hs.2)) fun _ =>
        Keeps.bind (by
          cases σ with
          | none => exact Keeps.pure _
          | some τ =>
            exact InPlace.writeSnapshotPartitions (a := a) hk (by rw [hg τ rfl]; exact hka)
              (by simpa using hs.2)) fun _ => Keeps.pure _
    exact this.tri.conseq (fun s' h => by rw [h]; exact hs.1) (fun _ _ h => h) (fun _ h => h)

include hk in
theorem InPlace.writeOutputs (σ : Snapshot) (p : Pdr) (fp : Fp) (pk : κ)
    (n : Nat) (l : List D) : Keeps (InPlace env gs) (World.writeOutputs env σ p fp pk n l) := by
  induction l generalizing n with
  | nil => exact Keeps.pure _
  | cons d l ih =>
    exact Keeps.bind (Keeps.lift _) fun _ => Keeps.bind (Keeps.need _ _) fun _ =>
      Keeps.bind (Keeps.need _ _) fun _ => Keeps.bind (InPlace.write hk
        (by rintro τ h; rw [Option.some.inj h]) _ _ _ _ _) fun _ => ih _

include hk in
theorem InPlace.buildPartitions (σ : Snapshot) (p : Pdr) (ex : List κ)
    (ifps : PyDict κ Fp) (deps : List (κ × List (Str × List (PSnap κ)))) :
    Keeps (InPlace env gs) (World.buildPartitions env σ p ex ifps deps) := by
  induction deps with
  | nil => exact Keeps.pure _
  | cons x deps ih =>
    refine Keeps.bind (Keeps.need _ _) fun _ => Keeps.bind ?_ fun _ => ih
    unfold World.buildPartition
    split
    · exact Keeps.pure _
    · exact Keeps.bind (Keeps.gets _) fun _ => Keeps.bind (Keeps.lift _) fun _ =>
        Keeps.bind (Keeps.ghost fun s hs => ⟨hs.known, hs.linked⟩) fun _ =>
        Keeps.bind (Keeps.lift _) fun _ => Keeps.bind (Keeps.lift _) fun _ =>
        Keeps.bind (Keeps.raiseIf _ _) fun _ => InPlace.writeOutputs hk _ _ _ _ _ _

include hk hi in
theorem InPlace.buildProducer (σ : Snapshot) (p : Pdr) :
    Keeps (InPlace env gs) (World.buildProducer env σ p) := by
  refine Keeps.bind (Frame.getInputs _ _) fun _ => Keeps.bind (Keeps.lift _) fun _ =>
    Keeps.bind (Keeps.ghost fun s hs => ⟨hs.known, hs.linked⟩) fun _ =>
    Keeps.bind (Keeps.bind (Keeps.lift _) fun outs => ?_) fun _ =>
    InPlace.buildPartitions hk _ _ _ _ _
  refine Tri.keeps (Tri.bind (InPlace.readOutputs hi _ _) fun found => Tri.of_state fun s0 hs0 => ?_)
  have : Keeps (InPlace (D := D) env gs) (do
      World.linkOutputs σ found
      return found.flatMap fun (_, ps) => ps.map fun s => s.part.key) :=
    Keeps.bind (InPlace.linkOutputs hk σ hs0.2) fun _ => Keeps.pure _
  exact this.tri.conseq (fun s h => by rw [h]; exact hs0.1) (fun _ _ h => h) (fun _ h => h)

include hk hi in
theorem InPlace.buildOrder (σ : Snapshot) (l : List Nd) :
    Keeps (InPlace env gs) (World.buildOrder env σ l) := by
  induction l with
  | nil => exact Keeps.pure _
  | cons x l ih =>
    cases x with
    | art a => exact ih
    | pdr p => exact Keeps.bind (InPlace.buildProducer hk hi σ p) fun _ => ih

include hk hi in
theorem InPlace.build (σ : Snapshot) : Keeps (InPlace env gs) (World.build env σ) :=
  Keeps.bind (Keeps.lift _) fun _ => InPlace.buildOrder hk hi σ _

include hk in
theorem InPlace.fromGraph {g : Graph} (hg : gs g) : Keeps (InPlace env gs) (World.fromGraph env g) := by
  refine Keeps.bind (Keeps.gets _) fun files => Keeps.lift_bind fun x hx => ?_
  obtain ⟨fp, known⟩ := x
  have hsc := (scanNodes_spec _ _ _ _ _ hx (by simp [get?])).1
  have hnd := (scanNodes_spec _ _ _ _ _ hx (by simp [get?])).2.2.1 (by simp [keys])
  refine Keeps.bind (Keeps.ghost fun _ h => ⟨h.known, h.linked⟩) fun _ => Keeps.bind
    (Keeps.effect (fun _ h => ⟨h.known, h.linked⟩) (fun _ _ h => ⟨h.known, h.linked⟩)) fun _ =>
    Keeps.bind (Keeps.effect (fun _ h => ⟨h.known, h.linked⟩) (fun _ _ h => ⟨h.known, h.linked⟩))
    fun _ => Keeps.bind ?_ fun _ => Keeps.pure _
  have : ∀ l : PyDict Str (List (PSnap κ)), (∀ x ∈ l, ∃ a, g.keyOf a = some x.1 ∧
      ∀ sn ∈ x.2, At env a.info.sto sn) → Keeps (InPlace (D := D) env gs) (linkAll ⟨fp, g⟩ l) := by
    intro l
    induction l with
    | nil => exact fun _ => Keeps.pure _
    | cons x l ih =>
      intro h
      obtain ⟨k, ps⟩ := x
      obtain ⟨a, h1, h2⟩ := h (k, ps) (by simp)
      refine Keeps.need_bind fun b hb => ?_
      rw [Graph.artAt_of_keyOf (hk g hg) h1] at hb
      obtain rfl := Option.some.inj hb
      exact Keeps.bind (Keeps.bind (InPlace.writeArtifactPartitions a h2) fun _ =>
        InPlace.writeSnapshotPartitions (σ := ⟨fp, g⟩) hk h1 h2) fun _ =>
        ih fun x hx => h x (List.mem_cons_of_mem _ hx)
  refine this known fun x hx => ?_
  obtain ⟨i, h1, h2⟩ := hsc x.1 x.2 ((mem_iff_get? hnd).1 hx)
  exact ⟨.raw i, h1, discover_at h2⟩

include hk hi in
/-- Known and linked partitions are in place in every history. -/
theorem Reach.inPlace {s : St κ D} (h : Reach env gs s) : InPlace env gs s := by
  induction h with
  | init files b _ => exact ⟨by simp [get?], by simp [linksOf, get?]⟩
  | @step s op _ hv ih =>
    have hb : ∀ b, InPlace env gs { s with budget := b } := fun _ => ⟨ih.known, ih.linked⟩
    cases op with
    | put path c => exact ⟨ih.known, ih.linked⟩
    | del path => exact ⟨ih.known, ih.linked⟩
    | writeRaw g i d pk view b =>
      exact InPlace.write hk (σ := none) (by simp) d (.raw i) none pk view _ (hb b)
    | lookup a ifps =>
      exact (Tri.keeps ((InPlace.readArtifactPartitions hi a ifps).conseq (fun _ h => h)
        (fun _ _ h => h.1) (fun _ h => h))) _ (hb none)
    | snapshot g b => exact InPlace.fromGraph hk hv _ (hb b)
    | build g b =>
      exact (Keeps.bind (InPlace.fromGraph hk hv) fun σ => Keeps.bind (InPlace.build hk hi σ)
        fun _ => Keeps.pure _) _ (hb b)
    | rebuild σ b => exact InPlace.build hk hi σ _ (hb b)
    | tag σ name o =>
      exact (Keeps.bind (Keeps.gets _) fun _ => Keeps.bind (Keeps.raiseIf _ _) fun _ =>
        Keeps.effect (fun _ h => ⟨h.known, h.linked⟩) (fun _ _ h => ⟨h.known, h.linked⟩) :
        Keeps (InPlace env gs) (writeSnapshotTag σ name o)) _ (hb none)
    | restart keep => exact ⟨by simp [HOp.run, get?], by simp [HOp.run, linksOf, get?]⟩

end Arti.Spec
