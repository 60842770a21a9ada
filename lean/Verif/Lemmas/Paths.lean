import Verif.Spec.Resume
import Verif.Lemmas.Sound

/-! Building writes files only at the paths of produced artifacts. -/

namespace Arti.World
open PyDict M Spec
variable {κ D : Type} [DecidableEq κ] {env : Env κ D} {gs : Graph → Prop}
  {K : PyDict Str Str → Prop}

/-- The files are of some kind. -/
abbrev FilesAre (K : PyDict Str Str → Prop) (s : St κ D) : Prop := K s.files

omit [DecidableEq κ] in
theorem keeps_effect {f : St κ D → St κ D} (h : ∀ s, (f s).files = s.files) :
    Keeps (FilesAre K) (M.effect f) :=
  .effect (fun s hs => by unfold FilesAre; rw [h]; exact hs) fun _ _ h => h

theorem keeps_readArtifact (a : Art) (ifps : PyDict κ Fp) :
    Keeps (FilesAre K) (readArtifactPartitions env a ifps) := by
  refine Keeps.bind ?_ fun _ => Keeps.bind (Keeps.gets _) fun _ => Keeps.pure _
  refine Keeps.bind (Keeps.gets _) fun b => ?_
  split
  · exact Keeps.pure _
  · exact Keeps.bind (Keeps.gets _) fun _ => Keeps.bind (Keeps.lift _) fun _ =>
      keeps_effect fun _ => rfl

theorem keeps_readOutputs (ifps : PyDict κ Fp) (outs : List Art) :
    Keeps (FilesAre K) (readOutputs env ifps outs) := by
  induction outs with
  | nil => exact Keeps.pure _
  | cons a outs ih =>
    exact Keeps.bind (keeps_readArtifact a ifps) fun _ => Keeps.bind ih fun _ => Keeps.pure _

theorem keeps_linkOutputs (σ : Snapshot) (found : List (Art × List (PSnap κ))) :
    Keeps (FilesAre (κ := κ) (D := D) K) (linkOutputs σ found) := by
  induction found with
  | nil => exact Keeps.pure _
  | cons x found ih =>
    exact Keeps.bind (Keeps.need _ _) fun _ => Keeps.bind (keeps_effect fun _ => rfl) fun _ => ih

theorem keeps_discover (σ : Snapshot) (p : Pdr) (ifps : PyDict κ Fp) :
    Keeps (FilesAre K) (discoverProducerPartitions env σ p ifps) :=
  Keeps.bind (Keeps.lift _) fun _ => Keeps.bind (keeps_readOutputs _ _) fun _ =>
    Keeps.bind (keeps_linkOutputs _ _) fun _ => Keeps.pure _

omit [DecidableEq κ] in
theorem Keeps.lift_bind {α β : Type} {P : St κ D → Prop} {x : Except Err α} {f : α → M κ D β}
    (h : ∀ a, x = .ok a → Keeps P (f a)) : Keeps P (M.lift x >>= f) := by
  intro s hs
  rw [run_bind, run_lift]
  cases x with
  | ok a => exact h a rfl s hs
  | error e => exact hs

omit [DecidableEq κ] in
theorem Keeps.need_bind {α β : Type} {P : St κ D → Prop} {x : Option α} {e : Err}
    {f : α → M κ D β} (h : ∀ a, x = some a → Keeps P (f a)) : Keeps P (M.need x e >>= f) := by
  intro s hs
  rw [run_bind]
  cases x with
  | some a => exact h a rfl s hs
  | none => exact hs

theorem keeps_write (hK : ∀ files path c, K files → ProducedPath env gs path →
    K (PyDict.set files path c)) {i : ArtInfo} {p : Pdr} {pos : Nat} (hm : Made gs i p pos)
    (g : Graph) (σ : Option Snapshot) (d : D) (fp : Fp) (pk : κ) (view : Nat) :
    Keeps (FilesAre K) (write env g σ d (.made i p pos) (some fp) pk view) := by
  refine Keeps.bind (Keeps.need _ _) fun _ => Keeps.bind (Keeps.raiseIf _ _) fun _ =>
    Keeps.lift_bind fun part hg => ?_
  refine Keeps.bind ?_ fun _ => Keeps.bind (keeps_effect fun _ => rfl) fun _ => Keeps.bind ?_
    fun _ => Keeps.pure _
  · unfold ioWrite
    split
    · rename_i path hl
      exact Keeps.bind (Keeps.lift _) fun _ => Keeps.bind
        (Keeps.effect (fun s hs => hK _ _ _ hs ⟨i, p, pos, fp, pk, part, hm, hg, hl⟩)
          fun _ _ h => h) fun _ => Keeps.bind (Keeps.gets _) fun _ => Keeps.lift _
    · exact Keeps.bind (Keeps.raiseIf _ _) fun _ => Keeps.bind (Keeps.lift _) fun _ => Keeps.lift _
  · cases σ with
    | none => exact Keeps.pure _
    | some σ => exact keeps_effect fun _ => rfl

theorem keeps_writeOutputs (hK : ∀ files path c, K files → ProducedPath env gs path →
    K (PyDict.set files path c)) {σ : Snapshot} (hg : gs σ.graph) (p : Pdr) (fp : Fp) (pk : κ)
    (n : Nat) (l : List D) : Keeps (FilesAre K) (writeOutputs env σ p fp pk n l) := by
  induction l generalizing n with
  | nil => exact Keeps.pure _
  | cons d l ih =>
    refine Keeps.lift_bind fun arts ha => Keeps.need_bind fun a hn => ?_
    obtain ⟨k, i, pos, rfl, hm⟩ := Graph.mem_producerOutputs ha (List.mem_of_getElem? hn)
    exact Keeps.bind (Keeps.need _ _) fun _ =>
      Keeps.bind (keeps_write hK ⟨_, hg, k, hm⟩ _ _ _ _ _ _) fun _ => ih _

theorem keeps_buildPartitions (hK : ∀ files path c, K files → ProducedPath env gs path →
    K (PyDict.set files path c)) {σ : Snapshot} (hg : gs σ.graph) (p : Pdr) (ex : List κ)
    (ifps : PyDict κ Fp) (deps : List (κ × List (Str × List (PSnap κ)))) :
    Keeps (FilesAre K) (buildPartitions env σ p ex ifps deps) := by
  induction deps with
  | nil => exact Keeps.pure _
  | cons x deps ih =>
    refine Keeps.bind (Keeps.need _ _) fun _ => Keeps.bind ?_ fun _ => ih
    unfold buildPartition
    split
    · exact Keeps.pure _
    · exact Keeps.bind (Keeps.gets _) fun _ => Keeps.bind (Keeps.lift _) fun _ =>
        Keeps.bind (Keeps.ghost fun s hs => hs) fun _ => Keeps.bind (Keeps.lift _) fun _ =>
        Keeps.bind (Keeps.lift _) fun _ => Keeps.bind (Keeps.raiseIf _ _) fun _ =>
        keeps_writeOutputs hK hg _ _ _ _ _

theorem keeps_buildOrder (hK : ∀ files path c, K files → ProducedPath env gs path →
    K (PyDict.set files path c)) {σ : Snapshot} (hg : gs σ.graph) (l : List Nd) :
    Keeps (FilesAre K) (buildOrder env σ l) := by
  induction l with
  | nil => exact Keeps.pure _
  | cons x l ih =>
    cases x with
    | art a => exact ih
    | pdr p =>
      refine Keeps.bind ?_ fun _ => ih
      exact Keeps.bind (Frame.getInputs _ _) fun _ => Keeps.bind (Keeps.lift _) fun _ =>
        Keeps.bind (Keeps.ghost fun _ h => h) fun _ => Keeps.bind (keeps_discover _ _ _) fun _ =>
        keeps_buildPartitions hK hg _ _ _ _

theorem keeps_build (hK : ∀ files path c, K files → ProducedPath env gs path →
    K (PyDict.set files path c)) {σ : Snapshot} (hg : gs σ.graph) :
    Keeps (FilesAre K) (build env σ) :=
  Keeps.bind (Keeps.lift _) fun _ => keeps_buildOrder hK hg _

theorem keeps_linkAll (σ : Snapshot) (known : PyDict Str (List (PSnap κ))) :
    Keeps (FilesAre (κ := κ) (D := D) K) (linkAll σ known) := by
  induction known with
  | nil => exact Keeps.pure _
  | cons x known ih =>
    exact Keeps.bind (Keeps.need _ _) fun _ => Keeps.bind (Keeps.bind (keeps_effect fun _ => rfl)
      fun _ => keeps_effect fun _ => rfl) fun _ => ih

theorem keeps_fromGraph (g : Graph) : Keeps (FilesAre K) (fromGraph env g) :=
  Keeps.bind (Keeps.gets _) fun _ => Keeps.bind (Keeps.lift _) fun _ =>
    Keeps.bind (Keeps.ghost fun _ h => h) fun _ => Keeps.bind (keeps_effect fun _ => rfl) fun _ =>
    Keeps.bind (keeps_effect fun _ => rfl) fun _ => Keeps.bind (keeps_linkAll _ _) fun _ =>
    Keeps.pure _

/-- Nothing interrupts the process. -/
def Free (s : St κ D) : Prop := s.budget = none

omit [DecidableEq κ] in
theorem free_effect {f : St κ D → St κ D} (h : ∀ s, (f s).budget = s.budget) :
    Keeps Free (M.effect f) := by
  intro s hs
  unfold Free at hs
  unfold M.effect Free
  rw [hs]
  exact (h s).trans hs

theorem free_linkAll (σ : Snapshot) (known : PyDict Str (List (PSnap κ))) :
    Keeps (Free (κ := κ) (D := D)) (linkAll σ known) := by
  induction known with
  | nil => exact Keeps.pure _
  | cons x known ih =>
    exact Keeps.bind (Keeps.need _ _) fun _ => Keeps.bind (Keeps.bind (free_effect fun _ => rfl)
      fun _ => free_effect fun _ => rfl) fun _ => ih

theorem free_fromGraph (g : Graph) : Keeps Free (fromGraph env g) :=
  Keeps.bind (Keeps.gets _) fun _ => Keeps.bind (Keeps.lift _) fun _ =>
    Keeps.bind (Keeps.ghost fun _ h => h) fun _ => Keeps.bind (free_effect fun _ => rfl) fun _ =>
    Keeps.bind (free_effect fun _ => rfl) fun _ => Keeps.bind (free_linkAll _ _) fun _ =>
    Keeps.pure _

theorem fromGraph_graph {g : Graph} {s s' : St κ D} {σ : Snapshot}
    (h : fromGraph env g s = (.ok σ, s')) : σ.graph = g := by
  have tri : Tri (fun _ => True) (fromGraph env g) (fun σ _ => σ.graph = g) (fun _ => True) := by
    refine Tri.gets_bind fun _ _ => Tri.lift_bind (fun x _ => ?_) fun _ _ => trivial
    refine Tri.bind (Q := fun _ _ => True) (Tri.ghost fun _ _ => trivial) fun _ => ?_
    refine Tri.bind (Q := fun _ _ => True) (fun s _ => by split <;> trivial) fun _ => ?_
    refine Tri.bind (Q := fun _ _ => True) (fun s _ => by split <;> trivial) fun _ => ?_
    refine Tri.bind (Q := fun _ _ => True) (fun s _ => by split <;> trivial) fun _ => ?_
    exact Tri.pure fun _ _ => rfl
  exact tri.ok trivial h

theorem keeps_graphBuild (hK : ∀ files path c, K files → ProducedPath env gs path →
    K (PyDict.set files path c)) {g : Graph} (hg : gs g) :
    Keeps (FilesAre K) (graphBuild env g) := by
  intro s hs
  have h1 := keeps_fromGraph (env := env) (K := K) g s hs
  unfold graphBuild
  rw [run_bind]
  revert h1
  cases hf : fromGraph env g s with
  | mk r s1 =>
    intro h1
    cases r with
    | error e => exact h1
    | ok σ =>
      have hσ : σ.graph = g := fromGraph_graph hf
      exact (Keeps.bind (keeps_build hK (hσ ▸ hg)) fun _ => Keeps.pure _) s1 h1

end Arti.World

namespace Arti.Spec
open PyDict M World
variable {κ D : Type} [DecidableEq κ] {env : Env κ D} {gs : Graph → Prop}

theorem Adds.refl (files : PyDict Str Str) : Adds env gs files files := ⟨fun _ _ => id, fun _ => .inl⟩

theorem Adds.trans {f1 f2 f3 : PyDict Str Str} (h : Adds env gs f1 f2) (h' : Adds env gs f2 f3) :
    Adds env gs f1 f3 :=
  ⟨fun p c hp => h'.old p c (h.old p c hp), fun p hp => by
    rcases h'.new p hp with h1 | h1
    · exact h.new p h1
    · exact .inr h1⟩

/-- Only produced files are new. -/
theorem adds_kind (files0 : PyDict Str Str) : ∀ (files : PyDict Str Str) path (c : Str),
    (∀ path, get? files path ≠ none → get? files0 path ≠ none ∨ ProducedPath env gs path) →
    ProducedPath env gs path → ∀ path', get? (PyDict.set files path c) path' ≠ none →
      get? files0 path' ≠ none ∨ ProducedPath env gs path' := by
  intro files path c h hp path' hne
  rw [get?_set] at hne
  split at hne
  · rename_i he; exact .inr (he ▸ hp)
  · exact h path' hne

/-- Events that leave the raw data alone only add produced files. -/
theorem HOp.quiet_adds (hd : Disciplined env gs) {s : St κ D} (hs : Reach env gs s) {op : HOp κ D} (hv : op.Valid env gs s) (hq : op.Quiet)
    (hn : NoClash env gs (op.run env s).invs) (hu : SnapUnique (op.run env s).raws) :
    Adds env gs s.files (op.run env s).files := by
  obtain ⟨hi, hr⟩ := HOp.run_logs (env := env) op s
  obtain ⟨hw, hl⟩ := hs.sound hd (hn.mono hi) (hu.sub hr) hi
  have hj : ∀ b, J (LinkLog (op.run env s).invs) env gs { s with budget := b } { s with budget := b } := fun b =>
    ⟨⟨hw.files, hw.store⟩, ⟨hl.nodup, hl.ok⟩, Ext.refl _⟩
  have same : ∀ files, files = s.files → Adds env gs s.files files := by
    rintro _ rfl; exact Adds.refl _
  have hk := adds_kind (env := env) (gs := gs) s.files
  cases op with
  | put path c => exact hq.elim
  | del path => exact hq.elim
  | writeRaw g i d pk view b => exact hq.elim
  | lookup a ifps => exact same _ (keeps_readArtifact (env := env) (K := (· = s.files)) a ifps _ rfl)
  | snapshot g b => exact same _ (keeps_fromGraph (env := env) (K := (· = s.files)) g _ rfl)
  | build g b =>
    refine ⟨?_, keeps_graphBuild (env := env) hk hv { s with budget := b } (fun _ => .inl)⟩
    have := graphBuild_sound hd hv (hj b).w (hj b).l
      (show graphBuild env g { s with budget := b } = (_, _) from rfl) hn hu (fun _ => id)
    exact this.2.2.1
  | rebuild σ b =>
    obtain ⟨hg, r, hr', hraw⟩ := hv
    refine ⟨?_, keeps_build (env := env) hk hg { s with budget := b } (fun _ => .inl)⟩
    have hus : SnapUnique s.raws := hu.sub hr
    have := build_sound hd hg (hj b).w (hj b).l hr' hus
      (fun k i hm => hraw k i hm)
      (show World.build env σ { s with budget := b } = (_, _) from rfl) hn (fun _ => id)
    exact this.2.2.1.files
  | tag σ name o =>
    refine same _ ?_
    have : Keeps (FilesAre (κ := κ) (D := D) (· = s.files)) (writeSnapshotTag σ name o) :=
      Keeps.bind (Keeps.gets _) fun _ => Keeps.bind (Keeps.raiseIf _ _) fun _ =>
        keeps_effect fun _ => rfl
    exact this _ rfl
  | restart keep =>
    refine same _ ?_
    simp only [HOp.run]
    exact List.filter_eq_self.2 fun x _ => hq x.1

theorem runOps_logs (ops : List (HOp κ D)) (s : St κ D) :
    (∀ e ∈ s.invs, e ∈ (runOps env s ops).invs) ∧ ∀ x ∈ s.raws, x ∈ (runOps env s ops).raws := by
  induction ops generalizing s with
  | nil => exact ⟨fun _ => id, fun _ => id⟩
  | cons op ops ih =>
    obtain ⟨h1, h2⟩ := HOp.run_logs (env := env) op s
    obtain ⟨h3, h4⟩ := ih (op.run env s)
    exact ⟨fun e he => h3 e (h1 e he), fun x hx => h4 x (h2 x hx)⟩

theorem quiet_adds (hd : Disciplined env gs) (ops : List (HOp κ D)) : ∀ {s : St κ D}, Reach env gs s → ValidOps env gs s ops →
    (∀ op ∈ ops, op.Quiet) → NoClash env gs (runOps env s ops).invs →
    SnapUnique (runOps env s ops).raws → Adds env gs s.files (runOps env s ops).files := by
  induction ops with
  | nil => intro s _ _ _ _ _; exact Adds.refl _
  | cons op ops ih =>
    intro s hs hv hq hn hu
    obtain ⟨h1, h2⟩ := runOps_logs (env := env) ops (op.run env s)
    exact (HOp.quiet_adds hd hs hv.1 (hq op (by simp)) (hn.mono h1) (hu.sub h2)).trans
      (ih (.step op hs hv.1) hv.2 (fun o ho => hq o (List.mem_cons_of_mem _ ho)) hn hu)

end Arti.Spec
