import Verif.Lemmas.Paths
import Verif.Lemmas.Store

/-! Each file that a successful build writes is the file of a partition that it links. -/

namespace Arti.World
open PyDict M Spec
variable {κ D : Type} [DecidableEq κ] {env : Env κ D}

/-- Each file is an old one or the file of a linked partition. -/
def Written (σ : Snapshot) (files0 : PyDict Str Str) (s : St κ D) : Prop :=
  ∀ path, get? s.files path ≠ none → get? files0 path ≠ none ∨
    ∃ a key sn, σ.graph.keyOf a = some key ∧ sn ∈ linksOf s σ key ∧ sn.part.loc = .file path

variable {σ : Snapshot} {files0 : PyDict Str Str}

omit [DecidableEq κ] in
theorem Written.of {s s' : St κ D} (h : Written σ files0 s) (hf : s'.files = s.files)
    (hl : ∀ key sn, sn ∈ linksOf s σ key → sn ∈ linksOf s' σ key) : Written σ files0 s' := by
  intro path hp
  rw [hf] at hp
  rcases h path hp with h1 | ⟨a, key, sn, h1, h2, h3⟩
  · exact .inl h1
  · exact .inr ⟨a, key, sn, h1, hl key sn h2, h3⟩

omit [DecidableEq κ] in
theorem written_effect {f : St κ D → St κ D} (hf : ∀ s, (f s).files = s.files)
    (hl : ∀ s key sn, sn ∈ linksOf s σ key → sn ∈ linksOf (f s) σ key) :
    Keeps (Written σ files0) (M.effect f) :=
  .effect (fun s hs => hs.of (hf s) (hl s)) fun _ _ h => h

theorem linksOf_link (s : St κ D) (k : Str) (ps : List (PSnap κ)) (key : Str) (sn : PSnap κ)
    (h : sn ∈ linksOf s σ key) : sn ∈ linksOf (addLinks s σ k ps) σ key := by
  by_cases hk : k = key
  · subst hk; exact (linksOf_addLinks s σ k ps sn).2 (.inl h)
  · unfold linksOf at *
    simp only [addLinks, get?_set]
    rw [if_neg (by simp only [Prod.mk.injEq, true_and]; exact hk)]
    exact h

theorem written_readArtifact (a : Art) (ifps : PyDict κ Fp) :
    Keeps (Written σ files0) (readArtifactPartitions env a ifps) := by
  refine Keeps.bind ?_ fun _ => Keeps.bind (Keeps.gets _) fun _ => Keeps.pure _
  refine Keeps.bind (Keeps.gets _) fun b => ?_
  split
  · exact Keeps.pure _
  · exact Keeps.bind (Keeps.gets _) fun _ => Keeps.bind (Keeps.lift _) fun _ =>
      written_effect (fun _ => rfl) fun _ _ _ h => h

theorem written_readOutputs (ifps : PyDict κ Fp) (outs : List Art) :
    Keeps (Written σ files0) (readOutputs env ifps outs) := by
  induction outs with
  | nil => exact Keeps.pure _
  | cons a outs ih =>
    exact Keeps.bind (written_readArtifact a ifps) fun _ => Keeps.bind ih fun _ => Keeps.pure _

theorem written_linkOutputs (found : List (Art × List (PSnap κ))) :
    Keeps (Written (κ := κ) (D := D) σ files0) (linkOutputs σ found) := by
  induction found with
  | nil => exact Keeps.pure _
  | cons x found ih =>
    exact Keeps.bind (Keeps.need _ _) fun k => Keeps.bind
      (written_effect (fun _ => rfl) fun s => linksOf_link s k x.2) fun _ => ih

theorem written_discover (p : Pdr) (ifps : PyDict κ Fp) :
    Keeps (Written σ files0) (discoverProducerPartitions env σ p ifps) :=
  Keeps.bind (Keeps.lift _) fun _ => Keeps.bind (written_readOutputs _ _) fun _ =>
    Keeps.bind (written_linkOutputs _) fun _ => Keeps.pure _

/-- `P` is kept unless something is raised. -/
abbrev Okay {α : Type} (P : St κ D → Prop) (m : M κ D α) : Prop :=
  Tri P m (fun _ => P) fun _ => True

theorem Okay.of {α : Type} {P : St κ D → Prop} {m : M κ D α} (h : Keeps P m) : Okay P m :=
  h.tri.conseq (fun _ h => h) (fun _ _ h => h) fun _ _ => trivial

theorem okay_write (a : Art) (d : D) (fp : Option Fp) (pk : κ) (view : Nat) :
    Okay (Written σ files0) (write env σ.graph (some σ) d a fp pk view) := by
  refine Tri.need_bind (fun key hk => ?_) fun _ _ => trivial
  refine Tri.raiseIf_bind (fun _ => ?_) fun _ _ => trivial
  refine Tri.lift_bind (fun part hp => ?_) fun _ _ => trivial
  refine Tri.bind (Q := fun sn s => ∀ path, get? s.files path ≠ none → (get? files0 path ≠ none ∨
    ∃ a key sn, σ.graph.keyOf a = some key ∧ sn ∈ linksOf s σ key ∧ sn.part.loc = .file path) ∨
    sn.part.loc = .file path) ?_ fun sn => ?_
  · unfold ioWrite
    cases hl : part.loc with
    | file path0 =>
      simp only
      refine Tri.lift_bind (fun c _ => ?_) fun _ _ => trivial
      refine Tri.bind (Q := fun _ s => ∀ path, get? s.files path ≠ none → (get? files0 path ≠ none ∨
        ∃ a key sn, σ.graph.keyOf a = some key ∧ sn ∈ linksOf s σ key ∧
          sn.part.loc = .file path) ∨ path = path0)
        (Tri.effect ?_ (fun _ _ h => h) fun _ _ => trivial) fun _ => ?_
      · intro s hs path hpath
        simp only [get?_set] at hpath
        split at hpath
        · rename_i he; exact .inr he.symm
        · exact .inl (hs path hpath)
      · refine Tri.gets_bind fun s1 hs1 => Tri.lift (fun sn s hsn hs => ?_) fun _ _ => trivial
        subst hs
        have : sn.part = part := by
          unfold snap at hsn
          split at hsn
          · simp only [Except.ok.injEq] at hsn; rw [← hsn]
          · simp at hsn
        intro path hpath
        rcases hs1 path hpath with h | rfl
        · exact .inl h
        · exact .inr (by rw [this, hl])
    | lit id v =>
      simp only
      refine Tri.raiseIf_bind (fun _ => ?_) fun _ _ => trivial
      refine Tri.lift_bind (fun c _ => ?_) fun _ _ => trivial
      exact Tri.lift (fun sn s _ hs path hpath => .inl (hs path hpath)) fun _ _ => trivial
  · refine Tri.bind (Q := fun _ s => ∀ path, get? s.files path ≠ none → (get? files0 path ≠ none ∨
      ∃ a key sn, σ.graph.keyOf a = some key ∧ sn ∈ linksOf s σ key ∧ sn.part.loc = .file path) ∨
      sn.part.loc = .file path) (Tri.effect (fun s hs => ?_) (fun _ _ h => h) fun _ _ => trivial)
      fun _ => ?_
    · exact hs
    · refine Tri.bind (Q := fun _ => Written σ files0)
        (Tri.effect (fun s hs => ?_) (fun _ _ h => h) fun _ _ => trivial)
        fun _ => Tri.pure fun _ h => h
      intro path hpath
      rcases hs path hpath with (h | ⟨a', key', sn', h1, h2, h3⟩) | h
      · exact .inl h
      · exact .inr ⟨a', key', sn', h1, linksOf_link s key [sn] key' sn' h2, h3⟩
      · exact .inr ⟨a, key, sn, hk, (linksOf_addLinks s σ key [sn] sn).2 (.inr (by simp)), h⟩

theorem okay_writeOutputs (p : Pdr) (fp : Fp) (pk : κ) (n : Nat) (l : List D) :
    Okay (Written σ files0) (writeOutputs env σ p fp pk n l) := by
  induction l generalizing n with
  | nil => exact Okay.of (Keeps.pure _)
  | cons d l ih =>
    exact Tri.bind (Okay.of (Keeps.lift _)) fun _ => Tri.bind (Okay.of (Keeps.need _ _)) fun _ =>
      Tri.bind (Okay.of (Keeps.need _ _)) fun _ => Tri.bind (okay_write _ _ _ _ _) fun _ => ih _

theorem okay_buildPartitions (p : Pdr) (ex : List κ) (ifps : PyDict κ Fp)
    (deps : List (κ × List (Str × List (PSnap κ)))) :
    Okay (Written σ files0) (buildPartitions env σ p ex ifps deps) := by
  induction deps with
  | nil => exact Okay.of (Keeps.pure _)
  | cons x deps ih =>
    refine Tri.bind (Okay.of (Keeps.need _ _)) fun _ => Tri.bind ?_ fun _ => ih
    unfold buildPartition
    split
    · exact Okay.of (Keeps.pure _)
    · exact Tri.bind (Okay.of (Keeps.gets _)) fun _ => Tri.bind (Okay.of (Keeps.lift _)) fun _ =>
        Tri.bind (Okay.of (Keeps.ghost fun s hs => hs)) fun _ => Tri.bind (Okay.of (Keeps.lift _)) fun _ =>
        Tri.bind (Okay.of (Keeps.lift _)) fun _ => Tri.bind (Okay.of (Keeps.raiseIf _ _)) fun _ =>
        okay_writeOutputs _ _ _ _ _

/-- After a successful build, each file is an old one or the file of a partition that the snapshot
links. -/
theorem okay_buildOrder (l : List Nd) : Okay (Written σ files0) (buildOrder env σ l) := by
  induction l with
  | nil => exact Okay.of (Keeps.pure _)
  | cons x l ih =>
    cases x with
    | art a => exact ih
    | pdr p =>
      refine Tri.bind ?_ fun _ => ih
      exact Tri.bind (Okay.of (Frame.getInputs _ _)) fun _ => Tri.bind (Okay.of (Keeps.lift _)) fun _ =>
        Tri.bind (Okay.of (Keeps.ghost fun _ h => h)) fun _ =>
        Tri.bind (Okay.of (written_discover _ _)) fun _ => okay_buildPartitions _ _ _ _

end Arti.World
