import Verif.Spec.Par
import Verif.Lemmas.Sound

/-! Programs alone, and programs among others. -/

namespace Arti
open PyDict

namespace Prog
variable {κ D α β : Type}

theorem run_atom (m : M κ D α) : (atom m).run = m := by
  funext s; rfl

theorem run_lift (x : Except Err α) : (lift x : Prog κ D α).run = M.lift x := by
  funext s; rfl

theorem run_need (x : Option α) (e : Err) : (need x e : Prog κ D α).run = M.need x e := by
  funext s; cases x <;> rfl

theorem run_raiseIf (b : Bool) (e : Err) : (raiseIf b e : Prog κ D Unit).run = M.raiseIf b e := by
  funext s; cases b <;> rfl

theorem run_pure (a : α) : (pure a : Prog κ D α).run = pure a := by
  funext s; rfl

theorem run_bind (p : Prog κ D α) (g : α → Prog κ D β) :
    (p >>= g).run = p.run >>= fun a => (g a).run := by
  funext s
  show (Prog.bind p g).run s = _
  induction p generalizing s with
  | ret r =>
    cases r with
    | ok a => rfl
    | error e => rfl
  | act f k ih =>
    simp only [Prog.bind, run, ih]
    rfl

end Prog

namespace Par
variable {κ D : Type} [DecidableEq κ] (env : Env κ D)
open Prog

/-- Look at the files. -/
def look {α : Type} (f : PyDict Str Str → Except Err α) : M κ D α := do
  let files ← M.gets fun s => s.files
  M.lift (f files)

omit [DecidableEq κ] in
theorem run_look {α : Type} (f : PyDict Str Str → Except Err α) (s : St κ D) :
    look f s = (f s.files, s) := rfl

theorem ebind_ok {α β : Type} (a : α) (f : α → Except Err β) : (Except.ok a >>= f) = f a := rfl

theorem run_snap (p : Prt κ) :
    (snap (D := D) env p).run = look fun F => World.snap env F p := by
  funext s
  simp only [snap, content, run_bind, run_atom, run_need, run_pure, run_look, M.run_bind, M.run_gets]
  unfold World.snap
  cases World.content s.files p.loc <;> rfl

theorem run_snapAll (sto : Sto) (l : List (Option Fp × κ)) :
    (snapAll (D := D) env sto l).run = look fun F => World.snapAll env F sto l := by
  induction l with
  | nil => rfl
  | cons x l ih =>
    obtain ⟨fp, pk⟩ := x
    funext s
    simp only [snapAll, run_bind, run_lift, run_snap, ih, run_pure, run_look, M.run_bind, M.run_lift,
      World.snapAll]
    cases World.generate env sto fp pk with
    | error e => rfl
    | ok p =>
      simp only [ebind_ok, run_look, M.run_bind]
      cases World.snap env s.files p with
      | error e => rfl
      | ok sn =>
        simp only [ebind_ok, run_look, M.run_bind]
        cases World.snapAll env s.files sto l <;> rfl

theorem run_discover (sto : Sto) (ifps : PyDict κ Fp) :
    (discover (D := D) env sto ifps).run = look fun F => World.discover env F sto ifps := by
  funext s
  cases sto with
  | file t =>
    simp only [discover, World.discover, run_bind, run_atom, run_lift, run_snapAll, run_look, M.run_bind,
      M.run_gets, M.run_lift]
    cases env.scan t (keys s.files) <;> rfl
  | lit t v =>
    simp only [discover, World.discover]
    split
    · rfl
    · split
      · rfl
      · split
        · rfl
        · rw [run_snapAll]

theorem run_warm (a : Art) (ifps : PyDict κ Fp) :
    (warm (D := D) env a ifps).run = World.warm env a ifps := by
  funext s
  simp only [warm, World.warm, run_bind, run_atom, run_look, M.run_bind, M.run_gets]
  split
  · rfl
  · simp only [run_bind, run_discover, run_atom, run_look, M.run_bind, M.run_gets, M.run_lift]

theorem run_readArtifactPartitions (a : Art) (ifps : PyDict κ Fp) :
    (readArtifactPartitions (D := D) env a ifps).run = World.readArtifactPartitions env a ifps := by
  simp only [readArtifactPartitions, World.readArtifactPartitions, run_bind, run_warm, run_atom,
    run_pure]

theorem run_contents (ss : List (PSnap κ)) :
    (contents (D := D) ss).run = look fun F => World.contents F ss := by
  induction ss with
  | nil => rfl
  | cons x ss ih =>
    funext s
    simp only [contents, content, run_bind, run_atom, run_need, run_pure, ih, run_look, M.run_bind,
      M.run_gets, World.contents]
    cases World.content s.files x.part.loc with
    | none => rfl
    | some c =>
      simp only [M.need, ebind_ok, run_look, M.run_bind]
      cases World.contents s.files ss <;> rfl

theorem run_ioRead (i : ArtInfo) (view : Nat) (ss : List (PSnap κ)) :
    (ioRead env i view ss).run = look fun F => World.ioRead env F i view ss := by
  funext s
  simp only [ioRead, World.ioRead]
  split
  · rfl
  · split
    · rfl
    · simp only [run_bind, run_contents, run_lift, run_look, M.run_bind]
      cases World.contents s.files ss <;> rfl

theorem run_readArgs (inputs : List (Str × Art)) (deps : List (Str × List (PSnap κ)))
    (l : List (Str × Nat)) :
    (readArgs env inputs deps l).run = look fun F => World.readArgs env F inputs deps l := by
  induction l with
  | nil => rfl
  | cons x l ih =>
    obtain ⟨n, v⟩ := x
    funext s
    simp only [readArgs, World.readArgs, run_bind, run_need, run_ioRead, run_pure, ih, run_look, M.run_bind]
    cases get? inputs n with
    | none => rfl
    | some a =>
      cases get? deps n with
      | none => rfl
      | some ss =>
        simp only [M.need, ebind_ok, run_look, M.run_bind]
        cases World.ioRead env s.files a.info v ss with
        | error e => rfl
        | ok d =>
          simp only [ebind_ok, run_look, M.run_bind]
          cases World.readArgs env s.files inputs deps l <;> rfl

theorem run_ioWrite (i : ArtInfo) (view : Nat) (d : D) (p : Prt κ) :
    (ioWrite env .whole i view d p).run = World.ioWrite env i view d p := by
  unfold ioWrite World.ioWrite
  cases p.loc with
  | file path =>
    simp only [run_bind, run_lift, writeFile, run_atom, run_snap]
    rfl
  | lit id v => simp only [run_bind, run_raiseIf, run_lift]

theorem run_write (g : Graph) (σ : Option Snapshot) (d : D) (a : Art) (fp : Option Fp) (pk : κ)
    (view : Nat) : (write env .whole g σ d a fp pk view).run =
      World.write env g σ d a fp pk view := by
  simp only [write, World.write, run_bind, run_need, run_raiseIf, run_lift, run_ioWrite, run_atom,
    run_pure]

theorem run_scanNodes (g : Graph) (nodes : List Nd) (fp : Fp)
    (known : PyDict Str (List (PSnap κ))) :
    (scanNodes (D := D) env g nodes fp known).run =
      look fun F => World.scanNodes env F g nodes fp known := by
  induction nodes generalizing fp known with
  | nil => rfl
  | cons n rest ih =>
    funext s
    simp only [scanNodes, World.scanNodes, run_bind, run_lift, run_look, M.run_bind, M.run_lift]
    cases fpCombine fp [env.nodeFp n] with
    | error e => rfl
    | ok fp1 =>
      simp only [ebind_ok, run_look, M.run_bind]
      cases n with
      | pdr p => simp only [ih]; rfl
      | art a =>
        simp only [run_bind, run_need, run_look, M.run_bind]
        cases g.keyOf a with
        | none => rfl
        | some key =>
          simp only [M.need, run_lift, M.run_lift, ebind_ok, run_look, M.run_bind]
          cases fpCombine fp1 [env.strHash key] with
          | error e => rfl
          | ok fp2 =>
            simp only [ebind_ok, run_look, M.run_bind]
            cases a.out with
            | some x => simp only [ih]; rfl
            | none =>
              simp only [run_bind, run_discover, run_look, M.run_bind]
              cases World.discover env s.files a.info.sto [] with
              | error e => rfl
              | ok ps =>
                simp only [ebind_ok, run_look, M.run_bind]
                split
                · rfl
                · simp only [run_bind, run_lift, run_look, M.run_bind, M.run_lift]
                  cases fpCombine fp2 (ps.map env.snapFp) with
                  | error e => rfl
                  | ok fp3 => simp only [ih]; rfl

theorem run_fromGraph (g : Graph) : (fromGraph (D := D) env g).run = World.fromGraph env g := by
  funext s
  simp only [fromGraph, World.fromGraph, run_bind, run_scanNodes, run_atom, run_pure, run_look, M.run_bind,
    M.run_gets, M.run_lift]
  cases World.scanNodes env s.files g (keys g.dependencies) (env.graphFp g) [] <;> rfl

theorem run_readOutputs (ifps : PyDict κ Fp) (outs : List Art) :
    (readOutputs (D := D) env ifps outs).run = World.readOutputs env ifps outs := by
  induction outs with
  | nil => rfl
  | cons a outs ih =>
    simp only [readOutputs, World.readOutputs, run_bind, run_readArtifactPartitions, ih, run_pure]

theorem run_discoverProducerPartitions (σ : Snapshot) (p : Pdr) (ifps : PyDict κ Fp) :
    (discoverProducerPartitions (D := D) env σ p ifps).run =
      World.discoverProducerPartitions env σ p ifps := by
  simp only [discoverProducerPartitions, World.discoverProducerPartitions, run_bind, run_lift,
    run_readOutputs, run_atom, run_pure]

theorem run_writeOutputs (σ : Snapshot) (p : Pdr) (fp : Fp) (pk : κ) (n : Nat) (l : List D) :
    (writeOutputs env .whole σ p fp pk n l).run = World.writeOutputs env σ p fp pk n l := by
  induction l generalizing n with
  | nil => rfl
  | cons d l ih =>
    simp only [writeOutputs, World.writeOutputs, run_bind, run_lift, run_need, run_write, ih]

theorem run_buildPartition (σ : Snapshot) (p : Pdr) (existing : List κ) (fp : Fp)
    (deps : List (Str × List (PSnap κ))) (pk : κ) :
    (buildPartition env .whole σ p existing fp deps pk).run =
      World.buildPartition env σ p existing fp deps pk := by
  unfold buildPartition World.buildPartition
  split
  · rfl
  · simp only [run_bind, run_readArgs, run_atom, run_lift, run_raiseIf, run_writeOutputs]
    rfl

theorem run_buildPartitions (σ : Snapshot) (p : Pdr) (existing : List κ) (ifps : PyDict κ Fp)
    (l : List (κ × List (Str × List (PSnap κ)))) :
    (buildPartitions env .whole σ p existing ifps l).run =
      World.buildPartitions env σ p existing ifps l := by
  induction l with
  | nil => rfl
  | cons x l ih =>
    obtain ⟨pk, d⟩ := x
    simp only [buildPartitions, World.buildPartitions, run_bind, run_need, run_buildPartition, ih]

theorem run_buildProducer (σ : Snapshot) (p : Pdr) :
    (buildProducer env .whole σ p).run = World.buildProducer env σ p := by
  simp only [buildProducer, World.buildProducer, run_bind, run_atom, run_lift,
    run_discoverProducerPartitions, run_buildPartitions]

theorem run_buildOrder (σ : Snapshot) (l : List Nd) :
    (buildOrder env .whole σ l).run = World.buildOrder env σ l := by
  induction l with
  | nil => rfl
  | cons n l ih =>
    cases n with
    | art a => exact ih
    | pdr p => simp only [buildOrder, World.buildOrder, run_bind, run_buildProducer, ih]

/-- A process that is alone does what the sequential model says. -/
theorem run_graphBuild (g : Graph) : (graphBuild env .whole g).run = World.graphBuild env g := by
  simp only [graphBuild, World.graphBuild, build, World.build, run_bind, run_fromGraph, run_lift,
    run_buildOrder, run_pure]

end Par
end Arti
