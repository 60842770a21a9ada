import Verif.Props.Together
import Verif.Props.Read

/-!
# C44 and C69 for producers with several outputs

What is read through a snapshot, and without one, in histories that do not separate the outputs of a
producer (`Spec/Together.lean`).
-/

namespace Arti.Props
open Arti PyDict World Spec M
section
variable {κ D : Type} [DecidableEq κ] {env : Env κ D} {gs : Graph → Prop}

theorem calmOps_left {a b : List (HOp κ D)} : ∀ {s : St κ D}, CalmOps env gs s (a ++ b) →
    CalmOps env gs s a := by
  induction a with
  | nil => intro _ _; trivial
  | cons op a ih => intro s h; exact ⟨h.1, ih h.2⟩

/-- **C44**, for producers with any number of outputs, in histories that do not separate them: after
a build, whatever happens while the backend lives and does not separate outputs, reading a produced
artifact through the snapshot gives the same value.

Missing: raw artifacts, for which this fails (`C44_violated_for_raw_artifacts`), and histories that
separate outputs, for which it fails too. -/
theorem C44_several_outputs_reading_a_snapshot_is_stable_partial (hd : Disciplined env gs)
    (ht : Together env gs) {s s1 : St κ D} (hs : ReachCalm env gs s) {g : Graph}
    (hg : gs g) (hf : FindsAll env gs s.files) {b : Option Nat} {σ : Snapshot}
    (hrun : graphBuild env g { s with budget := b } = (.ok σ, s1)) {ops : List (HOp κ D)}
    (hv : ValidOps env gs s1 ops) (hc : CalmOps env gs s1 ops)
    (hr : ∀ op ∈ ops, ∀ keep, op ≠ .restart keep)
    (hn : NoClash env gs (runOps env s1 ops).invs) (hu : SnapUnique (runOps env s1 ops).raws)
    {k : Str} {i : ArtInfo} {p : Pdr} {pos : Nat} (hm : (k, Art.made i p pos) ∈ g.arts)
    (view : Nat) :
    (readSnapshotData env σ (.made i p pos) view (runOps env s1 ops)).1 =
      (readSnapshotData env σ (.made i p pos) view s1).1 := by
  have e1 : HOp.run env s (.build g b) = s1 := by simp only [HOp.run, hrun]
  have hstep : ReachCalm env gs s1 :=
    e1 ▸ ReachCalm.step (.build g b) hs hg ⟨hf, σ, by rw [hrun]⟩
  obtain ⟨hi1, hr1⟩ := runOps_logs (env := env) ops s1
  have hlog := HOp.run_logs (env := env) (.build g b) s
  rw [e1] at hlog
  obtain ⟨hw, hl, hh⟩ := hs.inv hd ht ((hn.mono hi1).mono hlog.1) ((hu.sub hr1).sub hlog.2)
  obtain ⟨_, _, _, _, r, hσ, -, hfull⟩ := graphBuild_whole (s := { s with budget := b }) hd ht hg
    ⟨hw.files, hw.store⟩ ⟨hl.nodup, hl.ok⟩ (hh.budget b) hf hrun (hn.mono hi1) (hu.sub hr1)
  refine reading_stays hd hstep.reach hv hr (fun pre post e => ?_) hn hu hσ ⟨g, hg, k, hm⟩
    (hfull _ _ hm) view
  subst e
  obtain ⟨hi2, hr2⟩ := runOps_logs (env := env) post (runOps env s1 pre)
  rw [← runOps_append] at hi2 hr2
  exact ((hstep.ops (validOps_left hv) (calmOps_left hc)).inv hd ht (hn.mono hi2)
    (hu.sub hr2)).2.1

/-- **C69**, for producers with any number of outputs, in histories that do not separate them.  What
reading a produced artifact without a snapshot returns is never out of date: the partitions that are
read are those that the producer makes of the raw data that is there now, with the contents that it
makes.  An artifact without partitions is read as a build of the current raw data would leave it.

Missing: other histories. -/
theorem C69_several_outputs_produced_read_is_not_stale_partial (hd : Disciplined env gs)
    (ht : Together env gs) {s s' : St κ D} (hs : ReachCalm env gs s) {g : Graph}
    (hg : gs g) {i : ArtInfo} {p : Pdr} {pos view : Nat} {d : D}
    (h : graphRead env g (.made i p pos) view { s with budget := none } = (.ok d, s'))
    (hn : NoClash env gs s.invs) (hu : SnapUnique s'.raws)
    (hh : ∀ rs o c path c', evalPdr env (rawNow env g s.files) p = .ok rs → o ∈ rs →
      outBytes env (cls env p) i pos o.outs = .ok c → get? s.files path = some c' →
      env.fileHash c' = env.fileHash c → c' = c) :
    ∃ rs, evalPdr env (rawNow env g s.files) p = .ok rs ∧
    ∃ ℓ : Data κ, (keys ℓ).Nodup ∧ (∀ x ∈ ℓ, ∃ o ∈ rs, place env (cls env p) i pos o = .ok x) ∧
      readData env i view ℓ (env.iter (keys ℓ)) = .ok d ∧
      (i.sto.tmpl.keyed = false → ∀ ℓ', evalArt env (rawNow env g s.files) (.made i p pos) = .ok ℓ' →
        readData env i view ℓ' (env.iter (keys ℓ')) = .ok d) :=
  read_not_stale hd (fun hu => ⟨(hs.inv hd ht hn hu).1, (hs.inv hd ht hn hu).2.1⟩) hg h hu hh

/-- **C69**, for producers with any number of outputs, in histories that do not separate them.  A
graph was built; then anything happened in the same process that did not separate outputs; now the
partitions of the raw artifacts are again those of which it was built.  Then reading a produced
artifact without a snapshot returns what the build made.

Missing: other histories. -/
theorem C69_several_outputs_built_artifacts_are_read_partial (hd : Disciplined env gs)
    (htg : Together env gs) (hr : FpRanges env) {s t u : St κ D}
    (hs : ReachCalm env gs s) {g : Graph} (hg : gs g) (hf : FindsAll env gs s.files)
    (hdist : (g.arts.map Prod.snd).Nodup)
    {σ : Snapshot} (hrun : graphBuild env g { s with budget := none } = (.ok σ, t))
    {ops : List (HOp κ D)} (hv : ValidOps env gs t ops) (hc : CalmOps env gs t ops)
    (hp : ∀ op ∈ ops, op.SameProcess) (hops : runOps env t ops = u)
    (hraw : ∀ i ∈ rawInfos g, ∀ ps, discover env s.files i.sto [] = .ok ps →
      ∃ ps', discover env u.files i.sto [] = .ok ps' ∧ ps'.Perm ps)
    (hn : NoClash env gs u.invs) (hu : SnapUnique u.raws)
    {k : Str} {i : ArtInfo} {p : Pdr} {pos : Nat} (hm : (k, Art.made i p pos) ∈ g.arts) (view : Nat) :
    (graphRead env g (.made i p pos) view { u with budget := none }).1 =
      (readSnapshotData env σ (.made i p pos) view t).1 := by
  have hrest : ∀ op ∈ ops, ∀ keep, op ≠ .restart keep := by
    intro op ho keep he
    have := hp op ho
    rw [he] at this
    exact this
  subst hops
  have ht : HOp.run env s (.build g none) = t := by simp only [HOp.run, hrun]
  have hstep : ReachCalm env gs t :=
    ht ▸ ReachCalm.step (.build g none) hs hg ⟨hf, σ, by rw [hrun]⟩
  obtain ⟨hw, hl, -⟩ := (hstep.ops hv hc).inv hd htg hn hu
  rw [← C44_several_outputs_reading_a_snapshot_is_stable_partial hd htg hs hg hf hrun hv hc hrest hn
    hu hm view]
  exact read_built hd hr hg hdist hrun hraw hw hl hm view

end

namespace Ex42t
open ExDisk Disk Stg

/-- After the build for the second raw data: change the raw data back, build, change it again. -/
def ops : List (HOp CKey Str) := [.put "/d/a".toList ['u'], .build g none, .put "/d/a".toList ['v']]

def t1 : St CKey Str := HOp.run env s3 (.put "/d/a".toList ['u'])
def t : St CKey Str := runOps env s3 ops

theorem tidyT : Tidy kt (· ∈ [g]) t1.files := tidy (tm := tm) [g] t1.files (by decide +kernel)
theorem okT : (graphBuild env g { t1 with budget := none }).1.toOption.isSome = true := by
  decide +kernel

theorem validT : ValidOps env (· ∈ [g]) s3 ops :=
  ⟨not_produced _ (by decide +kernel), List.mem_singleton.2 rfl, not_produced _ (by decide +kernel),
    trivial⟩

theorem calmT : CalmOps env (· ∈ [g]) s3 ops :=
  ⟨trivial, ⟨C66_local_files_are_found_among_produced_files isLayout tidyT, isOk okT⟩, trivial,
    trivial⟩

/-- Reading both outputs through the snapshot of the build for the second raw data, and without a
snapshot. -/
example : ∃ σ, (graphBuild env g { s2 with budget := none }).1 = .ok σ ∧
    (readSnapshotData env σ z 0 t).1 = (readSnapshotData env σ z 0 s3).1 ∧
    (readSnapshotData env σ z 0 s3).1 = .ok ['v', '2'] ∧
    (graphRead env g z 0 { t with budget := none }).1 = (readSnapshotData env σ z 0 s3).1 := by
  obtain ⟨σ, hσ⟩ := isOk ok3
  have hz : (do let σ ← (graphBuild env g { s2 with budget := none }).1
                (readSnapshotData env σ z 0 s3).1) = .ok ['v', '2'] := by
    decide +kernel
  have hn : NoClash env (· ∈ [g]) (runOps env s3 ops).invs :=
    Disk.noClash isLayout owner (fpUnique (kt := kt) _ (by decide +kernel))
  have hu : SnapUnique (runOps env s3 ops).raws := snapUnique _ (by decide +kernel)
  have hf : FindsAll env (· ∈ [g]) s2.files :=
    C66_local_files_are_found_among_produced_files isLayout tidy2
  refine ⟨σ, hσ, ?_, by rw [hσ] at hz; exact hz, ?_⟩
  · exact C44_several_outputs_reading_a_snapshot_is_stable_partial disc together reach2
      (List.mem_singleton.2 rfl) hf (run3 hσ) validT calmT
      (by simp [ops]) hn hu (k := ['z']) (by simp [g, z]) 0
  · refine C69_several_outputs_built_artifacts_are_read_partial disc together ranges reach2
      (List.mem_singleton.2 rfl) hf (by decide +kernel) (run3 hσ) validT calmT
      (by simp [ops, HOp.SameProcess]) rfl ?_ hn hu (k := ['z']) (by simp [g, z]) 0
    intro i hi ps hps
    refine ⟨ps, ?_, List.Perm.refl _⟩
    have h1 : rawInfos g = [⟨0, false, .file ⟨aText, false⟩⟩] := by decide +kernel
    rw [h1, List.mem_singleton] at hi
    subst hi
    rw [← hps]
    change discover env t.files _ _ = _
    decide +kernel

end Ex42t

end Arti.Props
