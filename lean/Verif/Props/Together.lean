import Verif.Lemmas.Calm
import Verif.Props.Reuse

/-!
# C42 for producers with several outputs

`Props/Build.lean` proves that incremental builds compute what evaluation from scratch computes if
each producer has one output, and `C40_violated_by_two_outputs` shows that this fails for two
outputs after an interruption.  Here: it holds for any number of outputs in histories that do not
separate the outputs of a producer (`Spec/Together.lean`), and what else separates them.
-/

namespace Arti.Spec
open PyDict World M
variable {κ D : Type} [DecidableEq κ] {env : Env κ D} {gs : Graph → Prop}

/-- The invariants hold in every such history without collisions. -/
theorem ReachCalm.inv (hd : Disciplined env gs) (ht : Together env gs) {s : St κ D}
    (h : ReachCalm env gs s) (hn : NoClash env gs s.invs) (hu : SnapUnique s.raws) :
    WInv env gs s ∧ LInv (LinkEval env) s ∧ Whole env gs s := by
  induction h with
  | init files b hf =>
    have hw : WInv env gs (⟨files, [], [], [], [], [], b, [], [], []⟩ : St κ D) := by
      refine ⟨?_, by simp [get?]⟩
      rintro sto ⟨i, p, pos, hm, rfl⟩ f pk part path c h1 h2 h3
      exact absurd ⟨i, p, pos, f, pk, part, hm, h1, h2⟩ (hf path (by
        simp only at h3
        rw [h3]; simp))
    refine ⟨hw, ⟨by simp [get?], by simp [get?]⟩, ⟨by simp [get?], ?_, ?_⟩⟩
    · rintro a b hb f pk ⟨ps, h1, -⟩
      simp [get?] at h1
    · rintro a b hb f pk ⟨part, path, h1, h2, h3⟩
      obtain ⟨i, p, pos, hm, rfl⟩ := hb.made
      exact absurd ⟨i, p, pos, f, pk, part, hm, h1, h2⟩ (hf path h3)
  | @step s op _ hv hc ih =>
    obtain ⟨hi, hr⟩ := HOp.run_logs (env := env) op s
    obtain ⟨hw, hl, hh⟩ := ih (hn.mono hi) (hu.sub hr)
    have hb : ∀ g b, op = .build g b → WInv env gs (op.run env s) ∧
        LInv (LinkEval env) (op.run env s) ∧ Whole env gs (op.run env s) := by
      rintro g b rfl
      obtain ⟨hf, σ, hσ⟩ := hc
      obtain ⟨h1, h2, h3, -⟩ := graphBuild_whole (s := { s with budget := b }) hd ht hv
        ⟨hw.files, hw.store⟩ ⟨hl.nodup, hl.ok⟩ (hh.budget b) hf (Prod.ext hσ rfl) hn hu
      exact ⟨h1, h2, h3⟩
    have hrb : ∀ σ b, op = .rebuild σ b → WInv env gs (op.run env s) ∧
        LInv (LinkEval env) (op.run env s) ∧ Whole env gs (op.run env s) := by
      rintro σ b rfl
      obtain ⟨hg, r, hr', hraw⟩ := hv
      obtain ⟨hf, hσ⟩ := hc
      obtain ⟨h1, h2, -, h3, -⟩ := build_whole (s := { s with budget := b }) hd ht hg
        ⟨hw.files, hw.store⟩ ⟨hl.nodup, hl.ok⟩ hr' (hu.sub hr) (hh.budget b) hf
        (fun k i hm => hraw k i hm) (Prod.ext hσ rfl) hn
      exact ⟨h1, h2, h3⟩
    obtain ⟨h1, h2⟩ := HOp.step_inv rawRel_linkEval hd hv hw hl
      (fun g b e => ⟨(hb g b e).1, (hb g b e).2.1⟩) (fun σ b e => ⟨(hrb σ b e).1, (hrb σ b e).2.1⟩)
    refine ⟨h1, h2, ?_⟩
    by_cases h3 : ∃ g b, op = .build g b
    · obtain ⟨g, b, e⟩ := h3
      exact (hb g b e).2.2
    by_cases h4 : ∃ σ b, op = .rebuild σ b
    · obtain ⟨σ, b, e⟩ := h4
      exact (hrb σ b e).2.2
    exact hh.step hd hv hc (fun g b e => h3 ⟨g, b, e⟩) (fun σ b e => h4 ⟨σ, b, e⟩)

end Arti.Spec

namespace Arti.Props
open Arti PyDict World Spec
section
variable {κ D : Type} [DecidableEq κ] {env : Env κ D} {gs : Graph → Prop}

/-- C42, for producers with any number of outputs: after any history that does not separate the
outputs of a producer, if `Graph.build` succeeds, then the snapshot that it returns holds, for each
artifact of the graph, exactly the partitions that are evaluated from the raw data on disk when the
build started, with the evaluated contents.

Missing: other histories, for which the property fails (`C40_violated_by_two_outputs`,
`C42_violated_by_reading_one_output_first`), and outputs in literals beside outputs in files, for
which it fails too (`C42_violated_by_literal_output`). -/
theorem C42_several_outputs_build_is_evaluation_partial (hd : Disciplined env gs)
    (ht : Together env gs) {s s' : St κ D} (hs : ReachCalm env gs s) {g : Graph}
    (hg : gs g) (hf : FindsAll env gs s.files) {b : Option Nat} {σ : Snapshot}
    (hrun : graphBuild env g { s with budget := b } = (.ok σ, s'))
    (hn : NoClash env gs s'.invs) (hu : SnapUnique s'.raws) :
    σ.graph = g ∧ ∀ k a, (k, a) ∈ g.arts → Full env s' σ (rawNow env g s.files) a := by
  have hlog := HOp.run_logs (env := env) (.build g b) s
  simp only [HOp.run, hrun] at hlog
  obtain ⟨hw, hl, hh⟩ := hs.inv hd ht (hn.mono hlog.1) (hu.sub hlog.2)
  obtain ⟨_, _, _, h5, r, _, h7, h8⟩ := graphBuild_whole (s := { s with budget := b }) hd ht hg
    ⟨hw.files, hw.store⟩ ⟨hl.nodup, hl.ok⟩ (hh.budget b) hf hrun hn hu
  refine ⟨h5, fun k a ha => ?_⟩
  have : rawOf σ r = rawNow env g s.files := funext h7
  rw [← this]
  exact h8 k a ha

/-- C42, for producers with any number of outputs: an incremental build in a world with a history
that does not separate outputs, and a build in any other such world, such as a fresh one, with the
same raw data link the same partitions, with the same contents, and reading gives the same
values. -/
theorem C42_several_outputs_build_equals_clean_build_partial (hd : Disciplined env gs)
    (ht : Together env gs) {s s' t t' : St κ D} (hs : ReachCalm env gs s)
    (htr : ReachCalm env gs t) {g : Graph} (hg : gs g) (hfs : FindsAll env gs s.files)
    (hft : FindsAll env gs t.files) {b b' : Option Nat} {σ τ : Snapshot}
    (hrs : graphBuild env g { s with budget := b } = (.ok σ, s'))
    (hrt : graphBuild env g { t with budget := b' } = (.ok τ, t'))
    (hns : NoClash env gs s'.invs) (hnt : NoClash env gs t'.invs)
    (hus : SnapUnique s'.raws) (hut : SnapUnique t'.raws)
    (hraw : RawEq (rawNow env g s.files) (rawNow env g t.files)) :
    ∀ k a, (k, a) ∈ g.arts → ∃ key, g.keyOf a = some key ∧
      (∀ sn, sn ∈ linksOf s' σ key ↔ sn ∈ linksOf t' τ key) ∧
      (∀ sn ∈ linksOf s' σ key, ∃ c, content s'.files sn.part.loc = some c ∧
        content t'.files sn.part.loc = some c) ∧
      ∀ view, (readSnapshotData env σ a view s').1 = (readSnapshotData env τ a view t').1 := by
  intro k a ha
  obtain ⟨hσ, hfs'⟩ := C42_several_outputs_build_is_evaluation_partial hd ht hs hg hfs hrs hns hus
  obtain ⟨hτ, hft'⟩ := C42_several_outputs_build_is_evaluation_partial hd ht htr hg hft hrt hnt hut
  have hls : LInv (LinkEval env) s' := by
    have := (ReachCalm.step (.build g b) hs hg ⟨hfs, σ, by rw [hrs]⟩).inv hd ht
      (by simpa [HOp.run, hrs] using hns) (by simpa [HOp.run, hrs] using hus)
    simpa [HOp.run, hrs] using this.2.1
  have hlt : LInv (LinkEval env) t' := by
    have := (ReachCalm.step (.build g b') htr hg ⟨hft, τ, by rw [hrt]⟩).inv hd ht
      (by simpa [HOp.run, hrt] using hnt) (by simpa [HOp.run, hrt] using hut)
    simpa [HOp.run, hrt] using this.2.1
  exact full_agree hd.iter hσ hτ (hfs' k a ha) (hft' k a ha) (fun k => hls.linksOf_nodup σ k)
    (fun k => hlt.linksOf_nodup τ k) hraw

/-- **C66**, for producers with any number of outputs, whose storages are not shared, in histories
that do not separate the outputs of a producer.  A graph was built from some raw data.  Then
anything happened, but no produced file was lost.  If the raw data of the graph is again what it was
then, a build of the graph that succeeds calls no producer and writes no file, provided that all
this happened in one process, or that the process that builds has not looked at the storages of the
graph and the produced artifacts are stored in files.

Missing: histories that separate outputs; without the last condition it does not hold
(`C36_violated_by_a_needless_build`). -/
theorem C66_several_outputs_nothing_is_built_twice_partial (hd : Disciplined env gs)
    (htg : Together env gs) {s t u s' : St κ D} (hs : ReachCalm env gs s) {g : Graph} (hg : gs g)
    (hown : OwnStorage g) (hf : FindsAll env gs s.files) {b b' : Option Nat} {σ σ' : Snapshot}
    (hrun : graphBuild env g { s with budget := b } = (.ok σ, t)) {ops : List (HOp κ D)}
    (hv : ValidOps env gs t ops) (hc : CalmOps env gs t ops) (hk : ∀ op ∈ ops, op.KeepsFiles)
    (hops : runOps env t ops = u) (hf' : FindsAll env gs u.files)
    (hraw : RawEq (rawNow env g s.files) (rawNow env g u.files))
    (hcase : (∀ op ∈ ops, op.SameProcess) ∨ (Unseen g u ∧ InFiles g))
    (hrun' : graphBuild env g { u with budget := b' } = (.ok σ', s'))
    (hn : NoClash env gs s'.invs) (hu : SnapUnique s'.raws) :
    s'.calls = u.calls ∧ s'.files = u.files := by
  have hlog := HOp.run_logs (env := env) (.build g b') u
  simp only [HOp.run, hrun'] at hlog
  obtain ⟨l1, l2⟩ := runOps_logs (env := env) ops t
  rw [hops] at l1 l2
  have ht : HOp.run env s (.build g b) = t := by simp only [HOp.run, hrun]
  have hrt : ReachCalm env gs t := ht ▸ ReachCalm.step (.build g b) hs hg ⟨hf, σ, by rw [hrun]⟩
  have hreach : ReachCalm env gs u := hops ▸ hrt.ops hv hc
  have hnt := hn.mono fun e he => hlog.1 e (l1 e he)
  have hut := hu.sub fun e he => hlog.2 e (l2 e he)
  obtain ⟨-, c2⟩ := C42_several_outputs_build_is_evaluation_partial hd htg hs hg hf hrun hnt hut
  obtain ⟨hw, hl, hh⟩ := hreach.inv hd htg (hn.mono hlog.1) (hu.sub hlog.2)
  obtain ⟨h1, h2⟩ := reuse_graphBuild hd hw hl hg hown
    (fun k i p pos k' i' h h' => (htg.one g hg p _ _ _ _ _ _ h h' (.inr rfl)).1)
    (fun σ r e => completes_whole hd htg (e ▸ hg) r) (fun b σ s1 hr => by
      obtain ⟨e1, e2⟩ := (hh.budget b).fromGraph hd hg hr
      exact ⟨e1, by rw [e2]; exact hf'⟩)
    (fun k i p pos hm => have_after hd hg (hrt.inv hd htg hnt hut).2.1 c2 hv hk hops hraw
      (hcase.imp_right fun h => ⟨h.1, h.2, hf'.now⟩) hm)
    hrun' hn hu
  exact ⟨h2, h1⟩

/-- **C66**, as before, when nothing but produced files was added: building again succeeds, calls
no producer and writes no file.

Missing: as above. -/
theorem C66_several_outputs_building_again_succeeds_and_calls_nothing_partial
    (hd : Disciplined env gs) (htg : Together env gs) (hr : FpRanges env) {s t u s' : St κ D}
    (hs : ReachCalm env gs s) {g : Graph} (hg : gs g) (ha : Apart env gs g s.files)
    (hown : OwnStorage g) (hall : AllOutputs env g) (hf : FindsAll env gs s.files) {σ : Snapshot}
    (hrun : graphBuild env g { s with budget := none } = (.ok σ, t)) {ops : List (HOp κ D)}
    (hv : ValidOps env gs t ops) (hc : CalmOps env gs t ops) (hq : ∀ op ∈ ops, op.Quiet)
    (hops : runOps env t ops = u) (hcase : (∀ op ∈ ops, op.SameProcess) ∨ (Unseen g u ∧ InFiles g))
    {res : Except Err Snapshot} (hrun' : graphBuild env g { u with budget := none } = (res, s'))
    (hn : NoClash env gs s'.invs) (hu : SnapUnique s'.raws) :
    ∃ σ', res = .ok σ' ∧ s'.calls = u.calls ∧ s'.files = u.files := by
  have hlog := HOp.run_logs (env := env) (.build g none) u
  simp only [HOp.run, hrun'] at hlog
  obtain ⟨l1, l2⟩ := runOps_logs (env := env) ops t
  rw [hops] at l1 l2
  have ht : HOp.run env s (.build g none) = t := by simp only [HOp.run, hrun]
  have hrt : ReachCalm env gs t := ht ▸ ReachCalm.step (.build g none) hs hg ⟨hf, σ, by rw [hrun]⟩
  have hreach : ReachCalm env gs u := hops ▸ hrt.ops hv hc
  have hk : ∀ op ∈ ops, op.KeepsFiles := by
    intro op ho
    have := hq op ho
    cases op <;> first | trivial | exact this
  have hadds := quiet_adds hd (.build g none :: ops) hs.reach ⟨hg, by rw [ht]; exact hv⟩ (by
      intro op ho
      rcases List.mem_cons.1 ho with rfl | ho
      · trivial
      · exact hq op ho)
  rw [show runOps env s (.build g none :: ops) = u by rw [← hops, ← ht]; rfl] at hadds
  replace hadds := hadds (hn.mono hlog.1) (hu.sub hlog.2)
  have hf' := hf.add hadds.new
  obtain ⟨-, c2⟩ := C42_several_outputs_build_is_evaluation_partial hd htg hs hg hf hrun
    (hn.mono fun e he => hlog.1 e (l1 e he)) (hu.sub fun e he => hlog.2 e (l2 e he))
  obtain ⟨hw, hl, hh⟩ := hreach.inv hd htg (hn.mono hlog.1) (hu.sub hlog.2)
  obtain ⟨σ', rfl⟩ := succeeds_again hd hr hg ha hrun
    (fun k a hka => by obtain ⟨_, ℓ, _, hev, _⟩ := c2 k a hka; exact ⟨ℓ, hev⟩) hadds hw hl
    (fun k i p pos k' i' h h' => (htg.one g hg p _ _ _ _ _ _ h h' (.inr rfl)).1) hall
    (fun σ r e => completes_whole hd htg (e ▸ hg) r) (fun σ s1 hr => by
      obtain ⟨e1, e2⟩ := (hh.budget none).fromGraph hd hg hr
      exact ⟨e1, by rw [e2]; exact hf'⟩) hrun' hn hu
  exact ⟨σ', rfl, C66_several_outputs_nothing_is_built_twice_partial hd htg hs hg hown hf hrun hv hc
    hk hops hf' (ha.raw _ hadds) hcase hrun' hn hu⟩

end

/-! ## Over the paths of the file system -/

section
open Disk Stg
variable {D : Type} {base : Env CKey D} {kt : Str → KeyTypes} {gs : Graph → Prop}

/-- C66: local files are found again, whatever produced files are added, if those that fit a
template were named by it. -/
theorem C66_local_files_are_found_among_produced_files (hL : Layout kt gs)
    {files : PyDict Str Str} (ht : Tidy kt gs files) : FindsAll (disk base kt) gs files :=
  fun _ h => C66_local_files_are_found_again hL (Disk.tidy_of (base := base) hL ht h)

/-- C65: how the outputs of producers are stored together follows from the templates, but for the
conditions on graphs and user code. -/
theorem C65_outputs_in_files_are_together (hL : Layout kt gs)
    (one : ∀ g, gs g → ∀ p k i pos k' i' pos', (k, Art.made i p pos) ∈ g.arts →
      (k', Art.made i' p pos') ∈ g.arts → i.sto = i'.sto ∨ pos = pos' → i = i' ∧ pos = pos')
    (beside : ∀ g, gs g → ∀ k i p pos, (k, Art.made i p pos) ∈ g.arts → ∀ b, Beside gs i.sto b →
      ∃ k' i' pos', (k', Art.made i' p pos') ∈ g.arts ∧ i'.sto = b)
    (counts : ∀ g, gs g → ∀ k i p pos, (k, Art.made i p pos) ∈ g.arts → ∀ args outs,
      (World.cls (disk base kt) p).build args = .ok outs → pos < outs.length) :
    Together (disk base kt) gs where
  one := one
  beside := beside
  counts := counts
  inFiles := by
    rintro a b hb -
    obtain ⟨i, p, pos, hm, rfl⟩ := hb.made
    obtain ⟨T, t, c, h, -⟩ := hL.made _ _ _ hm
    exact ⟨t, h⟩
  apart := fun _ _ _ _ _ _ m1 m2 _ _ _ _ _ _ _ g1 g2 l1 l2 => paths_differ hL m1 m2 g1 g2 l1 l2

/-- **C65**, for producers with any number of outputs.  After any history that does not separate
the outputs of a producer, if `Graph.build` succeeds, then everything that is evaluated from the
raw data in the files when the build started is in the file at the path that its template, its
fingerprint and its key spell, it is linked to the snapshot, and nothing else is.

Missing: other histories, for which the property fails (`C40_violated_by_two_outputs`), templates
with partition keys of more than one field class (C21), storages other than local files and string
literals. -/
theorem C65_several_outputs_build_writes_evaluated_files_partial (hL : Layout kt gs)
    (hd : Disciplined (disk base kt) gs) (htg : Together (disk base kt) gs)
    (ho : OneOwner (disk base kt) gs) {s s' : St CKey D} (hs : ReachCalm (disk base kt) gs s)
    {g : Graph} (hg : gs g) (ht : Tidy kt gs s.files) {b : Option Nat} {σ : Snapshot}
    (hrun : graphBuild (disk base kt) g { s with budget := b } = (.ok σ, s'))
    (hf : FpUnique (disk base kt) s'.invs) (hu : SnapUnique s'.raws) :
    σ.graph = g ∧ ∀ k i p pos, (k, Art.made i p pos) ∈ g.arts → ∃ key ℓ T,
      g.keyOf (.made i p pos) = some key ∧ TemplateOf kt i.sto T ∧
      evalArt (disk base kt) (rawNow (disk base kt) g s.files) (.made i p pos) = .ok ℓ ∧
      (∀ sn, sn ∈ linksOf s' σ key ↔ ∃ c, (sn, c) ∈ ℓ) ∧
      ∀ sn c, (sn, c) ∈ ℓ → ∃ fp path, sn.part.sto = i.sto ∧ sn.part.inputFp = some fp ∧
        sn.part.loc = .file path ∧
        PartitionAt (kt i.sto.tmpl.text) T (some fp) sn.part.key.1 path ∧
        get? s'.files path = some c ∧ sn.contentFp = base.fileHash c := by
  obtain ⟨h1, h2⟩ := C42_several_outputs_build_is_evaluation_partial hd htg hs hg
    (C66_local_files_are_found_among_produced_files hL ht) hrun (Disk.noClash hL ho hf) hu
  exact ⟨h1, fun k i p pos hm => files_of_full hL hg hm h1 (h2 k _ hm)⟩

/-- **C66**, over local files, for producers with any number of outputs whose storages are not
shared.  A graph was built from files that are named by the templates; then other graphs were built
and whatever else happened that leaves the raw data and the produced files alone and keeps outputs
together, and a new process was started with an empty backend.  Building the graph in the new
process succeeds, calls no producer and writes no file.

Missing: histories that separate outputs. -/
theorem C66_several_outputs_new_process_reuses_local_files_partial (hL : Layout kt gs)
    (hd : Disciplined (disk base kt) gs) (htg : Together (disk base kt) gs)
    (ho : OneOwner (disk base kt) gs) (hr : FpRanges (disk base kt)) {s t u s' : St CKey D}
    (hs : ReachCalm (disk base kt) gs s) {g : Graph} (hg : gs g) (ht : Tidy kt gs s.files)
    (hown : OwnStorage g) (hall : AllOutputs (disk base kt) g) {σ : Snapshot}
    (hrun : graphBuild (disk base kt) g { s with budget := none } = (.ok σ, t))
    {ops : List (HOp CKey D)} (hv : ValidOps (disk base kt) gs t ops)
    (hc : CalmOps (disk base kt) gs t ops) (hq : ∀ op ∈ ops, op.Quiet)
    (hops : runOps (disk base kt) t (ops ++ [.restart fun _ => true]) = u)
    {res : Except Err Snapshot}
    (hrun' : graphBuild (disk base kt) g { u with budget := none } = (res, s'))
    (hf : FpUnique (disk base kt) s'.invs) (hu : SnapUnique s'.raws) :
    ∃ σ', res = .ok σ' ∧ s'.calls = u.calls ∧ s'.files = u.files := by
  have hn := Disk.noClash hL ho hf
  have hq1 : ∀ op ∈ ops ++ [HOp.restart fun _ => true], op.Quiet := by
    intro op h
    rcases List.mem_append.1 h with h | h
    · exact hq op h
    · rw [List.mem_singleton.1 h]; exact fun _ => rfl
  have hv1 : ValidOps (disk base kt) gs t (ops ++ [.restart fun _ => true]) := by
    clear hops hq hq1 hrun hc
    induction ops generalizing t with
    | nil => exact ⟨trivial, trivial⟩
    | cons op ops ih => exact ⟨hv.1, ih hv.2⟩
  have hc1 : CalmOps (disk base kt) gs t (ops ++ [.restart fun _ => true]) := by
    clear hops hq hq1 hrun hv hv1
    induction ops generalizing t with
    | nil => exact ⟨fun _ _ _ _ _ _ _ _ _ _ _ _ _ => rfl, trivial⟩
    | cons op ops ih => exact ⟨hc.1, ih hc.2⟩
  have hsto : u.storage = [] := by
    rw [← hops]
    clear hops hq hq1 hrun hv hv1 hc hc1
    induction ops generalizing t with
    | nil => rfl
    | cons op ops ih => exact ih
  refine C66_several_outputs_building_again_succeeds_and_calls_nothing_partial hd htg hr hs hg
    (Disk.apart hL ht hg) hown hall (C66_local_files_are_found_among_produced_files hL ht) hrun hv1
    hc1 hq1 hops (.inr ⟨fun k i p pos _ => by rw [hsto]; rfl, fun k i p pos hm => ?_⟩) hrun' hn hu
  obtain ⟨T, tm, c, h1, -⟩ := hL.made i p pos ⟨g, hg, k, hm⟩
  exact ⟨tm, h1⟩

end

/-! ### A history that meets the hypotheses

A raw file, a producer of two files from it, a producer of one file from the second of them. -/

namespace Ex42t
open ExDisk Disk Stg

def aT : List Tok := "/d/a".toList.map .ch
def yT : List Tok := "/d/y/".toList.map .ch ++ [.fld (plain ifpName)]
def zT : List Tok := "/d/z/".toList.map .ch ++ [.fld (plain ifpName)]
def cT : List Tok := "/d/c/".toList.map .ch ++ [.fld (plain ifpName)]

def aText : Str := "/d/a".toList
def yText : Str := "/d/y/{input_fingerprint}".toList
def zText : Str := "/d/z/{input_fingerprint}".toList
def cText : Str := "/d/c/{input_fingerprint}".toList

def kt (_ : Str) : KeyTypes := []

def tm (sto : Sto) : Option (FieldCls × List Tok) :=
  if sto.tmpl.text = aText then some (.int .int8, aT)
  else if sto.tmpl.text = yText then some (.int .int8, yT)
  else if sto.tmpl.text = zText then some (.int .int8, zT)
  else some (.int .int8, cT)

/-- `T` makes two outputs. -/
def impl (c : Str) (v : Fp) : PClass CKey Str :=
  if c = ['T'] then ⟨[(['x'], 0)], [['x']], [0, 0], fun ins => .ok (mapAll ins),
    fun args => .ok [(get? args ['x']).getD [] ++ ['1'], (get? args ['x']).getD [] ++ ['2']],
    fun _ => .ok true⟩
  else ExDisk.impl c v

def base : Env CKey Str := { ExDisk.base with impl := impl }
def env : Env CKey Str := disk base kt

def a : Art := .raw ⟨0, false, .file ⟨aText, false⟩⟩
def p : Pdr := .mk ['T'] ['1'] (.cons ['x'] a .nil)
def y : Art := .made ⟨0, false, .file ⟨yText, false⟩⟩ p 0
def z : Art := .made ⟨0, false, .file ⟨zText, false⟩⟩ p 1
def q : Pdr := .mk ['A'] ['1'] (.cons ['x'] z .nil)
def c : Art := .made ⟨0, false, .file ⟨cText, false⟩⟩ q 0
def g : Graph := ⟨['g'], [(['c'], c), (['z'], z), (['y'], y), (['a'], a)], []⟩

theorem isLayout : Layout kt (· ∈ [g]) := layout (tm := tm) [g] (by decide +kernel)

theorem owner : OneOwner env (· ∈ [g]) := oneOwner (kt := kt) [g] (by decide +kernel)

theorem disc : Disciplined env (· ∈ [g]) := by
  refine disciplined_of (base := base) ⟨sortB_perm, sortB_ext⟩ ?_ [g] (by decide +kernel)
  intro c v ins items h
  change (impl c v).map ins = .ok items at h
  unfold impl at h
  split at h
  · exact impl_selects ['A'] v ins items h
  · exact impl_selects c v ins items h

theorem mem_made {k : Str} {i : ArtInfo} {r : Pdr} {pos : Nat}
    (h : (k, Art.made i r pos) ∈ g.arts) : (k = ['c'] ∧ Art.made i r pos = c) ∨
      (k = ['z'] ∧ Art.made i r pos = z) ∨ (k = ['y'] ∧ Art.made i r pos = y) := by
  simp only [g, a, List.mem_cons, Prod.mk.injEq, List.not_mem_nil, or_false, reduceCtorEq,
    and_false] at h
  exact h

theorem together : Together env (· ∈ [g]) := by
  have hbeside : ∀ k i r pos, (k, Art.made i r pos) ∈ g.arts → ∀ k' i' r' pos',
      (k', Art.made i' r' pos') ∈ g.arts → i.sto = i'.sto → r = r' := by
    intro k i r pos hm k' i' r' pos' hm'
    rcases mem_made hm with ⟨-, h⟩ | ⟨-, h⟩ | ⟨-, h⟩ <;>
      rcases mem_made hm' with ⟨-, h'⟩ | ⟨-, h'⟩ | ⟨-, h'⟩ <;>
      simp only [c, z, y, Art.made.injEq] at h h' <;>
      obtain ⟨rfl, rfl, rfl⟩ := h <;> obtain ⟨rfl, rfl, rfl⟩ := h' <;> decide +kernel
  refine C65_outputs_in_files_are_together isLayout ?_ ?_ ?_
  · intro g' hg r k i pos k' i' pos' hm hm'
    rw [List.mem_singleton.1 hg] at hm hm'
    rcases mem_made hm with ⟨-, h⟩ | ⟨-, h⟩ | ⟨-, h⟩ <;>
      rcases mem_made hm' with ⟨-, h'⟩ | ⟨-, h'⟩ | ⟨-, h'⟩ <;>
      simp only [c, z, y, Art.made.injEq] at h h' <;>
      obtain ⟨rfl, rfl, rfl⟩ := h <;> obtain ⟨rfl, h'', rfl⟩ := h' <;>
      first
      | (exact absurd h'' (by decide +kernel))
      | decide +kernel
  · rintro g' hg k i r pos hm b ⟨g'', hg', r', k1, i1, pos1, k2, i2, pos2, m1, m2, e1, rfl⟩
    rw [List.mem_singleton.1 hg] at hm ⊢
    rw [List.mem_singleton.1 hg'] at m1 m2
    obtain rfl := hbeside _ _ _ _ m1 _ _ _ _ hm e1
    exact ⟨k2, i2, pos2, m2, rfl⟩
  · intro g' hg k i r pos hm args outs ho
    rw [List.mem_singleton.1 hg] at hm
    rcases mem_made hm with ⟨-, h⟩ | ⟨-, h⟩ | ⟨-, h⟩ <;>
      simp only [c, z, y, Art.made.injEq] at h <;> obtain ⟨rfl, rfl, rfl⟩ := h
    · have := (ExDisk.impl_one ['A'] (env.versionFp ['1'])).2 args outs ho
      omega
    · cases ho; exact Nat.lt_succ_self 1
    · cases ho; exact Nat.succ_pos 1

def files : PyDict Str Str := [("/d/a".toList, ['u']), ("/d/notes".toList, ['w'])]

def s0 : St CKey Str := ⟨files, [], [], [], [], [], none, [], [], []⟩

theorem isTidy : Tidy kt (· ∈ [g]) files := tidy (tm := tm) [g] files (by decide +kernel)

theorem not_produced (path : Str) (h : [yT, zT, cT].all (fun T => !(lead T).isPrefixOf path) = true) :
    ¬ ProducedPath env (· ∈ [g]) path := by
  rintro ⟨i, p', pos, f, pk, part, ⟨g', hg, k, hm⟩, h1, h2⟩
  rw [List.mem_singleton.1 hg] at hm
  have hT : ∃ T ∈ [yT, zT, cT], TemplateOf kt i.sto T := by
    rcases mem_made hm with ⟨-, h⟩ | ⟨-, h⟩ | ⟨-, h⟩ <;>
      simp only [c, z, y, Art.made.injEq] at h <;> obtain ⟨rfl, rfl, rfl⟩ := h
    · exact ⟨cT, by simp, _, .int .int8, rfl, by decide +kernel, by decide +kernel,
        discoverable_of (by decide +kernel)⟩
    · exact ⟨zT, by simp, _, .int .int8, rfl, by decide +kernel, by decide +kernel,
        discoverable_of (by decide +kernel)⟩
    · exact ⟨yT, by simp, _, .int .int8, rfl, by decide +kernel, by decide +kernel,
        discoverable_of (by decide +kernel)⟩
  obtain ⟨T, hmem, hT⟩ := hT
  have h3 := List.isPrefixOf_iff_prefix.2 (lead_of_fits (generate_fits hT h1 h2))
  have h4 := List.all_eq_true.1 h T hmem
  rw [h3] at h4
  simp at h4

/-! Build, change the raw data, build, restart, change the raw data back. -/

def s1 : St CKey Str := HOp.run env s0 (.build g none)
def s2 : St CKey Str := HOp.run env s1 (.put "/d/a".toList ['v'])
def s3 : St CKey Str := HOp.run env s2 (.build g none)
def s4 : St CKey Str := HOp.run env s3 (.restart fun _ => true)
def s : St CKey Str := HOp.run env s4 (.put "/d/a".toList ['u'])

theorem tidy2 : Tidy kt (· ∈ [g]) s2.files := tidy (tm := tm) [g] s2.files (by decide +kernel)
theorem tidy4 : Tidy kt (· ∈ [g]) s.files := tidy (tm := tm) [g] s.files (by decide +kernel)

theorem ok1 : (graphBuild env g { s0 with budget := none }).1.toOption.isSome = true := by
  decide +kernel
theorem ok3 : (graphBuild env g { s2 with budget := none }).1.toOption.isSome = true := by
  decide +kernel

theorem isOk {α : Type} {r : Except Err α} (h : r.toOption.isSome = true) : ∃ x, r = .ok x := by
  cases r with
  | ok x => exact ⟨x, rfl⟩
  | error e => simp [Except.toOption] at h

theorem reach2 : ReachCalm env (· ∈ [g]) s2 := by
  have h0 : ReachCalm env (· ∈ [g]) s0 := .init files none fun path hp => by
    have : path ∈ keys files := by
      apply Classical.byContradiction
      intro h; exact hp ((get?_eq_none_iff _ _).2 h)
    simp only [files, keys, List.map_cons, List.map_nil, List.mem_cons, List.not_mem_nil,
      or_false] at this
    rcases this with rfl | rfl <;> exact not_produced _ (by decide +kernel)
  have h1 : ReachCalm env (· ∈ [g]) s1 := .step _ h0 (List.mem_singleton.2 rfl)
    ⟨C66_local_files_are_found_among_produced_files isLayout isTidy, isOk ok1⟩
  exact .step (.put "/d/a".toList ['v']) h1 (not_produced _ (by decide +kernel)) trivial

theorem reach : ReachCalm env (· ∈ [g]) s := by
  have h3 : ReachCalm env (· ∈ [g]) s3 := .step _ reach2 (List.mem_singleton.2 rfl)
    ⟨C66_local_files_are_found_among_produced_files isLayout tidy2, isOk ok3⟩
  have h4 : ReachCalm env (· ∈ [g]) s4 := .step _ h3 trivial
    (fun _ _ _ _ _ _ _ _ _ _ _ _ _ => rfl)
  exact .step _ h4 (not_produced _ (by decide +kernel)) trivial

def res : Except Err Snapshot := (graphBuild env g { s with budget := none }).1
def s' : St CKey Str := (graphBuild env g { s with budget := none }).2

/-- Before the last build, the outputs for the first raw data are in files but the backend does not
know them: all are linked, and nothing is computed again. -/
example : ∃ σ, res = .ok σ ∧ (readSnapshotData env σ y 0 s').1 = .ok ['u', '1'] ∧
    (readSnapshotData env σ z 0 s').1 = .ok ['u', '2'] ∧
    (∀ k a, (k, a) ∈ g.arts → Full env s' σ (rawNow env g s.files) a) ∧
    s.files.length = 8 ∧ s'.files.length = 8 ∧ s'.calls.length = s.calls.length := by
  obtain ⟨σ, hσ⟩ : ∃ σ, res = .ok σ := isOk (by decide +kernel)
  have hy : (do let σ ← res; (readSnapshotData env σ y 0 s').1) = .ok ['u', '1'] := by
    decide +kernel
  have hz : (do let σ ← res; (readSnapshotData env σ z 0 s').1) = .ok ['u', '2'] := by
    decide +kernel
  refine ⟨σ, hσ, by rw [hσ] at hy; exact hy, by rw [hσ] at hz; exact hz, ?_, by decide +kernel,
    by decide +kernel, by decide +kernel⟩
  exact (C42_several_outputs_build_is_evaluation_partial disc together reach
    (List.mem_singleton.2 rfl) (C66_local_files_are_found_among_produced_files isLayout tidy4)
    (Prod.ext (by rw [← hσ, res]) (by rw [s']))
    (Disk.noClash isLayout owner (fpUnique (kt := kt) _ (by decide +kernel)))
    (snapUnique _ (by decide +kernel))).2

/-! The build for the second raw data, and a build of it in a new process. -/

theorem own : OwnStorage g := by
  intro k i p pos k' i' p' pos' hm hm' hs
  rcases mem_made hm with ⟨-, h⟩ | ⟨-, h⟩ | ⟨-, h⟩ <;>
    rcases mem_made hm' with ⟨-, h'⟩ | ⟨-, h'⟩ | ⟨-, h'⟩ <;> rw [h, h'] <;> exfalso <;>
    simp only [c, z, y, Art.made.injEq] at h h' <;>
    obtain ⟨rfl, rfl, rfl⟩ := h <;> obtain ⟨rfl, rfl, rfl⟩ := h' <;> revert hs <;> decide +kernel

theorem all : AllOutputs env g := by
  intro k i r pos hm args outs ho
  rcases mem_made hm with ⟨-, h⟩ | ⟨-, h⟩ | ⟨-, h⟩ <;>
    simp only [c, z, y, Art.made.injEq] at h <;> obtain ⟨rfl, rfl, rfl⟩ := h
  · have := (ExDisk.impl_one ['A'] (env.versionFp ['1'])).2 args outs ho
    rw [this]
    intro j hj
    obtain rfl : j = 0 := by omega
    exact ⟨_, _, hm⟩
  all_goals
    cases ho
    intro j hj
    have hj : j < 2 := hj
    obtain rfl | rfl : j = 0 ∨ j = 1 := by omega
    · exact ⟨['y'], _, by simp [g, y]; rfl⟩
    · exact ⟨['z'], _, by simp [g, z]; rfl⟩

theorem ranges : FpRanges env where
  str := ExFp.hash_range
  ver := ExFp.hash_range
  node n := by
    cases n with
    | art a => show Int64Range 1; decide
    | pdr p => exact ExFp.hash_range _
  graph g := ExFp.hash_range _
  snap s := ExFp.hash_range _

theorem run3 {σ : Snapshot} (h : (graphBuild env g { s2 with budget := none }).1 = .ok σ) :
    graphBuild env g { s2 with budget := none } = (.ok σ, s3) := by
  rw [s3]
  simp only [HOp.run]
  generalize graphBuild env g { s2 with budget := none } = x at h
  rw [← h]

def v' : St CKey Str := (graphBuild env g { s4 with budget := none }).2
def vres : Except Err Snapshot := (graphBuild env g { s4 with budget := none }).1

/-- The second build called producers, the build in the new process does not. -/
example : s2.calls.length = 2 ∧ s3.calls.length = 4 ∧ s4.storage = [] ∧
    ∃ σ', vres = .ok σ' ∧ v'.calls = s4.calls ∧ v'.files = s4.files := by
  obtain ⟨σ, hσ⟩ := isOk ok3
  refine ⟨by decide +kernel, by decide +kernel, by decide +kernel, ?_⟩
  exact C66_several_outputs_new_process_reuses_local_files_partial (ops := []) (u := s4) isLayout
    disc together owner ranges reach2 (List.mem_singleton.2 rfl) tidy2 own all
    (run3 hσ) trivial trivial (by simp) (by rw [s4]; rfl)
    (Prod.ext (by rw [vres, env]) (by rw [v', env]))
    (fpUnique (kt := kt) _ (by decide +kernel)) (snapUnique _ (by decide +kernel))

end Ex42t

/-! ## What else separates outputs -/

namespace Ex42u
open Ex Ex40

/-- A process builds the graph of `C40_violated_by_two_outputs`, without interruption; a second one
reads the first output without a snapshot. -/
def ops : List (HOp Nat Str) := [.build h none, .restart fun _ => true, .lookup y []]

def s1 : St Nat Str := runOps Ex.env s0 ops

/-- The second output of the same producer, now in a string literal. -/
def zl : Art := .made ⟨0, false, .lit ⟨"c{input_fingerprint}".toList, false⟩ none⟩ p 1
def hl : Graph := ⟨['h'], [(['a'], x), (['b'], y), (['c'], zl)], []⟩

def buildAndReadLit (a : Art) : M Nat Str Str := do
  let σ ← graphBuild Ex.env hl
  readSnapshotData Ex.env σ a 0

def t1 : St Nat Str := runOps Ex.env s0 [.build hl none, .restart fun _ => true]
def t2 : St Nat Str := (graphBuild Ex.env hl t1).2

end Ex42u

/-- **C42** is violated, without any interruption, by a read between two builds: if the first thing
that a process does is to read one of two outputs without a snapshot, then a build in this process
succeeds and links the other output only, although the files of both are there. -/
theorem C42_violated_by_reading_one_output_first :
    (Ex40.buildAndRead Ex40.y Ex40.s0).1 = .ok ['u', '1'] ∧
    (Ex40.buildAndRead Ex40.z Ex40.s0).1 = .ok ['u', 't'] ∧
    Ex42u.s1.files.length = 3 ∧
    (Ex40.buildAndRead Ex40.y Ex42u.s1).1 = .error .fileNotFound ∧
    (Ex40.buildAndRead Ex40.z Ex42u.s1).1 = .ok ['u', 't'] := by
  refine ⟨?_, ?_, ?_, ?_, ?_⟩ <;> decide +kernel

/-- **C42** is violated, without any interruption or read, by a producer with one output in a file
and one in a string literal: the first build succeeds and both outputs can be read; after a
restart, builds succeed but never produce the literal again, since the file is still there. -/
theorem C42_violated_by_literal_output :
    (Ex42u.buildAndReadLit Ex40.y Ex40.s0).1 = .ok ['u', '1'] ∧
    (Ex42u.buildAndReadLit Ex42u.zl Ex40.s0).1 = .ok ['u', 't'] ∧
    (Ex42u.buildAndReadLit Ex40.y Ex42u.t1).1 = .ok ['u', '1'] ∧
    (Ex42u.buildAndReadLit Ex42u.zl Ex42u.t1).1 = .error .fileNotFound ∧
    (Ex42u.buildAndReadLit Ex42u.zl Ex42u.t2).1 = .error .fileNotFound := by
  refine ⟨?_, ?_, ?_, ?_, ?_⟩ <;> decide +kernel

end Arti.Props
