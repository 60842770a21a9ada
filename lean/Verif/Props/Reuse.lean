import Verif.Lemmas.Reuse
import Verif.Props.Resume
import Verif.Props.Disk

/-!
# C66: nothing is built twice
-/

namespace Arti.Props
open PyDict World M Spec

section
variable {κ D : Type} [DecidableEq κ] {env : Env κ D} {gs : Graph → Prop}

/-- What was evaluated in a build is there afterwards. -/
theorem have_after (hd : Disciplined env gs) {s t u : St κ D} {g : Graph} (hg : gs g)
    {σ : Snapshot} (hl : LInv (LinkEval env) t)
    (h2 : ∀ k a, (k, a) ∈ g.arts → Full env t σ (rawNow env g s.files) a)
    {ops : List (HOp κ D)} (hv : ValidOps env gs t ops) (hk : ∀ op ∈ ops, op.KeepsFiles) (hops : runOps env t ops = u)
    (hraw : RawEq (rawNow env g s.files) (rawNow env g u.files))
    (hcase : (∀ op ∈ ops, op.SameProcess) ∨ (Unseen g u ∧ InFiles g ∧ Finds env gs u.files))
    {k : Str} {i : ArtInfo} {p : Pdr} {pos : Nat} (hm : (k, Art.made i p pos) ∈ g.arts) :
    ∃ ℓ, evalArt env (rawNow env g u.files) (.made i p pos) = .ok ℓ ∧ Have env gs u i ℓ := by
  have hmade : Made gs i p pos := ⟨g, hg, k, hm⟩
  obtain ⟨key, ℓ₀, h3, h4, h5, h6, h7⟩ := h2 k _ hm
  have hcongr := evalArt_congr hd.iter hraw (.made i p pos)
  rw [h4] at hcongr
  cases hev : evalArt env (rawNow env g u.files) (.made i p pos) with
  | error e => rw [hev] at hcongr; exact hcongr.elim
  | ok ℓ =>
  rw [hev] at hcongr
  refine ⟨ℓ, rfl, fun x hx => ?_⟩
  have hx0 := (hcongr.2.2 x).2 hx
  rcases hcase with hsame | ⟨hun, hfile, hfind⟩
  · right
    have hlink : x.1 ∈ linksOf t σ key := (h6 x.1).2 (List.mem_map.2 ⟨x, hx0, rfl⟩)
    unfold linksOf at hlink
    cases hgl : get? t.links (σ, key) with
    | none => rw [hgl] at hlink; simp at hlink
    | some ss =>
      rw [hgl] at hlink
      obtain ⟨⟨ss', i1, i2⟩, -⟩ := hl.ok σ key ss hgl _ h3 x.1 hlink
      have := known_stays (env := env) (sto := i.sto) (x := x.1) hsame (s := t) (by
        simp only [Art.info] at i1
        rw [i1]; exact i2)
      rw [hops] at this
      cases hst : get? u.storage i.sto with
      | none => rw [hst] at this; simp at this
      | some l => rw [hst] at this; exact ⟨l, rfl, this⟩
  · left
    refine ⟨hun k i p pos hm, hfind, ?_⟩
    simp only [evalArt, bind, Except.bind] at h4
    cases hep : evalPdr env (rawNow env g s.files) p with
    | error e => rw [hep] at h4; simp at h4
    | ok rs =>
    rw [hep] at h4
    obtain ⟨o, -, hpl⟩ := (mem_placeAll h4 x).1 hx0
    obtain ⟨-, part, hgen, hst⟩ := place_ok (sn := x.1) (b := x.2) hpl
    obtain ⟨tm, htm⟩ := hfile k i p pos hm
    obtain ⟨-, -, -, -, hor⟩ := generate_ok hgen
    rw [htm] at hor
    simp only [reduceCtorEq, false_and, exists_false, or_false] at hor
    obtain ⟨-, path, -, hloc⟩ := hor
    simp only [stored, hloc, Except.ok.injEq, Prod.ext_iff] at hst
    have hxloc : x.1.part.loc = .file path := by rw [← hst.1]; exact hloc
    refine ⟨path, hxloc, ?_⟩
    have hc := h7 x hx0
    rw [hxloc] at hc
    rw [← hops]
    exact file_stays (env := env) (gs := gs) ⟨i, p, pos, o.fp, o.key, part, hmade, hgen, hloc⟩ hv hk
      (by simp only [World.content] at hc; rw [hc]; simp)

/-- **C66**, for producers with one output whose storages are not shared.  A graph was built from
some raw data.  Then anything happened: raw data was changed, other graphs were built, builds were
interrupted, processes were restarted; but no produced file was lost.  If the raw data of the graph
is again what it was then, then a build of the graph that succeeds calls no producer and writes no
file, provided that all this happened in one process, or that the process that builds has not looked
at the storages of the graph and the produced artifacts are stored in files.

Missing: producers with several outputs, see `C66_several_outputs_nothing_is_built_twice_partial`;
without the last condition it does not hold
(`C36_violated_by_a_needless_build`). -/
theorem C66_nothing_is_built_twice_partial (hd : Disciplined env gs)
    (hso : ∀ g, gs g → SingleOutput env g) {s t u s' : St κ D} (hs : Reach env gs s) {g : Graph}
    (hg : gs g) (hown : OwnStorage g) {b b' : Option Nat} {σ σ' : Snapshot}
    (hrun : graphBuild env g { s with budget := b } = (.ok σ, t)) {ops : List (HOp κ D)}
    (hv : ValidOps env gs t ops) (hk : ∀ op ∈ ops, op.KeepsFiles) (hops : runOps env t ops = u)
    (hraw : RawEq (rawNow env g s.files) (rawNow env g u.files))
    (hcase : (∀ op ∈ ops, op.SameProcess) ∨ (Unseen g u ∧ InFiles g ∧ Finds env gs u.files))
    (hrun' : graphBuild env g { u with budget := b' } = (.ok σ', s'))
    (hn : NoClash env gs s'.invs) (hu : SnapUnique s'.raws) :
    s'.calls = u.calls ∧ s'.files = u.files := by
  have hlog := HOp.run_logs (env := env) (.build g b') u
  simp only [HOp.run, hrun'] at hlog
  obtain ⟨l1, l2⟩ := runOps_logs (env := env) ops t
  rw [hops] at l1 l2
  have ht : HOp.run env s (.build g b) = t := by simp only [HOp.run, hrun]
  have hrt : Reach env gs t := ht ▸ Reach.step (.build g b) hs hg
  have hreach : Reach env gs u := hops ▸ Reach.ops env gs hrt hv
  have hnt := hn.mono fun e he => hlog.1 e (l1 e he)
  have hut := hu.sub fun e he => hlog.2 e (l2 e he)
  obtain ⟨-, c2⟩ := C42_incremental_build_is_evaluation_partial hd hso hs hg hrun hnt hut
  obtain ⟨hw, hl⟩ := hreach.inv hd hso (hn.mono hlog.1) (hu.sub hlog.2)
  obtain ⟨h1, h2⟩ := reuse_graphBuild hd hw hl hg hown
    (hso g hg).oneEach
    (fun σ r e => completes_single hd (e ▸ hg) (e ▸ hso g hg) r) (fun _ _ _ _ => trivial)
    (fun k i p pos hm => have_after hd hg (hrt.inv hd hso hnt hut).2 c2 hv hk hops hraw hcase hm)
    hrun' hn hu
  exact ⟨h2, h1⟩

/-- **C66**, for producers with one output whose storages are not shared.  If a graph was built and
then anything happened that leaves the raw data and the produced files alone, then building it again
succeeds, calls no producer and writes no file, in the same process or in a process that has not yet
looked at the storages of the graph, for instance just after a restart.

Missing: as above. -/
theorem C66_building_again_succeeds_and_calls_nothing_partial (hd : Disciplined env gs)
    (hso : ∀ g, gs g → SingleOutput env g) (hr : FpRanges env) {s t u s' : St κ D}
    (hs : Reach env gs s) {g : Graph} (hg : gs g) (ha : Apart env gs g s.files)
    (hown : OwnStorage g) {σ : Snapshot}
    (hrun : graphBuild env g { s with budget := none } = (.ok σ, t)) {ops : List (HOp κ D)}
    (hv : ValidOps env gs t ops) (hq : ∀ op ∈ ops, op.Quiet) (hops : runOps env t ops = u)
    (hcase : (∀ op ∈ ops, op.SameProcess) ∨ (Unseen g u ∧ InFiles g ∧ Finds env gs u.files))
    {res : Except Err Snapshot} (hrun' : graphBuild env g { u with budget := none } = (res, s'))
    (hn : NoClash env gs s'.invs) (hu : SnapUnique s'.raws) :
    ∃ σ', res = .ok σ' ∧ s'.calls = u.calls ∧ s'.files = u.files := by
  have hlog := HOp.run_logs (env := env) (.build g none) u
  simp only [HOp.run, hrun'] at hlog
  obtain ⟨l1, l2⟩ := runOps_logs (env := env) ops t
  rw [hops] at l1 l2
  have ht : HOp.run env s (.build g none) = t := by simp only [HOp.run, hrun]
  have hv' : ValidOps env gs s (.build g none :: ops) := ⟨hg, by rw [ht]; exact hv⟩
  have hq' : ∀ op ∈ (HOp.build g none :: ops : List (HOp κ D)), op.Quiet := by
    intro op ho
    rcases List.mem_cons.1 ho with rfl | ho
    · trivial
    · exact hq op ho
  have hops' : runOps env s (.build g none :: ops) = u := by
    rw [← hops, ← ht]; rfl
  have hk : ∀ op ∈ ops, op.KeepsFiles := by
    intro op ho
    have := hq op ho
    cases op <;> first | trivial | exact this
  obtain ⟨σ', rfl, -⟩ := C40_interrupted_build_can_be_resumed_partial hd hso hr hs hg ha hrun
    (hn.mono fun e he => hlog.1 e (l1 e he)) (hu.sub fun e he => hlog.2 e (l2 e he)) hv' hq' hops'
    hrun' hn hu
  have hadds := quiet_adds hd _ hs hv' hq' (by rw [hops']; exact hn.mono hlog.1)
    (by rw [hops']; exact hu.sub hlog.2)
  rw [hops'] at hadds
  exact ⟨σ', rfl, C66_nothing_is_built_twice_partial hd hso hs hg hown hrun hv hk hops
    (ha.raw _ hadds) hcase hrun' hn hu⟩

end

/-! ## Over the paths of the file system -/

section
open Disk Stg
variable {D : Type} {base : Env CKey D} {kt : Str → KeyTypes} {gs : Graph → Prop}

/-- C66: local files are found again, if those that fit a template were named by it. -/
theorem C66_local_files_are_found_again (hL : Layout kt gs) {files : PyDict Str Str}
    (ht : Tidy kt gs files) : Finds (disk base kt) gs files := by
  intro i p pos hm ifps ps hd f pk part path hf hg hl hc
  obtain ⟨T, hT⟩ := hL.made _ _ _ hm
  obtain ⟨g, hgs, k, hk⟩ := hm
  obtain ⟨ps', hd', hmem⟩ := discover_sto (base := base) hT (ht g hgs k _ hk T hT) ifps
  change World.discover _ _ i.sto _ = _ at hd'
  rw [hd] at hd'
  obtain rfl := Except.ok.inj hd'
  have hat := generate_at hT hg hl
  obtain ⟨c, hc⟩ := Option.ne_none_iff_exists'.1 hc
  refine ⟨⟨base.fileHash c, i.sto, some f, pk, .file path⟩,
    (hmem _).2 ⟨some f, pk, path, c, rfl, hat, hc, hf⟩, ?_⟩
  obtain ⟨h1, h2, h3, -⟩ := generate_ok hg
  cases part
  simp_all

/-- **C66**, over local files, for producers with one output whose storages are not shared.  A graph
was built from files that are named by the templates; then anything happened that leaves the raw
data and the produced files alone, and a new process was started with an empty backend.  Building
the graph in the new process succeeds, calls no producer and writes no file.

Missing: producers with several outputs. -/
theorem C66_new_process_reuses_local_files_partial (hL : Layout kt gs)
    (hd : Disciplined (disk base kt) gs) (hso : ∀ g, gs g → SingleOutput (disk base kt) g)
    (ho : OneOwner (disk base kt) gs) (hr : FpRanges (disk base kt)) {s t u s' : St CKey D}
    (hs : Reach (disk base kt) gs s) {g : Graph} (hg : gs g) (ht : Tidy kt gs s.files)
    (hown : OwnStorage g) {σ : Snapshot}
    (hrun : graphBuild (disk base kt) g { s with budget := none } = (.ok σ, t))
    {ops : List (HOp CKey D)} (hv : ValidOps (disk base kt) gs t ops) (hq : ∀ op ∈ ops, op.Quiet)
    (hops : runOps (disk base kt) t (ops ++ [.restart fun _ => true]) = u)
    {res : Except Err Snapshot}
    (hrun' : graphBuild (disk base kt) g { u with budget := none } = (res, s'))
    (hf : FpUnique (disk base kt) s'.invs) (hu : SnapUnique s'.raws) :
    ∃ σ', res = .ok σ' ∧ s'.calls = u.calls ∧ s'.files = u.files := by
  have hn := Disk.noClash hL ho hf
  have hlog := HOp.run_logs (env := disk base kt) (.build g none) u
  simp only [HOp.run, hrun'] at hlog
  have hq1 : ∀ op ∈ ops ++ [HOp.restart fun _ => true], op.Quiet := by
    intro op h
    rcases List.mem_append.1 h with h | h
    · exact hq op h
    · rw [List.mem_singleton.1 h]; exact fun _ => rfl
  have hv1 : ValidOps (disk base kt) gs t (ops ++ [.restart fun _ => true]) := by
    clear hops hq hq1 hrun
    induction ops generalizing t with
    | nil => exact ⟨trivial, trivial⟩
    | cons op ops ih => exact ⟨hv.1, ih hv.2⟩
  have ht' : HOp.run (disk base kt) s (.build g none) = t := by simp only [HOp.run, hrun]
  have hops' : runOps (disk base kt) s (.build g none :: (ops ++ [.restart fun _ => true])) = u := by
    rw [← hops, ← ht']; rfl
  have hadds := quiet_adds hd (.build g none :: (ops ++ [.restart fun _ => true])) hs
    ⟨hg, by rw [ht']; exact hv1⟩ (by
      intro op h
      rcases List.mem_cons.1 h with rfl | h
      · trivial
      · exact hq1 op h) (by rw [hops']; exact hn.mono hlog.1) (by rw [hops']; exact hu.sub hlog.2)
  rw [hops'] at hadds
  have hsto : u.storage = [] := by
    rw [← hops]
    clear hops hq hq1 hrun hv hv1 ht' hops'
    induction ops generalizing t with
    | nil => rfl
    | cons op ops ih => exact ih
  refine C66_building_again_succeeds_and_calls_nothing_partial hd hso hr hs hg
    (Disk.apart hL ht hg) hown hrun hv1 hq1 hops (.inr ⟨fun k i p pos _ => by rw [hsto]; rfl,
      fun k i p pos hm => ?_,
      C66_local_files_are_found_again hL (Disk.tidy_of (base := base) hL ht hadds.new)⟩) hrun' hn hu
  obtain ⟨T, tm, c, h1, -⟩ := hL.made i p pos ⟨g, hg, k, hm⟩
  exact ⟨tm, h1⟩

end

/-! ### Cases that meet the hypotheses -/

namespace Ex66
open Ex65 ExDisk Disk

theorem own : OwnStorage g := by
  intro k i p pos k' i' p' pos' hm hm' hs
  simp only [g, a, b, c, List.mem_cons, Prod.mk.injEq, List.not_mem_nil, or_false, reduceCtorEq,
    and_false, Art.made.injEq] at hm hm'
  rcases hm with ⟨-, rfl, rfl, rfl⟩ | ⟨-, rfl, rfl, rfl⟩ <;>
    rcases hm' with ⟨-, rfl, rfl, rfl⟩ | ⟨-, rfl, rfl, rfl⟩ <;>
    first
    | rfl
    | (exfalso; revert hs; decide)

/-- After the build of `t`, a lookup and a restart. -/
def v : St CKey Str := runOps env t ([.lookup b []] ++ [.restart fun _ => true])
def v' : St CKey Str := (graphBuild env g { v with budget := none }).2
def res : Except Err Snapshot := (graphBuild env g { v with budget := none }).1

/-- The first build calls producers, the build in the new process does not. -/
example : t.calls.length = 3 ∧ v.storage = [] ∧
    ∃ σ', res = .ok σ' ∧ v'.calls = v.calls ∧ v'.files = v.files := by
  refine ⟨by decide +kernel, by decide +kernel, ?_⟩
  exact C66_new_process_reuses_local_files_partial (ops := [.lookup b []]) (u := v) isLayout disc
    single owner ranges reach0 (List.mem_singleton.2 rfl) isTidy own run_t ⟨trivial, trivial⟩
    (by simp [HOp.Quiet]) (by rw [v, env]) (Prod.ext (by rw [res, env]) (by rw [v', env]))
    (fpUnique _ (by decide +kernel)) (snapUnique _ (by decide +kernel))

end Ex66

namespace Ex66
open Ex

theorem own42 : OwnStorage Ex42.g := by
  intro k i p pos k' i' p' pos' hm hm' hs
  simp only [Ex42.g, Ex42.a, Ex42.b, Ex42.c, List.mem_cons, Prod.mk.injEq, List.not_mem_nil,
    or_false, reduceCtorEq, and_false, Art.made.injEq] at hm hm'
  rcases hm with ⟨-, rfl, rfl, rfl⟩ | ⟨-, rfl, rfl, rfl⟩ <;>
    rcases hm' with ⟨-, rfl, rfl, rfl⟩ | ⟨-, rfl, rfl, rfl⟩ <;>
    first
    | rfl
    | (exfalso; revert hs; decide)

/-- Raw data is changed, the graph is built, the raw data is changed back. -/
def ops : List (HOp Nat Str) :=
  [.put "a~1".toList ['w'], .build Ex42.g none, .put "a~1".toList ['u']]

def u : St Nat Str := runOps Ex.env Ex40.t ops
def u' : St Nat Str := (graphBuild Ex.env Ex42.g { u with budget := none }).2

def τ : Snapshot := ⟨979615, Ex42.g⟩

theorem run_u : graphBuild Ex.env Ex42.g { u with budget := none } = (.ok τ, u') := by
  have : (graphBuild Ex.env Ex42.g { u with budget := none }).1 = .ok τ := by decide +kernel
  exact Prod.ext this (by rw [u'])

theorem rawEq : RawEq (rawNow Ex.env Ex42.g Ex42.s0.files) (rawNow Ex.env Ex42.g u.files) := by
  intro i
  have he : rawNow Ex.env Ex42.g Ex42.s0.files i = rawNow Ex.env Ex42.g u.files i := by
    by_cases hi : i = Ex42.a.info
    · rw [hi]; decide +kernel
    · have : (Ex42.g.arts.any fun x => decide (x.2 = Art.raw i)) = false := by
        simp only [Ex42.g, Ex42.a, Ex42.b, Ex42.c, List.any_cons, List.any_nil, Art.raw.injEq,
          reduceCtorEq, decide_false, Bool.or_false, Bool.false_or, decide_eq_false_iff_not]
        intro h; exact hi h.symm
      simp [rawNow, this]
  have hn : (keys (rawNow Ex.env Ex42.g Ex42.s0.files i)).Nodup := by
    simp only [rawNow]; split
    · split
      · exact nodup_keys_ofItems _
      · simp [keys]
    · simp [keys]
  rw [← he]
  exact ⟨hn, hn, fun _ => Iff.rfl⟩

/-- The build for the changed data calls producers, the build for the old data does not. -/
example : Ex40.t.calls.length = 3 ∧ u.calls.length = 5 ∧ u'.calls = u.calls ∧
    u'.files = u.files := by
  refine ⟨by decide +kernel, by decide +kernel, ?_⟩
  exact C66_nothing_is_built_twice_partial (ops := ops) (u := u) (s := Ex42.s0) Ex42.disc
    Ex42.single Ex40.reach (List.mem_singleton.2 rfl) own42 Ex40.run_ok
    ⟨not_produced _ _ (by decide +kernel), List.mem_singleton.2 rfl,
      not_produced _ _ (by decide +kernel), trivial⟩
    (by simp [ops, HOp.KeepsFiles]) (by rw [u]) rawEq (.inl (by simp [ops, HOp.SameProcess])) run_u
    (noClash _ _ (by decide +kernel)) (snapUnique _ (by decide +kernel))

end Ex66
end Arti.Props
