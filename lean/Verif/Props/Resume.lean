import Verif.Props.Build
import Verif.Props.Snapshot
import Verif.Lemmas.Total
import Verif.Lemmas.Paths
import Verif.Lemmas.Linked
import Verif.Lemmas.Written
import Verif.Examples.Apart

/-!
# Interrupted builds can be resumed (C40), and the order of a build does not matter (C43)
-/

namespace Arti.Props
open Arti PyDict World Spec M
variable {κ D : Type} [DecidableEq κ] {env : Env κ D} {gs : Graph → Prop}

/-- Raw artifacts with data keep data if the raw data stays the same. -/
theorem raw_stays {g : Graph} {files files' : PyDict Str Str} {k : Str} {i : ArtInfo}
    (hi : (k, Art.raw i) ∈ g.arts) (h : RawEq (rawNow env g files) (rawNow env g files'))
    (hd : ∃ ps, discover env files i.sto [] = .ok ps ∧ ps ≠ []) :
    ∃ ps, discover env files' i.sto [] = .ok ps ∧ ps ≠ [] := by
  obtain ⟨ps, h1, h2⟩ := hd
  obtain ⟨sn, ps', rfl⟩ := List.exists_cons_of_ne_nil h2
  have hany : g.arts.any (fun x => x.2 = Art.raw i) = true :=
    List.any_eq_true.2 ⟨_, hi, by simp⟩
  obtain ⟨-, c, hc⟩ := discover_raw h1 (sn := sn) (by simp)
  have hm : (keys (rawNow env g files i)) ≠ [] := by
    simp only [rawNow, hany, h1, ↓reduceIte, List.filterMap_cons, hc, Option.map_some]
    intro hnil
    have := (mem_keys_ofItems (k := sn) (items := (sn, c) :: ps'.filterMap fun sn =>
      (content files sn.part.loc).map fun c => (sn, c))).2 (by simp)
    rw [hnil] at this
    simp at this
  have hm' : rawNow env g files' i ≠ [] := by
    intro hnil
    obtain ⟨x, hx⟩ := List.exists_mem_of_ne_nil _ hm
    obtain ⟨y, hy, rfl⟩ := List.mem_map.1 hx
    have := ((h i).2.2 y).1 hy
    rw [hnil] at this
    simp at this
  cases hd' : discover env files' i.sto [] with
  | error e => simp [rawNow, hany, hd'] at hm'
  | ok qs =>
    refine ⟨qs, rfl, ?_⟩
    rintro rfl
    simp [rawNow, hany, hd', ofItems] at hm'

/-- If a build succeeded then the inputs of its producers are in the graph. -/
theorem inputs_in_graph {g : Graph} {s t : St κ D} {σ : Snapshot}
    (h : graphBuild env g s = (.ok σ, t)) :
    ∀ k i p pos, (k, Art.made i p pos) ∈ g.arts → ∀ n a, (n, a) ∈ p.inputs →
      ∃ k, g.keyOf a = some k := by
  intro k i p pos hm n a ha
  unfold graphBuild at h
  rw [run_bind] at h
  cases hf : fromGraph env g s with
  | mk rf s1 =>
    rw [hf] at h
    cases rf with
    | error e => simp at h
    | ok τ =>
      have hτ := fromGraph_graph hf
      simp only [run_bind, World.build, run_lift] at h
      obtain ⟨order, ho⟩ := (C28_graphs_are_acyclic τ.graph).2
      rw [ho] at h
      simp only at h
      cases hb : buildOrder env τ order s1 with
      | mk rb s2 =>
        rw [hb] at h
        cases rb with
        | error e => simp at h
        | ok u =>
          obtain ⟨l, r, rfl⟩ := List.append_of_mem
            ((pdr_mem_order ho p).2 ⟨k, i, pos, hτ ▸ hm⟩)
          obtain ⟨s3, s4, -, h4, -⟩ := buildOrder_split l r s1 s2 hb
          rw [← hτ]
          exact buildProducer_keys h4 (n, a) ha

/-- A build that succeeded succeeds again while nothing but produced files is added. -/
theorem succeeds_again (hd : Disciplined env gs) (hr : FpRanges env) {s t u s' : St κ D} {g : Graph}
    (hg : gs g) (ha : Apart env gs g s.files) {σ : Snapshot}
    (hrun : graphBuild env g { s with budget := none } = (.ok σ, t))
    (hfull : ∀ k a, (k, a) ∈ g.arts → ∃ ℓ, evalArt env (rawNow env g s.files) a = .ok ℓ)
    (hadds : Adds env gs s.files u.files) (hw : WInv env gs u) (hl : LInv (LinkEval env) u)
    (hone : OneEach g) (hall : AllOutputs env g) {W : St κ D → Prop}
    (hW : ∀ σ r, σ.graph = g → Completes env gs σ r W)
    (hW0 : ∀ σ s1, fromGraph env g { u with budget := none } = (.ok σ, s1) → W s1)
    {res : Except Err Snapshot} (hrun' : graphBuild env g { u with budget := none } = (res, s'))
    (hn : NoClash env gs s'.invs) (hu : SnapUnique s'.raws) : ∃ σ', res = .ok σ' := by
  have hraw := ha.raw _ hadds
  have hin := inputs_in_graph hrun
  have hsnap : ∃ σ', (fromGraph env g { u with budget := none }).1 = .ok σ' := by
    refine (C30_succeeds_iff_all_raw_data_exists hr (hd.keys g hg) rfl).2 fun k i hi =>
      raw_stays hi hraw ?_
    refine (C30_succeeds_iff_all_raw_data_exists (s := { s with budget := none }) hr
      (hd.keys g hg) rfl).1 ?_ k i hi
    unfold graphBuild at hrun
    rw [run_bind] at hrun
    cases hf : fromGraph env g { s with budget := none } with
    | mk rf s1 =>
      rw [hf] at hrun
      cases rf with
      | error e => simp at hrun
      | ok τ => exact ⟨τ, rfl⟩
  obtain ⟨σ', hσ'⟩ := hsnap
  have hbud : (fromGraph env g { u with budget := none }).2.budget = none :=
    free_fromGraph (env := env) g { u with budget := none } rfl
  have hfiles : (fromGraph env g { u with budget := none }).2.files =
      (u).files :=
    keeps_fromGraph (env := env) (K := (· = (u).files)) g _ rfl
  unfold graphBuild at hrun'
  rw [run_bind] at hrun'
  cases hf : fromGraph env g { u with budget := none } with
  | mk rf s1 =>
    rw [hf] at hrun' hσ' hbud hfiles
    simp only at hσ' hbud hfiles
    subst hσ'
    obtain ⟨hw1, hl1, hf1, hi1, hr1, h1⟩ := fromGraph_spec rawRel_linkEval (s := { u with
      budget := none }) hd hg ⟨hw.files, hw.store⟩ ⟨hl.nodup, hl.ok⟩ hf
    obtain ⟨hgr, r, hmr, hraws, hfr⟩ := h1 σ' rfl
    simp only [run_bind, World.build, run_lift] at hrun'
    obtain ⟨order, ho⟩ := (C28_graphs_are_acyclic σ'.graph).2
    rw [ho] at hrun'
    simp only at hrun'
    have hs2 : s' = (buildOrder env σ' order s1).2 := by
      cases hb : buildOrder env σ' order s1 with
      | mk rb s2 =>
        rw [hb] at hrun'
        cases rb <;> · simp only [run_pure, Prod.mk.injEq] at hrun'; exact hrun'.2.symm
    have hu1 : SnapUnique s1.raws := by
      refine hu.sub fun x hx => ?_
      have := HOp.run_logs (env := env) (.rebuild σ' none) s1
      have hb : World.build env σ' { s1 with budget := none } = buildOrder env σ' order s1 := by
        have : ({ s1 with budget := none } : St κ D) = s1 := by rw [← hbud]
        rw [this, World.build, run_bind, run_lift, ho]
      simp only [HOp.run, hb] at this
      rw [hs2]
      exact this.2 x hx
    have hK : Kind env gs (fun files => ∀ path, get? files path ≠ none →
        get? s.files path ≠ none ∨ ProducedPath env gs path) :=
      ⟨adds_kind s.files, fun files h => ha.disc files h⟩
    subst hgr
    have hrho : rawOf σ' r = rawNow env σ'.graph (u).files := funext hraws
    obtain ⟨s3, h3, -⟩ := total_buildOrder hK hd hg hone hall (hW σ' r rfl) hin
      (by
        intro k a hka
        obtain ⟨ℓ, hev⟩ := hfull k a hka
        have := evalArt_congr hd.iter hraw a
        rw [hev] at this
        rw [hrho]
        cases hev' : evalArt env (rawNow env σ'.graph (u).files) a with
        | ok ℓ' => exact ⟨ℓ', rfl⟩
        | error e => rw [hev'] at this; exact this.elim)
      order [] s1 (sched_static ho fun p hp => (pdr_mem_order ho p).1 hp) (hW0 _ _ hf) hw1 hl1 hmr hu1
      (hfr hu1) (by simp) ⟨hbud, by rw [hfiles]; exact hadds.new⟩ (by rw [← hs2]; exact hn)
    rw [h3] at hrun'
    simp only [run_pure, Prod.mk.injEq] at hrun'
    exact ⟨σ', hrun'.1.symm⟩

/-- **C40**, for producers with one output.  Consider a build that would succeed if it ran without
interruption.  Instead, anything that leaves the raw data alone happens: the build is started and
interrupted after any effect, any number of times, processes are restarted with an empty backend,
other graphs are built or interrupted.  Then running the build again succeeds, and the snapshot
links the same partitions with the same contents and reads the same values as the build that was
never interrupted.

Missing: producers with several outputs, for which this fails (`C40_violated_by_two_outputs`), and
interruptions while a file is being written, for which it fails too
(`C67_violated_by_interruption`). -/
theorem C40_interrupted_build_can_be_resumed_partial (hd : Disciplined env gs)
    (hso : ∀ g, gs g → SingleOutput env g) (hr : FpRanges env) {s t : St κ D}
    (hs : Reach env gs s) {g : Graph} (hg : gs g) (ha : Apart env gs g s.files) {σ : Snapshot}
    (hrun : graphBuild env g { s with budget := none } = (.ok σ, t))
    (hnt : NoClash env gs t.invs) (hut : SnapUnique t.raws) {ops : List (HOp κ D)}
    (hv : ValidOps env gs s ops) (hq : ∀ op ∈ ops, op.Quiet) {u s' : St κ D}
    (hops : runOps env s ops = u) {res : Except Err Snapshot}
    (hrun' : graphBuild env g { u with budget := none } = (res, s'))
    (hn : NoClash env gs s'.invs) (hu : SnapUnique s'.raws) :
    ∃ σ', res = .ok σ' ∧ σ'.graph = g ∧
      ∀ k a, (k, a) ∈ g.arts → ∃ key, g.keyOf a = some key ∧
        (∀ sn, sn ∈ linksOf t σ key ↔ sn ∈ linksOf s' σ' key) ∧
        (∀ sn ∈ linksOf t σ key, ∃ c, content t.files sn.part.loc = some c ∧
          content s'.files sn.part.loc = some c) ∧
        ∀ view, (readSnapshotData env σ a view t).1 = (readSnapshotData env σ' a view s').1 := by
  have hlog := HOp.run_logs (env := env) (.build g none) (u)
  simp only [HOp.run, hrun'] at hlog
  have hadds := quiet_adds hd ops hs hv hq
  have hreach := Reach.ops env gs hs hv
  rw [hops] at hadds hreach
  replace hadds := hadds (hn.mono hlog.1) (hu.sub hlog.2)
  have hraw := ha.raw _ hadds
  obtain ⟨hw, hl⟩ := hreach.inv hd hso (hn.mono hlog.1) (hu.sub hlog.2)
  obtain ⟨-, hfull⟩ := C42_incremental_build_is_evaluation_partial hd hso hs hg hrun hnt hut
  have hok : ∃ σ', res = .ok σ' := succeeds_again hd hr hg ha hrun
    (fun k a hka => by obtain ⟨_, ℓ, _, hev, _⟩ := hfull k a hka; exact ⟨ℓ, hev⟩) hadds hw hl
    (hso g hg).oneEach ((hso g hg).allOutputs hd hg)
    (fun σ r e => completes_single hd (e ▸ hg) (e ▸ hso g hg) r) (fun _ _ _ => trivial) hrun' hn hu
  obtain ⟨σ', rfl⟩ := hok
  refine ⟨σ', rfl, (C42_incremental_build_is_evaluation_partial hd hso hreach hg hrun' hn hu).1, ?_⟩
  exact C42_incremental_build_equals_clean_build_partial hd hso hs hreach hg hrun hrun' hnt hn hut
    hu hraw

/-! ### A case that meets the hypotheses

The graph of C42.  A build is interrupted after 7 effects, then a process is restarted and
interrupted after 9 effects, then the backend is lost again. -/

namespace Ex40
open Ex

def ops : List (HOp Nat Str) :=
  [.build Ex42.g (some 7), .restart fun _ => true, .build Ex42.g (some 9), .lookup Ex42.b [],
    .snapshot Ex42.g none, .build Ex42.g (some 3), .restart fun _ => true]

def t : St Nat Str := (graphBuild Ex.env Ex42.g { Ex42.s0 with budget := none }).2
def u : St Nat Str := runOps Ex.env Ex42.s0 ops
def s' : St Nat Str := (graphBuild Ex.env Ex42.g { u with budget := none }).2
def σ : Snapshot := ⟨979615, Ex42.g⟩

theorem run_ok : graphBuild Ex.env Ex42.g { Ex42.s0 with budget := none } = (.ok σ, t) := by
  have : (graphBuild Ex.env Ex42.g { Ex42.s0 with budget := none }).1 = .ok σ := by decide +kernel
  exact Prod.ext this (by rw [t])

def res : Except Err Snapshot := (graphBuild Ex.env Ex42.g { u with budget := none }).1

theorem run_again : graphBuild Ex.env Ex42.g { u with budget := none } = (res, s') :=
  Prod.ext (by rw [res]) (by rw [s'])

theorem reach : Reach Ex.env (· ∈ [Ex42.g]) Ex42.s0 := .init Ex42.files none fun path hp => by
  have : path ∈ keys Ex42.files := by
    apply Classical.byContradiction
    intro h; exact hp ((get?_eq_none_iff _ _).2 h)
  simp only [Ex42.files, keys, List.map_cons, List.map_nil, List.mem_cons, List.not_mem_nil,
    or_false] at this
  rcases this with rfl | rfl <;> exact not_produced _ _ (by decide +kernel)

/-- The interrupted builds left something behind but did not complete. -/
example : u.files.length = 4 ∧ s'.files.length = 5 := by decide +kernel

example : ∃ σ', res = .ok σ' ∧
    (readSnapshotData Ex.env σ' Ex42.c 0 s').1 = .ok "u1v11".toList := by
  obtain ⟨σ', h1, -, h2⟩ := C40_interrupted_build_can_be_resumed_partial (ops := ops) Ex42.disc
    Ex42.single ExFp.ranges reach (List.mem_singleton.2 rfl) (apart _ _ _ (by decide +kernel))
    run_ok (noClash _ _ (by decide +kernel)) (snapUnique _ (by decide +kernel))
    ⟨List.mem_singleton.2 rfl, trivial, List.mem_singleton.2 rfl, trivial,
      List.mem_singleton.2 rfl, List.mem_singleton.2 rfl, trivial, trivial⟩
    (by
      intro op ho
      simp only [ops, List.mem_cons, List.not_mem_nil, or_false] at ho
      rcases ho with rfl | rfl | rfl | rfl | rfl | rfl | rfl <;> simp [HOp.Quiet])
    (u := u) (by rw [u]) run_again (noClash _ _ (by decide +kernel)) (snapUnique _ (by decide +kernel))
  refine ⟨σ', h1, ?_⟩
  obtain ⟨_, -, -, -, h3⟩ := h2 ['c'] Ex42.c (by decide)
  rw [← h3 0]
  decide +kernel

end Ex40

namespace Ex40

/-! A producer with two outputs. -/

def x : Art := .raw ⟨0, false, .file ⟨"a".toList, false⟩⟩
def p : Pdr := .mk ['T'] ['1'] (.cons ['x'] x .nil)
def y : Art := .made ⟨0, false, .file ⟨"b{input_fingerprint}".toList, false⟩⟩ p 0
def z : Art := .made ⟨0, false, .file ⟨"c{input_fingerprint}".toList, false⟩⟩ p 1
def h : Graph := ⟨['h'], [(['a'], x), (['b'], y), (['c'], z)], []⟩
def s0 : St Nat Str := ⟨[(['a'], ['u'])], [], [], [], [], [], none, [], [], []⟩

/-- Build and read an artifact. -/
def buildAndRead (a : Art) : M Nat Str Str := do
  let σ ← graphBuild Ex.env h
  readSnapshotData Ex.env σ a 0

/-- A build is interrupted after ten effects. -/
def s1 : St Nat Str := { (graphBuild Ex.env h { s0 with budget := some 10 }).2 with budget := none }

/-- The build is run again. -/
def s2 : St Nat Str := (graphBuild Ex.env h s1).2

end Ex40

/-- **C40** is violated for producers with two outputs: a build of a graph with such a producer
succeeds, but if it is interrupted when one output has been stored and the other one not, then all
further builds succeed without ever producing the other output.

The build reads `x` and makes `y` and `z`.  After the interruption, a build returns a snapshot, `y`
can be read and `z` cannot; neither can it after a further build. -/
theorem C40_violated_by_two_outputs :
    (Ex40.buildAndRead Ex40.z Ex40.s0).1 = .ok ['u', 't'] ∧
    (graphBuild Ex.env Ex40.h { Ex40.s0 with budget := some 10 }).1 = .error .crash ∧
    (Ex40.buildAndRead Ex40.y Ex40.s1).1 = .ok ['u', '1'] ∧
    (Ex40.buildAndRead Ex40.z Ex40.s1).1 = .error .fileNotFound ∧
    (Ex40.buildAndRead Ex40.y Ex40.s2).1 = .ok ['u', '1'] ∧
    (Ex40.buildAndRead Ex40.z Ex40.s2).1 = .error .fileNotFound := by
  refine ⟨?_, ?_, ?_, ?_, ?_, ?_⟩ <;> decide +kernel

/-! ## The order of a build -/

/-- The order that the executor uses, `TopologicalSorter.static_order`, is a schedule. -/
theorem C43_executor_uses_a_schedule {g : Graph} {order : List Nd}
    (h : Topo.staticOrder g.dependencies = .ok order) : IsSchedule g order := by
  refine ⟨fun p => pdr_mem_order h p, fun l p r he n i q pos hm ⟨k', hk'⟩ => ?_⟩
  obtain ⟨k, i0, pos0, hk⟩ := (pdr_mem_order h p).1 (by rw [he]; simp)
  exact C27_producer_after_input_producers g order h k i0 p pos0 hk n i q pos hm k' hk' l r he

theorem _root_.Arti.Spec.IsSchedule.sched {g : Graph} {order : List Nd} (h : IsSchedule g order) :
    Sched g [] order := by
  refine sched_of_forall order [] fun l p r he => ⟨(h.all p).1 (by rw [he]; simp), ?_⟩
  intro n i q pos hm hk
  simpa using h.after l p r he n i q pos hm hk

/-- What holds after a run of the executor in any order. -/
private theorem order_full (hd : Disciplined env gs) (hso : ∀ g, gs g → SingleOutput env g)
    {s : St κ D} (hs : Reach env gs s) {σ : Snapshot} {b : Option Nat} (hg : gs σ.graph)
    {r : PyDict Str (Data κ)} (hr : (σ, r) ∈ s.raws)
    (hraw : ∀ k i, (k, Art.raw i) ∈ σ.graph.arts → Full env s σ (rawOf σ r) (.raw i))
    {order : List Nd} (ho : IsSchedule σ.graph order) {res : Except Err Unit} {s' : St κ D}
    (hrun : buildOrder env σ order { s with budget := b } = (res, s'))
    (hn : NoClash env gs s'.invs) (hu : SnapUnique s.raws) :
    LInv (LinkEval env) s' ∧ Spec.Grow s s' ∧ WInv env gs s ∧ LInv (LinkEval env) s ∧
      (res = .ok () → ∀ k a, (k, a) ∈ σ.graph.arts → Full env s' σ (rawOf σ r) a) := by
  have hlog : ∀ e ∈ s.invs, e ∈ s'.invs := by
    have hf : Frame (fun s' : St κ D => ∀ e ∈ s.invs, e ∈ s'.invs) :=
      ⟨fun _ _ h => h, fun _ _ h => h, fun _ _ h => h, fun _ _ h => h, fun _ _ h => h⟩
    have := hf.buildOrder (env := env) (fun s' x h e he => List.mem_append.2 (.inl (h e he))) σ order
      { s with budget := b } (fun _ => id)
    rw [hrun] at this
    exact this
  obtain ⟨hw, hl⟩ := hs.inv hd hso (hn.mono hlog) hu
  obtain ⟨-, h2, h3, h4⟩ := buildOrder_spec hd hg (hso _ hg) order [] { s with budget := b } s' res
    ho.sched ⟨hw.files, hw.store⟩ ⟨hl.nodup, hl.ok⟩ hr hu hraw (by simp) hrun hn
  refine ⟨h2, ⟨h3.files, h3.storage, h3.links, h3.invs, h3.raws⟩, hw, hl, fun h k a ha => ?_⟩
  cases a with
  | raw i => exact (h4 h).1 k i ha
  | made i p pos =>
    exact (h4 h).2 k i p pos ha (by simpa using (ho.all p).2 ⟨k, i, pos, ha⟩)

/-- A snapshot that has just been taken can be built (so the hypothesis of C43 is met). -/
theorem C43_new_snapshot_is_valid (hd : Disciplined env gs) {s s' : St κ D} (hs : Reach env gs s)
    {g : Graph} (hg : gs g) {b b' : Option Nat} {σ : Snapshot}
    (h : fromGraph env g { s with budget := b } = (.ok σ, s')) (hn : NoClash env gs s.invs)
    (hu : SnapUnique s'.raws) : (HOp.rebuild σ b').Valid env gs s' := by
  have hlog := HOp.run_logs (env := env) (.snapshot g b) s
  simp only [HOp.run, h] at hlog
  obtain ⟨hw, hl⟩ := hs.sound hd hn (hu.sub hlog.2) (log := s.invs) fun _ => id
  obtain ⟨-, -, -, -, -, h1⟩ := fromGraph_spec (rawRel_linkLog s.invs) (s := { s with budget := b }) hd hg
    ⟨hw.files, hw.store⟩ ⟨hl.nodup, hl.ok⟩ h
  obtain ⟨rfl, r, hr, -, hf⟩ := h1 σ rfl
  exact ⟨hg, r, hr, hf hu⟩

/-- **C43**, for producers with one output: if the executor succeeds with two orders of the
producers that respect the dependencies, then the same files with the same contents are stored, the
same partitions are linked in all snapshots, and reading gives the same values.

Missing: producers with several outputs. -/
theorem C43_result_does_not_depend_on_order_partial (hd : Disciplined env gs)
    (hso : ∀ g, gs g → SingleOutput env g) {s : St κ D} (hs : Reach env gs s) {σ : Snapshot}
    {b1 b2 : Option Nat} (hv : (HOp.rebuild σ none).Valid env gs s) {o1 o2 : List Nd}
    (ho1 : IsSchedule σ.graph o1) (ho2 : IsSchedule σ.graph o2) {s1 s2 : St κ D}
    (h1 : buildOrder env σ o1 { s with budget := b1 } = (.ok (), s1))
    (h2 : buildOrder env σ o2 { s with budget := b2 } = (.ok (), s2))
    (hu : SnapUnique s.raws) (hn1 : NoClash env gs s1.invs) (hn2 : NoClash env gs s2.invs) :
    (∀ path, get? s1.files path = get? s2.files path) ∧
    (∀ τ k sn, sn ∈ linksOf s1 τ k ↔ sn ∈ linksOf s2 τ k) ∧
    ∀ τ a view, (readSnapshotData env τ a view s1).1 = (readSnapshotData env τ a view s2).1 := by
  obtain ⟨hg, r, hr, hraw⟩ := hv
  obtain ⟨l1, g1, -, -, f1⟩ := order_full hd hso hs hg hr hraw ho1 h1 hn1 hu
  obtain ⟨l2, g2, -, -, f2⟩ := order_full hd hso hs hg hr hraw ho2 h2 hn2 hu
  replace f1 := f1 rfl
  replace f2 := f2 rfl
  -- links
  have hlinks : ∀ τ k sn, sn ∈ linksOf s1 τ k ↔ sn ∈ linksOf s2 τ k := by
    intro τ k sn
    by_cases hk : τ = σ ∧ ∃ a, σ.graph.keyOf a = some k
    · obtain ⟨rfl, a, ha⟩ := hk
      obtain ⟨k1, ℓ1, e1, e2, -, e3, -⟩ := f1 k a (Graph.keyOf_mem ha)
      obtain ⟨k2, ℓ2, d1, d2, -, d3, -⟩ := f2 k a (Graph.keyOf_mem ha)
      rw [ha, Option.some.injEq] at e1 d1
      subst e1 d1
      rw [e2, Except.ok.injEq] at d2
      subst d2
      rw [e3, d3]
    · have key : ∀ (o : List Nd), IsSchedule σ.graph o → ∀ b,
          get? (buildOrder env σ o { s with budget := b }).2.links (τ, k) =
            get? s.links (τ, k) := by
        intro o ho b
        refine buildOrder_links τ k o _ fun p hp => ⟨(ho.all p).1 hp, ?_⟩
        rintro rfl i pos hkey
        exact hk ⟨rfl, _, hkey⟩
      have e1 := key o1 ho1 b1
      have e2 := key o2 ho2 b2
      rw [h1] at e1
      rw [h2] at e2
      simp only [linksOf, e1, e2]
  -- files
  have hfiles : ∀ (o1 o2 : List Nd) (b1 b2 : Option Nat) (s1 s2 : St κ D),
      buildOrder env σ o1 { s with budget := b1 } = (.ok (), s1) → FSub s.files s1.files →
      FSub s.files s2.files →
      (∀ k a, (k, a) ∈ σ.graph.arts → Full env s1 σ (rawOf σ r) a) →
      (∀ k a, (k, a) ∈ σ.graph.arts → Full env s2 σ (rawOf σ r) a) →
      ∀ path c, get? s1.files path = some c → get? s2.files path = some c := by
    intro o1 o2 b1 b2 s1 s2 h1 g1 g2 f1 f2 path c hc
    have := (okay_buildOrder (env := env) (σ := σ) (files0 := s.files) o1).ok
      (s := { s with budget := b1 }) (fun _ => .inl) h1 path (by rw [hc]; simp)
    rcases this with h3 | ⟨a, key, sn, hk, hsn, hloc⟩
    · cases h4 : get? s.files path with
      | none => exact absurd h4 h3
      | some c' =>
        have h5 := g1 path c' h4
        rw [hc, Option.some.injEq] at h5
        rw [h5]
        exact g2 path c' h4
    · obtain ⟨k1, ℓ1, e1, e2, -, e3, e4⟩ := f1 key a (Graph.keyOf_mem hk)
      obtain ⟨k2, ℓ2, d1, d2, -, d3, d4⟩ := f2 key a (Graph.keyOf_mem hk)
      rw [hk, Option.some.injEq] at e1 d1
      subst e1 d1
      rw [e2, Except.ok.injEq] at d2
      subst d2
      obtain ⟨x, hx, rfl⟩ := List.mem_map.1 ((e3 sn).1 hsn)
      have h5 := e4 x hx
      have h6 := d4 x hx
      rw [hloc] at h5 h6
      simp only [content] at h5 h6
      rw [hc] at h5
      rw [h6, ← h5]
  have hfs : ∀ path, get? s1.files path = get? s2.files path := by
    intro path
    have q1 := hfiles o1 o2 b1 b2 s1 s2 h1 g1.files g2.files f1 f2 path
    have q2 := hfiles o2 o1 b2 b1 s2 s1 h2 g2.files g1.files f2 f1 path
    cases h3 : get? s1.files path with
    | some c => rw [q1 c h3]
    | none =>
      cases h4 : get? s2.files path with
      | none => rfl
      | some c => rw [q2 c h4] at h3; simp at h3
  refine ⟨hfs, hlinks, fun τ a view => ?_⟩
  simp only [readSnapshotData, run_bind, M.need]
  cases τ.graph.keyOf a with
  | none => rfl
  | some k =>
    simp only [readSnapshotPartitions, run_gets, run_lift]
    have hit : env.iter ((get? s1.links (τ, k)).getD []) =
        env.iter ((get? s2.links (τ, k)).getD []) :=
      hd.iter.ext _ _ (l1.linksOf_nodup τ k) (l2.linksOf_nodup τ k) (hlinks τ k)
    rw [hit]
    have hcs : ∀ ss : List (PSnap κ), contents s1.files ss = contents s2.files ss := by
      intro ss
      induction ss with
      | nil => rfl
      | cons sn ss ih =>
        have : content s1.files sn.part.loc = content s2.files sn.part.loc := by
          cases sn.part.loc with
          | file path => exact hfs path
          | lit id v => rfl
        simp only [contents, this, ih]
    simp only [ioRead, hcs]

/-- **C43**, for producers with one output: if nothing interrupts the executor and produced files
are not mistaken for something else, then it succeeds with one order of the producers that respects
the dependencies iff it succeeds with another one. -/
theorem C43_success_does_not_depend_on_order_partial (hd : Disciplined env gs)
    (hso : ∀ g, gs g → SingleOutput env g) {s : St κ D} (hs : Reach env gs s) {σ : Snapshot}
    (hv : (HOp.rebuild σ none).Valid env gs s) (ha : Apart env gs σ.graph s.files)
    {o1 o2 : List Nd} (ho1 : IsSchedule σ.graph o1) (ho2 : IsSchedule σ.graph o2) {s1 s2 : St κ D}
    {r1 r2 : Except Err Unit}
    (h1 : buildOrder env σ o1 { s with budget := none } = (r1, s1))
    (h2 : buildOrder env σ o2 { s with budget := none } = (r2, s2))
    (hu : SnapUnique s.raws) (hn1 : NoClash env gs s1.invs) (hn2 : NoClash env gs s2.invs) :
    r1 = .ok () ↔ r2 = .ok () := by
  obtain ⟨hg, r, hr, hraw⟩ := hv
  have key : ∀ (o1 o2 : List Nd) (s1 s2 : St κ D) (r2 : Except Err Unit),
      IsSchedule σ.graph o1 → IsSchedule σ.graph o2 →
      buildOrder env σ o1 { s with budget := none } = (.ok (), s1) →
      buildOrder env σ o2 { s with budget := none } = (r2, s2) →
      NoClash env gs s1.invs → NoClash env gs s2.invs → r2 = .ok () := by
    intro o1 o2 s1 s2 r2 ho1 ho2 h1 h2 hn1 hn2
    obtain ⟨l1, g1, hw, hl, f1⟩ := order_full hd hso hs hg hr hraw ho1 h1 hn1 hu
    have hK : Kind env gs (fun files => ∀ path, get? files path ≠ none →
        get? s.files path ≠ none ∨ ProducedPath env gs path) :=
      ⟨adds_kind s.files, fun files h => ha.disc files h⟩
    obtain ⟨s3, h3, -⟩ := total_buildOrder hK hd hg (hso _ hg).oneEach
      ((hso _ hg).allOutputs hd hg) (completes_single hd hg (hso _ hg) r)
      (by
        intro k i p pos hm n a hna
        obtain ⟨l, r', he⟩ := List.append_of_mem ((ho1.all p).2 ⟨k, i, pos, hm⟩)
        rw [he] at h1
        obtain ⟨s3, s4, -, h4, -⟩ := buildOrder_split l r' _ s1 h1
        exact buildProducer_keys h4 (n, a) hna)
      (by
        intro k a hka
        obtain ⟨_, ℓ, _, hev, _⟩ := f1 rfl k a hka
        exact ⟨ℓ, hev⟩)
      o2 [] { s with budget := none } ho2.sched trivial ⟨hw.files, hw.store⟩ ⟨hl.nodup, hl.ok⟩ hr hu hraw
      (by simp) ⟨rfl, fun _ => .inl⟩ (by rw [h2]; exact hn2)
    rw [h3] at h2
    exact (Prod.mk.inj h2).1.symm
  constructor
  · rintro rfl; exact key o1 o2 s1 s2 r2 ho1 ho2 h1 h2 hn1 hn2
  · rintro rfl; exact key o2 o1 s2 s1 r1 ho2 ho1 h2 h1 hn2 hn1

/-! ### A case that meets the hypotheses: two producers that do not depend on each other -/

namespace Ex43
open Ex

def d : Art :=
  .made ⟨0, false, .file ⟨"d{input_fingerprint}".toList, false⟩⟩ (.mk ['A'] ['1']
    (.cons ['x'] Ex42.a .nil)) 0
def g : Graph := ⟨['g'], [(['c'], Ex42.c), (['b'], Ex42.b), (['a'], Ex42.a), (['d'], d)], []⟩
def s : St Nat Str := (fromGraph Ex.env g { Ex42.s0 with budget := none }).2
def σ : Snapshot := ⟨971252, g⟩
def pd : Pdr := .mk ['A'] ['1'] (.cons ['x'] Ex42.a .nil)
def o1 : List Nd := [.pdr pd, .pdr Ex42.p, .pdr Ex42.q]
def o2 : List Nd := [.art Ex42.a, .pdr Ex42.p, .pdr Ex42.q, .art Ex42.c, .pdr pd]
def s1 : St Nat Str := (buildOrder Ex.env σ o1 { s with budget := none }).2
def s2 : St Nat Str := (buildOrder Ex.env σ o2 { s with budget := none }).2

theorem snap_ok : fromGraph Ex.env g { Ex42.s0 with budget := none } = (.ok σ, s) := by
  have : (fromGraph Ex.env g { Ex42.s0 with budget := none }).1 = .ok σ := by decide +kernel
  exact Prod.ext this (by rw [s])

theorem run1 : buildOrder Ex.env σ o1 { s with budget := none } = (.ok (), s1) := by
  have : (buildOrder Ex.env σ o1 { s with budget := none }).1 = .ok () := by decide +kernel
  exact Prod.ext this (by rw [s1])

theorem run2 : buildOrder Ex.env σ o2 { s with budget := none } = (.ok (), s2) := by
  have : (buildOrder Ex.env σ o2 { s with budget := none }).1 = .ok () := by decide +kernel
  exact Prod.ext this (by rw [s2])

theorem disc : Disciplined Ex.env (· ∈ [g]) := disciplined [g] (by decide +kernel)

theorem single : ∀ g', g' ∈ [g] → SingleOutput Ex.env g' := by
  intro g' hg
  rw [List.mem_singleton.1 hg]
  exact singleOutput g (by decide +kernel)

theorem reach0 : Reach Ex.env (· ∈ [g]) Ex42.s0 := .init Ex42.files none fun path hp => by
  have : path ∈ keys Ex42.files := by
    apply Classical.byContradiction
    intro h; exact hp ((get?_eq_none_iff _ _).2 h)
  simp only [Ex42.files, keys, List.map_cons, List.map_nil, List.mem_cons, List.not_mem_nil,
    or_false] at this
  rcases this with rfl | rfl <;> exact not_produced _ _ (by decide +kernel)

theorem reach : Reach Ex.env (· ∈ [g]) s := by
  have h : Reach Ex.env (· ∈ [g]) ((HOp.snapshot g none).run Ex.env Ex42.s0) :=
    .step _ reach0 (List.mem_singleton.2 rfl)
  simp only [HOp.run, snap_ok] at h
  exact h

theorem valid : (HOp.rebuild σ none).Valid Ex.env (· ∈ [g]) s :=
  C43_new_snapshot_is_valid disc reach0 (List.mem_singleton.2 rfl) snap_ok
    (noClash _ _ (by decide +kernel)) (snapUnique _ (by decide +kernel))

/-- The hypotheses are met; the files were written in different orders. -/
example : (∀ path, get? s1.files path = get? s2.files path) ∧ keys s1.files ≠ keys s2.files ∧
    (readSnapshotData Ex.env σ d 0 s1).1 = .ok "uv1".toList :=
  ⟨(C43_result_does_not_depend_on_order_partial disc single reach valid
    (schedule _ _ (by decide +kernel)) (schedule _ _ (by decide +kernel)) run1 run2
    (snapUnique _ (by decide +kernel)) (noClash _ _ (by decide +kernel))
    (noClash _ _ (by decide +kernel))).1, by decide +kernel, by decide +kernel⟩

example := C43_success_does_not_depend_on_order_partial disc single reach valid
  (apart _ _ _ (by decide +kernel)) (schedule _ o1 (by decide +kernel))
  (schedule _ o2 (by decide +kernel)) run1 run2
  (snapUnique _ (by decide +kernel)) (noClash _ _ (by decide +kernel))
  (noClash _ _ (by decide +kernel))

end Ex43

end Arti.Props
