import Verif.Examples.World

/-!
# C42: incremental builds compute what evaluation from scratch computes

`Spec.Reach` describes the states of all histories of raw writes, deletions, look-ups, snapshots,
builds, repeated builds, interruptions at any effect, tags and restarts (`Spec/Ops.lean`).
`Spec.evalArt` evaluates an artifact from the raw data, without any backend, cache or existing
file (`Spec/Build.lean`).  The conditions are in `Spec/History.lean`.
-/

namespace Arti.Props
open Arti PyDict World Spec
variable {κ D : Type} [DecidableEq κ] {env : Env κ D} {gs : Graph → Prop}

/-- C42, for producers with one output: after any history, if `Graph.build` succeeds, then the
snapshot that it returns holds, for each artifact of the graph, exactly the partitions that are
evaluated from the raw data on disk when the build started, with the evaluated contents.

Missing: producers with several outputs, for which the property fails after an interruption
(`C40_violated_by_two_outputs`). -/
theorem C42_incremental_build_is_evaluation_partial (hd : Disciplined env gs)
    (hso : ∀ g, gs g → SingleOutput env g) {s s' : St κ D} (hs : Reach env gs s) {g : Graph}
    (hg : gs g) {b : Option Nat} {σ : Snapshot}
    (hrun : graphBuild env g { s with budget := b } = (.ok σ, s'))
    (hn : NoClash env gs s'.invs) (hu : SnapUnique s'.raws) :
    σ.graph = g ∧ ∀ k a, (k, a) ∈ g.arts → Full env s' σ (rawNow env g s.files) a := by
  have hlog := HOp.run_logs (env := env) (.build g b) s
  simp only [HOp.run, hrun] at hlog
  obtain ⟨hw, hl⟩ := hs.inv hd hso (hn.mono hlog.1) (hu.sub hlog.2)
  obtain ⟨_, _, _, h4⟩ := graphBuild_spec (s := { s with budget := b }) hd hg (hso g hg)
    ⟨hw.files, hw.store⟩ ⟨hl.nodup, hl.ok⟩ hrun hn hu
  obtain ⟨h5, r, _, h7, h8⟩ := h4 σ rfl
  refine ⟨h5, fun k a ha => ?_⟩
  have : rawOf σ r = rawNow env g s.files := funext h7
  rw [← this]
  exact h8 k a ha

/-- C42: reading a produced or raw artifact through a snapshot that holds it returns the value of
the evaluated partitions. -/
theorem C42_reading_returns_the_evaluated_value (hi : IterOk env) {s : St κ D} {σ : Snapshot}
    {ρ : ArtInfo → Data κ} {a : Art} (h : Full env s σ ρ a) (hl : ∀ k, (linksOf s σ k).Nodup)
    (view : Nat) :
    ∃ ℓ, evalArt env ρ a = .ok ℓ ∧ readSnapshotData env σ a view s =
      (readData env a.info view ℓ (env.iter (keys ℓ)), s) := by
  obtain ⟨k, ℓ, h1, h2, h3, h4, h5⟩ := h
  refine ⟨ℓ, h2, ?_⟩
  have hiter : env.iter (linksOf s σ k) = env.iter (keys ℓ) := hi.ext _ _ (hl k) h3 h4
  have hread : ioRead env s.files a.info view (env.iter (keys ℓ)) =
      readData env a.info view ℓ (env.iter (keys ℓ)) := by
    apply ioRead_eq
    intro sn hsn
    obtain ⟨x, hx, rfl⟩ := List.mem_map.1 ((hi.perm _).mem_iff.1 hsn)
    exact ⟨x.2, (mem_iff_get? h3).1 hx, h5 x hx⟩
  simp only [readSnapshotData, M.run_bind, M.need, h1, readSnapshotPartitions, M.run_gets,
    M.run_lift]
  unfold linksOf at hiter
  rw [hiter, hread]

/-- Two snapshots of a graph that both hold an artifact, for the same raw data, link the same
partitions with the same contents and read the same values. -/
theorem full_agree (hi : IterOk env) {g : Graph} {s' t' : St κ D} {σ τ : Snapshot} {a : Art}
    {ρ ρ' : ArtInfo → Data κ} (hσ : σ.graph = g) (hτ : τ.graph = g)
    (hfa : Full env s' σ ρ a) (hfb : Full env t' τ ρ' a) (hls : ∀ k, (linksOf s' σ k).Nodup)
    (hlt : ∀ k, (linksOf t' τ k).Nodup) (hraw : RawEq ρ ρ') :
    ∃ key, g.keyOf a = some key ∧
      (∀ sn, sn ∈ linksOf s' σ key ↔ sn ∈ linksOf t' τ key) ∧
      (∀ sn ∈ linksOf s' σ key, ∃ c, content s'.files sn.part.loc = some c ∧
        content t'.files sn.part.loc = some c) ∧
      ∀ view, (readSnapshotData env σ a view s').1 = (readSnapshotData env τ a view t').1 := by
  obtain ⟨ℓ1, e1, r1⟩ : ∃ ℓ, evalArt env ρ a = .ok ℓ ∧ ∀ view,
      (readSnapshotData env σ a view s').1 = readData env a.info view ℓ (env.iter (keys ℓ)) := by
    obtain ⟨ℓ, h1, _⟩ := C42_reading_returns_the_evaluated_value hi hfa
      hls 0
    refine ⟨ℓ, h1, fun view => ?_⟩
    obtain ⟨ℓ', h1', h2'⟩ := C42_reading_returns_the_evaluated_value hi hfa
      hls view
    rw [h1] at h1'
    obtain rfl := Except.ok.inj h1'
    rw [h2']
  obtain ⟨ℓ2, e2, r2⟩ : ∃ ℓ, evalArt env ρ' a = .ok ℓ ∧ ∀ view,
      (readSnapshotData env τ a view t').1 = readData env a.info view ℓ (env.iter (keys ℓ)) := by
    obtain ⟨ℓ, h1, _⟩ := C42_reading_returns_the_evaluated_value hi hfb
      hlt 0
    refine ⟨ℓ, h1, fun view => ?_⟩
    obtain ⟨ℓ', h1', h2'⟩ := C42_reading_returns_the_evaluated_value hi hfb
      hlt view
    rw [h1] at h1'
    obtain rfl := Except.ok.inj h1'
    rw [h2']
  have heq : DEq ℓ1 ℓ2 := by
    have := evalArt_congr hi hraw a
    rw [e1, e2] at this
    exact this
  obtain ⟨k1, ℓ1', a1, a2, a3, a4, a5⟩ := hfa
  obtain ⟨k2, ℓ2', b1, b2, b3, b4, b5⟩ := hfb
  rw [e1] at a2
  rw [e2] at b2
  obtain rfl := Except.ok.inj a2
  obtain rfl := Except.ok.inj b2
  rw [hσ] at a1
  rw [hτ, a1] at b1
  obtain rfl := Option.some.inj b1
  refine ⟨k1, a1, ?_, ?_, ?_⟩
  · intro sn
    rw [a4, b4]
    exact heq.mem_keys sn
  · intro sn hsn
    obtain ⟨x, hx, rfl⟩ := List.mem_map.1 ((a4 sn).1 hsn)
    exact ⟨x.2, a5 x hx, b5 x ((heq.2.2 x).1 hx)⟩
  · intro view
    rw [r1, r2, show keys ℓ1 = ℓ1.map Prod.fst from rfl, show keys ℓ2 = ℓ2.map Prod.fst from rfl,
      ← heq.iter hi]
    unfold readData
    rw [lookAll_congr fun sn => heq.get sn]

/-- C42: an incremental build in a world with any history, and a build in any other world, such
as a fresh one, with the same raw data link the same partitions, with the same contents, and
reading gives the same values. -/
theorem C42_incremental_build_equals_clean_build_partial (hd : Disciplined env gs)
    (hso : ∀ g, gs g → SingleOutput env g) {s s' t t' : St κ D} (hs : Reach env gs s)
    (ht : Reach env gs t) {g : Graph} (hg : gs g) {b b' : Option Nat} {σ τ : Snapshot}
    (hrs : graphBuild env g { s with budget := b } = (.ok σ, s'))
    (hrt : graphBuild env g { t with budget := b' } = (.ok τ, t'))
    (hns : NoClash env gs s'.invs) (hnt : NoClash env gs t'.invs)
    (hus : SnapUnique s'.raws) (hut : SnapUnique t'.raws)
    (hraw : RawEq (rawNow env g s.files) (rawNow env g t.files)) :
    ∀ k a, (k, a) ∈ g.arts → ∃ key, g.keyOf a = some key ∧
      (∀ sn, sn ∈ linksOf s' σ key ↔ sn ∈ linksOf t' τ key) ∧
      (∀ sn ∈ linksOf s' σ key, ∃ c, content s'.files sn.part.loc = some c ∧
        content t'.files sn.part.loc = some c) ∧
      ∀ view, (readSnapshotData env σ a view s').1 = (readSnapshotData env τ a view t').1 := by
  intro k a ha
  obtain ⟨hσ, hfs⟩ := C42_incremental_build_is_evaluation_partial hd hso hs hg hrs hns hus
  obtain ⟨hτ, hft⟩ := C42_incremental_build_is_evaluation_partial hd hso ht hg hrt hnt hut
  have hls : LInv (LinkEval env) s' := by
    have := (Reach.step (.build g b) hs hg).inv hd hso (by simpa [HOp.run, hrs] using hns)
      (by simpa [HOp.run, hrs] using hus)
    simpa [HOp.run, hrs] using this.2
  have hlt : LInv (LinkEval env) t' := by
    have := (Reach.step (.build g b') ht hg).inv hd hso (by simpa [HOp.run, hrt] using hnt)
      (by simpa [HOp.run, hrt] using hut)
    simpa [HOp.run, hrt] using this.2
  exact full_agree hd.iter hσ hτ (hfs k a ha) (hft k a ha) (fun k => hls.linksOf_nodup σ k)
    (fun k => hlt.linksOf_nodup τ k) hraw

/-- The condition `NoClash` holds if paths determine storage, fingerprint and key, storages are
not shared by different outputs, and input fingerprints do not collide on what occurred: equal
fingerprints of a producer class for the same key come with equal versions and equal
arguments. -/
theorem C42_no_clash_if_fingerprints_do_not_collide (log : List (Inv κ D))
    (paths : ∀ i1 p1 pos1 i2 p2 pos2 f1 k1 f2 k2 q1 q2 path, Made gs i1 p1 pos1 →
      Made gs i2 p2 pos2 → generate env i1.sto (some f1) k1 = .ok q1 →
      generate env i2.sto (some f2) k2 = .ok q2 → q1.loc = .file path → q2.loc = .file path →
      i1.sto = i2.sto ∧ f1 = f2 ∧ k1 = k2)
    (storages : ∀ i1 p1 pos1 i2 p2 pos2, Made gs i1 p1 pos1 → Made gs i2 p2 pos2 →
      i1.sto = i2.sto → p1.cls = p2.cls ∧ pos1 = pos2 ∧ ∀ v d, env.enc i1 v d = env.enc i2 v d)
    (fingerprints : ∀ e1 ∈ log, ∀ e2 ∈ log, e1.pdr.cls = e2.pdr.cls → e1.fp = e2.fp →
      e1.key = e2.key → env.versionFp e1.pdr.ver = env.versionFp e2.pdr.ver ∧ e1.args = e2.args) :
    NoClash env gs log := by
  intro e1 h1 e2 h2 i1 pos1 i2 pos2 m1 m2 hsame
  have hsp : i1.sto = i2.sto ∧ e1.fp = e2.fp ∧ e1.key = e2.key := by
    rcases hsame with h | ⟨q1, q2, path, g1, g2, l1, l2⟩
    · exact h
    · exact paths _ _ _ _ _ _ _ _ _ _ _ _ _ m1 m2 g1 g2 l1 l2
  obtain ⟨hs, hf, hk⟩ := hsp
  obtain ⟨hc, hp, he⟩ := storages _ _ _ _ _ _ m1 m2 hs
  obtain ⟨hv, ha⟩ := fingerprints e1 h1 e2 h2 hc hf hk
  exact ⟨hc, hv, ha, hp, he⟩

/-! ### A history that meets the hypotheses

A raw artifact with two partitions, a producer of a partition from each of them, a producer of one
partition from all of these. -/

namespace Ex42
open Ex

def a : Art := .raw ⟨0, true, .file ⟨"a".toList, true⟩⟩
def p : Pdr := .mk ['E'] ['1'] (.cons ['x'] a .nil)
def b : Art := .made ⟨0, true, .file ⟨"b{input_fingerprint}".toList, true⟩⟩ p 0
def q : Pdr := .mk ['A'] ['1'] (.cons ['x'] b .nil)
def c : Art := .made ⟨0, false, .file ⟨"c{input_fingerprint}".toList, false⟩⟩ q 0
def g : Graph := ⟨['g'], [(['c'], c), (['b'], b), (['a'], a)], []⟩

/-- Interrupt a build after a number of effects, change raw data, build, restart, change raw data
back and forth. -/
def ops : List (HOp Nat Str) :=
  [.build g (some 7), .put "a~1".toList ['w'], .build g none, .restart fun _ => true,
    .put "a~2".toList ['x'], .build g (some 9), .put "a~2".toList ['v']]

def files : PyDict Str Str := [("a~1".toList, ['u']), ("a~2".toList, ['v'])]

def s0 : St Nat Str := ⟨files, [], [], [], [], [], none, [], [], []⟩

def s : St Nat Str := runOps Ex.env s0 ops

def s' : St Nat Str := (graphBuild Ex.env g { s with budget := none }).2

def σ : Snapshot := ⟨979613, g⟩

theorem run_ok : graphBuild Ex.env g { s with budget := none } = (.ok σ, s') := by
  have : (graphBuild Ex.env g { s with budget := none }).1 = .ok σ := by decide +kernel
  exact Prod.ext this (by rw [s'])

theorem disc : Disciplined Ex.env (· ∈ [g]) := disciplined [g] (by decide +kernel)

theorem single : ∀ g', g' ∈ [g] → SingleOutput Ex.env g' := by
  intro g' hg
  rw [List.mem_singleton.1 hg]
  exact singleOutput g (by decide +kernel)

theorem reach : Reach Ex.env (· ∈ [g]) s := by
  have h0 : Reach Ex.env (· ∈ [g]) s0 := .init files none fun path hp => by
    have : path ∈ keys files := by
      apply Classical.byContradiction
      intro h; exact hp ((get?_eq_none_iff _ _).2 h)
    simp only [files, keys, List.map_cons, List.map_nil, List.mem_cons, List.not_mem_nil,
      or_false] at this
    rcases this with rfl | rfl <;> exact not_produced _ _ (by decide +kernel)
  refine Reach.ops _ _ h0 ⟨?_, ?_, ?_, ?_, ?_, ?_, ?_, trivial⟩
  · exact List.mem_singleton.2 rfl
  · exact not_produced _ _ (by decide +kernel)
  · exact List.mem_singleton.2 rfl
  · trivial
  · exact not_produced _ _ (by decide +kernel)
  · exact List.mem_singleton.2 rfl
  · exact not_produced _ _ (by decide +kernel)

theorem clash : NoClash Ex.env (· ∈ [g]) s'.invs := noClash _ _ (by decide +kernel)

theorem unique : SnapUnique s'.raws := snapUnique _ (by decide +kernel)

/-- The history meets all hypotheses, and the artifact `c` holds one partition. -/
example : Full Ex.env s' σ (rawNow Ex.env g s.files) c ∧
    (readSnapshotData Ex.env σ c 0 s').1 = .ok "v1w11".toList :=
  ⟨(C42_incremental_build_is_evaluation_partial disc single reach (List.mem_singleton.2 rfl) run_ok
    clash unique).2 ['c'] c (by decide), by decide +kernel⟩

end Ex42

end Arti.Props
