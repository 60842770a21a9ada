import Verif.Props.Stable

/-!
# Producers with several outputs

What holds of them in every history: a linked partition holds what `build` returned for it (C42),
and it stays as it is (C44).
-/

namespace Arti.Props
open Arti PyDict World Spec M
variable {κ D : Type} [DecidableEq κ] {env : Env κ D} {gs : Graph → Prop}

/-- **C42**, producers with any number of outputs: in every history, with interruptions, each
partition that is linked to a produced artifact belongs to a dependency of its producer that was
computed, has the key and the input fingerprint of that dependency, and holds the encoded value that
`build` returned, and `validate_outputs` accepted, at the position of the artifact for the arguments
of that dependency.

Missing: that all evaluated partitions are linked, which is
`C42_incremental_build_is_evaluation_partial` for producers with one output and fails for others
(`C40_violated_by_two_outputs`). -/
theorem C42_linked_partitions_hold_outputs_partial (hd : Disciplined env gs) {s : St κ D}
    (hs : Reach env gs s) (hn : NoClash env gs s.invs) (hu : SnapUnique s.raws) {σ : Snapshot}
    (hg : gs σ.graph) {i : ArtInfo} {p : Pdr} {pos : Nat} {k : Str}
    (hk : σ.graph.keyOf (.made i p pos) = some k) {sn : PSnap κ} (hsn : sn ∈ linksOf s σ k) :
    ∃ e ∈ s.invs, e.pdr = p ∧ e.key = sn.part.key ∧ sn.part.inputFp = some e.fp ∧
      ∃ outs d view c, runBuild (cls env p) e.args = .ok outs ∧ outs[pos]? = some d ∧
        (cls env p).outputs[pos]? = some view ∧ env.enc i view d = .ok c ∧
        content s.files sn.part.loc = some c := by
  obtain ⟨hw, hl⟩ := hs.sound hd hn hu fun _ => id
  have hm : Made gs i p pos := ⟨_, hg, k, Graph.keyOf_mem hk⟩
  unfold linksOf at hsn
  cases hgl : get? s.links (σ, k) with
  | none => rw [hgl] at hsn; simp at hsn
  | some ss =>
    rw [hgl] at hsn
    obtain ⟨⟨ps, h1, h2⟩, r, _, e, he, e1, e2, e3⟩ := hl.ok σ k ss hgl _ hk sn hsn
    obtain ⟨f, part, b, g1, g2, g3, g4⟩ := hw.store i.sto ⟨i, p, pos, hm, rfl⟩ ps h1 sn h2
    have hf : some e.fp = some f := e3.symm.trans ((stored_ok g2).2.2.1.trans (generate_ok g1).2.1)
    obtain rfl := Option.some.inj hf
    rw [← e2] at g4
    subst e1
    have hb := Correct.eq hn he hm g4
    refine ⟨e, he, rfl, e2, e3, ?_⟩
    unfold bytes outBytes at hb
    cases ho : runBuild (cls env e.pdr) e.args with
    | error err => rw [ho] at hb; simp [bind, Except.bind] at hb
    | ok outs =>
      rw [ho] at hb
      simp only [bind, Except.bind] at hb
      cases hd' : outs[pos]? with
      | none => simp only [hd', orElse] at hb; simp at hb
      | some d =>
        simp only [hd', orElse] at hb
        cases hv : (cls env e.pdr).outputs[pos]? with
        | none => simp only [hv] at hb; simp at hb
        | some view =>
          simp only [hv] at hb
          exact ⟨outs, d, view, b, rfl, hd', rfl, hb, g3⟩

/-- A snapshot that has just been built can be built again. -/
theorem C43_built_snapshot_is_valid (hd : Disciplined env gs) {s s' : St κ D} (hs : Reach env gs s)
    {g : Graph} (hg : gs g) {b b' : Option Nat} {σ : Snapshot}
    (h : graphBuild env g { s with budget := b } = (.ok σ, s')) (hn : NoClash env gs s'.invs)
    (hu : SnapUnique s'.raws) : (HOp.rebuild σ b').Valid env gs s' := by
  have hlog := HOp.run_logs (env := env) (.build g b) s
  simp only [HOp.run, h] at hlog
  obtain ⟨hw, hl⟩ := hs.sound hd (hn.mono hlog.1) (hu.sub hlog.2) hlog.1
  obtain ⟨-, -, -, h1⟩ := graphBuild_sound (s := { s with budget := b }) hd hg
    ⟨hw.files, hw.store⟩ ⟨hl.nodup, hl.ok⟩ h hn hu fun _ => id
  obtain ⟨rfl, r, hr, -, hf⟩ := h1 σ rfl
  exact ⟨hg, r, hr, hf⟩

/-- A snapshot that can be built stays so, unless raw data is written or deleted or the process is
restarted. -/
theorem C43_snapshots_stay_valid (hd : Disciplined env gs) {s : St κ D} (hs : Reach env gs s)
    {σ : Snapshot} {b b' : Option Nat} (h : (HOp.rebuild σ b).Valid env gs s)
    {ops : List (HOp κ D)} (hv : ValidOps env gs s ops) (hq : ∀ op ∈ ops, op.Quiet)
    (hr : ∀ op ∈ ops, ∀ keep, op ≠ .restart keep) (hn : NoClash env gs (runOps env s ops).invs)
    (hu : SnapUnique (runOps env s ops).raws) :
    (HOp.rebuild σ b').Valid env gs (runOps env s ops) := by
  obtain ⟨hg, r, hσ, hraw⟩ := h
  have hl := ((Reach.ops env gs hs hv).sound hd hn hu fun _ => id).2
  have hσ' := (runOps_logs (env := env) ops s).2 _ hσ
  have hadds := quiet_adds hd ops hs hv hq hn hu
  refine ⟨hg, r, hσ', fun k i ha => ?_⟩
  obtain ⟨k', ℓ, h1, h2, h3, h4, h5⟩ := hraw k i ha
  refine ⟨k', ℓ, h1, h2, h3, fun sn => ⟨hl.linked_raw (rawRel_linkLog _) hσ' hu h1 h2, fun hsn => ?_⟩,
    fun x hx => ?_⟩
  · have stay : ∀ (ops : List (HOp κ D)) (s : St κ D), (∀ op ∈ ops, ∀ keep, op ≠ .restart keep) →
        sn ∈ linksOf s σ k' → sn ∈ linksOf (runOps env s ops) σ k' := by
      intro ops
      induction ops with
      | nil => exact fun _ _ h => h
      | cons op ops ih =>
        exact fun s hr h => ih _ (fun o ho => hr o (List.mem_cons_of_mem _ ho))
          (C35_nothing_is_unlinked op (hr op (by simp)) s σ k' sn h)
    exact stay ops s hr ((h4 sn).2 hsn)
  · have hc := h5 x hx
    cases hloc : x.1.part.loc with
    | lit id v => rw [hloc] at hc; exact hc
    | file path =>
      rw [hloc] at hc
      exact hadds.old path _ hc

/-- The content of a linked partition of a produced artifact stays. -/
theorem linked_content_stays (hd : Disciplined env gs) {s : St κ D} (hs : Reach env gs s)
    {op : HOp κ D} (hv : op.Valid env gs s) (hr : ∀ keep, op ≠ .restart keep)
    (hn : NoClash env gs (op.run env s).invs) (hu : SnapUnique (op.run env s).raws)
    {σ : Snapshot} (hg : gs σ.graph) {i : ArtInfo} {p : Pdr} {pos : Nat} {k : Str}
    (hk : σ.graph.keyOf (.made i p pos) = some k) {sn : PSnap κ} (hsn : sn ∈ linksOf s σ k) :
    ∃ c, content s.files sn.part.loc = some c ∧
      content (op.run env s).files sn.part.loc = some c := by
  obtain ⟨hi, hr'⟩ := HOp.run_logs (env := env) op s
  obtain ⟨hw, hl⟩ := hs.sound hd (hn.mono hi) (hu.sub hr') fun _ => id
  have hm : Made gs i p pos := ⟨_, hg, k, Graph.keyOf_mem hk⟩
  unfold linksOf at hsn
  cases hgl : get? s.links (σ, k) with
  | none => rw [hgl] at hsn; simp at hsn
  | some ss =>
    rw [hgl] at hsn
    obtain ⟨⟨ps, h1, h2⟩, -⟩ := hl.ok σ k ss hgl _ hk sn hsn
    obtain ⟨f, part, b, g1, g2, g3, -⟩ := hw.store i.sto ⟨i, p, pos, hm, rfl⟩ ps h1 sn h2
    refine ⟨b, g3, ?_⟩
    cases hl' : sn.part.loc with
    | lit id v => rw [hl'] at g3; exact g3
    | file path =>
      rw [hl'] at g3
      have hpl : part.loc = .file path := by
        unfold stored at g2
        cases hp : part.loc with
        | file path' =>
          rw [hp] at g2
          simp only [Except.ok.injEq, Prod.mk.injEq] at g2
          rw [← g2.1, hp] at hl'
          exact hl'
        | lit id v =>
          rw [hp] at g2
          cases v with
          | some v => simp at g2
          | none =>
            simp only [Except.ok.injEq, Prod.mk.injEq] at g2
            rw [← g2.1] at hl'
            simp at hl'
      exact produced_files_stay hd hs hv hr hn hu ⟨i, p, pos, _, _, part, hm, g1, hpl⟩ g3

/-- **C44**, for produced artifacts of producers with any number of outputs: whatever happens while
the backend lives, each partition that is linked to the artifact in a snapshot stays linked, with
the same content.

Missing: that no further partitions are linked, which is part of
`C44_reading_a_snapshot_is_stable_partial` for producers with one output and fails for others
(`C44_violated_by_two_outputs`). -/
theorem C44_linked_partitions_stay_partial (hd : Disciplined env gs) {s : St κ D}
    (hs : Reach env gs s) {ops : List (HOp κ D)} (hv : ValidOps env gs s ops)
    (hr : ∀ op ∈ ops, ∀ keep, op ≠ .restart keep) (hn : NoClash env gs (runOps env s ops).invs)
    (hu : SnapUnique (runOps env s ops).raws) {σ : Snapshot} (hg : gs σ.graph) {i : ArtInfo}
    {p : Pdr} {pos : Nat} {k : Str} (hk : σ.graph.keyOf (.made i p pos) = some k) {sn : PSnap κ}
    (hsn : sn ∈ linksOf s σ k) :
    sn ∈ linksOf (runOps env s ops) σ k ∧ ∃ c, content s.files sn.part.loc = some c ∧
      content (runOps env s ops).files sn.part.loc = some c := by
  induction ops generalizing s with
  | nil =>
    obtain ⟨_, _, _, _, _, _, _, _, c, _, _, _, _, hc⟩ :=
      C42_linked_partitions_hold_outputs_partial hd hs hn hu hg hk hsn
    exact ⟨hsn, c, hc, hc⟩
  | cons op ops ih =>
    obtain ⟨hi2, hr2⟩ := runOps_logs (env := env) ops (op.run env s)
    obtain ⟨c, h1, h2⟩ := linked_content_stays hd hs hv.1 (hr op (by simp)) (hn.mono hi2)
      (hu.sub hr2) hg hk hsn
    obtain ⟨h3, c', h4, h5⟩ := ih (.step op hs hv.1) hv.2
      (fun o ho => hr o (List.mem_cons_of_mem _ ho)) hn hu
      (C35_nothing_is_unlinked op (hr op (by simp)) s σ k sn hsn)
    rw [h2] at h4
    obtain rfl := Option.some.inj h4
    exact ⟨h3, c, h1, h5⟩

/-- **C44**: so reading a produced artifact through a snapshot gives the same value, unless
partitions have been linked to it since. -/
theorem C44_reading_is_stable_if_nothing_is_linked_partial (hd : Disciplined env gs) {s : St κ D}
    (hs : Reach env gs s) {ops : List (HOp κ D)} (hv : ValidOps env gs s ops)
    (hr : ∀ op ∈ ops, ∀ keep, op ≠ .restart keep) (hn : NoClash env gs (runOps env s ops).invs)
    (hu : SnapUnique (runOps env s ops).raws) {σ : Snapshot} (hg : gs σ.graph) {i : ArtInfo}
    {p : Pdr} {pos : Nat} {k : Str} (hk : σ.graph.keyOf (.made i p pos) = some k)
    (hsame : ∀ sn ∈ linksOf (runOps env s ops) σ k, sn ∈ linksOf s σ k) (view : Nat) :
    (readSnapshotData env σ (.made i p pos) view (runOps env s ops)).1 =
      (readSnapshotData env σ (.made i p pos) view s).1 := by
  obtain ⟨hi1, hr1⟩ := runOps_logs (env := env) ops s
  have hl1 := (hs.sound hd (hn.mono hi1) (hu.sub hr1) (log := s.invs) fun _ => id).2
  have hl2 := ((Reach.ops env gs hs hv).sound hd hn hu fun _ => id).2
  have stay := fun sn hsn => C44_linked_partitions_stay_partial hd hs hv hr hn hu hg hk (sn := sn) hsn
  have hiter : env.iter (linksOf (runOps env s ops) σ k) = env.iter (linksOf s σ k) :=
    hd.iter.ext _ _ (hl2.linksOf_nodup σ k) (hl1.linksOf_nodup σ k)
      fun sn => ⟨hsame sn, fun h => (stay sn h).1⟩
  have hcont : ∀ ss : List (PSnap κ), (∀ sn ∈ ss, sn ∈ linksOf s σ k) →
      contents (runOps env s ops).files ss = contents s.files ss := by
    intro ss
    induction ss with
    | nil => intro _; rfl
    | cons sn ss ih =>
      intro h
      obtain ⟨-, c, h1, h2⟩ := stay sn (h sn (by simp))
      simp only [contents, h1, h2, ih fun x hx => h x (List.mem_cons_of_mem _ hx)]
  simp only [readSnapshotData, run_bind, M.need, hk, readSnapshotPartitions, run_gets, run_lift]
  unfold linksOf at hiter
  rw [hiter]
  have := hcont (env.iter ((s.links.get? (σ, k)).getD [])) fun sn hsn =>
    (hd.iter.perm _).mem_iff.1 hsn
  simp only [ioRead, this]

namespace Ex44b
open Ex Ex40

/-- Another graph, in which the first output is stored elsewhere. -/
def y' : Art := .made ⟨0, false, .file ⟨"d{input_fingerprint}".toList, false⟩⟩ p 0
def h' : Graph := ⟨['H'], [(['a'], x), (['b'], y'), (['c'], z)], []⟩

/-- The snapshot of the build that follows the interrupted one. -/
def σ : Snapshot := ⟨936079, h⟩

/-- A build of the first graph is interrupted, then it is built. -/
def ops0 : List (HOp Nat Str) := [.build h (some 10), .build h none]
def t0 : St Nat Str := runOps Ex.env s0 ops0

/-- The other graph is built, then the snapshot again. -/
def ops : List (HOp Nat Str) := [.build h' none, .rebuild σ none]
def t1 : St Nat Str := runOps Ex.env t0 ops

theorem disc : Disciplined Ex.env (· ∈ [h, h']) := disciplined [h, h'] (by decide +kernel)

theorem reach0 : Reach Ex.env (· ∈ [h, h']) s0 := .init _ none fun path hp => by
  have : path ∈ keys s0.files := by
    apply Classical.byContradiction
    intro h; exact hp ((get?_eq_none_iff _ _).2 h)
  simp only [s0, keys, List.map_cons, List.map_nil, List.mem_cons, List.not_mem_nil,
    or_false] at this
  subst this
  exact not_produced _ _ (by decide +kernel)

theorem reach : Reach Ex.env (· ∈ [h, h']) t0 :=
  Reach.ops _ _ reach0 ⟨List.mem_cons_self, List.mem_cons_self, trivial⟩

/-- The snapshot can be built then. -/
theorem valid_σ : (HOp.rebuild σ none).Valid Ex.env (· ∈ [h, h']) t0 :=
  C43_built_snapshot_is_valid (s := HOp.run Ex.env s0 (.build h (some 10))) (g := h) (b := none) disc
    (.step (.build h (some 10)) reach0 List.mem_cons_self) List.mem_cons_self
    (Prod.ext (by decide +kernel) (by simp only [t0, ops0, runOps, HOp.run]))
    (noClash _ _ (by decide +kernel)) (snapUnique _ (by decide +kernel))

theorem valid : ValidOps Ex.env (· ∈ [h, h']) t0 ops :=
  ⟨List.mem_cons_of_mem _ List.mem_cons_self,
    C43_snapshots_stay_valid (ops := [.build h' none]) disc reach valid_σ
      ⟨List.mem_cons_of_mem _ List.mem_cons_self, trivial⟩
      (by intro op ho; rw [List.mem_singleton.1 ho]; trivial)
      (by intro op ho; rw [List.mem_singleton.1 ho]; simp)
      (noClash _ _ (by decide +kernel)) (snapUnique _ (by decide +kernel)), trivial⟩

theorem no_restart : ∀ op ∈ ops, ∀ keep, op ≠ .restart keep := by
  intro op ho keep
  simp only [ops, List.mem_cons, List.not_mem_nil, or_false] at ho
  rcases ho with rfl | rfl <;> simp

/-- In the end, both outputs of the producer are linked. -/
example : (linksOf t0 σ ['b']).length = 1 ∧ (linksOf t0 σ ['c']).length = 0 ∧
    (linksOf t1 σ ['b']).length = 1 ∧ (linksOf t1 σ ['c']).length = 1 := by decide +kernel

example : ∀ sn ∈ linksOf t1 σ ['c'], ∃ e ∈ t1.invs, e.pdr = p ∧ e.key = sn.part.key ∧
    sn.part.inputFp = some e.fp ∧ ∃ outs d view c, runBuild (cls Ex.env p) e.args = .ok outs ∧
      outs[1]? = some d ∧ (cls Ex.env p).outputs[1]? = some view ∧
      Ex.env.enc z.info view d = .ok c ∧ content t1.files sn.part.loc = some c :=
  fun _ hsn => C42_linked_partitions_hold_outputs_partial disc (Reach.ops _ _ reach valid)
    (noClash _ _ (by decide +kernel)) (snapUnique _ (by decide +kernel)) List.mem_cons_self
    (i := z.info) (pos := 1) (by decide) hsn

example : ∀ sn ∈ linksOf t0 σ ['b'], sn ∈ linksOf t1 σ ['b'] ∧ ∃ c,
    content t0.files sn.part.loc = some c ∧ content t1.files sn.part.loc = some c :=
  fun _ hsn => C44_linked_partitions_stay_partial disc reach valid no_restart
    (noClash _ _ (by decide +kernel)) (snapUnique _ (by decide +kernel)) List.mem_cons_self
    (i := y.info) (p := p) (pos := 0) (by decide) hsn

example : (readSnapshotData Ex.env σ y 0 t1).1 = (readSnapshotData Ex.env σ y 0 t0).1 :=
  C44_reading_is_stable_if_nothing_is_linked_partial disc reach valid no_restart
    (noClash _ _ (by decide +kernel)) (snapUnique _ (by decide +kernel)) List.mem_cons_self
    (i := y.info) (p := p) (pos := 0) (k := ['b']) (by decide) (by decide +kernel) 0

end Ex44b

/-- **C44** is violated for producers with two outputs.  A build is interrupted when one output has
been stored and the other one not.  The next build returns a snapshot, in which the other output
cannot be read.  When another graph has been built and then the snapshot again, it can. -/
theorem C44_violated_by_two_outputs :
    Reach Ex.env (· ∈ [Ex40.h, Ex44b.h']) Ex44b.t0 ∧
    ValidOps Ex.env (· ∈ [Ex40.h, Ex44b.h']) Ex44b.t0 Ex44b.ops ∧
    (graphBuild Ex.env Ex40.h { Ex40.s0 with budget := some 10 }).1 = .error .crash ∧
    (graphBuild Ex.env Ex40.h Ex40.s1).1 = .ok Ex44b.σ ∧
    (readSnapshotData Ex.env Ex44b.σ Ex40.z 0 Ex44b.t0).1 = .error .fileNotFound ∧
    (readSnapshotData Ex.env Ex44b.σ Ex40.z 0 (runOps Ex.env Ex44b.t0 Ex44b.ops)).1 =
      .ok ['u', 't'] := by
  refine ⟨Ex44b.reach, Ex44b.valid, ?_, ?_, ?_, ?_⟩ <;> decide +kernel

end Arti.Props
