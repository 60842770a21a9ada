import Verif.Props.Resume
import Verif.Props.Backend

/-!
# What is read through a snapshot stays (C44), and outputs go to their artifacts (C45)
-/

namespace Arti.Props
open Arti PyDict World Spec M
variable {κ D : Type} [DecidableEq κ] {env : Env κ D} {gs : Graph → Prop}

/-! ## C44 -/

/-- Nothing that is admitted changes or removes a produced file while the backend lives. -/
theorem produced_files_stay (hd : Disciplined env gs) {s : St κ D} (hs : Reach env gs s) {op : HOp κ D} (hv : op.Valid env gs s)
    (hr : ∀ keep, op ≠ .restart keep) (hn : NoClash env gs (op.run env s).invs)
    (hu : SnapUnique (op.run env s).raws) {path c : Str} (hp : ProducedPath env gs path)
    (hc : get? s.files path = some c) : get? (op.run env s).files path = some c := by
  have quiet : op.Quiet → get? (op.run env s).files path = some c := fun hq =>
    (HOp.quiet_adds hd hs hv hq hn hu).old path c hc
  cases op with
  | put path' c' =>
    simp only [HOp.run, get?_set]
    rw [if_neg]
    · exact hc
    · rintro rfl; exact hv hp
  | del path' =>
    simp only [HOp.run]
    rw [get?_filter_ne]
    · exact hc
    · rintro rfl; exact hv hp
  | writeRaw g i d pk view b =>
    have : Tri (fun s => get? s.files path = some c) (write env g none d (.raw i) none pk view)
        (fun _ s => get? s.files path = some c) (fun s => get? s.files path = some c) := by
      refine Tri.need_bind (fun key _ => ?_) fun _ h => h
      refine Tri.raiseIf_bind (fun _ => ?_) fun _ h => h
      refine Tri.lift_bind (fun part hg => ?_) fun _ h => h
      refine Tri.bind (Q := fun _ s => get? s.files path = some c) ?_ fun sn => ?_
      · unfold ioWrite
        cases hl : part.loc with
        | file path0 =>
          simp only
          refine Tri.lift_bind (fun c' _ => ?_) fun _ h => h
          refine Tri.bind (Q := fun _ s => get? s.files path = some c)
            (Tri.effect (fun s h => ?_) (fun _ _ h => h) fun _ h => h) fun _ => ?_
          · simp only [get?_set]
            rw [if_neg]
            · exact h
            · rintro rfl; exact hv part path0 hg hl hp
          · exact Tri.gets_bind fun s1 h1 => Tri.lift (fun _ s _ h => by rw [h]; exact h1)
              fun s h => by rw [h]; exact h1
        | lit id v =>
          simp only
          refine Tri.raiseIf_bind (fun _ => ?_) fun _ h => h
          refine Tri.lift_bind (fun c' _ => ?_) fun _ h => h
          exact Tri.lift (fun _ s _ h => h) fun _ h => h
      · refine Tri.bind (Q := fun _ s => get? s.files path = some c)
          (Tri.effect (fun s h => h) (fun _ _ h => h) fun _ h => h) fun _ => ?_
        exact Tri.bind (Q := fun _ s => get? s.files path = some c) (Tri.pure fun _ h => h)
          fun _ => Tri.pure fun _ h => h
    exact this.keeps { s with budget := b } hc
  | lookup a ifps => exact quiet trivial
  | snapshot g b => exact quiet trivial
  | build g b => exact quiet trivial
  | rebuild σ b => exact quiet trivial
  | tag σ name o => exact quiet trivial
  | restart keep => exact absurd rfl (hr keep)

/-- A snapshot keeps holding a produced artifact. -/
theorem full_stays (hd : Disciplined env gs)
    {s : St κ D} (hs : Reach env gs s) {op : HOp κ D} (hv : op.Valid env gs s)
    (hl : LInv (LinkEval env) (op.run env s))
    (hr : ∀ keep, op ≠ .restart keep) (hn : NoClash env gs (op.run env s).invs)
    (hu : SnapUnique (op.run env s).raws) {σ : Snapshot} {r : PyDict Str (Data κ)}
    (hσ : (σ, r) ∈ s.raws) {i : ArtInfo} {p : Pdr} {pos : Nat} (hm : Made gs i p pos)
    (h : Full env s σ (rawOf σ r) (.made i p pos)) :
    Full env (op.run env s) σ (rawOf σ r) (.made i p pos) := by
  obtain ⟨k, ℓ, h1, h2, h3, h4, h5⟩ := h
  have hlog := HOp.run_logs (env := env) op s
  refine ⟨k, ℓ, h1, h2, h3, fun sn => ⟨hl.linked_eval hd.iter (hlog.2 _ hσ) hu h1 h2, fun hsn => ?_⟩,
    fun x hx => ?_⟩
  · exact C35_nothing_is_unlinked op hr s σ k sn ((h4 sn).2 hsn)
  · have hc := h5 x hx
    simp only [evalArt, bind, Except.bind] at h2
    split at h2
    · simp at h2
    · rename_i rs _
      obtain ⟨o, _, ho⟩ := (mem_placeAll h2 x).1 hx
      obtain ⟨_, part, hg, hst⟩ := place_ok (sn := x.1) (b := x.2) ho
      unfold stored at hst
      cases hl' : part.loc with
      | file path =>
        rw [hl'] at hst
        simp only [Except.ok.injEq, Prod.mk.injEq] at hst
        have hloc : x.1.part.loc = .file path := by rw [← hst.1, hl']
        rw [hloc] at hc ⊢
        exact produced_files_stay hd hs hv hr hn hu ⟨i, p, pos, _, _, part, hm, hg, hl'⟩ hc
      | lit id v =>
        rw [hl'] at hst
        cases v with
        | some v => simp at hst
        | none =>
          simp only [Except.ok.injEq, Prod.mk.injEq] at hst
          have hloc : x.1.part.loc = .lit id (some x.2) := by rw [← hst.1]
          rw [hloc]
          rfl

omit [DecidableEq κ] in
theorem runOps_append [DecidableEq κ] (s : St κ D) (a b : List (HOp κ D)) :
    runOps env s (a ++ b) = runOps env (runOps env s a) b := by
  induction a generalizing s with
  | nil => rfl
  | cons op a ih => exact ih _

theorem validOps_left {a b : List (HOp κ D)} : ∀ {s : St κ D}, ValidOps env gs s (a ++ b) →
    ValidOps env gs s a := by
  induction a with
  | nil => intro _ _; trivial
  | cons op a ih => intro s h; exact ⟨h.1, ih h.2⟩

/-- Reading a produced artifact through a snapshot that holds it gives the same value as long as
links are right. -/
theorem reading_stays (hd : Disciplined env gs) {s1 : St κ D} (hs1 : Reach env gs s1)
    {ops : List (HOp κ D)} (hv : ValidOps env gs s1 ops)
    (hr : ∀ op ∈ ops, ∀ keep, op ≠ .restart keep)
    (hl : ∀ pre post, ops = pre ++ post → LInv (LinkEval env) (runOps env s1 pre))
    (hn : NoClash env gs (runOps env s1 ops).invs) (hu : SnapUnique (runOps env s1 ops).raws)
    {σ : Snapshot} {r : PyDict Str (Data κ)} (hσ : (σ, r) ∈ s1.raws)
    {i : ArtInfo} {p : Pdr} {pos : Nat} (hm : Made gs i p pos)
    (hfull : Full env s1 σ (rawOf σ r) (.made i p pos)) (view : Nat) :
    (readSnapshotData env σ (.made i p pos) view (runOps env s1 ops)).1 =
      (readSnapshotData env σ (.made i p pos) view s1).1 := by
  have key : ∀ (ops : List (HOp κ D)) (s1 : St κ D), Reach env gs s1 → ValidOps env gs s1 ops →
      (∀ op ∈ ops, ∀ keep, op ≠ .restart keep) →
      (∀ pre post, ops = pre ++ post → LInv (LinkEval env) (runOps env s1 pre)) →
      NoClash env gs (runOps env s1 ops).invs →
      SnapUnique (runOps env s1 ops).raws → (σ, r) ∈ s1.raws →
      Full env s1 σ (rawOf σ r) (.made i p pos) →
      Full env (runOps env s1 ops) σ (rawOf σ r) (.made i p pos) := by
    intro ops
    induction ops with
    | nil => intro s1 _ _ _ _ _ _ _ h; exact h
    | cons op ops ih =>
      intro s1 hs1 hv hr hl hn hu hσ h
      obtain ⟨hi2, hr2⟩ := runOps_logs (env := env) ops (op.run env s1)
      have hlog := HOp.run_logs (env := env) op s1
      exact ih _ (.step op hs1 hv.1) hv.2 (fun o ho => hr o (List.mem_cons_of_mem _ ho))
        (fun pre post e => hl (op :: pre) post (by rw [e]; rfl)) hn hu
        (hlog.2 _ hσ) (full_stays hd hs1 hv.1 (hl [op] ops rfl) (hr op (by simp)) (hn.mono hi2)
          (hu.sub hr2) hσ hm h)
  have hend := key ops s1 hs1 hv hr hl hn hu hσ hfull
  have hl1 := hl [] ops rfl
  have hl2 := hl ops [] (by simp)
  obtain ⟨ℓ1, e1, r1⟩ := C42_reading_returns_the_evaluated_value hd.iter hfull
    (fun k => hl1.linksOf_nodup σ k) view
  obtain ⟨ℓ2, e2, r2⟩ := C42_reading_returns_the_evaluated_value hd.iter hend
    (fun k => hl2.linksOf_nodup σ k) view
  rw [e1] at e2
  obtain rfl := Except.ok.inj e2
  rw [r1, r2]

/-- **C44**, for produced artifacts of producers with one output: after a build, whatever happens
while the backend lives — raw data is overwritten or deleted, graphs are built, builds are
interrupted — reading a produced artifact through the snapshot gives the same value.

Missing: raw artifacts, for which this fails (`C44_violated_for_raw_artifacts`), and producers with
several outputs. -/
theorem C44_reading_a_snapshot_is_stable_partial (hd : Disciplined env gs)
    (hso : ∀ g, gs g → SingleOutput env g) {s s1 : St κ D} (hs : Reach env gs s) {g : Graph}
    (hg : gs g) {b : Option Nat} {σ : Snapshot}
    (hrun : graphBuild env g { s with budget := b } = (.ok σ, s1)) {ops : List (HOp κ D)}
    (hv : ValidOps env gs s1 ops) (hr : ∀ op ∈ ops, ∀ keep, op ≠ .restart keep)
    (hn : NoClash env gs (runOps env s1 ops).invs) (hu : SnapUnique (runOps env s1 ops).raws)
    {k : Str} {i : ArtInfo} {p : Pdr} {pos : Nat} (hm : (k, Art.made i p pos) ∈ g.arts)
    (view : Nat) :
    (readSnapshotData env σ (.made i p pos) view (runOps env s1 ops)).1 =
      (readSnapshotData env σ (.made i p pos) view s1).1 := by
  have hstep : Reach env gs s1 := by
    have := Reach.step (.build g b) hs (env := env) (gs := gs) hg
    simpa [HOp.run, hrun] using this
  obtain ⟨hi1, hr1⟩ := runOps_logs (env := env) ops s1
  have hlog := HOp.run_logs (env := env) (.build g b) s
  simp only [HOp.run, hrun] at hlog
  obtain ⟨hw, hl⟩ := hs.inv hd hso ((hn.mono hi1).mono hlog.1) ((hu.sub hr1).sub hlog.2)
  obtain ⟨_, _, _, h4⟩ := graphBuild_spec (s := { s with budget := b }) hd hg (hso g hg)
    ⟨hw.files, hw.store⟩ ⟨hl.nodup, hl.ok⟩ hrun (hn.mono hi1) (hu.sub hr1)
  obtain ⟨-, r, hσ, -, hfull⟩ := h4 σ rfl
  refine reading_stays hd hstep hv hr (fun pre post e => ?_) hn hu hσ ⟨g, hg, k, hm⟩
    (hfull _ _ hm) view
  subst e
  obtain ⟨hi2, hr2⟩ := runOps_logs (env := env) post (runOps env s1 pre)
  rw [← runOps_append] at hi2 hr2
  exact ((Reach.ops env gs hstep (validOps_left hv)).inv hd hso (hn.mono hi2) (hu.sub hr2)).2

namespace Ex44
open Ex

def t : St Nat Str := Ex40.t

/-- Overwrite raw data, build again, interrupt a build, write through the graph, delete raw data. -/
def ops : List (HOp Nat Str) :=
  [.put "a~1".toList ['w'], .build Ex42.g none, .put "a~2".toList [], .build Ex42.g (some 9),
    .writeRaw Ex42.g ⟨0, true, .file ⟨"a".toList, true⟩⟩ ['q'] 3 0 none, .del "a~1".toList]

theorem not_raw (pk : Nat) : ∀ part path,
    generate Ex.env (.file ⟨"a".toList, true⟩) none pk = .ok part → part.loc = .file path →
    ¬ ProducedPath Ex.env (· ∈ [Ex42.g]) path := by
  intro part path hg hl
  unfold generate at hg
  simp only [bind, Except.bind] at hg
  split at hg
  · simp at hg
  · simp only [Option.isNone_none, Option.isSome_none, Bool.true_and, Bool.false_and,
      Bool.false_eq_true, ↓reduceIte] at hg
    split at hg
    · simp at hg
    · simp only [Ex.env, Except.ok.injEq] at hg
      rw [← hg] at hl
      simp only [Loc.file.injEq] at hl
      subst hl
      apply not_produced
      simp only [render, Ex42.g]
      rfl

/-- The hypotheses are met; a build after the changes reads something else. -/
example : (readSnapshotData Ex.env Ex40.σ Ex42.c 0 (runOps Ex.env t ops)).1 =
    .ok "u1v11".toList := by
  refine (C44_reading_a_snapshot_is_stable_partial Ex42.disc Ex42.single Ex40.reach
    (List.mem_singleton.2 rfl) Ex40.run_ok (ops := ops) ?_ ?_ (noClash _ _ (by decide +kernel))
    (snapUnique _ (by decide +kernel)) (k := ['c']) (by decide) 0).trans (by decide +kernel)
  · refine ⟨not_produced _ _ (by decide +kernel), List.mem_singleton.2 rfl,
      not_produced _ _ (by decide +kernel), List.mem_singleton.2 rfl, ?_,
      not_produced _ _ (by decide +kernel), trivial⟩
    exact not_raw 3
  · intro op ho keep
    simp only [ops, List.mem_cons, List.not_mem_nil, or_false] at ho
    rcases ho with rfl | rfl | rfl | rfl | rfl | rfl <;> simp

example : (Ex40.buildAndRead Ex40.y Ex40.s0).1 = .ok ['u', '1'] := by decide +kernel

end Ex44

/-- **C44** is violated for raw artifacts: when raw data is overwritten, then reading through an
old snapshot gives the new data, though the old content fingerprint is recorded in the
snapshot. -/
theorem C44_violated_for_raw_artifacts :
    (readSnapshotData Ex.env Ex40.σ Ex42.a 0 Ex40.t).1 = .ok ['u', 'v'] ∧
    (readSnapshotData Ex.env Ex40.σ Ex42.a 0
      ((HOp.put "a~1".toList ['w']).run Ex.env Ex40.t)).1 = .ok ['w', 'v'] := by
  constructor <;> decide +kernel

/-! ## The raw partitions of a snapshot -/

omit [DecidableEq κ] in
/-- **C30.** Raw data cannot be written through a snapshot: this raises and changes nothing. -/
theorem C30_raw_data_is_not_written_through_a_snapshot [DecidableEq κ] (g : Graph) (σ : Snapshot)
    (d : D) (i : ArtInfo) (fp : Option Fp) (pk : κ) (view : Nat) (s : St κ D) :
    ∃ e, write env g (some σ) d (.raw i) fp pk view s = (.error e, s) := by
  unfold write
  simp only [run_bind]
  cases hk : g.keyOf (.raw i) with
  | none => exact ⟨.keyError, by simp [M.need]⟩
  | some key => exact ⟨.valueError, by simp [M.need, M.raiseIf, Art.out]⟩

/-- **C30.** The raw partitions of a snapshot are fixed when it is taken: whatever happens after
that while the backend lives, exactly those stay linked to it. -/
theorem C30_raw_partitions_of_a_snapshot_stay (hd : Disciplined env gs) {s s1 : St κ D}
    (hs : Reach env gs s) {g : Graph} (hg : gs g) {b : Option Nat} {σ : Snapshot}
    (hrun : fromGraph env g { s with budget := b } = (.ok σ, s1)) {ops : List (HOp κ D)}
    (hv : ValidOps env gs s1 ops) (hr : ∀ op ∈ ops, ∀ keep, op ≠ .restart keep)
    (hn : NoClash env gs (runOps env s1 ops).invs) (hu : SnapUnique (runOps env s1 ops).raws)
    {k : Str} {i : ArtInfo} (hm : (k, Art.raw i) ∈ g.arts) {key : Str}
    (hk : g.keyOf (.raw i) = some key) (x : PSnap κ) :
    x ∈ linksOf (runOps env s1 ops) σ key ↔ x ∈ linksOf s1 σ key := by
  have hstep : Reach env gs s1 := by
    have := Reach.step (.snapshot g b) hs (env := env) (gs := gs) hg
    simpa [HOp.run, hrun] using this
  obtain ⟨hi1, hr1⟩ := runOps_logs (env := env) ops s1
  have hlog := HOp.run_logs (env := env) (.snapshot g b) s
  simp only [HOp.run, hrun] at hlog
  obtain ⟨hw, hl⟩ := hs.sound hd ((hn.mono hi1).mono hlog.1) ((hu.sub hr1).sub hlog.2)
    (log := s.invs) fun _ => id
  obtain ⟨_, _, _, _, _, h4⟩ := fromGraph_spec (rawRel_linkLog s.invs) (s := { s with budget := b }) hd hg
    ⟨hw.files, hw.store⟩ ⟨hl.nodup, hl.ok⟩ hrun
  obtain ⟨rfl, r, hσ, -, hfull⟩ := h4 σ rfl
  obtain ⟨k', ℓ, h1, h2, -, h5, -⟩ := hfull (hu.sub hr1) k i hm
  rw [hk] at h1
  obtain rfl := Option.some.inj h1
  have hl2 := ((Reach.ops env gs hstep hv).sound hd hn hu fun _ => id).2
  refine ⟨fun h => (h5 x).2 (hl2.linked_raw (rawRel_linkLog _) (hr1 _ hσ) hu hk h2 h), fun h => ?_⟩
  have stay : ∀ (ops : List (HOp κ D)) (s1 : St κ D), (∀ op ∈ ops, ∀ keep, op ≠ .restart keep) →
      x ∈ linksOf s1 σ key → x ∈ linksOf (runOps env s1 ops) σ key := by
    intro ops
    induction ops with
    | nil => exact fun _ _ h => h
    | cons op ops ih =>
      exact fun s1 hr h => ih _ (fun o ho => hr o (List.mem_cons_of_mem _ ho))
        (C35_nothing_is_unlinked op (hr op (by simp)) s1 σ key x h)
  exact stay ops s1 hr h

namespace Ex44
open Ex

def t1 : St Nat Str := (fromGraph Ex.env Ex42.g { Ex42.s0 with budget := none }).2

/-- The hypotheses are met, with the operations from above. -/
example : (linksOf (runOps Ex.env t1 ops) Ex40.σ ['a']).length = 2 := by decide +kernel

example (x : PSnap Nat) :
    x ∈ linksOf (runOps Ex.env t1 ops) Ex40.σ ['a'] ↔ x ∈ linksOf t1 Ex40.σ ['a'] := by
  refine C30_raw_partitions_of_a_snapshot_stay (env := Ex.env) (g := Ex42.g) (b := none) (k := ['a'])
    (i := ⟨0, true, .file ⟨"a".toList, true⟩⟩) Ex42.disc
    Ex40.reach (List.mem_singleton.2 rfl) (Prod.ext (by decide +kernel) (by rw [t1])) ?_ ?_
    (noClash _ _ (by decide +kernel)) (snapUnique _ (by decide +kernel)) (by decide)
    (by decide +kernel) x
  · refine ⟨not_produced _ _ (by decide +kernel), List.mem_singleton.2 rfl,
      not_produced _ _ (by decide +kernel), List.mem_singleton.2 rfl, ?_,
      not_produced _ _ (by decide +kernel), trivial⟩
    exact not_raw 3
  · intro op ho keep
    simp only [ops, List.mem_cons, List.not_mem_nil, or_false] at ho
    rcases ho with rfl | rfl | rfl | rfl | rfl | rfl <;> simp

end Ex44

/-! ## C45 -/

/-- Storing the output `d` of the artifact `made i p n` for a key and an input fingerprint: the
partition `sn` with content `c`. -/
def OutputAt (env : Env κ D) (p : Pdr) (fp : Fp) (pk : κ) (i : ArtInfo) (n : Nat) (d : D)
    (sn : PSnap κ) (c : Str) : Prop :=
  ∃ view part, (cls env p).outputs[n]? = some view ∧ env.enc i view d = .ok c ∧
    generate env i.sto (some fp) pk = .ok part ∧ stored env part c = .ok (sn, c)

/-- What `Graph.write` does when it is given a snapshot: the partition is stored and linked; no
other file is touched and nothing is unlinked. -/
private theorem tri_write1 {σ : Snapshot} {d : D} {i : ArtInfo} {p : Pdr} {n : Nat} {fp : Fp}
    {pk : κ} {view : Nat} (s0 : St κ D) :
    Tri (fun s => s = s0)
      (write env σ.graph (some σ) d (.made i p n) (some fp) pk view) (fun sn s =>
        ∃ key c part, σ.graph.keyOf (.made i p n) = some key ∧ env.enc i view d = .ok c ∧
          generate env i.sto (some fp) pk = .ok part ∧ stored env part c = .ok (sn, c) ∧
          sn ∈ linksOf s σ key ∧ content s.files sn.part.loc = some c ∧
          (∀ path, part.loc ≠ .file path → get? s.files path = get? s0.files path) ∧
          ∀ key x, x ∈ linksOf s0 σ key → x ∈ linksOf s σ key)
      (fun _ => True) := by
  refine Tri.need_bind (fun key hk => ?_) fun _ _ => trivial
  refine Tri.raiseIf_bind (fun _ => ?_) fun _ _ => trivial
  refine Tri.lift_bind (fun part hg => ?_) fun _ _ => trivial
  refine Tri.bind (Q := fun sn s => ∃ c, env.enc i view d = .ok c ∧ stored env part c = .ok (sn, c) ∧
    content s.files sn.part.loc = some c ∧
    (∀ path, part.loc ≠ .file path → get? s.files path = get? s0.files path) ∧
    s.links = s0.links) ?_ fun sn => ?_
  · unfold ioWrite
    cases hl : part.loc with
    | file path0 =>
      simp only
      refine Tri.lift_bind (fun c hc => ?_) fun _ _ => trivial
      refine Tri.bind (Q := fun _ s => get? s.files path0 = some c ∧
        (∀ path, path0 ≠ path → get? s.files path = get? s0.files path) ∧ s.links = s0.links)
        (Tri.effect ?_ (fun s m h => h) fun _ _ => trivial) fun _ => ?_
      · rintro s rfl
        refine ⟨by simp [get?_set], fun path hp => ?_, rfl⟩
        simp only [get?_set]
        rw [if_neg hp]
      · refine Tri.gets_bind fun s1 hs1 => Tri.lift (fun sn s hsn hs => ?_) fun _ _ => trivial
        subst hs
        obtain ⟨h1, h2, h3⟩ := hs1
        simp only [snap, contentFp, hl, content, h1, Except.ok.injEq] at hsn
        subst hsn
        refine ⟨c, hc, by simp [stored, hl], by simp [hl, content, h1], fun path hp => h2 path ?_, h3⟩
        rintro rfl; exact hp rfl
    | lit id v =>
      simp only
      refine Tri.raiseIf_bind (fun hv => ?_) fun _ _ => trivial
      refine Tri.lift_bind (fun c hc => ?_) fun _ _ => trivial
      refine Tri.lift (fun sn s hsn hs => ?_) fun _ _ => trivial
      subst hs
      simp only [snap, contentFp, show content [] (Loc.lit id (some c)) = some c from rfl,
        Except.ok.injEq] at hsn
      subst hsn
      cases v with
      | some v => simp at hv
      | none => exact ⟨c, hc, by simp [stored, hl], rfl, fun _ _ => rfl, rfl⟩
  · refine Tri.bind (Q := fun _ s => ∃ c, env.enc i view d = .ok c ∧
      stored env part c = .ok (sn, c) ∧ content s.files sn.part.loc = some c ∧
      (∀ path, part.loc ≠ .file path → get? s.files path = get? s0.files path) ∧
      s.links = s0.links) (Tri.effect (fun s h => h) (fun _ _ h => h) fun _ _ => trivial) fun _ => ?_
    refine Tri.bind (Q := fun _ s => ∃ key c part, σ.graph.keyOf (.made i p n) = some key ∧
          env.enc i view d = .ok c ∧
          generate env i.sto (some fp) pk = .ok part ∧ stored env part c = .ok (sn, c) ∧
          sn ∈ linksOf s σ key ∧ content s.files sn.part.loc = some c ∧
          (∀ path, part.loc ≠ .file path → get? s.files path = get? s0.files path) ∧
          ∀ key x, x ∈ linksOf s0 σ key → x ∈ linksOf s σ key)
      (Tri.effect (fun s hs => ?_) (fun _ _ h => h) fun _ _ => trivial)
      fun _ => Tri.pure fun _ h => h
    obtain ⟨c, h1, h2, h3, h4, h5⟩ := hs
    refine ⟨key, c, part, hk, h1, hg, h2, (linksOf_addLinks s σ key [sn] sn).2 (.inr (by simp)),
      h3, h4, fun k x hx => linksOf_link s key [sn] k x ?_⟩
    unfold linksOf at *
    rw [h5]; exact hx

/-- The values from position `n` on have been written to the artifacts at their positions. -/
private theorem tri_outputs {σ : Snapshot} {p : Pdr} {fp : Fp} {pk : κ}
    (hgap : ∀ k i pos, (k, Art.made i p pos) ∈ σ.graph.arts →
      ∀ j, j ≤ pos → ∃ k' i', (k', Art.made i' p j) ∈ σ.graph.arts) (l : List D) :
    ∀ (n : Nat) (s0 : St κ D), Tri (fun s => s = s0) (writeOutputs env σ p fp pk n l) (fun _ s =>
      (∀ j d, l[j]? = some d → ∃ k i key sn c, (k, Art.made i p (n + j)) ∈ σ.graph.arts ∧
        σ.graph.keyOf (.made i p (n + j)) = some key ∧ OutputAt env p fp pk i (n + j) d sn c ∧
        sn ∈ linksOf s σ key ∧
        ((∀ k' i' m part, (k', Art.made i' p m) ∈ σ.graph.arts → n + j < m →
          generate env i'.sto (some fp) pk = .ok part → part.loc ≠ sn.part.loc) →
          content s.files sn.part.loc = some c)) ∧
      (∀ path, (∀ k' i' m part, (k', Art.made i' p m) ∈ σ.graph.arts → n ≤ m →
          generate env i'.sto (some fp) pk = .ok part → part.loc ≠ .file path) →
        get? s.files path = get? s0.files path) ∧
      ∀ key x, x ∈ linksOf s0 σ key → x ∈ linksOf s σ key) fun _ => True := by
  induction l with
  | nil =>
    intro n s0
    refine Tri.pure ?_
    rintro s rfl
    exact ⟨by simp, fun _ _ => rfl, fun _ _ h => h⟩
  | cons d l ih =>
    intro n s0
    refine Tri.lift_bind (fun outs houts => ?_) fun _ _ => trivial
    refine Tri.need_bind (fun a ha => ?_) fun _ _ => trivial
    refine Tri.need_bind (fun view hview => ?_) fun _ _ => trivial
    obtain ⟨k, i, rfl, hm⟩ := Graph.producerOutputs_pos hgap houts ha
    refine Tri.bind (tri_write1 s0) fun sn => ?_
    intro s1 ⟨key, c, part, h1, h2, h3, h4, h5, h6, h7, h8⟩
    have := ih (n + 1) s1 s1 rfl
    revert this
    cases hrun : writeOutputs env σ p fp pk (n + 1) l s1 with
    | mk res s =>
      cases res with
      | error e => exact fun _ => trivial
      | ok v =>
        intro ⟨g1, g2, g3⟩
        refine ⟨fun j d' hj => ?_, fun path hp => ?_, fun key x hx => g3 _ _ (h8 _ _ hx)⟩
        · cases j with
          | zero =>
            simp only [List.getElem?_cons_zero, Option.some.injEq] at hj
            subst hj
            refine ⟨k, i, key, sn, c, hm, h1, ⟨view, part, hview, h2, h3, h4⟩, g3 _ _ h5,
              fun hno => ?_⟩
            cases hl : sn.part.loc with
            | file path =>
              rw [hl] at h6 hno
              have := g2 path fun k' i' m part' hm' hlt hg => hno k' i' m part' hm' hlt hg
              simp only [content] at h6 ⊢
              rw [this]; exact h6
            | lit id v => rw [hl] at h6; exact h6
          | succ j =>
            simp only [List.getElem?_cons_succ] at hj
            rw [show n + (j + 1) = n + 1 + j by omega]
            exact g1 j d' hj
        · rw [g2 path fun k' i' m part' hm' hlt hg => hp k' i' m part' hm' (by omega) hg]
          exact h7 path (hp k i n part hm (by omega) h3)

/-- **C45**, for a producer of which the graph holds each output up to some position once: when a
partition is built, then the n-th value that `build` returns has been encoded for the artifact that
was bound to the n-th output, stored in the partition of that artifact for the key and the input
fingerprint, and linked to that artifact's key of the snapshot.  There is such an artifact for each
value.  The content stays unless a later output of the same producer has the same location.

Missing: graphs that hold only some outputs of a producer, or two artifacts for the same output;
for these it fails (`C45_violated_by_a_missing_output`, `C45_violated_by_two_artifacts`). -/
theorem C45_output_is_written_to_its_artifact_partial {σ : Snapshot} {p : Pdr} {fp : Fp} {pk : κ}
    (hgap : ∀ k i pos, (k, Art.made i p pos) ∈ σ.graph.arts →
      ∀ j, j ≤ pos → ∃ k' i', (k', Art.made i' p j) ∈ σ.graph.arts)
    (hone : ∀ k i k' i' pos, (k, Art.made i p pos) ∈ σ.graph.arts →
      (k', Art.made i' p pos) ∈ σ.graph.arts → i = i') {existing : List κ} (hnew : pk ∉ existing)
    {deps : List (Str × List (PSnap κ))} {s s' : St κ D}
    (hrun : buildPartition env σ p existing fp deps pk s = (.ok (), s')) :
    ∃ args outs, readArgs env s.files p.inputs deps (cls env p).buildInputs = .ok args ∧
      (cls env p).build args = .ok outs ∧ (cls env p).validate outs = .ok true ∧
      ∀ n d, outs[n]? = some d →
        (∃ k i, (k, Art.made i p n) ∈ σ.graph.arts) ∧
        ∀ k i, (k, Art.made i p n) ∈ σ.graph.arts →
          ∃ key sn c, σ.graph.keyOf (.made i p n) = some key ∧ OutputAt env p fp pk i n d sn c ∧
            sn ∈ linksOf s' σ key ∧
            ((∀ k' i' m part, (k', Art.made i' p m) ∈ σ.graph.arts → n < m →
              generate env i'.sto (some fp) pk = .ok part → part.loc ≠ sn.part.loc) →
              content s'.files sn.part.loc = some c) := by
  have : Tri (fun x => x = s) (buildPartition env σ p existing fp deps pk) (fun _ s' =>
      ∃ args outs, readArgs env s.files p.inputs deps (cls env p).buildInputs = .ok args ∧
      (cls env p).build args = .ok outs ∧ (cls env p).validate outs = .ok true ∧
      ∀ j d, outs[j]? = some d → ∃ k i key sn c, (k, Art.made i p (0 + j)) ∈ σ.graph.arts ∧
        σ.graph.keyOf (.made i p (0 + j)) = some key ∧ OutputAt env p fp pk i (0 + j) d sn c ∧
        sn ∈ linksOf s' σ key ∧
        ((∀ k' i' m part, (k', Art.made i' p m) ∈ σ.graph.arts → 0 + j < m →
          generate env i'.sto (some fp) pk = .ok part → part.loc ≠ sn.part.loc) →
          content s'.files sn.part.loc = some c)) fun _ => True := by
    unfold buildPartition
    rw [if_neg (by simpa using hnew)]
    refine Tri.gets_bind fun s0 hs0 => ?_
    subst hs0
    refine Tri.lift_bind (fun args hargs => ?_) fun _ _ => trivial
    refine Tri.bind (Q := fun _ _ => True)
      (Tri.ghost (fun _ _ => trivial)) fun _ => ?_
    refine Tri.lift_bind (fun outs houts => ?_) fun _ _ => trivial
    refine Tri.lift_bind (fun passed hpassed => ?_) fun _ _ => trivial
    refine Tri.raiseIf_bind (fun hp => ?_) fun _ _ => trivial
    intro s1 _
    have := tri_outputs (env := env) (fp := fp) (pk := pk) hgap outs 0 s1 s1 rfl
    revert this
    cases writeOutputs env σ p fp pk 0 outs s1 with
    | mk res s2 =>
      cases res with
      | error e => exact fun _ => trivial
      | ok v =>
        intro ⟨g1, _, _⟩
        have : passed = true := by simpa using hp
        exact ⟨args, outs, hargs, houts, by rw [hpassed, this], g1⟩
  have h := this s rfl
  rw [hrun] at h
  obtain ⟨args, outs, h1, h2, h3, h4⟩ := h
  refine ⟨args, outs, h1, h2, h3, fun n d hn => ?_⟩
  obtain ⟨k, i, key, sn, c, g1, g2, g3, g4, g5⟩ := h4 n d hn
  rw [Nat.zero_add] at *
  refine ⟨⟨k, i, g1⟩, fun k' i' hm => ?_⟩
  obtain rfl := hone _ _ _ _ _ g1 hm
  exact ⟨key, sn, c, g2, g3, g4, g5⟩

namespace Ex45
open Ex

def σ : Snapshot := ⟨1, Ex40.h⟩

/-- The partition of the input. -/
def sn : PSnap Nat := ⟨Ex.env.fileHash ['u'], ⟨.file ⟨['a'], false⟩, none, 0, .file ['a']⟩⟩

def deps : List (Str × List (PSnap Nat)) := [(['x'], [sn])]

def s' : St Nat Str := (buildPartition Ex.env σ Ex40.p [] 5 deps 0 Ex40.s0).2

theorem run_ok : buildPartition Ex.env σ Ex40.p [] 5 deps 0 Ex40.s0 = (.ok (), s') :=
  Prod.ext (by decide +kernel) (by rw [s'])

/-- The hypotheses are met by the producer with two outputs. -/
example : ∃ c, get? s'.files "c#5".toList = some c := by
  have hm : ∀ k i pos, (k, Art.made i Ex40.p pos) ∈ σ.graph.arts →
      (i.sto = .file ⟨"b{input_fingerprint}".toList, false⟩ ∧ pos = 0 ∨
      i.sto = .file ⟨"c{input_fingerprint}".toList, false⟩ ∧ pos = 1) ∧
      (pos = 0 → i = Ex40.y.info) ∧ (pos = 1 → i = Ex40.z.info) := by
    intro k i pos h
    simp only [σ, Ex40.h, Ex40.x, Ex40.y, Ex40.z, List.mem_cons, Prod.mk.injEq, reduceCtorEq,
      and_false, Art.made.injEq, true_and, List.not_mem_nil, or_false, false_or] at h
    rcases h with ⟨-, rfl, rfl⟩ | ⟨-, rfl, rfl⟩ <;> simp [Ex40.y, Ex40.z, Art.info]
  have hgap : ∀ k i pos, (k, Art.made i Ex40.p pos) ∈ σ.graph.arts →
      ∀ j, j ≤ pos → ∃ k' i', (k', Art.made i' Ex40.p j) ∈ σ.graph.arts := by
    intro k i pos hk j hj
    obtain ⟨h, -, -⟩ := hm _ _ _ hk
    have : j = 0 ∨ j = 1 := by omega
    rcases this with rfl | rfl
    · exact ⟨['b'], Ex40.y.info, by simp [σ, Ex40.h, Ex40.y, Art.info]⟩
    · exact ⟨['c'], Ex40.z.info, by simp [σ, Ex40.h, Ex40.z, Art.info]⟩
  have hone : ∀ k i k' i' pos, (k, Art.made i Ex40.p pos) ∈ σ.graph.arts →
      (k', Art.made i' Ex40.p pos) ∈ σ.graph.arts → i = i' := by
    intro k i k' i' pos hk hk'
    obtain ⟨h, h1, h2⟩ := hm _ _ _ hk
    obtain ⟨-, h3, h4⟩ := hm _ _ _ hk'
    rcases h with ⟨-, rfl⟩ | ⟨-, rfl⟩
    · rw [h1 rfl, h3 rfl]
    · rw [h2 rfl, h4 rfl]
  obtain ⟨args, outs, h1, h2, -, h3⟩ := C45_output_is_written_to_its_artifact_partial
    (env := Ex.env) (existing := []) hgap hone (by simp) run_ok
  have e1 : readArgs Ex.env Ex40.s0.files Ex40.p.inputs deps (cls Ex.env Ex40.p).buildInputs =
      .ok [(['x'], ['u'])] := by decide +kernel
  rw [e1] at h1
  obtain rfl := Except.ok.inj h1
  have e2 : (cls Ex.env Ex40.p).build [(['x'], ['u'])] = .ok [['u', '1'], ['u', 't']] := by
    decide +kernel
  rw [e2] at h2
  obtain rfl := Except.ok.inj h2
  obtain ⟨-, h4⟩ := h3 1 ['u', 't'] rfl
  obtain ⟨key, sn, c, -, ⟨view, part, -, -, g3, g4⟩, -, g6⟩ := h4 ['c'] Ex40.z.info
    (by simp [σ, Ex40.h, Ex40.z, Art.info])
  have e3 : generate Ex.env Ex40.z.info.sto (some 5) 0 =
      .ok ⟨Ex40.z.info.sto, some 5, 0, .file "c#5".toList⟩ := by decide +kernel
  rw [e3] at g3
  obtain rfl := Except.ok.inj g3
  simp only [stored, Except.ok.injEq, Prod.mk.injEq, and_true] at g4
  subst g4
  refine ⟨c, g6 ?_⟩
  intro k' i' m part hk hlt _
  obtain ⟨h, -, -⟩ := hm _ _ _ hk
  omega

/-- Only the second output of the producer is in the graph. -/
def h1 : Graph := ⟨['h'], [(['a'], Ex40.x), (['c'], Ex40.z)], []⟩
def s1 : St Nat Str := { (graphBuild Ex.env h1 Ex40.s0).2 with budget := none }

/-- `out` was called twice on equal producers: two artifacts for the first output. -/
def y' : Art := .made ⟨0, false, .file ⟨"d{input_fingerprint}".toList, false⟩⟩ Ex40.p 0
def h2 : Graph :=
  ⟨['h'], [(['a'], Ex40.x), (['b'], Ex40.y), (['c'], Ex40.z), (['d'], y')], []⟩

def buildAndRead (g : Graph) (a : Art) : M Nat Str Str := do
  let σ ← graphBuild Ex.env g
  readSnapshotData Ex.env σ a 0

end Ex45

/-- **C45** is violated when only some outputs of a producer are in the graph.  With all outputs in
the graph, the second one is read as `ut`.  When only the second one is, the first build writes the
first value to its artifact and raises an `IndexError`; the second build succeeds, and the first
value is read from the artifact of the second output. -/
theorem C45_violated_by_a_missing_output :
    (Ex40.buildAndRead Ex40.z Ex40.s0).1 = .ok ['u', 't'] ∧
    (graphBuild Ex.env Ex45.h1 Ex40.s0).1 = .error .indexError ∧
    (Ex45.buildAndRead Ex45.h1 Ex40.z Ex45.s1).1 = .ok ['u', '1'] := by
  refine ⟨?_, ?_, ?_⟩ <;> decide +kernel

/-- **C45** is violated when the graph holds two artifacts for one output: the build succeeds, but
nothing is written to the first of them. -/
theorem C45_violated_by_two_artifacts :
    (Ex45.buildAndRead Ex45.h2 Ex45.y' Ex40.s0).1 = .ok ['u', '1'] ∧
    (Ex45.buildAndRead Ex45.h2 Ex40.z Ex40.s0).1 = .ok ['u', 't'] ∧
    (Ex45.buildAndRead Ex45.h2 Ex40.y Ex40.s0).1 = .error .fileNotFound := by
  refine ⟨?_, ?_, ?_⟩ <;> decide +kernel

end Arti.Props
