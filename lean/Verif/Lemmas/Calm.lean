import Verif.Lemmas.Together

/-! Builds and histories in which the outputs of producers stay together. -/

namespace Arti.Spec
open PyDict World M
variable {κ D : Type} [DecidableEq κ] {env : Env κ D} {gs : Graph → Prop}

theorem FindsAll.now {files : PyDict Str Str} (h : FindsAll env gs files) : Finds env gs files :=
  h files fun _ => .inl

theorem FindsAll.add {files files' : PyDict Str Str} (h : FindsAll env gs files)
    (hf : ∀ path, get? files' path ≠ none → get? files path ≠ none ∨ ProducedPath env gs path) :
    FindsAll env gs files' := fun files'' h2 => h files'' fun path hp => by
  rcases h2 path hp with h3 | h3
  · exact hf path h3
  · exact .inr h3

/-- Building a producer adds only produced files. -/
theorem buildProducer_files (hd : Disciplined env gs) {σ : Snapshot} (hg : gs σ.graph) {p : Pdr}
    {k0 : Str} {i0 : ArtInfo} {pos0 : Nat} (hm0 : (k0, Art.made i0 p pos0) ∈ σ.graph.arts)
    (s : St κ D) (path : Str) (hp : get? (World.buildProducer env σ p s).2.files path ≠ none) :
    get? s.files path ≠ none ∨ ProducedPath env gs path := by
  obtain ⟨outs, ho⟩ := producerOutputs_of_mem hm0
  have hloc : Local env σ p outs (fun x : St κ D => ∀ path, get? x.files path ≠ none →
      get? s.files path ≠ none ∨ ProducedPath env gs path) := by
    refine ⟨fun _ _ h => h, ?_, fun _ _ h => h, fun _ _ _ _ h => h, fun _ _ _ _ _ _ h => h⟩
    intro x a fp pk part path c ha hgen hl hx path' hp'
    rw [get?_set] at hp'
    split at hp'
    · rename_i e
      subst e
      obtain ⟨k, i, pos, rfl, hm⟩ := Graph.mem_producerOutputs ho ha
      have hmade : Made gs i p pos := ⟨_, hg, k, hm⟩
      have hfp := (generate_ok hgen).2.2.2.1
      rw [show (Art.made i p pos).info.sto = i.sto from rfl, hd.hasFp i p pos hmade] at hfp
      obtain ⟨f, rfl⟩ := Option.isSome_iff_exists.1 hfp
      exact .inr ⟨i, p, pos, f, pk, part, hmade, hgen, hl⟩
    · exact hx path' hp'
  exact hloc.buildProducer ho (fun _ _ h => h) s (fun _ => .inl) path hp

/-- Builds of producers keep their outputs together. -/
theorem completes_whole (hd : Disciplined env gs) (ht : Together env gs) {σ : Snapshot}
    (hg : gs σ.graph) (r : PyDict Str (Data κ)) :
    Completes env gs σ r (fun s => Whole env gs s ∧ FindsAll env gs s.files) := by
  rintro p s s' hw hl hr hu ⟨hh, hf⟩ hfull ⟨k0, i0, pos0, hm0⟩ hrun hn
  obtain ⟨-, -, -, hh2, hfull2⟩ := buildProducer_whole hd ht hg hw hl hr hu hh hf.now hfull
    (fun _ _ _ _ h => absurd h not_own_input) hm0 hrun hn
  have hfs := fun path => buildProducer_files (env := env) hd hg hm0 s path
  rw [hrun] at hfs
  exact ⟨⟨hh2, hf.add hfs⟩, hfull2⟩

/-- A successful run over a schedule. -/
theorem buildOrder_whole (hd : Disciplined env gs) (ht : Together env gs) {σ : Snapshot}
    {r : PyDict Str (Data κ)} (hg : gs σ.graph) : ∀ (nodes done : List Nd)
    (s s' : St κ D), Sched σ.graph done nodes → nodes.Nodup → (∀ n ∈ done, n ∉ nodes) →
    WInv env gs s → LInv (LinkEval env) s → (σ, r) ∈ s.raws → SnapUnique s.raws →
    Whole env gs s → FindsAll env gs s.files →
    (∀ k i, (k, Art.raw i) ∈ σ.graph.arts → Full env s σ (rawOf σ r) (.raw i)) →
    (∀ k i p pos, (k, Art.made i p pos) ∈ σ.graph.arts → Nd.pdr p ∈ done →
      Full env s σ (rawOf σ r) (.made i p pos)) →
    buildOrder env σ nodes s = (.ok (), s') → NoClash env gs s'.invs →
    WInv env gs s' ∧ LInv (LinkEval env) s' ∧ Grow s s' ∧ Whole env gs s' ∧
      (∀ k i, (k, Art.raw i) ∈ σ.graph.arts → Full env s' σ (rawOf σ r) (.raw i)) ∧
      ∀ k i p pos, (k, Art.made i p pos) ∈ σ.graph.arts → Nd.pdr p ∈ done ++ nodes →
        Full env s' σ (rawOf σ r) (.made i p pos)
  | [], done, s, s', _, _, _, hw, hl, hr, hu, hh, hf, hraw, hmade, hrun, hn => by
    simp only [buildOrder, run_pure, Prod.mk.injEq] at hrun
    obtain ⟨-, rfl⟩ := hrun
    exact ⟨hw, hl, Grow.refl _, hh, hraw, fun k i p pos hm hp =>
      hmade k i p pos hm (by simpa using hp)⟩
  | .art x :: rest, done, s, s', hsch, hnd, hdn, hw, hl, hr, hu, hh, hf, hraw, hmade, hrun, hn => by
    obtain ⟨h1, h2, h3, h4, h5, h6⟩ := buildOrder_whole hd ht hg rest done s s' hsch
      (List.nodup_cons.1 hnd).2 (fun n h1 h2 => hdn n h1 (List.mem_cons_of_mem _ h2)) hw hl hr hu hh
      hf hraw hmade hrun hn
    refine ⟨h1, h2, h3, h4, h5, fun k i p pos hm hp => h6 k i p pos hm ?_⟩
    simpa using hp
  | .pdr p :: rest, done, s, s', hsch, hnd, hdn, hw, hl, hr, hu, hh, hf, hraw, hmade, hrun, hn => by
    obtain ⟨⟨k0, i0, pos0, hm0⟩, hins, hrest⟩ := hsch
    have hpd : Nd.pdr p ∉ done := fun h => hdn _ h (by simp)
    unfold buildOrder at hrun
    rw [run_bind] at hrun
    have hfs := fun path => buildProducer_files (env := env) hd hg hm0 s path
    cases hbp : World.buildProducer env σ p s with
    | mk rb s2 =>
    rw [hbp] at hrun hfs
    cases rb with
    | error e => simp at hrun
    | ok u =>
    simp only at hrun
    have hmono : ∀ e ∈ s2.invs, e ∈ s'.invs := by
      have hf : Frame (fun s : St κ D => ∀ e ∈ s2.invs, e ∈ s.invs) :=
        ⟨fun _ _ h => h, fun _ _ h => h, fun _ _ h => h, fun _ _ h => h, fun _ _ h => h⟩
      have := hf.buildOrder (env := env)
        (fun s x h e he => List.mem_append.2 (.inl (h e he))) σ rest s2 (fun _ => id)
      rw [hrun] at this
      exact this
    have hin : ∀ n a, (n, a) ∈ p.inputs → ∀ k, σ.graph.keyOf a = some k →
        Full env s σ (rawOf σ r) a := by
      intro n a ha k hk
      have hmem := Graph.keyOf_mem hk
      cases a with
      | raw i => exact hraw k i hmem
      | made j q qpos => exact hmade k j q qpos hmem (hins n j q qpos ha ⟨k, hmem⟩)
    obtain ⟨hw2, hl2, hg2, hh2, hfull⟩ := buildProducer_whole hd ht hg hw hl hr hu hh hf.now hin
      (fun n i pos k hna hka => hpd (hins n i p pos hna ⟨k, hka⟩)) hm0 hbp (hn.mono hmono)
    have hr2 : (σ, r) ∈ s2.raws := by rw [hg2.raws]; exact hr
    have hu2 : SnapUnique s2.raws := by rw [hg2.raws]; exact hu
    obtain ⟨h1, h2, h3, h4, h5, h6⟩ := buildOrder_whole hd ht hg rest (.pdr p :: done) s2 s' hrest
      (List.nodup_cons.1 hnd).2
      (fun n h1 h2 => by
        rcases List.mem_cons.1 h1 with rfl | h1
        · exact (List.nodup_cons.1 hnd).1 h2
        · exact hdn n h1 (List.mem_cons_of_mem _ h2))
      hw2 hl2 hr2 hu2 hh2 (hf.add hfs)
      (fun k i hm => (hraw k i hm).mono hd.iter hl2 hr2 hu2 hg2)
      (by
        intro k i q pos hm hq
        rcases List.mem_cons.1 hq with heq | hq
        · simp only [Nd.pdr.injEq] at heq
          subst heq
          exact hfull k i pos hm
        · exact (hmade k i q pos hm hq).mono hd.iter hl2 hr2 hu2 hg2)
      hrun hn
    refine ⟨h1, h2, hg2.trans h3, h4, h5, fun k i q pos hm hq => h6 k i q pos hm ?_⟩
    simp only [List.cons_append, List.mem_append, List.mem_cons] at hq ⊢
    tauto

/-- A successful build of a snapshot whose raw partitions are linked and unchanged. -/
theorem build_whole (hd : Disciplined env gs) (ht : Together env gs) {σ : Snapshot}
    {r : PyDict Str (Data κ)} (hg : gs σ.graph) {s s' : St κ D} (hw : WInv env gs s)
    (hl : LInv (LinkEval env) s) (hr : (σ, r) ∈ s.raws) (hu : SnapUnique s.raws)
    (hh : Whole env gs s) (hf : FindsAll env gs s.files)
    (hraw : ∀ k i, (k, Art.raw i) ∈ σ.graph.arts → Full env s σ (rawOf σ r) (.raw i))
    (hrun : build env σ s = (.ok (), s')) (hn : NoClash env gs s'.invs) :
    WInv env gs s' ∧ LInv (LinkEval env) s' ∧ Grow s s' ∧ Whole env gs s' ∧
    ∀ k a, (k, a) ∈ σ.graph.arts → Full env s' σ (rawOf σ r) a := by
  unfold build at hrun
  rw [run_bind, run_lift] at hrun
  obtain ⟨order, ho⟩ := (Props.C28_graphs_are_acyclic σ.graph).2
  rw [ho] at hrun
  simp only at hrun
  obtain ⟨h1, h2, h3, h4, h5, h6⟩ := buildOrder_whole hd ht hg order [] s s'
    (sched_static ho fun p hp => (pdr_mem_order ho p).1 hp)
    (Props.C27_order_respects_dependencies _ _ ho).1 (by simp) hw hl hr hu hh hf hraw (by simp) hrun
    hn
  refine ⟨h1, h2, h3, h4, fun k a ha => ?_⟩
  cases a with
  | raw i => exact h5 k i ha
  | made i p pos =>
    exact h6 k i p pos ha (by simpa using (pdr_mem_order ho p).2 ⟨k, i, pos, ha⟩)

/-- Storages with a fingerprint and files decide. -/
theorem Whole.same {s s' : St κ D} (h : Whole env gs s)
    (hs : ∀ sto, MadeSto gs sto → get? s'.storage sto = get? s.storage sto)
    (hf : ∀ path, ProducedPath env gs path → get? s'.files path = get? s.files path) :
    Whole env gs s' := by
  have hk : ∀ sto, MadeSto gs sto → ∀ f pk, KnownAt s' sto f pk ↔ KnownAt s sto f pk := by
    intro sto hm f pk
    unfold KnownAt
    rw [hs sto hm]
  have ho : ∀ sto, MadeSto gs sto → ∀ f pk, OnFile env s'.files sto f pk ↔
      OnFile env s.files sto f pk := by
    rintro sto ⟨i, p, pos, hm, rfl⟩ f pk
    constructor
    · rintro ⟨part, path, h1, h2, h3⟩
      exact ⟨part, path, h1, h2, by rw [← hf path ⟨i, p, pos, f, pk, part, hm, h1, h2⟩]; exact h3⟩
    · rintro ⟨part, path, h1, h2, h3⟩
      exact ⟨part, path, h1, h2, by rw [hf path ⟨i, p, pos, f, pk, part, hm, h1, h2⟩]; exact h3⟩
  refine ⟨fun a b hb ha => ?_, fun a b hb f pk hk' => ?_, fun a b hb f pk hk' => ?_⟩
  · rw [hs a hb.made] at ha
    rw [hs b hb.symm.made]
    exact h.cached a b hb ha
  · exact (hk b hb.symm.made f pk).2 (h.known a b hb f pk ((hk a hb.made f pk).1 hk'))
  · exact (ho b hb.symm.made f pk).2 (h.files a b hb f pk ((ho a hb.made f pk).1 hk'))

theorem MadeSto.hasFp (hd : Disciplined env gs) {sto : Sto} (h : MadeSto gs sto) :
    sto.hasFp = true := by
  obtain ⟨i, p, pos, hm, rfl⟩ := h
  exact hd.hasFp i p pos hm

theorem Whole.fromGraph (hd : Disciplined env gs) {g : Graph} (hg : gs g) {s s' : St κ D}
    {res : Except Err Snapshot} (h : Whole env gs s) (hrun : fromGraph env g s = (res, s')) :
    Whole env gs s' ∧ s'.files = s.files := by
  have hfiles : (World.fromGraph env g s).2.files = s.files :=
    keeps_fromGraph (env := env) (K := (· = s.files)) g _ rfl
  rw [hrun] at hfiles
  obtain ⟨-, h2⟩ := fromGraph_storage (hd.keys _ hg) hrun
  exact ⟨h.same (fun sto hm => h2 sto (hm.hasFp hd)) fun _ _ => by rw [hfiles], hfiles⟩

/-- A successful `Graph.build`. -/
theorem graphBuild_whole (hd : Disciplined env gs) (ht : Together env gs) {s s' : St κ D}
    {g : Graph} (hg : gs g) (hw : WInv env gs s) (hl : LInv (LinkEval env) s)
    (hh : Whole env gs s) (hf : FindsAll env gs s.files) {σ : Snapshot}
    (hrun : graphBuild env g s = (.ok σ, s')) (hn : NoClash env gs s'.invs)
    (hu : SnapUnique s'.raws) :
    WInv env gs s' ∧ LInv (LinkEval env) s' ∧ Whole env gs s' ∧ σ.graph = g ∧
    ∃ r, (σ, r) ∈ s'.raws ∧ (∀ i, rawOf σ r i = rawNow env g s.files i) ∧
      ∀ k a, (k, a) ∈ g.arts → Full env s' σ (rawOf σ r) a := by
  unfold graphBuild at hrun
  rw [run_bind] at hrun
  cases hfg : World.fromGraph env g s with
  | mk rf s2 =>
  rw [hfg] at hrun
  obtain ⟨hw2, hl2, hf2, hi2, hr2, hok⟩ := fromGraph_spec rawRel_linkEval hd hg hw hl hfg
  obtain ⟨hh2, hf3⟩ := hh.fromGraph hd hg hfg
  cases rf with
  | error e => simp at hrun
  | ok σ' =>
  obtain ⟨rfl, r, hr, hraw, hfull⟩ := hok σ' rfl
  simp only [run_bind] at hrun
  cases hb : build env σ' s2 with
  | mk rb s3 =>
  rw [hb] at hrun
  cases rb with
  | error e => simp at hrun
  | ok u =>
  simp only [run_pure, Prod.mk.injEq, Except.ok.injEq] at hrun
  obtain ⟨rfl, rfl⟩ := hrun
  have hraws : s3.raws = s2.raws := by
    have hf : Frame (fun s : St κ D => s.raws = s2.raws) :=
      ⟨fun _ _ h => h, fun _ _ h => h, fun _ _ h => h, fun _ _ h => h, fun _ _ h => h⟩
    have := hf.build (env := env) (fun s x h => h) σ' s2 rfl
    rw [hb] at this; exact this
  rw [hraws] at hu
  obtain ⟨h1, h2, h3, h4, h5⟩ := build_whole hd ht hg hw2 hl2 hr hu hh2 (by rw [hf3]; exact hf)
    (hfull hu) hb hn
  exact ⟨h1, h2, h4, rfl, r, by rw [hraws]; exact hr, hraw, h5⟩

theorem Whole.budget {s : St κ D} (h : Whole env gs s) (b : Option Nat) :
    Whole env gs { s with budget := b } := ⟨h.cached, h.known, h.files⟩

theorem get?_filter_kept {β : Type} (d : PyDict Str β) (keep : Str → Bool) (p : Str)
    (hk : keep p = true) : get? (d.filter fun x => keep x.1) p = get? d p := by
  induction d with
  | nil => rfl
  | cons x d ih =>
    obtain ⟨k, v⟩ := x
    by_cases hkk : keep k = true
    · simp only [List.filter_cons, hkk, ↓reduceIte, get?, ih]
    · have : k ≠ p := by rintro rfl; exact hkk hk
      simp only [List.filter_cons, hkk, Bool.false_eq_true, ↓reduceIte, get?, ih, this]

/-- Whatever is not a build. -/
theorem Whole.step (hd : Disciplined env gs) {s : St κ D}
    (h : Whole env gs s) {op : HOp κ D}
    (hv : op.Valid env gs s) (hc : op.Calm env gs s)
    (hnb : ∀ g b, op ≠ .build g b) (hnr : ∀ σ b, op ≠ .rebuild σ b) :
    Whole env gs (op.run env s) := by
  cases op with
  | put path c =>
    refine h.same (fun _ _ => rfl) fun path' hp => ?_
    show get? (PyDict.set s.files path c) path' = _
    rw [get?_set, if_neg]
    rintro rfl
    exact hv hp
  | del path =>
    refine h.same (fun _ _ => rfl) fun path' hp => get?_filter_ne _ _ _ ?_
    rintro rfl
    exact hv hp
  | writeRaw g i d pk view b =>
    have hfr : Tri (fun x : St κ D =>
        (∀ sto, MadeSto gs sto → get? x.storage sto = get? s.storage sto) ∧
        ∀ path, ProducedPath env gs path → get? x.files path = get? s.files path)
        (write env g none d (.raw i) none pk view)
        (fun _ x => (∀ sto, MadeSto gs sto → get? x.storage sto = get? s.storage sto) ∧
        ∀ path, ProducedPath env gs path → get? x.files path = get? s.files path)
        (fun x => (∀ sto, MadeSto gs sto → get? x.storage sto = get? s.storage sto) ∧
        ∀ path, ProducedPath env gs path → get? x.files path = get? s.files path) := by
      unfold write
      refine Tri.need_bind (fun key _ => ?_) (fun _ h => h)
      refine Tri.raiseIf_bind (fun _ => ?_) (fun _ h => h)
      refine Tri.lift_bind (fun part hpart => ?_) (fun _ h => h)
      refine Tri.bind (Q := fun _ x =>
        (∀ sto, MadeSto gs sto → get? x.storage sto = get? s.storage sto) ∧
        ∀ path, ProducedPath env gs path → get? x.files path = get? s.files path) ?_ ?_
      · unfold ioWrite
        split
        · rename_i path hloc
          refine Tri.lift_bind (fun c _ => ?_) (fun _ h => h)
          refine Tri.bind (Q := fun _ x =>
            (∀ sto, MadeSto gs sto → get? x.storage sto = get? s.storage sto) ∧
            ∀ path, ProducedPath env gs path → get? x.files path = get? s.files path)
            (Tri.effect ?_ (fun _ _ h => h) (fun _ h => h)) fun _ => ?_
          · rintro x ⟨h1, h2⟩
            refine ⟨h1, fun path' hp => ?_⟩
            show get? (PyDict.set x.files path c) path' = _
            rw [get?_set, if_neg]
            · exact h2 path' hp
            · rintro rfl
              exact hv part path hpart hloc hp
          · exact Tri.bind (Q := fun _ x =>
              (∀ sto, MadeSto gs sto → get? x.storage sto = get? s.storage sto) ∧
              ∀ path, ProducedPath env gs path → get? x.files path = get? s.files path)
              (Tri.gets fun _ h => h) fun _ => Tri.lift (fun _ _ _ h => h) (fun _ h => h)
        · refine Tri.raiseIf_bind (fun _ => ?_) (fun _ h => h)
          refine Tri.lift_bind (fun c _ => ?_) (fun _ h => h)
          exact Tri.lift (fun _ _ _ h => h) (fun _ h => h)
      · intro sn
        have hfp : i.sto.hasFp = false := (generate_ok hpart).2.2.2.1.symm
        refine Tri.bind (Q := fun _ x =>
          (∀ sto, MadeSto gs sto → get? x.storage sto = get? s.storage sto) ∧
          ∀ path, ProducedPath env gs path → get? x.files path = get? s.files path)
          (Tri.effect ?_ (fun _ _ h => h) (fun _ h => h)) fun _ =>
          Tri.bind (Q := fun _ x =>
            (∀ sto, MadeSto gs sto → get? x.storage sto = get? s.storage sto) ∧
            ∀ path, ProducedPath env gs path → get? x.files path = get? s.files path)
            (Tri.pure fun _ h => h) fun _ => Tri.pure fun _ h => h
        rintro x ⟨h1, h2⟩
        refine ⟨fun sto hm => ?_, h2⟩
        rw [← h1 sto hm]
        simp only [get?_set]
        rw [if_neg]
        rintro rfl
        have := hm.hasFp hd
        simp [Art.info, hfp] at this
    have := hfr { s with budget := b } ⟨fun _ _ => rfl, fun _ _ => rfl⟩
    simp only [HOp.run]
    cases hx : write env g none d (.raw i) none pk view { s with budget := b } with
    | mk rx sx =>
      rw [hx] at this
      cases rx with
      | ok _ => exact h.same this.1 this.2
      | error _ => exact h.same this.1 this.2
  | lookup a ifps =>
    have hk : Keeps (fun x : St κ D =>
        (∀ sto, MadeSto gs sto → get? x.storage sto = get? s.storage sto) ∧ x.files = s.files)
        (readArtifactPartitions env a ifps) := by
      refine Keeps.bind ?_ fun _ => Keeps.bind (Keeps.gets _) fun _ => Keeps.pure _
      refine Keeps.bind (Keeps.gets _) fun b => ?_
      split
      · exact Keeps.pure _
      · refine Keeps.bind (Keeps.gets _) fun _ => Keeps.bind (Keeps.lift _) fun _ =>
          Keeps.effect ?_ (fun _ _ h => h)
        rintro x ⟨h1, h2⟩
        refine ⟨fun sto hm => ?_, h2⟩
        rw [← h1 sto hm]
        simp only [get?_set]
        rw [if_neg]
        rintro rfl
        obtain ⟨i, p, pos, hm, e⟩ := hm
        exact hc i p pos hm e
    obtain ⟨h1, h2⟩ := hk { s with budget := none } ⟨fun _ _ => rfl, rfl⟩
    exact h.same h1 fun path _ => by
      show get? (readArtifactPartitions env a ifps { s with budget := none }).2.files path = _
      rw [h2]
  | snapshot g b =>
    exact ((h.budget b).fromGraph hd hv (Prod.ext rfl rfl)).1
  | build g b => exact absurd rfl (hnb g b)
  | rebuild σ b => exact absurd rfl (hnr σ b)
  | tag σ name o =>
    have hk : Keeps (fun x : St κ D => x.storage = s.storage ∧ x.files = s.files)
        (writeSnapshotTag σ name o) := by
      refine Keeps.bind (Keeps.gets _) fun _ => Keeps.bind (Keeps.raiseIf _ _) fun _ => ?_
      exact Keeps.effect (fun _ h => h) fun _ _ h => h
    obtain ⟨h1, h2⟩ := hk { s with budget := none } ⟨rfl, rfl⟩
    refine h.same (fun sto _ => ?_) fun path _ => ?_
    · show get? (writeSnapshotTag σ name o { s with budget := none }).2.storage sto = _
      rw [h1]
    · show get? (writeSnapshotTag σ name o { s with budget := none }).2.files path = _
      rw [h2]
  | restart keep =>
    refine ⟨by simp [HOp.run, get?], ?_, ?_⟩
    · rintro a b hb f pk ⟨ps, h1, -⟩
      simp [HOp.run, get?] at h1
    · rintro a b hb f pk ⟨part, path, h1, h2, h3⟩
      by_cases hab : a = b
      · subst hab; exact ⟨part, path, h1, h2, h3⟩
      have hkeep : keep path = true := by
        by_contra hk
        have h3' : get? (s.files.filter fun x => keep x.1) path ≠ none := h3
        cases hg : get? (s.files.filter fun x => keep x.1) path with
        | none => exact h3' hg
        | some c => exact hk (List.mem_filter.1 (get?_mem hg)).2
      have h3' : get? (s.files.filter fun x => keep x.1) path ≠ none := h3
      rw [get?_filter_kept _ _ _ hkeep] at h3'
      obtain ⟨part', path', g1, g2, g3⟩ := h.files a b hb f pk ⟨part, path, h1, h2, h3'⟩
      refine ⟨part', path', g1, g2, ?_⟩
      show get? (s.files.filter fun x => keep x.1) path' ≠ none
      rw [get?_filter_kept _ _ _ ((hc a b hb f pk part part' path path' h1 g1 h2 g2).symm.trans hkeep)]
      exact g3

end Arti.Spec
