import Verif.Spec.Ops
import Verif.Lemmas.BuildOrder

/-! The invariants hold in every history. -/

namespace Arti.Spec
open PyDict World M
variable {κ D : Type} [DecidableEq κ] {env : Env κ D} {gs : Graph → Prop}
  {E : Snapshot → PyDict Str (Data κ) → Art → PSnap κ → Prop}

theorem SnapUnique.sub {raws raws' : List (Snapshot × PyDict Str (Data κ))}
    (h : SnapUnique raws') (hs : ∀ x ∈ raws, x ∈ raws') : SnapUnique raws :=
  fun σ r r' h1 h2 => h σ r r' (hs _ h1) (hs _ h2)

/-- Files change only where no produced artifact is stored. -/
theorem WInv.change {s : St κ D} (h : WInv env gs s) {files : PyDict Str Str}
    (hf : ∀ path, ProducedPath env gs path → get? files path = get? s.files path) :
    WInv env gs { s with files := files } := by
  constructor
  · intro sto hm f pk part path b h1 h2 h3
    obtain ⟨i, p, pos, hmade, rfl⟩ := hm
    refine h.files i.sto ⟨i, p, pos, hmade, rfl⟩ f pk part path b h1 h2 ?_
    rw [← hf path ⟨i, p, pos, f, pk, part, hmade, h1, h2⟩]
    exact h3
  · intro sto hm ss hss sn hsn
    obtain ⟨i, p, pos, hmade, rfl⟩ := hm
    obtain ⟨f, part, b, h1, h2, h3, h4⟩ := h.store i.sto ⟨i, p, pos, hmade, rfl⟩ ss hss sn hsn
    refine ⟨f, part, b, h1, h2, ?_, h4⟩
    cases hl : part.loc with
    | file path =>
      have he : sn.part.loc = .file path := by
        unfold stored at h2
        rw [hl] at h2
        simp only [Except.ok.injEq, Prod.mk.injEq] at h2
        rw [← h2.1]; exact hl
      rw [he] at h3 ⊢
      show get? files path = some b
      rw [hf path ⟨i, p, pos, f, _, part, hmade, h1, hl⟩]
      exact h3
    | lit lid v =>
      obtain ⟨v', he⟩ : ∃ v', sn.part.loc = .lit lid v' := by
        unfold stored at h2
        rw [hl] at h2
        cases v with
        | none =>
          simp only [Except.ok.injEq, Prod.mk.injEq] at h2
          rw [← h2.1]; exact ⟨_, rfl⟩
        | some _ => simp at h2
      rw [he] at h3 ⊢
      exact h3

theorem LInv.files {s : St κ D} (h : LInv E s) (files : PyDict Str Str) :
    LInv E { s with files := files } := ⟨h.nodup, h.ok⟩

theorem get?_filter_ne {β : Type} (d : PyDict Str β) (p path : Str) (h : p ≠ path) :
    get? (d.filter fun x => x.1 ≠ path) p = get? d p := by
  induction d with
  | nil => rfl
  | cons x d ih =>
    obtain ⟨k, v⟩ := x
    by_cases hk : k = path
    · have hkp : k ≠ p := fun e => h (e ▸ hk)
      simp only [List.filter_cons, ne_eq, hk, not_true_eq_false, decide_false, Bool.false_eq_true,
        ↓reduceIte]
      rw [ih]
      have : path ≠ p := fun e => h e.symm
      simp [get?, this]
    · simp only [List.filter_cons, ne_eq, hk, not_false_eq_true, decide_true, ↓reduceIte]
      simp only [get?, ih]

theorem get?_filter_keep {β : Type} (d : PyDict Str β) (keep : Str → Bool) (p : Str) (b : β)
    (h : get? (d.filter fun x => keep x.1) p = some b) : get? d p = some b := by
  induction d with
  | nil => exact h
  | cons x d ih =>
    obtain ⟨k, v⟩ := x
    by_cases hk : keep k = true
    · simp only [List.filter_cons, hk, ↓reduceIte] at h
      simp only [get?] at h ⊢
      split
      · rename_i he; rw [if_pos he] at h; exact h
      · rename_i he; rw [if_neg he] at h; exact ih h
    · simp only [List.filter_cons, hk, Bool.false_eq_true, ↓reduceIte] at h
      have hb := ih h
      simp only [get?]
      split
      · rename_i he
        subst he
        -- the key was filtered out
        have hm := get?_mem h
        have := (List.mem_filter.1 hm).2
        exact absurd this hk
      · exact hb

variable {s1 : St κ D}

theorem tri_lookup (hd : Disciplined env gs) (a : Art) (ifps : PyDict κ Fp) :
    Tri (J E env gs s1) (readArtifactPartitions env a ifps) (fun _ => J E env gs s1)
      (J E env gs s1) := by
  refine Tri.bind (Q := fun _ => J E env gs s1) ?_ fun _ => ?_
  · refine Tri.gets_bind fun s hs => ?_
    cases hk : contains s.storage a.info.sto with
    | true => exact Tri.pure fun s' h => by rw [h]; exact hs
    | false =>
      refine Tri.gets_bind fun s' hs' => ?_
      subst hs'
      refine Tri.lift_bind ?_ (by rintro s'' rfl; exact hs)
      intro found hfound
      refine (tri_addStorage (s1 := s1) ?_).conseq (fun _ => id) (fun _ _ h => h.1) (fun _ => id)
      rintro s'' rfl
      refine ⟨hs, fun hm sn hsn => ?_⟩
      obtain ⟨i, p, pos, hmade, hsto⟩ := id hm
      have hfp := hd.hasFp i p pos hmade
      rw [hsto] at hfp
      by_cases hne : ifps = []
      · subst hne
        have := (discover_raw hfound hsn).1
        simp [hfp] at this
      · exact discover_good hs.w hm hne hfound hsn hfp
  · exact Tri.bind (Tri.gets (Q := fun _ => J E env gs s1) fun _ h => h) fun _ =>
      Tri.pure fun _ h => h

theorem tri_writeRaw (hd : Disciplined env gs) (g : Graph) (i : ArtInfo) (d : D) (pk : κ)
    (view : Nat) (hv : ∀ part path, generate env i.sto none pk = .ok part →
      part.loc = .file path → ¬ ProducedPath env gs path)
    {I : List (Inv κ D)} {R : List (Snapshot × PyDict Str (Data κ))} :
    Tri (fun s => WInv env gs s ∧ LInv E s ∧ s.invs = I ∧ s.raws = R)
      (write env g none d (.raw i) none pk view)
      (fun _ s => WInv env gs s ∧ LInv E s ∧ s.invs = I ∧ s.raws = R)
      (fun s => WInv env gs s ∧ LInv E s ∧ s.invs = I ∧ s.raws = R) := by
  unfold write
  refine Tri.need_bind (fun key _ => ?_) (fun _ h => h)
  refine Tri.raiseIf_bind (fun _ => ?_) (fun _ h => h)
  refine Tri.lift_bind (fun part hpart => ?_) (fun _ h => h)
  refine Tri.bind (Q := fun _ s => WInv env gs s ∧ LInv E s ∧ s.invs = I ∧ s.raws = R) ?_ ?_
  · unfold ioWrite
    split
    · rename_i path hloc
      refine Tri.lift_bind (fun c _ => ?_) (fun _ h => h)
      refine Tri.bind (Q := fun _ s => WInv env gs s ∧ LInv E s ∧ s.invs = I ∧ s.raws = R)
        (Tri.effect ?_ ?_ (fun _ h => h)) fun _ => ?_
      · rintro s ⟨h1, h2, h3, h4⟩
        refine ⟨h1.change ?_, h2.files _, h3, h4⟩
        intro path' hp
        have hne : path ≠ path' := by
          rintro rfl
          exact hv part path hpart hloc hp
        rw [get?_set, if_neg hne]
      · rintro s n ⟨h1, h2, h3, h4⟩
        exact ⟨⟨h1.files, h1.store⟩, ⟨h2.nodup, h2.ok⟩, h3, h4⟩
      · refine Tri.bind (Q := fun _ s => WInv env gs s ∧ LInv E s ∧ s.invs = I ∧ s.raws = R)
          (Tri.gets fun _ h => h) fun _ => Tri.lift (fun _ _ _ h => h) (fun _ h => h)
    · refine Tri.raiseIf_bind (fun _ => ?_) (fun _ h => h)
      refine Tri.lift_bind (fun c _ => ?_) (fun _ h => h)
      exact Tri.lift (fun _ _ _ h => h) (fun _ h => h)
  · intro sn
    have hfp : i.sto.hasFp = false := (generate_ok hpart).2.2.2.1.symm
    refine Tri.bind (Q := fun _ s => WInv env gs s ∧ LInv E s ∧ s.invs = I ∧ s.raws = R)
      (Tri.effect ?_ ?_ (fun _ h => h)) fun _ => ?_
    · rintro s ⟨h1, h2, h3, h4⟩
      refine ⟨h1.addStorage _ _ ?_, h2.addStorage _ _, h3, h4⟩
      rintro ⟨j, p, pos, hmade, hj⟩
      have := hd.hasFp j p pos hmade
      rw [hj] at this
      simp [Art.info, hfp] at this
    · rintro s n ⟨h1, h2, h3, h4⟩
      exact ⟨⟨h1.files, h1.store⟩, ⟨h2.nodup, h2.ok⟩, h3, h4⟩
    · exact Tri.bind (Q := fun _ s => WInv env gs s ∧ LInv E s ∧ s.invs = I ∧ s.raws = R)
        (Tri.pure fun _ h => h) fun _ => Tri.pure fun _ h => h

/-- What `Graph.build` does, whatever its result. -/
theorem graphBuild_spec (hd : Disciplined env gs) {s s' : St κ D} {res : Except Err Snapshot}
    {g : Graph} (hg : gs g) (hso : SingleOutput env g) (hw : WInv env gs s) (hl : LInv (LinkEval env) s)
    (hrun : graphBuild env g s = (res, s')) (hn : NoClash env gs s'.invs)
    (hu : SnapUnique s'.raws) :
    WInv env gs s' ∧ LInv (LinkEval env) s' ∧ FSub s.files s'.files ∧
    ∀ σ, res = .ok σ → σ.graph = g ∧ ∃ r, (σ, r) ∈ s'.raws ∧
      (∀ i, rawOf σ r i = rawNow env g s.files i) ∧
      ∀ k a, (k, a) ∈ g.arts → Full env s' σ (rawOf σ r) a := by
  unfold graphBuild at hrun
  rw [run_bind] at hrun
  cases hfg : fromGraph env g s with
  | mk rf s2 =>
    rw [hfg] at hrun
    obtain ⟨hw2, hl2, hf2, hi2, hr2, hok⟩ := fromGraph_spec rawRel_linkEval hd hg hw hl hfg
    cases rf with
    | error e =>
      simp only [Prod.mk.injEq] at hrun
      obtain ⟨rfl, rfl⟩ := hrun
      exact ⟨hw2, hl2, hf2, by simp⟩
    | ok σ =>
      obtain ⟨rfl, r, hr, hraw, hfull⟩ := hok σ rfl
      simp only [run_bind] at hrun
      cases hb : build env σ s2 with
      | mk rb s3 =>
        rw [hb] at hrun
        have hs3 : s' = s3 := by
          cases rb with
          | error e => simp only [Prod.mk.injEq] at hrun; exact hrun.2.symm
          | ok u => simp only [run_pure, Prod.mk.injEq] at hrun; exact hrun.2.symm
        subst hs3
        have hraws : s'.raws = s2.raws := by
          have hf : Frame (fun s : St κ D => s.raws = s2.raws) :=
            ⟨fun _ _ h => h, fun _ _ h => h, fun _ _ h => h, fun _ _ h => h, fun _ _ h => h⟩
          have := hf.build (env := env) (fun s x h => h) σ s2 rfl
          rw [hb] at this; exact this
        rw [hraws] at hu
        obtain ⟨h1, h2, h3, h4⟩ := build_spec hd hg hso hw2 hl2 hr hu (hfull hu) hb hn
        refine ⟨h1, h2, fun p b h => h3.files p b (hf2 p b h), ?_⟩
        intro σ' hres
        cases rb with
        | error e =>
          simp only [Prod.mk.injEq] at hrun
          rw [← hrun.1] at hres; simp at hres
        | ok u =>
          simp only [run_pure, Prod.mk.injEq] at hrun
          rw [← hrun.1] at hres
          simp only [Except.ok.injEq] at hres
          subst hres
          exact ⟨rfl, r, by rw [hraws]; exact hr, hraw, h4 rfl⟩

/-- Logs only grow. -/
theorem HOp.run_logs (op : HOp κ D) (s : St κ D) :
    (∀ e ∈ s.invs, e ∈ (op.run env s).invs) ∧ (∀ e ∈ s.raws, e ∈ (op.run env s).raws) := by
  have hf : Frame (fun s' : St κ D => (∀ e ∈ s.invs, e ∈ s'.invs) ∧ ∀ e ∈ s.raws, e ∈ s'.raws) :=
    ⟨fun _ _ h => h, fun _ _ h => h, fun _ _ h => h, fun _ _ h => h, fun _ _ h => h⟩
  have hi : ∀ (s' : St κ D) x, ((∀ e ∈ s.invs, e ∈ s'.invs) ∧ ∀ e ∈ s.raws, e ∈ s'.raws) →
      ((∀ e ∈ s.invs, e ∈ ({ s' with invs := s'.invs ++ x } : St κ D).invs) ∧
        ∀ e ∈ s.raws, e ∈ s'.raws) :=
    fun s' x h => ⟨fun e he => List.mem_append.2 (.inl (h.1 e he)), h.2⟩
  have hfg : ∀ g, Keeps (fun s' : St κ D => (∀ e ∈ s.invs, e ∈ s'.invs) ∧
      ∀ e ∈ s.raws, e ∈ s'.raws) (fromGraph env g) := by
    intro g
    have hla : ∀ (σ : Snapshot) (known : PyDict Str (List (PSnap κ))),
        Keeps (fun s' : St κ D => (∀ e ∈ s.invs, e ∈ s'.invs) ∧ ∀ e ∈ s.raws, e ∈ s'.raws)
          (linkAll σ known) := by
      intro σ known
      induction known with
      | nil => exact Keeps.pure _
      | cons x known ih =>
        exact Keeps.bind (Keeps.need _ _) fun _ =>
          Keeps.bind (Keeps.bind (hf.writeArtifactPartitions _ _) fun _ =>
            hf.writeSnapshotPartitions _ _ _) fun _ => ih
    refine Keeps.bind (Keeps.gets _) fun _ => Keeps.bind (Keeps.lift _) fun _ => ?_
    refine Keeps.bind (Keeps.ghost ?_) fun _ => ?_
    · exact fun s' h => ⟨h.1, fun e he => List.mem_append.2 (.inl (h.2 e he))⟩
    refine Keeps.bind (Keeps.effect (fun _ h => h) hf.budget) fun _ => ?_
    refine Keeps.bind (Keeps.effect (fun _ h => h) hf.budget) fun _ => ?_
    exact Keeps.bind (hla _ _) fun _ => Keeps.pure _
  have h0 : ∀ b, (∀ e ∈ s.invs, e ∈ ({ s with budget := b } : St κ D).invs) ∧
      ∀ e ∈ s.raws, e ∈ ({ s with budget := b } : St κ D).raws := fun b => ⟨fun _ => id, fun _ => id⟩
  cases op with
  | put path c => exact ⟨fun _ => id, fun _ => id⟩
  | del path => exact ⟨fun _ => id, fun _ => id⟩
  | restart keep => exact ⟨fun _ => id, fun _ => id⟩
  | writeRaw g i d pk view b => exact hf.write _ _ _ _ _ _ _ _ (h0 b)
  | lookup a ifps => exact hf.readArtifactPartitions _ _ _ (h0 _)
  | snapshot g b => exact hfg g _ (h0 b)
  | build g b =>
    exact Keeps.bind (hfg g) (fun σ => Keeps.bind (hf.build hi σ) fun _ => Keeps.pure _) _ (h0 b)
  | rebuild σ b => exact hf.build hi σ _ (h0 b)
  | tag σ name o =>
    have : Keeps (fun s' : St κ D => (∀ e ∈ s.invs, e ∈ s'.invs) ∧ ∀ e ∈ s.raws, e ∈ s'.raws)
        (writeSnapshotTag σ name o) := by
      refine Keeps.bind (Keeps.gets _) fun _ => Keeps.bind (Keeps.raiseIf _ _) fun _ => ?_
      exact Keeps.effect (fun _ h => h) hf.budget
    exact this _ (h0 _)

/-- What is not a build keeps the invariants. -/
theorem HOp.step_inv (hE : RawRel E) (hd : Disciplined env gs) {s : St κ D} {op : HOp κ D}
    (hv : op.Valid env gs s) (hw : WInv env gs s) (hl : LInv E s)
    (hbuild : ∀ g b, op = .build g b → WInv env gs (op.run env s) ∧ LInv E (op.run env s))
    (hreb : ∀ σ b, op = .rebuild σ b → WInv env gs (op.run env s) ∧ LInv E (op.run env s)) :
    WInv env gs (op.run env s) ∧ LInv E (op.run env s) := by
  have hj : ∀ b, J E env gs { s with budget := b } { s with budget := b } := fun b =>
    ⟨⟨hw.files, hw.store⟩, ⟨hl.nodup, hl.ok⟩, Ext.refl _⟩
  cases op with
  | put path c =>
    refine ⟨hw.change ?_, hl.files _⟩
    intro path' hp
    rw [get?_set, if_neg]
    rintro rfl
    exact hv hp
  | del path =>
    refine ⟨hw.change ?_, hl.files _⟩
    intro path' hp
    apply get?_filter_ne
    rintro rfl
    exact hv hp
  | writeRaw g i d pk view b =>
    have := tri_writeRaw hd g i d pk view hv { s with budget := b }
      ⟨(hj b).w, (hj b).l, rfl, rfl⟩
    simp only [HOp.run]
    cases hx : write env g none d (.raw i) none pk view { s with budget := b } with
    | mk rx sx =>
      rw [hx] at this
      cases rx with
      | ok _ => exact ⟨this.1, this.2.1⟩
      | error _ => exact ⟨this.1, this.2.1⟩
  | lookup a ifps =>
    have := tri_lookup hd a ifps _ (hj none)
    simp only [HOp.run]
    cases hx : readArtifactPartitions env a ifps { s with budget := none } with
    | mk rx sx =>
      rw [hx] at this
      cases rx with
      | ok _ => exact ⟨this.w, this.l⟩
      | error _ => exact ⟨this.w, this.l⟩
  | snapshot g b =>
    have := fromGraph_spec hE hd hv (hj b).w (hj b).l
      (show fromGraph env g { s with budget := b } = (_, _) from rfl)
    exact ⟨this.1, this.2.1⟩
  | build g b =>
    exact hbuild g b rfl
  | rebuild σ b =>
    exact hreb σ b rfl
  | tag σ name o =>
    have : Tri (J E env gs { s with budget := none }) (writeSnapshotTag σ name o)
        (fun _ => J E env gs { s with budget := none })
        (J E env gs ({ s with budget := none } : St κ D)) := by
      refine Tri.bind (Q := fun _ => J E env gs { s with budget := none })
        (Tri.gets fun _ h => h) fun _ => ?_
      refine Tri.raiseIf_bind (fun _ => ?_) (fun _ h => h)
      exact Tri.effect (fun s' h => ⟨⟨h.w.files, h.w.store⟩, ⟨h.l.nodup, h.l.ok⟩,
        ⟨h.e.files, h.e.storage, h.e.links, h.e.invs, h.e.raws⟩⟩) (fun _ n h => h.budget n)
        (fun _ h => h)
    have := this _ (hj none)
    simp only [HOp.run]
    cases hx : writeSnapshotTag σ name o { s with budget := none } with
    | mk rx sx =>
      rw [hx] at this
      cases rx with
      | ok _ => exact ⟨this.w, this.l⟩
      | error _ => exact ⟨this.w, this.l⟩
  | restart keep =>
    refine ⟨⟨?_, by simp [HOp.run, get?]⟩, ⟨by simp [HOp.run, get?], by simp [HOp.run, get?]⟩⟩
    intro sto hm f pk part path b h1 h2 h3
    exact hw.files sto hm f pk part path b h1 h2 (get?_filter_keep _ _ _ _ h3)

/-- Invariants that builds keep hold in every history without collisions. -/
theorem Reach.inv_core {log : List (Inv κ D)} (hE : RawRel E) (hd : Disciplined env gs)
    (hgb : ∀ {s : St κ D} {g : Graph}, gs g → WInv env gs s → LInv E s →
      NoClash env gs (graphBuild env g s).2.invs → SnapUnique (graphBuild env g s).2.raws →
      (∀ e ∈ (graphBuild env g s).2.invs, e ∈ log) →
      WInv env gs (graphBuild env g s).2 ∧ LInv E (graphBuild env g s).2)
    (hb : ∀ {s : St κ D} {σ : Snapshot} {r : PyDict Str (Data κ)}, gs σ.graph → WInv env gs s →
      LInv E s → (σ, r) ∈ s.raws → SnapUnique s.raws →
      (∀ k i, (k, Art.raw i) ∈ σ.graph.arts → Full env s σ (rawOf σ r) (.raw i)) →
      NoClash env gs (World.build env σ s).2.invs → (∀ e ∈ (World.build env σ s).2.invs, e ∈ log) →
      WInv env gs (World.build env σ s).2 ∧ LInv E (World.build env σ s).2)
    {s : St κ D} (h : Reach env gs s) (hn : NoClash env gs s.invs) (hu : SnapUnique s.raws) (hlog : ∀ e ∈ s.invs, e ∈ log) :
    WInv env gs s ∧ LInv E s := by
  induction h with
  | init files b hf =>
    refine ⟨⟨?_, by simp [get?]⟩, ⟨by simp [get?], by simp [get?]⟩⟩
    rintro sto ⟨i, p, pos, hm, rfl⟩ f pk part path c h1 h2 h3
    exact absurd ⟨i, p, pos, f, pk, part, hm, h1, h2⟩ (hf path (by
      simp only at h3
      rw [h3]; simp))
  | @step s op _ hv ih =>
    obtain ⟨hi, hr⟩ := HOp.run_logs (env := env) op s
    obtain ⟨hw, hl⟩ := ih (hn.mono hi) (hu.sub hr) fun e he => hlog e (hi e he)
    have hj : ∀ b, J E env gs { s with budget := b } { s with budget := b } := fun b =>
      ⟨⟨hw.files, hw.store⟩, ⟨hl.nodup, hl.ok⟩, Ext.refl _⟩
    refine HOp.step_inv hE hd hv hw hl ?_ ?_
    · rintro g b rfl
      exact hgb hv (hj b).w (hj b).l hn hu hlog
    · rintro σ b rfl
      obtain ⟨hg, r, hr', hraw⟩ := hv
      exact hb hg (hj b).w (hj b).l hr' (hu.sub hr) (fun k i hm => hraw k i hm) hn hlog

/-- The invariants hold in every history without collisions, if producers have one output. -/
theorem Reach.inv (hd : Disciplined env gs) (hso : ∀ g, gs g → SingleOutput env g) {s : St κ D}
    (h : Reach env gs s) (hn : NoClash env gs s.invs) (hu : SnapUnique s.raws) :
    WInv env gs s ∧ LInv (LinkEval env) s :=
  h.inv_core rawRel_linkEval hd
    (fun hg hw hl hn hu _ =>
      have := graphBuild_spec hd hg (hso _ hg) hw hl rfl hn hu
      ⟨this.1, this.2.1⟩)
    (fun hg hw hl hr hu hraw hn _ =>
      have := build_spec hd hg (hso _ hg) hw hl hr hu hraw rfl hn
      ⟨this.1, this.2.1⟩) hn hu fun _ => id

end Arti.Spec
