import Verif.Model.Io
import Verif.Props.Reuse
import Verif.Props.Fingerprints
import Verif.Props.Stable

/-!
# C69: reading from a graph without a snapshot
-/

namespace Arti.Props
open PyDict World M Spec

section
variable {κ D : Type} [DecidableEq κ] {env : Env κ D} {gs : Graph → Prop}

/-- **C69.** Reading a raw artifact of a graph without a snapshot reads what the files hold now,
whatever the backend knows and whether or not other raw data exists, and changes nothing. -/
theorem C69_raw_read_is_current {g : Graph} {k : Str} {i : ArtInfo} (hm : (k, Art.raw i) ∈ g.arts)
    (view : Nat) (s : St κ D) :
    (∀ ps, discover env s.files i.sto [] = .ok ps →
      graphRead env g (.raw i) view s = (readData env i view (rawNow env g s.files i) ps, s)) ∧
    ∀ e, discover env s.files i.sto [] = .error e →
      graphRead env g (.raw i) view s = (.error e, s) := by
  obtain ⟨k', hk⟩ := Graph.keyOf_of_mem hm
  refine ⟨fun ps hd => ?_, fun e hd => ?_⟩
  · simp only [graphRead, M.run_bind, M.need, hk, M.run_gets, M.run_lift, hd]
    rw [ioRead_eq (l := rawNow env g s.files i)]
    intro sn hsn
    obtain ⟨c, hc⟩ : ∃ c, content s.files sn.part.loc = some c := by
      exact (discover_raw hd hsn).2
    refine ⟨c, ?_, hc⟩
    have hany : g.arts.any (fun x => x.2 = .raw i) = true :=
      List.any_eq_true.2 ⟨_, hm, by simp⟩
    simp only [rawNow, hany, if_true, hd]
    rw [← mem_iff_get? (nodup_keys_ofItems _)]
    exact Disk.mem_rawItems.2 ⟨hsn, hc⟩
  · simp only [graphRead, M.run_bind, M.need, hk, M.run_gets, M.run_lift, hd]

/-- Reading a produced artifact without a snapshot takes a snapshot and reads from it. -/
theorem graphRead_made {g : Graph} {i : ArtInfo} {p : Pdr} {pos : Nat} {view : Nat} {s : St κ D} :
    graphRead env g (.made i p pos) view s =
      match g.keyOf (.made i p pos) with
      | none => (.error .keyError, s)
      | some _ => match fromGraph env g s with
        | (.error e, s') => (.error e, s')
        | (.ok σ, s') => readSnapshotData env σ (.made i p pos) view s' := by
  simp only [graphRead, M.run_bind, M.need]
  cases g.keyOf (.made i p pos) with
  | none => rfl
  | some k =>
    simp only
    cases fromGraph env g s with
    | mk res s' => cases res <;> rfl

/-- The new snapshot has, for produced artifacts, the links that it had before. -/
theorem links_made {g : Graph} (hn : (keys g.arts).Nodup) {s s' : St κ D} (hb : s.budget = none)
    {σ : Snapshot} (h : fromGraph env g s = (.ok σ, s')) {i : ArtInfo} {p : Pdr} {pos : Nat} {k : Str}
    (hk : g.keyOf (.made i p pos) = some k) (x : PSnap κ) :
    x ∈ linksOf s' σ k ↔ x ∈ linksOf s σ k := by
  obtain ⟨-, -, -, -, hl⟩ := C30_links_exactly_the_raw_partitions hn hb h
  rw [hl]
  refine ⟨?_, .inl⟩
  rintro (hx | ⟨-, j, ps, hj, -⟩)
  · exact hx
  · exact absurd (Graph.keyOf_inj hn hj hk) (by simp)

/-- **C69.** In a process that has not built the graph, produced artifacts cannot be read without a
snapshot, though their files may exist. -/
theorem C69_nothing_is_read_before_a_build (hi : IterOk env) {g : Graph} (hn : (keys g.arts).Nodup)
    {i : ArtInfo} {p : Pdr} {pos : Nat} (view : Nat) {s : St κ D} (hb : s.budget = none)
    (hl : ∀ σ k, σ.graph = g → linksOf s σ k = []) :
    ∃ e, (graphRead env g (.made i p pos) view s).1 = .error e := by
  rw [graphRead_made]
  cases hk : g.keyOf (.made i p pos) with
  | none => exact ⟨_, rfl⟩
  | some k =>
    simp only
    cases hf : fromGraph env g s with
    | mk res s' =>
      cases res with
      | error e => exact ⟨e, rfl⟩
      | ok σ =>
        obtain ⟨hσ, -⟩ := C30_links_exactly_the_raw_partitions hn hb hf
        have h0 : linksOf s' σ k = [] := by
          apply List.eq_nil_iff_forall_not_mem.2
          intro x hx
          have := (links_made hn hb hf hk x).1 hx
          rw [hl σ k hσ] at this
          simp at this
        have h1 : env.iter (linksOf s' σ k) = [] := by
          rw [h0]; exact List.perm_nil.1 (hi.perm _)
        simp only [readSnapshotData, M.run_bind, hσ, hk, M.need, readSnapshotPartitions, M.run_gets,
          M.run_lift]
        unfold linksOf at h1
        rw [h1]
        exact ⟨_, rfl⟩

/-- What is read of a produced artifact without a snapshot is made of the current raw data. -/
theorem read_not_stale (hd : Disciplined env gs) {s s' : St κ D}
    (hinv : SnapUnique s.raws → WInv env gs s ∧ LInv (LinkEval env) s) {g : Graph} (hg : gs g) {i : ArtInfo} {p : Pdr} {pos view : Nat} {d : D}
    (h : graphRead env g (.made i p pos) view { s with budget := none } = (.ok d, s'))
    (hu : SnapUnique s'.raws)
    (hh : ∀ rs o c path c', evalPdr env (rawNow env g s.files) p = .ok rs → o ∈ rs →
      outBytes env (cls env p) i pos o.outs = .ok c → get? s.files path = some c' →
      env.fileHash c' = env.fileHash c → c' = c) :
    ∃ rs, evalPdr env (rawNow env g s.files) p = .ok rs ∧
    ∃ ℓ : Data κ, (keys ℓ).Nodup ∧ (∀ x ∈ ℓ, ∃ o ∈ rs, place env (cls env p) i pos o = .ok x) ∧
      readData env i view ℓ (env.iter (keys ℓ)) = .ok d ∧
      (i.sto.tmpl.keyed = false → ∀ ℓ', evalArt env (rawNow env g s.files) (.made i p pos) = .ok ℓ' →
        readData env i view ℓ' (env.iter (keys ℓ')) = .ok d) := by
  rw [graphRead_made] at h
  cases hk : g.keyOf (.made i p pos) with
  | none => rw [hk] at h; simp at h
  | some k =>
  rw [hk] at h
  simp only at h
  cases hf : fromGraph env g { s with budget := none } with
  | mk res t =>
  rw [hf] at h
  cases res with
  | error e => simp at h
  | ok σ =>
  simp only at h
  have hraws : s'.raws = t.raws := by
    have : s' = t := by
      have := congrArg Prod.snd h
      simp only [readSnapshotData, M.run_bind, M.need, readSnapshotPartitions, M.run_gets,
        M.run_lift] at this
      cases hk' : σ.graph.keyOf (.made i p pos) with
      | none => rw [hk'] at this; exact this.symm
      | some k => rw [hk'] at this; exact this.symm
    rw [this]
  rw [hraws] at hu
  obtain ⟨hσ, hfiles, -⟩ := C30_links_exactly_the_raw_partitions (hd.keys g hg) rfl hf
  simp only at hfiles
  have hlog := HOp.run_logs (env := env) (.snapshot g none) s
  simp only [HOp.run, hf] at hlog
  obtain ⟨hw, hl⟩ := hinv (hu.sub hlog.2)
  obtain ⟨hw', hl', -, -, -, h4⟩ := fromGraph_spec (s := { s with budget := none })
    rawRel_linkEval hd hg ⟨hw.files, hw.store⟩ ⟨hl.nodup, hl.ok⟩ hf
  obtain ⟨-, r, hr, hraw, -⟩ := h4 σ rfl
  -- the links
  have hlink : ∀ sn ∈ linksOf t σ k, ∃ rs, evalPdr env (rawNow env g s.files) p = .ok rs ∧
      ∃ o ∈ rs, ∃ c, place env (cls env p) i pos o = .ok (sn, c) ∧
        content t.files sn.part.loc = some c := by
    intro sn hsn
    unfold linksOf at hsn
    cases hgl : get? t.links (σ, k) with
    | none => rw [hgl] at hsn; simp at hsn
    | some ss =>
    rw [hgl] at hsn
    obtain ⟨⟨ss', i1, i2⟩, r', hr', rs, hev, o, ho, c, hpl⟩ :=
      hl'.ok σ k ss hgl (.made i p pos) (by rw [hσ]; exact hk) sn hsn
    rw [evalPdr_congr hd.iter (hu.rawEq hr' hr)] at hev
    rw [show rawOf σ r = rawNow env g s.files from funext hraw] at hev
    refine ⟨rs, hev, o, ho, c, hpl, ?_⟩
    obtain ⟨f, part, b, g1, g2, g3, -⟩ := hw'.store _ ⟨i, p, pos, ⟨g, hg, k, Graph.keyOf_mem hk⟩, rfl⟩
      ss' i1 sn i2
    obtain ⟨p1, part', p2, p3⟩ := place_ok hpl
    cases hloc : sn.part.loc with
    | file path =>
      rw [hloc] at g3
      have e1 : sn.contentFp = env.fileHash b := by
        unfold stored at g2
        split at g2
        · simp only [Except.ok.injEq, Prod.mk.injEq] at g2
          rw [← g2.1]
        · simp only [Except.ok.injEq, Prod.mk.injEq] at g2
          rw [← g2.1] at hloc
          simp at hloc
        · simp at g2
      have e2 : sn.contentFp = env.fileHash c := by
        unfold stored at p3
        split at p3
        · simp only [Except.ok.injEq, Prod.mk.injEq] at p3
          rw [← p3.1]
        · simp only [Except.ok.injEq, Prod.mk.injEq] at p3
          rw [← p3.1] at hloc
          simp at hloc
        · simp at p3
      simp only [content] at g3 ⊢
      rw [g3, hh rs o c path b hev ho p1 (by rw [← hfiles]; exact g3) (e1.symm.trans e2)]
    | lit id v =>
      unfold stored at p3
      split at p3
      · rename_i path hp
        simp only [Except.ok.injEq, Prod.mk.injEq] at p3
        rw [← p3.1, hp] at hloc
        simp at hloc
      · simp only [Except.ok.injEq, Prod.mk.injEq] at p3
        rw [← p3.1] at hloc
        simp only [Loc.lit.injEq] at hloc
        simp only [content, ← hloc.2]
      · simp at p3
  -- the value
  simp only [readSnapshotData, M.run_bind, hσ, hk, M.need, readSnapshotPartitions, M.run_gets,
    M.run_lift, Prod.mk.injEq] at h
  obtain ⟨h, -⟩ := h
  have hne : linksOf t σ k ≠ [] := by
    intro h0
    have h1 : env.iter ((get? t.links (σ, k)).getD []) = [] := by
      have : (get? t.links (σ, k)).getD [] = [] := h0
      rw [this]; exact List.perm_nil.1 (hd.iter.perm _)
    rw [h1] at h
    simp [ioRead] at h
  obtain ⟨sn0, hsn0⟩ := List.exists_mem_of_ne_nil _ hne
  obtain ⟨rs, hev, -⟩ := hlink sn0 hsn0
  refine ⟨rs, hev, ?_⟩
  have hlink' : ∀ sn ∈ linksOf t σ k, ∃ c, (∃ o ∈ rs, place env (cls env p) i pos o = .ok (sn, c)) ∧
        content t.files sn.part.loc = some c := by
    intro sn hsn
    obtain ⟨rs', hev', o, ho, c, h1, h2⟩ := hlink sn hsn
    rw [hev] at hev'
    obtain rfl := Except.ok.inj hev'
    exact ⟨c, ⟨o, ho, h1⟩, h2⟩
  let cont : PSnap κ → Str := fun sn => (content t.files sn.part.loc).getD []
  have hcont : ∀ sn ∈ linksOf t σ k, (∃ o ∈ rs, place env (cls env p) i pos o = .ok (sn, cont sn)) ∧
        content t.files sn.part.loc = some (cont sn) := by
    intro sn hsn
    obtain ⟨c, h1, h2⟩ := hlink' sn hsn
    have : cont sn = c := by simp only [cont, h2, Option.getD_some]
    rw [this]; exact ⟨h1, h2⟩
  have hkeys : keys ((linksOf t σ k).map fun sn => (sn, cont sn)) = linksOf t σ k := by
    simp [keys, Function.comp_def]
  have hnd := hl'.linksOf_nodup σ k
  have hread : readData env i view ((linksOf t σ k).map fun sn => (sn, cont sn))
      (env.iter (linksOf t σ k)) = .ok d := by
    rw [← ioRead_eq (files := t.files)]
    · exact h
    · intro sn hsn
      have hsn' := (hd.iter.perm _).mem_iff.1 hsn
      refine ⟨cont sn, ?_, (hcont sn hsn').2⟩
      rw [← mem_iff_get? (by rw [hkeys]; exact hnd)]
      exact List.mem_map.2 ⟨sn, hsn', rfl⟩
  refine ⟨(linksOf t σ k).map fun sn => (sn, cont sn), by rw [hkeys]; exact hnd, ?_, by
    rw [hkeys]; exact hread, ?_⟩
  · rintro x hx
    obtain ⟨sn, hsn, rfl⟩ := List.mem_map.1 hx
    exact (hcont sn hsn).1
  · intro hkey ℓ' hℓ'
    simp only [evalArt, hev, bind, Except.bind] at hℓ'
    have hone : ∀ o ∈ rs, o.key = env.npKey := by
      intro o ho
      obtain ⟨x, hx⟩ : ∃ x, place env (cls env p) i pos o = .ok x := by
        have := placeAll_keys hℓ'
        have hm : o.key ∈ ℓ'.map (fun x => x.1.part.key) := by
          rw [this]; exact List.mem_map.2 ⟨o, ho, rfl⟩
        obtain ⟨x, hx, hxo⟩ := List.mem_map.1 hm
        obtain ⟨o', ho', hpl⟩ := (mem_placeAll hℓ' x).1 hx
        have : o' = o := by
          refine inj_of_nodup_map (evalPdr_nodup hev) ho' ho ?_
          rw [← hxo]
          obtain ⟨-, part, q1, q2⟩ := place_ok (sn := x.1) (b := x.2) hpl
          rw [← (generate_ok q1).2.2.1]
          unfold stored at q2
          split at q2
          · simp only [Except.ok.injEq, Prod.mk.injEq] at q2
            rw [← q2.1]
          · simp only [Except.ok.injEq, Prod.mk.injEq] at q2
            rw [← q2.1]
          · simp at q2
        exact ⟨x, this ▸ hpl⟩
      obtain ⟨-, part, q1, -⟩ := place_ok (sn := x.1) (b := x.2) hx
      apply Classical.byContradiction
      intro hne
      unfold generate at q1
      simp [checkKey, hkey, hne, bind, Except.bind] at q1
    have hsame : ∀ x, x ∈ ((linksOf t σ k).map fun sn => (sn, cont sn)) ↔ x ∈ ℓ' := by
      obtain ⟨⟨o0, ho0, hp0⟩, -⟩ := hcont sn0 hsn0
      have all : ∀ x : PSnap κ × Str, (∃ o ∈ rs, place env (cls env p) i pos o = .ok x) →
          x = (sn0, cont sn0) := by
        rintro x ⟨o, ho, hx⟩
        have : o = o0 := inj_of_nodup_map (evalPdr_nodup hev) ho ho0 ((hone o ho).trans (hone o0 ho0).symm)
        rw [this, hp0] at hx
        exact (Except.ok.inj hx).symm
      intro x
      constructor
      · intro hx
        obtain ⟨sn, hsn, rfl⟩ := List.mem_map.1 hx
        exact (mem_placeAll hℓ' _).2 (hcont sn hsn).1
      · intro hx
        rw [all x ((mem_placeAll hℓ' _).1 hx)]
        exact List.mem_map.2 ⟨sn0, hsn0, rfl⟩
    have hnd' := placeAll_nodup hℓ' (evalPdr_nodup hev)
    have hk2 : ∀ sn, sn ∈ linksOf t σ k ↔ sn ∈ keys ℓ' := by
      intro sn
      rw [← hkeys]
      simp only [keys, List.mem_map]
      constructor
      · rintro ⟨x, hx, rfl⟩
        exact ⟨x, (hsame x).1 (List.mem_map.2 hx), rfl⟩
      · rintro ⟨x, hx, rfl⟩
        obtain ⟨y, hy, rfl⟩ := List.mem_map.1 ((hsame x).2 hx)
        exact ⟨(y, cont y), ⟨y, hy, rfl⟩, rfl⟩
    rw [← hd.iter.ext _ _ hnd hnd' hk2, ← hread]
    unfold readData
    rw [lookAll_congr (l := ℓ') (l' := (linksOf t σ k).map fun sn => (sn, cont sn))]
    intro sn
    apply Option.ext
    intro c
    rw [← mem_iff_get? hnd', ← mem_iff_get? (by rw [hkeys]; exact hnd), hsame]

/-- **C69**, for producers with one output.  What reading a produced artifact without a snapshot
returns is never out of date: the partitions that are read are those that the producer makes of the
raw data that is there now, with the contents that it makes.  An artifact without partitions is read
as a build of the current raw data would leave it.

Missing: that no partition is missing (`C69_violated_by_an_interrupted_build`); producers with
several outputs. -/
theorem C69_produced_read_is_not_stale_partial (hd : Disciplined env gs)
    (hso : ∀ g, gs g → SingleOutput env g) {s s' : St κ D} (hs : Reach env gs s) {g : Graph}
    (hg : gs g) {i : ArtInfo} {p : Pdr} {pos view : Nat} {d : D}
    (h : graphRead env g (.made i p pos) view { s with budget := none } = (.ok d, s'))
    (hn : NoClash env gs s.invs) (hu : SnapUnique s'.raws)
    (hh : ∀ rs o c path c', evalPdr env (rawNow env g s.files) p = .ok rs → o ∈ rs →
      outBytes env (cls env p) i pos o.outs = .ok c → get? s.files path = some c' →
      env.fileHash c' = env.fileHash c → c' = c) :
    ∃ rs, evalPdr env (rawNow env g s.files) p = .ok rs ∧
    ∃ ℓ : Data κ, (keys ℓ).Nodup ∧ (∀ x ∈ ℓ, ∃ o ∈ rs, place env (cls env p) i pos o = .ok x) ∧
      readData env i view ℓ (env.iter (keys ℓ)) = .ok d ∧
      (i.sto.tmpl.keyed = false → ∀ ℓ', evalArt env (rawNow env g s.files) (.made i p pos) = .ok ℓ' →
        readData env i view ℓ' (env.iter (keys ℓ')) = .ok d) :=
  read_not_stale hd (fun hu => hs.inv hd hso hn hu) hg h hu hh

/-- A snapshot that is taken while the raw partitions are those of an earlier snapshot is the earlier
one. -/
theorem read_built (hd : Disciplined env gs) (hr : FpRanges env) {s t u : St κ D} {g : Graph}
    (hg : gs g) (hdist : (g.arts.map Prod.snd).Nodup) {σ : Snapshot}
    (hrun : graphBuild env g { s with budget := none } = (.ok σ, t))
    (hraw : ∀ i ∈ rawInfos g, ∀ ps, discover env s.files i.sto [] = .ok ps →
      ∃ ps', discover env u.files i.sto [] = .ok ps' ∧ ps'.Perm ps)
    (hw : WInv env gs u) (hl : LInv (LinkEval env) u)
    {k : Str} {i : ArtInfo} {p : Pdr} {pos : Nat} (hm : (k, Art.made i p pos) ∈ g.arts) (view : Nat) :
    (graphRead env g (.made i p pos) view { u with budget := none }).1 =
      (readSnapshotData env σ (.made i p pos) view u).1 := by
  -- the snapshot of the build
  obtain ⟨t0, hf0⟩ : ∃ t0, fromGraph env g { s with budget := none } = (.ok σ, t0) := by
    unfold graphBuild at hrun
    rw [M.run_bind] at hrun
    cases hf : fromGraph env g { s with budget := none } with
    | mk res t0 =>
      rw [hf] at hrun
      cases res with
      | error e => simp at hrun
      | ok σ0 =>
        simp only [M.run_bind] at hrun
        cases hb : build env σ0 t0 with
        | mk res' t1 =>
          rw [hb] at hrun
          cases res' with
          | error e => simp at hrun
          | ok _ =>
            simp only [M.run_pure, Prod.mk.injEq, Except.ok.injEq] at hrun
            exact ⟨t0, by rw [hrun.1]⟩
  have hinfo : ∀ k i, (k, Art.raw i) ∈ g.arts → i ∈ rawInfos g := fun k i h =>
    List.mem_filterMap.2 ⟨_, h, rfl⟩
  have hex := (C30_succeeds_iff_all_raw_data_exists hr (hd.keys g hg)
    (s := { s with budget := none }) rfl).1 ⟨σ, by rw [hf0]⟩
  -- a snapshot now
  obtain ⟨τ, hτ⟩ := (C30_succeeds_iff_all_raw_data_exists hr (hd.keys g hg)
    (s := { u with budget := none }) rfl).2 (by
      intro k i hi
      obtain ⟨ps, h1, h2⟩ := hex k i hi
      obtain ⟨ps', h3, h4⟩ := hraw i (hinfo k i hi) ps h1
      exact ⟨ps', h3, fun h0 => h2 (by rw [h0] at h4; exact List.nil_perm.1 h4)⟩)
  cases hf : fromGraph env g { u with budget := none } with
  | mk res u' =>
  rw [hf] at hτ
  simp only at hτ
  subst hτ
  have hg1 := (C30_links_exactly_the_raw_partitions (hd.keys g hg) rfl hf0).1
  obtain ⟨hg2, hfiles, -⟩ := C30_links_exactly_the_raw_partitions (hd.keys g hg) rfl hf
  have hid : σ.id = τ.id := C29_order_is_irrelevant hr rfl (List.Perm.refl _) hdist (by
    intro i hi ps ps' h1 h2
    obtain ⟨ps'', h3, h4⟩ := hraw i hi ps h1
    simp only at h2
    rw [h3] at h2
    obtain rfl := Except.ok.inj h2
    exact h4.symm) hf0 hf
  have : τ = σ := by
    cases σ; cases τ
    simp only at hid hg1 hg2
    rw [hid, hg1, hg2]
  subst this
  obtain ⟨k', hk⟩ := Graph.keyOf_of_mem hm
  rw [graphRead_made, hk, hf]
  simp only
  have hl' := (fromGraph_spec (s := { u with budget := none })
    rawRel_linkEval hd hg ⟨hw.files, hw.store⟩ ⟨hl.nodup, hl.ok⟩ hf).2.1
  have hiter : env.iter (linksOf u' τ k') = env.iter (linksOf (u) τ k') :=
    hd.iter.ext _ _ (hl'.linksOf_nodup τ k') (hl.linksOf_nodup τ k')
      (links_made (hd.keys g hg) (s := { u with budget := none }) rfl hf hk)
  simp only [readSnapshotData, M.run_bind, hg2, hk, M.need, readSnapshotPartitions, M.run_gets,
    M.run_lift]
  unfold linksOf at hiter
  rw [hiter, hfiles]

/-- **C69**, for producers with one output.  A graph was built; then anything happened in the same
process; now the partitions of the raw artifacts are again those of which it was built.  Then
reading a produced artifact without a snapshot returns what the build made.

Missing: producers with several outputs. -/
theorem C69_built_artifacts_are_read_partial (hd : Disciplined env gs)
    (hso : ∀ g, gs g → SingleOutput env g) (hr : FpRanges env) {s t u : St κ D}
    (hs : Reach env gs s) {g : Graph} (hg : gs g) (hdist : (g.arts.map Prod.snd).Nodup)
    {σ : Snapshot} (hrun : graphBuild env g { s with budget := none } = (.ok σ, t))
    {ops : List (HOp κ D)} (hv : ValidOps env gs t ops) (hp : ∀ op ∈ ops, op.SameProcess)
    (hops : runOps env t ops = u)
    (hraw : ∀ i ∈ rawInfos g, ∀ ps, discover env s.files i.sto [] = .ok ps →
      ∃ ps', discover env u.files i.sto [] = .ok ps' ∧ ps'.Perm ps)
    (hn : NoClash env gs u.invs) (hu : SnapUnique u.raws)
    {k : Str} {i : ArtInfo} {p : Pdr} {pos : Nat} (hm : (k, Art.made i p pos) ∈ g.arts) (view : Nat) :
    (graphRead env g (.made i p pos) view { u with budget := none }).1 =
      (readSnapshotData env σ (.made i p pos) view t).1 := by
  have hrest : ∀ op ∈ ops, ∀ keep, op ≠ .restart keep := by
    intro op ho keep he
    have := hp op ho
    rw [he] at this
    exact this
  subst hops
  have ht : HOp.run env s (.build g none) = t := by simp only [HOp.run, hrun]
  obtain ⟨hw, hl⟩ := (Reach.ops env gs (ht ▸ Reach.step (.build g none) hs hg) hv).inv hd hso hn hu
  rw [← C44_reading_a_snapshot_is_stable_partial hd hso hs hg hrun hv hrest hn hu hm view]
  exact read_built hd hr hg hdist hrun hraw hw hl hm view

end

section
open Disk Stg Fmt Part
variable {D : Type} {base : Env CKey D} {kt : Str → KeyTypes}

theorem snapAll_parts {env : Env CKey D} {files : PyDict Str Str} {sto : Sto} :
    ∀ (l : List (Option Fp × CKey)) {ps : List (PSnap CKey)}, World.snapAll env files sto l = .ok ps →
    ps.map (fun sn => (sn.part.inputFp, sn.part.key)) = l
  | [], ps, h => by
    simp only [World.snapAll, Except.ok.injEq] at h
    simp [← h]
  | (fp, pk) :: l, ps, h => by
    simp only [World.snapAll, bind, Except.bind] at h
    split at h
    · simp at h
    · rename_i part hg
      split at h
      · simp at h
      · rename_i sn hsn
        split at h
        · simp at h
        · rename_i ps' hps
          simp only [Except.ok.injEq] at h
          subst h
          simp only [List.map_cons, snapAll_parts l hps, List.cons.injEq, and_true]
          unfold snap at hsn
          split at hsn
          · simp only [Except.ok.injEq] at hsn
            subst hsn
            exact Prod.ext (generate_ok hg).2.1 (generate_ok hg).2.2.1
          · simp at hsn

theorem forall₂_nodup {α β : Type} {R : α → β → Prop}
    (hR : ∀ a a' b, R a b → R a' b → a = a') : ∀ {l : List α} {l' : List β},
    List.Forall₂ R l l' → l.Nodup → l'.Nodup
  | _, _, .nil, _ => List.nodup_nil
  | _, _, .cons h hs, hn => by
    obtain ⟨h1, h2⟩ := List.nodup_cons.1 hn
    refine List.nodup_cons.2 ⟨fun hm => ?_, forall₂_nodup hR hs h2⟩
    obtain ⟨a, ha, hr⟩ := forall₂_right hs hm
    exact h1 (hR _ _ _ h hr ▸ ha)

/-- No partition is discovered twice. -/
theorem discover_nodup {sto : Sto} {T : List Tok} (h : TemplateOf kt sto T)
    {files : PyDict Str Str} (hn : (keys files).Nodup) (hcl : Clean (kt sto.tmpl.text) T files)
    {ifps : PyDict CKey Fp} {ps : List (PSnap CKey)}
    (hd : discover (disk base kt) files sto ifps = .ok ps) : ps.Nodup := by
  obtain ⟨t, c, rfl, h1, h2, h3⟩ := h
  obtain ⟨xs, e1, -, e2⟩ := scan_ok (base := base) h1 h3 hcl
  simp only [discover, e1, bind, Except.bind] at hd
  have hp := snapAll_parts _ hd
  have hxs : (xs.map fun x => (x.1, ofPKey x.2)).Nodup := by
    refine forall₂_nodup (R := fun path (x : Option Fp × CKey) =>
      PartitionAt (kt t.text) T x.1 x.2.1 path) ?_ (l := (keys files).filter (globMatch true (wild T)))
      ?_ (hn.filter _)
    · intro a a' b ha ha'
      have q1 := (generate_ok_iff (base := base) h1 h2 (part := ⟨.file t, b.1, b.2, .file a⟩)).2
        ⟨a, rfl, ha⟩
      have q2 := (generate_ok_iff (base := base) h1 h2 (part := ⟨.file t, b.1, b.2, .file a'⟩)).2
        ⟨a', rfl, ha'⟩
      rw [q1] at q2
      simpa using q2
    · rw [List.forall₂_map_right_iff]
      exact e2.imp fun path x hx => partitionAt_ofPKey h3.ok hx
  have : (ps.map fun sn => (sn.part.inputFp, sn.part.key)).Nodup := by
    rw [hp]; exact hxs.filter _
  exact this.of_map

/-- **C69**, over local files.  A partition of a raw artifact was written through the graph.  Then
reading the artifact without a snapshot reads what was written, together with the partitions that
were there before under other keys; if the artifact has no partitions then it reads just what was
written. -/
theorem C69_written_raw_data_is_read_back {i : ArtInfo} {T : List Tok} (hT : TemplateOf kt i.sto T)
    {g : Graph} {k : Str} (hm : (k, Art.raw i) ∈ g.arts) {s t : St CKey D} (hb : s.budget = none)
    (hn : (keys s.files).Nodup)
    (hcl : ∀ path, get? s.files path ≠ none → Fits T path →
      ∃ fp pk, PartitionAt (kt i.sto.tmpl.text) T fp pk path)
    {d : D} {pk : CKey} {view : Nat} {sn : PSnap CKey}
    (hw : write (disk base kt) g none d (.raw i) none pk view s = (.ok sn, t)) (view' : Nat) :
    ∃ c ps, base.enc i view d = .ok c ∧ ps.Nodup ∧ (sn, c) ∈ rawNow (disk base kt) g t.files i ∧
      graphRead (disk base kt) g (.raw i) view' t =
        (readData (disk base kt) i view' (rawNow (disk base kt) g t.files i) ps, t) ∧
      (∀ x, x ∈ ps ↔ x = sn ∨ x.part.key ≠ pk ∧ x ∈ keys (rawNow (disk base kt) g s.files i)) ∧
      (i.sto.tmpl.keyed = false → (graphRead (disk base kt) g (.raw i) view' t).1 =
        base.dec i view' [c]) := by
  have hT' := hT
  obtain ⟨k', hk⟩ := Graph.keyOf_of_mem hm
  -- the write
  obtain ⟨path, c, hc, hgen, hsn, hfiles⟩ : ∃ path c, base.enc i view d = .ok c ∧
      generate (disk base kt) i.sto none pk = .ok ⟨i.sto, none, pk, .file path⟩ ∧
      sn = ⟨base.fileHash c, i.sto, none, pk, .file path⟩ ∧ t.files = set s.files path c := by
    simp only [write, M.run_bind, M.need, hk, M.raiseIf, Option.isSome_none, Bool.false_and,
      Bool.false_eq_true, if_false, M.run_lift, Art.info] at hw
    cases hg : generate (disk base kt) i.sto none pk with
    | error e => rw [hg] at hw; simp at hw
    | ok part =>
    obtain ⟨g1, g2, g3, -, g5⟩ := generate_ok hg
    obtain ⟨tm, cl, ht, -⟩ := hT
    rw [ht] at g5
    simp only [reduceCtorEq, false_and, exists_false, or_false] at g5
    obtain ⟨-, path, -, hloc⟩ := g5
    rw [hg] at hw
    simp only [ioWrite, hloc, M.run_bind, M.run_lift] at hw
    cases he : (disk base kt).enc i view d with
    | error e => rw [he] at hw; simp at hw
    | ok c =>
    rw [he] at hw
    have hpart : part = ⟨i.sto, none, pk, .file path⟩ := by
      cases part
      simp only at g1 g2 g3 hloc
      rw [g1, g2, g3, hloc]
    have hsnap : snap (disk base kt) (set s.files path c) part = .ok ⟨base.fileHash c, part⟩ := by
      simp only [snap, hloc, content, get?_set, if_true, contentFp]
      rfl
    simp only [M.effect, hb, M.run_gets, hsnap, writeArtifactPartitions, linkWritten, M.run_pure,
      Prod.mk.injEq, Except.ok.injEq] at hw
    refine ⟨path, c, he, ?_, ?_, ?_⟩
    · rw [← hpart]
    · rw [← hw.1, hpart]
    · rw [← hw.2]
  have hat := generate_at hT hgen rfl
  -- discovery
  have hcl' : Clean (kt i.sto.tmpl.text) T t.files := by
    intro p hp hf
    rw [hfiles, get?_set] at hp
    split at hp
    · rename_i he
      exact ⟨none, pk.1, he ▸ hat⟩
    · exact hcl p hp hf
  have hn' : (keys t.files).Nodup := by rw [hfiles]; exact nodup_keys_set _ _ _ hn
  obtain ⟨ps, hd, hps⟩ := discover_sto (base := base) hT hcl' []
  obtain ⟨ps0, hd0, hps0⟩ := discover_sto (base := base) hT hcl []
  have hnd := discover_nodup (base := base) hT hn' hcl' hd
  have hany : g.arts.any (fun x => x.2 = .raw i) = true := List.any_eq_true.2 ⟨_, hm, by simp⟩
  have hrt : rawNow (disk base kt) g t.files i = ofItems (ps.filterMap fun sn =>
      (content t.files sn.part.loc).map fun c => (sn, c)) := by
    simp only [rawNow, hany, if_true, hd]
  have hrs : rawNow (disk base kt) g s.files i = ofItems (ps0.filterMap fun sn =>
      (content s.files sn.part.loc).map fun c => (sn, c)) := by
    simp only [rawNow, hany, if_true, hd0]
  have hcsn : content t.files sn.part.loc = some c := by
    rw [hsn, hfiles]; simp [content, get?_set]
  have hread := (C69_raw_read_is_current hm view' t).1 ps hd
  have hmem : sn ∈ ps := (hps sn).2 ⟨none, pk, path, c, hsn, hat, by
    rw [hfiles]; simp [get?_set], rfl⟩
  have hiff : ∀ x, x ∈ ps ↔
      x = sn ∨ x.part.key ≠ pk ∧ x ∈ keys (rawNow (disk base kt) g s.files i) := by
    intro x
    have hx0 : x ∈ keys (rawNow (disk base kt) g s.files i) ↔ x ∈ ps0 := by
      rw [hrs]
      constructor
      · intro h
        obtain ⟨y, hy, rfl⟩ := List.mem_map.1 h
        exact (mem_rawItems.1 hy).1
      · intro h
        obtain ⟨fp, q, p, c', rfl, -, h2, -⟩ := (hps0 x).1 h
        exact List.mem_map.2 ⟨(_, c'), mem_rawItems.2 ⟨h, h2⟩, rfl⟩
    rw [hx0, hps, hps0]
    constructor
    · rintro ⟨fp, q, p, c', rfl, h1, h2, h3⟩
      simp only [get?] at h3
      subst h3
      rw [hfiles, get?_set] at h2
      split at h2
      · rename_i he
        left
        subst he
        obtain ⟨tm, cl, ht, -, -, h7⟩ := hT'
        rw [ht] at h1 hat
        obtain ⟨-, e⟩ := partitionAt_key h7 h1 hat
        rw [hsn, e, Option.some.inj h2]
      · rename_i hne
        right
        refine ⟨?_, none, q, p, c', rfl, h1, h2, rfl⟩
        rintro rfl
        exact hne (partitionAt_path hat h1)
    · rintro (rfl | ⟨hne, fp, q, p, c', rfl, h1, h2, h3⟩)
      · exact (hps x).1 hmem
      · refine ⟨fp, q, p, c', rfl, h1, ?_, h3⟩
        rw [hfiles, get?_set, if_neg]
        · exact h2
        · rintro rfl
          obtain ⟨tm, cl, ht, -, -, h7⟩ := hT'
          rw [ht] at h1 hat
          obtain ⟨-, e⟩ := partitionAt_key h7 h1 hat
          exact hne e
  refine ⟨c, ps, hc, hnd, ?_, hread, hiff, fun hkey => ?_⟩
  · rw [hrt]; exact mem_rawItems.2 ⟨hmem, hcsn⟩
  · have hone : ps = [sn] := by
      have hall : ∀ x ∈ ps, x = sn := by
        intro x hx
        rcases (hiff x).1 hx with h | ⟨hne, -⟩
        · exact h
        · exfalso
          obtain ⟨fp, q, p, c', rfl, h1, h2, h3⟩ := (hps x).1 hx
          simp only [get?] at h3
          subst h3
          have hq : ∀ q : CKey, ∀ p, PartitionAt (kt i.sto.tmpl.text) T none q.1 p →
              q = (disk base kt).npKey := by
            intro q p hp
            obtain ⟨tm, cl, ht, h5, h6, h7⟩ := hT'
            rw [ht] at hp hkey
            have hg := (generate_ok_iff (base := base) h5 h6
              (part := ⟨.file tm, none, q, .file p⟩)).2 ⟨p, rfl, hp⟩
            apply Classical.byContradiction
            intro hne
            unfold generate at hg
            simp [World.checkKey, hkey, hne, bind, Except.bind] at hg
          exact hne ((hq q p h1).trans (hq pk path hat).symm)
      cases hps' : ps with
      | nil => rw [hps'] at hmem; simp at hmem
      | cons x ps2 =>
        rw [hps'] at hall hnd
        have hx := hall x (by simp)
        cases ps2 with
        | nil => rw [hx]
        | cons y ps3 =>
          have hy := hall y (by simp)
          rw [hx, hy] at hnd
          simp at hnd
    have : graphRead (disk base kt) g (.raw i) view' t =
        (ioRead (disk base kt) t.files i view' ps, t) := by
      simp only [graphRead, M.run_bind, M.need, hk, M.run_gets, M.run_lift, hd]
    rw [this, hone]
    simp only [ioRead, List.isEmpty_cons, Bool.false_eq_true, if_false, List.length_singleton,
      Nat.lt_irrefl, decide_false, Bool.false_and, contents, hcsn, Except.map, bind, Except.bind]
    rfl

end

/-! ### Cases that meet the hypotheses -/

namespace Ex69
open Ex

/-- Whether content fingerprints do not collide. -/
def hashB {κ D : Type} [DecidableEq κ] (env : Env κ D) (g : Graph) (files : PyDict Str Str)
    (i : ArtInfo) (p : Pdr) (pos : Nat) : Bool :=
  match evalPdr env (rawNow env g files) p with
  | .ok rs => rs.all fun o => match outBytes env (cls env p) i pos o.outs with
    | .ok c => files.all fun x => decide (x.2 = c) || decide (env.fileHash x.2 ≠ env.fileHash c)
    | .error _ => true
  | .error _ => true

theorem of_hashB {κ D : Type} [DecidableEq κ] {env : Env κ D} {g : Graph} {files : PyDict Str Str}
    {i : ArtInfo} {p : Pdr} {pos : Nat} (h : hashB env g files i p pos = true) :
    ∀ rs o c path c', evalPdr env (rawNow env g files) p = .ok rs → o ∈ rs →
      outBytes env (cls env p) i pos o.outs = .ok c → get? files path = some c' →
      env.fileHash c' = env.fileHash c → c' = c := by
  intro rs o c path c' h1 h2 h3 h4 h5
  simp only [hashB, h1, List.all_eq_true] at h
  have := h o h2
  simp only [h3, List.all_eq_true, Bool.or_eq_true, decide_eq_true_eq] at this
  rcases this _ (get?_mem h4) with h | h
  · exact h
  · exact absurd h5 h

/-- The world after a build, an interrupted build of other data, and putting the data back. -/
def ops : List (HOp Nat Str) :=
  [.put "a~1".toList ['w'], .build Ex42.g (some 9), .put "a~1".toList ['u']]

def u : St Nat Str := runOps Ex.env Ex40.t ops

theorem valid : ValidOps Ex.env (· ∈ [Ex42.g]) Ex40.t ops :=
  ⟨not_produced _ _ (by decide +kernel), List.mem_singleton.2 rfl,
    not_produced _ _ (by decide +kernel), trivial⟩

theorem reach : Reach Ex.env (· ∈ [Ex42.g]) u := by
  have ht : HOp.run Ex.env Ex42.s0 (.build Ex42.g none) = Ex40.t := by
    simp only [HOp.run, Ex40.run_ok]
  exact Reach.ops _ _ (ht ▸ Reach.step (.build Ex42.g none) Ex40.reach (List.mem_singleton.2 rfl)) valid

theorem distinct : (Ex42.g.arts.map Prod.snd).Nodup := by decide +kernel

theorem same : ∀ i ∈ rawInfos Ex42.g, ∀ ps, discover Ex.env Ex42.s0.files i.sto [] = .ok ps →
    ∃ ps', discover Ex.env u.files i.sto [] = .ok ps' ∧ ps'.Perm ps := by
  have hr : rawInfos Ex42.g = [⟨0, true, .file ⟨"a".toList, true⟩⟩] := by decide +kernel
  rw [hr]
  intro i hi ps hps
  rw [List.mem_singleton.1 hi] at hps ⊢
  have : discover Ex.env u.files (.file ⟨"a".toList, true⟩) [] =
      discover Ex.env Ex42.s0.files (.file ⟨"a".toList, true⟩) [] := by decide +kernel
  exact ⟨ps, this.trans hps, List.Perm.refl _⟩

example : (graphRead Ex.env Ex42.g Ex42.c 0 { u with budget := none }).1 =
    (readSnapshotData Ex.env Ex40.σ Ex42.c 0 Ex40.t).1 :=
  C69_built_artifacts_are_read_partial Ex42.disc Ex42.single ExFp.ranges Ex40.reach
    (List.mem_singleton.2 rfl) distinct Ex40.run_ok valid
    (by
      intro op ho
      simp only [ops, List.mem_cons, List.not_mem_nil, or_false] at ho
      rcases ho with rfl | rfl | rfl <;> exact trivial)
    rfl same (noClash _ _ (by decide +kernel)) (snapUnique _ (by decide +kernel)) (k := ['c'])
    (by decide) 0

def read : Except Err Str := (graphRead Ex.env Ex42.g Ex42.c 0 { u with budget := none }).1

def u' : St Nat Str := (graphRead Ex.env Ex42.g Ex42.c 0 { u with budget := none }).2

theorem run_read : graphRead Ex.env Ex42.g Ex42.c 0 { u with budget := none } =
    (.ok "u1v11".toList, u') := Prod.ext (by decide +kernel) (by rw [u'])

example : ∃ rs, evalPdr Ex.env (rawNow Ex.env Ex42.g u.files) Ex42.q = .ok rs :=
  (C69_produced_read_is_not_stale_partial Ex42.disc Ex42.single reach (List.mem_singleton.2 rfl)
    run_read (noClash _ _ (by decide +kernel)) (snapUnique _ (by decide +kernel))
    (of_hashB (by decide +kernel))).imp fun _ h => h.1

/-- Raw data is read although other raw data is missing. -/
example : (graphRead Ex.env ⟨['g'], [(['a'], Ex42.a), (['d'], .raw ⟨0, false, .file ⟨"d".toList, false⟩⟩)],
    []⟩ Ex42.a 0 Ex42.s0).1 = .ok "uv".toList := by decide +kernel

/-- In a new process the files are there but cannot be read. -/
example : ∃ e, (graphRead Ex.env Ex42.g Ex42.b 0
    { HOp.run Ex.env u (.restart fun _ => true) with budget := none }).1 = .error e :=
  C69_nothing_is_read_before_a_build Ex42.disc.iter (by decide +kernel) 0 rfl fun _ _ _ => rfl

section
open Stg Fmt Part Disk

/-- The key of a partition of `Ex65.a`. -/
def pk : CKey := ofPKey [("k".toList, .int .int8 5)]

def w : St CKey Str := (write Ex65.env Ex65.g none "z".toList Ex65.a none pk 0 Ex65.s0).2

def sn : PSnap CKey :=
  ⟨Ex65.env.fileHash ['z'], .file ⟨Ex65.aText, true⟩, none, pk, .file "/d/a/5.txt".toList⟩

theorem run_write : write Ex65.env Ex65.g none "z".toList Ex65.a none pk 0 Ex65.s0 = (.ok sn, w) :=
  Prod.ext (by decide +kernel) (by rw [w])

theorem tmpl : TemplateOf Ex65.kt (.file ⟨Ex65.aText, true⟩) Ex65.aT :=
  ⟨_, .int .int8, rfl, by decide +kernel, by decide +kernel, discoverable_of (by decide +kernel)⟩

/-- A new partition is written next to two others. -/
example : (∃ c ps, Ex65.env.enc ⟨0, true, .file ⟨Ex65.aText, true⟩⟩ 0 "z".toList = .ok c ∧ sn ∈ ps ∧
      graphRead Ex65.env Ex65.g Ex65.a 0 w = (readData Ex65.env ⟨0, true, .file ⟨Ex65.aText, true⟩⟩ 0
        (rawNow Ex65.env Ex65.g w.files ⟨0, true, .file ⟨Ex65.aText, true⟩⟩) ps, w)) ∧
    (graphRead Ex65.env Ex65.g Ex65.a 0 w).1 = .ok "uvz".toList := by
  refine ⟨?_, by decide +kernel⟩
  obtain ⟨c, ps, h1, -, -, h2, h3, -⟩ := C69_written_raw_data_is_read_back tmpl (k := ['a'])
    (by decide +kernel) rfl (by decide +kernel)
    (Ex65.isTidy Ex65.g (List.mem_singleton.2 rfl) ['a'] Ex65.a (by decide +kernel) _ tmpl)
    run_write 0
  exact ⟨c, ps, h1, (h3 _).2 (.inl rfl), h2⟩

/-- A graph with raw data that has no partitions. -/
def i1 : ArtInfo := ⟨0, false, .file ⟨"/d/notes".toList, false⟩⟩
def g1 : Graph := ⟨['g'], [(['n'], .raw i1)], []⟩

def w1 : St CKey Str := (write Ex65.env g1 none "z".toList (.raw i1) none ⟨[], .nil⟩ 0 Ex65.s0).2

def sn1 : PSnap CKey :=
  ⟨Ex65.env.fileHash ['z'], i1.sto, none, ⟨[], .nil⟩, .file "/d/notes".toList⟩

theorem run_write1 : write Ex65.env g1 none "z".toList (.raw i1) none ⟨[], .nil⟩ 0 Ex65.s0 =
    (.ok sn1, w1) := Prod.ext (by decide +kernel) (by rw [w1])

def tm1 (_ : Sto) : Option (FieldCls × List Tok) := some (.int .int8, "/d/notes".toList.map .ch)

theorem tmpl1 : TemplateOf Ex65.kt i1.sto ("/d/notes".toList.map .ch) :=
  ⟨_, .int .int8, rfl, by decide +kernel, by decide +kernel, discoverable_of (by decide +kernel)⟩

theorem tidy1 : Tidy Ex65.kt (· ∈ [g1]) Ex65.s0.files :=
  ExDisk.tidy (tm := tm1) [g1] Ex65.files (by decide +kernel)

/-- What was in the file is replaced. -/
example : (graphRead Ex65.env g1 (.raw i1) 0 w1).1 = Ex65.env.dec i1 0 ["z".toList] := by
  obtain ⟨c, ps, h1, -, -, -, -, h2⟩ := C69_written_raw_data_is_read_back tmpl1 (k := ['n'])
    (by decide +kernel) rfl (by decide +kernel)
    (tidy1 g1 (List.mem_singleton.2 rfl) ['n'] (.raw i1) (by decide +kernel) _ tmpl1)
    run_write1 0
  have : c = "z".toList := by
    have : ExDisk.base.enc i1 0 "z".toList = .ok "z".toList := by decide +kernel
    rw [this] at h1
    exact (Except.ok.inj h1).symm
  rw [this] at h2
  exact h2 rfl

end

end Ex69

/-- **C69** is violated when a build is interrupted: reading a produced artifact then returns,
without an error, only the partitions that had been built. -/
theorem C69_violated_by_an_interrupted_build :
    (graphRead Ex.env Ex42.g Ex42.b 0 { (graphBuild Ex.env Ex42.g
      { Ex42.s0 with budget := some 9 }).2 with budget := none }).1 = .ok "u1".toList ∧
    (graphRead Ex.env Ex42.g Ex42.b 0 (graphBuild Ex.env Ex42.g Ex42.s0).2).1 =
      .ok "u1v1".toList := by
  decide +kernel

/-- **C69** is violated for raw artifacts in literals: what was written, successfully, cannot be read
back. -/
theorem C69_violated_by_literals :
    let a : Art := .raw ⟨0, false, .lit ⟨"a".toList, false⟩ none⟩
    let g : Graph := ⟨['g'], [(['a'], a)], []⟩
    let w := write Ex.env g none "x".toList a none Ex.env.npKey 0 Ex42.s0
    (∃ sn, w.1 = .ok sn ∧ sn.part.loc = .lit "a".toList (some "x".toList)) ∧
    (graphRead Ex.env g a 0 w.2).1 = .error .fileNotFound := by
  refine ⟨⟨_, rfl, by decide +kernel⟩, by decide +kernel⟩

end Arti.Props
