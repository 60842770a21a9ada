import Verif.Lemmas.Ops

/-! Files and cached partitions are right in every history, whatever the number of outputs of a
producer. -/

namespace Arti.Spec
open PyDict World M
variable {κ D : Type} [DecidableEq κ] {env : Env κ D} {gs : Graph → Prop}
  {E : Snapshot → PyDict Str (Data κ) → Art → PSnap κ → Prop} {log : List (Inv κ D)}

/-- The linked partitions of a raw artifact are the recorded ones. -/
theorem LInv.linked_raw (hE : RawRel E) {s : St κ D} (hl : LInv E s) {σ : Snapshot}
    {r : PyDict Str (Data κ)} (hr : (σ, r) ∈ s.raws) (hu : SnapUnique s.raws) {i : ArtInfo}
    {k : Str} (hk : σ.graph.keyOf (.raw i) = some k) {ℓ : Data κ}
    (he : evalArt env (rawOf σ r) (.raw i) = .ok ℓ) {sn : PSnap κ} (hsn : sn ∈ linksOf s σ k) :
    sn ∈ keys ℓ := by
  unfold linksOf at hsn
  cases hgl : get? s.links (σ, k) with
  | none => rw [hgl] at hsn; simp at hsn
  | some ss =>
    rw [hgl] at hsn
    obtain ⟨_, r', hr', hev⟩ := hl.ok σ k ss hgl _ hk sn hsn
    obtain ⟨c, hc⟩ := (hE _ _ _ _).1 hev
    simp only [evalArt, Except.ok.injEq] at he
    subst he
    exact List.mem_map.2 ⟨_, (hu σ r' r hr' hr i _).1 hc, rfl⟩

/-- The linked partitions of raw artifacts stay the recorded ones. -/
theorem Full.mono_raw (hE : RawRel E) {s s' : St κ D} {σ : Snapshot} {r : PyDict Str (Data κ)}
    {i : ArtInfo} (h : Full env s σ (rawOf σ r) (.raw i)) (hl : LInv E s')
    (hr : (σ, r) ∈ s'.raws) (hu : SnapUnique s'.raws) (hg : Grow s s') :
    Full env s' σ (rawOf σ r) (.raw i) := by
  obtain ⟨k, ℓ, h1, h2, h3, h4, h5⟩ := h
  refine ⟨k, ℓ, h1, h2, h3, fun sn => ⟨fun hsn => ?_, fun hsn => ?_⟩,
    fun x hx => hg.files.content (h5 x hx)⟩
  · exact hl.linked_raw hE hr hu h1 h2 hsn
  · have := (h4 sn).2 hsn
    unfold linksOf at *
    cases hgl : get? s.links (σ, k) with
    | none => rw [hgl] at this; simp at this
    | some l =>
      rw [hgl] at this
      obtain ⟨l', h6, h7⟩ := hg.links _ _ hgl
      rw [h6]
      exact h7 _ this

/-- The data of a linked partition is there. -/
theorem linked_content {s : St κ D} (hw : WInv env gs s) (hl : LInv E s) {σ : Snapshot}
    (hg : gs σ.graph) {ρ : ArtInfo → Data κ}
    (hraw : ∀ k i, (k, Art.raw i) ∈ σ.graph.arts → Full env s σ ρ (.raw i)) {a : Art} {k : Str}
    (hk : σ.graph.keyOf a = some k) {sn : PSnap κ} (hsn : sn ∈ linksOf s σ k) :
    ∃ c, content s.files sn.part.loc = some c := by
  have hm := Graph.keyOf_mem hk
  cases a with
  | raw i =>
    obtain ⟨k', ℓ, h1, _, _, h4, h5⟩ := hraw k i hm
    rw [hk] at h1
    obtain rfl := Option.some.inj h1
    obtain ⟨x, hx, rfl⟩ := List.mem_map.1 ((h4 sn).1 hsn)
    exact ⟨_, h5 x hx⟩
  | made i p pos =>
    unfold linksOf at hsn
    cases hgl : get? s.links (σ, k) with
    | none => rw [hgl] at hsn; simp at hsn
    | some ss =>
      rw [hgl] at hsn
      obtain ⟨⟨ps, h1, h2⟩, _⟩ := hl.ok σ k ss hgl _ hk sn hsn
      obtain ⟨_, _, b, _, _, h3, _⟩ := hw.store i.sto ⟨i, p, pos, ⟨_, hg, k, hm⟩, rfl⟩ ps h1 sn h2
      exact ⟨b, h3⟩

/-- Partitions with their contents. -/
def withData (files : PyDict Str Str) (ps : List (PSnap κ)) : Data κ :=
  ps.map fun sn => (sn, (content files sn.part.loc).getD [])

theorem withData_keys (files : PyDict Str Str) (ps : List (PSnap κ)) :
    (withData files ps).map Prod.fst = ps := by
  simp [withData, Function.comp_def]

/-- The inputs of a producer, with the data that is there. -/
theorem getInputs_data {s : St κ D} (hl : LInv E s) {σ : Snapshot}
    (hc : ∀ a k, σ.graph.keyOf a = some k → ∀ sn ∈ linksOf s σ k,
      ∃ c, content s.files sn.part.loc = some c) : ∀ (as : List (Str × Art)) l s',
    getInputs env σ as s = (.ok l, s') →
    ∃ xs : List (Str × (ArtInfo × Data κ)),
      l = xs.map (fun x => (x.1, env.iter (x.2.2.map Prod.fst))) ∧ XGood s.files as xs
  | [], l, s', h => by
    simp only [getInputs, run_pure, Prod.mk.injEq, Except.ok.injEq] at h
    exact ⟨[], h.1.symm, .nil⟩
  | (n, a) :: rest, l, s', h => by
    simp only [getInputs, run_bind, M.need] at h
    cases hk : σ.graph.keyOf a with
    | none => rw [hk] at h; simp at h
    | some k =>
      rw [hk] at h
      simp only [readSnapshotPartitions, run_gets] at h
      cases hr : getInputs env σ rest s with
      | mk r s'' =>
        have hs : s'' = s := by have := getInputs_state (env := env) σ rest s; rwa [hr] at this
        subst hs
        rw [hr] at h
        cases r with
        | error e => simp at h
        | ok r =>
          simp only [run_pure, Prod.mk.injEq, Except.ok.injEq] at h
          obtain ⟨xs, h1, h2⟩ := getInputs_data hl hc rest r s'' hr
          refine ⟨(n, (a.info, withData s''.files (linksOf s'' σ k))) :: xs, ?_, .cons ?_ ?_ h2⟩
          · rw [← h.1, h1]
            simp only [List.map_cons, withData_keys]
            rfl
          · show ((withData s''.files (linksOf s'' σ k)).map Prod.fst).Nodup
            rw [withData_keys]
            exact hl.linksOf_nodup σ k
          · intro x hx
            obtain ⟨sn, hsn, rfl⟩ := List.mem_map.1 hx
            obtain ⟨c, hc'⟩ := hc a k hk sn hsn
            simp [hc']

/-- What a run over some producers of the graph does, whatever its result. -/
theorem buildOrder_sound (hd : Disciplined env gs) {σ : Snapshot} {r : PyDict Str (Data κ)}
    (hg : gs σ.graph) : ∀ (nodes : List Nd) (s s' : St κ D) (res : Except Err Unit),
    (∀ p, Nd.pdr p ∈ nodes → ∃ k i pos, (k, Art.made i p pos) ∈ σ.graph.arts) →
    WInv env gs s → LInv (LinkLog log) s → (σ, r) ∈ s.raws → SnapUnique s.raws →
    (∀ k i, (k, Art.raw i) ∈ σ.graph.arts → Full env s σ (rawOf σ r) (.raw i)) →
    buildOrder env σ nodes s = (res, s') → NoClash env gs s'.invs → (∀ e ∈ s'.invs, e ∈ log) →
    WInv env gs s' ∧ LInv (LinkLog log) s' ∧ Grow s s' ∧
    (∀ k i, (k, Art.raw i) ∈ σ.graph.arts → Full env s' σ (rawOf σ r) (.raw i))
  | [], s, s', res, _, hw, hl, hr, hu, hraw, hrun, hn, hlog => by
    simp only [buildOrder, run_pure, Prod.mk.injEq] at hrun
    obtain ⟨rfl, rfl⟩ := hrun
    exact ⟨hw, hl, Grow.refl _, hraw⟩
  | .art x :: rest, s, s', res, hin, hw, hl, hr, hu, hraw, hrun, hn, hlog =>
    buildOrder_sound hd hg rest s s' res (fun p hp => hin p (by simp [hp])) hw hl hr hu hraw hrun hn hlog
  | .pdr p :: rest, s, s', res, hin, hw, hl, hr, hu, hraw, hrun, hn, hlog => by
    obtain ⟨k0, i0, pos0, hm0⟩ := hin p (by simp)
    unfold buildOrder at hrun
    rw [run_bind] at hrun
    cases hbp : buildProducer env σ p s with
    | mk rb s2 =>
      rw [hbp] at hrun
      have hmono : ∀ e ∈ s2.invs, e ∈ s'.invs := by
        cases rb with
        | error e =>
          simp only [Prod.mk.injEq] at hrun
          rw [hrun.2]; exact fun _ => id
        | ok u =>
          simp only at hrun
          have hf : Frame (fun s : St κ D => ∀ e ∈ s2.invs, e ∈ s.invs) :=
            ⟨fun _ _ h => h, fun _ _ h => h, fun _ _ h => h, fun _ _ h => h, fun _ _ h => h⟩
          have := hf.buildOrder (env := env)
            (fun s x h e he => List.mem_append.2 (.inl (h e he))) σ rest s2 (fun _ => id)
          rw [hrun] at this
          exact this
      obtain ⟨hw2, hl2, hg2, _⟩ := buildProducer_core (X := fun _ => True) hd hg hw hl hr
        (fun ins s3 hgi => by
          obtain ⟨xs, h1, h2⟩ := getInputs_data hl
            (fun a k hk sn hsn => linked_content hw hl hg hraw hk hsn) p.inputs ins s3 hgi
          exact ⟨xs, trivial, h1, h2⟩)
        (fun _ _ _ _ hlg _ _ o ho sn c hp => by
          obtain ⟨e, he, e1, e2, e3, -⟩ := hlg o ho
          obtain ⟨p1, p2, -⟩ := place_key hp
          exact ⟨e, hlog e (hmono e he), e1, e2.trans p1.symm, p2.trans (by rw [e3])⟩) hm0 hbp (hn.mono hmono)
      have hr2 : (σ, r) ∈ s2.raws := by rw [hg2.raws]; exact hr
      have hu2 : SnapUnique s2.raws := by rw [hg2.raws]; exact hu
      have hraw2 : ∀ k i, (k, Art.raw i) ∈ σ.graph.arts → Full env s2 σ (rawOf σ r) (.raw i) :=
        fun k i hm => (hraw k i hm).mono_raw (rawRel_linkLog log) hl2 hr2 hu2 hg2
      cases rb with
      | error e =>
        simp only [Prod.mk.injEq] at hrun
        obtain ⟨rfl, rfl⟩ := hrun
        exact ⟨hw2, hl2, hg2, hraw2⟩
      | ok u =>
        simp only at hrun
        obtain ⟨h1, h2, h3, h4⟩ := buildOrder_sound hd hg rest s2 s' res
          (fun p hp => hin p (by simp [hp])) hw2 hl2 hr2 hu2 hraw2 hrun hn hlog
        exact ⟨h1, h2, hg2.trans h3, h4⟩

/-- Building a snapshot whose raw partitions are linked and unchanged. -/
theorem build_sound (hd : Disciplined env gs) {σ : Snapshot} {r : PyDict Str (Data κ)}
    (hg : gs σ.graph) {s s' : St κ D} {res : Except Err Unit}
    (hw : WInv env gs s) (hl : LInv (LinkLog log) s) (hr : (σ, r) ∈ s.raws) (hu : SnapUnique s.raws)
    (hraw : ∀ k i, (k, Art.raw i) ∈ σ.graph.arts → Full env s σ (rawOf σ r) (.raw i))
    (hrun : build env σ s = (res, s')) (hn : NoClash env gs s'.invs)
    (hlog : ∀ e ∈ s'.invs, e ∈ log) :
    WInv env gs s' ∧ LInv (LinkLog log) s' ∧ Grow s s' ∧
    (∀ k i, (k, Art.raw i) ∈ σ.graph.arts → Full env s' σ (rawOf σ r) (.raw i)) := by
  unfold build at hrun
  rw [run_bind, run_lift] at hrun
  obtain ⟨order, ho⟩ := (Props.C28_graphs_are_acyclic σ.graph).2
  rw [ho] at hrun
  simp only at hrun
  exact buildOrder_sound hd hg order s s' res (fun p hp => (pdr_mem_order ho p).1 hp) hw hl hr hu
    hraw hrun hn hlog

/-- What `Graph.build` does, whatever its result. -/
theorem graphBuild_sound (hd : Disciplined env gs) {s s' : St κ D} {res : Except Err Snapshot}
    {g : Graph} (hg : gs g) (hw : WInv env gs s) (hl : LInv (LinkLog log) s)
    (hrun : graphBuild env g s = (res, s')) (hn : NoClash env gs s'.invs)
    (hu : SnapUnique s'.raws) (hlog : ∀ e ∈ s'.invs, e ∈ log) :
    WInv env gs s' ∧ LInv (LinkLog log) s' ∧ FSub s.files s'.files ∧
    ∀ σ, res = .ok σ → σ.graph = g ∧ ∃ r, (σ, r) ∈ s'.raws ∧
      (∀ i, rawOf σ r i = rawNow env g s.files i) ∧
      ∀ k i, (k, Art.raw i) ∈ g.arts → Full env s' σ (rawOf σ r) (.raw i) := by
  unfold graphBuild at hrun
  rw [run_bind] at hrun
  cases hfg : fromGraph env g s with
  | mk rf s2 =>
    rw [hfg] at hrun
    obtain ⟨hw2, hl2, hf2, hi2, hr2, hok⟩ := fromGraph_spec (rawRel_linkLog log) hd hg hw hl hfg
    cases rf with
    | error e =>
      simp only [Prod.mk.injEq] at hrun
      obtain ⟨rfl, rfl⟩ := hrun
      exact ⟨hw2, hl2, hf2, by simp⟩
    | ok σ =>
      obtain ⟨rfl, r, hr, hraw, hfull⟩ := hok σ rfl
      simp only [run_bind] at hrun
      cases hb : build env σ s2 with
      | mk rb s3 =>
        rw [hb] at hrun
        have hs3 : s' = s3 := by
          cases rb with
          | error e => simp only [Prod.mk.injEq] at hrun; exact hrun.2.symm
          | ok u => simp only [run_pure, Prod.mk.injEq] at hrun; exact hrun.2.symm
        subst hs3
        have hraws : s'.raws = s2.raws := by
          have hf : Frame (fun s : St κ D => s.raws = s2.raws) :=
            ⟨fun _ _ h => h, fun _ _ h => h, fun _ _ h => h, fun _ _ h => h, fun _ _ h => h⟩
          have := hf.build (env := env) (fun s x h => h) σ s2 rfl
          rw [hb] at this; exact this
        rw [hraws] at hu
        obtain ⟨h1, h2, h3, h4⟩ := build_sound hd hg hw2 hl2 hr hu (hfull hu) hb hn hlog
        refine ⟨h1, h2, fun p b h => h3.files p b (hf2 p b h), ?_⟩
        intro σ' hres
        cases rb with
        | error e =>
          simp only [Prod.mk.injEq] at hrun
          rw [← hrun.1] at hres; simp at hres
        | ok u =>
          simp only [run_pure, Prod.mk.injEq] at hrun
          rw [← hrun.1] at hres
          simp only [Except.ok.injEq] at hres
          subst hres
          exact ⟨rfl, r, by rw [hraws]; exact hr, hraw, h4⟩

/-- Files and cached partitions are right in every history without collisions, and the linked
partitions are of dependencies in the log. -/
theorem Reach.sound (hd : Disciplined env gs) {s : St κ D} (h : Reach env gs s)
    (hn : NoClash env gs s.invs) (hu : SnapUnique s.raws) (hlog : ∀ e ∈ s.invs, e ∈ log) :
    WInv env gs s ∧ LInv (LinkLog log) s :=
  h.inv_core (rawRel_linkLog log) hd
    (fun hg hw hl hn hu hlog =>
      have := graphBuild_sound hd hg hw hl rfl hn hu hlog
      ⟨this.1, this.2.1⟩)
    (fun hg hw hl hr hu hraw hn hlog =>
      have := build_sound hd hg hw hl hr hu hraw rfl hn hlog
      ⟨this.1, this.2.1⟩) hn hu hlog

end Arti.Spec
