import Verif.Lemmas.BuildOut
import Verif.Lemmas.Keeps

/-! Building a producer. -/

namespace Arti.Spec
open PyDict World M
variable {κ D : Type} [DecidableEq κ] {env : Env κ D} {gs : Graph → Prop}
  {E : Snapshot → PyDict Str (Data κ) → Art → PSnap κ → Prop}

/-- How the state may change during a build. -/
structure Grow (s s' : St κ D) : Prop where
  files : FSub s.files s'.files
  storage : DSub s.storage s'.storage
  links : DSub s.links s'.links
  invs : ∀ e ∈ s.invs, e ∈ s'.invs
  raws : s'.raws = s.raws

theorem Ext.grow {s s' : St κ D} (h : Ext s s') : Grow s s' :=
  ⟨h.files, h.storage, h.links, by rw [h.invs]; exact fun _ => id, h.raws⟩

theorem Grow.refl (s : St κ D) : Grow s s := (Ext.refl s).grow

theorem Grow.trans {s s' s'' : St κ D} (h : Grow s s') (h' : Grow s' s'') : Grow s s'' :=
  ⟨fun p b hb => h'.files p b (h.files p b hb), h.storage.trans h'.storage,
    h.links.trans h'.links, fun e he => h'.invs e (h.invs e he), h'.raws.trans h.raws⟩

theorem NoClash.mono {log log' : List (Inv κ D)} (h : NoClash env gs log')
    (hl : ∀ e ∈ log, e ∈ log') : NoClash env gs log :=
  fun e1 h1 e2 h2 => h e1 (hl e1 h1) e2 (hl e2 h2)

/-- Recorded raw data of one snapshot gives the same evaluation. -/
theorem SnapUnique.rawEq {raws : List (Snapshot × PyDict Str (Data κ))} (h : SnapUnique raws)
    {σ : Snapshot} {r r' : PyDict Str (Data κ)} (h1 : (σ, r) ∈ raws) (h2 : (σ, r') ∈ raws) :
    RawEq (rawOf σ r) (rawOf σ r') := by
  intro i
  have hn : ∀ r : PyDict Str (Data κ), (keys (rawOf σ r i)).Nodup := by
    intro r
    unfold rawOf
    cases σ.graph.keyOf (.raw i) with
    | none => simp [keys]
    | some k => exact nodup_keys_ofItems _
  exact ⟨hn r, hn r', h σ r r' h1 h2 i⟩

/-- Logging only adds. -/
theorem WInv.addInvs {s : St κ D} (h : WInv env gs s) (l : List (Inv κ D)) :
    WInv env gs { s with invs := s.invs ++ l } :=
  ⟨fun sto hm f pk part path b h1 h2 h3 => (h.files sto hm f pk part path b h1 h2 h3).mono
      fun e he => List.mem_append.2 (.inl he),
    fun sto hm ss hss sn hsn => (h.store sto hm ss hss sn hsn).mono (fun _ _ => id)
      fun e he => List.mem_append.2 (.inl he)⟩

theorem GoodSnap.content_of_place {files : PyDict Str Str} {log : List (Inv κ D)} {sto : Sto}
    {sn : PSnap κ} (hn : NoClash env gs log) (h : GoodSnap env gs files log sto sn)
    {i : ArtInfo} {p : Pdr} {pos : Nat} (hi : i.sto = sto) (hm : Made gs i p pos)
    {o : Outcome κ D} {c : Str} (hp : place env (cls env p) i pos o = .ok (sn, c))
    (hl : ∃ e ∈ log, e.pdr = p ∧ e.key = o.key ∧ e.fp = o.fp ∧
      runBuild (cls env p) e.args = o.outs) :
    content files sn.part.loc = some c := by
  obtain ⟨f, part, b, g1, g2, g3, g4⟩ := h
  obtain ⟨e, he, rfl, e2, e3, e4⟩ := hl
  obtain ⟨p1, p2, p3⟩ := place_key hp
  have hf : some f = some o.fp :=
    ((stored_ok g2).2.2.1.trans (generate_ok g1).2.1).symm.trans p2
  obtain rfl := Option.some.inj hf
  subst hi
  rw [p1, ← e2, ← e3] at g4
  have hb := Correct.eq hn he hm g4
  have hb' := (place_ok hp).1
  unfold bytes at hb
  rw [e4, hb'] at hb
  rw [g3, Except.ok.inj hb]

theorem inj_of_nodup_map {α β : Type} {f : α → β} : ∀ {l : List α}, (l.map f).Nodup →
    ∀ {a b}, a ∈ l → b ∈ l → f a = f b → a = b
  | [], _, _, _, h, _, _ => by simp at h
  | x :: l, hn, a, b, ha, hb, h => by
    obtain ⟨h1, h2⟩ := List.nodup_cons.1 hn
    rcases List.mem_cons.1 ha with rfl | ha' <;> rcases List.mem_cons.1 hb with rfl | hb'
    · rfl
    · exact absurd (h ▸ List.mem_map_of_mem hb') h1
    · exact absurd (h ▸ List.mem_map_of_mem ha') h1
    · exact inj_of_nodup_map h2 ha' hb' h

/-- What a run of one producer does in a build, whatever its result, if the data of its inputs is
there. -/
theorem buildProducer_core (hd : Disciplined env gs) {s s' : St κ D} {res : Except Err Unit}
    {σ : Snapshot} {r : PyDict Str (Data κ)} {p : Pdr} (hg : gs σ.graph)
    (hw : WInv env gs s) (hl : LInv E s) (hr : (σ, r) ∈ s.raws)
    {X : List (Str × (ArtInfo × Data κ)) → Prop}
    (hin : ∀ ins s2, getInputs env σ p.inputs s = (.ok ins, s2) → ∃ xs, X xs ∧
      ins = xs.map (fun x => (x.1, env.iter (x.2.2.map Prod.fst))) ∧ XGood s.files p.inputs xs)
    (hlink : ∀ xs, X xs → ∀ rs, evalProducer env p xs = .ok rs →
      LogHas env s'.invs p rs → ∀ i pos, ∀ o ∈ rs, ∀ sn c, place env (cls env p) i pos o = .ok (sn, c) → E σ r (.made i p pos) sn)
    {k0 : Str} {i0 : ArtInfo} {pos0 : Nat} (hm0 : (k0, Art.made i0 p pos0) ∈ σ.graph.arts)
    (hrun : buildProducer env σ p s = (res, s')) (hn : NoClash env gs s'.invs) :
    WInv env gs s' ∧ LInv E s' ∧ Grow s s' ∧
    (res = .ok () → ∃ xs rs, X xs ∧ evalProducer env p xs = .ok rs ∧ LogHas env s'.invs p rs ∧
      ∀ o ∈ rs, (∃ pos, Placed env s' σ p o pos) ∨
        ∃ outs args, o.outs = .ok outs ∧ (cls env p).build args = .ok outs ∧
          ∀ pos, pos < outs.length → Placed env s' σ p o pos) := by
  have hm : Made gs i0 p pos0 := ⟨_, hg, k0, hm0⟩
  have trivialCase : ∀ {Q : Prop}, res ≠ .ok () → s' = s → WInv env gs s' ∧ LInv E s' ∧
      Grow s s' ∧ (res = .ok () → Q) := by
    rintro Q h rfl; exact ⟨hw, hl, Grow.refl _, fun h' => absurd h' h⟩
  unfold buildProducer at hrun
  rw [run_bind] at hrun
  cases hgi : getInputs env σ p.inputs s with
  | mk rin sin =>
    have hs : sin = s := by
      have := getInputs_state (env := env) σ p.inputs s; rwa [hgi] at this
    subst hs
    rw [hgi] at hrun
    cases rin with
    | error e =>
      simp only [Prod.mk.injEq] at hrun
      exact trivialCase (by rw [← hrun.1]; simp) hrun.2.symm
    | ok ins =>
      simp only [run_bind, run_lift] at hrun
      cases hcd : computeDependencies env p ins with
      | error e =>
        rw [hcd] at hrun
        simp only [Prod.mk.injEq] at hrun
        exact trivialCase (by rw [← hrun.1]; simp) hrun.2.symm
      | ok df =>
        obtain ⟨deps, ifps⟩ := df
        rw [hcd] at hrun
        simp only [run_ghost] at hrun
        -- the evaluated inputs
        obtain ⟨xs, hx1, hx2, hx3⟩ := hin ins _ hgi
        subst hx2
        obtain ⟨rs, h1, rfl, h3, h4, h5, h6, h7⟩ := computeDependencies_spec hd hm hcd
        have hnd := evalProducer_nodup h1
        have hrne : rs ≠ [] := by simpa using h3
        -- the state after logging
        generalize hs1 : ({ sin with
          invs := sin.invs ++ invsOf env sin.files p (rs.map fun o => (o.key, o.fp)) deps }
          : St κ D) = s1 at hrun
        have hfiles : s1.files = sin.files := by rw [← hs1]
        have hlog : LogHas env s1.invs p rs := by
          intro o ho
          obtain ⟨d, hd1, hd2⟩ := h6 o ho
          refine ⟨⟨p, o.key, o.fp, readArgs env sin.files p.inputs d
            (cls env p).buildInputs⟩, ?_, rfl, rfl, rfl, ?_⟩
          · rw [← hs1]
            refine List.mem_append.2 (.inr (List.mem_filterMap.2 ⟨_, hd1, ?_⟩))
            have hfp : get? (rs.map fun o => (o.key, o.fp)) o.key = some o.fp := by
              refine (mem_iff_get? ?_).1 (List.mem_map.2 ⟨o, ho, rfl⟩)
              simp only [keys, List.map_map]; exact hnd
            simp [hfp]
          · rw [hd2]
            simp only
            rw [readArgs_eq (show XGood _ p.inputs xs from hx3) (h7 _ _ hd1)]
        -- the log is that of the final state
        have hkeep : Frame (fun s : St κ D => s.invs = s1.invs) :=
          ⟨fun _ _ h => h, fun _ _ h => h, fun _ _ h => h, fun _ _ h => h, fun _ _ h => h⟩
        have hinvs : s'.invs = s1.invs := by
          have := (Keeps.bind (hkeep.discover (env := env) σ p
            (rs.map fun o => (o.key, o.fp))) fun existing =>
              hkeep.buildPartitions (env := env) σ p existing
                (rs.map fun o => (o.key, o.fp)) deps) s1 rfl
          rw [run_bind] at this
          rw [hrun] at this
          exact this
        have hclash : NoClash env gs s1.invs := hinvs ▸ hn
        have hctx : Ctx E env gs s1 σ r p rs :=
          ⟨hd, hg, by rw [← hs1]; exact hr, hnd,
            hlink xs hx1 rs h1 (hinvs ▸ hlog), hlog, hclash⟩
        have hj1 : J E env gs s1 s1 := by
          refine ⟨?_, ?_, Ext.refl _⟩
          · rw [← hs1]; exact hw.addInvs _
          · rw [← hs1]; exact ⟨hl.nodup, hl.ok⟩
        have hgrow1 : Grow sin s1 := by
          rw [← hs1]
          exact ⟨fun _ _ => id, DSub.refl _, DSub.refl _,
            fun e he => List.mem_append.2 (.inl he), rfl⟩
        have hdeps : ∀ s2, J E env gs s1 s2 → ∀ pk d, (pk, d) ∈ deps →
            ∃ o ∈ rs, o.key = pk ∧ OutcomeOf env s2 p o d := by
          intro s2 hj2 pk d hmem
          obtain ⟨o, ho, hk, ho2⟩ := h5 pk d hmem
          refine ⟨o, ho, hk, fun files hf => ?_⟩
          have hsub : FSub sin.files files := fun p b hb =>
            hf p b (hj2.e.files p b (by rw [hfiles]; exact hb))
          rw [ho2, readArgs_eq (show XGood _ p.inputs xs from hx3.mono hsub) (h7 _ _ hmem)]
        -- discover, then build
        have tri : Tri (· = s1) (discoverProducerPartitions env σ p
            (rs.map fun o => (o.key, o.fp)) >>= fun existing =>
            buildPartitions env σ p existing (rs.map fun o => (o.key, o.fp)) deps)
            (fun _ s => J E env gs s1 s ∧ ∀ pk d, (pk, d) ∈ deps → ∃ o ∈ rs, o.key = pk ∧
              ((∃ pos, Placed env s σ p o pos) ∨
                ∃ outs args, o.outs = .ok outs ∧ (cls env p).build args = .ok outs ∧
                ∀ pos, pos < outs.length → Placed env s σ p o pos))
            (J E env gs s1) := by
          apply Tri.bind ((tri_discover hctx hrne).conseq (fun s h => by rw [h]; exact hj1)
            (fun _ _ => id) (fun _ => id))
          intro existing
          apply Tri.of_state
          rintro s2 ⟨hj2, hex⟩
          refine (tri_buildPartitions (hctx.rebase hj2) deps (hdeps s2 hj2)).conseq
            (fun s h => by rw [h]; exact hj2.rebase) ?_ (fun s h => hj2.base h)
          rintro _ s3 ⟨hj3, hall⟩
          refine ⟨hj2.base hj3, fun pk d hmem => ?_⟩
          obtain ⟨o, ho, hk, hor⟩ := hall pk d hmem
          refine ⟨o, ho, hk, ?_⟩
          rcases hor with h | h
          · left
            obtain ⟨k', i, pos, k, o', sn, cc, e1, e2, e3, e4, e5, e6⟩ := hex pk h
            have : o' = o := by
              exact inj_of_nodup_map hnd e3 ho (e4.trans hk.symm)
            subst this
            exact ⟨pos, k', i, k, sn, cc, e1, e2, e5, linksOf_mono hj3.e e6⟩
          · exact .inr h
        have hfin := tri s1 rfl
        rw [run_bind] at hfin
        rw [hrun] at hfin
        cases res with
        | error e =>
          exact ⟨hfin.w, hfin.l, hgrow1.trans hfin.e.grow, by simp⟩
        | ok u =>
          obtain ⟨hj, hall⟩ := hfin
          refine ⟨hj.w, hj.l, hgrow1.trans hj.e.grow, fun _ => ⟨xs, rs, hx1, h1, ?_, ?_⟩⟩
          · rw [hj.e.invs]; exact hlog
          · intro o ho
            obtain ⟨d, hd1, _⟩ := h6 o ho
            obtain ⟨o', ho', hk', hor⟩ := hall _ _ hd1
            obtain rfl := inj_of_nodup_map hnd ho' ho hk'
            exact hor

/-- If every outcome of a producer is placed at an output then the links of this output are the
evaluated partitions, and their data is there. -/
theorem full_of_placed (hd : Disciplined env gs) {s' : St κ D} {σ : Snapshot}
    {r : PyDict Str (Data κ)} {p : Pdr} (hg : gs σ.graph) (hw : WInv env gs s')
    (hl : LInv (LinkEval env) s') (hr : (σ, r) ∈ s'.raws) (hu : SnapUnique s'.raws)
    (hn : NoClash env gs s'.invs) {rs : List (Outcome κ D)}
    (heval : evalPdr env (rawOf σ r) p = .ok rs) (hlog : LogHas env s'.invs p rs) {k0 : Str}
    {i0 : ArtInfo} {pos0 : Nat} (hm0 : (k0, Art.made i0 p pos0) ∈ σ.graph.arts)
    (hplaced : ∀ o ∈ rs, ∃ sn cc k, σ.graph.keyOf (.made i0 p pos0) = some k ∧
      place env (cls env p) i0 pos0 o = .ok (sn, cc) ∧ sn ∈ linksOf s' σ k) :
    Full env s' σ (rawOf σ r) (.made i0 p pos0) := by
  have hm : Made gs i0 p pos0 := ⟨_, hg, k0, hm0⟩
  have hnd := evalPdr_nodup heval
  obtain ⟨ℓ, hℓ⟩ := placeAll_of_forall (env := env) (c := cls env p) (i := i0)
    (pos := pos0) (rs := rs) fun o ho => by
      obtain ⟨sn, cc, _, _, h, _⟩ := hplaced o ho; exact ⟨_, h⟩
  obtain ⟨k, hk⟩ := Graph.keyOf_of_mem hm0
  refine ⟨k, ℓ, hk, ?_, placeAll_nodup hℓ hnd, ?_, ?_⟩
  · simp only [evalArt, heval, bind, Except.bind]; exact hℓ
  · intro sn
    constructor
    · intro hsn
      unfold linksOf at hsn
      cases hgl : get? s'.links (σ, k) with
      | none => rw [hgl] at hsn; simp at hsn
      | some ss =>
        rw [hgl] at hsn
        obtain ⟨_, r', hr', rs', hev', o, ho, cc, hpl⟩ := hl.ok σ k ss hgl _ hk sn hsn
        rw [evalPdr_congr hd.iter (hu.rawEq hr' hr), heval] at hev'
        obtain rfl := Except.ok.inj hev'
        exact List.mem_map.2 ⟨(sn, cc), (mem_placeAll hℓ _).2 ⟨o, ho, hpl⟩, rfl⟩
    · intro hsn
      obtain ⟨⟨sn', cc⟩, hmem, rfl⟩ := List.mem_map.1 hsn
      obtain ⟨o, ho, hpl⟩ := (mem_placeAll hℓ _).1 hmem
      obtain ⟨sn2, c2, k2, e1, e2, e3⟩ := hplaced o ho
      rw [hpl] at e2
      simp only [Except.ok.injEq, Prod.mk.injEq] at e2
      rw [hk] at e1
      rw [e2.1, Option.some.inj e1]
      exact e3
  · rintro ⟨sn, cc⟩ hmem
    obtain ⟨o, ho, hpl⟩ := (mem_placeAll hℓ _).1 hmem
    obtain ⟨sn2, c2, k2, e1, e2, e3⟩ := hplaced o ho
    rw [hpl] at e2
    simp only [Except.ok.injEq, Prod.mk.injEq] at e2
    obtain ⟨rfl, rfl⟩ := e2
    unfold linksOf at e3
    cases hgl : get? s'.links (σ, k2) with
    | none => rw [hgl] at e3; simp at e3
    | some ss =>
      rw [hgl] at e3
      obtain ⟨⟨ss', i1, i2⟩, _⟩ := hl.ok σ k2 ss hgl _ e1 sn e3
      have hgood := hw.store _ ⟨i0, _, pos0, hm, rfl⟩ ss' i1 sn i2
      refine hgood.content_of_place hn rfl hm hpl ?_
      exact hlog o ho

/-- If every outcome of a producer with one output is placed then the links of its output are the
evaluated partitions, and their data is there. -/
theorem full_made (hd : Disciplined env gs) {s' : St κ D} {σ : Snapshot} {r : PyDict Str (Data κ)}
    {p : Pdr} (hg : gs σ.graph) (hw : WInv env gs s') (hl : LInv (LinkEval env) s')
    (hr : (σ, r) ∈ s'.raws) (hu : SnapUnique s'.raws) (hn : NoClash env gs s'.invs)
    {rs : List (Outcome κ D)} (heval : evalPdr env (rawOf σ r) p = .ok rs)
    (hlog : LogHas env s'.invs p rs)
    (hall : ∀ o ∈ rs, (∃ pos, Placed env s' σ p o pos) ∨
      ∃ outs args, o.outs = .ok outs ∧ (cls env p).build args = .ok outs ∧
        ∀ pos, pos < outs.length → Placed env s' σ p o pos)
    (hsingle : SingleOutput env σ.graph) {k0 : Str} {i0 : ArtInfo} {pos0 : Nat}
    (hm0 : (k0, Art.made i0 p pos0) ∈ σ.graph.arts) :
    Full env s' σ (rawOf σ r) (.made i0 p pos0) := by
  -- every outcome is placed at position `pos0`
  have hplaced : ∀ o ∈ rs, ∃ sn cc k, σ.graph.keyOf (.made i0 p pos0) = some k ∧
      place env (cls env p) i0 pos0 o = .ok (sn, cc) ∧
      sn ∈ linksOf s' σ k := by
    intro o ho
    have hex : ∃ pos, Placed env s' σ p o pos := by
      rcases hall o ho with h | ⟨outs, args, _, hb, hpl⟩
      · exact h
      · have := (hsingle.one _ _ _ _ hm0).2 args outs hb
        exact ⟨0, hpl 0 (by omega)⟩
    obtain ⟨pos, k', i, k, sn, cc, e1, e2, e3, e4⟩ := hex
    obtain ⟨rfl, rfl⟩ := hsingle.unique _ _ _ _ _ _ _ hm0 e1
    exact ⟨sn, cc, k, e2, e3, e4⟩
  exact full_of_placed hd hg hw hl hr hu hn heval hlog hm0 hplaced

/-- What a run of one producer does in a build, whatever its result. -/
theorem buildProducer_spec (hd : Disciplined env gs) {s s' : St κ D} {res : Except Err Unit}
    {σ : Snapshot} {r : PyDict Str (Data κ)} {p : Pdr} (hg : gs σ.graph)
    (hw : WInv env gs s) (hl : LInv (LinkEval env) s) (hr : (σ, r) ∈ s.raws) (hu : SnapUnique s.raws)
    (hin : ∀ n a, (n, a) ∈ p.inputs → ∀ k, σ.graph.keyOf a = some k →
      Full env s σ (rawOf σ r) a)
    {k0 : Str} {i0 : ArtInfo} {pos0 : Nat} (hm0 : (k0, Art.made i0 p pos0) ∈ σ.graph.arts)
    (hrun : buildProducer env σ p s = (res, s')) (hn : NoClash env gs s'.invs) :
    WInv env gs s' ∧ LInv (LinkEval env) s' ∧ Grow s s' ∧
    (res = .ok () → SingleOutput env σ.graph → Full env s' σ (rawOf σ r) (.made i0 p pos0)) := by
  obtain ⟨c, v, inp⟩ := p
  obtain ⟨w1, w2, w3, w4⟩ := buildProducer_core (E := LinkEval env) (p := .mk c v inp)
    (X := fun xs => evalIns env (rawOf σ r) inp = .ok xs) hd hg hw hl hr
    (fun ins s2 hgi => getInputs_spec hd.iter hl inp hin ins s2 hgi)
    (fun xs hx rs h1 _ i pos o ho sn cc hp =>
      ⟨rs, by simp [evalPdr, hx, h1, bind, Except.bind], o, ho, cc, hp⟩) hm0 hrun hn
  refine ⟨w1, w2, w3, fun hres hsingle => ?_⟩
  obtain ⟨xs, rs, hx1, h1, hlog, hall⟩ := w4 hres
  refine full_made hd hg w1 w2 (by rw [w3.raws]; exact hr) (by rw [w3.raws]; exact hu) hn ?_ hlog hall
    hsingle hm0
  simp [evalPdr, hx1, h1, bind, Except.bind]

end Arti.Spec
