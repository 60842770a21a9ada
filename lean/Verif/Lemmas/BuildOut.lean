import Verif.Lemmas.BuildIn
import Verif.Lemmas.GraphOut

/-! The outputs of a producer in a build are those of the evaluator. -/

namespace Arti.Spec
open PyDict World M
variable {κ D : Type} [DecidableEq κ] {env : Env κ D} {gs : Graph → Prop}
  {E : Snapshot → PyDict Str (Data κ) → Art → PSnap κ → Prop}

/-- A snapshot is known for a storage. -/
def InSto (s : St κ D) (sto : Sto) (sn : PSnap κ) : Prop :=
  ∃ ss, get? s.storage sto = some ss ∧ sn ∈ ss

theorem InSto.mono {s s' : St κ D} (h : Ext s s') {sto : Sto} {sn : PSnap κ}
    (hi : InSto s sto sn) : InSto s' sto sn := by
  obtain ⟨ss, h1, h2⟩ := hi
  obtain ⟨ss', h3, h4⟩ := h.storage _ _ h1
  exact ⟨ss', h3, h4 _ h2⟩

theorem linksOf_mono {s s' : St κ D} (h : Ext s s') {σ : Snapshot} {k : Str} {sn : PSnap κ}
    (hi : sn ∈ linksOf s σ k) : sn ∈ linksOf s' σ k := by
  unfold linksOf at *
  cases hg : get? s.links (σ, k) with
  | none => rw [hg] at hi; simp at hi
  | some l =>
    rw [hg] at hi
    obtain ⟨l', h1, h2⟩ := h.links _ _ hg
    rw [h1]
    exact h2 _ hi

theorem linksOf_addLinks (s : St κ D) (σ : Snapshot) (k : Str) (ps : List (PSnap κ))
    (sn : PSnap κ) : sn ∈ linksOf (addLinks s σ k ps) σ k ↔ sn ∈ linksOf s σ k ∨ sn ∈ ps := by
  simp only [linksOf, addLinks, get?_set, ↓reduceIte, Option.getD_some, mem_setUpdate]

/-- The log has an entry for each outcome of a producer. -/
def LogHas (env : Env κ D) (log : List (Inv κ D)) (p : Pdr) (rs : List (Outcome κ D)) : Prop :=
  ∀ o ∈ rs, ∃ e ∈ log, e.pdr = p ∧ e.key = o.key ∧ e.fp = o.fp ∧
    runBuild (cls env p) e.args = o.outs

/-- What is needed while the partitions of a producer are discovered and built. -/
structure Ctx (E : Snapshot → PyDict Str (Data κ) → Art → PSnap κ → Prop) (env : Env κ D)
    (gs : Graph → Prop) (s1 : St κ D) (σ : Snapshot)
    (r : PyDict Str (Data κ)) (p : Pdr) (rs : List (Outcome κ D)) : Prop where
  disc : Disciplined env gs
  graph : gs σ.graph
  raws : (σ, r) ∈ s1.raws
  nodup : (rs.map Outcome.key).Nodup
  link : ∀ i pos, ∀ o ∈ rs, ∀ sn c, place env (cls env p) i pos o = .ok (sn, c) →
    E σ r (.made i p pos) sn
  log : LogHas env s1.invs p rs
  clash : NoClash env gs s1.invs

section
variable {s1 : St κ D} {σ : Snapshot} {r : PyDict Str (Data κ)} {p : Pdr}
  {rs : List (Outcome κ D)}

theorem tri_addStorage {a : Art} {ps : List (PSnap κ)} {P : St κ D → Prop}
    (hP : ∀ s, P s → J E env gs s1 s ∧ (MadeSto gs a.info.sto → ∀ sn ∈ ps,
      GoodSnap env gs s.files s.invs a.info.sto sn)) :
    Tri P (writeArtifactPartitions a ps) (fun _ s => J E env gs s1 s ∧
      (∃ ss, get? s.storage a.info.sto = some ss) ∧ ∀ sn ∈ ps, InSto s a.info.sto sn)
      (J E env gs s1) := by
  apply Tri.effect
  · intro s hs
    obtain ⟨hj, hg⟩ := hP s hs
    have hst : get? (addStorage s a.info.sto ps).storage a.info.sto =
        some (setUpdate ((get? s.storage a.info.sto).getD []) ps) := by
      simp [addStorage, get?_set]
    refine ⟨⟨hj.w.addStorage _ _ hg, hj.l.addStorage _ _, hj.e.trans (ext_addStorage ..)⟩,
      ⟨_, hst⟩, fun sn hsn => ⟨_, hst, (mem_setUpdate _ _ _).2 (.inr hsn)⟩⟩
  · rintro s n ⟨hj, h2, h3⟩
    exact ⟨hj.budget n, h2, h3⟩
  · intro s hs; exact (hP s hs).1

theorem tri_addLinks {k : Str} {ps : List (PSnap κ)} {P : St κ D → Prop}
    (hP : ∀ s, P s → J E env gs s1 s ∧
      ∀ a, σ.graph.keyOf a = some k → ∀ sn ∈ ps, LinkOk E s σ a sn) :
    Tri P (writeSnapshotPartitions σ k ps) (fun _ s => J E env gs s1 s ∧
      ∀ sn ∈ ps, sn ∈ linksOf s σ k) (J E env gs s1) := by
  apply Tri.effect
  · intro s hs
    obtain ⟨hj, hg⟩ := hP s hs
    exact ⟨⟨hj.w.addLinks _ _ _, hj.l.addLinks _ _ _ hg, hj.e.trans (ext_addLinks ..)⟩,
      fun sn hsn => (linksOf_addLinks s σ k ps sn).2 (.inr hsn)⟩
  · rintro s n ⟨hj, h2⟩
    exact ⟨hj.budget n, h2⟩
  · intro s hs; exact (hP s hs).1

/-- What is discovered for a produced storage is right. -/
theorem discover_good {s : St κ D} (hw : WInv env gs s) {sto : Sto} (hm : MadeSto gs sto)
    {ifps : PyDict κ Fp} (hne : ifps ≠ []) {ps : List (PSnap κ)}
    (h : discover env s.files sto ifps = .ok ps) {sn : PSnap κ} (hs : sn ∈ ps)
    (hfp : sto.hasFp = true) : GoodSnap env gs s.files s.invs sto sn := by
  cases sto with
  | file t =>
    simp only [discover, bind, Except.bind] at h
    split at h
    · simp at h
    · obtain ⟨fp, pk, c, h1, h2, h3, h4⟩ := mem_snapAll h hs
      obtain ⟨g1, g2, g3, g4, g5⟩ := generate_ok h2
      have hsome : fp.isSome = true := by rw [g4, hfp]
      obtain ⟨f, rfl⟩ := Option.isSome_iff_exists.1 hsome
      rcases g5 with ⟨t', path, _, hloc⟩ | ⟨t', v, id, v', ht, _⟩
      · subst g3
        refine ⟨f, sn.part, c, h2, ?_, h3, ?_⟩
        · simp only [stored, hloc, Except.ok.injEq, Prod.mk.injEq, and_true]
          obtain ⟨cf, part⟩ := sn
          simp only at hloc
          simp only at h4
          rw [contentFp.eq_def, hloc] at h4
          simp [h4]
        · refine hw.files _ hm f _ _ path c h2 hloc ?_
          simpa [content, hloc] using h3
      · simp at ht
  | lit t v =>
    simp only [discover] at h
    have he : ifps.isEmpty = false := by
      cases ifps with
      | nil => exact absurd rfl hne
      | cons _ _ => rfl
    simp only [he, Bool.not_false, Bool.true_and, Bool.and_false, Bool.false_eq_true,
      ↓reduceIte] at h
    split at h
    · simp at h
    · rename_i hv
      have : v.isNone = true := by cases v <;> simp_all
      simp only [this, ↓reduceIte, Except.ok.injEq] at h
      subst h; simp at hs

theorem tri_warm {a : Art} (hm : MadeSto gs a.info.sto) (hfp : a.info.sto.hasFp = true)
    {ifps : PyDict κ Fp} (hne : ifps ≠ []) :
    Tri (J E env gs s1) (warm env a ifps) (fun _ s => J E env gs s1 s ∧
      ∃ ss, get? s.storage a.info.sto = some ss) (J E env gs s1) := by
  apply Tri.gets_bind
  intro s hs
  cases hk : contains s.storage a.info.sto with
  | true =>
    simp only [↓reduceIte]
    apply Tri.pure
    rintro s' rfl
    exact ⟨hs, Option.isSome_iff_exists.1 hk⟩
  | false =>
    simp only [Bool.false_eq_true, ↓reduceIte]
    apply Tri.gets_bind
    rintro s' rfl
    apply Tri.lift_bind
    · intro ps hps
      refine (tri_addStorage (s1 := s1) (gs := gs) (env := env) ?_).conseq (fun _ => id)
        (fun _ s h => ⟨h.1, h.2.1⟩) (fun _ => id)
      rintro s'' rfl
      exact ⟨hs, fun _ sn hsn => discover_good hs.w hm hne hps hsn hfp⟩
    · rintro s'' rfl; exact hs

theorem tri_readArtifact (hi : IterOk env) {a : Art} (hm : MadeSto gs a.info.sto)
    (hfp : a.info.sto.hasFp = true) {ifps : PyDict κ Fp} (hne : ifps ≠ []) :
    Tri (J E env gs s1) (readArtifactPartitions env a ifps) (fun ps s => J E env gs s1 s ∧
      ∀ sn, sn ∈ ps ↔ InSto s a.info.sto sn ∧ get? ifps sn.part.key = sn.part.inputFp)
      (J E env gs s1) := by
  apply Tri.bind (tri_warm hm hfp hne)
  rintro ⟨⟩
  apply Tri.gets_bind
  rintro s ⟨hs, ss, hss⟩
  apply Tri.pure
  rintro s' rfl
  refine ⟨hs, fun sn => ?_⟩
  have he : ifps.isEmpty = false := by
    cases ifps with
    | nil => exact absurd rfl hne
    | cons _ _ => rfl
  rw [(hi.perm _).mem_iff]
  simp only [hss, Option.getD_some, he, Bool.false_eq_true, ↓reduceIte, List.mem_filter,
    decide_eq_true_eq, InSto]
  constructor
  · rintro ⟨h1, h2⟩; exact ⟨⟨ss, rfl, h1⟩, h2⟩
  · rintro ⟨⟨ss', h1, h2⟩, h3⟩
    simp only [Option.some.injEq] at h1
    subst h1; exact ⟨h2, h3⟩

theorem J.rebase {s : St κ D} (h : J E env gs s1 s) : J E env gs s s := ⟨h.w, h.l, Ext.refl s⟩

theorem J.base {s s' : St κ D} (h : J E env gs s1 s) (h' : J E env gs s s') : J E env gs s1 s' :=
  ⟨h'.w, h'.l, h.e.trans h'.e⟩

theorem tri_readOutputs (hi : IterOk env) {ifps : PyDict κ Fp} (hne : ifps ≠ [])
    (outs : List Art) (ho : ∀ a ∈ outs, MadeSto gs a.info.sto ∧ a.info.sto.hasFp = true) :
    Tri (J E env gs s1) (readOutputs env ifps outs) (fun found s => J E env gs s1 s ∧
      found.map Prod.fst = outs ∧ ∀ a ps, (a, ps) ∈ found → ∀ sn ∈ ps,
        InSto s a.info.sto sn ∧ get? ifps sn.part.key = sn.part.inputFp)
      (J E env gs s1) := by
  induction outs generalizing s1 with
  | nil => exact Tri.pure fun s hs => ⟨hs, rfl, by simp⟩
  | cons a outs ih =>
    obtain ⟨hm, hfp⟩ := ho a (by simp)
    apply Tri.bind (tri_readArtifact hi hm hfp hne)
    intro ps
    apply Tri.of_state
    rintro s ⟨hs, hps⟩
    -- run the rest relative to `s`, to carry the facts about `ps`
    apply Tri.bind (Q := fun found s' => J E env gs s s' ∧
      found.map Prod.fst = outs ∧ ∀ a ps, (a, ps) ∈ found → ∀ sn ∈ ps,
        InSto s' a.info.sto sn ∧ get? ifps sn.part.key = sn.part.inputFp)
    · refine (ih (s1 := s) fun a ha => ho a (List.mem_cons_of_mem _ ha)).conseq ?_
        (fun _ _ => id) (fun _ h => hs.base h)
      rintro s' rfl; exact hs.rebase
    · intro found
      apply Tri.pure
      rintro s' ⟨h1, h3, h4⟩
      refine ⟨hs.base h1, by simp [h3], ?_⟩
      intro a' ps' hmem sn hsn
      rcases List.mem_cons.1 hmem with heq | hmem
      · simp only [Prod.mk.injEq] at heq
        obtain ⟨rfl, rfl⟩ := heq
        obtain ⟨h5, h6⟩ := (hps sn).1 hsn
        exact ⟨h5.mono h1.e, h6⟩
      · exact h4 a' ps' hmem sn hsn

/-- A known snapshot that matches the requested fingerprints is one that the evaluator gives. -/
theorem linkable (hc : Ctx E env gs s1 σ r p rs) {s : St κ D} (hj : J E env gs s1 s)
    {k : Str} {i : ArtInfo} {pos : Nat} (hm : (k, Art.made i p pos) ∈ σ.graph.arts)
    {sn : PSnap κ} (hs : InSto s i.sto sn)
    (hf : get? (rs.map fun o => (o.key, o.fp)) sn.part.key = sn.part.inputFp) :
    ∃ o ∈ rs, ∃ c, place env (cls env p) i pos o = .ok (sn, c) := by
  have hmade : Made gs i p pos := ⟨σ.graph, hc.graph, k, hm⟩
  obtain ⟨ss, h1, h2⟩ := hs
  obtain ⟨f, part, b, g1, g2, g3, g4⟩ := hj.w.store i.sto ⟨i, p, pos, hmade, rfl⟩ ss h1 sn h2
  have hfp : sn.part.inputFp = some f := (stored_ok g2).2.2.1.trans (generate_ok g1).2.1
  rw [hfp] at hf
  obtain ⟨o, ho, heq⟩ := List.mem_map.1 (get?_mem hf)
  simp only [Prod.mk.injEq] at heq
  obtain ⟨hk, rfl⟩ := heq
  obtain ⟨e, he, e1, e2, e3, e4⟩ := hc.log o ho
  rw [← hk, ← e2, ← e3, hj.e.invs] at g4
  rw [← hk] at g1
  subst e1
  have hb := Correct.eq hc.clash he hmade g4
  unfold bytes at hb
  rw [e4] at hb
  exact ⟨o, ho, b, place_of hb g1 g2⟩

theorem linkOk_of (hc : Ctx E env gs s1 σ r p rs) {s : St κ D} (hj : J E env gs s1 s)
    {k k' : Str} {i : ArtInfo} {pos : Nat} (hm : (k', Art.made i p pos) ∈ σ.graph.arts)
    (hk : σ.graph.keyOf (.made i p pos) = some k) {sn : PSnap κ} (hs : InSto s i.sto sn)
    (hp : ∃ o ∈ rs, ∃ c, place env (cls env p) i pos o = .ok (sn, c))
    {a : Art} (ha : σ.graph.keyOf a = some k) : LinkOk E s σ a sn := by
  obtain rfl := Graph.keyOf_inj (hc.disc.keys _ hc.graph) hk ha
  obtain ⟨o, ho, c, hp⟩ := hp
  exact ⟨hs, r, by rw [hj.e.raws]; exact hc.raws, hc.link i pos o ho sn c hp⟩

theorem tri_linkOutputs (hc : Ctx E env gs s1 σ r p rs) {s0 : St κ D} (h0 : J E env gs s1 s0)
    (found : List (Art × List (PSnap κ)))
    (hf : ∀ a ps, (a, ps) ∈ found → ∃ k i pos, a = .made i p pos ∧ (k, a) ∈ σ.graph.arts ∧
      ∀ sn ∈ ps, InSto s0 a.info.sto sn ∧
        get? (rs.map fun o => (o.key, o.fp)) sn.part.key = sn.part.inputFp) :
    Tri (J E env gs s0) (linkOutputs σ found) (fun _ s => J E env gs s0 s ∧
      ∀ a ps, (a, ps) ∈ found → ∀ k, σ.graph.keyOf a = some k → ∀ sn ∈ ps, sn ∈ linksOf s σ k)
      (J E env gs s0) := by
  induction found with
  | nil => exact Tri.pure fun s hs => ⟨hs, by simp⟩
  | cons x found ih =>
    obtain ⟨a, ps⟩ := x
    obtain ⟨k', i, pos, rfl, hm, hps⟩ := hf a ps (by simp)
    apply Tri.need_bind
    · intro k hk
      apply Tri.bind (Q := fun _ s => J E env gs s0 s ∧ ∀ sn ∈ ps, sn ∈ linksOf s σ k)
      · apply tri_addLinks
        intro s hs
        refine ⟨hs, fun a ha sn hsn => ?_⟩
        have hj := h0.base hs
        exact linkOk_of hc hj hm hk ((hps sn hsn).1.mono hs.e)
          (linkable hc hj hm ((hps sn hsn).1.mono hs.e) (hps sn hsn).2) ha
      · rintro ⟨⟩
        apply Tri.of_state
        rintro s ⟨hs, hl⟩
        have ih' := ih fun a ps h => hf a ps (List.mem_cons_of_mem _ h)
        intro s' hs'
        subst hs'
        have h1 := ih' s' hs
        have h2 := (tri_linkOutputs_mono (σ := σ) found s') s' (Ext.refl _)
        revert h1 h2
        cases linkOutputs σ found s' with
        | mk r' s'' =>
          cases r' with
          | error e => intro h1 _; exact h1
          | ok u =>
            rintro ⟨h1, h3⟩ h2
            refine ⟨h1, ?_⟩
            intro a' ps' hmem k1 hk1 sn hsn
            rcases List.mem_cons.1 hmem with heq | hmem
            · simp only [Prod.mk.injEq] at heq
              obtain ⟨rfl, rfl⟩ := heq
              rw [hk] at hk1
              obtain rfl := Option.some.inj hk1
              exact linksOf_mono h2 (hl sn hsn)
            · exact h3 a' ps' hmem k1 hk1 sn hsn
    · intro s hs; exact hs
where
  tri_linkOutputs_mono {σ : Snapshot} (found : List (Art × List (PSnap κ))) (s0 : St κ D) :
      Tri (Ext s0) (linkOutputs σ found) (fun _ s => Ext s0 s) (Ext s0) := by
    induction found with
    | nil => exact Tri.pure fun s hs => hs
    | cons x found ih =>
      obtain ⟨a, ps⟩ := x
      apply Tri.need_bind
      · intro k _
        apply Tri.bind (Q := fun _ s => Ext s0 s)
        · apply Tri.effect
          · intro s hs; exact hs.trans (ext_addLinks ..)
          · intro s n h; exact ⟨h.files, h.storage, h.links, h.invs, h.raws⟩
          · intro s hs; exact hs
        · intro _; exact ih
      · intro s hs; exact hs

/-- The artifacts in the found list are the outputs of the producer. -/
theorem tri_discover (hc : Ctx E env gs s1 σ r p rs) (hne : rs ≠ []) :
    Tri (J E env gs s1) (discoverProducerPartitions env σ p (rs.map fun o => (o.key, o.fp)))
      (fun existing s => J E env gs s1 s ∧ ∀ pk ∈ existing, ∃ k' i pos k o sn c,
        (k', Art.made i p pos) ∈ σ.graph.arts ∧ σ.graph.keyOf (.made i p pos) = some k ∧
        o ∈ rs ∧ o.key = pk ∧ place env (cls env p) i pos o = .ok (sn, c) ∧
        sn ∈ linksOf s σ k) (J E env gs s1) := by
  have hne' : rs.map (fun o => (o.key, o.fp)) ≠ [] := by simpa using hne
  apply Tri.lift_bind
  · intro outs houts
    have ho : ∀ a ∈ outs, ∃ k i pos, a = .made i p pos ∧ (k, a) ∈ σ.graph.arts :=
      fun a ha => Graph.mem_producerOutputs houts ha
    apply Tri.bind (tri_readOutputs hc.disc.iter hne' outs ?_)
    · intro found
      apply Tri.of_state
      rintro s ⟨hs, hfo, hfs⟩
      have hff : ∀ a ps, (a, ps) ∈ found → ∃ k i pos, a = .made i p pos ∧
          (k, a) ∈ σ.graph.arts ∧ ∀ sn ∈ ps, InSto s a.info.sto sn ∧
          get? (rs.map fun o => (o.key, o.fp)) sn.part.key = sn.part.inputFp := by
        intro a ps hmem
        obtain ⟨k, i, pos, h1, h2⟩ := ho a (by rw [← hfo]; exact List.mem_map.2 ⟨_, hmem, rfl⟩)
        exact ⟨k, i, pos, h1, h2, hfs a ps hmem⟩
      apply Tri.bind (Q := fun _ s' => J E env gs s s' ∧ ∀ a ps, (a, ps) ∈ found →
        ∀ k, σ.graph.keyOf a = some k → ∀ sn ∈ ps, sn ∈ linksOf s' σ k)
      · refine (tri_linkOutputs hc hs found hff).conseq ?_ (fun _ _ => id) (fun _ h => hs.base h)
        rintro s' rfl; exact hs.rebase
      · rintro ⟨⟩
        apply Tri.pure
        rintro s' ⟨hs', hl⟩
        refine ⟨hs.base hs', ?_⟩
        intro pk hpk
        obtain ⟨⟨a, ps⟩, hmem, hpk⟩ := List.mem_flatMap.1 hpk
        obtain ⟨sn, hsn, rfl⟩ := List.mem_map.1 hpk
        obtain ⟨k', i, pos, rfl, hm, hps⟩ := hff a ps hmem
        obtain ⟨k, hk⟩ := Graph.keyOf_of_mem hm
        obtain ⟨o, ho, c, hpl⟩ := linkable hc hs hm (hps sn hsn).1 (hps sn hsn).2
        exact ⟨k', i, pos, k, o, sn, c, hm, hk, ho, (place_key hpl).1.symm, hpl,
          hl _ _ hmem k hk sn hsn⟩
    · intro a ha
      obtain ⟨k, i, pos, rfl, hm⟩ := ho a ha
      exact ⟨⟨i, p, pos, ⟨_, hc.graph, k, hm⟩, rfl⟩, hc.disc.hasFp _ _ _ ⟨_, hc.graph, k, hm⟩⟩
  · intro s hs; exact hs

/-- Writing the content of a place. -/
theorem WInv.addFile {s : St κ D} (h : WInv env gs s) (hn : NoClash env gs s.invs)
    {e : Inv κ D} (he : e ∈ s.invs) {i : ArtInfo} {pos : Nat} (hm : Made gs i e.pdr pos)
    {part : Prt κ} {path c : Str} (hg : generate env i.sto (some e.fp) e.key = .ok part)
    (hl : part.loc = .file path) (hb : bytes env e i pos = .ok c) :
    FSub s.files (PyDict.set s.files path c) ∧
    WInv env gs { s with files := PyDict.set s.files path c } := by
  have hsub : FSub s.files (PyDict.set s.files path c) := by
    intro q b hq
    rw [get?_set]
    split
    · rename_i heq
      subst heq
      have := (h.files i.sto ⟨i, _, pos, hm, rfl⟩ _ _ _ _ b hg hl hq).eq hn he hm
      rw [hb] at this
      rw [Except.ok.inj this]
    · exact hq
  refine ⟨hsub, ?_, ?_⟩
  · intro sto' hm' f' pk' part' path' b hg' hl' hq
    simp only [get?_set] at hq
    split at hq
    · rename_i heq
      subst heq
      simp only [Option.some.injEq] at hq
      subst hq
      exact ⟨e, he, i, pos, hm, .inr ⟨part, part', path, hg, hg', hl, hl'⟩, hb⟩
    · exact h.files sto' hm' f' pk' part' path' b hg' hl' hq
  · intro sto' hm' ss hss sn hsn
    exact (h.store sto' hm' ss hss sn hsn).mono hsub fun _ => id

theorem tri_ioWrite (hc : Ctx E env gs s1 σ r p rs) {k : Str} {i : ArtInfo} {pos view : Nat}
    (hm : (k, Art.made i p pos) ∈ σ.graph.arts) {o : Outcome κ D} (ho : o ∈ rs) {d : D}
    (hb : outBytes env (cls env p) i pos o.outs = env.enc i view d) {part : Prt κ}
    (hg : generate env i.sto (some o.fp) o.key = .ok part) :
    Tri (J E env gs s1) (ioWrite env i view d part) (fun sn s => J E env gs s1 s ∧
      ∃ c, place env (cls env p) i pos o = .ok (sn, c) ∧
        GoodSnap env gs s.files s.invs i.sto sn) (J E env gs s1) := by
  have hmade : Made gs i p pos := ⟨σ.graph, hc.graph, k, hm⟩
  obtain ⟨e, he, rfl, e2, e3, e4⟩ := hc.log o ho
  have hbytes : ∀ c, env.enc i view d = .ok c → bytes env e i pos = .ok c := by
    intro c h
    unfold bytes
    rw [e4, hb, h]
  have hg' : generate env i.sto (some e.fp) e.key = .ok part := by rw [e2, e3]; exact hg
  have hcorr : ∀ s c, J E env gs s1 s → env.enc i view d = .ok c →
      Correct env gs s.invs i.sto o.fp o.key c := by
    intro s c hj h
    rw [hj.e.invs]
    exact ⟨e, he, i, pos, hmade, .inl ⟨rfl, e3, e2⟩, hbytes c h⟩
  unfold ioWrite
  cases hl : part.loc with
  | file path =>
    simp only
    apply Tri.lift_bind
    · intro c hcc
      apply Tri.bind (Q := fun _ s => J E env gs s1 s ∧ get? s.files path = some c)
      · apply Tri.effect
        · intro s hj
          have he' : e ∈ s.invs := by rw [hj.e.invs]; exact he
          have hn' : NoClash env gs s.invs := by rw [hj.e.invs]; exact hc.clash
          obtain ⟨h1, h2⟩ := hj.w.addFile hn' he' hmade hg' hl (hbytes c hcc)
          refine ⟨⟨h2, ⟨hj.l.nodup, hj.l.ok⟩, ?_⟩, by simp [get?_set]⟩
          exact hj.e.trans ⟨h1, DSub.refl _, DSub.refl _, rfl, rfl⟩
        · rintro s n ⟨hj, h⟩; exact ⟨hj.budget n, h⟩
        · exact fun _ => id
      · rintro ⟨⟩
        apply Tri.gets_bind
        rintro s ⟨hj, hf⟩
        apply Tri.lift
        · rintro sn s' hsn rfl
          unfold snap at hsn
          simp only [content, hl, hf, Except.ok.injEq] at hsn
          subst hsn
          have hst : stored env part c = .ok (⟨contentFp env (.file path) c, part⟩, c) := by
            simp [stored, hl, contentFp]
          have hkey : part.key = o.key := (generate_ok hg).2.2.1
          refine ⟨hj, c, place_of (hb.trans hcc) hg hst, o.fp, part, c, ?_, hst, ?_, ?_⟩
          · simp only [hkey]; exact hg
          · simp only [content, hl]; exact hf
          · simp only [hkey]; exact hcorr _ c hj hcc
        · rintro s' rfl; exact hj
    · exact fun _ => id
  | lit lid v =>
    simp only
    apply Tri.raiseIf_bind
    · intro hv
      have : v = none := by cases v <;> simp_all
      subst this
      apply Tri.lift_bind
      · intro c hcc
        apply Tri.lift
        · intro sn s hsn hj
          simp only [snap, content, Except.ok.injEq] at hsn
          subst hsn
          have hst : stored env part c =
              .ok (⟨contentFp env (.lit lid (some c)) c,
                { part with loc := .lit lid (some c) }⟩, c) := by
            simp [stored, hl, contentFp]
          have hkey : part.key = o.key := (generate_ok hg).2.2.1
          refine ⟨hj, c, place_of (hb.trans hcc) hg hst, o.fp, part, c, ?_, hst, rfl, ?_⟩
          · simp only [hkey]; exact hg
          · simp only [hkey]; exact hcorr _ c hj hcc
        · exact fun _ => id
      · exact fun _ => id
    · exact fun _ => id

theorem tri_write (hc : Ctx E env gs s1 σ r p rs) {k : Str} {i : ArtInfo} {pos view : Nat}
    (hm : (k, Art.made i p pos) ∈ σ.graph.arts) {o : Outcome κ D} (ho : o ∈ rs) {d : D}
    (hb : outBytes env (cls env p) i pos o.outs = env.enc i view d) :
    Tri (J E env gs s1) (write env σ.graph (some σ) d (.made i p pos) (some o.fp) o.key view)
      (fun _ s => J E env gs s1 s ∧ ∃ k' sn c, σ.graph.keyOf (.made i p pos) = some k' ∧
        place env (cls env p) i pos o = .ok (sn, c) ∧ sn ∈ linksOf s σ k') (J E env gs s1) := by
  unfold write
  apply Tri.need_bind
  · intro k' hk
    apply Tri.raiseIf_bind
    · intro _
      apply Tri.lift_bind
      · intro part hg
        apply Tri.bind (tri_ioWrite hc hm ho hb hg)
        intro sn
        apply Tri.of_state
        rintro s ⟨hj, c, hpl, hgood⟩
        apply Tri.bind (Q := fun _ s' => J E env gs s1 s' ∧ InSto s' i.sto sn)
        · refine (tri_addStorage (env := env) (gs := gs) (s1 := s1) ?_).conseq (fun _ => id)
            (fun _ s h => ⟨h.1, h.2.2 sn (by simp)⟩) (fun _ => id)
          rintro s' rfl
          refine ⟨hj, fun _ sn' hsn' => ?_⟩
          rw [List.mem_singleton] at hsn'
          subst hsn'
          exact hgood
        · rintro ⟨⟩
          apply Tri.bind (Q := fun _ s' => J E env gs s1 s' ∧ ∀ sn' ∈ [sn], sn' ∈ linksOf s' σ k')
          · apply tri_addLinks
            rintro s' ⟨hj', hin⟩
            refine ⟨hj', fun a ha sn' hsn' => ?_⟩
            rw [List.mem_singleton] at hsn'
            subst hsn'
            exact linkOk_of hc hj' hm hk hin ⟨o, ho, c, hpl⟩ ha
          · rintro ⟨⟩
            apply Tri.pure
            rintro s' ⟨hj', hl⟩
            exact ⟨hj', k', sn, c, hk, hpl, hl sn (by simp)⟩
      · exact fun _ => id
    · exact fun _ => id
  · exact fun _ => id

/-- A position whose output is placed and linked. -/
def Placed (env : Env κ D) (s : St κ D) (σ : Snapshot) (p : Pdr) (o : Outcome κ D) (pos : Nat) :
    Prop :=
  ∃ k' i k sn c, (k', Art.made i p pos) ∈ σ.graph.arts ∧
    σ.graph.keyOf (.made i p pos) = some k ∧
    place env (cls env p) i pos o = .ok (sn, c) ∧ sn ∈ linksOf s σ k

theorem Placed.mono {s s' : St κ D} (h : Ext s s') {o : Outcome κ D} {pos : Nat}
    (hp : Placed env s σ p o pos) : Placed env s' σ p o pos := by
  obtain ⟨k', i, k, sn, c, h1, h2, h3, h4⟩ := hp
  exact ⟨k', i, k, sn, c, h1, h2, h3, linksOf_mono h h4⟩

theorem tri_writeOutputs (hc : Ctx E env gs s1 σ r p rs) {o : Outcome κ D} (ho : o ∈ rs)
    {outs : List D} (houts : o.outs = .ok outs) (rest : List D) (n : Nat)
    (hrest : rest = outs.drop n) : Tri (J E env gs s1)
      (writeOutputs env σ p o.fp o.key n rest)
      (fun _ s => J E env gs s1 s ∧ ∀ pos, n ≤ pos → pos < outs.length →
        Placed env s σ p o pos) (J E env gs s1) := by
  induction rest generalizing n s1 with
  | nil =>
    refine Tri.pure fun s hs => ⟨hs, fun pos h1 h2 => ?_⟩
    have := List.drop_eq_nil_iff.1 hrest.symm
    omega
  | cons d rest ih =>
    have hn : outs[n]? = some d := by
      have : (outs.drop n)[0]? = some d := by rw [← hrest]; rfl
      simpa using this
    have hrest' : rest = outs.drop (n + 1) := by
      have : (outs.drop n).tail = rest := by rw [← hrest]; rfl
      rw [← this, List.tail_drop]
    unfold writeOutputs
    apply Tri.lift_bind
    · intro arts harts
      apply Tri.need_bind
      · intro a ha
        apply Tri.need_bind
        · intro view hview
          obtain ⟨k, i, rfl, hm⟩ := Graph.producerOutputs_pos
            (fun k i pos h => hc.disc.noGap σ.graph hc.graph k i p pos h) harts ha
          have hb : outBytes env (cls env p) i n o.outs = env.enc i view d := by
            simp [outBytes, houts, hn, hview, orElse, bind, Except.bind]
          apply Tri.bind (tri_write hc hm ho hb)
          intro sn
          apply Tri.of_state
          rintro s ⟨hj, k', sn, c, h1, h2, h3⟩
          have hc' : Ctx E env gs s σ r p rs :=
            ⟨hc.disc, hc.graph, by rw [hj.e.raws]; exact hc.raws, hc.nodup, hc.link,
              by rw [hj.e.invs]; exact hc.log, by rw [hj.e.invs]; exact hc.clash⟩
          refine (ih hc' (n + 1) hrest').conseq ?_ ?_ ?_
          · rintro s' rfl; exact hj.rebase
          · rintro _ s' ⟨hj', h4⟩
            refine ⟨hj.base hj', fun pos h5 h6 => ?_⟩
            by_cases hpos : pos = n
            · subst hpos
              exact ⟨k, i, k', sn, c, hm, h1, h2, linksOf_mono hj'.e h3⟩
            · exact h4 pos (by omega) h6
          · intro s' hj'; exact hj.base hj'
        · exact fun _ => id
      · exact fun _ => id
    · exact fun _ => id

theorem Ctx.rebase (hc : Ctx E env gs s1 σ r p rs) {s : St κ D} (hj : J E env gs s1 s) :
    Ctx E env gs s σ r p rs :=
  ⟨hc.disc, hc.graph, by rw [hj.e.raws]; exact hc.raws, hc.nodup, hc.link,
    by rw [hj.e.invs]; exact hc.log, by rw [hj.e.invs]; exact hc.clash⟩

/-- The outcome is that of running `build` on these partitions. -/
def OutcomeOf (env : Env κ D) (s : St κ D) (p : Pdr) (o : Outcome κ D)
    (d : List (Str × List (PSnap κ))) : Prop :=
  ∀ files, FSub s.files files →
    o.outs = runBuild (cls env p) (readArgs env files p.inputs d (cls env p).buildInputs)

theorem tri_buildPartition (hc : Ctx E env gs s1 σ r p rs) {o : Outcome κ D} (ho : o ∈ rs)
    {d : List (Str × List (PSnap κ))} (hd : OutcomeOf env s1 p o d) {existing : List κ} :
    Tri (J E env gs s1) (buildPartition env σ p existing o.fp d o.key) (fun _ s => J E env gs s1 s ∧
      (o.key ∈ existing ∨ ∃ outs args, o.outs = .ok outs ∧ (cls env p).build args = .ok outs ∧
        ∀ pos, pos < outs.length → Placed env s σ p o pos)) (J E env gs s1) := by
  unfold buildPartition
  cases hx : existing.contains o.key with
  | true =>
    simp only [↓reduceIte]
    exact Tri.pure fun s hs => ⟨hs, .inl (List.contains_iff_mem.1 hx)⟩
  | false =>
    simp only [Bool.false_eq_true, ↓reduceIte]
    apply Tri.gets_bind
    intro s hs
    apply Tri.lift_bind
    · intro args hargs
      have ho1 := hd s.files hs.e.files
      apply Tri.bind (Q := fun _ s' => J E env gs s1 s')
      · apply Tri.ghost
        rintro s' rfl
        exact ⟨⟨hs.w.files, hs.w.store⟩, ⟨hs.l.nodup, hs.l.ok⟩,
          ⟨hs.e.files, hs.e.storage, hs.e.links, hs.e.invs, hs.e.raws⟩⟩
      · rintro ⟨⟩
        apply Tri.lift_bind
        · intro outs houts
          apply Tri.lift_bind
          · intro passed hpassed
            apply Tri.raiseIf_bind
            · intro hp
              have : passed = true := by cases passed <;> simp_all
              subst this
              have ho2 : o.outs = .ok outs := by
                rw [ho1]
                simp [runBuild, hargs, houts, hpassed, bind, Except.bind]
              refine (tri_writeOutputs hc ho ho2 outs 0 rfl).conseq (fun _ => id) ?_ (fun _ => id)
              rintro _ s' ⟨h1, h2⟩
              exact ⟨h1, .inr ⟨outs, args, ho2, houts, fun pos hpos => h2 pos (Nat.zero_le _) hpos⟩⟩
            · exact fun _ => id
          · exact fun _ => id
        · exact fun _ => id
    · rintro s' rfl; exact hs

theorem get?_fps {rs : List (Outcome κ D)} {pk : κ} {fp : Fp}
    (h : get? (rs.map fun o => (o.key, o.fp)) pk = some fp)
    (hn : (rs.map Outcome.key).Nodup) {o : Outcome κ D} (ho : o ∈ rs) (hk : o.key = pk) :
    o.fp = fp := by
  have hn' : (keys (rs.map fun o => (o.key, o.fp))).Nodup := by
    simp only [keys, List.map_map]; exact hn
  have := (mem_iff_get? hn').1 (List.mem_map.2 ⟨o, ho, rfl⟩)
  rw [hk, h] at this
  exact (Option.some.inj this).symm

theorem tri_buildPartitions (hc : Ctx E env gs s1 σ r p rs) {existing : List κ}
    (deps : List (κ × List (Str × List (PSnap κ))))
    (hd : ∀ pk d, (pk, d) ∈ deps → ∃ o ∈ rs, o.key = pk ∧ OutcomeOf env s1 p o d) :
    Tri (J E env gs s1) (buildPartitions env σ p existing (rs.map fun o => (o.key, o.fp)) deps)
      (fun _ s => J E env gs s1 s ∧ ∀ pk d, (pk, d) ∈ deps → ∃ o ∈ rs, o.key = pk ∧
        (pk ∈ existing ∨ ∃ outs args, o.outs = .ok outs ∧ (cls env p).build args = .ok outs ∧
          ∀ pos, pos < outs.length → Placed env s σ p o pos)) (J E env gs s1) := by
  induction deps generalizing s1 with
  | nil => exact Tri.pure fun s hs => ⟨hs, by simp⟩
  | cons x deps ih =>
    obtain ⟨pk, d⟩ := x
    unfold buildPartitions
    apply Tri.need_bind
    · intro fp hfp
      obtain ⟨o, ho, hk, hod⟩ := hd pk d (by simp)
      have hof := get?_fps hfp hc.nodup ho hk
      subst hof hk
      apply Tri.bind (tri_buildPartition hc ho hod)
      rintro ⟨⟩
      apply Tri.of_state
      rintro s ⟨hj, hdone⟩
      refine (ih (hc.rebase hj) ?_).conseq ?_ ?_ ?_
      · intro pk' d' hmem
        obtain ⟨o', h1, h2, h3⟩ := hd pk' d' (List.mem_cons_of_mem _ hmem)
        exact ⟨o', h1, h2, fun files hf => h3 files fun p b hb => hf p b (hj.e.files p b hb)⟩
      · rintro s' rfl; exact hj.rebase
      · rintro _ s' ⟨hj', hrest⟩
        refine ⟨hj.base hj', fun pk' d' hmem => ?_⟩
        rcases List.mem_cons.1 hmem with heq | hmem
        · simp only [Prod.mk.injEq] at heq
          obtain ⟨rfl, rfl⟩ := heq
          refine ⟨o, ho, rfl, ?_⟩
          rcases hdone with h | ⟨outs, args, h1, h2, h3⟩
          · exact .inl h
          · exact .inr ⟨outs, args, h1, h2, fun pos hpos => (h3 pos hpos).mono hj'.e⟩
        · exact hrest pk' d' hmem
      · intro s' hj'; exact hj.base hj'
    · exact fun _ => id

end

end Arti.Spec
