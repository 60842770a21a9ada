import Verif.Lemmas.ParBuild

/-! Building a producer while others add files: writing and linking. -/

namespace Arti.Par
open PyDict Spec Prog
variable {κ D α : Type} [DecidableEq κ] {env : Env κ D} {gs : Graph → Prop}
  {L : List (Inv κ D)} {I : PyDict Str Str → Prop} {P : St κ D → Prop}
  {E : Snapshot → PyDict Str (Data κ) → Art → PSnap κ → Prop}

theorem discoverFrom_good {s : St κ D} (hw : WInv env gs s) {sto : Sto} (hm : MadeSto gs sto)
    {ifps : PyDict κ Fp} (hne : ifps ≠ []) {ps : List (PSnap κ)} {names : List Str}
    (h : discoverFrom env names s.files sto ifps = .ok ps) {sn : PSnap κ} (hs : sn ∈ ps)
    (hfp : sto.hasFp = true) : GoodSnap env gs s.files s.invs sto sn := by
  cases sto with
  | file t =>
    simp only [discoverFrom, bind, Except.bind] at h
    split at h
    · simp at h
    · obtain ⟨fp, pk, c, h1, h2, h3, h4⟩ := World.mem_snapAll h hs
      obtain ⟨g1, g2, g3, g4, g5⟩ := World.generate_ok h2
      have hsome : fp.isSome = true := by rw [g4, hfp]
      obtain ⟨f, rfl⟩ := Option.isSome_iff_exists.1 hsome
      rcases g5 with ⟨t', path, _, hloc⟩ | ⟨t', v, id, v', ht, _⟩
      · subst g3
        refine ⟨f, sn.part, c, h2, ?_, h3, ?_⟩
        · simp only [stored, hloc, Except.ok.injEq, Prod.mk.injEq, and_true]
          obtain ⟨cf, part⟩ := sn
          simp only at hloc
          simp only at h4
          rw [World.contentFp.eq_def, hloc] at h4
          simp [h4]
        · refine hw.files _ hm f _ _ path c h2 hloc ?_
          simpa [World.content, hloc] using h3
      · simp at ht
  | lit t v => exact discover_good hw hm hne h hs hfp

variable (hI : ∀ F F', I F → Adds env gs F F' → I F')
include hI

section
variable {s1 : St κ D} {σ : Snapshot} {r : PyDict Str (Data κ)} {p : Pdr}
  {rs : List (Outcome κ D)}

theorem ptri_warm {a : Art} (hm : MadeSto gs a.info.sto) (hfp : a.info.sto.hasFp = true)
    {ifps : PyDict κ Fp} (hne : ifps ≠ []) :
    PTri env gs L I (J E env gs s1) (warm env a ifps) (fun _ s => J E env gs s1 s ∧
      ∃ ss, get? s.storage a.info.sto = some ss) := by
  have hst : Stable env gs L I (fun s : St κ D => ∃ ss, get? s.storage a.info.sto = some ss) :=
    .const fun _ _ h => h
  unfold warm
  refine PTri.bind hI (Q := fun b s => J E env gs s1 s ∧
    (b = true → ∃ ss, get? s.storage a.info.sto = some ss))
    (PTri.atom (E := fun _ => True) (.gets fun _ _ => rfl) .j (fun b => Stable.j.and
      (.const fun _ _ h => h)) (M.Tri.gets fun s hs => ⟨hs, Option.isSome_iff_exists.1⟩)) ?_
  intro known
  cases known with
  | true =>
    simp only [↓reduceIte]
    exact PTri.pure (Stable.j.and hst) fun s _ h => ⟨h.1, h.2 trivial⟩
  | false =>
    simp only [Bool.false_eq_true, ↓reduceIte]
    refine PTri.bind hI ((ptri_discover_sto hI Stable.j a.info.sto ifps).conseq
      (fun s _ h => h.1) (fun _ _ _ => id)) fun ps => ?_
    refine PTri.atom (calm_writeArtifactPartitions a ps) (Stable.j.and (.sub fun s F hF => ?_))
      (fun _ => Stable.j.and hst) ((tri_addStorage (env := env) (gs := gs) (s1 := s1) ?_).conseq
        (fun _ => id) (fun _ s h => ⟨h.1, h.2.1⟩) (fun _ => id))
    · rintro ⟨F0, h1, h2, h3⟩
      exact ⟨F0, h1, FSub.trans h2 hF, discoverFrom_mono hF h3⟩
    · rintro s ⟨hj, F0, -, -, h3⟩
      exact ⟨hj, fun _ sn hsn => discoverFrom_good hj.w hm hne h3 hsn hfp⟩

theorem ptri_readArtifact (hi : IterOk env) {a : Art} (hm : MadeSto gs a.info.sto)
    (hfp : a.info.sto.hasFp = true) {ifps : PyDict κ Fp} (hne : ifps ≠ []) :
    PTri env gs L I (J E env gs s1) (readArtifactPartitions env a ifps)
      (fun ps s => J E env gs s1 s ∧ ∀ sn ∈ ps, InSto s a.info.sto sn ∧
        get? ifps sn.part.key = sn.part.inputFp) := by
  have he : ifps.isEmpty = false := by
    cases ifps with
    | nil => exact absurd rfl hne
    | cons _ _ => rfl
  unfold readArtifactPartitions
  refine PTri.bind hI (ptri_warm hI hm hfp hne) fun _ => ?_
  refine PTri.bind hI (Q := fun ps s => J E env gs s1 s ∧ ∀ sn ∈ ps, InSto s a.info.sto sn)
    (PTri.atom (E := fun _ => True) (.gets fun _ _ => rfl) (Stable.j.and (.const fun _ _ h => h))
      (fun _ => Stable.j.and (.const fun _ _ h => h)) (M.Tri.gets ?_)) fun ps => ?_
  · rintro s ⟨hj, ss, hss⟩
    rw [hss]
    exact ⟨hj, fun sn hsn => ⟨ss, hss, hsn⟩⟩
  · refine PTri.pure (Stable.j.and (.const fun _ _ h => h)) ?_
    rintro s _ ⟨hj, hps⟩
    refine ⟨hj, fun sn hsn => ?_⟩
    rw [(hi.perm _).mem_iff, he] at hsn
    simp only [Bool.false_eq_true, ↓reduceIte, List.mem_filter, decide_eq_true_eq] at hsn
    exact ⟨hps sn hsn.1, hsn.2⟩

theorem ptri_readOutputs (hi : IterOk env) {ifps : PyDict κ Fp} (hne : ifps ≠ [])
    (outs : List Art) (ho : ∀ a ∈ outs, MadeSto gs a.info.sto ∧ a.info.sto.hasFp = true) :
    PTri env gs L I (J E env gs s1) (readOutputs env ifps outs) (fun found s => J E env gs s1 s ∧
      found.map Prod.fst = outs ∧ ∀ a ps, (a, ps) ∈ found → ∀ sn ∈ ps,
        InSto s a.info.sto sn ∧ get? ifps sn.part.key = sn.part.inputFp) := by
  induction outs generalizing s1 with
  | nil =>
    exact PTri.pure (Stable.j.and (.const fun _ _ h => h)) fun s _ hs => ⟨hs, rfl, by simp⟩
  | cons a outs ih =>
    obtain ⟨hm, hfp⟩ := ho a (by simp)
    unfold readOutputs
    refine PTri.bind hI (ptri_readArtifact hI hi hm hfp hne) fun ps => ?_
    refine PTri.base (R' := fun s => J E env gs s) ?_ (fun s hs => hs.1.rebase)
    rintro s _ ⟨hs, hps⟩
    refine PTri.bind hI (ih (s1 := s) fun a ha => ho a (List.mem_cons_of_mem _ ha)) fun found => ?_
    refine PTri.pure (Stable.j.and (.const fun _ _ h => h)) ?_
    rintro s' _ ⟨h1, h3, h4⟩
    refine ⟨hs.base h1, by simp [h3], ?_⟩
    intro a' ps' hmem sn hsn
    rcases List.mem_cons.1 hmem with heq | hmem
    · simp only [Prod.mk.injEq] at heq
      obtain ⟨rfl, rfl⟩ := heq
      obtain ⟨h5, h6⟩ := hps sn hsn
      exact ⟨h5.mono h1.e, h6⟩
    · exact h4 a' ps' hmem sn hsn

theorem ptri_discover (hc : Ctx E env gs s1 σ r p rs) (hne : rs ≠ []) :
    PTri env gs L I (J E env gs s1)
      (discoverProducerPartitions env σ p (rs.map fun o => (o.key, o.fp)))
      (fun existing s => J E env gs s1 s ∧ ∀ pk ∈ existing, ∃ k' i pos k o sn c,
        (k', Art.made i p pos) ∈ σ.graph.arts ∧ σ.graph.keyOf (.made i p pos) = some k ∧
        o ∈ rs ∧ o.key = pk ∧ place env (World.cls env p) i pos o = .ok (sn, c) ∧
        sn ∈ linksOf s σ k) := by
  have hne' : rs.map (fun o => (o.key, o.fp)) ≠ [] := by simpa using hne
  unfold discoverProducerPartitions
  refine PTri.lift_bind fun outs houts => ?_
  have ho : ∀ a ∈ outs, ∃ k i pos, a = .made i p pos ∧ (k, a) ∈ σ.graph.arts :=
    fun a ha => Graph.mem_producerOutputs houts ha
  refine PTri.bind hI (ptri_readOutputs hI hc.disc.iter hne' outs fun a ha => ?_) fun found => ?_
  · obtain ⟨k, i, pos, rfl, hm⟩ := ho a ha
    exact ⟨⟨i, p, pos, ⟨_, hc.graph, k, hm⟩, rfl⟩, hc.disc.hasFp _ _ _ ⟨_, hc.graph, k, hm⟩⟩
  · refine PTri.base (R' := fun s => J E env gs s) ?_ (fun s hs => hs.1.rebase)
    rintro s _ ⟨hs, hfo, hfs⟩
    have hff : ∀ a ps, (a, ps) ∈ found → ∃ k i pos, a = .made i p pos ∧
        (k, a) ∈ σ.graph.arts ∧ ∀ sn ∈ ps, InSto s a.info.sto sn ∧
        get? (rs.map fun o => (o.key, o.fp)) sn.part.key = sn.part.inputFp := by
      intro a ps hmem
      obtain ⟨k, i, pos, h1, h2⟩ := ho a (by rw [← hfo]; exact List.mem_map.2 ⟨_, hmem, rfl⟩)
      exact ⟨k, i, pos, h1, h2, hfs a ps hmem⟩
    refine PTri.bind hI (PTri.atom (calm_linkOutputs σ found) .j
      (fun _ => Stable.j.and (.const fun _ _ h => h)) (tri_linkOutputs hc hs found hff)) fun _ => ?_
    refine PTri.pure (Stable.j.and (.const fun _ _ h => h)) ?_
    rintro s' _ ⟨hs', hl⟩
    refine ⟨hs.base hs', ?_⟩
    intro pk hpk
    obtain ⟨⟨a, ps⟩, hmem, hpk⟩ := List.mem_flatMap.1 hpk
    obtain ⟨sn, hsn, rfl⟩ := List.mem_map.1 hpk
    obtain ⟨k', i, pos, rfl, hm, hps⟩ := hff a ps hmem
    obtain ⟨k, hk⟩ := Graph.keyOf_of_mem hm
    obtain ⟨o, ho, c, hpl⟩ := linkable hc hs hm (hps sn hsn).1 (hps sn hsn).2
    exact ⟨k', i, pos, k, o, sn, c, hm, hk, ho, (place_key hpl).1.symm, hpl,
      hl _ _ hmem k hk sn hsn⟩

/-- Writing a produced file in one step. -/
theorem ptri_writeFile (hl1 : s1.invs = L) (hc : Ctx E env gs s1 σ r p rs) {e : Inv κ D}
    (he : e ∈ s1.invs) {i : ArtInfo} {pos : Nat} (hm : Made gs i e.pdr pos) {part : Prt κ}
    {path c : Str} (hg : World.generate env i.sto (some e.fp) e.key = .ok part)
    (hl : part.loc = .file path) (hb : bytes env e i pos = .ok c) :
    PTri env gs L I (J E env gs s1) (writeFile .whole path c)
      (fun _ s => J E env gs s1 s ∧ get? s.files path = some c) := by
  intro s hs hj F hF hi
  have hj' := Stable.j (vw L s) F rfl hF hj
  obtain ⟨h1, h2⟩ := hj'.w.addFile (by rw [hj'.e.invs]; exact hc.clash)
    (by rw [hj'.e.invs]; exact he) hm hg hl hb
  have hok : FilesOk env gs L (PyDict.set F path c) := h2.files
  have hadds : Adds env gs F (PyDict.set F path c) := by
    refine ⟨h1, fun q hq => ?_⟩
    rw [get?_set] at hq
    by_cases hpq : path = q
    · subst hpq
      exact .inr ⟨i, e.pdr, pos, e.fp, e.key, part, hm, hg, hl⟩
    · rw [if_neg hpq] at hq
      exact .inl hq
  have hj2 : J E env gs s1 { vw L s with files := PyDict.set F path c } :=
    ⟨h2, ⟨hj'.l.nodup, hj'.l.ok⟩, hj'.e.trans ⟨h1, DSub.refl _, DSub.refl _, rfl, rfl⟩⟩
  have hst : Stable env gs L I
      (fun s : St κ D => J E env gs s1 s ∧ get? s.files path = some c) :=
    Stable.j.and (.sub fun s F hF h => hF _ _ h)
  have hget : get? (PyDict.set F path c) path = some c := by simp [get?_set]
  obtain ⟨f0, f1, f2, f3, f4, f5, b, f7, f8, f9⟩ := s
  simp only [M.effect] at hi ⊢
  cases b with
  | none =>
    exact ⟨⟨hadds, hok⟩, fun a _ F' hF' =>
      hst (vw L ⟨PyDict.set F path c, f1, f2, f3, f4, f5, none, f7, f8, f9⟩) F' rfl hF' ⟨hj2, hget⟩⟩
  | some n =>
    cases n with
    | zero => exact ⟨⟨⟨fun _ _ => id, fun _ h => .inl h⟩, hF.ok⟩, fun a ha => by cases ha⟩
    | succ n =>
      exact ⟨⟨hadds, hok⟩, fun a _ F' hF' =>
        hst (vw L ⟨PyDict.set F path c, f1, f2, f3, f4, f5, some n, f7, f8, f9⟩) F' rfl hF'
          ⟨hj2.budget (some n), hget⟩⟩

theorem ptri_ioWrite (hl1 : s1.invs = L) (hc : Ctx E env gs s1 σ r p rs) {k : Str} {i : ArtInfo}
    {pos view : Nat} (hm : (k, Art.made i p pos) ∈ σ.graph.arts) {o : Outcome κ D} (ho : o ∈ rs)
    {d : D} (hb : outBytes env (World.cls env p) i pos o.outs = env.enc i view d) {part : Prt κ}
    (hg : World.generate env i.sto (some o.fp) o.key = .ok part) :
    PTri env gs L I (J E env gs s1) (ioWrite env .whole i view d part) (fun sn s =>
      J E env gs s1 s ∧ ∃ c, place env (World.cls env p) i pos o = .ok (sn, c) ∧
        GoodSnap env gs s.files s.invs i.sto sn) := by
  have hmade : Made gs i p pos := ⟨σ.graph, hc.graph, k, hm⟩
  obtain ⟨e, he, rfl, e2, e3, e4⟩ := hc.log o ho
  have hbytes : ∀ c, env.enc i view d = .ok c → bytes env e i pos = .ok c := by
    intro c h
    unfold bytes
    rw [e4, hb, h]
  have hg' : World.generate env i.sto (some e.fp) e.key = .ok part := by rw [e2, e3]; exact hg
  have hcorr : ∀ s c, J E env gs s1 s → env.enc i view d = .ok c →
      Correct env gs s.invs i.sto o.fp o.key c := by
    intro s c hj h
    rw [hj.e.invs]
    exact ⟨e, he, i, pos, hmade, .inl ⟨rfl, e3, e2⟩, hbytes c h⟩
  have hQ : ∀ sn, Stable env gs L I (fun s => J E env gs s1 s ∧
      ∃ c, place env (World.cls env e.pdr) i pos o = .ok (sn, c) ∧
        GoodSnap env gs s.files s.invs i.sto sn) := fun sn =>
    Stable.j.and (.sub fun s F hF ⟨c, h1, h2⟩ => ⟨c, h1, h2.mono hF fun _ => id⟩)
  unfold ioWrite
  cases hl : part.loc with
  | file path =>
    simp only
    refine PTri.lift_bind fun c hcc => ?_
    refine PTri.bind hI (ptri_writeFile hI hl1 hc he hmade hg' hl (hbytes c hcc)) fun _ => ?_
    refine (ptri_snap hI (Stable.j.and (.sub fun s F hF h => hF _ _ h)) part).conseq
      (fun _ _ => id) ?_
    rintro sn s _ ⟨⟨hj, hf⟩, hsn⟩
    unfold World.snap at hsn
    simp only [World.content, hl, hf, Except.ok.injEq] at hsn
    subst hsn
    have hst : stored env part c = .ok (⟨World.contentFp env (.file path) c, part⟩, c) := by
      simp [stored, hl, World.contentFp]
    have hkey : part.key = o.key := (World.generate_ok hg).2.2.1
    refine ⟨hj, c, place_of (hb.trans hcc) hg hst, o.fp, part, c, ?_, hst, ?_, ?_⟩
    · simp only [hkey]; exact hg
    · simp only [World.content, hl]; exact hf
    · simp only [hkey]; exact hcorr _ c hj hcc
  | lit lid v =>
    simp only
    refine PTri.raiseIf_bind fun hv => ?_
    have : v = none := by cases v <;> simp_all
    subst this
    refine PTri.lift_bind fun c hcc => PTri.lift hQ ?_
    intro sn hsn s _ hj
    simp only [World.snap, World.content, Except.ok.injEq] at hsn
    subst hsn
    have hst : stored env part c =
        .ok (⟨World.contentFp env (.lit lid (some c)) c,
          { part with loc := .lit lid (some c) }⟩, c) := by
      simp [stored, hl, World.contentFp]
    have hkey : part.key = o.key := (World.generate_ok hg).2.2.1
    refine ⟨hj, c, place_of (hb.trans hcc) hg hst, o.fp, part, c, ?_, hst, rfl, ?_⟩
    · simp only [hkey]; exact hg
    · simp only [hkey]; exact hcorr _ c hj hcc

theorem ptri_write (hl1 : s1.invs = L) (hc : Ctx E env gs s1 σ r p rs) {k : Str} {i : ArtInfo}
    {pos view : Nat} (hm : (k, Art.made i p pos) ∈ σ.graph.arts) {o : Outcome κ D} (ho : o ∈ rs)
    {d : D} (hb : outBytes env (World.cls env p) i pos o.outs = env.enc i view d) :
    PTri env gs L I (J E env gs s1)
      (write env .whole σ.graph (some σ) d (.made i p pos) (some o.fp) o.key view)
      (fun _ s => J E env gs s1 s ∧ ∃ k' sn c, σ.graph.keyOf (.made i p pos) = some k' ∧
        place env (World.cls env p) i pos o = .ok (sn, c) ∧ sn ∈ linksOf s σ k') := by
  unfold write
  refine PTri.need_bind fun k' hk => PTri.raiseIf_bind fun _ => PTri.lift_bind fun part hg => ?_
  refine PTri.bind hI (ptri_ioWrite hI hl1 hc hm ho hb hg) fun sn => ?_
  have hgood : Stable env gs L I (fun s : St κ D =>
      ∃ c, place env (World.cls env p) i pos o = .ok (sn, c) ∧
        GoodSnap env gs s.files s.invs i.sto sn) :=
    .sub fun s F hF ⟨c, h1, h2⟩ => ⟨c, h1, h2.mono hF fun _ => id⟩
  refine PTri.bind hI (Q := fun _ s => J E env gs s1 s ∧ InSto s i.sto sn ∧
    ∃ c, place env (World.cls env p) i pos o = .ok (sn, c)) ?_ fun _ => ?_
  · refine PTri.base (R' := fun s s' => (J E env gs s1 s' ∧
      ∃ c, place env (World.cls env p) i pos o = .ok (sn, c) ∧
        GoodSnap env gs s'.files s'.invs i.sto sn) ∧
        ∃ c, place env (World.cls env p) i pos o = .ok (sn, c)) ?_ fun s hs => ⟨hs, ?_⟩
    · rintro s - ⟨-, c, hpl, -⟩
      refine PTri.atom (calm_writeArtifactPartitions _ _)
        ((Stable.j.and hgood).and (.const fun _ _ h => h))
        (fun _ => Stable.j.and (.const fun _ _ h => h))
        ((tri_addStorage (env := env) (gs := gs) (s1 := s1) ?_).conseq (fun _ => id)
          (fun _ s h => ⟨h.1, h.2.2 sn (by simp), c, hpl⟩) (fun _ => id))
      rintro s' ⟨⟨hj, c, -, hg⟩, -⟩
      refine ⟨hj, fun _ sn' hsn' => ?_⟩
      rw [List.mem_singleton] at hsn'
      subst hsn'
      exact hg
    · obtain ⟨-, c, h, -⟩ := hs; exact ⟨c, h⟩
  · refine PTri.base (R' := fun s s' => J E env gs s1 s' ∧ InSto s' i.sto sn) ?_
      fun s hs => ⟨hs.1, hs.2.1⟩
    rintro s - ⟨-, -, c, hpl⟩
    refine PTri.bind hI (Q := fun _ s' => J E env gs s1 s' ∧ ∀ sn' ∈ [sn], sn' ∈ linksOf s' σ k')
      (PTri.atom (calm_linkWritten _ _ _) (Stable.j.and (.const fun _ _ h => h))
        (fun _ => Stable.j.and (.const fun _ _ h => h)) (tri_addLinks ?_)) fun _ => ?_
    · rintro s' ⟨hj', hin⟩
      refine ⟨hj', fun a ha sn' hsn' => ?_⟩
      rw [List.mem_singleton] at hsn'
      subst hsn'
      exact linkOk_of hc hj' hm hk hin ⟨o, ho, c, hpl⟩ ha
    · refine PTri.pure (Stable.j.and (.const fun _ _ h => h)) ?_
      rintro s' _ ⟨hj', hl⟩
      exact ⟨hj', k', sn, c, hk, hpl, hl sn (by simp)⟩

theorem ptri_writeOutputs (hl1 : s1.invs = L) (hc : Ctx E env gs s1 σ r p rs) {o : Outcome κ D}
    (ho : o ∈ rs) {outs : List D} (houts : o.outs = .ok outs) (rest : List D) (n : Nat)
    (hrest : rest = outs.drop n) : PTri env gs L I (J E env gs s1)
      (writeOutputs env .whole σ p o.fp o.key n rest)
      (fun _ s => J E env gs s1 s ∧ ∀ pos, n ≤ pos → pos < outs.length →
        Placed env s σ p o pos) := by
  induction rest generalizing n s1 with
  | nil =>
    refine PTri.pure (Stable.j.and (.const fun _ _ h => h)) fun s _ hs => ⟨hs, fun pos h1 h2 => ?_⟩
    have := List.drop_eq_nil_iff.1 hrest.symm
    omega
  | cons d rest ih =>
    have hn : outs[n]? = some d := by
      have : (outs.drop n)[0]? = some d := by rw [← hrest]; rfl
      simpa using this
    have hrest' : rest = outs.drop (n + 1) := by
      have : (outs.drop n).tail = rest := by rw [← hrest]; rfl
      rw [← this, List.tail_drop]
    unfold writeOutputs
    refine PTri.lift_bind fun arts harts => PTri.need_bind fun a ha =>
      PTri.need_bind fun view hview => ?_
    obtain ⟨k, i, rfl, hm⟩ := Graph.producerOutputs_pos
      (fun k i pos h => hc.disc.noGap σ.graph hc.graph k i p pos h) harts ha
    have hb : outBytes env (World.cls env p) i n o.outs = env.enc i view d := by
      simp [outBytes, houts, hn, hview, orElse, bind, Except.bind]
    refine PTri.bind hI (ptri_write hI hl1 hc hm ho hb) fun _ => ?_
    refine PTri.base (R' := fun s => J E env gs s) ?_ (fun s hs => hs.1.rebase)
    rintro s hsL ⟨hj, k', sn, c, h1, h2, h3⟩
    refine (ih hsL (hc.rebase hj) (n + 1) hrest').conseq (fun _ _ => id) ?_
    rintro _ s' _ ⟨hj', h4⟩
    refine ⟨hj.base hj', fun pos h5 h6 => ?_⟩
    by_cases hpos : pos = n
    · subst hpos
      exact ⟨k, i, k', sn, c, hm, h1, h2, linksOf_mono hj'.e h3⟩
    · exact h4 pos (by omega) h6

theorem ptri_buildPartition (hl1 : s1.invs = L) (hc : Ctx E env gs s1 σ r p rs) {o : Outcome κ D}
    (ho : o ∈ rs) {d : List (Str × List (PSnap κ))} (hd : OutcomeOf env s1 p o d)
    {existing : List κ} :
    PTri env gs L I (J E env gs s1) (buildPartition env .whole σ p existing o.fp d o.key)
      (fun _ s => J E env gs s1 s ∧
      (o.key ∈ existing ∨ ∃ outs args, o.outs = .ok outs ∧
        (World.cls env p).build args = .ok outs ∧
        ∀ pos, pos < outs.length → Placed env s σ p o pos)) := by
  unfold buildPartition
  cases hx : existing.contains o.key with
  | true =>
    simp only [↓reduceIte]
    exact PTri.pure (Stable.j.and (.const fun _ _ h => h)) fun s _ hs =>
      ⟨hs, .inl (List.contains_iff_mem.1 hx)⟩
  | false =>
    simp only [Bool.false_eq_true, ↓reduceIte]
    refine PTri.bind hI (ptri_readArgs hI Stable.j _ _ _) fun args => ?_
    refine PTri.base (R' := fun s => J E env gs s1) ?_ fun s hs => hs.1
    rintro s - ⟨hs, hargs⟩
    have ho1 := hd s.files hs.e.files
    refine PTri.bind hI (Q := fun _ => J E env gs s1) (PTri.atom (E := fun _ => True)
      (.ghost (fun _ _ => rfl) fun _ => rfl) .j (fun _ => .j) (M.Tri.ghost ?_)) fun _ => ?_
    · intro s' hs'
      exact ⟨⟨hs'.w.files, hs'.w.store⟩, ⟨hs'.l.nodup, hs'.l.ok⟩,
          ⟨hs'.e.files, hs'.e.storage, hs'.e.links, hs'.e.invs, hs'.e.raws⟩⟩
    · refine PTri.lift_bind fun outs houts => PTri.lift_bind fun passed hpassed =>
        PTri.raiseIf_bind fun hp => ?_
      have : passed = true := by cases passed <;> simp_all
      subst this
      have ho2 : o.outs = .ok outs := by
        rw [ho1]
        simp [runBuild, hargs, houts, hpassed, bind, Except.bind]
      refine (ptri_writeOutputs hI hl1 hc ho ho2 outs 0 rfl).conseq (fun _ _ => id) ?_
      rintro _ s' _ ⟨h1, h2⟩
      exact ⟨h1, .inr ⟨outs, args, ho2, houts, fun pos hpos => h2 pos (Nat.zero_le _) hpos⟩⟩

theorem ptri_buildPartitions (hl1 : s1.invs = L) (hc : Ctx E env gs s1 σ r p rs)
    {existing : List κ} (deps : List (κ × List (Str × List (PSnap κ))))
    (hd : ∀ pk d, (pk, d) ∈ deps → ∃ o ∈ rs, o.key = pk ∧ OutcomeOf env s1 p o d) :
    PTri env gs L I (J E env gs s1)
      (buildPartitions env .whole σ p existing (rs.map fun o => (o.key, o.fp)) deps)
      (fun _ s => J E env gs s1 s ∧ ∀ pk d, (pk, d) ∈ deps → ∃ o ∈ rs, o.key = pk ∧
        (pk ∈ existing ∨ ∃ outs args, o.outs = .ok outs ∧
          (World.cls env p).build args = .ok outs ∧
          ∀ pos, pos < outs.length → Placed env s σ p o pos)) := by
  induction deps generalizing s1 with
  | nil =>
    exact PTri.pure (Stable.j.and (.const fun _ _ h => h)) fun s _ hs => ⟨hs, by simp⟩
  | cons x deps ih =>
    obtain ⟨pk, d⟩ := x
    unfold buildPartitions
    refine PTri.need_bind fun fp hfp => ?_
    obtain ⟨o, ho, hk, hod⟩ := hd pk d (by simp)
    have hof := get?_fps hfp hc.nodup ho hk
    subst hof hk
    refine PTri.bind hI (ptri_buildPartition hI hl1 hc ho hod) fun _ => ?_
    refine PTri.base (R' := fun s => J E env gs s) ?_ (fun s hs => hs.1.rebase)
    rintro s hsL ⟨hj, hdone⟩
    refine (ih hsL (hc.rebase hj) ?_).conseq (fun _ _ => id) ?_
    · intro pk' d' hmem
      obtain ⟨o', h1, h2, h3⟩ := hd pk' d' (List.mem_cons_of_mem _ hmem)
      exact ⟨o', h1, h2, fun files hf => h3 files fun p b hb => hf p b (hj.e.files p b hb)⟩
    · rintro _ s' _ ⟨hj', hrest⟩
      refine ⟨hj.base hj', fun pk' d' hmem => ?_⟩
      rcases List.mem_cons.1 hmem with heq | hmem
      · simp only [Prod.mk.injEq] at heq
        obtain ⟨rfl, rfl⟩ := heq
        refine ⟨o, ho, rfl, ?_⟩
        rcases hdone with h | ⟨outs, args, h1, h2, h3⟩
        · exact .inl h
        · exact .inr ⟨outs, args, h1, h2, fun pos hpos => (h3 pos hpos).mono hj'.e⟩
      · exact hrest pk' d' hmem

end

/-- What a run of one producer does in a build while others act, if the data of its inputs is
there. -/
theorem ptri_buildProducer (hd : Disciplined env gs) {s1 : St κ D} (hl1 : s1.invs = L)
    (hn : NoClash env gs L) {σ : Snapshot} {r : PyDict Str (Data κ)} {p : Pdr} (hg : gs σ.graph)
    (hr : (σ, r) ∈ s1.raws) {X : List (Str × (ArtInfo × Data κ)) → Prop}
    (hin : ∀ s, J E env gs s1 s → ∀ ins s2, World.getInputs env σ p.inputs s = (.ok ins, s2) →
      ∃ xs, X xs ∧ ins = xs.map (fun x => (x.1, env.iter (x.2.2.map Prod.fst))) ∧
        XGood s.files p.inputs xs)
    (hlink : ∀ xs, X xs → ∀ rs, evalProducer env p xs = .ok rs → LogHas env L p rs →
      ∀ i pos, ∀ o ∈ rs, ∀ sn c, place env (World.cls env p) i pos o = .ok (sn, c) →
        E σ r (.made i p pos) sn)
    {k0 : Str} {i0 : ArtInfo} {pos0 : Nat} (hm0 : (k0, Art.made i0 p pos0) ∈ σ.graph.arts) :
    PTri env gs L I (J E env gs s1) (buildProducer env .whole σ p) (fun _ s => J E env gs s1 s ∧
      ∃ xs rs, X xs ∧ evalProducer env p xs = .ok rs ∧ LogHas env L p rs ∧
      ∀ o ∈ rs, (∃ pos, Placed env s σ p o pos) ∨
        ∃ outs args, o.outs = .ok outs ∧ (World.cls env p).build args = .ok outs ∧
          ∀ pos, pos < outs.length → Placed env s σ p o pos) := by
  have hm : Made gs i0 p pos0 := ⟨_, hg, k0, hm0⟩
  unfold buildProducer
  refine PTri.bind hI (Q := fun ins s => J E env gs s1 s ∧ ∃ xs, X xs ∧
    ins = xs.map (fun x => (x.1, env.iter (x.2.2.map Prod.fst))) ∧ XGood s.files p.inputs xs)
    (PTri.atom (E := fun _ => True) (calm_getInputs env σ p.inputs) .j
      (fun ins => Stable.j.and (.sub fun s F hF ⟨xs, h1, h2, h3⟩ => ⟨xs, h1, h2, h3.mono hF⟩)) ?_)
    fun ins => ?_
  · intro s hs
    have hst := getInputs_state (env := env) σ p.inputs s
    have hin' := hin s hs
    revert hst hin'
    cases World.getInputs env σ p.inputs s with
    | mk rin sin =>
      intro hst hin'
      simp only at hst
      subst hst
      cases rin with
      | error e => trivial
      | ok ins => exact ⟨hs, hin' ins _ rfl⟩
  · refine PTri.lift_bind fun df hcd => ?_
    obtain ⟨deps, ifps⟩ := df
    refine PTri.base (R' := fun s s' => J E env gs s s' ) ?_ fun s hs => hs.1.rebase
    rintro s0 hs0L ⟨hj0, xs, hx1, hx2, hx3⟩
    subst hx2
    obtain ⟨rs, h1, rfl, h3, h4, h5, h6, h7⟩ := computeDependencies_spec hd hm hcd
    have hnd := evalProducer_nodup h1
    have hrne : rs ≠ [] := by simpa using h3
    refine PTri.bind hI (PTri.log Stable.j fun s l => rfl) fun _ => ?_
    refine PTri.base (R' := fun s s' => J E env gs s s') ?_ fun s hs => hs.1.rebase
    rintro s2 hs2L ⟨hj2, s3, hj3, hsub3, hlog3⟩
    have hlog : LogHas env L p rs := by
      intro o ho
      obtain ⟨d, hd1, hd2⟩ := h6 o ho
      refine ⟨⟨p, o.key, o.fp, World.readArgs env s3.files p.inputs d
        (World.cls env p).buildInputs⟩, ?_, rfl, rfl, rfl, ?_⟩
      · refine hlog3 _ (List.mem_filterMap.2 ⟨_, hd1, ?_⟩)
        have hfp : get? (rs.map fun o => (o.key, o.fp)) o.key = some o.fp := by
          refine (mem_iff_get? ?_).1 (List.mem_map.2 ⟨o, ho, rfl⟩)
          simp only [keys, List.map_map]; exact hnd
        simp [hfp]
      · rw [hd2]
        simp only
        rw [readArgs_eq (show XGood _ p.inputs xs from hx3.mono hj3.e.files) (h7 _ _ hd1)]
    have hctx : Ctx E env gs s2 σ r p rs :=
      ⟨hd, hg, by rw [hj2.e.raws, hj0.e.raws]; exact hr, hnd, hlink xs hx1 rs h1 hlog,
        by rw [hs2L]; exact hlog, by rw [hs2L]; exact hn⟩
    refine PTri.bind hI (ptri_discover hI hctx hrne) fun existing => ?_
    refine PTri.base (R' := fun s s' => J E env gs s s') ?_ fun s hs => hs.1.rebase
    rintro s4 hs4L ⟨hj4, hex⟩
    refine (ptri_buildPartitions hI hs4L (hctx.rebase hj4) deps ?_).conseq (fun _ _ => id) ?_
    · intro pk d hmem
      obtain ⟨o, ho, hk, ho2⟩ := h5 pk d hmem
      refine ⟨o, ho, hk, fun files hf => ?_⟩
      rw [ho2, readArgs_eq (show XGood _ p.inputs xs from hx3.mono
        (FSub.trans hj2.e.files (FSub.trans hj4.e.files hf))) (h7 _ _ hmem)]
    · rintro _ s5 _ ⟨hj5, hall⟩
      refine ⟨hj0.base (hj2.base (hj4.base hj5)), xs, rs, hx1, h1, hlog, fun o ho => ?_⟩
      obtain ⟨d, hd1, _⟩ := h6 o ho
      obtain ⟨o', ho', hk', hor⟩ := hall _ _ hd1
      obtain rfl := inj_of_nodup_map hnd ho' ho hk'
      rcases hor with h | h
      · left
        obtain ⟨k', i, pos, k, o2, sn, cc, e1, e2, e3, e4, e5, e6⟩ := hex _ h
        obtain rfl := inj_of_nodup_map hnd e3 ho e4
        exact ⟨pos, k', i, k, sn, cc, e1, e2, e5, linksOf_mono hj5.e e6⟩
      · exact .inr h

end Arti.Par
