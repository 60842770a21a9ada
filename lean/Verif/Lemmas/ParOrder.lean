import Verif.Lemmas.ParPdr
import Verif.Lemmas.Sound

/-! Building a graph while others add files. -/

namespace Arti.Par
open PyDict Spec Prog
variable {κ D α : Type} [DecidableEq κ] {env : Env κ D} {gs : Graph → Prop}
  {L : List (Inv κ D)} {I : PyDict Str Str → Prop}
  {E : Snapshot → PyDict Str (Data κ) → Art → PSnap κ → Prop}

/-- Data that is there stays there when others act. -/
theorem Full_sub {s : St κ D} {F : PyDict Str Str} (hF : FSub s.files F) {σ : Snapshot}
    {ρ : ArtInfo → Data κ} {a : Art} (h : Full env s σ ρ a) :
    Full env { s with files := F } σ ρ a := by
  obtain ⟨k, ℓ, h1, h2, h3, h4, h5⟩ := h
  exact ⟨k, ℓ, h1, h2, h3, h4, fun x hx => hF.content (h5 x hx)⟩

variable (hI : ∀ F F', I F → Adds env gs F F' → I F')
include hI

/-- One producer with one output. -/
theorem ptri_producer_full (hd : Disciplined env gs) {s1 : St κ D} (hl1 : s1.invs = L)
    (hn : NoClash env gs L) {σ : Snapshot} {r : PyDict Str (Data κ)} {p : Pdr} (hg : gs σ.graph)
    (hso : SingleOutput env σ.graph) (hr : (σ, r) ∈ s1.raws) (hu : SnapUnique s1.raws)
    (hin : ∀ n a, (n, a) ∈ p.inputs → ∀ k, σ.graph.keyOf a = some k →
      Full env s1 σ (rawOf σ r) a)
    {k0 : Str} {i0 : ArtInfo} {pos0 : Nat} (hm0 : (k0, Art.made i0 p pos0) ∈ σ.graph.arts) :
    PTri env gs L I (J (LinkEval env) env gs s1) (buildProducer env .whole σ p)
      (fun _ s => J (LinkEval env) env gs s1 s ∧ ∀ k i pos, (k, Art.made i p pos) ∈ σ.graph.arts →
        Full env s σ (rawOf σ r) (.made i p pos)) := by
  obtain ⟨c, v, inp⟩ := p
  refine (ptri_buildProducer hI (X := fun xs => evalIns env (rawOf σ r) inp = .ok xs) hd hl1 hn hg hr
    ?_ ?_ hm0).conseq (fun _ _ => id) ?_
  · intro s hj ins s2 hgi
    refine getInputs_spec hd.iter hj.l inp (fun n a ha k hk => ?_) ins s2 hgi
    exact (hin n a ha k hk).mono hd.iter hj.l (by rw [hj.e.raws]; exact hr)
      (by rw [hj.e.raws]; exact hu) hj.e.grow
  · intro xs hx rs h1 _ i pos o ho sn cc hp
    exact ⟨rs, by simp [evalPdr, hx, h1, bind, Except.bind], o, ho, cc, hp⟩
  · rintro _ s hsL ⟨hj, xs, rs, hx, h1, hlog, hall⟩
    refine ⟨hj, fun k i pos hm => ?_⟩
    refine full_made hd hg hj.w hj.l (by rw [hj.e.raws]; exact hr) (by rw [hj.e.raws]; exact hu)
      (by rw [hsL]; exact hn) (rs := rs) ?_ (by rw [hsL]; exact hlog) hall hso hm
    simp [evalPdr, hx, h1, bind, Except.bind]

/-- The producers of a schedule, each with one output. -/
theorem ptri_order_full (hd : Disciplined env gs) (hn : NoClash env gs L) {σ : Snapshot}
    {r : PyDict Str (Data κ)} (hg : gs σ.graph) (hso : SingleOutput env σ.graph) :
    ∀ (nodes done : List Nd) (s1 : St κ D), s1.invs = L → Sched σ.graph done nodes →
    (σ, r) ∈ s1.raws → SnapUnique s1.raws →
    (∀ k i, (k, Art.raw i) ∈ σ.graph.arts → Full env s1 σ (rawOf σ r) (.raw i)) →
    (∀ k i p pos, (k, Art.made i p pos) ∈ σ.graph.arts → Nd.pdr p ∈ done →
      Full env s1 σ (rawOf σ r) (.made i p pos)) →
    PTri env gs L I (J (LinkEval env) env gs s1) (buildOrder env .whole σ nodes) (fun _ s =>
      J (LinkEval env) env gs s1 s ∧
      (∀ k i, (k, Art.raw i) ∈ σ.graph.arts → Full env s σ (rawOf σ r) (.raw i)) ∧
      ∀ k i p pos, (k, Art.made i p pos) ∈ σ.graph.arts → Nd.pdr p ∈ done ++ nodes →
        Full env s σ (rawOf σ r) (.made i p pos))
  | [], done, s1, hl1, _, hr, hu, hraw, hmade => by
    have hgrow : ∀ {s : St κ D} {a : Art}, J (LinkEval env) env gs s1 s →
        Full env s1 σ (rawOf σ r) a → Full env s σ (rawOf σ r) a := fun hj h =>
      h.mono hd.iter hj.l (by rw [hj.e.raws]; exact hr) (by rw [hj.e.raws]; exact hu) hj.e.grow
    refine PTri.pure (Stable.j.and (.sub fun s F hF ⟨h1, h2⟩ => ⟨fun k i h => Full_sub hF (h1 k i h),
      fun k i p pos h h' => Full_sub hF (h2 k i p pos h h')⟩)) fun s _ hj => ⟨hj, fun k i h =>
        hgrow hj (hraw k i h), fun k i p pos h h' =>
        hgrow hj (hmade k i p pos h (by simpa using h'))⟩
  | .art x :: rest, done, s1, hl1, hsch, hr, hu, hraw, hmade => by
    unfold buildOrder
    refine (ptri_order_full hd hn hg hso rest done s1 hl1 hsch hr hu hraw hmade).conseq
      (fun _ _ => id) fun _ s _ ⟨h1, h2, h3⟩ => ⟨h1, h2, fun k i p pos hm hp =>
        h3 k i p pos hm (by simpa using hp)⟩
  | .pdr p :: rest, done, s1, hl1, hsch, hr, hu, hraw, hmade => by
    obtain ⟨⟨k0, i0, pos0, hm0⟩, hins, hrest⟩ := hsch
    unfold buildOrder
    have hin : ∀ n a, (n, a) ∈ p.inputs → ∀ k, σ.graph.keyOf a = some k →
        Full env s1 σ (rawOf σ r) a := by
      intro n a ha k hk
      have hmem := Graph.keyOf_mem hk
      cases a with
      | raw i => exact hraw k i hmem
      | made j q qpos => exact hmade k j q qpos hmem (hins n j q qpos ha ⟨k, hmem⟩)
    refine PTri.bind hI (ptri_producer_full hI hd hl1 hn hg hso hr hu hin hm0) fun _ => ?_
    refine PTri.base (R' := fun s => J (LinkEval env) env gs s) ?_ (fun s hs => hs.1.rebase)
    rintro s hsL ⟨hj, hnew⟩
    have hr2 : (σ, r) ∈ s.raws := by rw [hj.e.raws]; exact hr
    have hu2 : SnapUnique s.raws := by rw [hj.e.raws]; exact hu
    refine (ptri_order_full hd hn hg hso rest (.pdr p :: done) s hsL hrest hr2 hu2
      (fun k i h => (hraw k i h).mono hd.iter hj.l hr2 hu2 hj.e.grow) ?_).conseq
      (fun _ _ => id) ?_
    · intro k i q pos hm hq
      rcases List.mem_cons.1 hq with heq | hq
      · simp only [Nd.pdr.injEq] at heq
        subst heq
        exact hnew k i pos hm
      · exact (hmade k i q pos hm hq).mono hd.iter hj.l hr2 hu2 hj.e.grow
    · rintro _ s' _ ⟨h1, h2, h3⟩
      refine ⟨hj.base h1, h2, fun k i q pos hm hq => h3 k i q pos hm ?_⟩
      simp only [List.cons_append, List.mem_append, List.mem_cons] at hq ⊢
      tauto

/-- Building a snapshot whose raw partitions are linked, if producers have one output. -/
theorem ptri_build_full (hd : Disciplined env gs) (hn : NoClash env gs L) {σ : Snapshot}
    {r : PyDict Str (Data κ)} (hg : gs σ.graph) (hso : SingleOutput env σ.graph) {s1 : St κ D}
    (hl1 : s1.invs = L) (hr : (σ, r) ∈ s1.raws) (hu : SnapUnique s1.raws)
    (hraw : ∀ k i, (k, Art.raw i) ∈ σ.graph.arts → Full env s1 σ (rawOf σ r) (.raw i)) :
    PTri env gs L I (J (LinkEval env) env gs s1) (build env .whole σ) (fun _ s =>
      J (LinkEval env) env gs s1 s ∧
      ∀ k a, (k, a) ∈ σ.graph.arts → Full env s σ (rawOf σ r) a) := by
  unfold build
  refine PTri.lift_bind fun order ho => ?_
  refine (ptri_order_full hI hd hn hg hso order [] s1 hl1
    (sched_static ho fun p hp => (pdr_mem_order ho p).1 hp) hr hu hraw (by simp)).conseq
    (fun _ _ => id) ?_
  rintro _ s _ ⟨h1, h2, h3⟩
  refine ⟨h1, fun k a ha => ?_⟩
  cases a with
  | raw i => exact h2 k i ha
  | made i p pos =>
    exact h3 k i p pos ha (by simpa using (pdr_mem_order ho p).2 ⟨k, i, pos, ha⟩)

/-- The producers of a schedule, with any number of outputs. -/
theorem ptri_order (hd : Disciplined env gs) (hn : NoClash env gs L) {σ : Snapshot}
    {r : PyDict Str (Data κ)} (hg : gs σ.graph) :
    ∀ (nodes : List Nd) (s1 : St κ D), s1.invs = L →
    (∀ p, Nd.pdr p ∈ nodes → ∃ k i pos, (k, Art.made i p pos) ∈ σ.graph.arts) →
    (σ, r) ∈ s1.raws → SnapUnique s1.raws →
    (∀ k i, (k, Art.raw i) ∈ σ.graph.arts → Full env s1 σ (rawOf σ r) (.raw i)) →
    PTri env gs L I (J (LinkLog L) env gs s1) (buildOrder env .whole σ nodes) (fun _ s =>
      J (LinkLog L) env gs s1 s)
  | [], s1, hl1, _, hr, hu, hraw => PTri.pure Stable.j fun s _ hj => hj
  | .art x :: rest, s1, hl1, hin, hr, hu, hraw => by
    unfold buildOrder
    exact ptri_order hd hn hg rest s1 hl1 (fun p hp => hin p (by simp [hp])) hr hu hraw
  | .pdr p :: rest, s1, hl1, hin, hr, hu, hraw => by
    obtain ⟨k0, i0, pos0, hm0⟩ := hin p (by simp)
    have hmono : ∀ s, J (LinkLog L) env gs s1 s → (σ, r) ∈ s.raws ∧ SnapUnique s.raws ∧
        ∀ k i, (k, Art.raw i) ∈ σ.graph.arts → Full env s σ (rawOf σ r) (.raw i) := fun s hj => by
      have hr2 : (σ, r) ∈ s.raws := by rw [hj.e.raws]; exact hr
      have hu2 : SnapUnique s.raws := by rw [hj.e.raws]; exact hu
      exact ⟨hr2, hu2, fun k i h => (hraw k i h).mono_raw (rawRel_linkLog L) hj.l hr2 hu2 hj.e.grow⟩
    unfold buildOrder
    refine PTri.bind hI (ptri_buildProducer hI (X := fun _ => True) hd hl1 hn hg hr ?_ ?_ hm0)
      fun _ => ?_
    · intro s hj ins s2 hgi
      obtain ⟨xs, h1, h2⟩ := getInputs_data hj.l
        (fun a k hk sn hsn => linked_content hj.w hj.l hg (hmono s hj).2.2 hk hsn) p.inputs ins s2 hgi
      exact ⟨xs, trivial, h1, h2⟩
    · intro _ _ _ _ hlg _ _ o ho sn c hp
      obtain ⟨e, he, e1, e2, e3, -⟩ := hlg o ho
      obtain ⟨p1, p2, -⟩ := place_key hp
      exact ⟨e, he, e1, e2.trans p1.symm, p2.trans (by rw [e3])⟩
    · refine PTri.base (R' := fun s => J (LinkLog L) env gs s) ?_ (fun s hs => hs.1.rebase)
      rintro s hsL ⟨hj, -⟩
      obtain ⟨h1, h2, h3⟩ := hmono s hj
      exact (ptri_order hd hn hg rest s hsL (fun p hp => hin p (by simp [hp])) h1 h2 h3).conseq
        (fun _ _ => id) fun _ s' _ h => hj.base h

theorem ptri_build (hd : Disciplined env gs) (hn : NoClash env gs L) {σ : Snapshot}
    {r : PyDict Str (Data κ)} (hg : gs σ.graph) {s1 : St κ D}
    (hl1 : s1.invs = L) (hr : (σ, r) ∈ s1.raws) (hu : SnapUnique s1.raws)
    (hraw : ∀ k i, (k, Art.raw i) ∈ σ.graph.arts → Full env s1 σ (rawOf σ r) (.raw i)) :
    PTri env gs L I (J (LinkLog L) env gs s1) (build env .whole σ) (fun _ s =>
      J (LinkLog L) env gs s1 s) := by
  unfold build
  refine PTri.lift_bind fun order ho => ?_
  exact ptri_order hI hd hn hg order s1 hl1 (fun p hp => (pdr_mem_order ho p).1 hp) hr hu hraw

/-! ## Taking a snapshot -/

omit hI in
/-- What is known about scanned raw partitions. -/
def ScannedP (env : Env κ D) (I : PyDict Str Str → Prop) (files : PyDict Str Str) (sto : Sto)
    (ps : List (PSnap κ)) : Prop :=
  ∃ F, I F ∧ FSub F files ∧ discoverFrom env (keys F) files sto [] = .ok ps

omit hI in
theorem ScannedP.mono {F F' : PyDict Str Str} (hF : FSub F F') {sto : Sto} {ps : List (PSnap κ)}
    (h : ScannedP env I F sto ps) : ScannedP env I F' sto ps := by
  obtain ⟨F0, h1, h2, h3⟩ := h
  exact ⟨F0, h1, FSub.trans h2 hF, discoverFrom_mono hF h3⟩

omit hI in
theorem discoverFrom_raw {names : List Str} {files : PyDict Str Str} {sto : Sto}
    {ps : List (PSnap κ)} (h : discoverFrom env names files sto [] = .ok ps) {sn : PSnap κ}
    (hs : sn ∈ ps) : sto.hasFp = false ∧ ∃ c, World.content files sn.part.loc = some c := by
  cases sto with
  | lit t v => exact discover_raw (files := files) (sto := .lit t v) (env := env) h hs
  | file t =>
    simp only [discoverFrom, bind, Except.bind] at h
    cases hsc : env.scan t names with
    | error e => rw [hsc] at h; simp at h
    | ok found =>
      rw [hsc] at h
      obtain ⟨fp, pk, c, h3, h4, h5, _⟩ := World.mem_snapAll h hs
      have := (List.mem_filter.1 h3).2
      simp only [get?] at this
      have := (of_decide_eq_true this).symm
      subst this
      exact ⟨(World.generate_ok h4).2.2.2.1.symm, c, h5⟩

theorem ptri_scanNodes {P : St κ D → Prop} (hP : Stable env gs L I P) {g : Graph} :
    ∀ (nodes : List Nd) (fp : Fp) (known : PyDict Str (List (PSnap κ))),
    PTri env gs L I (fun s => P s ∧ ∀ k ps, get? known k = some ps →
        ∃ i, g.keyOf (.raw i) = some k ∧ ScannedP env I s.files i.sto ps)
      (scanNodes env g nodes fp known) (fun out s => P s ∧
        (∀ k ps, get? out.2 k = some ps →
          ∃ i, g.keyOf (.raw i) = some k ∧ ScannedP env I s.files i.sto ps) ∧
        (∀ k, (∃ ps, get? known k = some ps) → ∃ ps, get? out.2 k = some ps) ∧
        ((keys known).Nodup → (keys out.2).Nodup) ∧
        ∀ i, Nd.art (.raw i) ∈ nodes → ∃ k ps, g.keyOf (.raw i) = some k ∧
          get? out.2 k = some ps) := by
  have hst : ∀ known : PyDict Str (List (PSnap κ)), Stable env gs L I (fun s : St κ D =>
      ∀ k ps, get? known k = some ps →
        ∃ i, g.keyOf (.raw i) = some k ∧ ScannedP env I s.files i.sto ps) := fun known =>
    .sub fun s F hF h k ps hg => by
      obtain ⟨i, h1, h2⟩ := h k ps hg
      exact ⟨i, h1, h2.mono hF⟩
  intro nodes
  induction nodes with
  | nil =>
    intro fp known
    exact PTri.pure (hP.and ((hst known).and (.const fun _ _ h => h))) fun s _ h =>
      ⟨h.1, h.2, fun _ => id, id, by simp⟩
  | cons n rest ih =>
    intro fp known
    unfold scanNodes
    refine PTri.lift_bind fun fp1 _ => ?_
    cases n with
    | pdr p =>
      simp only
      exact (ih fp1 known).conseq (fun _ _ => id) fun out s _ ⟨i0, i1, i2, i3, i4⟩ =>
        ⟨i0, i1, i2, i3, fun i hi => i4 i (by simpa using hi)⟩
    | art a =>
      simp only
      refine PTri.need_bind fun key hka => PTri.lift_bind fun fp2 _ => ?_
      cases a with
      | made j p pos =>
        simp only [Art.out]
        exact (ih fp2 known).conseq (fun _ _ => id) fun out s _ ⟨i0, i1, i2, i3, i4⟩ =>
          ⟨i0, i1, i2, i3, fun i hi => i4 i (by simpa using hi)⟩
      | raw j =>
        simp only [Art.out, Art.info]
        refine PTri.bind hI (ptri_discover_sto hI (hP.and (hst known)) j.sto []) fun ps => ?_
        cases hpe : ps.isEmpty with
        | true =>
          simp only [↓reduceIte]
          refine PTri.lift (fun _ => ?_) (fun a ha => by cases ha)
          exact hP.and ((hst _).and (.const fun _ _ h => h))
        | false =>
          simp only [Bool.false_eq_true, ↓reduceIte]
          refine PTri.lift_bind fun fp3 _ => ?_
          refine (ih fp3 (PyDict.set known key ps)).conseq ?_ ?_
          · rintro s _ ⟨⟨h1, h2⟩, h3⟩
            refine ⟨h1, fun k ps' hg => ?_⟩
            rw [get?_set] at hg
            split at hg
            · rename_i he
              subst he
              simp only [Option.some.injEq] at hg
              subst hg
              exact ⟨j, hka, h3⟩
            · exact h2 k ps' hg
          · rintro out s _ ⟨i0, i1, i2, i3, i4⟩
            refine ⟨i0, i1, ?_, fun hn => i3 (nodup_keys_set _ _ _ hn), ?_⟩
            · rintro k ⟨ps', hg⟩
              apply i2
              rw [get?_set]
              split
              · exact ⟨_, rfl⟩
              · exact ⟨_, hg⟩
            · intro i hi
              rcases List.mem_cons.1 hi with heq | hi
              · simp only [Nd.art.injEq, Art.raw.injEq] at heq
                subst heq
                obtain ⟨ps', hg⟩ := i2 key ⟨ps, by rw [get?_set]; simp⟩
                exact ⟨key, ps', hka, hg⟩
              · exact i4 i hi

omit hI in
/-- The raw data recorded for a snapshot is what was discovered. -/
def RawSeen (env : Env κ D) (I : PyDict Str Str → Prop) (files : PyDict Str Str) (σ : Snapshot)
    (r : PyDict Str (Data κ)) : Prop :=
  ∀ k i, (k, Art.raw i) ∈ σ.graph.arts → ∃ ps, ScannedP env I files i.sto ps ∧
    rawOf σ r i = ofItems (ps.filterMap fun sn =>
      (World.content files sn.part.loc).map fun c => (sn, c))

omit hI in
theorem RawSeen.mono {F F' : PyDict Str Str} (hF : FSub F F') {σ : Snapshot}
    {r : PyDict Str (Data κ)} (h : RawSeen env I F σ r) : RawSeen env I F' σ r := by
  intro k i hm
  obtain ⟨ps, h1, h2⟩ := h k i hm
  refine ⟨ps, h1.mono hF, h2.trans ?_⟩
  congr 1
  refine List.filterMap_congr fun sn hsn => ?_
  obtain ⟨F0, _, _, h3⟩ := h1
  obtain ⟨_, c, hc⟩ := discoverFrom_raw h3 hsn
  rw [hc, hF.content hc]

/-- Taking a snapshot in a new process. -/
theorem ptri_fromGraph (hE : RawRel E) (hd : Disciplined env gs) {g : Graph} (hg : gs g) :
    PTri env gs L I (fun s => WInv env gs s ∧ LInv E s ∧ s.raws = []) (fromGraph env g)
      (fun σ s => WInv env gs s ∧ LInv E s ∧ σ.graph = g ∧ ∃ r, s.raws = [(σ, r)] ∧
        RawSeen env I s.files σ r ∧ ∀ k i, (k, Art.raw i) ∈ g.arts →
          Full env s σ (rawOf σ r) (.raw i)) := by
  have hP : Stable env gs L I (fun s : St κ D => WInv env gs s ∧ LInv E s ∧ s.raws = []) :=
    Stable.winv.and (Stable.linv.and (.const fun _ _ h => h))
  unfold fromGraph
  refine PTri.bind hI ((ptri_scanNodes hI hP (keys g.dependencies) (env.graphFp g) []).conseq
    (fun s _ h => ⟨h, by simp [get?]⟩) (fun _ _ _ => id)) fun out => ?_
  obtain ⟨fp, known⟩ := out
  simp only
  generalize hσ : (⟨fp, g⟩ : Snapshot) = σ
  have hσg : σ.graph = g := by rw [← hσ]
  have hsk : Stable env gs L I (fun s : St κ D => ∀ k ps, get? known k = some ps →
      ∃ i, g.keyOf (.raw i) = some k ∧ ScannedP env I s.files i.sto ps) :=
    .sub fun s F hF h k ps hg => by
      obtain ⟨i, h1, h2⟩ := h k ps hg
      exact ⟨i, h1, h2.mono hF⟩
  have hss : ∀ r, Stable env gs L I (fun s : St κ D => RawSeen env I s.files σ r) := fun r =>
    .sub fun s F hF h => h.mono hF
  -- the raw data is recorded
  let K := (keys known).Nodup ∧ ∀ i, Nd.art (.raw i) ∈ keys g.dependencies → ∃ k ps,
    g.keyOf (.raw i) = some k ∧ get? known k = some ps
  let R (r : PyDict Str (Data κ)) := ∀ k ps, (k, ps) ∈ known → ∃ i,
    σ.graph.keyOf (.raw i) = some k ∧ (∀ sn ∈ ps, i.sto.hasFp = false ∧ ∃ c, (sn, c) ∈ rawOf σ r i) ∧
      (keys (rawOf σ r i)).Nodup ∧ ∀ x ∈ rawOf σ r i, x.1 ∈ ps
  let C (r : PyDict Str (Data κ)) (s : St κ D) := ∀ i, ∀ x ∈ rawOf σ r i,
    World.content s.files x.1.part.loc = some x.2
  have hC : ∀ r, Stable env gs L I (C r) := fun r => .sub fun s F hF h i x hx => hF.content (h i x hx)
  refine PTri.bind hI (Q := fun _ s => K ∧ WInv env gs s ∧ LInv E s ∧ ∃ r, s.raws = [(σ, r)] ∧ R r ∧
      RawSeen env I s.files σ r ∧ C r s)
    (PTri.conseq (P := fun s => (WInv env gs s ∧ LInv E s ∧ s.raws = []) ∧
      (∀ k ps, get? known k = some ps →
        ∃ i, g.keyOf (.raw i) = some k ∧ ScannedP env I s.files i.sto ps) ∧ K)
      (PTri.atom (E := fun _ => True)
      (.ghost (fun _ _ => rfl) fun _ => rfl) (hP.and (hsk.and (.const fun _ _ h => h)))
      (fun _ => ?_) (M.Tri.ghost ?_)) (fun s _ h => ⟨h.1, h.2.1,
        h.2.2.2.1 (by simp [keys]), h.2.2.2.2⟩) (fun _ _ _ => id)) fun _ => ?_
  · exact (Stable.const fun _ _ h => h).and (Stable.winv.and (Stable.linv.and
      (.sub fun s F hF ⟨r, h1, h2, h3, h4⟩ => ⟨r, h1, h2, h3.mono hF,
        fun i x hx => hF.content (h4 i x hx)⟩)))
  · rintro s ⟨⟨hw, hl, hr⟩, hk1, hnd, hk4⟩
    generalize hrr : World.withContents s.files known = r
    have hraw : ∀ k i ps, g.keyOf (.raw i) = some k → get? known k = some ps →
        rawOf σ r i = ofItems (ps.filterMap fun sn =>
          (World.content s.files sn.part.loc).map fun c => (sn, c)) := by
      intro k i ps h1 h2
      unfold rawOf
      rw [hσg, h1]
      simp only [← hrr, get?_withContents, h2, Option.map_some, Option.getD_some]
    have hmem : ∀ (ps : List (PSnap κ)) x, x ∈ ofItems (ps.filterMap fun sn =>
        (World.content s.files sn.part.loc).map fun c => (sn, c)) →
        x.1 ∈ ps ∧ World.content s.files x.1.part.loc = some x.2 := by
      intro ps x hx
      obtain ⟨sn, hsn, he⟩ := List.mem_filterMap.1 (mem_of_mem_ofItems hx)
      cases hcc : World.content s.files sn.part.loc with
      | none => rw [hcc] at he; simp at he
      | some c2 =>
        rw [hcc] at he
        obtain ⟨x1, x2⟩ := x
        simp only [Option.map_some, Option.some.injEq, Prod.mk.injEq] at he
        obtain ⟨rfl, rfl⟩ := he
        exact ⟨hsn, hcc⟩
    refine ⟨⟨hnd, hk4⟩, ⟨hw.files, hw.store⟩, hl.addRaws _, r, by simp [hr], ?_, ?_, ?_⟩
    · intro k ps hm
      obtain ⟨i, h1, h2⟩ := hk1 k ps ((mem_iff_get? hnd).1 hm)
      have hri := hraw k i ps h1 ((mem_iff_get? hnd).1 hm)
      obtain ⟨F0, _, _, h3⟩ := h2
      refine ⟨i, by rw [hσg]; exact h1, fun sn hsn => ?_, ?_, ?_⟩
      · obtain ⟨h4, c, hc⟩ := discoverFrom_raw h3 hsn
        refine ⟨h4, c, ?_⟩
        rw [hri]
        refine mem_ofItems_of_unique (List.mem_filterMap.2 ⟨sn, hsn, by rw [hc]; rfl⟩) ?_
        intro c' hc'
        have := List.mem_filterMap.1 hc'
        obtain ⟨sn', _, he⟩ := this
        cases hcc : World.content s.files sn'.part.loc with
        | none => rw [hcc] at he; simp at he
        | some c2 =>
          rw [hcc] at he
          simp only [Option.map_some, Option.some.injEq, Prod.mk.injEq] at he
          obtain ⟨rfl, rfl⟩ := he
          rw [hc] at hcc
          exact (Option.some.inj hcc).symm
      · rw [hri]; exact nodup_keys_ofItems _
      · rw [hri]; exact fun x hx => (hmem ps x hx).1
    · intro k i hm
      rw [hσg] at hm
      obtain ⟨k', ps, h1, h2⟩ := hk4 i (art_mem_dependencies hm)
      obtain ⟨j, h3, h4⟩ := hk1 _ _ h2
      have := Graph.keyOf_inj (hd.keys _ hg) h1 h3
      simp only [Art.raw.injEq] at this
      subst this
      exact ⟨ps, h4, hraw _ _ _ h1 h2⟩
    · intro i x hx
      cases hk : g.keyOf (.raw i) with
      | none => unfold rawOf at hx; rw [hσg, hk] at hx; simp at hx
      | some k =>
        obtain ⟨k', ps, h1, h2⟩ := hk4 i (art_mem_dependencies (Graph.keyOf_mem hk))
        rw [hraw _ _ _ h1 h2] at hx
        exact (hmem ps x hx).2
  · refine PTri.base (R' := fun s s' => J E env gs s s' ∧ ∃ r, s'.raws = [(σ, r)] ∧
      RawSeen env I s'.files σ r ∧ C r s') ?_ fun s hs => ⟨⟨hs.2.1, hs.2.2.1, Ext.refl _⟩, ?_⟩
    · rintro s1 - ⟨⟨hnd, hk4⟩, -, -, r, hr, hR, -, -⟩
      have hr1 : (σ, r) ∈ s1.raws := by rw [hr]; simp
      have hu : SnapUnique s1.raws := by
        rw [hr]
        intro σ' r1 r2 h1 h2 i x
        simp only [List.mem_singleton, Prod.mk.injEq] at h1 h2
        rw [h1.2, h2.2]
      refine PTri.conseq (P := fun s' => J E env gs s1 s' ∧ RawSeen env I s'.files σ r ∧ C r s')
        (Q := fun σ' s' => (J E env gs s1 s' ∧
          ∀ k ps, (k, ps) ∈ known → ∀ sn ∈ ps, sn ∈ linksOf s' σ k) ∧ σ' = σ ∧
          RawSeen env I s'.files σ r ∧ C r s') ?_ ?_ ?_
      · have hfr : ∀ {β : Type} {m : M κ D β} {Q : β → St κ D → Prop}
            {P : St κ D → Prop}, Calm m → Stable env gs L I P → (∀ b, Stable env gs L I (Q b)) →
            M.Tri P m Q P →
            PTri env gs L I (fun s' => P s' ∧ RawSeen env I s'.files σ r ∧ C r s') (atom m)
              (fun b s' => Q b s' ∧ RawSeen env I s'.files σ r ∧ C r s') := by
          intro β m Q P hc h1 h2 h3
          refine PTri.atom (E := fun _ => True) hc (h1.and ((hss r).and (hC r)))
            (fun b => (h2 b).and ((hss r).and (hC r))) ?_
          rintro s ⟨h4, h5, h6⟩
          have h7 := h3 s h4
          have h8 := hc.files s
          revert h7 h8
          cases m s with
          | mk res s' =>
            intro h7 h8
            simp only at h8
            cases res with
            | error e => trivial
            | ok b =>
              refine ⟨h7, by rw [h8]; exact h5, ?_⟩
              intro i x hx
              rw [h8]
              exact h6 i x hx
        refine PTri.bind hI (hfr (calm_writeGraph env g) .j (fun _ => .j) (tri_writeGraph g))
          fun _ => ?_
        refine PTri.bind hI (hfr (calm_writeSnapshot env σ) .j (fun _ => .j) (tri_writeSnapshot σ))
          fun _ => ?_
        refine PTri.bind hI (hfr (calm_linkAll σ known) .j
          (fun _ => Stable.j.and (.const fun _ _ h => h)) (tri_linkAll hE hd (by rw [hσg]; exact hg)
            known hr1 fun k ps hm => (hR k ps hm).imp fun i h => ⟨h.1, h.2.1⟩)) fun _ => ?_
        exact PTri.pure ((Stable.j.and (.const fun _ _ h => h)).and ((Stable.const fun _ _ h => h).and
          ((hss r).and (hC r)))) fun s _ h => ⟨h.1, rfl, h.2⟩
      · rintro s' _ ⟨hj, r', hr', h1, h2⟩
        have : r' = r := by
          have := hj.e.raws
          rw [hr', hr] at this
          simpa using this
        subst this
        exact ⟨hj, h1, h2⟩
      · rintro σ' s' _ ⟨⟨hj, hl⟩, rfl, h1, h2⟩
        refine ⟨hj.w, hj.l, hσg, r, by rw [hj.e.raws, hr], h1, fun k i hm => ?_⟩
        obtain ⟨k', ps, h3, h4⟩ := hk4 i (art_mem_dependencies hm)
        obtain ⟨j, h5, h6, h7, h8⟩ := hR _ _ (get?_mem h4)
        have := Graph.keyOf_inj (hd.keys _ hg) h3 (hσg ▸ h5)
        simp only [Art.raw.injEq] at this
        subst this
        refine ⟨k', rawOf σ' r i, h5, rfl, h7, fun sn => ⟨fun hsn => ?_, fun hsn => ?_⟩, h2 i⟩
        · exact hj.l.linked_raw (env := env) hE (by rw [hj.e.raws]; exact hr1)
            (by rw [hj.e.raws]; exact hu) h5 rfl hsn
        · obtain ⟨x, hx, rfl⟩ := List.mem_map.1 hsn
          exact hl _ _ (get?_mem h4) _ (h8 x hx)
    · obtain ⟨-, -, -, r, h1, -, h3, h4⟩ := hs
      exact ⟨r, h1, h3, h4⟩

/-! ## Building a graph -/

omit hI in
/-- What is known about a process that built a graph. -/
def Done (env : Env κ D) (gs : Graph → Prop) (L : List (Inv κ D)) (I : PyDict Str Str → Prop)
    (g : Graph) (σ : Snapshot) (s : St κ D) : Prop :=
  WInv env gs s ∧ LInv (LinkLog L) s ∧ σ.graph = g ∧ ∃ r, s.raws = [(σ, r)] ∧
    RawSeen env I s.files σ r ∧ ∀ k i, (k, Art.raw i) ∈ g.arts → Full env s σ (rawOf σ r) (.raw i)

omit hI in
/-- What is known about a process that built a graph of producers with one output. -/
def DoneFull (env : Env κ D) (gs : Graph → Prop) (I : PyDict Str Str → Prop)
    (g : Graph) (σ : Snapshot) (s : St κ D) : Prop :=
  WInv env gs s ∧ LInv (LinkEval env) s ∧ σ.graph = g ∧ ∃ r, s.raws = [(σ, r)] ∧
    RawSeen env I s.files σ r ∧ ∀ k a, (k, a) ∈ g.arts → Full env s σ (rawOf σ r) a

theorem ptri_graphBuild (hd : Disciplined env gs) (hn : NoClash env gs L) {g : Graph} (hg : gs g) :
    PTri env gs L I (fun s => WInv env gs s ∧ LInv (LinkLog L) s ∧ s.raws = [])
      (graphBuild env .whole g) (Done env gs L I g) := by
  unfold graphBuild
  refine PTri.bind hI (ptri_fromGraph hI (rawRel_linkLog L) hd hg) fun σ => ?_
  refine PTri.base (R' := fun s s' => J (LinkLog L) env gs s s') ?_ fun s hs =>
    ⟨hs.1, hs.2.1, Ext.refl _⟩
  rintro s1 hs1L ⟨-, -, rfl, r, hr, hseen, hraw⟩
  have hr1 : (σ, r) ∈ s1.raws := by rw [hr]; simp
  have hu : SnapUnique s1.raws := by
    rw [hr]
    intro σ' r1 r2 h1 h2 i x
    simp only [List.mem_singleton, Prod.mk.injEq] at h1 h2
    rw [h1.2, h2.2]
  refine PTri.bind hI (ptri_build hI hd hn hg hs1L hr1 hu hraw) fun _ => ?_
  refine PTri.conseq (Q := fun σ' s => J (LinkLog L) env gs s1 s ∧ σ' = σ)
    (PTri.pure (Stable.j.and (.const fun _ _ h => h)) fun s _ h => ⟨h, rfl⟩) (fun _ _ => id) ?_
  rintro _ s - ⟨hj, rfl⟩
  exact ⟨hj.w, hj.l, rfl, r, by rw [hj.e.raws, hr], hseen.mono hj.e.files, fun k i hm =>
    (hraw k i hm).mono_raw (rawRel_linkLog L) hj.l (by rw [hj.e.raws]; exact hr1)
      (by rw [hj.e.raws]; exact hu) hj.e.grow⟩

theorem ptri_graphBuild_full (hd : Disciplined env gs) (hn : NoClash env gs L) {g : Graph}
    (hg : gs g) (hso : SingleOutput env g) :
    PTri env gs L I (fun s => WInv env gs s ∧ LInv (LinkEval env) s ∧ s.raws = [])
      (graphBuild env .whole g) (DoneFull env gs I g) := by
  unfold graphBuild
  refine PTri.bind hI (ptri_fromGraph hI rawRel_linkEval hd hg) fun σ => ?_
  refine PTri.base (R' := fun s s' => J (LinkEval env) env gs s s') ?_ fun s hs =>
    ⟨hs.1, hs.2.1, Ext.refl _⟩
  rintro s1 hs1L ⟨-, -, rfl, r, hr, hseen, hraw⟩
  have hr1 : (σ, r) ∈ s1.raws := by rw [hr]; simp
  have hu : SnapUnique s1.raws := by
    rw [hr]
    intro σ' r1 r2 h1 h2 i x
    simp only [List.mem_singleton, Prod.mk.injEq] at h1 h2
    rw [h1.2, h2.2]
  refine PTri.bind hI (ptri_build_full hI hd hn hg hso hs1L hr1 hu hraw) fun _ => ?_
  refine PTri.conseq (Q := fun σ' s => (J (LinkEval env) env gs s1 s ∧
      ∀ k a, (k, a) ∈ σ.graph.arts → Full env s σ (rawOf σ r) a) ∧ σ' = σ)
    (PTri.pure ((Stable.j.and (.sub fun s F hF h k a hm => Full_sub hF (h k a hm))).and
      (.const fun _ _ h => h)) fun s _ h => ⟨h, rfl⟩) (fun _ _ => id) ?_
  rintro _ s - ⟨⟨hj, hf⟩, rfl⟩
  exact ⟨hj.w, hj.l, rfl, r, by rw [hj.e.raws, hr], hseen.mono hj.e.files, hf⟩

end Arti.Par
