import Verif.Lemmas.BuildPdr

/-! Taking a snapshot. -/

namespace Arti.Spec
open PyDict World M
variable {κ D : Type} [DecidableEq κ] {env : Env κ D} {gs : Graph → Prop}
  {E : Snapshot → PyDict Str (Data κ) → Art → PSnap κ → Prop}

/-- Discovery without input fingerprints only finds partitions without one. -/
theorem discover_raw {files : PyDict Str Str} {sto : Sto} {ps : List (PSnap κ)}
    (h : discover env files sto [] = .ok ps) {sn : PSnap κ} (hs : sn ∈ ps) :
    sto.hasFp = false ∧ ∃ c, content files sn.part.loc = some c := by
  have key : ∃ l : List (Option Fp × κ), (∀ x ∈ l, x.1 = none) ∧
      (snapAll env files sto l = .ok ps) := by
    cases sto with
    | file t =>
      simp only [discover, bind, Except.bind] at h
      cases hsc : env.scan t (keys files) with
      | error e => rw [hsc] at h; simp at h
      | ok found =>
        rw [hsc] at h
        refine ⟨_, ?_, h⟩
        intro x hx
        have := (List.mem_filter.1 hx).2
        simp only [get?] at this
        exact (of_decide_eq_true this).symm
    | lit t v =>
      simp only [discover, List.isEmpty_nil, Bool.not_true, Bool.false_and, Bool.false_eq_true,
        ↓reduceIte, Bool.and_true] at h
      split at h
      · simp at h
      · split at h
        · simp only [Except.ok.injEq] at h
          subst h; simp at hs
        · exact ⟨_, by simp, h⟩
  obtain ⟨l, h1, h2⟩ := key
  obtain ⟨fp, pk, c, h3, h4, h5, _⟩ := mem_snapAll h2 hs
  have := h1 _ h3
  simp only at this
  subst this
  exact ⟨(generate_ok h4).2.2.2.1.symm, c, h5⟩

/-- What is known about scanned raw partitions. -/
def Scanned (env : Env κ D) (files : PyDict Str Str) (g : Graph) (k : Str) (ps : List (PSnap κ)) :
    Prop :=
  ∃ i, g.keyOf (.raw i) = some k ∧ discover env files i.sto [] = .ok ps

theorem scanNodes_spec {files : PyDict Str Str} {g : Graph} : ∀ (nodes : List Nd) (fp fp' : Fp)
    (known known' : PyDict Str (List (PSnap κ))),
    scanNodes env files g nodes fp known = .ok (fp', known') →
    (∀ k ps, get? known k = some ps → Scanned env files g k ps) →
    (∀ k ps, get? known' k = some ps → Scanned env files g k ps) ∧
    (∀ k, (∃ ps, get? known k = some ps) → ∃ ps, get? known' k = some ps) ∧
    ((keys known).Nodup → (keys known').Nodup) ∧
    ∀ i, Nd.art (.raw i) ∈ nodes → ∃ k ps, g.keyOf (.raw i) = some k ∧ get? known' k = some ps
  | [], fp, fp', known, known', h, hk => by
    simp only [scanNodes, Except.ok.injEq, Prod.mk.injEq] at h
    obtain ⟨rfl, rfl⟩ := h
    exact ⟨hk, fun _ => id, id, by simp⟩
  | n :: rest, fp, fp', known, known', h, hk => by
    simp only [scanNodes, bind, Except.bind] at h
    cases h1 : fpCombine fp [env.nodeFp n] with
    | error e => rw [h1] at h; simp at h
    | ok fp1 =>
      rw [h1] at h
      simp only at h
      cases n with
      | pdr p =>
        obtain ⟨i1, i2, i3, i4⟩ := scanNodes_spec rest _ _ _ _ h hk
        exact ⟨i1, i2, i3, fun i hi => i4 i (by simpa using hi)⟩
      | art a =>
        simp only at h
        cases hka : g.keyOf a with
        | none => rw [hka] at h; simp at h
        | some key =>
          rw [hka] at h
          simp only at h
          cases h2 : fpCombine fp1 [env.strHash key] with
          | error e => rw [h2] at h; simp at h
          | ok fp2 =>
            rw [h2] at h
            simp only at h
            cases a with
            | made j p pos =>
              obtain ⟨i1, i2, i3, i4⟩ := scanNodes_spec rest _ _ _ _ h hk
              exact ⟨i1, i2, i3, fun i hi => i4 i (by simpa using hi)⟩
            | raw j =>
              simp only [Art.out, Art.info] at h
              cases hd : discover env files j.sto [] with
              | error e => rw [hd] at h; simp at h
              | ok ps =>
                rw [hd] at h
                simp only at h
                split at h
                · simp at h
                · cases h3 : fpCombine fp2 (ps.map env.snapFp) with
                  | error e => rw [h3] at h; simp at h
                  | ok fp3 =>
                    rw [h3] at h
                    simp only at h
                    obtain ⟨i1, i2, i3, i4⟩ := scanNodes_spec rest _ _ _ _ h (by
                      intro k ps' hg
                      rw [get?_set] at hg
                      split at hg
                      · rename_i he
                        subst he
                        simp only [Option.some.injEq] at hg
                        subst hg
                        exact ⟨j, hka, hd⟩
                      · exact hk k ps' hg)
                    refine ⟨i1, ?_, fun hn => i3 (nodup_keys_set _ _ _ hn), ?_⟩
                    · rintro k ⟨ps', hg⟩
                      apply i2
                      rw [get?_set]
                      split
                      · exact ⟨_, rfl⟩
                      · exact ⟨_, hg⟩
                    · intro i hi
                      rcases List.mem_cons.1 hi with heq | hi
                      · simp only [Nd.art.injEq, Art.raw.injEq] at heq
                        subst heq
                        obtain ⟨ps', hg⟩ := i2 key ⟨ps, by rw [get?_set]; simp⟩
                        exact ⟨key, ps', hka, hg⟩
                      · exact i4 i hi

/-- The graph nodes include its artifacts. -/
theorem art_mem_dependencies {g : Graph} {k : Str} {a : Art} (h : (k, a) ∈ g.arts) :
    Nd.art a ∈ keys g.dependencies :=
  List.mem_map.2 ⟨(.art a, Graph.artPreds a), (Graph.mem_dependencies g _ _).2
    (.inl ⟨k, a, h, rfl, rfl⟩), rfl⟩

theorem get?_withContents (files : PyDict Str Str) (known : PyDict Str (List (PSnap κ)))
    (k : Str) : get? (withContents files known) k = (get? known k).map fun ps =>
      ps.filterMap fun sn => (content files sn.part.loc).map fun c => (sn, c) :=
  get?_map_snd _ _ _

variable {s1 : St κ D}

theorem J.other {s : St κ D} (h : J E env gs s1 s) {g : PyDict (Str × Fp) Graph}
    {sn : PyDict (Str × Fp) Snapshot} :
    J E env gs s1 { s with graphs := g, snapshots := sn } :=
  ⟨⟨h.w.files, h.w.store⟩, ⟨h.l.nodup, h.l.ok⟩,
    ⟨h.e.files, h.e.storage, h.e.links, h.e.invs, h.e.raws⟩⟩

theorem tri_writeGraph (g : Graph) :
    Tri (J E env gs s1) (writeGraph env g) (fun _ => J E env gs s1) (J E env gs s1) :=
  Tri.effect (fun _ h => J.other h) (fun _ n h => h.budget n) (fun _ h => h)

theorem tri_writeSnapshot (σ : Snapshot) :
    Tri (J E env gs s1) (writeSnapshot env σ) (fun _ => J E env gs s1) (J E env gs s1) :=
  Tri.effect (fun _ h => J.other h) (fun _ n h => h.budget n) (fun _ h => h)

theorem tri_linkAll (hE : RawRel E) (hd : Disciplined env gs) {σ : Snapshot} {r : PyDict Str (Data κ)}
    (hg : gs σ.graph)
    (known : PyDict Str (List (PSnap κ))) (hr : (σ, r) ∈ s1.raws)
    (hk : ∀ k ps, (k, ps) ∈ known → ∃ i, σ.graph.keyOf (.raw i) = some k ∧
      ∀ sn ∈ ps, i.sto.hasFp = false ∧ ∃ c, (sn, c) ∈ rawOf σ r i) :
    Tri (J E env gs s1) (linkAll σ known) (fun _ s => J E env gs s1 s ∧
      ∀ k ps, (k, ps) ∈ known → ∀ sn ∈ ps, sn ∈ linksOf s σ k) (J E env gs s1) := by
  induction known generalizing s1 with
  | nil => exact Tri.pure fun s hs => ⟨hs, by simp⟩
  | cons x known ih =>
    obtain ⟨k, ps⟩ := x
    obtain ⟨i, hki, hrw⟩ := hk k ps (by simp)
    unfold linkAll
    refine Tri.need_bind ?_ (fun _ h => h)
    intro a ha
    have : a = .raw i := by
      rw [Graph.artAt_of_keyOf (hd.keys _ hg) hki] at ha
      exact (Option.some.inj ha).symm
    subst this
    refine Tri.bind (Q := fun _ s => J E env gs s1 s ∧ ∀ sn ∈ ps, sn ∈ linksOf s σ k) ?_ ?_
    · refine Tri.bind (tri_addStorage (s1 := s1) fun s hs => ⟨hs, ?_⟩) ?_
      · rintro ⟨j, p, pos, hm, hj⟩ sn hsn
        have h1 := (hrw sn hsn).1
        have h2 := hd.hasFp j p pos hm
        rw [hj] at h2
        simp [Art.info, h1] at h2
      · rintro ⟨⟩
        refine (tri_addLinks fun s hs => ⟨hs.1, ?_⟩)
        intro a ha sn hsn
        have : a = .raw i := Graph.keyOf_inj (hd.keys _ hg) ha hki
        subst this
        exact ⟨hs.2.2 sn hsn, r, by rw [hs.1.e.raws]; exact hr, (hE σ r i sn).2 (hrw sn hsn).2⟩
    · rintro ⟨⟩
      apply Tri.of_state
      rintro s ⟨hs, hl⟩
      refine (ih (s1 := s) (by rw [hs.e.raws]; exact hr)
        fun k' ps' hm => hk k' ps' (List.mem_cons_of_mem _ hm)).conseq
        (by rintro s' rfl; exact hs.rebase) ?_ (fun s' h => hs.base h)
      rintro _ s' ⟨h1, h2⟩
      refine ⟨hs.base h1, ?_⟩
      intro k' ps' hm sn hsn
      rcases List.mem_cons.1 hm with heq | hm
      · simp only [Prod.mk.injEq] at heq
        obtain ⟨rfl, rfl⟩ := heq
        exact linksOf_mono h1.e (hl sn hsn)
      · exact h2 k' ps' hm sn hsn

theorem LInv.addRaws {s : St κ D} (hl : LInv E s)
    (l : List (Snapshot × PyDict Str (Data κ))) :
    LInv E { s with raws := s.raws ++ l } := by
  refine ⟨hl.nodup, fun σ k ss hss a ha sn hsn => ?_⟩
  obtain ⟨h1, r, h2, h3⟩ := hl.ok σ k ss hss a ha sn hsn
  exact ⟨h1, r, List.mem_append.2 (.inl h2), h3⟩

/-- What taking a snapshot does, whatever its result. -/
theorem fromGraph_spec (hE : RawRel E) (hd : Disciplined env gs) {s s' : St κ D}
    {res : Except Err Snapshot} {g : Graph} (hg : gs g) (hw : WInv env gs s) (hl : LInv E s)
    (hrun : fromGraph env g s = (res, s')) :
    WInv env gs s' ∧ LInv E s' ∧ FSub s.files s'.files ∧ s'.invs = s.invs ∧
    (∀ x ∈ s.raws, x ∈ s'.raws) ∧
    ∀ σ, res = .ok σ → σ.graph = g ∧ ∃ r, (σ, r) ∈ s'.raws ∧
      (∀ i, rawOf σ r i = rawNow env g s.files i) ∧
      (SnapUnique s'.raws → ∀ k i, (k, Art.raw i) ∈ g.arts →
        Full env s' σ (rawOf σ r) (.raw i)) := by
  unfold fromGraph at hrun
  simp only [run_bind, run_gets, run_lift] at hrun
  cases hsc : scanNodes env s.files g (keys g.dependencies) (env.graphFp g) [] with
  | error e =>
    rw [hsc] at hrun
    simp only [Prod.mk.injEq] at hrun
    obtain ⟨rfl, rfl⟩ := hrun
    exact ⟨hw, hl, fun _ _ => id, rfl, fun _ => id, by simp⟩
  | ok out =>
    obtain ⟨fp, known⟩ := out
    rw [hsc] at hrun
    simp only [run_ghost] at hrun
    obtain ⟨k1, -, k3, k4⟩ := scanNodes_spec _ _ _ _ _ hsc (by simp [get?])
    have hnd := k3 (by simp [keys])
    generalize hσ : (⟨fp, g⟩ : Snapshot) = σ at hrun
    have hσg : σ.graph = g := by rw [← hσ]
    generalize hr : withContents s.files known = r at hrun
    generalize hs1 : ({ s with raws := s.raws ++ [(σ, r)] } : St κ D) = s1 at hrun
    have hr1 : (σ, r) ∈ s1.raws := by rw [← hs1]; simp
    have hraw : ∀ i, rawOf σ r i = rawNow env g s.files i := by
      intro i
      unfold rawOf rawNow
      rw [hσg]
      cases hk : g.keyOf (.raw i) with
      | none =>
        rw [if_neg]
        intro hany
        obtain ⟨⟨k, a⟩, hm, ha⟩ := List.any_eq_true.1 hany
        simp only [decide_eq_true_eq] at ha
        subst ha
        obtain ⟨k', hk'⟩ := Graph.keyOf_of_mem hm
        simp [hk'] at hk
      | some k =>
        have hm := Graph.keyOf_mem hk
        rw [if_pos (List.any_eq_true.2 ⟨_, hm, by simp⟩)]
        obtain ⟨k', ps, h1, h2⟩ := k4 i (art_mem_dependencies hm)
        rw [hk] at h1
        simp only [Option.some.injEq] at h1
        subst h1
        obtain ⟨j, h3, h4⟩ := k1 _ _ h2
        have := Graph.keyOf_inj (hd.keys _ hg) hk h3
        simp only [Art.raw.injEq] at this
        subst this
        simp only [h4, ← hr, get?_withContents, h2, Option.map_some, Option.getD_some]
    have hscan : ∀ k ps, (k, ps) ∈ known → ∃ i, σ.graph.keyOf (.raw i) = some k ∧
        discover env s.files i.sto [] = .ok ps ∧ ∀ sn ∈ ps, ∃ c, (sn, c) ∈ rawOf σ r i := by
      intro k ps hm
      obtain ⟨i, h1, h2⟩ := k1 k ps ((mem_iff_get? hnd).1 hm)
      refine ⟨i, by rw [hσg]; exact h1, h2, ?_⟩
      intro sn hsn
      obtain ⟨_, c, hc⟩ := discover_raw h2 hsn
      refine ⟨c, ?_⟩
      rw [hraw i]
      unfold rawNow
      rw [if_pos (List.any_eq_true.2 ⟨_, Graph.keyOf_mem h1, by simp⟩), h2]
      refine mem_ofItems_of_unique ?_ ?_
      · exact List.mem_filterMap.2 ⟨sn, hsn, by rw [hc]; rfl⟩
      · intro c' hc'
        obtain ⟨sn', _, he⟩ := List.mem_filterMap.1 hc'
        cases hcc : content s.files sn'.part.loc with
        | none => rw [hcc] at he; simp at he
        | some c2 =>
          rw [hcc] at he
          simp only [Option.map_some, Option.some.injEq, Prod.mk.injEq] at he
          obtain ⟨rfl, rfl⟩ := he
          rw [hc] at hcc
          exact (Option.some.inj hcc).symm
    have hj1 : J E env gs s1 s1 := by
      refine ⟨?_, ?_, Ext.refl _⟩
      · rw [← hs1]; exact ⟨hw.files, hw.store⟩
      · rw [← hs1]
        exact hl.addRaws _
    have tri : Tri (J E env gs s1) (do
        writeGraph env g; writeSnapshot env σ; linkAll σ known; return σ)
        (fun σ' s => J E env gs s1 s ∧ σ' = σ ∧
          ∀ k ps, (k, ps) ∈ known → ∀ sn ∈ ps, sn ∈ linksOf s σ k) (J E env gs s1) := by
      refine Tri.bind (tri_writeGraph g) fun _ => ?_
      refine Tri.bind (tri_writeSnapshot σ) fun _ => ?_
      refine Tri.bind (tri_linkAll hE hd (by rw [hσg]; exact hg) known hr1
        fun k ps hm => (hscan k ps hm).imp fun i h =>
          ⟨h.1, fun sn hsn => ⟨(discover_raw h.2.1 hsn).1, h.2.2 sn hsn⟩⟩) fun _ => ?_
      exact Tri.pure fun s h => ⟨h.1, rfl, h.2⟩
    have hfin := tri s1 hj1
    have hrun' : (do writeGraph env g; writeSnapshot env σ; linkAll σ known; return σ :
        M κ D Snapshot) s1 = (res, s') := hrun
    rw [hrun'] at hfin
    have hj : J E env gs s1 s' := by
      cases res with
      | ok σ' => exact hfin.1
      | error e => exact hfin
    refine ⟨hj.w, hj.l, ?_, ?_, ?_, ?_⟩
    · have := hj.e.files; rw [← hs1] at this; exact this
    · rw [hj.e.invs, ← hs1]
    · rw [hj.e.raws, ← hs1]; exact fun x hx => List.mem_append.2 (.inl hx)
    · intro σ' hres
      subst hres
      obtain ⟨_, rfl, hlinks⟩ := hfin
      refine ⟨hσg, r, by rw [hj.e.raws]; exact hr1, hraw, ?_⟩
      intro hu k i hki
      obtain ⟨k', ps, h1, h2⟩ := k4 i (art_mem_dependencies hki)
      have h2' := get?_mem h2
      obtain ⟨j, h3, h4, h5⟩ := hscan _ _ h2'
      have := Graph.keyOf_inj (hd.keys _ hg) h1 (hσg ▸ h3)
      simp only [Art.raw.injEq] at this
      subst this
      have hmem : ∀ x, x ∈ rawOf σ' r i → x.1 ∈ ps ∧ content s.files x.1.part.loc = some x.2 := by
        intro x hx
        rw [hraw i] at hx
        unfold rawNow at hx
        rw [if_pos (List.any_eq_true.2 ⟨_, hki, by simp⟩), h4] at hx
        obtain ⟨sn, hsn, he⟩ := List.mem_filterMap.1 (mem_of_mem_ofItems hx)
        cases hcc : content s.files sn.part.loc with
        | none => rw [hcc] at he; simp at he
        | some c2 =>
          rw [hcc] at he
          obtain ⟨x1, x2⟩ := x
          simp only [Option.map_some, Option.some.injEq, Prod.mk.injEq] at he
          obtain ⟨rfl, rfl⟩ := he
          exact ⟨hsn, hcc⟩
      refine ⟨k', rawOf σ' r i, h3, rfl, (hu.rawEq (by rw [hj.e.raws]; exact hr1)
        (by rw [hj.e.raws]; exact hr1) i).1, ?_, ?_⟩
      · intro sn
        constructor
        · intro hsn
          unfold linksOf at hsn
          cases hgl : get? s'.links (σ', k') with
          | none => rw [hgl] at hsn; simp at hsn
          | some ss =>
            rw [hgl] at hsn
            obtain ⟨_, r', hr', hc⟩ := hj.l.ok σ' k' ss hgl _ h3 sn hsn
            obtain ⟨c, hc⟩ := (hE _ _ _ _).1 hc
            have := (hu σ' r' r hr' (by rw [hj.e.raws]; exact hr1) i _).1 hc
            exact List.mem_map.2 ⟨_, this, rfl⟩
        · intro hsn
          obtain ⟨x, hx, rfl⟩ := List.mem_map.1 hsn
          exact hlinks _ _ h2' _ (hmem x hx).1
      · intro x hx
        have hf : FSub s.files s'.files := by
          have := hj.e.files; rw [← hs1] at this; exact this
        exact hf.content (hmem x hx).2

end Arti.Spec
