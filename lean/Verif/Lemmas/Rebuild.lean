import Verif.Lemmas.Local
import Verif.Lemmas.BuildOrder

/-! Building a producer again does nothing. -/

namespace Arti.PyDict

theorem get?_set_self {α β : Type} [DecidableEq α] (d : PyDict α β) (k : α) (v : β) :
    get? (PyDict.set d k v) k = some v := by rw [get?_set, if_pos rfl]

theorem set_self {α β : Type} [DecidableEq α] (d : PyDict α β) (k : α) (v : β)
    (h : get? d k = some v) : PyDict.set d k v = d := by
  induction d with
  | nil => simp [get?] at h
  | cons x d ih =>
    obtain ⟨k', v'⟩ := x
    simp only [get?] at h
    simp only [PyDict.set]
    split
    · rename_i hk
      rw [if_pos hk] at h
      rw [Option.some.inj h]
    · rename_i hk
      rw [if_neg hk] at h
      rw [ih h]

end Arti.PyDict

namespace Arti.Spec
open PyDict World M
variable {κ D : Type} [DecidableEq κ] {env : Env κ D}

/-- The filter of `read_artifact_partitions`. -/
def Matches (ifps : PyDict κ Fp) (sn : PSnap κ) : Prop :=
  ifps = [] ∨ get? ifps sn.part.key = sn.part.inputFp

/-- The known partitions of the outputs that match are linked. -/
def Synced (s : St κ D) (σ : Snapshot) (outs : List Art) (ifps : PyDict κ Fp) : Prop :=
  ∀ a ∈ outs, ∃ ps k l, get? s.storage a.info.sto = some ps ∧ σ.graph.keyOf a = some k ∧
    get? s.links (σ, k) = some l ∧ ∀ sn ∈ ps, Matches ifps sn → sn ∈ l

/-- Some output has a known partition for this key that matches. -/
def Has (s : St κ D) (outs : List Art) (ifps : PyDict κ Fp) (pk : κ) : Prop :=
  ∃ a ∈ outs, ∃ ps, get? s.storage a.info.sto = some ps ∧
    ∃ sn ∈ ps, Matches ifps sn ∧ sn.part.key = pk

/-- Nothing remains to be done for a producer. -/
def Done (env : Env κ D) (σ : Snapshot) (p : Pdr) (s : St κ D) : Prop :=
  ∃ ins deps ifps outs, (getInputs env σ p.inputs s).1 = .ok ins ∧
    computeDependencies env p ins = .ok (deps, ifps) ∧
    σ.graph.producerOutputs p = .ok outs ∧ Synced s σ outs ifps ∧
    ∀ x ∈ deps, (get? ifps x.1).isSome ∧ Has s outs ifps x.1

theorem mem_filtered {ifps : PyDict κ Fp} {ps : List (PSnap κ)} {sn : PSnap κ} :
    sn ∈ (if ifps.isEmpty then ps
      else ps.filter fun s => get? ifps s.part.key = s.part.inputFp) ↔
      sn ∈ ps ∧ Matches ifps sn := by
  cases ifps with
  | nil => simp [Matches]
  | cons x ifps => simp [Matches, List.mem_filter]

theorem getInputs_congr {σ : Snapshot} {s s' : St κ D} : ∀ (l : List (Str × Art)),
    (∀ n a k, (n, a) ∈ l → σ.graph.keyOf a = some k →
      get? s'.links (σ, k) = get? s.links (σ, k)) →
    (getInputs env σ l s').1 = (getInputs env σ l s).1
  | [], _ => rfl
  | (n, a) :: l, h => by
    have ih := getInputs_congr l fun n a k hm => h n a k (List.mem_cons_of_mem _ hm)
    simp only [getInputs, run_bind, M.need]
    cases hk : σ.graph.keyOf a with
    | none => rfl
    | some k =>
      simp only [readSnapshotPartitions, run_gets, h n a k (by simp) hk]
      have e1 := getInputs_state (env := env) σ l s
      have e2 := getInputs_state (env := env) σ l s'
      revert ih e1 e2
      cases getInputs env σ l s with
      | mk r1 t1 =>
        cases getInputs env σ l s' with
        | mk r2 t2 =>
          rintro h1 - -
          simp only at h1
          subst h1
          cases r2 <;> rfl

theorem readOutputs_known {ifps : PyDict κ Fp} {s : St κ D} (l : List Art)
    (h : ∀ a ∈ l, ∃ ps, get? s.storage a.info.sto = some ps) :
    readOutputs env ifps l s = (.ok (l.map fun a => (a, env.iter
      (if ifps.isEmpty then (get? s.storage a.info.sto).getD []
        else ((get? s.storage a.info.sto).getD []).filter
          fun s => get? ifps s.part.key = s.part.inputFp))), s) := by
  induction l with
  | nil => rfl
  | cons a l ih =>
    obtain ⟨ps, hps⟩ := h a (by simp)
    have ih := ih fun a ha => h a (List.mem_cons_of_mem _ ha)
    have hk : contains s.storage a.info.sto = true := by simp [contains, hps]
    simp only [readOutputs, readArtifactPartitions, warm, run_bind, run_gets, hk, ↓reduceIte,
      run_pure, ih, List.map_cons]

theorem linkOutputs_known {σ : Snapshot} {s : St κ D} (hb : s.budget = none) :
    ∀ (found : List (Art × List (PSnap κ))),
    (∀ x ∈ found, ∃ k l, σ.graph.keyOf x.1 = some k ∧ get? s.links (σ, k) = some l ∧
      ∀ sn ∈ x.2, sn ∈ l) → linkOutputs σ found s = (.ok (), s)
  | [], _ => rfl
  | (a, ps) :: found, h => by
    obtain ⟨k, l, h1, h2, h3⟩ := h (a, ps) (by simp)
    have ih := linkOutputs_known hb found fun x hx => h x (List.mem_cons_of_mem _ hx)
    simp only at h1 h3
    have he : writeSnapshotPartitions σ k ps s = (.ok (), s) := by
      simp only [writeSnapshotPartitions, M.effect, hb, h2, Option.getD_some,
        setUpdate_of_subset l ps h3, set_self _ _ _ h2]
      rw [← hb]
    simp only [linkOutputs, run_bind, M.need, h1, he, ih]

/-- Building a producer for which nothing remains to be done does nothing. -/
theorem rebuildProducer (hi : IterOk env) {σ : Snapshot} {p : Pdr} {s : St κ D}
    (hb : s.budget = none) (h : Done env σ p s) :
    ∃ l, buildProducer env σ p s = (.ok (), { s with invs := s.invs ++ l }) := by
  obtain ⟨ins, deps, ifps, outs, h1, h2, h3, h4, h5⟩ := h
  refine ⟨invsOf env s.files p ifps deps, ?_⟩
  have hst := getInputs_state (env := env) σ p.inputs s
  have hg : getInputs env σ p.inputs s = (.ok ins, s) := Prod.ext h1 hst
  simp only [buildProducer, run_bind, hg, run_lift, h2, run_ghost]
  generalize hs1 : ({ s with invs := s.invs ++ invsOf env s.files p ifps deps } : St κ D) = s1
  have hsto : s1.storage = s.storage := by rw [← hs1]
  have hlnk : s1.links = s.links := by rw [← hs1]
  have hbud : s1.budget = none := by rw [← hs1]; exact hb
  have hro := readOutputs_known (env := env) (ifps := ifps) (s := s1) outs (by
    intro a ha
    obtain ⟨ps, _, _, h6, _⟩ := h4 a ha
    exact ⟨ps, by rw [hsto]; exact h6⟩)
  generalize hf : (outs.map fun a => (a, env.iter
      (if ifps.isEmpty then (get? s1.storage a.info.sto).getD []
        else ((get? s1.storage a.info.sto).getD []).filter
          fun s => get? ifps s.part.key = s.part.inputFp))) = found at hro
  have hmem : ∀ a ∈ outs, ∃ ps, (a, ps) ∈ found ∧
      ∀ sn, sn ∈ ps ↔ sn ∈ (get? s.storage a.info.sto).getD [] ∧ Matches ifps sn := by
    intro a ha
    rw [← hf]
    refine ⟨_, List.mem_map.2 ⟨a, ha, rfl⟩, fun sn => ?_⟩
    rw [(hi.perm _).mem_iff, mem_filtered, hsto]
  have hfound : ∀ x ∈ found, x.1 ∈ outs ∧
      ∀ sn ∈ x.2, sn ∈ (get? s.storage x.1.info.sto).getD [] ∧ Matches ifps sn := by
    intro x hx
    rw [← hf] at hx
    obtain ⟨a, ha, rfl⟩ := List.mem_map.1 hx
    refine ⟨ha, fun sn hsn => ?_⟩
    simp only at hsn
    rw [(hi.perm _).mem_iff, mem_filtered, hsto] at hsn
    exact hsn
  have hlo := linkOutputs_known (s := s1) (σ := σ) hbud found (by
    intro x hx
    obtain ⟨h6, h7⟩ := hfound x hx
    obtain ⟨ps, k, l, h8, h9, h10, h11⟩ := h4 x.1 h6
    refine ⟨k, l, h9, by rw [hlnk]; exact h10, fun sn hsn => ?_⟩
    obtain ⟨h12, h13⟩ := h7 sn hsn
    rw [h8] at h12
    exact h11 sn h12 h13)
  simp only [discoverProducerPartitions, run_bind, run_lift, h3, hro, hlo, run_pure]
  have hbp : ∀ l : List (κ × List (Str × List (PSnap κ))), (∀ x ∈ l, x ∈ deps) →
      buildPartitions env σ p (found.flatMap fun x => x.2.map fun s => s.part.key) ifps l s1 =
        (.ok (), s1) := by
    intro l
    induction l with
    | nil => intro _; rfl
    | cons x l ih =>
      intro hl
      obtain ⟨hsome, a, ha, ps, h6, sn, h7, h8, h9⟩ := h5 x (hl x (by simp))
      obtain ⟨fp, hfp⟩ := Option.isSome_iff_exists.1 hsome
      obtain ⟨ps', h10, h11⟩ := hmem a ha
      have hc : (found.flatMap fun x => x.2.map fun s => s.part.key).contains x.1 = true := by
        rw [List.contains_iff_mem]
        refine List.mem_flatMap.2 ⟨(a, ps'), h10, List.mem_map.2 ⟨sn, (h11 sn).2 ?_, h9⟩⟩
        rw [h6]; exact ⟨h7, h8⟩
      obtain ⟨pk, d⟩ := x
      simp only at hc hfp
      simp only [buildPartitions, run_bind, M.need, hfp, buildPartition, hc, ↓reduceIte, run_pure]
      exact ih fun x hx => hl x (List.mem_cons_of_mem _ hx)
  exact hbp deps fun _ => id

/-! ## After building a producer nothing remains to be done -/

theorem Has.mono {s s' : St κ D} (h : DSub s.storage s'.storage) {outs : List Art}
    {ifps : PyDict κ Fp} {pk : κ} (hh : Has s outs ifps pk) : Has s' outs ifps pk := by
  obtain ⟨a, ha, ps, h1, sn, h2, h3⟩ := hh
  obtain ⟨ps', h4, h5⟩ := h _ _ h1
  exact ⟨a, ha, ps', h4, sn, h5 sn h2, h3⟩

/-- Different outputs have different storages and different keys. -/
structure OutsOk (σ : Snapshot) (outs : List Art) : Prop where
  sto : ∀ a ∈ outs, ∀ b ∈ outs, a.info.sto = b.info.sto → a = b
  key : ∀ a ∈ outs, ∃ k, σ.graph.keyOf a = some k
  inj : ∀ a ∈ outs, ∀ b ∈ outs, ∀ k, σ.graph.keyOf a = some k → σ.graph.keyOf b = some k → a = b

section
variable {σ : Snapshot} {outs : List Art} {ifps : PyDict κ Fp}

/-- What has been read is known. -/
def Read (s : St κ D) (ifps : PyDict κ Fp) (found : List (Art × List (PSnap κ))) : Prop :=
  ∀ x ∈ found, ∃ ps, get? s.storage x.1.info.sto = some ps ∧
    ∀ sn, sn ∈ x.2 ↔ sn ∈ ps ∧ Matches ifps sn

theorem tri_readArtifact_known (hi : IterOk env) (a : Art) (P : St κ D → Prop)
    (hP : ∀ s ps, P s → get? s.storage a.info.sto = none → P (addStorage s a.info.sto ps))
    (hbud : ∀ s n, P s → P { s with budget := n }) :
    Tri P (readArtifactPartitions env a ifps) (fun ps s => P s ∧
      ∃ l, get? s.storage a.info.sto = some l ∧ ∀ sn, sn ∈ ps ↔ sn ∈ l ∧ Matches ifps sn)
      (fun _ => True) := by
  refine Tri.bind (Q := fun _ s => P s ∧ ∃ l, get? s.storage a.info.sto = some l) ?_ ?_
  · refine Tri.gets_bind fun s hs => ?_
    cases hk : contains s.storage a.info.sto with
    | true =>
      refine Tri.pure ?_
      rintro s' rfl
      exact ⟨hs, Option.isSome_iff_exists.1 hk⟩
    | false =>
      refine Tri.gets_bind ?_
      rintro s' rfl
      refine Tri.lift_bind (fun found _ => ?_) (fun _ _ => trivial)
      have hnone : get? s'.storage a.info.sto = none := by
        simpa [contains] using hk
      refine Tri.effect ?_ ?_ (fun _ _ => trivial)
      · rintro s'' rfl
        exact ⟨hP _ _ hs hnone, _, get?_set_self _ _ _⟩
      · rintro s'' n ⟨h1, h2⟩
        exact ⟨hbud _ _ h1, h2⟩
  · rintro ⟨⟩
    refine Tri.gets_bind ?_
    rintro s ⟨hs, l, hl⟩
    refine Tri.pure ?_
    rintro s' rfl
    refine ⟨hs, l, hl, fun sn => ?_⟩
    rw [(hi.perm _).mem_iff, mem_filtered, hl]
    rfl

theorem tri_readOutputs_known (hi : IterOk env) (P : St κ D → Prop)
    (hP : ∀ s (a : Art) ps, P s → get? s.storage a.info.sto = none →
      P (addStorage s a.info.sto ps))
    (hbud : ∀ s n, P s → P { s with budget := n }) : ∀ (l : List Art),
    Tri P (readOutputs env ifps l) (fun found s => P s ∧ found.map Prod.fst = l ∧
      Read s ifps found) (fun _ => True)
  | [] => Tri.pure fun s hs => ⟨hs, rfl, by simp [Read]⟩
  | a :: l => by
    refine Tri.bind (tri_readArtifact_known hi a P (fun s ps => hP s a ps) hbud) fun ps => ?_
    refine Tri.bind (Q := fun found s => (P s ∧ ∃ l, get? s.storage a.info.sto = some l ∧
      ∀ sn, sn ∈ ps ↔ sn ∈ l ∧ Matches ifps sn) ∧ found.map Prod.fst = l ∧ Read s ifps found)
      (tri_readOutputs_known hi _ ?_ ?_ l) fun found => ?_
    · rintro s b qs ⟨h1, m, h2, h3⟩ hnone
      refine ⟨hP _ _ _ h1 hnone, m, ?_, h3⟩
      simp only [addStorage, get?_set]
      rw [if_neg]
      · exact h2
      · intro he; rw [he, h2] at hnone; simp at hnone
    · rintro s n ⟨h1, h2⟩
      exact ⟨hbud _ _ h1, h2⟩
    · refine Tri.pure ?_
      rintro s ⟨⟨h1, m, h2, h3⟩, h4, h5⟩
      refine ⟨h1, by simp [h4], ?_⟩
      intro x hx
      rcases List.mem_cons.1 hx with rfl | hx
      · exact ⟨m, h2, h3⟩
      · exact h5 x hx

theorem tri_linkOutputs_known (found : List (Art × List (PSnap κ))) (P : St κ D → Prop)
    (hP : ∀ s k ps, P s → P (addLinks s σ k ps)) (hbud : ∀ s n, P s → P { s with budget := n }) :
    Tri P (linkOutputs σ found) (fun _ s => P s ∧ ∀ x ∈ found, ∃ k l, σ.graph.keyOf x.1 = some k ∧
      get? s.links (σ, k) = some l ∧ ∀ sn ∈ x.2, sn ∈ l) (fun _ => True) := by
  induction found generalizing P with
  | nil => exact Tri.pure fun s hs => ⟨hs, by simp⟩
  | cons x found ih =>
    obtain ⟨a, ps⟩ := x
    refine Tri.need_bind (fun k hk => ?_) (fun _ _ => trivial)
    refine Tri.bind (Q := fun _ s => P s ∧ ∃ l, get? s.links (σ, k) = some l ∧
      ∀ sn ∈ ps, sn ∈ l) ?_ fun _ => ?_
    · refine Tri.effect ?_ ?_ (fun _ _ => trivial)
      · intro s hs
        refine ⟨hP s k ps hs, _, get?_set_self _ _ _, fun sn hsn => ?_⟩
        exact (mem_setUpdate _ _ _).2 (.inr hsn)
      · rintro s n ⟨h1, h2⟩
        exact ⟨hbud _ _ h1, h2⟩
    · refine (ih _ ?_ ?_).conseq (fun _ => id) ?_ (fun _ => id)
      · rintro s k' qs ⟨h1, l, h2, h3⟩
        refine ⟨hP _ _ _ h1, ?_⟩
        obtain ⟨l', h4, h5⟩ := DSub.update s.links (σ, k') qs _ _ h2
        exact ⟨l', h4, fun sn hsn => h5 _ (h3 sn hsn)⟩
      · rintro s n ⟨h1, h2⟩
        exact ⟨hbud _ _ h1, h2⟩
      · rintro _ s ⟨⟨h1, l, h2, h3⟩, h4⟩
        refine ⟨h1, fun x hx => ?_⟩
        rcases List.mem_cons.1 hx with rfl | hx
        · exact ⟨k, l, hk, h2, h3⟩
        · exact h4 x hx

theorem tri_discover_synced (hi : IterOk env) {p : Pdr}
    (ho : σ.graph.producerOutputs p = .ok outs) :
    Tri (fun _ : St κ D => True) (discoverProducerPartitions env σ p ifps)
      (fun existing s => Synced s σ outs ifps ∧ ∀ pk ∈ existing, Has s outs ifps pk)
      (fun _ => True) := by
  refine Tri.lift_bind (fun outs' ho' => ?_) (fun _ _ => trivial)
  rw [ho] at ho'
  obtain rfl := Except.ok.inj ho'
  refine Tri.bind (tri_readOutputs_known hi (fun _ => True) (fun _ _ _ _ _ => trivial)
    (fun _ _ _ => trivial) outs) fun found => ?_
  refine Tri.bind (Q := fun _ s => (found.map Prod.fst = outs ∧ Read s ifps found) ∧
    ∀ x ∈ found, ∃ k l, σ.graph.keyOf x.1 = some k ∧
      get? s.links (σ, k) = some l ∧ ∀ sn ∈ x.2, sn ∈ l) ?_ fun _ => Tri.pure ?_
  · exact (tri_linkOutputs_known found (fun s => found.map Prod.fst = outs ∧ Read s ifps found)
      (fun s k ps h => h) (fun s n h => h)).conseq (fun s h => h.2) (fun _ _ => id) (fun _ => id)
  · rintro s ⟨⟨h1, h2⟩, h3⟩
    constructor
    · intro a ha
      rw [← h1] at ha
      obtain ⟨x, hx, rfl⟩ := List.mem_map.1 ha
      obtain ⟨ps, h4, h5⟩ := h2 x hx
      obtain ⟨k, l, h6, h7, h8⟩ := h3 x hx
      exact ⟨ps, k, l, h4, h6, h7, fun sn hsn hm => h8 sn ((h5 sn).2 ⟨hsn, hm⟩)⟩
    · intro pk hpk
      obtain ⟨x, hx, hpk⟩ := List.mem_flatMap.1 hpk
      obtain ⟨sn, hsn, rfl⟩ := List.mem_map.1 hpk
      obtain ⟨ps, h4, h5⟩ := h2 x hx
      refine ⟨x.1, by rw [← h1]; exact List.mem_map.2 ⟨x, hx, rfl⟩, ps, h4, sn, ?_⟩
      obtain ⟨h6, h7⟩ := (h5 sn).1 hsn
      exact ⟨h6, h7, rfl⟩

/-- Writing one output keeps known partitions linked. -/
theorem tri_write_synced (hok : OutsOk σ outs) {a : Art} (ha : a ∈ outs) {d : D} {fp : Fp} {pk : κ}
    {v : Nat} (hfp : get? ifps pk = some fp) (P : St κ D → Prop)
    (hP : ∀ s s', P s → DSub s.storage s'.storage → P s') :
    Tri (fun s => Synced s σ outs ifps ∧ P s) (write env σ.graph (some σ) d a (some fp) pk v)
      (fun _ s => Synced s σ outs ifps ∧ P s ∧ Has s outs ifps pk) (fun _ => True) := by
  refine Tri.need_bind (fun k hk => ?_) (fun _ _ => trivial)
  refine Tri.raiseIf_bind (fun _ => ?_) (fun _ _ => trivial)
  refine Tri.lift_bind (fun part hpart => ?_) (fun _ _ => trivial)
  have hkey : part.key = pk ∧ part.inputFp = some fp :=
    ⟨(generate_ok hpart).2.2.1, (generate_ok hpart).2.1⟩
  refine Tri.bind (Q := fun sn s => (Synced s σ outs ifps ∧ P s) ∧ sn.part.key = pk ∧
    sn.part.inputFp = some fp) ?_ fun sn => ?_
  · unfold ioWrite
    split
    · refine Tri.lift_bind (fun c _ => ?_) (fun _ _ => trivial)
      refine Tri.bind (Q := fun _ s => Synced s σ outs ifps ∧ P s) (Tri.effect ?_ ?_
        (fun _ _ => trivial)) fun _ => Tri.gets_bind fun s hs => Tri.lift ?_ (fun _ _ => trivial)
      · rintro s ⟨h1, h2⟩; exact ⟨h1, hP _ _ h2 (DSub.refl _)⟩
      · rintro s n ⟨h1, h2⟩; exact ⟨h1, hP _ _ h2 (DSub.refl _)⟩
      · rintro sn s' hsn rfl
        refine ⟨hs, ?_⟩
        unfold snap at hsn
        split at hsn
        · simp only [Except.ok.injEq] at hsn; rw [← hsn]; exact hkey
        · simp at hsn
    · refine Tri.raiseIf_bind (fun _ => ?_) (fun _ _ => trivial)
      refine Tri.lift_bind (fun c _ => ?_) (fun _ _ => trivial)
      refine Tri.lift ?_ (fun _ _ => trivial)
      intro sn s' hsn hs
      refine ⟨hs, ?_⟩
      unfold snap at hsn
      split at hsn
      · simp only [Except.ok.injEq] at hsn; rw [← hsn]; exact hkey
      · simp at hsn
  · -- storage, then links
    refine Tri.of_state ?_
    rintro s1 ⟨⟨hsy, hp⟩, hsk, hsf⟩
    have hmatch : Matches ifps sn := .inr (by rw [hsk, hsf, hfp])
    refine Tri.bind (Q := fun _ s => ∃ n, s = { addStorage s1 a.info.sto [sn] with budget := n })
      (Tri.effect ?_ ?_ (fun _ _ => trivial)) fun _ => ?_
    · rintro s rfl; exact ⟨s.budget, rfl⟩
    · rintro s n ⟨m, rfl⟩; exact ⟨n, rfl⟩
    refine Tri.bind (Q := fun _ s => ∃ n, s = { addLinks (addStorage s1 a.info.sto [sn]) σ k [sn]
      with budget := n }) (Tri.effect ?_ ?_ (fun _ _ => trivial)) fun _ => Tri.pure ?_
    · rintro s ⟨n, rfl⟩; exact ⟨n, rfl⟩
    · rintro s n ⟨m, rfl⟩; exact ⟨n, rfl⟩
    rintro s ⟨n, rfl⟩
    have hgrow : DSub s1.storage (addStorage s1 a.info.sto [sn]).storage :=
      DSub.update s1.storage a.info.sto [sn]
    refine ⟨?_, hP s1 _ hp hgrow, a, ha, _, get?_set_self _ _ _, sn, (mem_setUpdate _ _ _).2 (.inr (by simp)), hmatch, hsk⟩
    intro b hb
    obtain ⟨ps, kb, l, h1, h2, h3, h4⟩ := hsy b hb
    by_cases hab : a = b
    · subst hab
      rw [hk] at h2
      obtain rfl := Option.some.inj h2
      refine ⟨_, k, _, get?_set_self _ _ _, hk,
        get?_set_self _ _ _, ?_⟩
      intro sn' hsn' hm
      rw [h1, Option.getD_some, mem_setUpdate] at hsn'
      rw [show get? (addStorage s1 a.info.sto [sn]).links (σ, k) = some l from h3,
        Option.getD_some, mem_setUpdate]
      rcases hsn' with h | h
      · exact .inl (h4 sn' h hm)
      · exact .inr h
    · have hne : a.info.sto ≠ b.info.sto := fun e => hab (hok.sto a ha b hb e)
      have hnk : k ≠ kb := by
        rintro rfl
        exact hab (hok.inj a ha b hb k hk h2)
      refine ⟨ps, kb, l, ?_, h2, ?_, h4⟩
      · simp only [addLinks, addStorage, get?_set]
        rw [if_neg hne]; exact h1
      · simp only [addLinks, addStorage, get?_set]
        rw [if_neg (by simp [hnk])]; exact h3

theorem tri_writeOutputs_synced (hok : OutsOk σ outs) {p : Pdr}
    (ho : σ.graph.producerOutputs p = .ok outs) {fp : Fp} {pk : κ}
    (hfp : get? ifps pk = some fp) (P : St κ D → Prop)
    (hP : ∀ s s', P s → DSub s.storage s'.storage → P s') (l : List D) : ∀ (n : Nat),
    Tri (fun s => Synced s σ outs ifps ∧ P s) (writeOutputs env σ p fp pk n l)
      (fun _ s => Synced s σ outs ifps ∧ P s ∧ (l ≠ [] → Has s outs ifps pk)) (fun _ => True) := by
  induction l generalizing P with
  | nil => exact fun n => Tri.pure fun s hs => ⟨hs.1, hs.2, by simp⟩
  | cons d l ih =>
    intro n
    refine Tri.lift_bind (fun outs' ho' => ?_) (fun _ _ => trivial)
    rw [ho] at ho'
    obtain rfl := Except.ok.inj ho'
    refine Tri.need_bind (fun a ha => ?_) (fun _ _ => trivial)
    refine Tri.need_bind (fun v _ => ?_) (fun _ _ => trivial)
    refine Tri.bind (tri_write_synced hok (List.mem_of_getElem? ha) hfp P hP) fun _ => ?_
    exact (ih (fun s => P s ∧ Has s outs ifps pk) (fun s s' h hd => ⟨hP s s' h.1 hd, h.2.mono hd⟩)
      (n + 1)).conseq (fun _ => id) (fun _ s h => ⟨h.1, h.2.1.1, fun _ => h.2.1.2⟩) (fun _ => id)

theorem tri_buildPartition_synced (hok : OutsOk σ outs) {p : Pdr}
    (ho : σ.graph.producerOutputs p = .ok outs)
    (hne : ∀ args l, (cls env p).build args = .ok l → l ≠ [])
    {fp : Fp} {pk : κ} (hfp : get? ifps pk = some fp) {existing : List κ}
    {d : List (Str × List (PSnap κ))} (P : St κ D → Prop)
    (hex : ∀ s, P s → ∀ pk ∈ existing, Has s outs ifps pk)
    (hP : ∀ s s', P s → DSub s.storage s'.storage → P s') :
    Tri (fun s => Synced s σ outs ifps ∧ P s) (buildPartition env σ p existing fp d pk)
      (fun _ s => Synced s σ outs ifps ∧ P s ∧ Has s outs ifps pk) (fun _ => True) := by
  unfold buildPartition
  split
  · rename_i hc
    rw [List.contains_iff_mem] at hc
    exact Tri.pure fun s hs => ⟨hs.1, hs.2, hex s hs.2 pk hc⟩
  · refine Tri.bind (Q := fun _ s => Synced s σ outs ifps ∧ P s) (Tri.gets fun _ h => h)
      fun files => ?_
    refine Tri.lift_bind (fun args _ => ?_) (fun _ _ => trivial)
    refine Tri.bind (Q := fun _ s => Synced s σ outs ifps ∧ P s) (Tri.ghost ?_) fun _ => ?_
    · rintro s ⟨h1, h2⟩; exact ⟨h1, hP _ _ h2 (DSub.refl _)⟩
    refine Tri.lift_bind (fun l hl => ?_) (fun _ _ => trivial)
    refine Tri.lift_bind (fun passed _ => ?_) (fun _ _ => trivial)
    refine Tri.raiseIf_bind (fun _ => ?_) (fun _ _ => trivial)
    exact (tri_writeOutputs_synced hok ho hfp P hP l 0).conseq (fun _ => id)
      (fun _ s h => ⟨h.1, h.2.1, h.2.2 (hne _ _ hl)⟩) (fun _ => id)

theorem tri_buildPartitions_synced (hok : OutsOk σ outs) {p : Pdr}
    (ho : σ.graph.producerOutputs p = .ok outs)
    (hne : ∀ args l, (cls env p).build args = .ok l → l ≠ [])
    {existing : List κ} (deps : List (κ × List (Str × List (PSnap κ)))) (P : St κ D → Prop)
    (hex : ∀ s, P s → ∀ pk ∈ existing, Has s outs ifps pk)
    (hP : ∀ s s', P s → DSub s.storage s'.storage → P s') :
    Tri (fun s => Synced s σ outs ifps ∧ P s) (buildPartitions env σ p existing ifps deps)
      (fun _ s => Synced s σ outs ifps ∧ P s ∧ ∀ x ∈ deps, (get? ifps x.1).isSome ∧
        Has s outs ifps x.1) (fun _ => True) := by
  induction deps generalizing P with
  | nil => exact Tri.pure fun s hs => ⟨hs.1, hs.2, by simp⟩
  | cons x deps ih =>
    obtain ⟨pk, d⟩ := x
    refine Tri.need_bind (fun fp hfp => ?_) (fun _ _ => trivial)
    refine Tri.bind (tri_buildPartition_synced hok ho hne hfp P hex hP) fun _ => ?_
    refine (ih (fun s => P s ∧ Has s outs ifps pk) (fun s h => hex s h.1)
      (fun s s' h hd => ⟨hP s s' h.1 hd, h.2.mono hd⟩)).conseq (fun _ => id) ?_ (fun _ => id)
    rintro _ s ⟨h1, ⟨h2, h3⟩, h4⟩
    refine ⟨h1, h2, fun x hx => ?_⟩
    rcases List.mem_cons.1 hx with rfl | hx
    · exact ⟨by simp [hfp], h3⟩
    · exact h4 x hx

end

/-- Links of other keys and snapshots, and other storages, are not touched. -/
def Untouched (σ : Snapshot) (outs : List Art) (s s' : St κ D) : Prop :=
  (∀ sto, (∀ a ∈ outs, a.info.sto ≠ sto) → get? s'.storage sto = get? s.storage sto) ∧
  (∀ τ k, (τ = σ → ∀ a ∈ outs, σ.graph.keyOf a ≠ some k) →
    get? s'.links (τ, k) = get? s.links (τ, k)) ∧
  s'.graphs = s.graphs ∧ s'.snapshots = s.snapshots ∧ s'.tags = s.tags

theorem untouched_local (σ : Snapshot) (p : Pdr) (outs : List Art) (s : St κ D) :
    Local env σ p outs (Untouched σ outs s) := by
  refine ⟨fun _ _ h => h, fun _ _ _ _ _ _ _ _ _ _ h => h, fun _ _ h => h, ?_, ?_⟩
  · rintro s' a ps ha ⟨h1, h2, h3⟩
    refine ⟨fun sto hsto => ?_, h2, h3⟩
    simp only [addStorage, get?_set]
    rw [if_neg (hsto a ha)]
    exact h1 sto hsto
  · rintro s' a k ps ha hk ⟨h1, h2, h3⟩
    refine ⟨h1, fun τ k' hk' => ?_, h3⟩
    simp only [addLinks, get?_set]
    rw [if_neg]
    · exact h2 τ k' hk'
    · simp only [Prod.mk.injEq, not_and]
      rintro rfl rfl
      exact hk' rfl a ha hk

theorem Untouched.refl (σ : Snapshot) (outs : List Art) (s : St κ D) : Untouched σ outs s s :=
  ⟨fun _ _ => rfl, fun _ _ _ => rfl, rfl, rfl, rfl⟩

theorem buildProducer_untouched {σ : Snapshot} {p : Pdr} {outs : List Art}
    (ho : σ.graph.producerOutputs p = .ok outs) (s : St κ D) :
    Untouched σ outs s (buildProducer env σ p s).2 :=
  (untouched_local σ p outs s).buildProducer ho (fun _ _ h => h) s (Untouched.refl _ _ _)

/-- After a producer has been built nothing remains to be done for it. -/
theorem buildProducer_done (hi : IterOk env) {σ : Snapshot} {p : Pdr} {outs : List Art}
    (ho : σ.graph.producerOutputs p = .ok outs) (hok : OutsOk σ outs)
    (hne : ∀ args l, (cls env p).build args = .ok l → l ≠ [])
    (hself : ∀ n a k, (n, a) ∈ p.inputs → σ.graph.keyOf a = some k → ∀ b ∈ outs,
      σ.graph.keyOf b ≠ some k)
    {s s' : St κ D} (hrun : buildProducer env σ p s = (.ok (), s')) : Done env σ p s' := by
  have hun := buildProducer_untouched (env := env) ho s
  rw [hrun] at hun
  have hin := getInputs_congr (env := env) (σ := σ) (s := s) (s' := s') p.inputs
    fun n a k hm hk => hun.2.1 σ k fun _ b hb => hself n a k hm hk b hb
  unfold buildProducer at hrun
  rw [run_bind] at hrun
  have hst := getInputs_state (env := env) σ p.inputs s
  revert hst hin hrun
  cases getInputs env σ p.inputs s with
  | mk r1 s1 =>
    intro hrun hin hst
    simp only at hst hin
    subst hst
    cases r1 with
    | error e => simp at hrun
    | ok ins =>
      simp only [run_bind, run_lift] at hrun
      cases hcd : computeDependencies env p ins with
      | error e => rw [hcd] at hrun; simp at hrun
      | ok df =>
        obtain ⟨deps, ifps⟩ := df
        rw [hcd] at hrun
        simp only [run_ghost] at hrun
        refine ⟨ins, deps, ifps, outs, hin, hcd, ho, ?_⟩
        have htri : Tri (fun _ : St κ D => True)
            (discoverProducerPartitions env σ p ifps >>= fun existing =>
              buildPartitions env σ p existing ifps deps)
            (fun _ s => Synced s σ outs ifps ∧ ∀ x ∈ deps, (get? ifps x.1).isSome ∧
              Has s outs ifps x.1) (fun _ => True) := by
          refine Tri.bind (tri_discover_synced hi ho) fun existing => ?_
          exact (tri_buildPartitions_synced hok ho hne deps
            (fun s => ∀ pk ∈ existing, Has s outs ifps pk) (fun _ h => h)
            (fun s s' h hd pk hpk => (h pk hpk).mono hd)).conseq (fun _ => id)
            (fun _ s h => ⟨h.1, h.2.2⟩) (fun _ => id)
        exact htri.ok trivial (by rw [run_bind]; exact hrun)

/-- Building another producer that it does not depend on changes nothing about this. -/
theorem Done.keep {σ : Snapshot} {p q : Pdr} {outs outs' : List Art} {s s' : St κ D}
    (h : Done env σ p s) (ho : σ.graph.producerOutputs p = .ok outs)
    (hu : Untouched σ outs' s s')
    (hsto : ∀ a ∈ outs, ∀ b ∈ outs', b.info.sto ≠ a.info.sto)
    (hkey : ∀ a ∈ outs, ∀ k, σ.graph.keyOf a = some k → ∀ b ∈ outs', σ.graph.keyOf b ≠ some k)
    (hin : ∀ n a k, (n, a) ∈ p.inputs → σ.graph.keyOf a = some k → ∀ b ∈ outs',
      σ.graph.keyOf b ≠ some k) : Done env σ p s' := by
  obtain ⟨ins, deps, ifps, outs1, h1, h2, h3, h4, h5⟩ := h
  rw [ho] at h3
  obtain rfl := Except.ok.inj h3
  refine ⟨ins, deps, ifps, outs, ?_, h2, ho, ?_, ?_⟩
  · rw [getInputs_congr (s := s) p.inputs fun n a k hm hk => hu.2.1 σ k fun _ b hb =>
      hin n a k hm hk b hb]
    exact h1
  · intro a ha
    obtain ⟨ps, k, l, h6, h7, h8, h9⟩ := h4 a ha
    exact ⟨ps, k, l, by rw [hu.1 _ (hsto a ha)]; exact h6, h7,
      by rw [hu.2.1 σ k fun _ b hb => hkey a ha k h7 b hb]; exact h8, h9⟩
  · intro x hx
    obtain ⟨h6, a, ha, ps, h7, h8⟩ := h5 x hx
    exact ⟨h6, a, ha, ps, by rw [hu.1 _ (hsto a ha)]; exact h7, h8⟩

theorem Done.of_eq {σ : Snapshot} {p : Pdr} {s s' : St κ D} (h : Done env σ p s)
    (hs : s'.storage = s.storage) (hl : s'.links = s.links) : Done env σ p s' := by
  obtain ⟨ins, deps, ifps, outs, h1, h2, h3, h4, h5⟩ := h
  refine ⟨ins, deps, ifps, outs, ?_, h2, h3, ?_, ?_⟩
  · rw [getInputs_congr (s := s) p.inputs fun n a k _ _ => by rw [hl]]; exact h1
  · unfold Synced at *; rw [hs, hl]; exact h4
  · unfold Has at *; rw [hs]; exact h5

theorem rebuildOrder (hi : IterOk env) {σ : Snapshot} : ∀ (nodes : List Nd) (s : St κ D),
    s.budget = none → (∀ p, Nd.pdr p ∈ nodes → Done env σ p s) →
    ∃ l, buildOrder env σ nodes s = (.ok (), { s with invs := s.invs ++ l })
  | [], s, _, _ => ⟨[], by simp [buildOrder, run_pure]⟩
  | .art a :: rest, s, hb, h => by
    obtain ⟨l, hl⟩ := rebuildOrder hi rest s hb fun p hp => h p (List.mem_cons_of_mem _ hp)
    exact ⟨l, hl⟩
  | .pdr p :: rest, s, hb, h => by
    obtain ⟨l, hl⟩ := rebuildProducer hi hb (h p (by simp))
    obtain ⟨l', hl'⟩ := rebuildOrder hi rest { s with invs := s.invs ++ l } hb fun p hp =>
      (h p (List.mem_cons_of_mem _ hp)).of_eq rfl rfl
    refine ⟨l ++ l', ?_⟩
    unfold buildOrder
    rw [run_bind, hl]
    simp only [hl', List.append_assoc]

theorem producerOutputs_of_mem {g : Graph} {k : Str} {i : ArtInfo} {p : Pdr} {pos : Nat}
    (h : (k, Art.made i p pos) ∈ g.arts) : ∃ outs, g.producerOutputs p = .ok outs := by
  unfold Graph.producerOutputs
  have := Graph.mem_keys_outputsByPos h
  split
  · rename_i he; rw [he] at this; simp [keys] at this
  · exact ⟨_, rfl⟩

theorem outsOk {σ : Snapshot} (hk : (keys σ.graph.arts).Nodup) (hown : OwnStorage σ.graph)
    {p : Pdr} {outs : List Art} (ho : σ.graph.producerOutputs p = .ok outs) : OutsOk σ outs := by
  constructor
  · intro a ha b hb hs
    obtain ⟨k, i, pos, rfl, h1⟩ := Graph.mem_producerOutputs ho ha
    obtain ⟨k', i', pos', rfl, h2⟩ := Graph.mem_producerOutputs ho hb
    exact hown _ _ _ _ _ _ _ _ h1 h2 hs
  · intro a ha
    obtain ⟨k, i, pos, rfl, h1⟩ := Graph.mem_producerOutputs ho ha
    exact Graph.keyOf_of_mem h1
  · intro a _ b _ k h1 h2
    exact Graph.keyOf_inj hk h1 h2

theorem buildOrder_done (hi : IterOk env) {σ : Snapshot} (hk : (keys σ.graph.arts).Nodup)
    (hown : OwnStorage σ.graph) (hne : SomeOutput env σ.graph) : ∀ (nodes done : List Nd)
    (s s' : St κ D), Sched σ.graph done nodes → nodes.Nodup → (∀ n ∈ done, n ∉ nodes) →
    (∀ p, Nd.pdr p ∈ done → Done env σ p s ∧
      ∀ n j q qpos, (n, Art.made j q qpos) ∈ p.inputs →
        (∃ k', (k', Art.made j q qpos) ∈ σ.graph.arts) → Nd.pdr q ∈ done) →
    buildOrder env σ nodes s = (.ok (), s') →
    ∀ p, Nd.pdr p ∈ done ++ nodes → Done env σ p s'
  | [], done, s, s', _, _, _, hdone, hrun, p, hp => by
    simp only [buildOrder, run_pure, Prod.mk.injEq] at hrun
    rw [← hrun.2]
    exact (hdone p (by simpa using hp)).1
  | .art a :: rest, done, s, s', hs, hn, hd, hdone, hrun, p, hp =>
    buildOrder_done hi hk hown hne rest done s s' hs (List.nodup_cons.1 hn).2
      (fun n h1 h2 => hd n h1 (List.mem_cons_of_mem _ h2)) hdone hrun p (by simpa using hp)
  | .pdr q :: rest, done, s, s', hs, hn, hd, hdone, hrun, p, hp => by
    obtain ⟨⟨k0, i0, pos0, hm0⟩, hins, hrest⟩ := hs
    have hqd : Nd.pdr q ∉ done := fun h => hd _ h (by simp)
    obtain ⟨outs, ho⟩ := producerOutputs_of_mem hm0
    have hself : ∀ n a k, (n, a) ∈ q.inputs → σ.graph.keyOf a = some k → ∀ b ∈ outs,
        σ.graph.keyOf b ≠ some k := by
      intro n a k ha hka b hb hkb
      obtain ⟨k', i, pos, rfl, hm⟩ := Graph.mem_producerOutputs ho hb
      obtain rfl := Graph.keyOf_inj hk hka hkb
      exact hqd (hins n _ _ _ ha ⟨k', hm⟩)
    unfold buildOrder at hrun
    rw [run_bind] at hrun
    have hun := buildProducer_untouched (env := env) ho s
    cases hbp : buildProducer env σ q s with
    | mk rb s2 =>
      rw [hbp] at hrun hun
      cases rb with
      | error e => simp at hrun
      | ok u =>
        simp only at hrun
        have hdq := buildProducer_done hi ho (outsOk hk hown ho) (hne _ _ _ _ hm0) hself hbp
        refine buildOrder_done hi hk hown hne rest (.pdr q :: done) s2 s' hrest
          (List.nodup_cons.1 hn).2 ?_ ?_ hrun p ?_
        · intro n h1 h2
          rcases List.mem_cons.1 h1 with rfl | h1
          · exact (List.nodup_cons.1 hn).1 h2
          · exact hd n h1 (List.mem_cons_of_mem _ h2)
        · intro p' hp0
          rcases List.mem_cons.1 hp0 with heq | hp'
          · simp only [Nd.pdr.injEq] at heq
            subst heq
            exact ⟨hdq, fun n j q' qpos h1 h2 => List.mem_cons_of_mem _ (hins n j q' qpos h1 h2)⟩
          · obtain ⟨h1, h2⟩ := hdone p' hp'
            refine ⟨?_, fun n j q' qpos h3 h4 => List.mem_cons_of_mem _ (h2 n j q' qpos h3 h4)⟩
            obtain ⟨_, _, _, outs', _, _, ho', _⟩ := id h1
            have hne' : p' ≠ q := by rintro rfl; exact hqd hp'
            refine h1.keep (q := q) ho' hun ?_ ?_ ?_
            · intro a ha b hb he
              obtain ⟨k1, i1, pos1, rfl, hm1⟩ := Graph.mem_producerOutputs ho' ha
              obtain ⟨k2, i2, pos2, rfl, hm2⟩ := Graph.mem_producerOutputs ho hb
              have := hown _ _ _ _ _ _ _ _ hm2 hm1 he
              simp only [Art.made.injEq] at this
              exact hne' this.2.1.symm
            · intro a ha k hka b hb hkb
              obtain ⟨k1, i1, pos1, rfl, hm1⟩ := Graph.mem_producerOutputs ho' ha
              obtain ⟨k2, i2, pos2, rfl, hm2⟩ := Graph.mem_producerOutputs ho hb
              have := Graph.keyOf_inj hk hka hkb
              simp only [Art.made.injEq] at this
              exact hne' this.2.1
            · intro n a k ha hka b hb hkb
              obtain ⟨k2, i2, pos2, rfl, hm2⟩ := Graph.mem_producerOutputs ho hb
              obtain rfl := Graph.keyOf_inj hk hka hkb
              exact hqd (h2 n _ _ _ ha ⟨k2, hm2⟩)
        · simp only [List.cons_append, List.mem_append, List.mem_cons] at hp ⊢
          tauto

end Arti.Spec
