import Verif.Lemmas.Rebuild
import Verif.Spec.Executor

/-! Which partitions a build links. -/

namespace Arti.Spec
open PyDict World M
variable {κ D : Type} [DecidableEq κ] {env : Env κ D}

theorem getInputs_eq {σ : Snapshot} {s : St κ D} : ∀ (l : List (Str × Art)) {ins},
    (getInputs env σ l s).1 = .ok ins → ins = l.map fun x =>
      (x.1, env.iter (linksOf s σ ((σ.graph.keyOf x.2).getD []))) := by
  intro l
  induction l with
  | nil =>
    intro ins h
    simp only [getInputs, run_pure, Except.ok.injEq] at h
    simp [← h]
  | cons x l ih =>
    intro ins h
    obtain ⟨n, a⟩ := x
    simp only [getInputs, run_bind, M.need] at h
    cases hk : σ.graph.keyOf a with
    | none => rw [hk] at h; simp at h
    | some k =>
      rw [hk] at h
      simp only [readSnapshotPartitions, run_gets] at h
      revert h ih
      cases hg : getInputs env σ l s with
      | mk r t =>
        intro ih h
        cases r with
        | error e => simp at h
        | ok l' =>
          simp only [run_pure, Except.ok.injEq] at h
          have h' := ih rfl
          rw [← h, h']
          simp [hk, linksOf]

theorem getInputs_keys {σ : Snapshot} {s : St κ D} : ∀ (l : List (Str × Art)) {ins},
    (getInputs env σ l s).1 = .ok ins → ∀ x ∈ l, ∃ k, σ.graph.keyOf x.2 = some k := by
  intro l
  induction l with
  | nil => simp
  | cons x l ih =>
    intro ins h
    obtain ⟨n, a⟩ := x
    simp only [getInputs, run_bind, M.need] at h
    cases hk : σ.graph.keyOf a with
    | none => rw [hk] at h; simp at h
    | some k =>
      rw [hk] at h
      simp only [readSnapshotPartitions, run_gets] at h
      revert h ih
      cases hg : getInputs env σ l s with
      | mk r t =>
        intro ih h
        cases r with
        | error e => simp at h
        | ok l' =>
          intro y hy
          rcases List.mem_cons.1 hy with rfl | hy
          · exact ⟨k, hk⟩
          · exact ih rfl y hy

/-- The inputs of a producer that has been built are artifacts of the graph. -/
theorem buildProducer_keys {σ : Snapshot} {p : Pdr} {s s' : St κ D}
    (h : buildProducer env σ p s = (.ok (), s')) :
    ∀ x ∈ p.inputs, ∃ k, σ.graph.keyOf x.2 = some k := by
  unfold buildProducer at h
  rw [run_bind] at h
  cases hg : getInputs env σ p.inputs s with
  | mk r t =>
    rw [hg] at h
    cases r with
    | error e => simp at h
    | ok ins => exact getInputs_keys (s := s) p.inputs (by rw [hg])

theorem inputFingerprints_get {p : Pdr} : ∀ (deps : List (κ × List (Str × List (PSnap κ))))
    {ifps : PyDict κ Fp}, inputFingerprints env p deps = .ok ifps → ∀ pk fp,
    get? ifps pk = some fp ↔ ∃ d, get? deps pk = some d ∧ computeInputFingerprint env p d = .ok fp
  | [], ifps, h, pk, fp => by
    simp only [inputFingerprints, Except.ok.injEq] at h
    simp [← h, get?]
  | (k, d) :: deps, ifps, h, pk, fp => by
    simp only [inputFingerprints, bind, Except.bind] at h
    cases h1 : computeInputFingerprint env p d with
    | error e => rw [h1] at h; simp at h
    | ok f =>
      rw [h1] at h
      simp only at h
      cases h2 : inputFingerprints env p deps with
      | error e => rw [h2] at h; simp at h
      | ok r =>
        rw [h2] at h
        simp only [Except.ok.injEq] at h
        subst h
        have ih := inputFingerprints_get deps h2 pk fp
        simp only [get?]
        by_cases hk : k = pk
        · simp [hk, h1]
        · simp only [hk, ↓reduceIte]; exact ih

theorem inputFingerprints_ne {p : Pdr} {deps : List (κ × List (Str × List (PSnap κ)))}
    {ifps : PyDict κ Fp} (h : inputFingerprints env p deps = .ok ifps) (hd : deps ≠ []) :
    ifps ≠ [] := by
  cases deps with
  | nil => exact absurd rfl hd
  | cons x deps =>
    obtain ⟨k, d⟩ := x
    simp only [inputFingerprints, bind, Except.bind] at h
    split at h
    · simp at h
    · split at h
      · simp at h
      · simp only [Except.ok.injEq] at h; rw [← h]; simp

theorem computeDependencies_ok {p : Pdr} {ins : List (Str × List (PSnap κ))}
    {deps : List (κ × List (Str × List (PSnap κ)))} {ifps : PyDict κ Fp}
    (h : computeDependencies env p ins = .ok (deps, ifps)) :
    ∃ items, (cls env p).map (ins.filter fun x => (cls env p).mapInputs.contains x.1) = .ok items ∧
      deps = ofItems items ∧ inputFingerprints env p deps = .ok ifps := by
  simp only [computeDependencies, bind, Except.bind] at h
  split at h
  · simp at h
  · rename_i items hitems
    split at h
    · simp at h
    · rename_i fps hfps
      simp only [Except.ok.injEq, Prod.mk.injEq] at h
      obtain ⟨rfl, rfl⟩ := h
      exact ⟨items, hitems, rfl, hfps⟩

/-- What is asked of a producer in terms of the computed fingerprints. -/
theorem asked_iff {σ : Snapshot} {s : St κ D} {p : Pdr} {ins : List (Str × List (PSnap κ))}
    {deps : List (κ × List (Str × List (PSnap κ)))} {ifps : PyDict κ Fp}
    (hin : (getInputs env σ p.inputs s).1 = .ok ins)
    (h : computeDependencies env p ins = .ok (deps, ifps)) (pk : κ) (fp : Fp) :
    Asked env s σ p pk fp ↔ get? ifps pk = some fp := by
  obtain ⟨items, h1, h2, h3⟩ := computeDependencies_ok h
  have he := getInputs_eq _ hin
  rw [inputFingerprints_get _ h3]
  constructor
  · rintro ⟨items', d, h4, h5, h6⟩
    unfold inputsOf at h4
    rw [← he, h1] at h4
    obtain rfl := Except.ok.inj h4
    exact ⟨d, by rw [h2]; exact h5, h6⟩
  · rintro ⟨d, h5, h6⟩
    refine ⟨items, d, ?_, by rw [← h2]; exact h5, h6⟩
    unfold inputsOf
    rw [← he]; exact h1

/-- A run over an order, cut at a producer. -/
theorem buildOrder_split {σ : Snapshot} {p : Pdr} : ∀ (l r : List Nd) (s s' : St κ D),
    buildOrder env σ (l ++ .pdr p :: r) s = (.ok (), s') →
    ∃ s1 s2, buildOrder env σ l s = (.ok (), s1) ∧ buildProducer env σ p s1 = (.ok (), s2) ∧
      buildOrder env σ r s2 = (.ok (), s')
  | [], r, s, s', h => by
    simp only [List.nil_append, buildOrder, run_bind] at h
    cases hb : buildProducer env σ p s with
    | mk rb s2 =>
      rw [hb] at h
      cases rb with
      | error e => simp at h
      | ok u => exact ⟨s, s2, rfl, hb, h⟩
  | .art a :: l, r, s, s', h => buildOrder_split l r s s' h
  | .pdr q :: l, r, s, s', h => by
    simp only [List.cons_append, buildOrder, run_bind] at h
    cases hb : buildProducer env σ q s with
    | mk rb s2 =>
      rw [hb] at h
      cases rb with
      | error e => simp at h
      | ok u =>
        obtain ⟨s3, s4, h1, h2, h3⟩ := buildOrder_split l r s2 s' h
        refine ⟨s3, s4, ?_, h2, h3⟩
        unfold buildOrder
        rw [run_bind, hb]
        exact h1

/-- Links of keys that are not those of outputs of the producers of the order stay as they are. -/
theorem buildOrder_links {σ : Snapshot} (τ : Snapshot) (k : Str) : ∀ (l : List Nd) (s : St κ D),
    (∀ p, Nd.pdr p ∈ l → (∃ k i pos, (k, Art.made i p pos) ∈ σ.graph.arts) ∧
      (τ = σ → ∀ i pos, σ.graph.keyOf (.made i p pos) ≠ some k)) →
    get? (buildOrder env σ l s).2.links (τ, k) = get? s.links (τ, k)
  | [], s, _ => rfl
  | .art a :: l, s, h => buildOrder_links τ k l s fun p hp => h p (List.mem_cons_of_mem _ hp)
  | .pdr q :: l, s, h => by
    obtain ⟨⟨k0, i0, pos0, hm⟩, hq⟩ := h q (by simp)
    obtain ⟨outs, ho⟩ := producerOutputs_of_mem hm
    have hu := (buildProducer_untouched (env := env) ho s).2.1 τ k (by
      intro hτ b hb
      obtain ⟨_, i, pos, rfl, _⟩ := Graph.mem_producerOutputs ho hb
      exact hq hτ i pos)
    unfold buildOrder
    rw [run_bind]
    revert hu
    cases buildProducer env σ q s with
    | mk rb s2 =>
      intro hu
      cases rb with
      | error e => exact hu
      | ok u =>
        simp only at hu ⊢
        rw [buildOrder_links τ k l s2 fun p hp => h p (List.mem_cons_of_mem _ hp), hu]

/-- Storages that are not those of outputs of the producers of the order stay as they are. -/
theorem buildOrder_storage {σ : Snapshot} (sto : Sto) : ∀ (l : List Nd) (s : St κ D),
    (∀ p, Nd.pdr p ∈ l → (∃ k i pos, (k, Art.made i p pos) ∈ σ.graph.arts) ∧
      (∀ i pos k, (k, Art.made i p pos) ∈ σ.graph.arts → i.sto ≠ sto)) →
    get? (buildOrder env σ l s).2.storage sto = get? s.storage sto
  | [], s, _ => rfl
  | .art a :: l, s, h => buildOrder_storage sto l s fun p hp => h p (List.mem_cons_of_mem _ hp)
  | .pdr q :: l, s, h => by
    obtain ⟨⟨k0, i0, pos0, hm⟩, hq⟩ := h q (by simp)
    obtain ⟨outs, ho⟩ := producerOutputs_of_mem hm
    have hu := (buildProducer_untouched (env := env) ho s).1 sto (by
      intro b hb
      obtain ⟨k, i, pos, rfl, hk⟩ := Graph.mem_producerOutputs ho hb
      exact hq i pos k hk)
    unfold buildOrder
    rw [run_bind]
    revert hu
    cases buildProducer env σ q s with
    | mk rb s2 =>
      intro hu
      cases rb with
      | error e => exact hu
      | ok u =>
        simp only at hu ⊢
        rw [buildOrder_storage sto l s2 fun p hp => h p (List.mem_cons_of_mem _ hp), hu]

/-! ## New links match -/

/-- Known partitions of the outputs have an input fingerprint; links that were not there before
match. -/
def OnlyNew (s0 : St κ D) (σ : Snapshot) (outs : List Art) (ifps : PyDict κ Fp) (s : St κ D) :
    Prop :=
  (∀ a ∈ outs, ∀ ps, get? s.storage a.info.sto = some ps → ∀ sn ∈ ps,
    sn.part.inputFp.isSome = true) ∧
  ∀ a ∈ outs, ∀ k, σ.graph.keyOf a = some k → ∀ sn ∈ linksOf s σ k, sn ∈ linksOf s0 σ k ∨
    (get? ifps sn.part.key = sn.part.inputFp ∧ sn.part.inputFp.isSome = true)

section
variable {s0 : St κ D} {σ : Snapshot} {outs : List Art} {ifps : PyDict κ Fp}

theorem OnlyNew.addStorage (hok : OutsOk σ outs) {s : St κ D} (h : OnlyNew s0 σ outs ifps s)
    {a : Art} {ps : List (PSnap κ)}
    (hps : ∀ sn ∈ ps, sn.part.inputFp.isSome = true) :
    OnlyNew s0 σ outs ifps (addStorage s a.info.sto ps) := by
  refine ⟨fun b hb qs hqs sn hsn => ?_, h.2⟩
  simp only [Spec.addStorage, get?_set] at hqs
  split at hqs
  · rename_i he
    simp only [Option.some.injEq] at hqs
    subst hqs
    rcases (mem_setUpdate _ _ _).1 hsn with h1 | h1
    · cases hg : get? s.storage a.info.sto with
      | none => rw [hg] at h1; simp at h1
      | some l =>
        rw [hg] at h1
        exact h.1 b hb l (by rw [← he]; exact hg) sn h1
    · exact hps sn h1
  · exact h.1 b hb qs hqs sn hsn

theorem OnlyNew.addLinks (hok : OutsOk σ outs) {s : St κ D} (h : OnlyNew s0 σ outs ifps s)
    {k : Str} {ps : List (PSnap κ)}
    (hps : ∀ sn ∈ ps, get? ifps sn.part.key = sn.part.inputFp ∧ sn.part.inputFp.isSome = true) :
    OnlyNew s0 σ outs ifps (addLinks s σ k ps) := by
  refine ⟨h.1, fun b hb kb hkb sn hsn => ?_⟩
  by_cases hk : k = kb
  · subst hk
    rcases (linksOf_addLinks s σ k ps sn).1 hsn with h1 | h1
    · exact h.2 b hb k hkb sn h1
    · exact .inr (hps sn h1)
  · refine h.2 b hb kb hkb sn ?_
    unfold linksOf Spec.addLinks at hsn
    simp only [get?_set] at hsn
    rw [if_neg (by simp [hk])] at hsn
    exact hsn

theorem discover_hasFp {files : PyDict Str Str} {sto : Sto} {ps : List (PSnap κ)}
    (h : discover env files sto ifps = .ok ps) (hfp : sto.hasFp = true) :
    ∀ sn ∈ ps, sn.part.inputFp.isSome = true := by
  intro sn hsn
  have : ∃ l, snapAll env files sto l = .ok ps := by
    cases sto with
    | file t =>
      simp only [discover, bind, Except.bind] at h
      split at h
      · simp at h
      · exact ⟨_, h⟩
    | lit t v =>
      simp only [discover] at h
      split at h
      · simp at h
      · split at h
        · simp at h
        · split at h
          · simp only [Except.ok.injEq] at h; subst h; simp at hsn
          · exact ⟨_, h⟩
  obtain ⟨l, hl⟩ := this
  obtain ⟨fp, pk, c, h1, h2, _⟩ := mem_snapAll hl hsn
  obtain ⟨_, g2, _, g4, _⟩ := generate_ok h2
  rw [g2, g4, hfp]

theorem tri_discover_new (hi : IterOk env) (hok : OutsOk σ outs) {p : Pdr}
    (ho : σ.graph.producerOutputs p = .ok outs) (hfp : ∀ a ∈ outs, a.info.sto.hasFp = true)
    (hne : ifps ≠ []) :
    Tri (OnlyNew s0 σ outs ifps) (discoverProducerPartitions env σ p ifps)
      (fun _ => OnlyNew s0 σ outs ifps) (fun _ => True) := by
  refine Tri.lift_bind (fun outs' ho' => ?_) (fun _ _ => trivial)
  rw [ho] at ho'
  obtain rfl := Except.ok.inj ho'
  refine Tri.bind (Q := fun found s => OnlyNew s0 σ outs ifps s ∧ ∀ x ∈ found, ∀ sn ∈ x.2,
    get? ifps sn.part.key = sn.part.inputFp ∧ sn.part.inputFp.isSome = true) ?_ fun found => ?_
  · have : ∀ l, (∀ a ∈ l, a ∈ outs) → Tri (OnlyNew s0 σ outs ifps) (readOutputs env ifps l)
        (fun found s => OnlyNew s0 σ outs ifps s ∧ ∀ x ∈ found, ∀ sn ∈ x.2,
          get? ifps sn.part.key = sn.part.inputFp ∧ sn.part.inputFp.isSome = true)
        (fun _ => True) := by
      intro l
      induction l with
      | nil => exact fun _ => Tri.pure fun s hs => ⟨hs, by simp⟩
      | cons a l ih =>
        intro hl
        have ha : a ∈ outs := hl a (by simp)
        refine Tri.bind (Q := fun ps s => OnlyNew s0 σ outs ifps s ∧ ∀ sn ∈ ps,
          get? ifps sn.part.key = sn.part.inputFp ∧ sn.part.inputFp.isSome = true) ?_ fun ps => ?_
        · refine Tri.bind (Q := fun _ => OnlyNew s0 σ outs ifps) ?_ fun _ => ?_
          · refine Tri.gets_bind fun s hs => ?_
            cases contains s.storage a.info.sto with
            | true => exact Tri.pure (by rintro s' rfl; exact hs)
            | false =>
              refine Tri.gets_bind ?_
              rintro s' rfl
              refine Tri.lift_bind (fun qs hqs => ?_) (fun _ _ => trivial)
              refine Tri.effect ?_ (fun _ _ h => h) (fun _ _ => trivial)
              rintro s'' rfl
              exact hs.addStorage hok (discover_hasFp hqs (hfp a ha))
          · refine Tri.gets_bind fun s hs => Tri.pure ?_
            rintro s' rfl
            refine ⟨hs, fun sn hsn => ?_⟩
            rw [(hi.perm _).mem_iff, mem_filtered] at hsn
            obtain ⟨h1, h2⟩ := hsn
            refine ⟨h2.resolve_left hne, ?_⟩
            cases hg : get? s'.storage a.info.sto with
            | none => rw [hg] at h1; simp at h1
            | some qs => rw [hg] at h1; exact hs.1 a ha qs hg sn h1
        · refine Tri.of_state fun s hs => ?_
          refine Tri.bind ((ih fun a ha => hl a (List.mem_cons_of_mem _ ha)).conseq
            (fun s' h => by rw [h]; exact hs.1) (fun _ _ => id) (fun _ => id)) fun found => ?_
          refine Tri.pure ?_
          rintro s' ⟨h1, h2⟩
          refine ⟨h1, fun x hx => ?_⟩
          rcases List.mem_cons.1 hx with rfl | hx
          · exact hs.2
          · exact h2 x hx
    exact this outs fun _ => id
  · refine Tri.of_state fun s hs => ?_
    obtain ⟨hs, hf⟩ := hs
    refine Tri.bind (Q := fun _ => OnlyNew s0 σ outs ifps) ?_ fun _ => Tri.pure fun _ h => h
    have : ∀ l : List (Art × List (PSnap κ)), (∀ x ∈ l, ∀ sn ∈ x.2,
        get? ifps sn.part.key = sn.part.inputFp ∧ sn.part.inputFp.isSome = true) →
        Tri (OnlyNew s0 σ outs ifps) (linkOutputs σ l) (fun _ => OnlyNew s0 σ outs ifps)
          (fun _ => True) := by
      intro l
      induction l with
      | nil => exact fun _ => Tri.pure fun s hs => hs
      | cons x l ih =>
        intro hl
        refine Tri.need_bind (fun k hk => ?_) (fun _ _ => trivial)
        refine Tri.bind (Q := fun _ => OnlyNew s0 σ outs ifps) ?_
          fun _ => ih fun x hx => hl x (List.mem_cons_of_mem _ hx)
        refine Tri.effect ?_ (fun _ _ h => h) (fun _ _ => trivial)
        intro s hs
        exact hs.addLinks hok (hl x (by simp))
    exact (this found hf).conseq (fun s' h => by rw [h]; exact hs) (fun _ _ => id) (fun _ => id)

theorem tri_write_new (hok : OutsOk σ outs) {a : Art} {d : D} {fp : Fp} {pk : κ}
    {v : Nat} (hfp : get? ifps pk = some fp) :
    Tri (OnlyNew s0 σ outs ifps) (write env σ.graph (some σ) d a (some fp) pk v)
      (fun _ => OnlyNew s0 σ outs ifps) (fun _ => True) := by
  refine Tri.need_bind (fun k hk => ?_) (fun _ _ => trivial)
  refine Tri.raiseIf_bind (fun _ => ?_) (fun _ _ => trivial)
  refine Tri.lift_bind (fun part hpart => ?_) (fun _ _ => trivial)
  have hkey : part.key = pk ∧ part.inputFp = some fp :=
    ⟨(generate_ok hpart).2.2.1, (generate_ok hpart).2.1⟩
  refine Tri.bind (Q := fun sn s => OnlyNew s0 σ outs ifps s ∧ sn.part.key = pk ∧
    sn.part.inputFp = some fp) ?_ fun sn => ?_
  · unfold ioWrite
    split
    · refine Tri.lift_bind (fun c _ => ?_) (fun _ _ => trivial)
      refine Tri.bind (Q := fun _ => OnlyNew s0 σ outs ifps) (Tri.effect (fun _ h => h)
        (fun _ _ h => h) (fun _ _ => trivial)) fun _ => Tri.gets_bind fun s hs =>
        Tri.lift ?_ (fun _ _ => trivial)
      rintro sn s' hsn rfl
      refine ⟨hs, ?_⟩
      unfold snap at hsn
      split at hsn
      · simp only [Except.ok.injEq] at hsn; rw [← hsn]; exact hkey
      · simp at hsn
    · refine Tri.raiseIf_bind (fun _ => ?_) (fun _ _ => trivial)
      refine Tri.lift_bind (fun c _ => ?_) (fun _ _ => trivial)
      refine Tri.lift ?_ (fun _ _ => trivial)
      intro sn s' hsn hs
      refine ⟨hs, ?_⟩
      unfold snap at hsn
      split at hsn
      · simp only [Except.ok.injEq] at hsn; rw [← hsn]; exact hkey
      · simp at hsn
  · refine Tri.of_state ?_
    rintro s1 ⟨hs1, hsk, hsf⟩
    refine Tri.bind (Q := fun _ => OnlyNew s0 σ outs ifps) (Tri.effect ?_ (fun _ _ h => h)
      (fun _ _ => trivial)) fun _ => ?_
    · rintro s rfl
      refine hs1.addStorage hok fun sn' h => ?_
      rw [List.mem_singleton.1 h, hsf]; rfl
    refine Tri.bind (Q := fun _ => OnlyNew s0 σ outs ifps) (Tri.effect ?_ (fun _ _ h => h)
      (fun _ _ => trivial)) fun _ => Tri.pure fun _ h => h
    intro s hs
    refine hs.addLinks hok fun sn' h => ?_
    rw [List.mem_singleton.1 h, hsk, hsf]
    exact ⟨hfp, rfl⟩

theorem tri_buildPartitions_new (hok : OutsOk σ outs) {p : Pdr} {existing : List κ}
    (deps : List (κ × List (Str × List (PSnap κ)))) :
    Tri (OnlyNew s0 σ outs ifps) (buildPartitions env σ p existing ifps deps)
      (fun _ => OnlyNew s0 σ outs ifps) (fun _ => True) := by
  have hw : ∀ (fp : Fp) (pk : κ), get? ifps pk = some fp → ∀ (l : List D) (n : Nat),
      Tri (OnlyNew s0 σ outs ifps) (writeOutputs env σ p fp pk n l)
        (fun _ => OnlyNew s0 σ outs ifps) (fun _ => True) := by
    intro fp pk hfp l
    induction l with
    | nil => exact fun n => Tri.pure fun s hs => hs
    | cons d l ih =>
      intro n
      refine Tri.lift_bind (fun outs' _ => ?_) (fun _ _ => trivial)
      refine Tri.need_bind (fun a _ => ?_) (fun _ _ => trivial)
      refine Tri.need_bind (fun v _ => ?_) (fun _ _ => trivial)
      exact Tri.bind (tri_write_new hok hfp) fun _ => ih (n + 1)
  induction deps with
  | nil => exact Tri.pure fun s hs => hs
  | cons x deps ih =>
    obtain ⟨pk, d⟩ := x
    refine Tri.need_bind (fun fp hfp => ?_) (fun _ _ => trivial)
    refine Tri.bind (Q := fun _ => OnlyNew s0 σ outs ifps) ?_ fun _ => ih
    unfold buildPartition
    split
    · exact Tri.pure fun s hs => hs
    · refine Tri.bind (Q := fun _ => OnlyNew s0 σ outs ifps) (Tri.gets fun _ h => h)
        fun files => ?_
      refine Tri.lift_bind (fun args _ => ?_) (fun _ _ => trivial)
      refine Tri.bind (Q := fun _ => OnlyNew s0 σ outs ifps) (Tri.ghost fun _ h => h)
        fun _ => ?_
      refine Tri.lift_bind (fun l hl => ?_) (fun _ _ => trivial)
      refine Tri.lift_bind (fun passed _ => ?_) (fun _ _ => trivial)
      refine Tri.raiseIf_bind (fun _ => ?_) (fun _ _ => trivial)
      exact hw fp pk hfp l 0

end

/-- The links that building a producer adds match what it is asked for. -/
theorem buildProducer_new (hi : IterOk env) {σ : Snapshot} {p : Pdr} {outs : List Art}
    (ho : σ.graph.producerOutputs p = .ok outs) (hok : OutsOk σ outs)
    (hfp : ∀ a ∈ outs, a.info.sto.hasFp = true)
    (hself : ∀ n a k, (n, a) ∈ p.inputs → σ.graph.keyOf a = some k → ∀ b ∈ outs,
      σ.graph.keyOf b ≠ some k)
    (hmap : ∀ ins items, (cls env p).map ins = .ok items → items ≠ [])
    {s s' : St κ D} (hrun : buildProducer env σ p s = (.ok (), s'))
    (hsto : ∀ a ∈ outs, ∀ ps, get? s.storage a.info.sto = some ps → ∀ sn ∈ ps,
      sn.part.inputFp.isSome = true) :
    ∀ a ∈ outs, ∀ k, σ.graph.keyOf a = some k → ∀ sn ∈ linksOf s' σ k, sn ∈ linksOf s σ k ∨
      ∃ fp, sn.part.inputFp = some fp ∧ Asked env s' σ p sn.part.key fp := by
  have hun := buildProducer_untouched (env := env) ho s
  rw [hrun] at hun
  have hin := getInputs_congr (env := env) (σ := σ) (s := s) (s' := s') p.inputs
    fun n a k hm hk => hun.2.1 σ k fun _ b hb => hself n a k hm hk b hb
  unfold buildProducer at hrun
  rw [run_bind] at hrun
  have hst := getInputs_state (env := env) σ p.inputs s
  revert hst hin hrun
  cases getInputs env σ p.inputs s with
  | mk r1 s1 =>
    intro hrun hin hst
    simp only at hst hin
    subst hst
    cases r1 with
    | error e => simp at hrun
    | ok ins =>
      simp only [run_bind, run_lift] at hrun
      cases hcd : computeDependencies env p ins with
      | error e => rw [hcd] at hrun; simp at hrun
      | ok df =>
        obtain ⟨deps, ifps⟩ := df
        rw [hcd] at hrun
        simp only [run_ghost] at hrun
        obtain ⟨items, h1, h2, h3⟩ := computeDependencies_ok hcd
        have hdne : deps ≠ [] := by
          rw [h2]
          intro he
          have hne := hmap _ _ h1
          cases items with
          | nil => exact hne rfl
          | cons x items =>
            have := (mem_keys_ofItems (x :: items) x.1).2 (by simp)
            rw [he] at this
            simp [keys] at this
        have hne := inputFingerprints_ne h3 hdne
        have htri : Tri (OnlyNew s1 σ outs ifps)
            (discoverProducerPartitions env σ p ifps >>= fun existing =>
              buildPartitions env σ p existing ifps deps)
            (fun _ => OnlyNew s1 σ outs ifps) (fun _ => True) :=
          Tri.bind (tri_discover_new hi hok ho hfp hne) fun existing =>
            tri_buildPartitions_new hok deps
        have hnew := htri.ok (s := { s1 with invs := s1.invs ++ invsOf env s1.files p ifps deps })
          ⟨hsto, fun a _ k _ sn hsn => .inl hsn⟩ (by rw [run_bind]; exact hrun)
        intro a ha k hk sn hsn
        rcases hnew.2 a ha k hk sn hsn with h4 | ⟨h4, h5⟩
        · exact .inl h4
        · obtain ⟨fp, hfp'⟩ := Option.isSome_iff_exists.1 h5
          refine .inr ⟨fp, hfp', (asked_iff hin hcd _ _).2 (h4.trans hfp')⟩

end Arti.Spec
