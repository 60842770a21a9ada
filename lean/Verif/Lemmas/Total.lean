import Verif.Lemmas.Linked
import Verif.Lemmas.Ops

/-! A build whose producers evaluate, in a process that is not interrupted, does not raise. -/

namespace Arti.M
variable {κ D α β : Type}

/-- Both triples hold. -/
theorem Tri.and {P P' : St κ D → Prop} {m : M κ D α} {Q Q' : α → St κ D → Prop}
    {E E' : St κ D → Prop} (h : Tri P m Q E) (h' : Tri P' m Q' E') :
    Tri (fun s => P s ∧ P' s) m (fun a s => Q a s ∧ Q' a s) (fun s => E s ∧ E' s) := by
  rintro s ⟨h1, h2⟩
  have := h s h1
  have := h' s h2
  revert this ‹match m s with | (.ok a, s') => Q a s' | (.error _, s') => E s'›
  cases m s with
  | mk r s' => cases r <;> exact fun a b => ⟨a, b⟩

variable {P : St κ D → Prop} {E : St κ D → Prop}

/-- An effect is not interrupted without a budget. -/
theorem Tri.effect_none {f : St κ D → St κ D} {Q : Unit → St κ D → Prop}
    (hb : ∀ s, P s → s.budget = none) (h : ∀ s, P s → Q () (f s)) :
    Tri P (M.effect f) Q E := by
  intro s hs
  unfold M.effect
  rw [hb s hs]
  exact h s hs

theorem Tri.lift_ok {x : Except Err α} {a : α} {f : α → M κ D β} {R : β → St κ D → Prop}
    (hx : x = .ok a) (h : Tri P (f a) R E) : Tri P (M.lift x >>= f) R E := by
  subst hx; exact h

theorem Tri.need_some {x : Option α} {e : Err} {a : α} {f : α → M κ D β} {R : β → St κ D → Prop}
    (hx : x = some a) (h : Tri P (f a) R E) : Tri P (M.need x e >>= f) R E := by
  subst hx; exact h

theorem Tri.raiseIf_false {b : Bool} {e : Err} {f : Unit → M κ D β} {R : β → St κ D → Prop}
    (hx : b = false) (h : Tri P (f ()) R E) : Tri P (M.raiseIf b e >>= f) R E := by
  subst hx; exact h

/-- What never raises returns. -/
theorem Tri.total {m : M κ D α} {Q : α → St κ D → Prop} (h : Tri P m Q fun _ => False)
    {s : St κ D} (hs : P s) : ∃ a s', m s = (.ok a, s') ∧ Q a s' := by
  have := h s hs
  revert this
  cases m s with
  | mk r s' =>
    cases r with
    | ok a => exact fun h => ⟨a, s', rfl, h⟩
    | error e => exact False.elim

end Arti.M

namespace Arti.Spec
open PyDict World M
variable {κ D : Type} [DecidableEq κ] {env : Env κ D} {gs : Graph → Prop}

/-- The process is not interrupted, and the files are of some kind. -/
def Calm (K : PyDict Str Str → Prop) (s : St κ D) : Prop := s.budget = none ∧ K s.files

/-- The kind of files is kept by writing produced files, and discovering produced partitions does
not raise. -/
structure Kind (env : Env κ D) (gs : Graph → Prop) (K : PyDict Str Str → Prop) : Prop where
  set : ∀ files path c, K files → ProducedPath env gs path → K (PyDict.set files path c)
  disc : ∀ files, K files → ∀ i p pos, Made gs i p pos → ∀ ifps : PyDict κ Fp, ifps ≠ [] →
    ∃ ps, discover env files i.sto ifps = .ok ps

section
variable {K : PyDict Str Str → Prop} {σ : Snapshot} {p : Pdr}

theorem total_read (hK : Kind env gs K) {i : ArtInfo} {q : Pdr} {pos : Nat} (hm : Made gs i q pos)
    {ifps : PyDict κ Fp} (hne : ifps ≠ []) :
    Tri (Calm K) (readArtifactPartitions env (.made i q pos) ifps) (fun _ => Calm K)
      (fun _ => False) := by
  refine Tri.bind (Q := fun _ => Calm K) ?_ fun _ => Tri.gets_bind fun s hs =>
    Tri.pure fun s' h => by rw [h]; exact hs
  refine Tri.gets_bind fun s hs => ?_
  cases contains s.storage (Art.made i q pos).info.sto with
  | true => exact Tri.pure fun s' h => by rw [h]; exact hs
  | false =>
    refine Tri.gets_bind fun s' hs' => ?_
    subst hs'
    obtain ⟨ps, hps⟩ := hK.disc _ hs.2 i q pos hm ifps hne
    refine Tri.lift_ok hps (Tri.effect_none ?_ ?_) <;> rintro s rfl
    · exact hs.1
    · exact hs

theorem total_readOutputs (hK : Kind env gs K) {ifps : PyDict κ Fp} (hne : ifps ≠ []) :
    ∀ outs : List Art, (∀ a ∈ outs, ∃ i q pos, a = .made i q pos ∧ Made gs i q pos) →
    Tri (Calm K) (readOutputs env ifps outs) (fun found s => Calm K s ∧ found.map Prod.fst = outs)
      (fun _ => False)
  | [], _ => Tri.pure fun _ h => ⟨h, rfl⟩
  | a :: outs, h => by
    obtain ⟨i, q, pos, rfl, hm⟩ := h a (by simp)
    refine Tri.bind (total_read hK hm hne) fun ps => ?_
    refine Tri.bind (total_readOutputs hK hne outs fun a ha => h a (List.mem_cons_of_mem _ ha))
      fun found => ?_
    exact Tri.pure fun s hs => ⟨hs.1, by simp [hs.2]⟩

theorem total_linkOutputs : ∀ found : List (Art × List (PSnap κ)),
    (∀ x ∈ found, ∃ k, σ.graph.keyOf x.1 = some k) →
    Tri (Calm (κ := κ) (D := D) K) (linkOutputs σ found) (fun _ => Calm K) (fun _ => False)
  | [], _ => Tri.pure fun _ h => h
  | (a, ps) :: found, h => by
    obtain ⟨k, hk⟩ := h (a, ps) (by simp)
    refine Tri.need_some hk ?_
    exact Tri.bind (Q := fun _ => Calm K) (Tri.effect_none (fun _ h => h.1) fun _ h => h) fun _ =>
      total_linkOutputs found fun x hx => h x (List.mem_cons_of_mem _ hx)

theorem total_discover (hK : Kind env gs K) (hg : gs σ.graph) {ifps : PyDict κ Fp} (hne : ifps ≠ [])
    {outs : List Art} (ho : σ.graph.producerOutputs p = .ok outs) :
    Tri (Calm K) (discoverProducerPartitions env σ p ifps) (fun _ => Calm K) (fun _ => False) := by
  have hm : ∀ a ∈ outs, ∃ k i pos, a = .made i p pos ∧ (k, a) ∈ σ.graph.arts :=
    fun a ha => Graph.mem_producerOutputs ho ha
  refine Tri.lift_ok ho (Tri.bind (total_readOutputs hK hne outs fun a ha => ?_) fun found => ?_)
  · obtain ⟨k, i, pos, rfl, h⟩ := hm a ha
    exact ⟨i, p, pos, rfl, _, hg, k, h⟩
  · refine Tri.of_state fun s ⟨hs, hf⟩ => ?_
    refine Tri.bind (Q := fun _ => Calm K)
      ((total_linkOutputs found fun x hx => ?_).conseq (fun s' h => by rw [h]; exact hs)
        (fun _ _ => id) (fun _ => id)) fun _ => Tri.pure fun _ => id
    obtain ⟨k, i, pos, h1, h2⟩ := hm x.1 (by rw [← hf]; exact List.mem_map_of_mem hx)
    exact Graph.keyOf_of_mem h2

theorem total_write (hK : Kind env gs K) (hg : gs σ.graph) {k : Str} {i : ArtInfo} {pos view : Nat}
    (hm : (k, Art.made i p pos) ∈ σ.graph.arts) {d : D} {fp : Fp} {pk : κ} {c : Str}
    (henc : env.enc i view d = .ok c) {part : Prt κ}
    (hgen : generate env i.sto (some fp) pk = .ok part) {x : PSnap κ × Str}
    (hst : stored env part c = .ok x) :
    Tri (Calm K) (write env σ.graph (some σ) d (.made i p pos) (some fp) pk view)
      (fun _ => Calm K) (fun _ => False) := by
  obtain ⟨k', hk'⟩ := Graph.keyOf_of_mem hm
  refine Tri.need_some hk' (Tri.raiseIf_false rfl (Tri.lift_ok hgen ?_))
  refine Tri.bind (Q := fun _ => Calm K) ?_ fun sn => ?_
  · unfold ioWrite
    cases hl : part.loc with
    | file path =>
      refine Tri.lift_ok henc ?_
      refine Tri.bind (Q := fun _ s => Calm K s ∧ get? s.files path = some c)
        (Tri.effect_none (fun _ h => h.1) fun s hs => ?_) fun _ => ?_
      · exact ⟨⟨hs.1, hK.set _ _ _ hs.2 ⟨i, p, pos, fp, pk, part, ⟨_, hg, k, hm⟩, hgen, hl⟩⟩,
          by simp [get?_set]⟩
      · refine Tri.gets_bind fun s hs => ?_
        intro s' hs'
        subst hs'
        simp only [run_lift, snap, content, hl, hs.2]
        exact hs.1
    | lit id v =>
      have hv : v = none := by
        unfold stored at hst
        rw [hl] at hst
        cases v with
        | none => rfl
        | some _ => simp at hst
      subst hv
      refine Tri.raiseIf_false rfl (Tri.lift_ok henc ?_)
      intro s hs
      simpa only [run_lift, snap, content] using hs
  · refine Tri.bind (Q := fun _ => Calm K) (Tri.effect_none (fun _ h => h.1) fun _ h => h) fun _ => ?_
    exact Tri.bind (Q := fun _ => Calm K) (Tri.effect_none (fun _ h => h.1) fun _ h => h) fun _ =>
      Tri.pure fun _ => id

theorem total_writeOutputs (hK : Kind env gs K) (hd : Disciplined env gs) (hg : gs σ.graph)
    (hone : OneEach σ.graph) {o : Outcome κ D} {outs : List D} (houts : o.outs = .ok outs)
    (hall : ∀ j, j < outs.length → ∃ k i, (k, Art.made i p j) ∈ σ.graph.arts)
    (hp : ∀ k i pos, (k, Art.made i p pos) ∈ σ.graph.arts →
      ∃ x, place env (cls env p) i pos o = .ok x) :
    ∀ (l : List D) (n : Nat), outs.drop n = l →
    Tri (Calm K) (writeOutputs env σ p o.fp o.key n l) (fun _ => Calm K) (fun _ => False)
  | [], n, _ => Tri.pure fun _ => id
  | d :: l, n, hl => by
    have hn : outs[n]? = some d := by
      rw [← List.head?_drop, hl]; rfl
    obtain ⟨hlt, -⟩ := List.getElem?_eq_some_iff.1 hn
    obtain ⟨k, i, hm⟩ := hall n hlt
    obtain ⟨arts, ho⟩ := producerOutputs_of_mem hm
    have hmem := Graph.mem_producerOutputs_of ho hm fun k' i' h => hone _ _ _ _ _ _ h hm
    obtain ⟨j, hj⟩ := List.mem_iff_getElem?.1 hmem
    obtain ⟨k', i', he, -⟩ := Graph.producerOutputs_pos
      (fun k i pos h => hd.noGap σ.graph hg k i p pos h) ho hj
    simp only [Art.made.injEq, true_and] at he
    obtain ⟨rfl, rfl⟩ := he
    obtain ⟨x, hx⟩ := hp k i n hm
    obtain ⟨h1, part, h2, h3⟩ := place_ok (b := x.2) (sn := x.1) hx
    simp only [outBytes, houts, bind, Except.bind, orElse, hn] at h1
    cases hv : (cls env p).outputs[n]? with
    | none => rw [hv] at h1; simp at h1
    | some view =>
      rw [hv] at h1
      simp only at h1
      refine Tri.lift_ok ho (Tri.need_some hj (Tri.need_some hv ?_))
      refine Tri.bind (total_write hK hg hm h1 h2 h3) fun _ =>
        total_writeOutputs hK hd hg hone houts hall hp l (n + 1) ?_
      rw [← List.tail_drop, hl]; rfl

omit [DecidableEq κ] in
theorem runBuild_ok {c : PClass κ D} {args : Except Err (List (Str × D))} {outs : List D}
    (h : runBuild c args = .ok outs) :
    ∃ a, args = .ok a ∧ c.build a = .ok outs ∧ c.validate outs = .ok true := by
  unfold runBuild at h
  cases args with
  | error e => simp [bind, Except.bind] at h
  | ok a =>
    simp only [bind, Except.bind] at h
    cases hb : c.build a with
    | error e => rw [hb] at h; simp at h
    | ok outs' =>
      rw [hb] at h
      simp only at h
      cases hv : c.validate outs' with
      | error e => rw [hv] at h; simp at h
      | ok passed =>
        rw [hv] at h
        cases passed with
        | false => simp at h
        | true =>
          simp only [↓reduceIte, Except.ok.injEq] at h
          subst h
          exact ⟨a, rfl, hb, hv⟩

theorem total_buildPartition (hK : Kind env gs K) (hd : Disciplined env gs) (hg : gs σ.graph)
    (hone : OneEach σ.graph) (hall : AllOutputs env σ.graph) {k : Str} {i : ArtInfo} {pos : Nat}
    (hm : (k, Art.made i p pos) ∈ σ.graph.arts) {o : Outcome κ D}
    (hp : ∀ k i pos, (k, Art.made i p pos) ∈ σ.graph.arts →
      ∃ x, place env (cls env p) i pos o = .ok x) {s1 : St κ D}
    {d : List (Str × List (PSnap κ))} (hod : OutcomeOf env s1 p o d) {existing : List κ} :
    Tri (fun s => Calm K s ∧ FSub s1.files s.files)
      (buildPartition env σ p existing o.fp d o.key) (fun _ => Calm K) (fun _ => False) := by
  unfold buildPartition
  cases existing.contains o.key with
  | true => exact Tri.pure fun _ h => h.1
  | false =>
    simp only [Bool.false_eq_true, ↓reduceIte]
    refine Tri.gets_bind fun s hs => ?_
    have h1 := hod s.files hs.2
    obtain ⟨x, hx⟩ := hp k i pos hm
    have : ∃ outs, o.outs = .ok outs := by
      have := (place_ok (b := x.2) (sn := x.1) hx).1
      unfold outBytes at this
      cases ho : o.outs with
      | ok outs => exact ⟨_, rfl⟩
      | error e => rw [ho] at this; simp [bind, Except.bind] at this
    obtain ⟨outs, houts⟩ := this
    rw [houts] at h1
    obtain ⟨args, ha, hb, hv⟩ := runBuild_ok h1.symm
    refine Tri.lift_ok ha (Tri.bind (Q := fun _ => Calm K) (Tri.ghost ?_) fun _ => ?_)
    · rintro s' rfl; exact hs.1
    · refine Tri.lift_ok hb (Tri.lift_ok hv (Tri.raiseIf_false rfl ?_))
      exact total_writeOutputs hK hd hg hone houts (hall _ _ _ _ hm _ _ hb) hp _ 0 rfl

theorem total_buildPartitions (hK : Kind env gs K) (hone : OneEach σ.graph)
    (hall : AllOutputs env σ.graph) {k : Str} {i : ArtInfo} {pos : Nat} (hm : (k, Art.made i p pos) ∈ σ.graph.arts) {existing : List κ}
    {r : PyDict Str (Data κ)} {rs : List (Outcome κ D)}
    (hp : ∀ o ∈ rs, ∀ k i pos, (k, Art.made i p pos) ∈ σ.graph.arts →
      ∃ x, place env (cls env p) i pos o = .ok x) :
    ∀ (deps : List (κ × List (Str × List (PSnap κ)))) {s1 : St κ D}, Ctx (LinkEval env) env gs s1 σ r p rs →
    (∀ pk d, (pk, d) ∈ deps → ∃ o ∈ rs, o.key = pk ∧ OutcomeOf env s1 p o d) →
    Tri (fun s => Calm K s ∧ J (LinkEval env) env gs s1 s)
      (buildPartitions env σ p existing (rs.map fun o => (o.key, o.fp)) deps) (fun _ => Calm K)
      (fun _ => False)
  | [], _, _, _ => Tri.pure fun _ h => h.1
  | (pk, d) :: deps, s1, hc, hdeps => by
    obtain ⟨o, ho, rfl, hod⟩ := hdeps pk d (by simp)
    have hget : get? (rs.map fun o => (o.key, o.fp)) o.key = some o.fp := by
      refine (mem_iff_get? ?_).1 (List.mem_map.2 ⟨o, ho, rfl⟩)
      simp only [keys, List.map_map]; exact hc.nodup
    refine Tri.need_some hget ?_
    have h1 := Tri.and (total_buildPartition (existing := existing) hK hc.disc hc.graph hone hall hm
      (hp o ho) hod)
      (tri_buildPartition (existing := existing) hc ho hod)
    refine Tri.bind (h1.conseq (fun s h => ⟨⟨h.1, h.2.e.files⟩, h.2⟩) (fun _ _ => id)
      (fun _ h => h.1)) fun _ => Tri.of_state fun s hs => ?_
    obtain ⟨hs1, hs2, _⟩ := hs
    refine (total_buildPartitions hK hone hall hm hp deps (hc.rebase hs2) ?_).conseq ?_ (fun _ _ => id)
      (fun _ => id)
    · intro pk' d' hmem
      obtain ⟨o', h1, h2, h3⟩ := hdeps pk' d' (List.mem_cons_of_mem _ hmem)
      exact ⟨o', h1, h2, fun files hf => h3 files fun p b hb => hf p b (hs2.e.files p b hb)⟩
    · rintro s' rfl; exact ⟨hs1, hs2.rebase⟩

/-- If the outcomes can be computed then so can the dependencies. -/
theorem fps_of_outcomes (xs : List (Str × (ArtInfo × Data κ))) :
    ∀ {items : List (κ × List (Str × List (PSnap κ)))} {rs : List (Outcome κ D)},
    outcomes env p xs items = .ok rs → ∃ fps, inputFingerprints env p items = .ok fps
  | [], _, _ => ⟨[], rfl⟩
  | (pk, d) :: items, rs, h => by
    simp only [outcomes, bind, Except.bind] at h
    cases hf : computeInputFingerprint env p d with
    | error e => rw [hf] at h; simp at h
    | ok fp =>
      rw [hf] at h
      cases hr : outcomes env p xs items with
      | error e => rw [hr] at h; simp at h
      | ok rs' =>
        obtain ⟨fps, h1⟩ := fps_of_outcomes xs hr
        exact ⟨(pk, fp) :: fps, by simp [inputFingerprints, hf, h1, bind, Except.bind]⟩

theorem computeDependencies_of_eval {xs : List (Str × (ArtInfo × Data κ))}
    {rs : List (Outcome κ D)} (h : evalProducer env p xs = .ok rs) :
    ∃ x, computeDependencies env p (xs.map fun x => (x.1, env.iter (x.2.2.map Prod.fst))) =
      .ok x := by
  unfold evalProducer at h
  simp only [bind, Except.bind] at h
  unfold computeDependencies
  simp only [bind, Except.bind, cls]
  split at h
  · simp at h
  · rename_i items hitems
    obtain ⟨fps, hfps⟩ := fps_of_outcomes xs h
    simp only [hfps]
    exact ⟨_, rfl⟩

omit [DecidableEq κ] in
theorem getInputs_total (s : St κ D) : ∀ l : List (Str × Art),
    (∀ x ∈ l, ∃ k, σ.graph.keyOf x.2 = some k) → ∃ ins, getInputs env σ l s = (.ok ins, s)
  | [], _ => ⟨[], rfl⟩
  | (n, a) :: l, h => by
    obtain ⟨k, hk⟩ := h (n, a) (by simp)
    obtain ⟨ins, hi⟩ := getInputs_total s l fun x hx => h x (List.mem_cons_of_mem _ hx)
    refine ⟨(n, env.iter ((get? s.links (σ, k)).getD [])) :: ins, ?_⟩
    simp only [getInputs, run_bind, M.need, hk, readSnapshotPartitions, run_gets, hi, run_pure]

theorem placeAll_forall {c : PClass κ D} {i : ArtInfo} {pos : Nat} :
    ∀ {rs : List (Outcome κ D)} {l : Data κ}, placeAll env c i pos rs = .ok l →
    ∀ o ∈ rs, ∃ x, place env c i pos o = .ok x
  | [], _, _, o, ho => by simp at ho
  | r :: rs, l, h, o, ho => by
    obtain ⟨y, xs, h1, h2, rfl⟩ := placeAll_cons.1 h
    rcases List.mem_cons.1 ho with rfl | ho
    · exact ⟨y, h1⟩
    · exact placeAll_forall h2 o ho

/-- A producer whose outcomes can be evaluated and placed is built without error. -/
theorem total_buildProducer (hK : Kind env gs K) (hd : Disciplined env gs) {s : St κ D}
    {r : PyDict Str (Data κ)} (hg : gs σ.graph) (hone : OneEach σ.graph)
    (hall : AllOutputs env σ.graph) (hw : WInv env gs s) (hl : LInv (LinkEval env) s) (hr : (σ, r) ∈ s.raws)
    (hin : ∀ n a, (n, a) ∈ p.inputs → (∃ k, σ.graph.keyOf a = some k) ∧
      Full env s σ (rawOf σ r) a)
    {k0 : Str} {i0 : ArtInfo} {pos0 : Nat} (hm0 : (k0, Art.made i0 p pos0) ∈ σ.graph.arts)
    (hevs : ∀ k i pos, (k, Art.made i p pos) ∈ σ.graph.arts →
      ∃ ℓ, evalArt env (rawOf σ r) (.made i p pos) = .ok ℓ)
    (hc : Calm K s) (hn : NoClash env gs (buildProducer env σ p s).2.invs) :
    ∃ s', buildProducer env σ p s = (.ok (), s') ∧ Calm K s' := by
  have hm : Made gs i0 p pos0 := ⟨_, hg, k0, hm0⟩
  obtain ⟨ins, hgi⟩ := getInputs_total (env := env) (σ := σ) s p.inputs fun x hx =>
    (hin x.1 x.2 hx).1
  obtain ⟨c, v, inp⟩ := p
  obtain ⟨xs, hx1, hx2, hx3⟩ := getInputs_spec hd.iter hl inp (fun n a h k _ => (hin n a h).2) ins s
    hgi
  subst hx2
  obtain ⟨ℓ, hev⟩ := hevs k0 i0 pos0 hm0
  simp only [evalArt, bind, Except.bind] at hev
  cases hep : evalPdr env (rawOf σ r) (.mk c v inp) with
  | error e => rw [hep] at hev; simp at hev
  | ok rs =>
  rw [hep] at hev
  simp only at hev
  have hep' := hep
  simp only [evalPdr, hx1, bind, Except.bind] at hep'
  obtain ⟨⟨deps, ifps⟩, hcd⟩ := computeDependencies_of_eval hep'
  obtain ⟨rs', h1, rfl, h3, h4, h5, h6, h7⟩ := computeDependencies_spec hd hm hcd
  rw [hep'] at h1
  obtain rfl := Except.ok.inj h1
  have hnd := evalPdr_nodup hep
  have hrne : rs ≠ [] := by simpa using h3
  have hplace : ∀ o ∈ rs, ∀ k i pos, (k, Art.made i (.mk c v inp) pos) ∈ σ.graph.arts →
      ∃ x, place env (cls env (.mk c v inp)) i pos o = .ok x := by
    intro o ho k i pos hm'
    obtain ⟨ℓ', hev'⟩ := hevs k i pos hm'
    simp only [evalArt, bind, Except.bind, hep] at hev'
    exact placeAll_forall hev' o ho
  obtain ⟨outs, ho⟩ := producerOutputs_of_mem hm0
  unfold buildProducer at hn ⊢
  simp only [run_bind, hgi, run_lift, hcd, run_ghost] at hn ⊢
  generalize hs1 : ({ s with
    invs := s.invs ++ invsOf env s.files (.mk c v inp) (rs.map fun o => (o.key, o.fp)) deps }
    : St κ D) = s1 at hn ⊢
  have hfiles : s1.files = s.files := by rw [← hs1]
  have hlog : LogHas env s1.invs (.mk c v inp) rs := by
    intro o ho
    obtain ⟨d, hd1, hd2⟩ := h6 o ho
    refine ⟨⟨.mk c v inp, o.key, o.fp, readArgs env s.files (Pdr.mk c v inp).inputs d
      (cls env (.mk c v inp)).buildInputs⟩, ?_, rfl, rfl, rfl, ?_⟩
    · rw [← hs1]
      refine List.mem_append.2 (.inr (List.mem_filterMap.2 ⟨_, hd1, ?_⟩))
      have hfp : get? (rs.map fun o => (o.key, o.fp)) o.key = some o.fp := by
        refine (mem_iff_get? ?_).1 (List.mem_map.2 ⟨o, ho, rfl⟩)
        simp only [keys, List.map_map]; exact hnd
      simp [hfp]
    · rw [hd2]
      simp only
      rw [readArgs_eq (show XGood _ (Pdr.mk c v inp).inputs xs from hx3) (h7 _ _ hd1)]
  have hkeep : Frame (fun s : St κ D => s.invs = s1.invs) :=
    ⟨fun _ _ h => h, fun _ _ h => h, fun _ _ h => h, fun _ _ h => h, fun _ _ h => h⟩
  have hclash : NoClash env gs s1.invs := by
    have := (Keeps.bind (hkeep.discover (env := env) σ (.mk c v inp)
      (rs.map fun o => (o.key, o.fp))) fun existing =>
        hkeep.buildPartitions (env := env) σ (.mk c v inp) existing
          (rs.map fun o => (o.key, o.fp)) deps) s1 rfl
    rw [run_bind] at this
    rw [← this]; exact hn
  have hctx : Ctx (LinkEval env) env gs s1 σ r (.mk c v inp) rs :=
    ⟨hd, hg, by rw [← hs1]; exact hr, hnd,
      fun i pos o ho sn c hp => ⟨rs, hep, o, ho, c, hp⟩, hlog, hclash⟩
  have hj1 : J (LinkEval env) env gs s1 s1 := by
    refine ⟨?_, ?_, Ext.refl _⟩
    · rw [← hs1]; exact hw.addInvs _
    · rw [← hs1]; exact ⟨hl.nodup, hl.ok⟩
  have hc1 : Calm K s1 := by rw [← hs1]; exact hc
  have hdeps : ∀ s2, J (LinkEval env) env gs s1 s2 → ∀ pk d, (pk, d) ∈ deps →
      ∃ o ∈ rs, o.key = pk ∧ OutcomeOf env s2 (.mk c v inp) o d := by
    intro s2 hj2 pk d hmem
    obtain ⟨o, ho, hk, ho2⟩ := h5 pk d hmem
    refine ⟨o, ho, hk, fun files hf => ?_⟩
    have hsub : FSub s.files files := fun p b hb =>
      hf p b (hj2.e.files p b (by rw [hfiles]; exact hb))
    rw [ho2, readArgs_eq (show XGood _ (Pdr.mk c v inp).inputs xs from hx3.mono hsub) (h7 _ _ hmem)]
  have tri : Tri (· = s1) (discoverProducerPartitions env σ (.mk c v inp)
      (rs.map fun o => (o.key, o.fp)) >>= fun existing =>
      buildPartitions env σ (.mk c v inp) existing (rs.map fun o => (o.key, o.fp)) deps)
      (fun _ => Calm K) (fun _ => False) := by
    have h := Tri.and (total_discover hK hg h3 ho) (tri_discover hctx hrne)
    refine Tri.bind (h.conseq (fun s h => by rw [h]; exact ⟨hc1, hj1⟩) (fun _ _ => id)
      (fun _ h => h.1)) fun existing => Tri.of_state fun s2 hs2 => ?_
    refine (total_buildPartitions hK hone hall hm0 hplace deps (hctx.rebase hs2.2.1)
      (hdeps s2 hs2.2.1)).conseq ?_ (fun _ _ => id) (fun _ => id)
    rintro s' rfl
    exact ⟨hs2.1, hs2.2.1.rebase⟩
  obtain ⟨_, s', h8, h9⟩ := tri.total rfl
  rw [run_bind] at h8
  exact ⟨s', h8, h9⟩

/-- How builds of producers keep an invariant and complete their outputs. -/
def Completes (env : Env κ D) (gs : Graph → Prop) (σ : Snapshot) (r : PyDict Str (Data κ))
    (W : St κ D → Prop) : Prop :=
  ∀ (p : Pdr) (s s' : St κ D), WInv env gs s → LInv (LinkEval env) s → (σ, r) ∈ s.raws →
    SnapUnique s.raws → W s →
    (∀ n a, (n, a) ∈ p.inputs → ∀ k, σ.graph.keyOf a = some k → Full env s σ (rawOf σ r) a) →
    (∃ k i pos, (k, Art.made i p pos) ∈ σ.graph.arts) →
    buildProducer env σ p s = (.ok (), s') → NoClash env gs s'.invs →
    W s' ∧ ∀ k i pos, (k, Art.made i p pos) ∈ σ.graph.arts →
      Full env s' σ (rawOf σ r) (.made i p pos)

theorem sizeOf_input {n : Str} {a : Art} : ∀ {l : Ins}, (n, a) ∈ l.toList → sizeOf a < sizeOf l
  | .nil, h => by simp [Ins.toList] at h
  | .cons m b l, h => by
    simp only [Ins.toList, List.mem_cons, Prod.mk.injEq] at h
    rcases h with ⟨rfl, rfl⟩ | h
    · simp; omega
    · have := sizeOf_input h
      simp; omega

/-- No producer has its own output as an input: producers are made from their inputs. -/
theorem not_own_input {p : Pdr} {n : Str} {i : ArtInfo} {pos : Nat} :
    (n, Art.made i p pos) ∉ p.inputs := by
  intro h
  obtain ⟨c, v, l⟩ := p
  have := sizeOf_input (l := l) h
  simp at this
  omega

theorem completes_single (hd : Disciplined env gs) {σ : Snapshot} (hg : gs σ.graph)
    (hso : SingleOutput env σ.graph) (r : PyDict Str (Data κ)) :
    Completes env gs σ r (fun _ => True) := by
  intro p s s' hw hl hr hu _ hfull _ hrun hn
  exact ⟨trivial, fun k i pos hm =>
    (buildProducer_spec hd (k0 := k) (i0 := i) (pos0 := pos) hg hw hl hr hu hfull hm hrun
      hn).2.2.2 rfl hso⟩

theorem SingleOutput.oneEach {g : Graph} (h : SingleOutput env g) : OneEach g :=
  fun _ _ _ _ _ _ h1 h2 => (h.unique _ _ _ _ _ _ _ h1 h2).1

theorem SingleOutput.allOutputs (hd : Disciplined env gs) {g : Graph} (hg : gs g)
    (h : SingleOutput env g) : AllOutputs env g := by
  intro k i p pos hm args outs hb j hj
  rw [(h.one _ _ _ _ hm).2 _ _ hb] at hj
  obtain rfl : j = 0 := by omega
  exact hd.noGap g hg k i p pos hm 0 (Nat.zero_le _)

/-- A schedule whose artifacts evaluate is built without error. -/
theorem total_buildOrder (hK : Kind env gs K) (hd : Disciplined env gs)
    {r : PyDict Str (Data κ)} (hg : gs σ.graph) (hone : OneEach σ.graph)
    (hall : AllOutputs env σ.graph) {W : St κ D → Prop} (hW : Completes env gs σ r W)
    (hin : ∀ k i p pos, (k, Art.made i p pos) ∈ σ.graph.arts → ∀ n a, (n, a) ∈ p.inputs →
      ∃ k, σ.graph.keyOf a = some k)
    (hev : ∀ k a, (k, a) ∈ σ.graph.arts → ∃ ℓ, evalArt env (rawOf σ r) a = .ok ℓ) :
    ∀ (nodes done : List Nd) (s : St κ D), Sched σ.graph done nodes →
    W s → WInv env gs s → LInv (LinkEval env) s → (σ, r) ∈ s.raws → SnapUnique s.raws →
    (∀ k i, (k, Art.raw i) ∈ σ.graph.arts → Full env s σ (rawOf σ r) (.raw i)) →
    (∀ k i p pos, (k, Art.made i p pos) ∈ σ.graph.arts → Nd.pdr p ∈ done →
      Full env s σ (rawOf σ r) (.made i p pos)) →
    Calm K s → NoClash env gs (buildOrder env σ nodes s).2.invs →
    ∃ s', buildOrder env σ nodes s = (.ok (), s') ∧ Calm K s'
  | [], done, s, _, _, _, _, _, _, _, _, hc, _ => ⟨s, rfl, hc⟩
  | .art x :: rest, done, s, hsch, hws, hw, hl, hr, hu, hraw, hmade, hc, hn =>
    total_buildOrder hK hd hg hone hall hW hin hev rest done s hsch hws hw hl hr hu hraw hmade hc hn
  | .pdr p :: rest, done, s, hsch, hws, hw, hl, hr, hu, hraw, hmade, hc, hn => by
    obtain ⟨⟨k0, i0, pos0, hm0⟩, hins, hrest⟩ := hsch
    have hmono : ∀ e ∈ (buildProducer env σ p s).2.invs,
        e ∈ (buildOrder env σ (.pdr p :: rest) s).2.invs := by
      unfold buildOrder
      rw [run_bind]
      cases hbp : buildProducer env σ p s with
      | mk rb s2 =>
        cases rb with
        | error e => exact fun _ => id
        | ok u =>
          have hf : Frame (fun s : St κ D => ∀ e ∈ s2.invs, e ∈ s.invs) :=
            ⟨fun _ _ h => h, fun _ _ h => h, fun _ _ h => h, fun _ _ h => h, fun _ _ h => h⟩
          exact hf.buildOrder (env := env)
            (fun s x h e he => List.mem_append.2 (.inl (h e he))) σ rest s2 (fun _ => id)
    have hfull : ∀ n a, (n, a) ∈ p.inputs → ∀ k, σ.graph.keyOf a = some k →
        Full env s σ (rawOf σ r) a := by
      intro n a ha k hk
      have hmem := Graph.keyOf_mem hk
      cases a with
      | raw i => exact hraw k i hmem
      | made j q qpos => exact hmade k j q qpos hmem (hins n j q qpos ha ⟨k, hmem⟩)
    obtain ⟨s2, hbp, hc2⟩ := total_buildProducer hK hd hg hone hall hw hl hr (fun n a h => by
      obtain ⟨k, hk⟩ := hin _ _ _ _ hm0 n a h
      exact ⟨⟨k, hk⟩, hfull n a h k hk⟩) hm0 (fun k i pos hm => hev k _ hm) hc
      (hn.mono hmono)
    rw [hbp] at hmono
    have hspec := fun k i pos hm => buildProducer_spec hd (k0 := k) (i0 := i) (pos0 := pos) hg hw
      hl hr hu hfull hm hbp (hn.mono hmono)
    obtain ⟨hw2, hl2, hg2, _⟩ := hspec k0 i0 pos0 hm0
    obtain ⟨hws2, hfull2⟩ := hW p s s2 hw hl hr hu hws hfull ⟨k0, i0, pos0, hm0⟩ hbp
      (hn.mono hmono)
    have hr2 : (σ, r) ∈ s2.raws := by rw [hg2.raws]; exact hr
    have hu2 : SnapUnique s2.raws := by rw [hg2.raws]; exact hu
    unfold buildOrder at hn ⊢
    rw [run_bind, hbp] at hn ⊢
    refine total_buildOrder hK hd hg hone hall hW hin hev rest (.pdr p :: done) s2 hrest hws2 hw2 hl2 hr2 hu2
      (fun k i hm => (hraw k i hm).mono hd.iter hl2 hr2 hu2 hg2) ?_ hc2 hn
    intro k i q pos hm hq
    rcases List.mem_cons.1 hq with heq | hq
    · simp only [Nd.pdr.injEq] at heq
      subst heq
      exact hfull2 k i pos hm
    · exact (hmade k i q pos hm hq).mono hd.iter hl2 hr2 hu2 hg2

end
end Arti.Spec
