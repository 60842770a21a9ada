import Verif.Spec.Reuse
import Verif.Lemmas.Total
import Verif.Lemmas.Paths
import Verif.Props.Order
import Verif.Props.Backend

/-! A build whose outputs are all on disk calls no producer. -/

namespace Arti.Spec
open PyDict World M
variable {κ D : Type} [DecidableEq κ] {env : Env κ D} {gs : Graph → Prop}

/-- Partitions that exist are not built. -/
theorem buildPartitions_skip {σ : Snapshot} {p : Pdr} {existing : List κ} {ifps : PyDict κ Fp} :
    ∀ (deps : List (κ × List (Str × List (PSnap κ)))) {s s' : St κ D},
    (∀ x ∈ deps, x.1 ∈ existing) →
    buildPartitions env σ p existing ifps deps s = (.ok (), s') → s' = s
  | [], s, s', _, h => by
    simp only [buildPartitions, run_pure, Prod.mk.injEq] at h
    exact h.2.symm
  | (pk, d) :: deps, s, s', hall, h => by
    unfold buildPartitions at h
    rw [run_bind] at h
    cases hg : get? ifps pk with
    | none => rw [hg] at h; simp [M.need] at h
    | some fp =>
      rw [hg] at h
      simp only [M.need, run_bind, buildPartition] at h
      have hc : existing.contains pk = true := by
        simpa using hall (pk, d) (by simp)
      rw [hc] at h
      simp only [↓reduceIte, run_pure] at h
      exact buildPartitions_skip deps (fun x hx => hall x (List.mem_cons_of_mem _ hx)) h

/-- The first read of a storage returns what is discovered. -/
theorem read_first {a : Art} {ifps : PyDict κ Fp} {s s' : St κ D} {ps : List (PSnap κ)}
    (hst : get? s.storage a.info.sto = none) (h : readArtifactPartitions env a ifps s = (.ok ps, s')) :
    ∃ found, discover env s.files a.info.sto ifps = .ok found ∧
      ps = env.iter (if ifps.isEmpty then setUpdate [] found
        else (setUpdate [] found).filter fun s => get? ifps s.part.key = s.part.inputFp) ∧
      s'.files = s.files ∧ s'.calls = s.calls ∧
      ∀ sto, sto ≠ a.info.sto → get? s'.storage sto = get? s.storage sto := by
  have hc : contains s.storage a.info.sto = false := by
    simp [contains, hst]
  unfold readArtifactPartitions warm at h
  simp only [run_bind, run_gets, hc, Bool.false_eq_true, ↓reduceIte, run_lift] at h
  cases hd : discover env s.files a.info.sto ifps with
  | error e => rw [hd] at h; simp at h
  | ok found =>
    rw [hd] at h
    simp only [writeArtifactPartitions, M.effect] at h
    refine ⟨found, rfl, ?_⟩
    have hset : ∀ sto, sto ≠ a.info.sto → ∀ l : List (PSnap κ),
        get? (PyDict.set s.storage a.info.sto l) sto = get? s.storage sto := by
      intro sto hne l
      rw [get?_set, if_neg (Ne.symm hne)]
    have hself : ∀ l : List (PSnap κ),
        get? (PyDict.set s.storage a.info.sto l) a.info.sto = some l := by
      intro l; rw [get?_set, if_pos rfl]
    cases hb : s.budget with
    | none =>
      rw [hb] at h
      simp only [run_pure, hself, hst, Option.getD_some, Option.getD_none, Prod.mk.injEq,
        Except.ok.injEq] at h
      obtain ⟨h1, h2⟩ := h
      subst h2
      exact ⟨h1.symm, rfl, rfl, fun sto hne => hset sto hne _⟩
    | some n =>
      rw [hb] at h
      cases n with
      | zero => simp at h
      | succ n =>
        simp only [run_pure, hself, hst, Option.getD_some, Option.getD_none, Prod.mk.injEq,
          Except.ok.injEq] at h
        obtain ⟨h1, h2⟩ := h
        subst h2
        exact ⟨h1.symm, rfl, rfl, fun sto hne => hset sto hne _⟩

/-- Linking only changes the links. -/
theorem linkOutputs_same {σ : Snapshot} : ∀ (found : List (Art × List (PSnap κ))) {s s' : St κ D}
    {r : Except Err Unit}, linkOutputs σ found s = (r, s') →
    s'.files = s.files ∧ s'.calls = s.calls ∧ s'.storage = s.storage := by
  intro found s s' r h
  let P : St κ D → Prop := fun x => x.files = s.files ∧ x.calls = s.calls ∧ x.storage = s.storage
  have hk : ∀ found : List (Art × List (PSnap κ)), Keeps P (linkOutputs σ found) := by
    intro found
    induction found with
    | nil => exact Keeps.pure _
    | cons x found ih =>
      refine Keeps.bind (Keeps.need _ _) fun k => Keeps.bind (Keeps.effect (fun _ h => h)
        fun _ _ h => h) fun _ => ih
  have := hk found s ⟨rfl, rfl, rfl⟩
  rw [h] at this
  exact this

/-- A read of a storage that is known returns what is known. -/
theorem read_known {a : Art} {ifps : PyDict κ Fp} {s s' : St κ D} {ss ps : List (PSnap κ)}
    (hst : get? s.storage a.info.sto = some ss)
    (h : readArtifactPartitions env a ifps s = (.ok ps, s')) :
    ps = env.iter (if ifps.isEmpty then ss
        else ss.filter fun s => get? ifps s.part.key = s.part.inputFp) ∧ s' = s := by
  have hc : contains s.storage a.info.sto = true := by
    simp [contains, hst]
  unfold readArtifactPartitions warm at h
  simp only [run_bind, run_gets, hc, ↓reduceIte, run_pure, hst, Option.getD_some, Prod.mk.injEq,
    Except.ok.injEq] at h
  exact ⟨h.1.symm, h.2.symm⟩

/-- The evaluated partitions of an artifact are there for the next build: the backend has not looked
at their storage and their files exist, or the backend knows them. -/
def Have (env : Env κ D) (gs : Graph → Prop) (s : St κ D) (i : ArtInfo) (ℓ : Data κ) : Prop :=
  ∀ x ∈ ℓ, (get? s.storage i.sto = none ∧ Finds env gs s.files ∧
      ∃ path, x.1.part.loc = .file path ∧ get? s.files path ≠ none) ∨
    ∃ ss, get? s.storage i.sto = some ss ∧ x.1 ∈ ss

theorem Have.congr {s s' : St κ D} {i : ArtInfo} {ℓ : Data κ} (h : Have env gs s i ℓ)
    (hs : get? s'.storage i.sto = get? s.storage i.sto) (hf : s'.files = s.files) :
    Have env gs s' i ℓ := by
  unfold Have at h ⊢
  rw [hs, hf]
  exact h

/-- Reading the outputs finds the evaluated partitions. -/
theorem read_have (hi : IterOk env) {s : St κ D} {i : ArtInfo} {p : Pdr}
    {pos : Nat} (hm : Made gs i p pos) {rs : List (Outcome κ D)} {ℓ : Data κ} (hne : rs ≠ [])
    (hnd : (rs.map Outcome.key).Nodup) (hpl : placeAll env (cls env p) i pos rs = .ok ℓ)
    (hh : Have env gs s i ℓ) {ps : List (PSnap κ)} {s' : St κ D}
    (h : readArtifactPartitions env (.made i p pos) (rs.map fun o => (o.key, o.fp)) s =
      (.ok ps, s')) :
    (∀ o ∈ rs, o.key ∈ ps.map fun s => s.part.key) ∧ s'.files = s.files ∧ s'.calls = s.calls ∧
      ∀ sto, sto ≠ i.sto → get? s'.storage sto = get? s.storage sto := by
  have hemp : (rs.map fun o => (o.key, o.fp)).isEmpty = false := by
    cases rs with
    | nil => exact absurd rfl hne
    | cons _ _ => rfl
  have hfp : ∀ o ∈ rs, get? (rs.map fun o => (o.key, o.fp)) o.key = some o.fp := by
    intro o ho
    refine (mem_iff_get? ?_).1 (List.mem_map.2 ⟨o, ho, rfl⟩)
    simp only [keys, List.map_map]; exact hnd
  have hx : ∀ o ∈ rs, ∃ x ∈ ℓ, ∃ part, World.generate env i.sto (some o.fp) o.key = .ok part ∧
      x.1.part.key = o.key ∧ x.1.part.inputFp = some o.fp ∧
      ∀ path, x.1.part.loc = .file path → part.loc = .file path := by
    intro o ho
    obtain ⟨⟨sn, c⟩, hp⟩ := placeAll_forall hpl o ho
    refine ⟨(sn, c), (mem_placeAll hpl _).2 ⟨o, ho, hp⟩, ?_⟩
    obtain ⟨-, part, hg, hst⟩ := place_ok hp
    obtain ⟨g1, g2, g3, -⟩ := generate_ok hg
    refine ⟨part, hg, ?_⟩
    unfold stored at hst
    split at hst <;> simp only [Except.ok.injEq, Prod.mk.injEq, and_true, reduceCtorEq] at hst
    · rename_i path hl
      subst hst
      exact ⟨g3, g2, fun _ => id⟩
    · subst hst
      exact ⟨g3, g2, fun path hc => by simp at hc⟩
  cases hst : get? s.storage i.sto with
  | none =>
    obtain ⟨found, hd, rfl, h1, h2, h3⟩ := read_first (a := .made i p pos) hst h
    refine ⟨fun o ho => ?_, h1, h2, h3⟩
    obtain ⟨x, hxl, part, hg, -, -, hloc⟩ := hx o ho
    rcases hh x hxl with ⟨-, hfind, path, hl, hc⟩ | ⟨ss, hss, -⟩
    · obtain ⟨sn, hsn, rfl⟩ := hfind i p pos hm _ _ hd _ _ _ _ (hfp o ho) hg (hloc _ hl) hc
      obtain ⟨-, g2, g3, -⟩ := generate_ok hg
      refine List.mem_map.2 ⟨sn, (hi.perm _).mem_iff.2 ?_, g3⟩
      rw [hemp]
      simp only [Bool.false_eq_true, ↓reduceIte, List.mem_filter, mem_setUpdate]
      exact ⟨.inr hsn, by rw [g3, hfp o ho, g2]; simp⟩
    · rw [hst] at hss; simp at hss
  | some ss =>
    obtain ⟨rfl, rfl⟩ := read_known (a := .made i p pos) hst h
    refine ⟨fun o ho => ?_, rfl, rfl, fun _ _ => rfl⟩
    obtain ⟨x, hxl, part, -, hk, hf, -⟩ := hx o ho
    rcases hh x hxl with ⟨hn, -⟩ | ⟨ss', hss, hall⟩
    · rw [hst] at hn; simp at hn
    · rw [hst] at hss
      obtain rfl := Option.some.inj hss
      refine List.mem_map.2 ⟨x.1, (hi.perm _).mem_iff.2 ?_, hk⟩
      rw [hemp]
      simp only [Bool.false_eq_true, ↓reduceIte, List.mem_filter]
      exact ⟨hall, by rw [hk, hfp o ho, hf]; simp⟩

/-- Reading a storage leaves the others alone. -/
theorem read_frame {a : Art} {ifps : PyDict κ Fp} {s s' : St κ D} {ps : List (PSnap κ)}
    (h : readArtifactPartitions env a ifps s = (.ok ps, s')) :
    s'.files = s.files ∧ s'.calls = s.calls ∧
      ∀ sto, sto ≠ a.info.sto → get? s'.storage sto = get? s.storage sto := by
  cases hst : get? s.storage a.info.sto with
  | some ss =>
    obtain ⟨-, rfl⟩ := read_known hst h
    exact ⟨rfl, rfl, fun _ _ => rfl⟩
  | none =>
    obtain ⟨-, -, -, h1, h2, h3⟩ := read_first hst h
    exact ⟨h1, h2, h3⟩

theorem readOutputs_frame {ifps : PyDict κ Fp} : ∀ (l : List Art) {s s' : St κ D}
    {found : List (Art × List (PSnap κ))}, readOutputs env ifps l s = (.ok found, s') →
    s'.files = s.files ∧ s'.calls = s.calls ∧
      ∀ sto, (∀ a ∈ l, sto ≠ a.info.sto) → get? s'.storage sto = get? s.storage sto
  | [], s, s', found, h => by
    simp only [readOutputs, run_pure, Prod.mk.injEq] at h
    rw [← h.2]
    exact ⟨rfl, rfl, fun _ _ => rfl⟩
  | a :: l, s, s', found, h => by
    simp only [readOutputs, run_bind] at h
    cases hr : readArtifactPartitions env a ifps s with
    | mk r1 s1 =>
    rw [hr] at h
    cases r1 with
    | error e => simp at h
    | ok ps1 =>
    simp only at h
    cases hr2 : readOutputs env ifps l s1 with
    | mk r2 s2 =>
    rw [hr2] at h
    cases r2 with
    | error e => simp at h
    | ok found2 =>
    simp only [run_pure, Prod.mk.injEq] at h
    obtain ⟨-, rfl⟩ := h
    obtain ⟨h1, h2, h3⟩ := read_frame hr
    obtain ⟨h4, h5, h6⟩ := readOutputs_frame l hr2
    exact ⟨h4.trans h1, h5.trans h2, fun sto hs =>
      (h6 sto fun b hb => hs b (List.mem_cons_of_mem _ hb)).trans (h3 sto (hs a (by simp)))⟩

/-- Reading all outputs finds the evaluated partitions of one of them. -/
theorem readOutputs_have (hi : IterOk env) {i : ArtInfo} {p : Pdr} {pos : Nat}
    (hm : Made gs i p pos) {rs : List (Outcome κ D)} {ℓ : Data κ} (hne : rs ≠ [])
    (hnd : (rs.map Outcome.key).Nodup) (hpl : placeAll env (cls env p) i pos rs = .ok ℓ) :
    ∀ (l : List Art) {s s' : St κ D} {found : List (Art × List (PSnap κ))},
    (∀ a ∈ l, a.info.sto = i.sto → a = .made i p pos) → Art.made i p pos ∈ l →
    Have env gs s i ℓ →
    readOutputs env (rs.map fun o => (o.key, o.fp)) l s = (.ok found, s') →
    ∀ o ∈ rs, o.key ∈ found.flatMap fun x => x.2.map fun s => s.part.key
  | [], s, s', found, _, hmem, _, _ => by simp at hmem
  | a :: l, s, s', found, hown, hmem, hh, h => by
    simp only [readOutputs, run_bind] at h
    cases hr : readArtifactPartitions env a (rs.map fun o => (o.key, o.fp)) s with
    | mk r1 s1 =>
    rw [hr] at h
    cases r1 with
    | error e => simp at h
    | ok ps1 =>
    simp only at h
    cases hr2 : readOutputs env (rs.map fun o => (o.key, o.fp)) l s1 with
    | mk r2 s2 =>
    rw [hr2] at h
    cases r2 with
    | error e => simp at h
    | ok found2 =>
    simp only [run_pure, Prod.mk.injEq, Except.ok.injEq] at h
    obtain ⟨rfl, rfl⟩ := h
    intro o ho
    rw [List.flatMap_cons, List.mem_append]
    by_cases ha : a = .made i p pos
    · subst ha
      exact .inl ((read_have hi hm hne hnd hpl hh hr).1 o ho)
    · have hs : i.sto ≠ a.info.sto := fun e => ha (hown a (by simp) e.symm)
      obtain ⟨e1, -, e2⟩ := read_frame hr
      exact .inr (readOutputs_have hi hm hne hnd hpl l
        (fun b hb => hown b (List.mem_cons_of_mem _ hb))
        ((List.mem_cons.1 hmem).resolve_left fun e => ha e.symm)
        (hh.congr (e2 _ hs) e1) hr2 o ho)

/-- A producer whose evaluated partitions are there is not called. -/
theorem reuse_buildProducer (hd : Disciplined env gs) {s s' : St κ D} {σ : Snapshot}
    {r : PyDict Str (Data κ)} {p : Pdr} (hg : gs σ.graph) (hown : OwnStorage σ.graph)
    (hone : OneEach σ.graph)
    (hl : LInv (LinkEval env) s)
    (hin : ∀ n a, (n, a) ∈ p.inputs → ∀ k, σ.graph.keyOf a = some k → Full env s σ (rawOf σ r) a)
    {k0 : Str} {i0 : ArtInfo} {pos0 : Nat} (hm0 : (k0, Art.made i0 p pos0) ∈ σ.graph.arts)
    {ℓ : Data κ} (hev : evalArt env (rawOf σ r) (.made i0 p pos0) = .ok ℓ)
    (hh : Have env gs s i0 ℓ)
    (hrun : buildProducer env σ p s = (.ok (), s')) :
    s'.files = s.files ∧ s'.calls = s.calls ∧
      ∀ sto, (∀ k i pos, (k, Art.made i p pos) ∈ σ.graph.arts → sto ≠ i.sto) →
        get? s'.storage sto = get? s.storage sto := by
  have hm : Made gs i0 p pos0 := ⟨_, hg, k0, hm0⟩
  obtain ⟨c, v, inp⟩ := p
  unfold buildProducer at hrun
  rw [run_bind] at hrun
  cases hgi : getInputs env σ (Pdr.mk c v inp).inputs s with
  | mk rin sin =>
  have hs : sin = s := by
    have := getInputs_state (env := env) σ (Pdr.mk c v inp).inputs s; rwa [hgi] at this
  subst hs
  rw [hgi] at hrun
  cases rin with
  | error e => simp at hrun
  | ok ins =>
  simp only [run_bind, run_lift] at hrun
  cases hcd : computeDependencies env (.mk c v inp) ins with
  | error e => rw [hcd] at hrun; simp at hrun
  | ok df =>
  obtain ⟨deps, ifps⟩ := df
  rw [hcd] at hrun
  simp only [run_ghost] at hrun
  obtain ⟨xs, hx1, hx2, -⟩ := getInputs_spec hd.iter hl inp hin ins _ hgi
  subst hx2
  obtain ⟨rs, h1, rfl, h3, h4, h5, h6, h7⟩ := computeDependencies_spec hd hm hcd
  have heval : evalPdr env (rawOf σ r) (.mk c v inp) = .ok rs := by
    simp [evalPdr, hx1, h1, bind, Except.bind]
  have hpl : placeAll env (cls env (.mk c v inp)) i0 pos0 rs = .ok ℓ := by
    simp only [evalArt, heval, bind, Except.bind] at hev
    exact hev
  have hnd := evalPdr_nodup heval
  have hrne : rs ≠ [] := by simpa using h3
  obtain ⟨outs, ho⟩ := producerOutputs_of_mem hm0
  have hmem : Art.made i0 (.mk c v inp) pos0 ∈ outs := Graph.mem_producerOutputs_of ho hm0
    fun k' i' h' => hone _ _ _ _ _ _ h' hm0
  have hown' : ∀ a ∈ outs, a.info.sto = i0.sto → a = .made i0 (.mk c v inp) pos0 := by
    intro a ha hs
    obtain ⟨k', i', pos', rfl, h'⟩ := Graph.mem_producerOutputs ho ha
    exact hown _ _ _ _ _ _ _ _ h' hm0 hs
  unfold discoverProducerPartitions at hrun
  simp only [run_bind, run_lift, ho] at hrun
  generalize hs1 : ({ sin with
    invs := sin.invs ++ invsOf env sin.files (.mk c v inp) (rs.map fun o => (o.key, o.fp)) deps }
    : St κ D) = s1 at hrun
  have e1 : s1.files = sin.files ∧ s1.calls = sin.calls ∧ s1.storage = sin.storage := by
    rw [← hs1]; exact ⟨rfl, rfl, rfl⟩
  cases hrd : readOutputs env (rs.map fun o => (o.key, o.fp)) outs s1 with
  | mk rr s2 =>
  rw [hrd] at hrun
  cases rr with
  | error e => simp at hrun
  | ok found =>
  have r1 := readOutputs_have hd.iter hm hrne hnd hpl outs hown' hmem
    (hh.congr (by rw [e1.2.2]) e1.1) hrd
  obtain ⟨r2, r3, r4⟩ := readOutputs_frame outs hrd
  simp only at hrun
  cases hlk : linkOutputs σ found s2 with
  | mk rl s3 =>
  obtain ⟨l1, l2, l3⟩ := linkOutputs_same _ hlk
  rw [hlk] at hrun
  cases rl with
  | error e => simp at hrun
  | ok u =>
  simp only [run_pure] at hrun
  have := buildPartitions_skip deps (fun x hx => by
    obtain ⟨o, ho, hk, -⟩ := h5 x.1 x.2 hx
    rw [← hk]
    exact r1 o ho) hrun
  subst this
  refine ⟨by rw [l1, r2, e1.1], by rw [l2, r3, e1.2.1], fun sto hne => ?_⟩
  rw [l3, r4 sto fun a ha => ?_, e1.2.2]
  obtain ⟨k', i', pos', rfl, h'⟩ := Graph.mem_producerOutputs ho ha
  exact hne k' i' pos' h'

/-- If the evaluated partitions of all producers of a schedule are there, none is called. -/
theorem reuse_buildOrder (hd : Disciplined env gs) {σ : Snapshot}
    {r : PyDict Str (Data κ)} (hg : gs σ.graph) (hown : OwnStorage σ.graph)
    (hone : OneEach σ.graph) {W : St κ D → Prop} (hW : Completes env gs σ r W) :
    ∀ (nodes done : List Nd) (s s' : St κ D), Sched σ.graph done nodes → nodes.Nodup →
    W s → WInv env gs s → LInv (LinkEval env) s → (σ, r) ∈ s.raws → SnapUnique s.raws →
    (∀ k i, (k, Art.raw i) ∈ σ.graph.arts → Full env s σ (rawOf σ r) (.raw i)) →
    (∀ k i p pos, (k, Art.made i p pos) ∈ σ.graph.arts → Nd.pdr p ∈ done →
      Full env s σ (rawOf σ r) (.made i p pos)) →
    (∀ k i p pos, (k, Art.made i p pos) ∈ σ.graph.arts → Nd.pdr p ∈ nodes →
      ∃ ℓ, evalArt env (rawOf σ r) (.made i p pos) = .ok ℓ ∧ Have env gs s i ℓ) →
    buildOrder env σ nodes s = (.ok (), s') → NoClash env gs s'.invs →
    s'.files = s.files ∧ s'.calls = s.calls
  | [], done, s, s', _, _, _, _, _, _, _, _, _, _, hrun, _ => by
    simp only [buildOrder, run_pure, Prod.mk.injEq] at hrun
    rw [hrun.2]; exact ⟨rfl, rfl⟩
  | .art x :: rest, done, s, s', hsch, hnd, hws, hw, hl, hr, hu, hraw, hmade, hh, hrun, hn =>
    reuse_buildOrder hd hg hown hone hW rest done s s' hsch (List.nodup_cons.1 hnd).2 hws hw hl hr hu hraw
      hmade (fun k i p pos hm hp => hh k i p pos hm (List.mem_cons_of_mem _ hp)) hrun hn
  | .pdr p :: rest, done, s, s', hsch, hnd, hws, hw, hl, hr, hu, hraw, hmade, hh, hrun,
      hn => by
    obtain ⟨⟨k0, i0, pos0, hm0⟩, hins, hrest⟩ := hsch
    obtain ⟨hnp, hnd⟩ := List.nodup_cons.1 hnd
    unfold buildOrder at hrun
    rw [run_bind] at hrun
    cases hbp : buildProducer env σ p s with
    | mk rb s2 =>
    rw [hbp] at hrun
    cases rb with
    | error e => simp at hrun
    | ok u =>
    simp only at hrun
    have hmono : ∀ e ∈ s2.invs, e ∈ s'.invs := by
      have hfr : Frame (fun s : St κ D => ∀ e ∈ s2.invs, e ∈ s.invs) :=
        ⟨fun _ _ h => h, fun _ _ h => h, fun _ _ h => h, fun _ _ h => h, fun _ _ h => h⟩
      have := hfr.buildOrder (env := env)
        (fun s x h e he => List.mem_append.2 (.inl (h e he))) σ rest s2 (fun _ => id)
      rwa [hrun] at this
    have hfull : ∀ n a, (n, a) ∈ p.inputs → ∀ k, σ.graph.keyOf a = some k →
        Full env s σ (rawOf σ r) a := by
      intro n a ha k hk
      have hmem := Graph.keyOf_mem hk
      cases a with
      | raw i => exact hraw k i hmem
      | made j q qpos => exact hmade k j q qpos hmem (hins n j q qpos ha ⟨k, hmem⟩)
    obtain ⟨ℓ, hev, hhave⟩ := hh _ _ _ _ hm0 (by simp)
    obtain ⟨hf2, hc2, hst2⟩ := reuse_buildProducer hd hg hown hone hl hfull hm0 hev hhave hbp
    obtain ⟨hws2, hfull2⟩ := hW p s s2 hw hl hr hu hws hfull ⟨k0, i0, pos0, hm0⟩ hbp
      (hn.mono hmono)
    have hspec := fun k i pos hm => buildProducer_spec hd (k0 := k) (i0 := i) (pos0 := pos) hg hw
      hl hr hu hfull hm hbp (hn.mono hmono)
    obtain ⟨hw2, hl2, hg2, _⟩ := hspec k0 i0 pos0 hm0
    have hr2 : (σ, r) ∈ s2.raws := by rw [hg2.raws]; exact hr
    have hu2 : SnapUnique s2.raws := by rw [hg2.raws]; exact hu
    obtain ⟨h1, h2⟩ := reuse_buildOrder hd hg hown hone hW rest (.pdr p :: done) s2 s' hrest hnd
      hws2 hw2 hl2 hr2 hu2 (fun k i hm => (hraw k i hm).mono hd.iter hl2 hr2 hu2 hg2) (by
        intro k i q pos hm hq
        rcases List.mem_cons.1 hq with heq | hq
        · simp only [Nd.pdr.injEq] at heq
          subst heq
          exact hfull2 k i pos hm
        · exact (hmade k i q pos hm hq).mono hd.iter hl2 hr2 hu2 hg2) (by
        intro k i q pos hm hq
        obtain ⟨ℓ', he, hv⟩ := hh k i q pos hm (List.mem_cons_of_mem _ hq)
        refine ⟨ℓ', he, hv.congr (hst2 _ fun k1 i1 pos1 hm1 hs => ?_) hf2⟩
        have := hown _ _ _ _ _ _ _ _ hm hm1 hs
        simp only [Art.made.injEq] at this
        rw [this.2.1] at hq
        exact hnp hq) hrun hn
    exact ⟨h1.trans hf2, h2.trans hc2⟩

/-- Raw partitions that were found are not none. -/
theorem scanNodes_nonempty {files : PyDict Str Str} {g : Graph} : ∀ (nodes : List Nd) (fp fp' : Fp)
    (known known' : PyDict Str (List (PSnap κ))),
    scanNodes env files g nodes fp known = .ok (fp', known') →
    (∀ k ps, get? known k = some ps → ps ≠ []) → ∀ k ps, get? known' k = some ps → ps ≠ []
  | [], fp, fp', known, known', h, hk => by
    simp only [scanNodes, Except.ok.injEq, Prod.mk.injEq] at h
    obtain ⟨rfl, rfl⟩ := h
    exact hk
  | n :: rest, fp, fp', known, known', h, hk => by
    simp only [scanNodes, bind, Except.bind] at h
    cases h1 : fpCombine fp [env.nodeFp n] with
    | error e => rw [h1] at h; simp at h
    | ok fp1 =>
      rw [h1] at h
      simp only at h
      cases n with
      | pdr p => exact scanNodes_nonempty rest _ _ _ _ h hk
      | art a =>
        simp only at h
        cases hka : g.keyOf a with
        | none => rw [hka] at h; simp at h
        | some key =>
          rw [hka] at h
          simp only at h
          cases h2 : fpCombine fp1 [env.strHash key] with
          | error e => rw [h2] at h; simp at h
          | ok fp2 =>
            rw [h2] at h
            simp only at h
            cases a with
            | made j p pos => exact scanNodes_nonempty rest _ _ _ _ h hk
            | raw j =>
              simp only [Art.out, Art.info] at h
              cases hd : discover env files j.sto [] with
              | error e => rw [hd] at h; simp at h
              | ok ps =>
                rw [hd] at h
                simp only at h
                split at h
                · simp at h
                · rename_i hemp
                  cases h3 : fpCombine fp2 (ps.map env.snapFp) with
                  | error e => rw [h3] at h; simp at h
                  | ok fp3 =>
                    rw [h3] at h
                    simp only at h
                    refine scanNodes_nonempty rest _ _ _ _ h ?_
                    intro k ps' hg
                    rw [get?_set] at hg
                    split at hg
                    · simp only [Option.some.injEq] at hg
                      subst hg
                      rintro rfl
                      simp at hemp
                    · exact hk k ps' hg

/-- Taking a snapshot does not look at storages with a fingerprint, and calls nothing. -/
theorem fromGraph_storage {g : Graph} (hk : (keys g.arts).Nodup) {s s' : St κ D}
    {res : Except Err Snapshot} (h : fromGraph env g s = (res, s')) :
    s'.calls = s.calls ∧ ∀ sto : Sto, sto.hasFp = true → get? s'.storage sto = get? s.storage sto := by
  let P : St κ D → Prop := fun x => x.calls = s.calls ∧
    ∀ sto : Sto, sto.hasFp = true → get? x.storage sto = get? s.storage sto
  unfold fromGraph at h
  simp only [run_bind, run_gets, run_lift] at h
  cases hsc : scanNodes env s.files g (keys g.dependencies) (env.graphFp g) [] with
  | error e =>
    rw [hsc] at h
    simp only [Prod.mk.injEq] at h
    rw [← h.2]; exact ⟨rfl, fun _ _ => rfl⟩
  | ok out =>
  obtain ⟨fp, known⟩ := out
  rw [hsc] at h
  obtain ⟨k1, -, k3, -⟩ := scanNodes_spec _ _ _ _ _ hsc (by simp [get?])
  have k5 := scanNodes_nonempty _ _ _ _ _ hsc (by simp [get?])
  have hnd := k3 (by simp [keys])
  have hlink : ∀ (l : PyDict Str (List (PSnap κ))), (∀ x ∈ l, x ∈ known) →
      Keeps P (linkAll (⟨fp, g⟩ : Snapshot) l) := by
    intro l
    induction l with
    | nil => intro _; exact Keeps.pure _
    | cons x l ih =>
      intro hl
      obtain ⟨k, ps⟩ := x
      have hget := (mem_iff_get? hnd).1 (hl (k, ps) (by simp))
      obtain ⟨i, hki, hdi⟩ := k1 k ps hget
      obtain ⟨sn, hsn⟩ := List.exists_mem_of_ne_nil _ (k5 k ps hget)
      have hfp := (discover_raw hdi hsn).1
      have hart : g.artAt k = some (.raw i) := Graph.artAt_of_keyOf hk hki
      intro s2 hs2
      unfold linkAll
      rw [run_bind]
      simp only [hart, M.need]
      have hw : Keeps P (writeArtifactAndGraphPartitions (D := D) (⟨fp, g⟩ : Snapshot) k (.raw i)
          ps) := by
        unfold writeArtifactAndGraphPartitions
        refine Keeps.bind (Keeps.effect ?_ fun _ _ h => h) fun _ =>
          Keeps.effect (fun _ h => h) fun _ _ h => h
        rintro s3 ⟨h1, h2⟩
        refine ⟨h1, fun sto hsto => ?_⟩
        rw [← h2 sto hsto, get?_set, if_neg]
        rintro rfl
        simp [Art.info, hfp] at hsto
      exact (Keeps.bind hw fun _ => ih fun x hx => hl x (List.mem_cons_of_mem _ hx)) s2 hs2
  have hwg : Keeps P (writeGraph env g) := Keeps.effect (fun _ h => h) fun _ _ h => h
  have hws : Keeps P (writeSnapshot env (⟨fp, g⟩ : Snapshot)) :=
    Keeps.effect (fun _ h => h) fun _ _ h => h
  have := (Keeps.bind (P := P) (Keeps.ghost (f := fun s => { s with raws := s.raws ++
      [((⟨fp, g⟩ : Snapshot), withContents s.files known)] }) fun _ h => h) fun _ =>
    Keeps.bind hwg fun _ => Keeps.bind hws fun _ =>
    Keeps.bind (hlink known fun _ => id) fun _ => Keeps.pure (⟨fp, g⟩ : Snapshot)) s
    ⟨rfl, fun _ _ => rfl⟩
  simp only [run_bind, run_ghost] at this h
  rw [h] at this
  exact this

/-- A build whose evaluated partitions are all there calls nothing and writes no file. -/
theorem reuse_graphBuild (hd : Disciplined env gs) {u s' : St κ D} (hw : WInv env gs u)
    (hl : LInv (LinkEval env) u) {g : Graph} (hg : gs g) (hown : OwnStorage g) (hone : OneEach g)
    {W : St κ D → Prop} (hW : ∀ σ r, σ.graph = g → Completes env gs σ r W)
    (hW0 : ∀ b σ s1, fromGraph env g { u with budget := b } = (.ok σ, s1) → W s1)
    (hhave : ∀ k i p pos, (k, Art.made i p pos) ∈ g.arts →
      ∃ ℓ, evalArt env (rawNow env g u.files) (.made i p pos) = .ok ℓ ∧ Have env gs u i ℓ)
    {b : Option Nat} {σ : Snapshot} (hrun : graphBuild env g { u with budget := b } = (.ok σ, s'))
    (hn : NoClash env gs s'.invs) (hu : SnapUnique s'.raws) :
    s'.files = u.files ∧ s'.calls = u.calls := by
  have hfiles : (fromGraph env g { u with budget := b }).2.files = u.files :=
    keeps_fromGraph (env := env) (K := (· = u.files)) g _ rfl
  unfold graphBuild at hrun
  rw [run_bind] at hrun
  cases hf : fromGraph env g { u with budget := b } with
  | mk rf s1 =>
  rw [hf] at hrun hfiles
  cases rf with
  | error e => simp at hrun
  | ok σ' =>
  obtain ⟨hcalls, hsto⟩ := fromGraph_storage (hd.keys _ hg) hf
  obtain ⟨hw1, hl1, -, -, hr1, h1⟩ := fromGraph_spec rawRel_linkEval (s := { u with budget := b })
    hd hg ⟨hw.files, hw.store⟩ ⟨hl.nodup, hl.ok⟩ hf
  obtain ⟨hgr, r, hmr, hraws, hfr⟩ := h1 σ' rfl
  simp only [run_bind, World.build, run_lift] at hrun hfiles hcalls hsto
  cases ho : Topo.staticOrder σ'.graph.dependencies with
  | error e => rw [ho] at hrun; simp at hrun
  | ok order =>
  rw [ho] at hrun
  simp only at hrun
  cases hb : buildOrder env σ' order s1 with
  | mk rb s2 =>
  rw [hb] at hrun
  cases rb with
  | error e => simp at hrun
  | ok v =>
  simp only [run_pure, Prod.mk.injEq] at hrun
  obtain ⟨-, rfl⟩ := hrun
  have hu1 : SnapUnique s1.raws := by
    refine hu.sub fun x hx => ?_
    have := HOp.run_logs (env := env) (.rebuild σ' s1.budget) s1
    have hb' : World.build env σ' { s1 with budget := s1.budget } = (.ok (), s2) := by
      rw [World.build, run_bind, run_lift, ho]; exact hb
    simp only [HOp.run, hb'] at this
    exact this.2 x hx
  subst hgr
  have hrho : rawOf σ' r = rawNow env σ'.graph u.files := funext hraws
  obtain ⟨h2, h3⟩ := reuse_buildOrder hd hg hown hone (hW σ' r rfl) order [] s1 s2
    (sched_static ho fun p hp => (pdr_mem_order ho p).1 hp)
    (Props.C27_order_respects_dependencies _ _ ho).1 (hW0 _ _ _ hf) hw1 hl1 hmr hu1
    (hfr hu1) (by simp) (by
      intro k i p pos hm _
      obtain ⟨ℓ, he, hv⟩ := hhave k i p pos hm
      rw [hrho]
      exact ⟨ℓ, he, hv.congr (hsto _ (hd.hasFp i p pos ⟨_, hg, k, hm⟩)) hfiles⟩) hb hn
  exact ⟨h2.trans hfiles, h3.trans hcalls⟩

/-- Files stay unless they are deleted. -/
theorem HOp.file_stays {s : St κ D} {op : HOp κ D} (hv : op.Valid env gs s) (hk : op.KeepsFiles)
    {path : Str} (hp : ProducedPath env gs path) (h : get? s.files path ≠ none) :
    get? (op.run env s).files path ≠ none := by
  have hP : ∀ (files : PyDict Str Str) (q c : Str), get? files path ≠ none →
      get? (PyDict.set files q c) path ≠ none := by
    intro files q c h
    rw [get?_set]
    split
    · simp
    · exact h
  have hfilter : ∀ (files : PyDict Str Str) (f : Str → Bool), f path = true →
      get? files path ≠ none → get? (files.filter fun x => f x.1) path ≠ none := by
    intro files f hf h hc
    refine h ((get?_eq_none_iff _ _).2 fun hm => (get?_eq_none_iff _ _).1 hc ?_)
    obtain ⟨x, hx, he⟩ := List.mem_map.1 hm
    exact List.mem_map.2 ⟨x, List.mem_filter.2 ⟨hx, by rw [he]; exact hf⟩, he⟩
  have hG : ∀ σ, World.Grow (κ := κ) (D := D) σ fun s => get? s.files path ≠ none := fun σ =>
    ⟨fun _ _ => id, fun _ _ _ => id, fun _ _ _ => id, fun s q c h => hP s.files q c h,
      fun _ _ => id⟩
  cases op with
  | put q c => exact hP _ _ _ h
  | del q =>
    refine hfilter s.files (fun x => decide (x ≠ q)) ?_ h
    simp only [ne_eq, decide_not, Bool.not_eq_eq_eq_not, Bool.not_true, decide_eq_false_iff_not]
    rintro rfl
    exact hv hp
  | writeRaw g i d pk view b =>
    exact (hG ⟨0, g⟩).write g (.inl rfl) d _ _ _ view { s with budget := b } h
  | lookup a ifps =>
    exact (hG ⟨0, ⟨[], [], []⟩⟩).readArtifactPartitions a ifps { s with budget := none } h
  | snapshot g b =>
    exact keeps_fromGraph (env := env) (K := fun f => get? f path ≠ none) g { s with budget := b } h
  | build g b =>
    exact keeps_graphBuild (env := env) (gs := gs) (K := fun f => get? f path ≠ none)
      (fun files q c h _ => hP files q c h) hv { s with budget := b } h
  | rebuild σ b =>
    exact (hG σ).build (fun _ _ => id) { s with budget := b } h
  | tag σ name o =>
    have : Keeps (FilesAre (κ := κ) (D := D) (fun f => get? f path ≠ none))
        (writeSnapshotTag σ name o) :=
      Keeps.bind (Keeps.gets _) fun _ => Keeps.bind (Keeps.raiseIf _ _) fun _ =>
        keeps_effect fun _ => rfl
    exact this { s with budget := none } h
  | restart keep => exact hfilter s.files keep (hk path) h

theorem file_stays {ops : List (HOp κ D)} {path : Str} (hp : ProducedPath env gs path) :
    ∀ {s : St κ D}, ValidOps env gs s ops → (∀ op ∈ ops, op.KeepsFiles) →
    get? s.files path ≠ none → get? (runOps env s ops).files path ≠ none := by
  induction ops with
  | nil => intro s _ _ h; exact h
  | cons op ops ih =>
    intro s hv hk h
    exact ih hv.2 (fun o ho => hk o (List.mem_cons_of_mem _ ho))
      (HOp.file_stays hv.1 (hk op (by simp)) hp h)

theorem known_stays {ops : List (HOp κ D)} {sto : Sto} {x : PSnap κ} :
    ∀ {s : St κ D}, (∀ op ∈ ops, op.SameProcess) → x ∈ (get? s.storage sto).getD [] →
    x ∈ (get? (runOps env s ops).storage sto).getD [] := by
  induction ops with
  | nil => intro s _ h; exact h
  | cons op ops ih =>
    intro s hk h
    refine ih (fun o ho => hk o (List.mem_cons_of_mem _ ho))
      (Props.C34_nothing_is_removed op (fun keep he => ?_) s sto x h)
    have := hk op (by simp)
    rw [he] at this
    exact this

end Arti.Spec
