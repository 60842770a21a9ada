import Verif.Model.Io
import Verif.Spec.Fingerprints
import Verif.Lemmas.FromGraph
import Verif.Props.Fingerprints

/-!
# Taking snapshots (C30) and reading partitions (C46)
-/

namespace Arti.Props
open PyDict Spec World
variable {κ D V : Type} [DecidableEq κ] {env : Env κ D}

/-! ## C30 -/

/-- The artifact has data that can be discovered. -/
private theorem scan_ok (hr : FpRanges env) {files : PyDict Str Str} {g : Graph} :
    ∀ (nodes : List Nd) (fp : Fp) (known : PyDict Str (List (PSnap κ))), Int64Range fp →
    (∀ n ∈ nodes, ∀ a, n = .art a → ∃ k, g.keyOf a = some k) →
    (∀ i, Nd.art (.raw i) ∈ nodes → ∃ ps, discover env files i.sto [] = .ok ps ∧ ps ≠ []) →
    ∃ r, scanNodes env files g nodes fp known = .ok r
  | [], fp, known, _, _, _ => ⟨_, rfl⟩
  | n :: rest, fp, known, hfp, hk, hd => by
    have ih := fun fp known hfp => scan_ok hr (files := files) (g := g) rest fp known hfp
      (fun n hn => hk n (List.mem_cons_of_mem _ hn)) (fun i hi => hd i (List.mem_cons_of_mem _ hi))
    simp only [scanNodes, bind, Except.bind]
    rw [fpCombine_eq [env.nodeFp n] _ hfp (by simp; exact hr.node _)]
    simp only
    cases n with
    | pdr p => exact ih _ _ (signedXor_range _)
    | art a =>
      obtain ⟨k, hka⟩ := hk _ (by simp) a rfl
      simp only [hka]
      rw [fpCombine_eq _ _ (signedXor_range _) (by simp; exact hr.str _)]
      simp only
      cases a with
      | made j p pos => exact ih _ _ (signedXor_range _)
      | raw j =>
        obtain ⟨ps, hps, hne⟩ := hd j (by simp)
        simp only [Art.out, Art.info, hps]
        rw [if_neg (by simpa using hne)]
        rw [fpCombine_eq _ _ (signedXor_range _) (by
          intro o ho
          obtain ⟨sn, -, rfl⟩ := List.mem_map.1 ho
          exact hr.snap sn)]
        exact ih _ _ (signedXor_range _)

private theorem scan_nonempty {files : PyDict Str Str} {g : Graph} :
    ∀ (nodes : List Nd) (fp : Fp) (known : PyDict Str (List (PSnap κ))) (r : _),
    scanNodes env files g nodes fp known = .ok r → ∀ i, Nd.art (.raw i) ∈ nodes →
    ∃ ps, discover env files i.sto [] = .ok ps ∧ ps ≠ []
  | [], fp, known, _, _, _, hi => by simp at hi
  | n :: rest, fp, known, r, h, i, hi => by
    simp only [scanNodes, bind, Except.bind] at h
    split at h
    · simp at h
    · cases n with
      | pdr p => exact scan_nonempty rest _ _ _ h i (by simpa using hi)
      | art a =>
        simp only at h
        cases hka : g.keyOf a with
        | none => rw [hka] at h; simp at h
        | some k =>
          rw [hka] at h
          simp only at h
          split at h
          · simp at h
          · cases a with
            | made j p pos => exact scan_nonempty rest _ _ _ h i (by simpa using hi)
            | raw j =>
              simp only [Art.out, Art.info] at h
              cases hd : discover env files j.sto [] with
              | error e => rw [hd] at h; simp at h
              | ok ps =>
                rw [hd] at h
                simp only at h
                split at h
                · simp at h
                · rename_i hne
                  split at h
                  · simp at h
                  · rcases List.mem_cons.1 hi with heq | hi
                    · simp only [Nd.art.injEq, Art.raw.injEq] at heq
                      subst heq
                      exact ⟨ps, hd, by simpa using hne⟩
                    · exact scan_nonempty rest _ _ _ h i hi

omit [DecidableEq κ] in
private theorem effect_none' {f : St κ D → St κ D} {s : St κ D} (h : s.budget = none) :
    M.effect f s = (.ok (), f s) := by
  unfold M.effect; rw [h]

private theorem linkAll_none {σ : Snapshot} : ∀ (known : PyDict Str (List (PSnap κ))) (s : St κ D),
    s.budget = none → (∀ k ps, (k, ps) ∈ known → ∃ a, σ.graph.artAt k = some a) →
    ∃ s', linkAll σ known s = (.ok (), s') ∧ s'.files = s.files ∧ s'.tags = s.tags ∧
      s'.snapshots = s.snapshots ∧ s'.graphs = s.graphs ∧
      ∀ τ key x, x ∈ linksOf s' τ key ↔
        x ∈ linksOf s τ key ∨ (τ = σ ∧ ∃ ps, (key, ps) ∈ known ∧ x ∈ ps)
  | [], s, hb, hk => ⟨s, rfl, rfl, rfl, rfl, rfl, by simp⟩
  | (k, ps) :: known, s, hb, hk => by
    obtain ⟨a, ha⟩ := hk k ps (by simp)
    unfold linkAll
    simp only [M.run_bind, ha, M.need, writeArtifactAndGraphPartitions, writeArtifactPartitions,
      writeSnapshotPartitions]
    rw [effect_none' hb]
    simp only
    rw [effect_none' (by exact hb)]
    simp only
    generalize hs1 : St.mk (κ := κ) (D := D) _ _ _ _ _ _ _ _ _ _ = s1
    obtain ⟨s', h1, h2, h3, h4, h5, h6⟩ := linkAll_none known s1 (by rw [← hs1]; exact hb)
      (fun k ps h => hk k ps (List.mem_cons_of_mem _ h))
    refine ⟨s', h1, by rw [h2, ← hs1], by rw [h3, ← hs1], by rw [h4, ← hs1], by rw [h5, ← hs1], ?_⟩
    intro τ key x
    rw [h6, ← hs1]
    simp only [linksOf, get?_set, Prod.mk.injEq]
    by_cases he : σ = τ ∧ k = key
    · rw [if_pos he]
      obtain ⟨rfl, rfl⟩ := he
      simp only [Option.getD_some, mem_setUpdate, true_and, List.mem_cons, Prod.mk.injEq]
      constructor
      · rintro ((h | h) | ⟨ps', h, h'⟩)
        · exact .inl h
        · exact .inr ⟨ps, .inl rfl, h⟩
        · exact .inr ⟨ps', .inr h, h'⟩
      · rintro (h | ⟨ps', (h | h), h'⟩)
        · exact .inl (.inl h)
        · subst h; exact .inl (.inr h')
        · exact .inr ⟨ps', h, h'⟩
    · rw [if_neg he]
      refine or_congr_right (and_congr_right fun hτ => ?_)
      constructor
      · rintro ⟨ps', h, h'⟩; exact ⟨ps', List.mem_cons_of_mem _ h, h'⟩
      · rintro ⟨ps', h, h'⟩
        rcases List.mem_cons.1 h with h | h
        · simp only [Prod.mk.injEq] at h
          exact absurd ⟨hτ.symm, h.1.symm⟩ he
        · exact ⟨ps', h, h'⟩

private theorem art_node {g : Graph} {a : Art} (h : Nd.art a ∈ keys g.dependencies) :
    ∃ k, (k, a) ∈ g.arts := by
  obtain ⟨⟨n, ps⟩, h1, h2⟩ := List.mem_map.1 h
  simp only at h2
  subst h2
  rcases (Graph.mem_dependencies g _ _).1 h1 with ⟨k, a', h3, h4, -⟩ | ⟨k, i, p, pos, h3, h4, -⟩
  · simp only [Nd.art.injEq] at h4; subst h4; exact ⟨k, h3⟩
  · simp at h4

theorem fromGraph_run {g : Graph} (hn : (keys g.arts).Nodup) {s : St κ D}
    (hb : s.budget = none) :
    (∃ e, scanNodes env s.files g (keys g.dependencies) (env.graphFp g) [] = .error e ∧
      fromGraph env g s = (.error e, s)) ∨
    ∃ id known s', scanNodes env s.files g (keys g.dependencies) (env.graphFp g) [] =
        .ok (id, known) ∧ fromGraph env g s = (.ok ⟨id, g⟩, s') ∧ s'.files = s.files ∧
      s'.tags = s.tags ∧ (∀ x, get? s'.snapshots x =
        if x = (g.name, env.snapshotFp ⟨id, g⟩) then some ⟨id, g⟩ else get? s.snapshots x) ∧
      ∀ τ key x, x ∈ linksOf s' τ key ↔
        x ∈ linksOf s τ key ∨ (τ = ⟨id, g⟩ ∧ ∃ ps, (key, ps) ∈ known ∧ x ∈ ps) := by
  unfold fromGraph
  simp only [M.run_bind, M.run_gets, M.run_lift]
  cases hsc : scanNodes env s.files g (keys g.dependencies) (env.graphFp g) [] with
  | error e => exact .inl ⟨e, rfl, rfl⟩
  | ok out =>
    obtain ⟨id, known⟩ := out
    refine .inr ⟨id, known, ?_⟩
    obtain ⟨k1, -, k3, -⟩ := scanNodes_spec _ _ _ _ _ hsc (by simp [get?])
    have hnd := k3 (by simp [keys])
    simp only [M.run_ghost, writeGraph, writeSnapshot]
    rw [effect_none' (by exact hb)]
    simp only
    rw [effect_none' (by exact hb)]
    simp only
    generalize hs1 : St.mk (κ := κ) (D := D) _ _ _ _ _ _ _ _ _ _ = s1
    obtain ⟨s', h1, h2, h3, h4, h5, h6⟩ := linkAll_none (σ := ⟨id, g⟩) known s1
      (by rw [← hs1]; exact hb) (by
        intro k ps hm
        obtain ⟨i, hi, -⟩ := k1 k ps (get?_of_mem hnd hm)
        exact ⟨_, Graph.artAt_of_keyOf hn hi⟩)
    refine ⟨s', trivial, by rw [h1]; rfl, by rw [h2, ← hs1], by rw [h3, ← hs1], ?_, ?_⟩
    · intro x
      rw [h4, ← hs1, get?_set]
      simp only [eq_comm]
    · intro τ key x
      rw [h6, ← hs1]
      rfl

/-- **C30.** `Graph.snapshot` succeeds iff discovery finds data for each raw artifact of the graph,
and otherwise it raises. -/
theorem C30_succeeds_iff_all_raw_data_exists (hr : FpRanges env) {g : Graph}
    (hn : (keys g.arts).Nodup) {s : St κ D} (hb : s.budget = none) :
    (∃ σ, (fromGraph env g s).1 = .ok σ) ↔
      ∀ k i, (k, Art.raw i) ∈ g.arts → ∃ ps, discover env s.files i.sto [] = .ok ps ∧ ps ≠ [] := by
  constructor
  · rintro ⟨σ, h⟩ k i hi
    rcases fromGraph_run (env := env) hn hb with ⟨e, -, h'⟩ | ⟨id, known, s', hsc, -⟩
    · rw [h'] at h; simp at h
    · exact scan_nonempty _ _ _ _ hsc i (art_mem_dependencies hi)
  · intro h
    obtain ⟨r, hsc⟩ := scan_ok hr (keys g.dependencies) (env.graphFp g) [] (hr.graph g)
      (by
        rintro n hn a rfl
        obtain ⟨k, hk⟩ := art_node hn
        exact Graph.keyOf_of_mem hk)
      (by
        intro i hi
        obtain ⟨k, hk⟩ := art_node hi
        exact h k i hk)
    rcases fromGraph_run (env := env) hn hb with ⟨e, h', -⟩ | ⟨id, known, s', -, h', -⟩
    · rw [hsc] at h'; simp at h'
    · exact ⟨_, by rw [h']⟩

/-- **C30.** If `Graph.snapshot` raises, nothing changed: neither files nor backend. -/
theorem C30_failure_changes_nothing {g : Graph} (hn : (keys g.arts).Nodup) {s : St κ D}
    (hb : s.budget = none) {e : Err} (he : (fromGraph env g s).1 = .error e) :
    (fromGraph env g s).2 = s := by
  rcases fromGraph_run (env := env) hn hb with ⟨e', -, h⟩ | ⟨id, known, s', -, h, -⟩
  · rw [h]
  · rw [h] at he; simp at he

/-- **C30.** If a raw artifact has no data, `Graph.snapshot` raises and nothing changes. -/
theorem C30_raises_without_data {g : Graph} (hn : (keys g.arts).Nodup) {s : St κ D}
    (hb : s.budget = none) {k : Str} {i : ArtInfo} (hi : (k, Art.raw i) ∈ g.arts)
    (hd : discover env s.files i.sto [] = .ok []) :
    ∃ e, fromGraph env g s = (.error e, s) := by
  rcases fromGraph_run (env := env) hn hb with ⟨e, -, h⟩ | ⟨id, known, s', hsc, -⟩
  · exact ⟨e, h⟩
  · obtain ⟨ps, hps, hne⟩ := scan_nonempty _ _ _ _ hsc i (art_mem_dependencies hi)
    rw [hd] at hps
    simp only [Except.ok.injEq] at hps
    exact absurd hps.symm hne

/-- **C30.** If `Graph.snapshot` returns a snapshot, then it is a snapshot of the graph, it can be
read back from the backend, files and tags are as before, the partitions discovered for the raw
artifacts have been linked to it under their keys, and nothing else has been linked to it or to
another snapshot. -/
theorem C30_links_exactly_the_raw_partitions {g : Graph} (hn : (keys g.arts).Nodup) {s s' : St κ D}
    (hb : s.budget = none) {σ : Snapshot} (h : fromGraph env g s = (.ok σ, s')) :
    σ.graph = g ∧ s'.files = s.files ∧ s'.tags = s.tags ∧
    (readSnapshot g.name (env.snapshotFp σ) s').1 = .ok σ ∧
    ∀ τ key x, x ∈ linksOf s' τ key ↔ x ∈ linksOf s τ key ∨
      (τ = σ ∧ ∃ i ps, g.keyOf (.raw i) = some key ∧ discover env s.files i.sto [] = .ok ps ∧
        x ∈ ps) := by
  rcases fromGraph_run (env := env) hn hb with ⟨e, -, h'⟩ | ⟨id, known, t, hsc, h', h1, h2, h3, h4⟩
  · rw [h'] at h; simp at h
  · rw [h'] at h
    simp only [Prod.mk.injEq, Except.ok.injEq] at h
    obtain ⟨rfl, rfl⟩ := h
    obtain ⟨k1, -, k3, k4⟩ := scanNodes_spec _ _ _ _ _ hsc (by simp [get?])
    have hnd := k3 (by simp [keys])
    refine ⟨rfl, h1, h2, ?_, ?_⟩
    · simp only [readSnapshot, M.run_bind, M.run_gets, h3, if_true, M.need]
    · intro τ key x
      rw [h4]
      refine or_congr_right (and_congr_right fun hτ => ?_)
      constructor
      · rintro ⟨ps, hm, hx⟩
        obtain ⟨i, hi, hd⟩ := k1 key ps (get?_of_mem hnd hm)
        exact ⟨i, ps, hi, hd, hx⟩
      · rintro ⟨i, ps, hi, hd, hx⟩
        obtain ⟨k, ps', hk, hps'⟩ := k4 i (art_mem_dependencies (Graph.keyOf_mem hi))
        rw [hi, Option.some.injEq] at hk
        subst hk
        obtain ⟨j, hj, hdj⟩ := k1 key ps' hps'
        have : Art.raw j = Art.raw i := Graph.keyOf_inj hn hj hi
        simp only [Art.raw.injEq] at this
        subst this
        rw [hd] at hdj
        simp only [Except.ok.injEq] at hdj
        subst hdj
        exact ⟨ps, get?_mem hps', hx⟩

/-- **C30.** So a snapshot that is new to the backend is linked, for each raw artifact, to exactly
the partitions that discovery finds for it, and under other keys to nothing. -/
theorem C30_new_snapshot_links {g : Graph} (hn : (keys g.arts).Nodup) {s s' : St κ D}
    (hb : s.budget = none) {σ : Snapshot} (h : fromGraph env g s = (.ok σ, s'))
    (hnew : ∀ key, linksOf s σ key = []) :
    (∀ key i, g.keyOf (.raw i) = some key → ∃ ps, discover env s.files i.sto [] = .ok ps ∧
      ∀ x, x ∈ linksOf s' σ key ↔ x ∈ ps) ∧
    ∀ key, (∀ i, g.keyOf (.raw i) ≠ some key) → linksOf s' σ key = [] := by
  obtain ⟨-, -, -, -, hl⟩ := C30_links_exactly_the_raw_partitions hn hb h
  constructor
  · intro key i hi
    rcases fromGraph_run (env := env) hn hb with ⟨e, -, h'⟩ | ⟨id, known, t, hsc, -⟩
    · rw [h'] at h; simp at h
    · obtain ⟨ps, hps, -⟩ :=
        scan_nonempty _ _ _ _ hsc i (art_mem_dependencies (Graph.keyOf_mem hi))
      refine ⟨ps, hps, fun x => ?_⟩
      rw [hl, hnew]
      constructor
      · rintro (hx | ⟨-, j, ps', hj, hd, hx⟩)
        · simp at hx
        · have : Art.raw j = Art.raw i := Graph.keyOf_inj hn hj hi
          simp only [Art.raw.injEq] at this
          subst this
          rw [hps] at hd
          simp only [Except.ok.injEq] at hd
          subst hd
          exact hx
      · intro hx
        exact .inr ⟨rfl, i, ps, hi, hps, hx⟩
  · intro key hk
    refine List.eq_nil_iff_forall_not_mem.2 fun x hx => ?_
    rw [hl, hnew] at hx
    rcases hx with hx | ⟨-, i, ps, hi, -⟩
    · simp at hx
    · exact hk i hi

/-! ## C46 -/

omit [DecidableEq κ] in
/-- **C46.** Reading no partitions raises. -/
theorem C46_no_partitions (files : PyDict Str Str) (i : ArtInfo) (view : Nat) :
    ioRead env files i view ([] : List (PSnap κ)) = .error .fileNotFound := rfl

omit [DecidableEq κ] in
/-- **C46.** Reading several partitions of an artifact that is not partitioned raises. -/
theorem C46_several_partitions (files : PyDict Str Str) (i : ArtInfo) (view : Nat)
    (ss : List (PSnap κ)) (hs : 2 ≤ ss.length) (hi : i.partitioned = false) :
    ioRead env files i view ss = .error .valueError := by
  unfold ioRead
  cases ss with
  | nil => simp at hs
  | cons x ss => simp [hi]; intro hc; simp [hc] at hs

/-- The data of a partition is there and loads as a value with these elements. -/
def LoadsElems (L : Io.Loader V) (files : PyDict Str Str) (sn : PSnap κ) (xs : List V) : Prop :=
  ∃ c v, content files sn.part.loc = some c ∧ L.load c = .ok v ∧ L.elems v = .ok xs

omit [DecidableEq κ] in
private theorem chain_contents (L : Io.Loader V) (files : PyDict Str Str) :
    ∀ (ss : List (PSnap κ)) (d : List V),
    (contents files ss).bind (Io.chain L) = .ok d ↔
      ∃ xs, List.Forall₂ (LoadsElems L files) ss xs ∧ d = xs.flatten
  | [], d => by
    simp only [contents, Except.bind, Io.chain, Except.ok.injEq, List.forall₂_nil_left_iff]
    constructor
    · rintro rfl; exact ⟨[], rfl, rfl⟩
    · rintro ⟨xs, rfl, rfl⟩; rfl
  | sn :: ss, d => by
    have ih := chain_contents L files ss
    simp only [contents]
    cases hc : content files sn.part.loc with
    | none =>
      constructor
      · intro h; simp [Except.bind] at h
      · rintro ⟨xs, h, -⟩
        cases h with
        | cons h1 h2 => obtain ⟨c, v, h3, -⟩ := h1; rw [hc] at h3; simp at h3
    | some c =>
      have hkey : ((contents files ss).map (c :: ·)).bind (Io.chain L) = .ok d ↔
          ∃ v xs, L.load c = .ok v ∧ L.elems v = .ok xs ∧
            ∃ r, (contents files ss).bind (Io.chain L) = .ok r ∧ d = xs ++ r := by
        cases contents files ss with
        | error e => simp [Except.bind, Except.map]
        | ok cs =>
          simp only [Except.map, Except.bind, Io.chain, bind]
          cases L.load c with
          | error e => simp
          | ok v =>
            simp only
            cases hx : L.elems v with
            | error e => simp [hx]
            | ok xs =>
              simp only
              cases Io.chain L cs with
              | error e => simp
              | ok r => simp [hx, eq_comm]
      rw [hkey]
      constructor
      · rintro ⟨v, xs, h1, h2, r, h3, rfl⟩
        obtain ⟨ys, h4, rfl⟩ := (ih r).1 h3
        exact ⟨xs :: ys, .cons ⟨c, v, hc, h1, h2⟩ h4, rfl⟩
      · rintro ⟨zs, h, rfl⟩
        cases h with
        | cons h1 h2 =>
          obtain ⟨c', v, h3, h4, h5⟩ := h1
          rw [hc, Option.some.injEq] at h3
          subst h3
          exact ⟨v, _, h4, h5, _, (ih _).2 ⟨_, h2, rfl⟩, rfl⟩

omit [DecidableEq κ] in
/-- **C46.** A partitioned artifact is read as the list of all elements of all its partitions, in
the order of the partitions; this succeeds exactly if there is a partition and the data of each
partition is there, loads, and can be iterated. -/
theorem C46_partitioned_read_concatenates {env : Env κ V} {L : Io.Loader V} {i : ArtInfo}
    {view : Nat} (hdec : ∀ cs, env.dec i view cs = Io.reader L i.partitioned cs)
    (hi : i.partitioned = true) (files : PyDict Str Str) (ss : List (PSnap κ)) (d : V) :
    ioRead env files i view ss = .ok d ↔
      ss ≠ [] ∧ ∃ xs, List.Forall₂ (LoadsElems L files) ss xs ∧ d = L.list xs.flatten := by
  unfold ioRead
  cases ss with
  | nil => simp
  | cons sn ss =>
    simp only [List.isEmpty_cons, Bool.false_eq_true, if_false, hi, Bool.not_true, Bool.and_false,
      ne_eq, reduceCtorEq, not_false_eq_true, true_and, hdec, Io.reader, if_true]
    have h := chain_contents L files (sn :: ss)
    revert h
    simp only [bind]
    cases contents files (sn :: ss) with
    | error e =>
      intro h
      simp only [Except.bind] at h ⊢
      constructor
      · intro hc; simp at hc
      · rintro ⟨xs, hx, -⟩
        exact absurd ((h _).2 ⟨xs, hx, rfl⟩) (by simp)
    | ok cs =>
      intro h
      simp only [Except.bind] at h ⊢
      cases hc : Io.chain L cs with
      | error e =>
        rw [hc] at h
        constructor
        · intro hc; simp [Except.map] at hc
        · rintro ⟨xs, hx, -⟩
          exact absurd ((h _).2 ⟨xs, hx, rfl⟩) (by simp)
      | ok r =>
        rw [hc] at h
        simp only [Except.map, Except.ok.injEq]
        constructor
        · rintro rfl
          obtain ⟨xs, hx, rfl⟩ := (h r).1 rfl
          exact ⟨xs, hx, rfl⟩
        · rintro ⟨xs, hx, rfl⟩
          have := (h _).2 ⟨xs, hx, rfl⟩
          rw [Except.ok.inj this]

omit [DecidableEq κ] in
/-- **C46.** An artifact that is not partitioned is read from its only partition. -/
theorem C46_unpartitioned_read {env : Env κ V} {L : Io.Loader V} {i : ArtInfo} {view : Nat}
    (hdec : ∀ cs, env.dec i view cs = Io.reader L i.partitioned cs)
    (hi : i.partitioned = false) (files : PyDict Str Str) (ss : List (PSnap κ)) (d : V) :
    ioRead env files i view ss = .ok d ↔
      ∃ sn c, ss = [sn] ∧ content files sn.part.loc = some c ∧ L.load c = .ok d := by
  unfold ioRead
  rcases ss with _ | ⟨sn, _ | ⟨sn', ss⟩⟩
  · simp
  · simp only [List.isEmpty_cons, Bool.false_eq_true, if_false, List.length_singleton,
      Nat.lt_irrefl, decide_false, Bool.false_and, contents, hdec, Io.reader, hi, bind]
    cases hc : content files sn.part.loc with
    | none => simp [Except.bind, hc]
    | some c => simp [Except.bind, Except.map, hc]
  · simp [hi]

omit [DecidableEq κ] in
/-- **C46.** A literal that has a value cannot be written; nothing changes. -/
theorem C46_set_literals_cannot_be_written (i : ArtInfo) (view : Nat) (d : D) (p : Prt κ)
    (id v : Str) (hp : p.loc = .lit id (some v)) (s : St κ D) :
    ioWrite env i view d p s = (.error .valueError, s) := by
  unfold ioWrite
  rw [hp]
  rfl

/-- **C46.** A reader that is called directly for data that is not partitioned loads one partition
and raises if it is given none or several. -/
theorem C46_reader_wants_one_partition (L : Io.Loader V) (cs : List Str) :
    (∀ c, cs = [c] → Io.reader L false cs = L.load c) ∧
    (cs.length ≠ 1 → Io.reader L false cs = .error .assertion) := by
  refine ⟨?_, fun h => ?_⟩
  · rintro c rfl; rfl
  · rcases cs with _ | ⟨c, _ | ⟨c', cs⟩⟩
    · rfl
    · simp at h
    · rfl

omit [DecidableEq κ] in
/-- **C46.** Writing a partition returns a snapshot of the same partition, except that a literal
gets the value, whose data is what was written and whose content fingerprint is that of the data:
reading this snapshot decodes exactly the encoded data. -/
theorem C46_write_then_read (i : ArtInfo) (view view' : Nat) (d : D) (p : Prt κ) (s s' : St κ D)
    (hb : s.budget = none) (sn : PSnap κ) (h : ioWrite env i view d p s = (.ok sn, s')) :
    ∃ c, env.enc i view d = .ok c ∧ content s'.files sn.part.loc = some c ∧
      sn.contentFp = contentFp env sn.part.loc c ∧ sn.part.key = p.key ∧
      sn.part.inputFp = p.inputFp ∧ sn.part.sto = p.sto ∧
      ioRead env s'.files i view' [sn] = env.dec i view' [c] := by
  unfold ioWrite at h
  have key : ∀ {sn : PSnap κ} {files : PyDict Str Str} {c : Str},
      content files sn.part.loc = some c → ioRead env files i view' [sn] = env.dec i view' [c] := by
    intro sn files c hc
    simp [ioRead, contents, hc, Except.map, bind, Except.bind]
  cases hl : p.loc with
  | file path =>
    rw [hl] at h
    simp only [M.run_bind, M.run_lift] at h
    cases he : env.enc i view d with
    | error e => rw [he] at h; simp at h
    | ok c =>
      rw [he] at h
      simp only at h
      rw [effect_none' hb] at h
      simp only [M.run_gets, snap, hl, content, get?_set, if_true, Prod.mk.injEq,
        Except.ok.injEq] at h
      obtain ⟨rfl, rfl⟩ := h
      have hc : content (set s.files path c) p.loc = some c := by
        rw [hl]; simp [content, get?_set]
      exact ⟨c, rfl, hc, by rw [hl], rfl, rfl, rfl, key hc⟩
  | lit id v =>
    rw [hl] at h
    cases v with
    | some v => simp [M.run_bind, M.raiseIf] at h
    | none =>
      simp only [M.run_bind, M.raiseIf, Option.isSome_none, Bool.false_eq_true, if_false,
        M.run_lift] at h
      cases he : env.enc i view d with
      | error e => rw [he] at h; simp at h
      | ok c =>
        rw [he] at h
        simp only [snap, content, Prod.mk.injEq, Except.ok.injEq] at h
        obtain ⟨rfl, rfl⟩ := h
        exact ⟨c, rfl, rfl, rfl, rfl, rfl, rfl, key rfl⟩

/-! ## Concrete cases -/

namespace Ex30
open Ex

def a : Art := .raw ⟨0, false, .file ⟨['a'], false⟩⟩
def c : Art := .raw ⟨0, false, .file ⟨['c'], false⟩⟩
def b : Art := .made ⟨0, false, .file ⟨"b{input_fingerprint}".toList, false⟩⟩
  (.mk ['A'] ['1'] (.cons ['x'] a .nil)) 0
def g : Graph := ⟨['g'], [(['a'], a), (['b'], b), (['c'], c)], []⟩

def s (files : PyDict Str Str) : St Nat Str := ⟨files, [], [], [], [], [], none, [], [], []⟩

/-- With both files the snapshot is taken and both are linked, without one it is not. -/
example : (∃ σ, (fromGraph Ex.env g (s [(['a'], ['u']), (['c'], ['v'])])).1 = .ok σ ∧
      (linksOf (fromGraph Ex.env g (s [(['a'], ['u']), (['c'], ['v'])])).2 σ ['c']).length = 1) ∧
    (fromGraph Ex.env g (s [(['a'], ['u'])])).1 = .error .valueError := by
  refine ⟨⟨_, rfl, by decide +kernel⟩, by decide +kernel⟩

example : ∃ e, fromGraph Ex.env g (s [(['a'], ['u'])]) = (.error e, s [(['a'], ['u'])]) :=
  C30_raises_without_data (k := ['c']) (i := ⟨0, false, .file ⟨['c'], false⟩⟩) (by decide) rfl
    (by decide) (by decide +kernel)

example : ∃ σ, (fromGraph Ex.env g (s [(['a'], ['u']), (['c'], ['v'])])).1 = .ok σ := by
  refine (C30_succeeds_iff_all_raw_data_exists ExFp.ranges (by decide) rfl).2 ?_
  intro k i h
  simp only [g, a, b, c, List.mem_cons, Prod.mk.injEq, Art.raw.injEq, reduceCtorEq, and_false,
    List.not_mem_nil, or_false, false_or] at h
  rcases h with ⟨-, rfl⟩ | ⟨-, rfl⟩ <;>
    exact ⟨[_], rfl, by simp⟩

end Ex30

namespace Ex46

/-- Values are strings, which are iterated by character, as in Python. -/
def loader : Io.Loader Str := ⟨fun c => .ok c, fun v => .ok (v.map fun c => [c]), List.flatten⟩

def jsonEnv : Env Nat Str := { Ex.env with dec := fun i _ cs => Io.reader loader i.partitioned cs }

def sn (p : Str) : PSnap Nat := ⟨0, ⟨.file ⟨['p'], true⟩, none, 0, .file p⟩⟩

example : ioRead jsonEnv [(['1'], "ab".toList), (['2'], "cd".toList)]
    ⟨0, true, .file ⟨['p'], true⟩⟩ 0 [sn ['2'], sn ['1']] = .ok "cdab".toList :=
  (C46_partitioned_read_concatenates (L := loader) (fun _ => rfl) rfl _ _ _).2
    ⟨by decide, [[['c'], ['d']], [['a'], ['b']]],
      .cons ⟨"cd".toList, "cd".toList, by decide, rfl, rfl⟩
        (.cons ⟨"ab".toList, "ab".toList, by decide, rfl, rfl⟩ .nil), by decide⟩

end Ex46

end Arti.Props
