import Verif.Examples.World
import Verif.Lemmas.Store
import Verif.Props.Build

/-!
# C38, C39, C41: repeated builds, what a build links

No assumption is made on the state of the world in which a build starts: files, backend contents
and links may be arbitrary.
-/

namespace Arti.Props
open Arti PyDict World Spec
variable {κ D : Type} [DecidableEq κ] {env : Env κ D} {gs : Graph → Prop}

/-- After a build that succeeded, all producers of the graph are done. -/
theorem build_done (hi : IterOk env) {σ : Snapshot} (hk : (keys σ.graph.arts).Nodup)
    (hown : OwnStorage σ.graph) (hne : SomeOutput env σ.graph) {s s' : St κ D}
    (hrun : build env σ s = (.ok (), s')) :
    ∃ order, Topo.staticOrder σ.graph.dependencies = .ok order ∧
      ∀ p, Nd.pdr p ∈ order → Done env σ p s' := by
  obtain ⟨_, order, ho⟩ := C28_graphs_are_acyclic σ.graph
  refine ⟨order, ho, ?_⟩
  simp only [build, M.run_bind, M.run_lift, ho] at hrun
  have := buildOrder_done hi hk hown hne order [] s s'
    (sched_static ho fun p hp => (pdr_mem_order ho p).1 hp)
    (C27_order_respects_dependencies _ _ ho).1 (by simp) (by simp) hrun
  simpa using this

/-- C38: building a snapshot again after a successful build succeeds and changes nothing: no
`build` is called, no file is written, nothing is added to the backend. -/
theorem C38_rebuild_changes_nothing (hi : IterOk env) {σ : Snapshot}
    (hk : (keys σ.graph.arts).Nodup) (hown : OwnStorage σ.graph) (hne : SomeOutput env σ.graph)
    {s s' : St κ D} (hrun : build env σ s = (.ok (), s')) :
    ∃ t, build env σ { s' with budget := none } = (.ok (), t) ∧ t.calls = s'.calls ∧
      t.files = s'.files ∧ t.storage = s'.storage ∧ t.links = s'.links ∧ t.graphs = s'.graphs ∧
      t.snapshots = s'.snapshots ∧ t.tags = s'.tags := by
  obtain ⟨order, ho, hd⟩ := build_done hi hk hown hne hrun
  obtain ⟨l, hl⟩ := rebuildOrder hi (σ := σ) order { s' with budget := none } rfl
    fun p hp => (hd p hp).of_eq rfl rfl
  refine ⟨{ s' with budget := none, invs := s'.invs ++ l }, ?_, rfl, rfl, rfl, rfl, rfl, rfl, rfl⟩
  simp only [build, M.run_bind, M.run_lift, ho]
  exact hl

/-- C39: after a successful build, each partition that the `map` of a producer asks for is linked
to an output of the producer. -/
theorem C39_every_mapped_partition_is_linked (hi : IterOk env) {σ : Snapshot}
    (hk : (keys σ.graph.arts).Nodup) (hown : OwnStorage σ.graph) (hne : SomeOutput env σ.graph)
    {s s' : St κ D} (hrun : build env σ s = (.ok (), s')) {k : Str} {i : ArtInfo} {p : Pdr}
    {pos : Nat} (hp : (k, Art.made i p pos) ∈ σ.graph.arts) :
    (∃ items, (cls env p).map ((inputsOf env s' σ p).filter fun x =>
      (cls env p).mapInputs.contains x.1) = .ok items ∧
      ∀ x ∈ items, ∃ fp, Asked env s' σ p x.1 fp) ∧
    ∀ pk fp, Asked env s' σ p pk fp →
      ∃ k' i' pos', (k', Art.made i' p pos') ∈ σ.graph.arts ∧
        ∃ key, σ.graph.keyOf (.made i' p pos') = some key ∧
        ∃ sn ∈ linksOf s' σ key, sn.part.key = pk ∧ sn.part.inputFp = some fp := by
  obtain ⟨order, ho, hd⟩ := build_done hi hk hown hne hrun
  obtain ⟨ins, deps, ifps, outs, h1, h2, h3, h4, h5⟩ := hd p ((pdr_mem_order ho p).2 ⟨k, i, pos, hp⟩)
  obtain ⟨items, g1, g2, g3⟩ := computeDependencies_ok h2
  constructor
  · refine ⟨items, ?_, fun x hx => ?_⟩
    · unfold inputsOf
      rw [← getInputs_eq _ h1]; exact g1
    · have hmem : x.1 ∈ keys deps := by
        rw [g2, mem_keys_ofItems]
        exact List.mem_map.2 ⟨x, hx, rfl⟩
      obtain ⟨y, hy, hyx⟩ := List.mem_map.1 hmem
      obtain ⟨fp, hfp⟩ := Option.isSome_iff_exists.1 (h5 y hy).1
      exact ⟨fp, (asked_iff h1 h2 _ _).2 (by rw [← hyx]; exact hfp)⟩
  · intro pk fp hask
    have hg := (asked_iff h1 h2 pk fp).1 hask
    have hne' : ifps ≠ [] := by rintro rfl; simp [get?] at hg
    obtain ⟨d, hd1, _⟩ := (inputFingerprints_get _ g3 pk fp).1 hg
    obtain ⟨_, a, ha, ps, hps, sn, hsn, hm, hpk⟩ := h5 _ (get?_mem hd1)
    obtain ⟨k', i', pos', rfl, hin⟩ := Graph.mem_producerOutputs h3 ha
    obtain ⟨ps', key, l, e1, e2, e3, e4⟩ := h4 _ ha
    rw [hps] at e1
    obtain rfl := Option.some.inj e1
    refine ⟨k', i', pos', hin, key, e2, sn, ?_, hpk, ?_⟩
    · unfold linksOf
      rw [e3]
      exact e4 sn hsn hm
    · rcases hm with hm | hm
      · exact absurd hm hne'
      · rw [← hm]
        simp only at hpk
        rw [hpk]; exact hg

/-- C39, for a producer of which the graph holds one output: each partition that `map` asks for is
linked to it. -/
theorem C39_single_output_is_complete (hi : IterOk env) {σ : Snapshot}
    (hk : (keys σ.graph.arts).Nodup) (hown : OwnStorage σ.graph) (hso : SingleOutput env σ.graph)
    {s s' : St κ D} (hrun : build env σ s = (.ok (), s')) {k : Str} {i : ArtInfo} {p : Pdr}
    {pos : Nat} (hp : (k, Art.made i p pos) ∈ σ.graph.arts) {pk : κ} {fp : Fp}
    (hask : Asked env s' σ p pk fp) :
    ∃ key, σ.graph.keyOf (.made i p pos) = some key ∧
      ∃ sn ∈ linksOf s' σ key, sn.part.key = pk ∧ sn.part.inputFp = some fp := by
  have hne : SomeOutput env σ.graph := by
    intro k i p pos h args outs ho he
    have := (hso.one k i p pos h).2 args outs ho
    rw [he] at this
    simp at this
  obtain ⟨k', i', pos', h1, h2⟩ :=
    (C39_every_mapped_partition_is_linked hi hk hown hne hrun hp).2 pk fp hask
  obtain ⟨rfl, rfl⟩ := hso.unique _ _ _ _ _ _ _ hp h1
  exact h2

/-- C41, for producers whose `map` never returns an empty dict: a build adds a link to a produced
artifact only if `map` asks for this partition, with this input fingerprint.

Missing: producers whose `map` may return an empty dict, for which the property fails
(`C41_violated_by_empty_map`). -/
theorem C41_only_mapped_partitions_are_linked_partial (hi : IterOk env) {σ : Snapshot}
    (hk : (keys σ.graph.arts).Nodup) (hown : OwnStorage σ.graph)
    (hfp : ∀ k i p pos, (k, Art.made i p pos) ∈ σ.graph.arts → i.sto.hasFp = true)
    {s s' : St κ D}
    (hsto : ∀ k i p pos, (k, Art.made i p pos) ∈ σ.graph.arts → ∀ ps,
      get? s.storage i.sto = some ps → ∀ sn ∈ ps, sn.part.inputFp.isSome = true)
    (hrun : build env σ s = (.ok (), s')) {k : Str} {i : ArtInfo} {p : Pdr}
    {pos : Nat} (hp : (k, Art.made i p pos) ∈ σ.graph.arts)
    (hmap : ∀ ins items, (cls env p).map ins = .ok items → items ≠ []) {key : Str}
    (hkey : σ.graph.keyOf (.made i p pos) = some key) :
    ∀ sn ∈ linksOf s' σ key, sn ∈ linksOf s σ key ∨
      ∃ fp, sn.part.inputFp = some fp ∧ Asked env s' σ p sn.part.key fp := by
  obtain ⟨_, order, ho⟩ := C28_graphs_are_acyclic σ.graph
  simp only [build, M.run_bind, M.run_lift, ho] at hrun
  obtain ⟨hnd, _, _⟩ := C27_order_respects_dependencies _ _ ho
  have hin := fun p => pdr_mem_order ho p
  obtain ⟨l, r, hlr⟩ := List.append_of_mem ((hin p).2 ⟨k, i, pos, hp⟩)
  have hbef := C27_producer_after_input_producers σ.graph order ho k i p pos hp
  rw [hlr] at hrun
  obtain ⟨s1, s2, r1, r2, r3⟩ := buildOrder_split l r s s' hrun
  rw [hlr, List.nodup_append, List.nodup_cons] at hnd
  have hpl : Nd.pdr p ∉ l := fun h => hnd.2.2 _ h _ (by simp) rfl
  have hml : ∀ q, Nd.pdr q ∈ l → ∃ k i pos, (k, Art.made i q pos) ∈ σ.graph.arts := fun q hq =>
    (hin q).1 (by rw [hlr]; simp [hq])
  have hmr : ∀ q, Nd.pdr q ∈ r → ∃ k i pos, (k, Art.made i q pos) ∈ σ.graph.arts := fun q hq =>
    (hin q).1 (by rw [hlr]; simp [hq])
  obtain ⟨outs, houts⟩ := producerOutputs_of_mem hp
  have hinj : ∀ {a b : Art} {k : Str}, σ.graph.keyOf a = some k → σ.graph.keyOf b = some k → a = b :=
    fun h1 h2 => Graph.keyOf_inj hk h1 h2
  -- links of this producer and of its inputs do not change after it
  have hafter : ∀ k0, (∀ q, Nd.pdr q ∈ r → ∀ i pos, σ.graph.keyOf (.made i q pos) ≠ some k0) →
      get? s'.links (σ, k0) = get? s2.links (σ, k0) := by
    intro k0 h
    have := buildOrder_links (env := env) (σ := σ) σ k0 r s2 fun q hq => ⟨hmr q hq, fun _ => h q hq⟩
    rw [r3] at this; exact this
  have hbefore : get? s1.links (σ, key) = get? s.links (σ, key) := by
    have := buildOrder_links (env := env) (σ := σ) σ key l s fun q hq =>
      ⟨hml q hq, fun _ i' pos' h => by
        obtain h' := hinj hkey h
        simp only [Art.made.injEq] at h'
        obtain ⟨_, rfl, _⟩ := h'
        exact hpl hq⟩
    rw [r1] at this; exact this
  have hself : ∀ n a k, (n, a) ∈ p.inputs → σ.graph.keyOf a = some k → ∀ b ∈ outs,
      σ.graph.keyOf b ≠ some k := by
    intro n a k0 hna hka b hb hkb
    obtain rfl := hinj hka hkb
    obtain ⟨k', i', pos', rfl, hm⟩ := Graph.mem_producerOutputs houts hb
    exact hpl (hbef n _ _ _ hna k' hm l r hlr)
  have hsto1 : ∀ a ∈ outs, ∀ ps, get? s1.storage a.info.sto = some ps → ∀ sn ∈ ps,
      sn.part.inputFp.isSome = true := by
    intro a ha
    obtain ⟨k', i', pos', rfl, hm⟩ := Graph.mem_producerOutputs houts ha
    have hst := buildOrder_storage (env := env) (σ := σ) i'.sto l s fun q hq =>
      ⟨hml q hq, fun j qpos kj hj he => by
        have := hown _ _ _ _ _ _ _ _ hm hj he.symm
        simp only [Art.made.injEq] at this
        obtain ⟨_, rfl, _⟩ := this
        exact hpl hq⟩
    rw [r1] at hst
    simp only [Art.info]
    rw [hst]
    exact hsto _ _ _ _ hm
  intro sn hsn
  have hl' : linksOf s' σ key = linksOf s2 σ key := by
    unfold linksOf
    rw [hafter key fun q hq i' pos' h => by
      obtain h' := hinj hkey h
      simp only [Art.made.injEq] at h'
      obtain ⟨_, rfl, _⟩ := h'
      exact hnd.2.1.1 hq]
  rw [hl'] at hsn
  have hls : linksOf s σ key = linksOf s1 σ key := by
    unfold linksOf
    rw [hbefore]
  rw [hls]
  by_cases hout : Art.made i p pos ∈ outs
  · rcases buildProducer_new hi houts (outsOk hk hown houts) (fun a ha => by
      obtain ⟨k', i', pos', rfl, hm⟩ := Graph.mem_producerOutputs houts ha
      exact hfp _ _ _ _ hm) hself hmap r2 hsto1 _ hout key hkey sn hsn with h | ⟨fp, h1, h2⟩
    · exact .inl h
    · refine .inr ⟨fp, h1, ?_⟩
      obtain ⟨items, d, e1, e2, e3⟩ := h2
      refine ⟨items, d, ?_, e2, e3⟩
      rw [← e1]
      unfold inputsOf
      congr 2
      refine List.map_congr_left fun x hx => ?_
      unfold linksOf
      cases hkx : σ.graph.keyOf x.2 with
      | none =>
        obtain ⟨k0, hk0⟩ := buildProducer_keys r2 x hx
        rw [hkx] at hk0
        simp at hk0
      | some k0 =>
        simp only [Option.getD_some]
        rw [hafter k0 fun q hq i' pos' h => by
          obtain h' := hinj hkx h
          obtain ⟨n, a⟩ := x
          simp only at h'
          subst h'
          exact hnd.2.2 _ (hbef n _ _ _ hx _ (Graph.keyOf_mem h) l r hlr) _ (by simp [hq]) rfl]
  · left
    have hu := (buildProducer_untouched (env := env) houts s1).2.1 σ key (fun _ b hb h => by
      obtain rfl := hinj hkey h
      exact hout hb)
    rw [r2] at hu
    unfold linksOf at hsn ⊢
    rw [← hu]; exact hsn

/-- The condition of C41 on the known partitions holds in every history. -/
theorem C41_known_partitions_have_fingerprints (hk : ∀ g, gs g → (keys g.arts).Nodup) {s : St κ D}
    (hs : Reach env gs s) {sto : Sto} (hfp : sto.hasFp = true) {ps : List (PSnap κ)}
    (hps : get? s.storage sto = some ps) : ∀ sn ∈ ps, sn.part.inputFp.isSome = true := by
  intro sn hsn
  rw [(hs.storeOk hk sto ps hps sn hsn).2, hfp]

namespace Ex38
open Ex Ex42

/-- A snapshot is taken after the history of C42 and then built. -/
def s1 : St Nat Str := (fromGraph Ex.env g { s with budget := none }).2
def s2 : St Nat Str := (build Ex.env σ s1).2

theorem run_ok : build Ex.env σ s1 = (.ok (), s2) := by
  have : (build Ex.env σ s1).1 = .ok () := by decide +kernel
  exact Prod.ext this (by rw [s2])

theorem nodup : (keys σ.graph.arts).Nodup := by decide
theorem own : OwnStorage σ.graph := ownStorage g (by decide +kernel)

/-- The build calls a producer, the repeated build does not. -/
example : s1.calls.length < s2.calls.length ∧
    ∃ t, build Ex.env σ { s2 with budget := none } = (.ok (), t) ∧ t.calls = s2.calls := by
  obtain ⟨t, h1, h2, _⟩ := C38_rebuild_changes_nothing iterOk nodup own (someOutput _) run_ok
  exact ⟨by decide +kernel, t, h1, h2⟩

theorem reach1 : Reach Ex.env (· ∈ [g]) s1 := by
  have := Reach.step (.snapshot g none) reach (List.mem_singleton.2 rfl)
  unfold s1
  exact this

theorem mem_b : (['b'], b) ∈ σ.graph.arts := by decide
theorem key_b : σ.graph.keyOf b = some ['b'] := by decide +kernel

theorem mapped : ((cls Ex.env p).map ((inputsOf Ex.env s2 σ p).filter fun x =>
    (cls Ex.env p).mapInputs.contains x.1)).map (List.map Prod.fst) = .ok [2, 1] := by
  decide +kernel

/-- `map` asks for two partitions of `b`. -/
theorem asked : ∀ n ∈ [2, 1], ∃ fp, Asked Ex.env s2 σ p n fp := by
  obtain ⟨⟨items, h1, h2⟩, _⟩ := C39_every_mapped_partition_is_linked iterOk nodup own
    (someOutput _) run_ok mem_b
  have := mapped
  rw [h1] at this
  have hk : items.map Prod.fst = [2, 1] := Except.ok.inj this
  rw [← hk]
  intro n hn
  obtain ⟨x, hx, rfl⟩ := List.mem_map.1 hn
  exact h2 x hx

theorem fresh : linksOf s1 σ ['b'] = [] := by decide +kernel

/-- Both are linked, and nothing else is. -/
example : (∃ sn ∈ linksOf s2 σ ['b'], sn.part.key = 1) ∧
    (∃ sn ∈ linksOf s2 σ ['b'], sn.part.key = 2) ∧
    (∀ sn ∈ linksOf s2 σ ['b'], ∃ fp, sn.part.inputFp = some fp ∧
      Asked Ex.env s2 σ p sn.part.key fp) := by
  have h39 : ∀ n ∈ [2, 1], ∃ sn ∈ linksOf s2 σ ['b'], sn.part.key = n := by
    intro n hn
    obtain ⟨fp, hfp⟩ := asked n hn
    obtain ⟨key, h1, sn, h2, h3, _⟩ := C39_single_output_is_complete iterOk nodup own
      (single g (List.mem_singleton.2 rfl)) run_ok mem_b hfp
    have := key_b.symm.trans h1
    obtain rfl := Option.some.inj this
    exact ⟨sn, h2, h3⟩
  refine ⟨h39 1 (by simp), h39 2 (by simp), fun sn hsn => ?_⟩
  have hfp : ∀ k i p pos, (k, Art.made i p pos) ∈ σ.graph.arts → i.sto.hasFp = true :=
    fun k i p pos h => disc.hasFp i p pos ⟨g, List.mem_singleton.2 rfl, k, h⟩
  rcases C41_only_mapped_partitions_are_linked_partial iterOk nodup own hfp
    (fun k i p pos h ps hps => C41_known_partitions_have_fingerprints disc.keys reach1
      (hfp k i p pos h) hps) run_ok mem_b
    (fun ins items h => (impl_selects p.cls (hash p.ver) ins items h).2 (by decide))
    key_b sn hsn with h | h
  · rw [fresh] at h
    simp at h
  · exact h

end Ex38

namespace Ex41
open Ex

def a : Art := .raw ⟨0, true, .file ⟨"a".toList, true⟩⟩
def p : Pdr := .mk ['N'] ['1'] (.cons ['x'] a .nil)
def b : Art := .made ⟨0, false, .file ⟨"b{input_fingerprint}".toList, false⟩⟩ p 0
def g : Graph := ⟨['g'], [(['a'], a), (['b'], b)], []⟩

/-- Build, then replace the raw data by the empty string, for which `map` returns nothing. -/
def ops : List (HOp Nat Str) := [.build g none, .put "a~1".toList []]
def files : PyDict Str Str := [("a~1".toList, ['u'])]
def s0 : St Nat Str := ⟨files, [], [], [], [], [], none, [], [], []⟩
def s : St Nat Str := runOps Ex.env s0 ops
def s' : St Nat Str := (graphBuild Ex.env g s).2
def σ : Snapshot := ⟨710, g⟩

theorem reach : Reach Ex.env (· ∈ [g]) s := by
  have h0 : Reach Ex.env (· ∈ [g]) s0 := .init files none fun path hp => by
    have : path ∈ keys files := by
      apply Classical.byContradiction
      intro h; exact hp ((get?_eq_none_iff _ _).2 h)
    simp only [files, keys, List.map_cons, List.map_nil, List.mem_cons, List.not_mem_nil,
      or_false] at this
    subst this
    exact not_produced _ _ (by decide +kernel)
  exact Reach.ops _ _ h0 ⟨List.mem_singleton.2 rfl, not_produced _ _ (by decide +kernel), trivial⟩

end Ex41

/-- C41 fails for a producer whose `map` returns an empty dict: the partition that was made from
other raw data is linked to the new snapshot. -/
theorem C41_violated_by_empty_map :
    Reach Ex.env (· ∈ [Ex41.g]) Ex41.s ∧ OwnStorage Ex41.g ∧
    graphBuild Ex.env Ex41.g Ex41.s = (.ok Ex41.σ, Ex41.s') ∧
    (∀ pk fp, ¬ Asked Ex.env Ex41.s' Ex41.σ Ex41.p pk fp) ∧
    linksOf Ex41.s Ex41.σ ['b'] = [] ∧ (linksOf Ex41.s' Ex41.σ ['b']).length = 1 ∧
    (readSnapshotData Ex.env Ex41.σ Ex41.b 0 Ex41.s').1 = .ok "u1".toList := by
  refine ⟨Ex41.reach, Ex.ownStorage _ (by decide +kernel), Prod.ext (by decide +kernel)
    (by rw [Ex41.s']), ?_, by decide +kernel, by decide +kernel, by decide +kernel⟩
  rintro pk fp ⟨items, d, h1, h2, _⟩
  have : ((cls Ex.env Ex41.p).map ((inputsOf Ex.env Ex41.s' Ex41.σ Ex41.p).filter fun x =>
      (cls Ex.env Ex41.p).mapInputs.contains x.1)).map (List.map Prod.fst) = .ok [] := by
    decide +kernel
  rw [h1] at this
  have hk : items.map Prod.fst = [] := Except.ok.inj this
  rw [List.map_eq_nil_iff.1 hk] at h2
  simp [ofItems, get?] at h2

end Arti.Props
