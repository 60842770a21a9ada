import Verif.Lemmas.FromGraph
import Verif.Props.Topo

/-! Building a snapshot. -/

namespace Arti.Spec
open PyDict World M
variable {κ D : Type} [DecidableEq κ] {env : Env κ D} {gs : Graph → Prop}

/-- Links of a snapshot are evaluated partitions. -/
theorem LInv.linked_eval (hd : IterOk env) {s : St κ D} (hl : LInv (LinkEval env) s) {σ : Snapshot}
    {r : PyDict Str (Data κ)} (hr : (σ, r) ∈ s.raws) (hu : SnapUnique s.raws) {a : Art} {k : Str}
    (hk : σ.graph.keyOf a = some k) {ℓ : Data κ} (he : evalArt env (rawOf σ r) a = .ok ℓ)
    {sn : PSnap κ} (hsn : sn ∈ linksOf s σ k) : sn ∈ keys ℓ := by
  unfold linksOf at hsn
  cases hgl : get? s.links (σ, k) with
  | none => rw [hgl] at hsn; simp at hsn
  | some ss =>
    rw [hgl] at hsn
    obtain ⟨_, r', hr', hev⟩ := hl.ok σ k ss hgl _ hk sn hsn
    cases a with
    | raw i =>
      simp only [evalArt, Except.ok.injEq] at he
      subst he
      obtain ⟨c, hc⟩ := hev
      exact List.mem_map.2 ⟨_, (hu σ r' r hr' hr i _).1 hc, rfl⟩
    | made i p pos =>
      obtain ⟨rs, h1, o, ho, c, hp⟩ := hev
      rw [evalPdr_congr hd (hu.rawEq hr' hr)] at h1
      simp only [evalArt, h1, bind, Except.bind] at he
      exact List.mem_map.2 ⟨(sn, c), (mem_placeAll he _).2 ⟨o, ho, hp⟩, rfl⟩

theorem Full.mono (hd : IterOk env) {s s' : St κ D} {σ : Snapshot} {r : PyDict Str (Data κ)}
    {a : Art} (h : Full env s σ (rawOf σ r) a) (hl : LInv (LinkEval env) s') (hr : (σ, r) ∈ s'.raws)
    (hu : SnapUnique s'.raws) (hg : Grow s s') : Full env s' σ (rawOf σ r) a := by
  obtain ⟨k, ℓ, h1, h2, h3, h4, h5⟩ := h
  refine ⟨k, ℓ, h1, h2, h3, fun sn => ⟨hl.linked_eval hd hr hu h1 h2, fun hsn => ?_⟩,
    fun x hx => hg.files.content (h5 x hx)⟩
  have := (h4 sn).2 hsn
  unfold linksOf at *
  cases hgl : get? s.links (σ, k) with
  | none => rw [hgl] at this; simp at this
  | some l =>
    rw [hgl] at this
    obtain ⟨l', h6, h7⟩ := hg.links _ _ hgl
    rw [h6]
    exact h7 _ this

/-- Each producer of the list has an output in the graph, and the producers of its inputs are
earlier in the list, or done. -/
def Sched (g : Graph) : List Nd → List Nd → Prop
  | _, [] => True
  | done, .art _ :: rest => Sched g done rest
  | done, .pdr p :: rest =>
    (∃ k i pos, (k, Art.made i p pos) ∈ g.arts) ∧
    (∀ n j q qpos, (n, Art.made j q qpos) ∈ p.inputs → (∃ k', (k', Art.made j q qpos) ∈ g.arts) →
      Nd.pdr q ∈ done) ∧
    Sched g (.pdr p :: done) rest

theorem sched_of_forall {g : Graph} : ∀ (l done : List Nd),
    (∀ a p b, l = a ++ Nd.pdr p :: b → (∃ k i pos, (k, Art.made i p pos) ∈ g.arts) ∧
      ∀ n j q qpos, (n, Art.made j q qpos) ∈ p.inputs → (∃ k', (k', Art.made j q qpos) ∈ g.arts) →
        Nd.pdr q ∈ done ++ a) → Sched g done l
  | [], _, _ => trivial
  | .art x :: rest, done, h => by
    show Sched g done rest
    refine sched_of_forall rest done ?_
    intro a p b hab
    obtain ⟨h1, h2⟩ := h (.art x :: a) p b (by rw [hab]; rfl)
    refine ⟨h1, fun n j q qpos hm hk => ?_⟩
    have := h2 n j q qpos hm hk
    simpa using this
  | .pdr p :: rest, done, h => by
    obtain ⟨h1, h2⟩ := h [] p rest rfl
    refine ⟨h1, fun n j q qpos hm hk => by simpa using h2 n j q qpos hm hk, ?_⟩
    apply sched_of_forall
    intro a p' b hab
    obtain ⟨h3, h4⟩ := h (.pdr p :: a) p' b (by rw [hab]; rfl)
    refine ⟨h3, fun n j q qpos hm hk => ?_⟩
    have := h4 n j q qpos hm hk
    simp only [List.mem_append, List.mem_cons] at this ⊢
    tauto

/-- The order of the sorter is a schedule. -/
theorem sched_static {g : Graph} {order : List Nd}
    (h : Topo.staticOrder g.dependencies = .ok order)
    (hin : ∀ p, Nd.pdr p ∈ order → ∃ k i pos, (k, Art.made i p pos) ∈ g.arts) :
    Sched g [] order := by
  apply sched_of_forall
  intro a p b hab
  obtain ⟨k, i, pos, hk⟩ := hin p (by rw [hab]; simp)
  refine ⟨⟨k, i, pos, hk⟩, fun n j q qpos hm ⟨k', hk'⟩ => ?_⟩
  simpa using Props.C27_producer_after_input_producers g order h k i p pos hk n j q qpos hm k' hk'
    a b hab

theorem pdr_mem_order {g : Graph} {order : List Nd}
    (h : Topo.staticOrder g.dependencies = .ok order) (p : Pdr) :
    Nd.pdr p ∈ order ↔ ∃ k i pos, (k, Art.made i p pos) ∈ g.arts := by
  obtain ⟨_, hm, _⟩ := Props.C27_order_respects_dependencies _ _ h
  rw [hm]
  constructor
  · rintro ⟨n, ps, hmem, hx⟩
    rcases (Graph.mem_dependencies g _ _).1 hmem with ⟨k, a, ha, rfl, rfl⟩ |
      ⟨k, i, q, pos, ha, rfl, rfl⟩
    · rcases hx with hx | hx
      · simp at hx
      · cases a with
        | raw i => simp [Graph.artPreds, Art.out] at hx
        | made i q pos =>
          simp only [Graph.artPreds, Art.out, List.mem_singleton, Nd.pdr.injEq] at hx
          subst hx
          exact ⟨k, i, pos, ha⟩
    · rcases hx with hx | hx
      · simp only [Nd.pdr.injEq] at hx
        subst hx
        exact ⟨k, i, pos, ha⟩
      · obtain ⟨x, _, he⟩ := List.mem_map.1 hx
        simp at he
  · rintro ⟨k, i, pos, ha⟩
    exact ⟨_, _, (Graph.mem_dependencies g _ _).2 (.inr ⟨k, i, p, pos, ha, rfl, rfl⟩), .inl rfl⟩

/-- What a run over a schedule does, whatever its result. -/
theorem buildOrder_spec (hd : Disciplined env gs) {σ : Snapshot} {r : PyDict Str (Data κ)}
    (hg : gs σ.graph) (hso : SingleOutput env σ.graph) : ∀ (nodes done : List Nd)
    (s s' : St κ D) (res : Except Err Unit), Sched σ.graph done nodes →
    WInv env gs s → LInv (LinkEval env) s → (σ, r) ∈ s.raws → SnapUnique s.raws →
    (∀ k i, (k, Art.raw i) ∈ σ.graph.arts → Full env s σ (rawOf σ r) (.raw i)) →
    (∀ k i p pos, (k, Art.made i p pos) ∈ σ.graph.arts → Nd.pdr p ∈ done →
      Full env s σ (rawOf σ r) (.made i p pos)) →
    buildOrder env σ nodes s = (res, s') → NoClash env gs s'.invs →
    WInv env gs s' ∧ LInv (LinkEval env) s' ∧ Grow s s' ∧
    (res = .ok () →
      (∀ k i, (k, Art.raw i) ∈ σ.graph.arts → Full env s' σ (rawOf σ r) (.raw i)) ∧
      ∀ k i p pos, (k, Art.made i p pos) ∈ σ.graph.arts → Nd.pdr p ∈ done ++ nodes →
        Full env s' σ (rawOf σ r) (.made i p pos))
  | [], done, s, s', res, _, hw, hl, hr, hu, hraw, hmade, hrun, hn => by
    simp only [buildOrder, run_pure, Prod.mk.injEq] at hrun
    obtain ⟨rfl, rfl⟩ := hrun
    exact ⟨hw, hl, Grow.refl _, fun _ => ⟨hraw, fun k i p pos hm hp =>
      hmade k i p pos hm (by simpa using hp)⟩⟩
  | .art x :: rest, done, s, s', res, hsch, hw, hl, hr, hu, hraw, hmade, hrun, hn => by
    obtain ⟨h1, h2, h3, h4⟩ := buildOrder_spec hd hg hso rest done s s' res hsch hw hl hr hu hraw
      hmade hrun hn
    refine ⟨h1, h2, h3, fun h => ⟨(h4 h).1, fun k i p pos hm hp => (h4 h).2 k i p pos hm ?_⟩⟩
    simpa using hp
  | .pdr p :: rest, done, s, s', res, hsch, hw, hl, hr, hu, hraw, hmade, hrun, hn => by
    obtain ⟨⟨k0, i0, pos0, hm0⟩, hins, hrest⟩ := hsch
    unfold buildOrder at hrun
    rw [run_bind] at hrun
    cases hbp : buildProducer env σ p s with
    | mk rb s2 =>
      rw [hbp] at hrun
      have hmono : ∀ e ∈ s2.invs, e ∈ s'.invs := by
        cases rb with
        | error e =>
          simp only [Prod.mk.injEq] at hrun
          rw [hrun.2]; exact fun _ => id
        | ok u =>
          simp only at hrun
          have hf : Frame (fun s : St κ D => ∀ e ∈ s2.invs, e ∈ s.invs) :=
            ⟨fun _ _ h => h, fun _ _ h => h, fun _ _ h => h, fun _ _ h => h, fun _ _ h => h⟩
          have := hf.buildOrder (env := env)
            (fun s x h e he => List.mem_append.2 (.inl (h e he))) σ rest s2 (fun _ => id)
          rw [hrun] at this
          exact this
      have hin : ∀ n a, (n, a) ∈ p.inputs → ∀ k, σ.graph.keyOf a = some k →
          Full env s σ (rawOf σ r) a := by
        intro n a ha k hk
        have hmem := Graph.keyOf_mem hk
        cases a with
        | raw i => exact hraw k i hmem
        | made j q qpos => exact hmade k j q qpos hmem (hins n j q qpos ha ⟨k, hmem⟩)
      have hspec := fun k i pos hm => buildProducer_spec hd (k0 := k) (i0 := i) (pos0 := pos) hg hw
        hl hr hu hin hm hbp (hn.mono hmono)
      obtain ⟨hw2, hl2, hg2, _⟩ := hspec k0 i0 pos0 hm0
      cases rb with
      | error e =>
        simp only [Prod.mk.injEq] at hrun
        obtain ⟨rfl, rfl⟩ := hrun
        exact ⟨hw2, hl2, hg2, by simp⟩
      | ok u =>
        simp only at hrun
        have hr2 : (σ, r) ∈ s2.raws := by rw [hg2.raws]; exact hr
        have hu2 : SnapUnique s2.raws := by rw [hg2.raws]; exact hu
        obtain ⟨h1, h2, h3, h4⟩ := buildOrder_spec hd hg hso rest (.pdr p :: done) s2 s' res hrest
          hw2 hl2 hr2 hu2
          (fun k i hm => (hraw k i hm).mono hd.iter hl2 hr2 hu2 hg2)
          (by
            intro k i q pos hm hq
            rcases List.mem_cons.1 hq with heq | hq
            · simp only [Nd.pdr.injEq] at heq
              subst heq
              exact (hspec k i pos hm).2.2.2 rfl hso
            · exact (hmade k i q pos hm hq).mono hd.iter hl2 hr2 hu2 hg2)
          hrun hn
        refine ⟨h1, h2, hg2.trans h3, fun h => ⟨(h4 h).1, fun k i q pos hm hq =>
          (h4 h).2 k i q pos hm ?_⟩⟩
        simp only [List.cons_append, List.mem_append, List.mem_cons] at hq ⊢
        tauto

/-- Building a snapshot whose raw partitions are linked and unchanged. -/
theorem build_spec (hd : Disciplined env gs) {σ : Snapshot} {r : PyDict Str (Data κ)}
    (hg : gs σ.graph) (hso : SingleOutput env σ.graph) {s s' : St κ D} {res : Except Err Unit}
    (hw : WInv env gs s) (hl : LInv (LinkEval env) s) (hr : (σ, r) ∈ s.raws) (hu : SnapUnique s.raws)
    (hraw : ∀ k i, (k, Art.raw i) ∈ σ.graph.arts → Full env s σ (rawOf σ r) (.raw i))
    (hrun : build env σ s = (res, s')) (hn : NoClash env gs s'.invs) :
    WInv env gs s' ∧ LInv (LinkEval env) s' ∧ Grow s s' ∧
    (res = .ok () → ∀ k a, (k, a) ∈ σ.graph.arts → Full env s' σ (rawOf σ r) a) := by
  unfold build at hrun
  rw [run_bind, run_lift] at hrun
  obtain ⟨order, ho⟩ := (Props.C28_graphs_are_acyclic σ.graph).2
  rw [ho] at hrun
  simp only at hrun
  obtain ⟨h1, h2, h3, h4⟩ := buildOrder_spec hd hg hso order [] s s' res
    (sched_static ho fun p hp => (pdr_mem_order ho p).1 hp) hw hl hr hu hraw (by simp) hrun hn
  refine ⟨h1, h2, h3, fun h k a ha => ?_⟩
  cases a with
  | raw i => exact (h4 h).1 k i ha
  | made i p pos =>
    exact (h4 h).2 k i p pos ha (by simpa using (pdr_mem_order ho p).2 ⟨k, i, pos, ha⟩)

end Arti.Spec
