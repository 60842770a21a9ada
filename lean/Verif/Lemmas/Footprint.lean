import Verif.Lemmas.InPlace
import Verif.Lemmas.Construct

/-! What building a producer leaves alone, and runs of producers in two orders. -/

namespace Arti.Spec
open PyDict World M
variable {κ D : Type} [DecidableEq κ] {env : Env κ D}

/-! ## Files that do not matter for a discovery -/

theorem snapAll_set {files : PyDict Str Str} {sto : Sto} {path c : Str}
    (h : ¬ PathOf env sto path) (l : List (Option Fp × κ)) :
    snapAll env (PyDict.set files path c) sto l = snapAll env files sto l := by
  induction l with
  | nil => rfl
  | cons x l ih =>
    obtain ⟨fp, pk⟩ := x
    simp only [snapAll, ih, bind, Except.bind]
    cases hg : generate env sto fp pk with
    | error e => rfl
    | ok part =>
      have : content (PyDict.set files path c) part.loc = content files part.loc := by
        cases hl : part.loc with
        | lit id v => rfl
        | file p =>
          simp only [content, get?_set]
          rw [if_neg]
          rintro rfl
          exact h ⟨fp, pk, part, hg, hl⟩
      simp only [snap, this]

theorem discover_set {files : PyDict Str Str} {sto : Sto} {path c : Str}
    (h : ¬ PathOf env sto path)
    (hs : ∀ t, sto = .file t → ∀ names, env.scan t (names ++ [path]) = env.scan t names)
    (ifps : PyDict κ Fp) :
    discover env (PyDict.set files path c) sto ifps = discover env files sto ifps := by
  cases sto with
  | file t =>
    have : env.scan t (keys (PyDict.set files path c)) = env.scan t (keys files) := by
      rw [Make.keys_set]
      split
      · rfl
      · exact hs t rfl _
    simp only [discover, this, snapAll_set h]
  | lit t v => simp only [discover, snapAll_set h]

/-! ## What belongs to a producer -/

variable (env) in
/-- A file of an output of the producer. -/
def OwnFile (g : Graph) (p : Pdr) (path : Str) : Prop :=
  ∃ k i pos, (k, Art.made i p pos) ∈ g.arts ∧ PathOf env i.sto path

/-- A storage of an output of the producer. -/
def OwnSto (g : Graph) (p : Pdr) (sto : Sto) : Prop :=
  ∃ k i pos, (k, Art.made i p pos) ∈ g.arts ∧ i.sto = sto

/-- The links of an output of the producer. -/
def OwnLink (σ : Snapshot) (p : Pdr) (x : Snapshot × Str) : Prop :=
  ∃ k i pos, (k, Art.made i p pos) ∈ σ.graph.arts ∧ x = (σ, k)

theorem OwnFile.disjoint {g : Graph} (hsep : Separate env g) {p q : Pdr} {path : Str}
    (hp : OwnFile env g p path) (hq : OwnFile env g q path) : p = q := by
  obtain ⟨k, i, pos, h1, h2⟩ := hp
  obtain ⟨k', i', pos', h3, h4⟩ := hq
  by_contra hne
  refine hsep.paths k i p pos k' _ h1 h3 ?_ path h2 h4
  intro pos'' he
  simp only [Art.out, Option.some.injEq, Prod.mk.injEq] at he
  exact hne he.1.symm

theorem OwnSto.disjoint {g : Graph} (hsep : Separate env g) {p q : Pdr} {sto : Sto}
    (hp : OwnSto g p sto) (hq : OwnSto g q sto) : p = q := by
  obtain ⟨k, i, pos, h1, rfl⟩ := hp
  obtain ⟨k', i', pos', h3, h4⟩ := hq
  exact hsep.storages _ _ _ _ _ _ _ _ h1 h3 h4.symm

theorem OwnLink.disjoint {σ : Snapshot} (hk : (keys σ.graph.arts).Nodup) {p q : Pdr}
    {x : Snapshot × Str} (hp : OwnLink σ p x) (hq : OwnLink σ q x) : p = q := by
  obtain ⟨k, i, pos, h1, rfl⟩ := hp
  obtain ⟨k', i', pos', h3, h4⟩ := hq
  simp only [Prod.mk.injEq, true_and] at h4
  subst h4
  rw [mem_iff_get? hk] at h1 h3
  rw [h1] at h3
  simp only [Option.some.injEq, Art.made.injEq] at h3
  exact h3.2.1

/-- Nothing but what belongs to the producer has changed. -/
structure Off (env : Env κ D) (σ : Snapshot) (p : Pdr) (s s' : St κ D) : Prop where
  files : ∀ path, ¬ OwnFile env σ.graph p path → get? s'.files path = get? s.files path
  storage : ∀ sto, ¬ OwnSto σ.graph p sto → get? s'.storage sto = get? s.storage sto
  links : ∀ x, ¬ OwnLink σ p x → get? s'.links x = get? s.links x
  calls : ∀ q, q ≠ p → (s'.calls.filter fun c => c.1 = q) = s.calls.filter fun c => c.1 = q
  disc : ∀ k i q pos, (k, Art.made i q pos) ∈ σ.graph.arts → q ≠ p → ∀ ifps : PyDict κ Fp,
    discover env s'.files i.sto ifps = discover env s.files i.sto ifps
  rest : s'.graphs = s.graphs ∧ s'.snapshots = s.snapshots ∧ s'.tags = s.tags

theorem Off.refl (σ : Snapshot) (p : Pdr) (s : St κ D) : Off env σ p s s :=
  ⟨fun _ _ => rfl, fun _ _ => rfl, fun _ _ => rfl, fun _ _ => rfl, fun _ _ _ _ _ _ _ => rfl,
    rfl, rfl, rfl⟩

theorem off_local {σ : Snapshot} (hsep : Separate env σ.graph) {p : Pdr}
    {outs : List Art} (ho : σ.graph.producerOutputs p = .ok outs) (s : St κ D) :
    Local env σ p outs (Off env σ p s) := by
  refine ⟨fun _ _ h => ⟨h.files, h.storage, h.links, h.calls, h.disc, h.rest⟩, ?_, ?_, ?_, ?_⟩
  · intro s' a fp pk part path c ha hp hl h
    obtain ⟨k, i, pos, rfl, hm⟩ := Graph.mem_producerOutputs ho ha
    have hpath : PathOf env i.sto path := ⟨fp, pk, part, hp, hl⟩
    refine ⟨fun path' hn => ?_, h.storage, h.links, h.calls, fun k' i' q pos' hm' hq ifps => ?_, h.rest⟩
    · simp only [get?_set]
      rw [if_neg]
      · exact h.files path' hn
      · rintro rfl
        exact hn ⟨k, i, pos, hm, hpath⟩
    · rw [← h.disc k' i' q pos' hm' hq ifps]
      refine discover_set (fun hp' => hq ?_) (fun t ht => ?_) ifps
      · exact OwnFile.disjoint hsep ⟨k', i', pos', hm', hp'⟩ ⟨k, i, pos, hm, hpath⟩
      · exact hsep.scans k i p pos k' i' q pos' t hm hm' hq ht path hpath
  · intro s' pk h
    refine ⟨h.files, h.storage, h.links, fun q hq => ?_, h.disc, h.rest⟩
    rw [← h.calls q hq]
    simp [Ne.symm hq]
  · intro s' a ps ha h
    obtain ⟨k, i, pos, rfl, hm⟩ := Graph.mem_producerOutputs ho ha
    refine ⟨h.files, fun sto hn => ?_, h.links, h.calls, h.disc, h.rest⟩
    simp only [addStorage, get?_set]
    rw [if_neg]
    · exact h.storage sto hn
    · rintro rfl
      exact hn ⟨k, i, pos, hm, rfl⟩
  · intro s' a k' ps ha hk h
    obtain ⟨k, i, pos, rfl, -⟩ := Graph.mem_producerOutputs ho ha
    refine ⟨h.files, h.storage, fun x hn => ?_, h.calls, h.disc, h.rest⟩
    simp only [addLinks, get?_set]
    rw [if_neg]
    · exact h.links x hn
    · rintro rfl
      exact hn ⟨k', i, pos, Graph.keyOf_mem hk, rfl⟩

theorem buildProducer_off {σ : Snapshot} (hsep : Separate env σ.graph) {p : Pdr}
    {outs : List Art} (ho : σ.graph.producerOutputs p = .ok outs) (s : St κ D) :
    Off env σ p s (buildProducer env σ p s).2 :=
  (off_local hsep ho s).buildProducer ho
    (fun _ _ h => ⟨h.files, h.storage, h.links, h.calls, h.disc, h.rest⟩) s (Off.refl _ _ _)

/-- A producer that was built has outputs. -/
theorem buildProducer_outputs {σ : Snapshot} {p : Pdr} {s s' : St κ D}
    (h : buildProducer env σ p s = (.ok (), s')) : ∃ outs, σ.graph.producerOutputs p = .ok outs := by
  cases ho : σ.graph.producerOutputs p with
  | ok outs => exact ⟨outs, rfl⟩
  | error e =>
    exfalso
    simp only [buildProducer, run_bind, run_lift, discoverProducerPartitions, ho] at h
    split at h
    · rename_i heq
      split at h
      · simp only [run_ghost] at h
        simp at h
      · simp at h
    · simp at h

/-! ## Runs -/

variable (env) in
/-- What belongs to the producer is the same in two states. -/
structure SameOn (σ : Snapshot) (p : Pdr) (s t : St κ D) : Prop where
  files : ∀ path, OwnFile env σ.graph p path → get? s.files path = get? t.files path
  storage : ∀ sto, OwnSto σ.graph p sto → get? s.storage sto = get? t.storage sto
  links : ∀ x, OwnLink σ p x → get? s.links x = get? t.links x
  calls : (s.calls.filter fun c => c.1 = p) = t.calls.filter fun c => c.1 = p

variable (env) in
/-- The state in a run that started in `s` and has built some producers, where `f` is the end of some
run. -/
structure Mid (σ : Snapshot) (s f : St κ D) (done : Pdr → Prop) (u : St κ D) : Prop where
  budget : u.budget = none
  inPlace : InPlace env (fun g => g = σ.graph) u
  built : ∀ p, done p → SameOn env σ p u f
  todo : ∀ p, ¬ done p → SameOn env σ p u s
  disc : ∀ k i p pos, (k, Art.made i p pos) ∈ σ.graph.arts → ¬ done p → ∀ ifps : PyDict κ Fp,
    discover env u.files i.sto ifps = discover env s.files i.sto ifps
  files : ∀ path, (∀ p, ¬ OwnFile env σ.graph p path) → get? u.files path = get? s.files path
  storage : ∀ sto, (∀ p, ¬ OwnSto σ.graph p sto) → get? u.storage sto = get? s.storage sto
  links : ∀ x, (∀ p, ¬ OwnLink σ p x) → get? u.links x = get? s.links x
  rest : u.graphs = s.graphs ∧ u.snapshots = s.snapshots ∧ u.tags = s.tags

theorem SameOn.off {σ : Snapshot} (hsep : Separate env σ.graph) (hk : (keys σ.graph.arts).Nodup)
    {p q : Pdr} (hne : q ≠ p) {s s' t : St κ D} (h : Off env σ p s s') (hq : SameOn env σ q s t) :
    SameOn env σ q s' t :=
  ⟨fun path ho => by
      rw [h.files path fun hp => hne (ho.disjoint hsep hp)]; exact hq.files path ho,
    fun sto ho => by
      rw [h.storage sto fun hp => hne (OwnSto.disjoint hsep ho hp)]; exact hq.storage sto ho,
    fun x ho => by rw [h.links x fun hp => hne (ho.disjoint hk hp)]; exact hq.links x ho,
    by rw [h.calls q hne]; exact hq.calls⟩

/-- One more producer. -/
theorem Mid.step {σ : Snapshot} (hsep : Separate env σ.graph) (hk : (keys σ.graph.arts).Nodup)
    {s f : St κ D} {done : Pdr → Prop} {u u' : St κ D} (h : Mid env σ s f done u) {p : Pdr}
    (hoff : Off env σ p u u') (hb : u'.budget = none) (hin : InPlace env (fun g => g = σ.graph) u')
    (hp : SameOn env σ p u' f) : Mid env σ s f (fun q => q = p ∨ done q) u' := by
  refine ⟨hb, hin, ?_, ?_, ?_, ?_, ?_, ?_, ?_⟩
  · intro q hq
    by_cases he : q = p
    · subst he; exact hp
    · exact SameOn.off hsep hk he hoff (h.built q (hq.resolve_left he))
  · intro q hq
    rw [not_or] at hq
    exact SameOn.off hsep hk hq.1 hoff (h.todo q hq.2)
  · intro k i q pos hm hq ifps
    rw [not_or] at hq
    rw [hoff.disc k i q pos hm hq.1 ifps]
    exact h.disc k i q pos hm hq.2 ifps
  · intro path hn
    rw [hoff.files path (hn p)]
    exact h.files path hn
  · intro sto hn
    rw [hoff.storage sto (hn p)]
    exact h.storage sto hn
  · intro x hn
    rw [hoff.links x (hn p)]
    exact h.links x hn
  · obtain ⟨h1, h2, h3⟩ := hoff.rest
    obtain ⟨h4, h5, h6⟩ := h.rest
    exact ⟨h1.trans h4, h2.trans h5, h3.trans h6⟩

/-- Building a producer in two states in which the same was done for what it depends on. -/
theorem Mid.build {σ : Snapshot} (hsep : Separate env σ.graph) (hk : (keys σ.graph.arts).Nodup)
    (hi : IterOk env) (hsel : Selects env σ.graph) {s f : St κ D} {d1 d2 : Pdr → Prop}
    {u1 u2 u1' : St κ D} (h1 : Mid env σ s f d1 u1) (h2 : Mid env σ s f d2 u2) {p : Pdr}
    (hin : ∃ k i pos, (k, Art.made i p pos) ∈ σ.graph.arts) (hn1 : ¬ d1 p) (hn2 : ¬ d2 p)
    (hdep : ∀ n i q pos, (n, Art.made i q pos) ∈ p.inputs →
      (∃ k, (k, Art.made i q pos) ∈ σ.graph.arts) → d1 q ∧ d2 q)
    (hrun : buildProducer env σ p u1 = (.ok (), u1')) :
    ∃ u2', buildProducer env σ p u2 = (.ok (), u2') ∧ SameOn env σ p u2' u1' ∧
      Off env σ p u2 u2' ∧ u2'.budget = none ∧ InPlace env (fun g => g = σ.graph) u2' := by
  obtain ⟨outs, ho⟩ := buildProducer_outputs hrun
  obtain ⟨k0, i0, pos0, hm0⟩ := hin
  have hpar := par_buildProducer (env := env) (gs := fun g => g = σ.graph) (σ := σ) (p := p)
    (outs := outs) (s := u1) (t := u2)
    (X := fun f f' => ∀ k i pos, (k, Art.made i p pos) ∈ σ.graph.arts → ∀ ifps : PyDict κ Fp,
      discover env f i.sto ifps = discover env f' i.sto ifps)
    (F := fun path => OwnFile env σ.graph p path ∨ ∃ x ∈ p.inputs, ∃ k, σ.graph.keyOf x.2 = some k ∧
      PathOf env x.2.info.sto path)
    (S := OwnSto σ.graph p)
    (K := fun x => OwnLink σ p x ∨ ∃ y ∈ p.inputs, ∃ k, σ.graph.keyOf y.2 = some k ∧ x = (σ, k))
    (c1 := u1.calls) (c2 := u2.calls) ho
    (fun a ha => by
      obtain ⟨k, i, pos, rfl, hm⟩ := Graph.mem_producerOutputs ho ha
      exact ⟨k, i, pos, hm, rfl⟩)
    (fun a ha k hka => by
      obtain ⟨_, i, pos, rfl, _⟩ := Graph.mem_producerOutputs ho ha
      exact .inl ⟨k, i, pos, Graph.keyOf_mem hka, rfl⟩)
    (fun x hx k hkx => .inr ⟨x, hx, k, hkx, rfl⟩)
    (fun x hx k hkx path hp => .inr ⟨x, hx, k, hkx, hp⟩)
    (hsel k0 i0 p pos0 hm0) hi rfl h1.inPlace
    (fun a ha ifps f f' hX => by
      obtain ⟨k, i, pos, rfl, hm⟩ := Graph.mem_producerOutputs ho ha
      exact hX k i pos hm ifps) ?_
  · obtain ⟨hr, ha⟩ := hpar
    have hoff := buildProducer_off (env := env) hsep ho u2
    have hpl := InPlace.buildProducer (env := env) (gs := fun g => g = σ.graph) (by rintro _ rfl; exact hk)
      hi σ p u2 h2.inPlace
    rw [hrun] at hr ha
    revert hr ha hoff hpl
    cases buildProducer env σ p u2 with
    | mk r u2' =>
      intro hr ha hoff hpl
      simp only at hr ha hoff hpl
      subst hr
      refine ⟨u2', rfl, ⟨fun path hp => (ha.files path (.inl hp)).symm,
        fun sto hs => (ha.storage sto hs).symm, fun x hx => (ha.links x (.inl hx)).symm, ?_⟩,
        hoff, ha.right, hpl⟩
      obtain ⟨l, e1, e2⟩ := ha.calls
      rw [e1, e2, List.filter_append, List.filter_append, (h1.todo p hn1).calls,
        (h2.todo p hn2).calls]
  · refine ⟨h1.budget, h2.budget, fun k i pos hm ifps => ?_, fun path hp => ?_, fun sto hs => ?_,
      fun x hx => ?_, [], by simp, by simp⟩
    · rw [h1.disc k i p pos hm hn1, h2.disc k i p pos hm hn2]
    · rcases hp with hp | ⟨⟨n, a⟩, hx, k, hkx, hp⟩
      · rw [(h1.todo p hn1).files path hp, (h2.todo p hn2).files path hp]
      · have hm := Graph.keyOf_mem hkx
        cases a with
        | raw i =>
          have hnone : ∀ q, ¬ OwnFile env σ.graph q path := by
            rintro q ⟨k', i', pos', hm', hp'⟩
            exact hsep.paths k' i' q pos' k _ hm' hm (by simp [Art.out]) path hp' hp
          rw [h1.files path hnone, h2.files path hnone]
        | made i q pos =>
          obtain ⟨e1, e2⟩ := hdep n i q pos hx ⟨k, hm⟩
          have ho : OwnFile env σ.graph q path := ⟨k, i, pos, hm, hp⟩
          rw [(h1.built q e1).files path ho, (h2.built q e2).files path ho]
    · rw [(h1.todo p hn1).storage sto hs, (h2.todo p hn2).storage sto hs]
    · rcases hx with hx | ⟨⟨n, a⟩, hx, k, hkx, rfl⟩
      · rw [(h1.todo p hn1).links x hx, (h2.todo p hn2).links x hx]
      · have hm := Graph.keyOf_mem hkx
        cases a with
        | raw i =>
          have hnone : ∀ q, ¬ OwnLink σ q (σ, k) := by
            rintro q ⟨k', i', pos', hm', he⟩
            simp only [Prod.mk.injEq, true_and] at he
            subst he
            rw [mem_iff_get? hk] at hm hm'
            simp only at hm
            rw [hm] at hm'
            simp at hm'
          rw [h1.links _ hnone, h2.links _ hnone]
        | made i q pos =>
          obtain ⟨e1, e2⟩ := hdep n i q pos hx ⟨k, hm⟩
          have ho : OwnLink σ q (σ, k) := ⟨k, i, pos, hm, rfl⟩
          rw [(h1.built q e1).links _ ho, (h2.built q e2).links _ ho]

/-! ## Two orders -/

theorem buildOrder_snoc {σ : Snapshot} {v v' : St κ D} {p : Pdr} :
    ∀ {l : List Nd} {s : St κ D}, buildOrder env σ l s = (.ok (), v) →
    buildProducer env σ p v = (.ok (), v') → buildOrder env σ (l ++ [.pdr p]) s = (.ok (), v')
  | [], s, h, h' => by
    simp only [buildOrder, run_pure, Prod.mk.injEq, true_and] at h
    subst h
    simp only [List.nil_append, buildOrder, run_bind, h', run_pure]
  | .art a :: l, s, h, h' => buildOrder_snoc (l := l) h h'
  | .pdr q :: l, s, h, h' => by
    simp only [List.cons_append, buildOrder, run_bind] at h ⊢
    cases hq : buildProducer env σ q s with
    | mk r s1 =>
      rw [hq] at h
      cases r with
      | error e => simp at h
      | ok _ => exact buildOrder_snoc (l := l) h h'

theorem buildOrder_snoc_art {σ : Snapshot} {v : St κ D} {a : Art} :
    ∀ {l : List Nd} {s : St κ D}, buildOrder env σ l s = (.ok (), v) →
    buildOrder env σ (l ++ [.art a]) s = (.ok (), v)
  | [], s, h => h
  | .art a :: l, s, h => buildOrder_snoc_art (s := s) (l := l) h
  | .pdr q :: l, s, h => by
    simp only [List.cons_append, buildOrder, run_bind] at h ⊢
    cases hq : buildProducer env σ q s with
    | mk r s1 =>
      rw [hq] at h
      cases r with
      | error e => simp at h
      | ok _ => exact buildOrder_snoc_art (l := l) h

/-- Producers that are not in a list are left alone. -/
theorem buildOrder_sameOn {σ : Snapshot} (hsep : Separate env σ.graph)
    (hk : (keys σ.graph.arts).Nodup) {q : Pdr} : ∀ (l : List Nd) (s s' : St κ D), Nd.pdr q ∉ l →
    buildOrder env σ l s = (.ok (), s') → SameOn env σ q s s'
  | [], s, s', _, h => by
    simp only [buildOrder, run_pure, Prod.mk.injEq, true_and] at h
    subst h
    exact ⟨fun _ _ => rfl, fun _ _ => rfl, fun _ _ => rfl, rfl⟩
  | .art a :: l, s, s', hn, h =>
    buildOrder_sameOn hsep hk l s s' (fun hm => hn (List.mem_cons_of_mem _ hm)) h
  | .pdr p :: l, s, s', hn, h => by
    simp only [buildOrder, run_bind] at h
    cases hq : buildProducer env σ p s with
    | mk r s1 =>
      rw [hq] at h
      cases r with
      | error e => simp at h
      | ok _ =>
        obtain ⟨outs, ho⟩ := buildProducer_outputs hq
        have hoff := buildProducer_off (env := env) hsep ho s
        rw [hq] at hoff
        have ih := buildOrder_sameOn hsep hk l s1 s' (fun hm => hn (List.mem_cons_of_mem _ hm)) h
        have hne : q ≠ p := fun e => hn (by simp [e])
        have := SameOn.off hsep hk hne hoff (t := s)
          ⟨fun _ _ => rfl, fun _ _ => rfl, fun _ _ => rfl, rfl⟩
        exact ⟨fun path ho => (this.files path ho).symm.trans (ih.files path ho),
          fun sto ho => (this.storage sto ho).symm.trans (ih.storage sto ho),
          fun x ho => (this.links x ho).symm.trans (ih.links x ho), this.calls.symm.trans ih.calls⟩

theorem Mid.init {σ : Snapshot} {s f : St κ D} (hb : s.budget = none)
    (hin : InPlace env (fun g => g = σ.graph) s) {done : Pdr → Prop} (hd : ∀ p, ¬ done p) :
    Mid env σ s f done s :=
  ⟨hb, hin, fun p h => absurd h (hd p), fun _ _ => ⟨fun _ _ => rfl, fun _ _ => rfl, fun _ _ => rfl, rfl⟩,
    fun _ _ _ _ _ _ _ => rfl, fun _ _ => rfl, fun _ _ => rfl, fun _ _ => rfl, rfl, rfl, rfl⟩

theorem Mid.congr {σ : Snapshot} {s f u : St κ D} {d d' : Pdr → Prop} (h : Mid env σ s f d u)
    (hd : ∀ p, d p ↔ d' p) : Mid env σ s f d' u := by
  have : d = d' := funext fun p => propext (hd p)
  rw [← this]; exact h

section
variable {σ : Snapshot} (hsep : Separate env σ.graph) (hk : (keys σ.graph.arts).Nodup)
  (hi : IterOk env) (hsel : Selects env σ.graph) {s f : St κ D} (hb : s.budget = none)
  (hin : InPlace env (fun g => g = σ.graph) s)

theorem IsSchedule.ready {g : Graph} {o l r : List Nd} {p : Pdr} (ho : IsSchedule g o)
    (hn : o.Nodup) (he : o = l ++ .pdr p :: r) : (∃ k i pos, (k, Art.made i p pos) ∈ g.arts) ∧
      Nd.pdr p ∉ l ∧ Nd.pdr p ∉ r ∧ ∀ n i q pos, (n, Art.made i q pos) ∈ p.inputs →
      (∃ k, (k, Art.made i q pos) ∈ g.arts) → Nd.pdr q ∈ l := by
  refine ⟨(ho.all p).1 (by rw [he]; simp), ?_, ?_, fun n i q pos hm hg => ho.after l p r he n i q pos hm hg⟩
  · intro hm
    rw [he, List.nodup_append] at hn
    exact hn.2.2 _ hm _ (List.mem_cons_self ..) rfl
  · intro hm
    rw [he, List.nodup_append, List.nodup_cons] at hn
    exact hn.2.1.1 hm

include hsep hk hi hsel hb hin in
/-- The states in a run. -/
theorem mid_run {o : List Nd} (ho : IsSchedule σ.graph o) (hn : o.Nodup)
    (hrun : buildOrder env σ o s = (.ok (), f)) : ∀ l r, o = l ++ r →
    ∃ v, buildOrder env σ l s = (.ok (), v) ∧ buildOrder env σ r v = (.ok (), f) ∧
      Mid env σ s f (fun p => Nd.pdr p ∈ l) v := by
  intro l
  induction l using List.reverseRecOn with
  | nil =>
    rintro r rfl
    exact ⟨s, rfl, hrun, Mid.init hb hin (by simp)⟩
  | append_singleton l x ih =>
    intro r he
    have he' : o = l ++ x :: r := by rw [he]; simp
    obtain ⟨v, h1, h2, h3⟩ := ih (x :: r) he'
    cases x with
    | art a =>
      exact ⟨v, buildOrder_snoc_art h1, h2, h3.congr (by simp)⟩
    | pdr p =>
      obtain ⟨r1, r2, r3, r4⟩ := ho.ready hn he'
      simp only [buildOrder, run_bind] at h2
      cases hq : buildProducer env σ p v with
      | mk res v' =>
        rw [hq] at h2
        cases res with
        | error e => simp at h2
        | ok _ =>
          obtain ⟨v2, g1, -, g3, g4, g5⟩ := Mid.build hsep hk hi hsel h3 h3 r1 r2 r2
            (fun n i q pos hm hg => ⟨r4 n i q pos hm hg, r4 n i q pos hm hg⟩) hq
          rw [hq] at g1
          simp only [Prod.mk.injEq, true_and] at g1
          subst g1
          refine ⟨v', buildOrder_snoc (s := s) h1 hq, h2, ?_⟩
          refine (h3.step hsep hk g3 g4 g5 (buildOrder_sameOn hsep hk r v' f r3 h2)).congr ?_
          simp [or_comm]

include hsep hk hi hsel hb hin in
/-- Another order. -/
theorem mid_other {o o' : List Nd} (ho : IsSchedule σ.graph o) (hn : o.Nodup)
    (hrun : buildOrder env σ o s = (.ok (), f)) (ho' : IsSchedule σ.graph o') (hn' : o'.Nodup) :
    ∀ l r, o' = l ++ r → ∃ v, buildOrder env σ l s = (.ok (), v) ∧
      Mid env σ s f (fun p => Nd.pdr p ∈ l) v := by
  intro l
  induction l using List.reverseRecOn with
  | nil =>
    rintro r rfl
    exact ⟨s, rfl, Mid.init hb hin (by simp)⟩
  | append_singleton l x ih =>
    intro r he
    have he' : o' = l ++ x :: r := by rw [he]; simp
    obtain ⟨v, h1, h3⟩ := ih (x :: r) he'
    cases x with
    | art a =>
      exact ⟨v, buildOrder_snoc_art h1, h3.congr (by simp)⟩
    | pdr p =>
      obtain ⟨r1, r2, r3, r4⟩ := ho'.ready hn' he'
      obtain ⟨l0, r0, he0⟩ := List.append_of_mem ((ho.all p).2 r1)
      obtain ⟨-, q2, q3, q4⟩ := ho.ready hn he0
      obtain ⟨u, u1, u2, u3⟩ := mid_run hsep hk hi hsel hb hin ho hn hrun l0 (.pdr p :: r0) he0
      simp only [buildOrder, run_bind] at u2
      cases hq : buildProducer env σ p u with
      | mk res u' =>
        rw [hq] at u2
        cases res with
        | error e => simp at u2
        | ok _ =>
          obtain ⟨v', g1, g2, g3, g4, g5⟩ := Mid.build hsep hk hi hsel u3 h3 r1 q2 r2
            (fun n i q pos hm hg => ⟨q4 n i q pos hm hg, r4 n i q pos hm hg⟩) hq
          have hend := buildOrder_sameOn hsep hk r0 u' f q3 u2
          refine ⟨v', buildOrder_snoc (s := s) h1 g1, ?_⟩
          refine (h3.step hsep hk g3 g4 g5 ⟨fun path ho => (g2.files path ho).trans (hend.files path ho),
            fun sto ho => (g2.storage sto ho).trans (hend.storage sto ho),
            fun x ho => (g2.links x ho).trans (hend.links x ho), g2.calls.trans hend.calls⟩).congr ?_
          simp [or_comm]

/-- At the end of two runs. -/
theorem Mid.ends {o o' : List Nd} (ho : IsSchedule σ.graph o) (ho' : IsSchedule σ.graph o')
    {v : St κ D} (h1 : Mid env σ s f (fun p => Nd.pdr p ∈ o) f)
    (h2 : Mid env σ s f (fun p => Nd.pdr p ∈ o') v) :
    (∀ path, get? f.files path = get? v.files path) ∧
    (∀ sto, get? f.storage sto = get? v.storage sto) ∧
    (∀ x, get? f.links x = get? v.links x) ∧
    (∀ p, (f.calls.filter fun c => c.1 = p) = v.calls.filter fun c => c.1 = p) ∧
    f.graphs = v.graphs ∧ f.snapshots = v.snapshots ∧ f.tags = v.tags := by
  have hmem : ∀ p, (∃ k i pos, (k, Art.made i p pos) ∈ σ.graph.arts) → Nd.pdr p ∈ o' :=
    fun p => (ho'.all p).2
  refine ⟨fun path => ?_, fun sto => ?_, fun x => ?_, fun p => ?_, ?_⟩
  · by_cases hp : ∃ p, OwnFile env σ.graph p path
    · obtain ⟨p, hp⟩ := hp
      have := hp
      obtain ⟨k, i, pos, hm, -⟩ := this
      exact ((h2.built p (hmem p ⟨k, i, pos, hm⟩)).files path hp).symm
    · rw [not_exists] at hp
      rw [h1.files path hp, h2.files path hp]
  · by_cases hp : ∃ p, OwnSto σ.graph p sto
    · obtain ⟨p, hp⟩ := hp
      have := hp
      obtain ⟨k, i, pos, hm, -⟩ := this
      exact ((h2.built p (hmem p ⟨k, i, pos, hm⟩)).storage sto hp).symm
    · rw [not_exists] at hp
      rw [h1.storage sto hp, h2.storage sto hp]
  · by_cases hp : ∃ p, OwnLink σ p x
    · obtain ⟨p, hp⟩ := hp
      have := hp
      obtain ⟨k, i, pos, hm, -⟩ := this
      exact ((h2.built p (hmem p ⟨k, i, pos, hm⟩)).links x hp).symm
    · rw [not_exists] at hp
      rw [h1.links x hp, h2.links x hp]
  · by_cases hp : Nd.pdr p ∈ o'
    · exact (h2.built p hp).calls.symm
    · have hp1 : Nd.pdr p ∉ o := fun h => hp (hmem p ((ho.all p).1 h))
      rw [(h1.todo p hp1).calls, (h2.todo p hp).calls]
  · obtain ⟨e1, e2, e3⟩ := h1.rest
    obtain ⟨d1, d2, d3⟩ := h2.rest
    exact ⟨e1.trans d1.symm, e2.trans d2.symm, e3.trans d3.symm⟩

end
end Arti.Spec
