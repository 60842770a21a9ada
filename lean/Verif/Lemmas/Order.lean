import Verif.Spec.Order
import Verif.Lemmas.Rebuild
import Verif.Lemmas.Store

/-! What building a producer does depends only on its inputs and outputs. -/

namespace Arti.Spec
open PyDict World M
variable {κ D : Type} [DecidableEq κ] {env : Env κ D}

/-! ## Two runs in states that agree -/

/-- Two states in which nothing is interrupted agree on some files, storages and links, and the same
calls have been added to given ones. -/
structure AgreeOn (X : PyDict Str Str → PyDict Str Str → Prop) (F : Str → Prop) (S : Sto → Prop)
    (K : Snapshot × Str → Prop) (c1 c2 : List (Pdr × κ)) (s t : St κ D) : Prop where
  left : s.budget = none
  right : t.budget = none
  names : X s.files t.files
  files : ∀ path, F path → get? s.files path = get? t.files path
  storage : ∀ sto, S sto → get? s.storage sto = get? t.storage sto
  links : ∀ k, K k → get? s.links k = get? t.links k
  calls : ∃ l, s.calls = c1 ++ l ∧ t.calls = c2 ++ l

section
variable {X : PyDict Str Str → PyDict Str Str → Prop} {F : Str → Prop} {S : Sto → Prop}
  {K : Snapshot × Str → Prop} {c1 c2 : List (Pdr × κ)} {s t : St κ D} {α β : Type}

variable (X F S K c1 c2) in
/-- Two runs have the same result and end in states that agree. -/
def Par (m m' : M κ D α) (s t : St κ D) : Prop :=
  (m s).1 = (m' t).1 ∧ AgreeOn X F S K c1 c2 (m s).2 (m' t).2

theorem Par.bind {m m' : M κ D α} {f f' : α → M κ D β} (h : Par X F S K c1 c2 m m' s t)
    (hf : ∀ a s' t', m s = (.ok a, s') → AgreeOn X F S K c1 c2 s' t' →
      Par X F S K c1 c2 (f a) (f' a) s' t') :
    Par X F S K c1 c2 (m >>= f) (m' >>= f') s t := by
  obtain ⟨h1, h2⟩ := h
  have hf' := fun a s' t' => hf a s' t'
  unfold Par
  rw [run_bind, run_bind]
  revert h1 h2 hf'
  cases m s with
  | mk r s' =>
    cases m' t with
    | mk r' t' =>
      intro h1 h2 hf'
      simp only at h1 h2
      subst h1
      cases r with
      | error e => exact ⟨rfl, h2⟩
      | ok a => exact hf' a s' t' rfl h2

theorem Par.pure (a : α) (h : AgreeOn X F S K c1 c2 s t) :
    Par X F S K c1 c2 (pure a : M κ D α) (Pure.pure a) s t := ⟨rfl, h⟩

theorem Par.lift (x : Except Err α) (h : AgreeOn X F S K c1 c2 s t) :
    Par X F S K c1 c2 (M.lift x : M κ D α) (M.lift x) s t := ⟨rfl, h⟩

theorem Par.need (x : Option α) (e : Err) (h : AgreeOn X F S K c1 c2 s t) :
    Par X F S K c1 c2 (M.need x e : M κ D α) (M.need x e) s t := by
  cases x <;> exact ⟨rfl, h⟩

theorem Par.raiseIf (b : Bool) (e : Err) (h : AgreeOn X F S K c1 c2 s t) :
    Par X F S K c1 c2 (M.raiseIf b e : M κ D Unit) (M.raiseIf b e) s t := by
  cases b <;> exact ⟨rfl, h⟩

theorem Par.gets_bind {g : St κ D → α} {f f' : α → M κ D β}
    (h : Par X F S K c1 c2 (f (g s)) (f' (g t)) s t) :
    Par X F S K c1 c2 (M.gets g >>= f) (M.gets g >>= f') s t := h

theorem Par.effect {f f' : St κ D → St κ D} (h : AgreeOn X F S K c1 c2 s t)
    (hf : AgreeOn X F S K c1 c2 (f s) (f' t)) :
    Par X F S K c1 c2 (M.effect f) (M.effect f') s t := by
  unfold Par M.effect
  rw [h.left, h.right]
  exact ⟨rfl, hf⟩

theorem par_writeArtifactPartitions {a : Art} (ha : S a.info.sto) (ps : List (PSnap κ))
    (h : AgreeOn X F S K c1 c2 s t) : Par X F S K c1 c2 (World.writeArtifactPartitions a ps)
      (World.writeArtifactPartitions a ps) s t := by
  refine Par.effect h ⟨h.left, h.right, h.names, h.files, fun sto hs => ?_, h.links, h.calls⟩
  simp only [get?_set]
  rw [h.storage _ ha, h.storage sto hs]

theorem par_writeSnapshotPartitions {σ : Snapshot} {k : Str} (hk : K (σ, k)) (ps : List (PSnap κ))
    (h : AgreeOn X F S K c1 c2 s t) : Par X F S K c1 c2 (World.writeSnapshotPartitions σ k ps)
      (World.writeSnapshotPartitions σ k ps) s t := by
  refine Par.effect h ⟨h.left, h.right, h.names, h.files, h.storage, fun k' hs => ?_, h.calls⟩
  simp only [get?_set]
  rw [h.links _ hk, h.links k' hs]

theorem par_readArtifactPartitions {a : Art} (ha : S a.info.sto) {ifps : PyDict κ Fp}
    (hd : ∀ f f', X f f' → discover env f a.info.sto ifps = discover env f' a.info.sto ifps)
    (h : AgreeOn X F S K c1 c2 s t) : Par X F S K c1 c2 (World.readArtifactPartitions env a ifps)
      (World.readArtifactPartitions env a ifps) s t := by
  refine Par.bind (m := World.warm env a ifps) (m' := World.warm env a ifps) ?_ ?_
  · refine Par.gets_bind ?_
    unfold contains
    rw [h.storage _ ha]
    split
    · exact Par.pure _ h
    · refine Par.gets_bind ?_
      rw [hd _ _ h.names]
      exact Par.bind (Par.lift _ h) fun _ _ _ _ h' => par_writeArtifactPartitions ha _ h'
  · intro _ s' t' _ h'
    refine Par.gets_bind ?_
    rw [h'.storage _ ha]
    exact Par.pure _ h'

theorem par_readOutputs {ifps : PyDict κ Fp} {l : List Art} (hl : ∀ a ∈ l, S a.info.sto)
    (hd : ∀ a ∈ l, ∀ f f', X f f' →
      discover env f a.info.sto ifps = discover env f' a.info.sto ifps)
    (h : AgreeOn X F S K c1 c2 s t) : Par X F S K c1 c2 (World.readOutputs env ifps l)
      (World.readOutputs env ifps l) s t := by
  induction l generalizing s t with
  | nil => exact Par.pure _ h
  | cons a l ih =>
    exact Par.bind (par_readArtifactPartitions (hl a (by simp)) (hd a (by simp)) h)
      fun _ _ _ _ h' => Par.bind (ih (fun b hb => hl b (by simp [hb])) (fun b hb => hd b (by simp [hb])) h')
        fun _ _ _ _ h'' => Par.pure _ h''

theorem par_linkOutputs {σ : Snapshot} {l : List (Art × List (PSnap κ))}
    (hl : ∀ x ∈ l, ∀ k, σ.graph.keyOf x.1 = some k → K (σ, k))
    (h : AgreeOn X F S K c1 c2 s t) : Par X F S K c1 c2 (World.linkOutputs σ l)
      (World.linkOutputs σ l) s t := by
  induction l generalizing s t with
  | nil => exact Par.pure _ h
  | cons x l ih =>
    unfold World.linkOutputs
    refine Par.bind (Par.need _ _ h) fun k s' t' hk h' => ?_
    have hk' : σ.graph.keyOf x.1 = some k := by
      revert hk
      cases σ.graph.keyOf x.1 <;> simp [M.need]
      rintro rfl _; rfl
    exact Par.bind (par_writeSnapshotPartitions (hl x (by simp) k hk') _ h')
      fun _ _ _ _ h'' => ih (fun b hb => hl b (by simp [hb])) h''

theorem par_discover {σ : Snapshot} {p : Pdr} {outs : List Art}
    (ho : σ.graph.producerOutputs p = .ok outs) {ifps : PyDict κ Fp}
    (hs : ∀ a ∈ outs, S a.info.sto)
    (hk : ∀ a ∈ outs, ∀ k, σ.graph.keyOf a = some k → K (σ, k))
    (hd : ∀ a ∈ outs, ∀ f f', X f f' →
      discover env f a.info.sto ifps = discover env f' a.info.sto ifps)
    (h : AgreeOn X F S K c1 c2 s t) : Par X F S K c1 c2
      (World.discoverProducerPartitions env σ p ifps)
      (World.discoverProducerPartitions env σ p ifps) s t := by
  unfold World.discoverProducerPartitions
  rw [ho]
  refine Par.bind (Par.lift _ h) fun outs' s' t' he h' => ?_
  simp only [run_lift, Prod.mk.injEq, Except.ok.injEq] at he
  obtain ⟨rfl, rfl⟩ := he
  refine Par.bind (par_readOutputs hs hd h') fun found s2 t2 hf h2 => ?_
  refine Par.bind (par_linkOutputs ?_ h2) fun _ _ _ _ h3 => Par.pure _ h3
  intro x hx
  have := readOutputs_fst (env := env) ifps outs s trivial
  rw [hf] at this
  simp only at this
  refine hk x.1 ?_
  rw [← this]
  exact List.mem_map.2 ⟨x, hx, rfl⟩

/-! ## Writing -/

theorem AgreeOn.weaken (h : AgreeOn X F S K c1 c2 s t) :
    AgreeOn (fun _ _ => True) F S K c1 c2 s t :=
  ⟨h.left, h.right, trivial, h.files, h.storage, h.links, h.calls⟩

theorem par_ioWrite (i : ArtInfo) (v : Nat) (d : D) (part : Prt κ)
    (h : AgreeOn (fun _ _ => True) F S K c1 c2 s t) :
    Par (fun _ _ => True) F S K c1 c2 (World.ioWrite env i v d part)
      (World.ioWrite env i v d part) s t := by
  unfold World.ioWrite
  split
  · rename_i path hl
    refine Par.bind (Par.lift _ h) fun c s1 t1 _ h1 => ?_
    unfold Par
    rw [run_bind, run_bind]
    simp only [M.effect, h1.left, h1.right, run_bind, run_gets, run_lift]
    refine ⟨?_, rfl, rfl, trivial, fun p hp => ?_, h1.storage, h1.links, h1.calls⟩
    · simp only [snap, hl, content, get?_set, if_pos]
    · simp only [get?_set]
      rw [h1.files p hp]
  · exact Par.bind (Par.raiseIf _ _ h) fun _ _ _ _ h => Par.bind (Par.lift _ h)
      fun _ _ _ _ h => Par.lift _ h

theorem par_write {σ : Snapshot} {a : Art} (hs : S a.info.sto)
    (hk : ∀ k, σ.graph.keyOf a = some k → K (σ, k)) (d : D) (fp : Option Fp) (pk : κ) (v : Nat)
    (h : AgreeOn (fun _ _ => True) F S K c1 c2 s t) :
    Par (fun _ _ => True) F S K c1 c2 (World.write env σ.graph (some σ) d a fp pk v)
      (World.write env σ.graph (some σ) d a fp pk v) s t := by
  unfold World.write
  refine Par.bind (Par.need _ _ h) fun k s' t' hk' h => ?_
  have hk2 : σ.graph.keyOf a = some k := by
    revert hk'
    cases σ.graph.keyOf a <;> simp [M.need]
    rintro rfl _; rfl
  refine Par.bind (Par.raiseIf _ _ h) fun _ _ _ _ h => Par.bind (Par.lift _ h) fun part _ _ _ h => ?_
  refine Par.bind (par_ioWrite _ _ _ _ h) fun sn _ _ _ h => ?_
  refine Par.bind (par_writeArtifactPartitions hs _ h) fun _ _ _ _ h => ?_
  exact Par.bind (m := World.linkWritten (some σ) k sn)
    (par_writeSnapshotPartitions (hk k hk2) _ h) fun _ _ _ _ h => Par.pure _ h

theorem par_writeOutputs {σ : Snapshot} {p : Pdr} {outs : List Art}
    (ho : σ.graph.producerOutputs p = .ok outs) (hs : ∀ a ∈ outs, S a.info.sto)
    (hk : ∀ a ∈ outs, ∀ k, σ.graph.keyOf a = some k → K (σ, k)) (fp : Fp) (pk : κ) (n : Nat)
    (l : List D) (h : AgreeOn (fun _ _ => True) F S K c1 c2 s t) :
    Par (fun _ _ => True) F S K c1 c2 (World.writeOutputs env σ p fp pk n l)
      (World.writeOutputs env σ p fp pk n l) s t := by
  induction l generalizing n s t with
  | nil => exact Par.pure _ h
  | cons d l ih =>
    unfold World.writeOutputs
    rw [ho]
    refine Par.bind (Par.lift _ h) fun outs' _ _ he h => ?_
    simp only [run_lift, Prod.mk.injEq, Except.ok.injEq] at he
    obtain ⟨rfl, rfl⟩ := he
    refine Par.bind (Par.need _ _ h) fun a _ _ ha h => ?_
    have ha' : a ∈ outs := by
      revert ha
      cases hx : outs[n]? with
      | none => simp [M.need]
      | some b =>
        simp only [M.need, Prod.mk.injEq, Except.ok.injEq, and_imp]
        rintro rfl -
        exact List.mem_of_getElem? hx
    exact Par.bind (Par.need _ _ h) fun _ _ _ _ h =>
      Par.bind (par_write (hs a ha') (hk a ha') _ _ _ _ h) fun _ _ _ _ h => ih _ h

/-! ## Reading -/

theorem contents_agree {f f' : PyDict Str Str} : ∀ {ss : List (PSnap κ)},
    (∀ sn ∈ ss, ∀ path, sn.part.loc = .file path → get? f path = get? f' path) →
    contents f ss = contents f' ss
  | [], _ => rfl
  | sn :: ss, h => by
    have : content f sn.part.loc = content f' sn.part.loc := by
      cases hl : sn.part.loc with
      | file path => exact h sn (by simp) path hl
      | lit id v => rfl
    simp only [contents, this, contents_agree fun x hx => h x (List.mem_cons_of_mem _ hx)]

theorem readArgs_agree {f f' : PyDict Str Str} {inputs : List (Str × Art)}
    {d : List (Str × List (PSnap κ))}
    (h : ∀ x ∈ d, ∀ sn ∈ x.2, ∀ path, sn.part.loc = .file path → get? f path = get? f' path) :
    ∀ bi : List (Str × Nat), readArgs env f inputs d bi = readArgs env f' inputs d bi
  | [] => rfl
  | (name, view) :: rest => by
    unfold readArgs
    rw [readArgs_agree h rest]
    cases hd : get? d name with
    | none => rfl
    | some ss =>
      have : ∀ a : Art, ioRead env f a.info view ss = ioRead env f' a.info view ss := by
        intro a
        unfold ioRead
        rw [contents_agree fun sn hsn => h _ (get?_mem hd) sn hsn]
      simp only [bind, Except.bind, this]

theorem par_buildPartition {σ : Snapshot} {p : Pdr} {outs : List Art}
    (ho : σ.graph.producerOutputs p = .ok outs) (hs : ∀ a ∈ outs, S a.info.sto)
    (hk : ∀ a ∈ outs, ∀ k, σ.graph.keyOf a = some k → K (σ, k)) (ex : List κ) (fp : Fp)
    {d : List (Str × List (PSnap κ))}
    (hd : ∀ x ∈ d, ∀ sn ∈ x.2, ∀ path, sn.part.loc = .file path → F path) (pk : κ)
    (h : AgreeOn (fun _ _ => True) F S K c1 c2 s t) :
    Par (fun _ _ => True) F S K c1 c2 (World.buildPartition env σ p ex fp d pk)
      (World.buildPartition env σ p ex fp d pk) s t := by
  unfold World.buildPartition
  split
  · exact Par.pure _ h
  · refine Par.gets_bind ?_
    rw [readArgs_agree (f := s.files) (f' := t.files) fun x hx sn hsn path hp =>
      h.files path (hd x hx sn hsn path hp)]
    refine Par.bind (Par.lift _ h) fun _ s' t' _ h => ?_
    refine Par.bind (s := s') (t := t') (m := M.ghost _) (m' := M.ghost _) ⟨rfl, h.left, h.right,
      trivial, h.files, h.storage, h.links, ?_⟩ fun _ _ _ _ h => ?_
    · obtain ⟨l, h1, h2⟩ := h.calls
      exact ⟨l ++ [(p, pk)], by rw [← List.append_assoc, ← h1]; rfl,
        by rw [← List.append_assoc, ← h2]; rfl⟩
    · exact Par.bind (Par.lift _ h) fun _ _ _ _ h => Par.bind (Par.lift _ h) fun _ _ _ _ h =>
        Par.bind (Par.raiseIf _ _ h) fun _ _ _ _ h => par_writeOutputs ho hs hk _ _ _ _ h

theorem par_buildPartitions {σ : Snapshot} {p : Pdr} {outs : List Art}
    (ho : σ.graph.producerOutputs p = .ok outs) (hs : ∀ a ∈ outs, S a.info.sto)
    (hk : ∀ a ∈ outs, ∀ k, σ.graph.keyOf a = some k → K (σ, k)) (ex : List κ) (ifps : PyDict κ Fp)
    {deps : List (κ × List (Str × List (PSnap κ)))}
    (hd : ∀ y ∈ deps, ∀ x ∈ y.2, ∀ sn ∈ x.2, ∀ path, sn.part.loc = .file path → F path)
    (h : AgreeOn (fun _ _ => True) F S K c1 c2 s t) :
    Par (fun _ _ => True) F S K c1 c2 (World.buildPartitions env σ p ex ifps deps)
      (World.buildPartitions env σ p ex ifps deps) s t := by
  induction deps generalizing s t with
  | nil => exact Par.pure _ h
  | cons y deps ih =>
    exact Par.bind (Par.need _ _ h) fun _ _ _ _ h =>
      Par.bind (par_buildPartition ho hs hk _ _ (hd y (by simp)) _ h) fun _ _ _ _ h =>
      ih (fun z hz => hd z (by simp [hz])) h

theorem getInputs_agree {σ : Snapshot} : ∀ {l : List (Str × Art)},
    (∀ x ∈ l, ∀ k, σ.graph.keyOf x.2 = some k → get? s.links (σ, k) = get? t.links (σ, k)) →
    (getInputs env σ l s).1 = (getInputs env σ l t).1 := by
  intro l h
  have := getInputs_congr (env := env) (σ := σ) (s := s) (s' := t) l
    fun n a k hm hk => (h (n, a) hm k hk).symm
  exact this.symm

theorem par_buildProducer {gs : Graph → Prop} {σ : Snapshot} {p : Pdr} {outs : List Art}
    (ho : σ.graph.producerOutputs p = .ok outs) (hs : ∀ a ∈ outs, S a.info.sto)
    (hk : ∀ a ∈ outs, ∀ k, σ.graph.keyOf a = some k → K (σ, k))
    (hki : ∀ x ∈ p.inputs, ∀ k, σ.graph.keyOf x.2 = some k → K (σ, k))
    (hF : ∀ x ∈ p.inputs, ∀ k, σ.graph.keyOf x.2 = some k → ∀ path,
      PathOf env x.2.info.sto path → F path)
    (hsel : ∀ ins items, (cls env p).map ins = .ok items → ∀ pk d, (pk, d) ∈ items →
      ∀ n ss, (n, ss) ∈ d → ∀ sn ∈ ss, ∃ l, get? ins n = some l ∧ sn ∈ l)
    (hi : IterOk env) (hg : gs σ.graph) (hin : InPlace env gs s)
    (hd : ∀ a ∈ outs, ∀ ifps f f', X f f' →
      discover env f a.info.sto ifps = discover env f' a.info.sto ifps)
    (h : AgreeOn X F S K c1 c2 s t) :
    Par (fun _ _ => True) F S K c1 c2 (World.buildProducer env σ p) (World.buildProducer env σ p)
      s t := by
  have h1 := getInputs_agree (env := env) (s := s) (t := t) (σ := σ) (l := p.inputs)
    fun x hx k hkx => h.links _ (hki x hx k hkx)
  have hs1 := getInputs_state (env := env) σ p.inputs s
  have ht1 := getInputs_state (env := env) σ p.inputs t
  have he := fun ins => getInputs_eq (env := env) (σ := σ) (s := s) p.inputs (ins := ins)
  have hke := fun ins => getInputs_keys (env := env) (σ := σ) (s := s) p.inputs (ins := ins)
  unfold Par World.buildProducer
  rw [run_bind, run_bind]
  revert h1 hs1 ht1 he hke
  cases getInputs env σ p.inputs s with
  | mk r s1 =>
    cases getInputs env σ p.inputs t with
    | mk r' t1 =>
      intro h1 hs1 ht1 he hke
      simp only at h1 hs1 ht1 he hke
      subst h1 hs1 ht1
      cases r with
      | error e => exact ⟨rfl, h.weaken⟩
      | ok ins =>
        have hins := he ins rfl
        simp only [run_bind, run_lift]
        cases hc : computeDependencies env p ins with
        | error e => exact ⟨rfl, h.weaken⟩
        | ok df =>
          obtain ⟨deps, ifps⟩ := df
          simp only [run_ghost]
          obtain ⟨items, hm, rfl, -⟩ := computeDependencies_ok hc
          have hdeps : ∀ y ∈ ofItems items, ∀ x ∈ y.2, ∀ sn ∈ x.2, ∀ path,
              sn.part.loc = .file path → F path := by
            rintro ⟨pk, d⟩ hy ⟨n, ss⟩ hx sn hsn path hp
            obtain ⟨l, hl, hsl⟩ := hsel _ _ hm pk d (mem_of_mem_ofItems hy) n ss hx sn hsn
            have hl2 := (List.mem_filter.1 (get?_mem hl)).1
            rw [hins] at hl2
            obtain ⟨x, hx1, hx2⟩ := List.mem_map.1 hl2
            simp only [Prod.mk.injEq] at hx2
            obtain ⟨-, rfl⟩ := hx2
            have hsl' := (hi.perm _).mem_iff.1 hsl
            obtain ⟨k, hkx⟩ := hke ins rfl x hx1
            rw [hkx] at hsl'
            exact hF x hx1 k hkx path (hin.linked σ hg _ _ hkx sn hsl' path hp)
          have h2 : AgreeOn X F S K c1 c2
              { s1 with invs := s1.invs ++ invsOf env s1.files p ifps (ofItems items) }
              { t1 with invs := t1.invs ++ invsOf env t1.files p ifps (ofItems items) } :=
            ⟨h.left, h.right, h.names, h.files, h.storage, h.links, h.calls⟩
          generalize ({ s1 with
            invs := s1.invs ++ invsOf env s1.files p ifps (ofItems items) } : St κ D) = s2 at h2 ⊢
          generalize ({ t1 with
            invs := t1.invs ++ invsOf env t1.files p ifps (ofItems items) } : St κ D) = t2 at h2 ⊢
          obtain ⟨h3, h4⟩ := par_discover (env := env) ho (ifps := ifps) hs hk
            (fun a ha => hd a ha ifps) h2
          revert h3 h4
          cases discoverProducerPartitions env σ p ifps s2 with
          | mk r3 s3 =>
            cases discoverProducerPartitions env σ p ifps t2 with
            | mk r4 t3 =>
              intro h3 h4
              simp only at h3 h4
              subst h3
              cases r3 with
              | error e => exact ⟨rfl, h4.weaken⟩
              | ok ex => exact par_buildPartitions ho hs hk ex ifps hdeps h4.weaken

end
end Arti.Spec
