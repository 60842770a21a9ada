import Verif.Spec.Together
import Verif.Lemmas.Reuse

/-! The outputs of a producer stay together in histories without interruptions. -/

namespace Arti.Spec
open PyDict World M
variable {κ D : Type} [DecidableEq κ] {env : Env κ D} {gs : Graph → Prop}

/-- The file of a produced partition exists. -/
def OnFile (env : Env κ D) (files : PyDict Str Str) (sto : Sto) (f : Fp) (pk : κ) : Prop :=
  ∃ part path, generate env sto (some f) pk = .ok part ∧ part.loc = .file path ∧
    get? files path ≠ none

/-- The backend knows a partition of a storage. -/
def KnownAt (s : St κ D) (sto : Sto) (f : Fp) (pk : κ) : Prop :=
  ∃ ps, get? s.storage sto = some ps ∧ ∃ sn ∈ ps, sn.part.inputFp = some f ∧ sn.part.key = pk

/-- The outputs of producers are together. -/
structure Whole (env : Env κ D) (gs : Graph → Prop) (s : St κ D) : Prop where
  cached : ∀ a b, Beside gs a b → get? s.storage a ≠ none → get? s.storage b ≠ none
  known : ∀ a b, Beside gs a b → ∀ f pk, KnownAt s a f pk → KnownAt s b f pk
  files : ∀ a b, Beside gs a b → ∀ f pk, OnFile env s.files a f pk → OnFile env s.files b f pk

theorem Beside.symm {a b : Sto} (h : Beside gs a b) : Beside gs b a := by
  obtain ⟨g, hg, p, k, i, pos, k', i', pos', h1, h2, h3, h4⟩ := h
  exact ⟨g, hg, p, k', i', pos', k, i, pos, h2, h1, h4, h3⟩

theorem Beside.made {a b : Sto} (h : Beside gs a b) : MadeSto gs a := by
  obtain ⟨g, hg, p, k, i, pos, k', i', pos', h1, h2, h3, h4⟩ := h
  exact ⟨i, p, pos, ⟨g, hg, k, h1⟩, h3⟩

theorem knownAt_addStorage {s : St κ D} {a b : Sto} {ps : List (PSnap κ)} {f : Fp} {pk : κ} :
    KnownAt (addStorage s a ps) b f pk ↔ KnownAt s b f pk ∨
      (a = b ∧ ∃ sn ∈ ps, sn.part.inputFp = some f ∧ sn.part.key = pk) := by
  unfold KnownAt addStorage
  simp only [get?_set]
  by_cases hab : a = b
  · subst hab
    simp only [↓reduceIte, Option.some.injEq, true_and]
    constructor
    · rintro ⟨_, rfl, sn, hsn, h1, h2⟩
      rcases (mem_setUpdate _ _ _).1 hsn with h | h
      · left
        cases hg : get? s.storage a with
        | none => rw [hg] at h; simp at h
        | some l => rw [hg] at h; exact ⟨l, rfl, sn, h, h1, h2⟩
      · exact .inr ⟨sn, h, h1, h2⟩
    · rintro (⟨l, hl, sn, hsn, h⟩ | ⟨sn, hsn, h⟩)
      · exact ⟨_, rfl, sn, (mem_setUpdate _ _ _).2 (.inl (by rw [hl]; exact hsn)), h⟩
      · exact ⟨_, rfl, sn, (mem_setUpdate _ _ _).2 (.inr hsn), h⟩
  · simp [hab]

theorem onFile_set {files : PyDict Str Str} {path c : Str} {b : Sto} {f : Fp} {pk : κ} :
    OnFile env (PyDict.set files path c) b f pk ↔ OnFile env files b f pk ∨
      ∃ part, generate env b (some f) pk = .ok part ∧ part.loc = .file path := by
  unfold OnFile
  constructor
  · rintro ⟨part, path', h1, h2, h3⟩
    by_cases hp : path = path'
    · subst hp; exact .inr ⟨part, h1, h2⟩
    · rw [get?_set, if_neg hp] at h3
      exact .inl ⟨part, path', h1, h2, h3⟩
  · rintro (⟨part, path', h1, h2, h3⟩ | ⟨part, h1, h2⟩)
    · refine ⟨part, path', h1, h2, ?_⟩
      rw [get?_set]
      split
      · simp
      · exact h3
    · exact ⟨part, path, h1, h2, by rw [get?_set, if_pos rfl]; simp⟩

/-- The first read of a storage stores what is discovered. -/
theorem read_first_stores {a : Art} {ifps : PyDict κ Fp} {s s' : St κ D} {ps : List (PSnap κ)}
    (hst : get? s.storage a.info.sto = none)
    (h : readArtifactPartitions env a ifps s = (.ok ps, s')) :
    ∃ found l, discover env s.files a.info.sto ifps = .ok found ∧
      get? s'.storage a.info.sto = some l ∧ ∀ sn, sn ∈ l ↔ sn ∈ found := by
  have hc : contains s.storage a.info.sto = false := by
    simp [contains, hst]
  unfold readArtifactPartitions warm at h
  simp only [run_bind, run_gets, hc, Bool.false_eq_true, ↓reduceIte, run_lift] at h
  cases hd : discover env s.files a.info.sto ifps with
  | error e => rw [hd] at h; simp at h
  | ok found =>
    rw [hd] at h
    simp only [writeArtifactPartitions, M.effect] at h
    refine ⟨found, setUpdate [] found, rfl, ?_, fun sn => by simp [mem_setUpdate]⟩
    cases hb : s.budget with
    | none =>
      rw [hb] at h
      simp only [run_pure, hst, Option.getD_none, Prod.mk.injEq] at h
      rw [← h.2]
      exact get?_set_self _ _ _
    | some n =>
      rw [hb] at h
      cases n with
      | zero => simp at h
      | succ n =>
        simp only [run_pure, hst, Option.getD_none, Prod.mk.injEq] at h
        rw [← h.2]
        exact get?_set_self _ _ _

/-- What reading the outputs does to the cache. -/
theorem readOutputs_cache {ifps : PyDict κ Fp} : ∀ (l : List Art) {s s' : St κ D}
    {found : List (Art × List (PSnap κ))}, readOutputs env ifps l s = (.ok found, s') →
    s'.files = s.files ∧
    (∀ sto ps, get? s.storage sto = some ps → get? s'.storage sto = some ps) ∧
    (∀ sto, (∀ a ∈ l, a.info.sto ≠ sto) → get? s'.storage sto = get? s.storage sto) ∧
    ∀ a ∈ l, get? s.storage a.info.sto = none → ∃ fd ps,
      discover env s.files a.info.sto ifps = .ok fd ∧ get? s'.storage a.info.sto = some ps ∧
      ∀ sn, sn ∈ ps ↔ sn ∈ fd
  | [], s, s', found, h => by
    simp only [readOutputs, run_pure, Prod.mk.injEq] at h
    rw [← h.2]
    exact ⟨rfl, fun _ _ h => h, fun _ _ => rfl, by simp⟩
  | a :: l, s, s', found, h => by
    simp only [readOutputs, run_bind] at h
    cases hr : readArtifactPartitions env a ifps s with
    | mk r1 s1 =>
    rw [hr] at h
    cases r1 with
    | error e => simp at h
    | ok ps1 =>
    simp only at h
    cases hr2 : readOutputs env ifps l s1 with
    | mk r2 s2 =>
    rw [hr2] at h
    cases r2 with
    | error e => simp at h
    | ok found2 =>
    simp only [run_pure, Prod.mk.injEq] at h
    obtain ⟨-, rfl⟩ := h
    obtain ⟨h1, h2, h3, h4⟩ := readOutputs_cache l hr2
    cases hst : get? s.storage a.info.sto with
    | some ss =>
      obtain ⟨-, rfl⟩ := read_known hst hr
      refine ⟨h1, h2, fun sto hs => h3 sto fun b hb => hs b (List.mem_cons_of_mem _ hb), ?_⟩
      intro b hb hn
      rcases List.mem_cons.1 hb with rfl | hb
      · rw [hst] at hn; simp at hn
      · exact h4 b hb hn
    | none =>
      obtain ⟨-, -, -, e1, -, e2⟩ := read_first hst hr
      obtain ⟨fd, ps, e3, e4, e5⟩ := read_first_stores hst hr
      refine ⟨h1.trans e1, ?_, ?_, ?_⟩
      · intro sto ps' hp
        refine h2 sto ps' ?_
        rw [e2 sto (by rintro rfl; rw [hst] at hp; simp at hp)]
        exact hp
      · intro sto hs
        rw [h3 sto fun b hb => hs b (List.mem_cons_of_mem _ hb)]
        exact e2 sto fun e => hs a (by simp) e.symm
      · intro b hb hn
        by_cases hab : b.info.sto = a.info.sto
        · rw [hab]
          exact ⟨fd, ps, e3, h2 _ _ e4, e5⟩
        · rcases List.mem_cons.1 hb with rfl | hb
          · exact absurd rfl hab
          · obtain ⟨fd', ps', q1, q2, q3⟩ := h4 b hb (by rw [e2 _ hab]; exact hn)
            rw [e1] at q1
            exact ⟨fd', ps', q1, q2, q3⟩

/-- All outputs of the producer in the graph are listed. -/
theorem mem_outs_of (ht : Together env gs) {g : Graph} (hg : gs g) {k : Str} {i : ArtInfo} {p : Pdr}
    {pos : Nat} (hm : (k, Art.made i p pos) ∈ g.arts) {outs : List Art}
    (ho : g.producerOutputs p = .ok outs) : Art.made i p pos ∈ outs := by
  have hk := Graph.mem_keys_outputsByPos hm
  unfold Graph.producerOutputs at ho
  split at ho
  · simp at ho
  · simp only [Except.ok.injEq] at ho
    subst ho
    obtain ⟨⟨pos', a⟩, h1, rfl⟩ := List.mem_map.1 hk
    obtain ⟨k', i', rfl, h3⟩ := Graph.mem_outputsByPos h1
    obtain ⟨rfl, -⟩ := ht.one g hg p _ _ _ _ _ _ hm h3 (.inr rfl)
    exact List.mem_map.2 ⟨_, (Graph.sortPos_perm _).mem_iff.2 h1, rfl⟩

/-- Reading the outputs keeps them together, and then all are cached. -/
theorem Whole.readOutputs (ht : Together env gs) {g : Graph} (hg : gs g)
    {p : Pdr} {outs : List Art} (ho : g.producerOutputs p = .ok outs) {ifps : PyDict κ Fp}
    {s s' : St κ D} (h : Whole env gs s) (hf : Finds env gs s.files)
    {found : List (Art × List (PSnap κ))}
    (hrun : World.readOutputs env ifps outs s = (.ok found, s')) :
    Whole env gs s' ∧ s'.files = s.files ∧
      ∀ k i pos, (k, Art.made i p pos) ∈ g.arts → get? s'.storage i.sto ≠ none := by
  obtain ⟨h1, h2, h3, h4⟩ := readOutputs_cache outs hrun
  have hcached : ∀ k i pos, (k, Art.made i p pos) ∈ g.arts → get? s'.storage i.sto ≠ none := by
    intro k i pos hm
    have ha := mem_outs_of ht hg hm ho
    cases hst : get? s.storage i.sto with
    | some ps => rw [h2 _ _ hst]; simp
    | none =>
      obtain ⟨_, ps, _, e, _⟩ := h4 _ ha hst
      have e' : get? s'.storage i.sto = some ps := e
      rw [e']; simp
  have hgroup : ∀ a b, Beside gs a b → (∃ x ∈ outs, x.info.sto = a) → ∃ k i pos,
      (k, Art.made i p pos) ∈ g.arts ∧ i.sto = b := by
    rintro a b hb ⟨x, hx, rfl⟩
    obtain ⟨k, i, pos, rfl, hm⟩ := Graph.mem_producerOutputs ho hx
    obtain ⟨k', i', pos', hm', e⟩ := ht.beside g hg k i p pos hm b hb
    exact ⟨k', i', pos', hm', e⟩
  refine ⟨⟨?_, ?_, ?_⟩, h1, hcached⟩
  · intro a b hb ha
    by_cases hx : ∃ x ∈ outs, x.info.sto = a
    · obtain ⟨k, i, pos, hm, rfl⟩ := hgroup a b hb hx
      exact hcached k i pos hm
    · rw [h3 a fun x hx' e => hx ⟨x, hx', e⟩] at ha
      have := h.cached a b hb ha
      cases hst : get? s.storage b with
      | none => exact absurd hst this
      | some ps => rw [h2 _ _ hst]; simp
  · intro a b hb f pk hk
    cases hsa : get? s.storage a with
    | some ps =>
      have hk' : KnownAt s a f pk := by
        obtain ⟨ps', e1, e2⟩ := hk
        rw [h2 _ _ hsa] at e1
        exact ⟨ps', by rw [hsa]; exact e1, e2⟩
      obtain ⟨ps', e1, e2⟩ := h.known a b hb f pk hk'
      exact ⟨ps', h2 _ _ e1, e2⟩
    | none =>
      have hx : ∃ x ∈ outs, x.info.sto = a := by
        by_contra hx
        obtain ⟨ps, e1, -⟩ := hk
        rw [h3 a fun x hx' e => hx ⟨x, hx', e⟩, hsa] at e1
        simp at e1
      obtain ⟨k', i', pos', hm', rfl⟩ := hgroup a b hb hx
      obtain ⟨x, hx, rfl⟩ := hx
      obtain ⟨fd, ps, d1, d2, d3⟩ := h4 x hx hsa
      obtain ⟨k, i, pos, rfl, hm⟩ := Graph.mem_producerOutputs ho hx
      have hsb : get? s.storage i'.sto = none := by
        by_contra hc
        exact h.cached _ _ hb.symm hc hsa
      by_cases hab : i.sto = i'.sto
      · rw [← hab]; exact hk
      obtain ⟨t, hta'⟩ := ht.inFiles _ _ hb hab
      have hta : i.sto = .file t := hta'
      obtain ⟨ps', e1, sn, e2, e3, e4⟩ := hk
      have e1' : get? s'.storage i.sto = some ps' := e1
      have d2' : get? s'.storage i.sto = some ps := d2
      rw [e1'] at d2'
      obtain rfl := Option.some.inj d2'
      have d1' : discover env s.files i.sto ifps = .ok fd := d1
      have hsn := (d3 sn).1 e2
      -- the file of `sn` exists
      obtain ⟨hon, hif⟩ : OnFile env s.files i.sto f pk ∧ get? ifps pk = some f := by
        rw [hta] at d1'
        simp only [discover, bind, Except.bind] at d1'
        split at d1'
        · simp at d1'
        · obtain ⟨fp, pk', c, q1, q2, q3, q4⟩ := mem_snapAll d1' hsn
          obtain ⟨g1, g2, g3, g4, g5⟩ := generate_ok q2
          rw [e3] at g2
          subst g2
          rw [e4] at g3
          subst g3
          have hfil := (List.mem_filter.1 q1).2
          simp only [decide_eq_true_eq] at hfil
          rcases g5 with ⟨_, path, _, hloc⟩ | ⟨_, _, _, _, hh, _⟩
          · refine ⟨⟨sn.part, path, by rw [hta]; exact q2, hloc, ?_⟩, hfil⟩
            rw [hloc] at q3
            rw [show get? s.files path = some c from q3]
            simp
          · simp at hh
      obtain ⟨part', path', o1, o2, o3⟩ := h.files _ _ hb f pk hon
      obtain ⟨fd', ps'', p1, p2, p3⟩ := h4 _ (mem_outs_of ht hg hm' ho) hsb
      obtain ⟨sn', hsn', hpart⟩ := hf i' p pos' ⟨g, hg, k', hm'⟩ ifps fd' p1 f pk part' path' hif o1
        o2 o3
      obtain ⟨-, g2, g3, -⟩ := generate_ok o1
      exact ⟨ps'', p2, sn', (p3 sn').2 hsn', by rw [hpart]; exact g2, by rw [hpart]; exact g3⟩
  · intro a b hb f pk
    rw [h1]
    exact h.files a b hb f pk

/-- The outputs of the producer are being written for a partition. -/
structure MidW (env : Env κ D) (gs : Graph → Prop) (g : Graph) (p : Pdr) (f : Fp) (pk : κ) (n : Nat)
    (s : St κ D) : Prop where
  outs : ∀ k i pos, (k, Art.made i p pos) ∈ g.arts → get? s.storage i.sto ≠ none
  cached : ∀ a b, Beside gs a b → get? s.storage a ≠ none → get? s.storage b ≠ none
  known : ∀ a b, Beside gs a b → ∀ f' pk', KnownAt s a f' pk' → KnownAt s b f' pk' ∨
    ((∃ k i pos, (k, Art.made i p pos) ∈ g.arts ∧ i.sto = a) ∧ f' = f ∧ pk' = pk)
  files : ∀ a b, Beside gs a b → ∀ f' pk', OnFile env s.files a f' pk' →
    OnFile env s.files b f' pk' ∨
    ((∃ k i pos, (k, Art.made i p pos) ∈ g.arts ∧ i.sto = a) ∧ f' = f ∧ pk' = pk)
  done : ∀ k i pos, (k, Art.made i p pos) ∈ g.arts → pos < n → KnownAt s i.sto f pk ∧
    ∀ t, i.sto = .file t → OnFile env s.files i.sto f pk

section
variable {g : Graph} {p : Pdr} {f : Fp} {pk : κ} {n : Nat}

theorem Whole.mid {s : St κ D} (h : Whole env gs s)
    (ho : ∀ k i pos, (k, Art.made i p pos) ∈ g.arts → get? s.storage i.sto ≠ none) :
    MidW env gs g p f pk 0 s :=
  ⟨ho, h.cached, fun a b hb f' pk' hk => .inl (h.known a b hb f' pk' hk),
    fun a b hb f' pk' hk => .inl (h.files a b hb f' pk' hk), fun _ _ _ _ hn => by omega⟩

theorem MidW.whole (ht : Together env gs) (hg : gs g) {s : St κ D} (h : MidW env gs g p f pk n s)
    (hall : ∀ k i pos, (k, Art.made i p pos) ∈ g.arts → pos < n) : Whole env gs s := by
  refine ⟨h.cached, fun a b hb f' pk' hk => ?_, fun a b hb f' pk' hk => ?_⟩
  · rcases h.known a b hb f' pk' hk with h' | ⟨⟨k, i, pos, hm, rfl⟩, rfl, rfl⟩
    · exact h'
    · obtain ⟨k', i', pos', hm', rfl⟩ := ht.beside g hg k i p pos hm b hb
      exact (h.done k' i' pos' hm' (hall _ _ _ hm')).1
  · by_cases hab : a = b
    · rw [← hab]; exact hk
    · rcases h.files a b hb f' pk' hk with h' | ⟨⟨k, i, pos, hm, rfl⟩, rfl, rfl⟩
      · exact h'
      · obtain ⟨k', i', pos', hm', rfl⟩ := ht.beside g hg k i p pos hm b hb
        obtain ⟨t, e⟩ := ht.inFiles _ _ hb.symm (fun e => hab e.symm)
        exact (h.done k' i' pos' hm' (hall _ _ _ hm')).2 t e

theorem MidW.budget {s : St κ D} (h : MidW env gs g p f pk n s) (b : Option Nat) :
    MidW env gs g p f pk n { s with budget := b } := ⟨h.outs, h.cached, h.known, h.files, h.done⟩

theorem MidW.addFile (ht : Together env gs) (hg : gs g) {s : St κ D} (h : MidW env gs g p f pk n s)
    {k : Str} {i : ArtInfo} {pos : Nat} (hm : (k, Art.made i p pos) ∈ g.arts) {part : Prt κ}
    {path c : Str} (hgen : generate env i.sto (some f) pk = .ok part) (hl : part.loc = .file path) :
    MidW env gs g p f pk n { s with files := PyDict.set s.files path c } ∧
    OnFile env (PyDict.set s.files path c) i.sto f pk := by
  refine ⟨⟨h.outs, h.cached, h.known, ?_, ?_⟩, onFile_set.2 (.inr ⟨part, hgen, hl⟩)⟩
  · intro a b hb f' pk' hk
    rcases onFile_set.1 hk with hk | ⟨part', e1, e2⟩
    · rcases h.files a b hb f' pk' hk with h' | h'
      · exact .inl (onFile_set.2 (.inl h'))
      · exact .inr h'
    · obtain ⟨i', p', pos', hm', rfl⟩ := hb.made
      obtain ⟨e3, e4, e5⟩ := ht.apart i' p' pos' i p pos hm' ⟨g, hg, k, hm⟩ _ _ _ _ _ _ _ e1 hgen
        e2 hl
      exact .inr ⟨⟨k, i, pos, hm, e3.symm⟩, e4, e5⟩
  · intro k' i' pos' hm' hlt
    obtain ⟨h1, h2⟩ := h.done k' i' pos' hm' hlt
    exact ⟨h1, fun t e => onFile_set.2 (.inl (h2 t e))⟩

theorem MidW.addStorage (ht : Together env gs) (hg : gs g) {s : St κ D}
    (h : MidW env gs g p f pk n s) {k : Str} {i : ArtInfo} (hm : (k, Art.made i p n) ∈ g.arts)
    {sn : PSnap κ} (hf : sn.part.inputFp = some f) (hk : sn.part.key = pk)
    (hon : ∀ t, i.sto = .file t → OnFile env s.files i.sto f pk) :
    MidW env gs g p f pk (n + 1) (Spec.addStorage s i.sto [sn]) := by
  have hsome : ∀ b, get? (Spec.addStorage s i.sto [sn]).storage b ≠ none ↔
      get? s.storage b ≠ none := by
    intro b
    simp only [Spec.addStorage, get?_set]
    split
    · rename_i e
      subst e
      simp [h.outs k i n hm]
    · rfl
  refine ⟨fun k' i' pos' hm' => (hsome _).2 (h.outs k' i' pos' hm'), ?_, ?_, ?_, ?_⟩
  · intro a b hb ha
    exact (hsome b).2 (h.cached a b hb ((hsome a).1 ha))
  · intro a b hb f' pk' hkn
    rcases knownAt_addStorage.1 hkn with hkn | ⟨rfl, sn', hsn', e1, e2⟩
    · rcases h.known a b hb f' pk' hkn with h' | h'
      · exact .inl (knownAt_addStorage.2 (.inl h'))
      · exact .inr h'
    · rw [List.mem_singleton] at hsn'
      subst hsn'
      rw [hf] at e1
      exact .inr ⟨⟨k, i, n, hm, rfl⟩, (Option.some.inj e1).symm, e2.symm.trans hk⟩
  · exact h.files
  · intro k' i' pos' hm' hlt
    by_cases hp : pos' = n
    · subst hp
      obtain ⟨rfl, -⟩ := ht.one g hg p _ _ _ _ _ _ hm hm' (.inr rfl)
      exact ⟨knownAt_addStorage.2 (.inr ⟨rfl, sn, by simp, hf, hk⟩), hon⟩
    · obtain ⟨h1, h2⟩ := h.done k' i' pos' hm' (by omega)
      exact ⟨knownAt_addStorage.2 (.inl h1), h2⟩

variable {σ : Snapshot}

theorem tri_write_mid (ht : Together env gs) (hg : gs σ.graph) {k : Str} {i : ArtInfo}
    (hm : (k, Art.made i p n) ∈ σ.graph.arts) {d : D} {v : Nat} :
    Tri (MidW env gs σ.graph p f pk n)
      (write env σ.graph (some σ) d (.made i p n) (some f) pk v)
      (fun _ => MidW env gs σ.graph p f pk (n + 1)) (fun _ => True) := by
  refine Tri.need_bind (fun k' hk' => ?_) (fun _ _ => trivial)
  refine Tri.raiseIf_bind (fun _ => ?_) (fun _ _ => trivial)
  refine Tri.lift_bind (fun part hpart => ?_) (fun _ _ => trivial)
  have hpart' : generate env i.sto (some f) pk = .ok part := hpart
  have hkey : part.key = pk ∧ part.inputFp = some f :=
    ⟨(generate_ok hpart).2.2.1, (generate_ok hpart).2.1⟩
  refine Tri.bind (Q := fun sn s => MidW env gs σ.graph p f pk n s ∧ sn.part.key = pk ∧
    sn.part.inputFp = some f ∧ ∀ t, i.sto = .file t → OnFile env s.files i.sto f pk) ?_ fun sn => ?_
  · unfold ioWrite
    split
    · rename_i path hloc
      refine Tri.lift_bind (fun c _ => ?_) (fun _ _ => trivial)
      refine Tri.bind (Q := fun _ s => MidW env gs σ.graph p f pk n s ∧
        OnFile env s.files i.sto f pk) (Tri.effect ?_ ?_
        (fun _ _ => trivial)) fun _ => Tri.gets_bind fun s hs => Tri.lift ?_ (fun _ _ => trivial)
      · intro s hs
        exact hs.addFile ht hg hm hpart' hloc
      · rintro s n ⟨h1, h2⟩; exact ⟨h1.budget _, h2⟩
      · rintro sn s' hsn rfl
        refine ⟨hs.1, ?_⟩
        unfold snap at hsn
        split at hsn
        · simp only [Except.ok.injEq] at hsn
          rw [← hsn]; exact ⟨hkey.1, hkey.2, fun _ _ => hs.2⟩
        · simp at hsn
    · rename_i lid v' hloc
      refine Tri.raiseIf_bind (fun _ => ?_) (fun _ _ => trivial)
      refine Tri.lift_bind (fun c _ => ?_) (fun _ _ => trivial)
      refine Tri.lift ?_ (fun _ _ => trivial)
      intro sn s' hsn hs
      refine ⟨hs, ?_⟩
      have hnf : ∀ t, i.sto ≠ .file t := by
        intro t e
        rcases (generate_ok hpart').2.2.2.2 with ⟨_, _, _, h⟩ | ⟨_, _, _, _, h, _⟩
        · rw [h] at hloc; simp at hloc
        · rw [e] at h; simp at h
      unfold snap at hsn
      split at hsn
      · simp only [Except.ok.injEq] at hsn
        rw [← hsn]; exact ⟨hkey.1, hkey.2, fun t e => absurd e (hnf t)⟩
      · simp at hsn
  · refine Tri.bind (Q := fun _ s => MidW env gs σ.graph p f pk (n + 1) s)
      (Tri.effect ?_ (fun s b h => h.budget b) (fun _ _ => trivial)) fun _ => ?_
    · rintro s ⟨h1, h2, h3, h4⟩
      exact h1.addStorage ht hg hm h3 h2 h4
    refine Tri.bind (Q := fun _ s => MidW env gs σ.graph p f pk (n + 1) s)
      (Tri.effect ?_ (fun s b h => h.budget b) (fun _ _ => trivial)) fun _ => Tri.pure fun s h => h
    intro s h
    exact ⟨h.outs, h.cached, h.known, h.files, h.done⟩

theorem tri_writeOutputs_mid (hd : Disciplined env gs) (ht : Together env gs) (hg : gs σ.graph)
    (l : List D) : ∀ n : Nat, Tri (MidW env gs σ.graph p f pk n) (writeOutputs env σ p f pk n l)
      (fun _ => MidW env gs σ.graph p f pk (n + l.length)) (fun _ => True) := by
  induction l with
  | nil => exact fun n => Tri.pure fun s hs => hs
  | cons d l ih =>
    intro n
    refine Tri.lift_bind (fun outs ho => ?_) (fun _ _ => trivial)
    refine Tri.need_bind (fun a ha => ?_) (fun _ _ => trivial)
    refine Tri.need_bind (fun v _ => ?_) (fun _ _ => trivial)
    obtain ⟨k, i, rfl, hm⟩ := Graph.producerOutputs_pos
      (fun k i pos h => hd.noGap σ.graph hg k i p pos h) ho ha
    refine Tri.bind (tri_write_mid ht hg hm) fun _ => ?_
    refine (ih (n + 1)).conseq (fun _ => id) (fun _ s h => ?_) (fun _ => id)
    rw [List.length_cons, Nat.add_comm l.length 1, ← Nat.add_assoc]
    exact h

/-- The outputs are together and all of them are cached. -/
def WholeOuts (env : Env κ D) (gs : Graph → Prop) (g : Graph) (p : Pdr) (s : St κ D) : Prop :=
  Whole env gs s ∧ ∀ k i pos, (k, Art.made i p pos) ∈ g.arts → get? s.storage i.sto ≠ none

theorem tri_buildPartitions_whole (hd : Disciplined env gs) (ht : Together env gs)
    (hg : gs σ.graph) {existing : List κ} {ifps : PyDict κ Fp}
    (deps : List (κ × List (Str × List (PSnap κ)))) :
    Tri (WholeOuts env gs σ.graph p) (buildPartitions env σ p existing ifps deps)
      (fun _ => WholeOuts env gs σ.graph p) (fun _ => True) := by
  induction deps with
  | nil => exact Tri.pure fun s hs => hs
  | cons x deps ih =>
    obtain ⟨pk, d⟩ := x
    refine Tri.need_bind (fun fp _ => ?_) (fun _ _ => trivial)
    refine Tri.bind (Q := fun _ => WholeOuts env gs σ.graph p) ?_ fun _ => ih
    unfold buildPartition
    split
    · exact Tri.pure fun s hs => hs
    · refine Tri.bind (Q := fun _ => WholeOuts env gs σ.graph p) (Tri.gets fun _ h => h)
        fun files => ?_
      refine Tri.lift_bind (fun args _ => ?_) (fun _ _ => trivial)
      refine Tri.bind (Q := fun _ => WholeOuts env gs σ.graph p) (Tri.ghost ?_) fun _ => ?_
      · rintro s ⟨h1, h2⟩
        exact ⟨⟨h1.cached, h1.known, h1.files⟩, h2⟩
      refine Tri.lift_bind (fun l hl => ?_) (fun _ _ => trivial)
      refine Tri.lift_bind (fun passed _ => ?_) (fun _ _ => trivial)
      refine Tri.raiseIf_bind (fun _ => ?_) (fun _ _ => trivial)
      refine (tri_writeOutputs_mid hd ht hg l 0).conseq (fun s h => h.1.mid h.2) (fun _ s h => ?_)
        (fun _ => id)
      refine ⟨h.whole ht hg fun k i pos hm => ?_, h.outs⟩
      rw [Nat.zero_add]
      exact ht.counts _ hg k i p pos hm args l hl

end

/-- Building a producer keeps outputs together, if it succeeds. -/
theorem Whole.buildProducer (hd : Disciplined env gs) (ht : Together env gs) {σ : Snapshot}
    (hg : gs σ.graph) {p : Pdr} {k0 : Str} {i0 : ArtInfo} {pos0 : Nat}
    (hm0 : (k0, Art.made i0 p pos0) ∈ σ.graph.arts) {s s' : St κ D} (h : Whole env gs s)
    (hf : Finds env gs s.files)
    (hrun : World.buildProducer env σ p s = (.ok (), s')) : Whole env gs s' := by
  obtain ⟨outs, ho⟩ := producerOutputs_of_mem hm0
  unfold World.buildProducer at hrun
  rw [run_bind] at hrun
  have hst := getInputs_state (env := env) σ p.inputs s
  revert hst hrun
  cases getInputs env σ p.inputs s with
  | mk r1 s1 =>
  intro hrun hst
  simp only at hst
  subst hst
  cases r1 with
  | error e => simp at hrun
  | ok ins =>
  simp only [run_bind, run_lift] at hrun
  cases hcd : computeDependencies env p ins with
  | error e => rw [hcd] at hrun; simp at hrun
  | ok df =>
  obtain ⟨deps, ifps⟩ := df
  rw [hcd] at hrun
  simp only [run_ghost, discoverProducerPartitions, run_bind, run_lift, ho] at hrun
  generalize hs2 : ({ s1 with invs := s1.invs ++ invsOf env s1.files p ifps deps } : St κ D) = s2
    at hrun
  have hw2 : Whole env gs s2 := by rw [← hs2]; exact ⟨h.cached, h.known, h.files⟩
  have hf2 : Finds env gs s2.files := by rw [← hs2]; exact hf
  cases hro : World.readOutputs env ifps outs s2 with
  | mk r3 s3 =>
  rw [hro] at hrun
  cases r3 with
  | error e => simp at hrun
  | ok found =>
  simp only at hrun
  obtain ⟨hw3, -, hc3⟩ := hw2.readOutputs ht hg ho hf2 hro
  cases hlo : linkOutputs σ found s3 with
  | mk r4 s4 =>
  rw [hlo] at hrun
  cases r4 with
  | error e => simp at hrun
  | ok u =>
  simp only [run_pure] at hrun
  obtain ⟨l1, -, l3⟩ := linkOutputs_same found hlo
  have hw4 : WholeOuts env gs σ.graph p s4 := by
    refine ⟨⟨?_, ?_, ?_⟩, ?_⟩
    · rw [l3]; exact hw3.cached
    · unfold KnownAt; rw [l3]; exact hw3.known
    · rw [l1]; exact hw3.files
    · rw [l3]; exact hc3
  exact ((tri_buildPartitions_whole hd ht hg deps).ok hw4 hrun).1

theorem outsOk_together (hd : Disciplined env gs) (ht : Together env gs) {σ : Snapshot}
    (hg : gs σ.graph) {p : Pdr} {outs : List Art} (ho : σ.graph.producerOutputs p = .ok outs) :
    OutsOk σ outs := by
  constructor
  · intro a ha b hb hs
    obtain ⟨k, i, pos, rfl, h1⟩ := Graph.mem_producerOutputs ho ha
    obtain ⟨k', i', pos', rfl, h2⟩ := Graph.mem_producerOutputs ho hb
    obtain ⟨rfl, rfl⟩ := ht.one _ hg p _ _ _ _ _ _ h1 h2 (.inl hs)
    rfl
  · intro a ha
    obtain ⟨k, i, pos, rfl, h1⟩ := Graph.mem_producerOutputs ho ha
    exact Graph.keyOf_of_mem h1
  · intro a _ b _ k h1 h2
    exact Graph.keyOf_inj (hd.keys _ hg) h1 h2

/-- A successful run of one producer in a build, if its outputs are together. -/
theorem buildProducer_whole (hd : Disciplined env gs) (ht : Together env gs) {s s' : St κ D}
    {σ : Snapshot} {r : PyDict Str (Data κ)} {p : Pdr} (hg : gs σ.graph)
    (hw : WInv env gs s) (hl : LInv (LinkEval env) s) (hr : (σ, r) ∈ s.raws)
    (hu : SnapUnique s.raws) (hh : Whole env gs s) (hf : Finds env gs s.files)
    (hin : ∀ n a, (n, a) ∈ p.inputs → ∀ k, σ.graph.keyOf a = some k →
      Full env s σ (rawOf σ r) a)
    (hself : ∀ n i pos k, (n, Art.made i p pos) ∈ p.inputs → (k, Art.made i p pos) ∉ σ.graph.arts)
    {k0 : Str} {i0 : ArtInfo} {pos0 : Nat} (hm0 : (k0, Art.made i0 p pos0) ∈ σ.graph.arts)
    (hrun : World.buildProducer env σ p s = (.ok (), s')) (hn : NoClash env gs s'.invs) :
    WInv env gs s' ∧ LInv (LinkEval env) s' ∧ Grow s s' ∧ Whole env gs s' ∧
    ∀ k i pos, (k, Art.made i p pos) ∈ σ.graph.arts →
      Full env s' σ (rawOf σ r) (.made i p pos) := by
  have hh' := hh.buildProducer hd ht hg hm0 hf hrun
  obtain ⟨outs, ho⟩ := producerOutputs_of_mem hm0
  have hdone := buildProducer_done hd.iter ho (outsOk_together hd ht hg ho)
    (fun args l hb => by
      have := ht.counts _ hg _ _ _ _ hm0 args l hb
      rintro rfl; simp at this)
    (fun n a k hna hk b hb hkb => by
      obtain ⟨k', i, pos, rfl, h1⟩ := Graph.mem_producerOutputs ho hb
      obtain rfl := Graph.keyOf_inj (hd.keys _ hg) hk hkb
      exact hself n i pos k' hna h1) hrun
  obtain ⟨c, v, inp⟩ := p
  obtain ⟨w1, w2, w3, w4⟩ := buildProducer_core (E := LinkEval env) (p := .mk c v inp)
    (X := fun xs => evalIns env (rawOf σ r) inp = .ok xs) hd hg hw hl hr
    (fun ins s2 hgi => getInputs_spec hd.iter hl inp hin ins s2 hgi)
    (fun xs hx rs h1 _ i pos o ho sn cc hp =>
      ⟨rs, by simp [evalPdr, hx, h1, bind, Except.bind], o, ho, cc, hp⟩) hm0 hrun hn
  refine ⟨w1, w2, w3, hh', fun k i pos hm => ?_⟩
  obtain ⟨xs, rs, hx1, h1, hlog, hall⟩ := w4 rfl
  have hr' : (σ, r) ∈ s'.raws := by rw [w3.raws]; exact hr
  have hu' : SnapUnique s'.raws := by rw [w3.raws]; exact hu
  have heval : evalPdr env (rawOf σ r) (.mk c v inp) = .ok rs := by
    simp [evalPdr, hx1, h1, bind, Except.bind]
  have hnd := evalPdr_nodup heval
  -- what is linked at the end
  obtain ⟨ins, deps, ifps, outs', d1, d2, d3, d4, -⟩ := hdone
  rw [ho] at d3
  obtain rfl := Except.ok.inj d3
  have hin' : ∀ n a, (n, a) ∈ inp.toList → ∀ k, σ.graph.keyOf a = some k →
      Full env s' σ (rawOf σ r) a := fun n a hna k hk =>
    (hin n a hna k hk).mono hd.iter w2 hr' hu' w3
  obtain ⟨xs', x1, rfl, -⟩ := getInputs_spec hd.iter w2 inp hin' ins _
    (Prod.ext d1 rfl : getInputs env σ inp.toList s' = (.ok ins, _))
  rw [hx1] at x1
  obtain rfl := Except.ok.inj x1
  obtain ⟨rs', y1, rfl, -⟩ := computeDependencies_spec hd ⟨_, hg, k0, hm0⟩ d2
  rw [h1] at y1
  obtain rfl := Except.ok.inj y1
  refine full_of_placed hd hg w1 w2 hr' hu' hn heval hlog hm fun o hor => ?_
  -- some output is there
  obtain ⟨pos1, k1, i1, key1, sn1, c1, e1, e2, e3, e4⟩ :
      ∃ pos, Placed env s' σ (.mk c v inp) o pos := by
    rcases hall o hor with h | ⟨l, args, _, hb, hpl⟩
    · exact h
    · exact ⟨pos, hpl pos (ht.counts _ hg _ _ _ _ hm args l hb)⟩
  obtain ⟨q1, q2, q3⟩ := place_key e3
  have hk1 : KnownAt s' i1.sto o.fp o.key := by
    unfold linksOf at e4
    cases hgl : get? s'.links (σ, key1) with
    | none => rw [hgl] at e4; simp at e4
    | some ss =>
      rw [hgl] at e4
      obtain ⟨⟨ss', z1, z2⟩, _⟩ := w2.ok σ key1 ss hgl _ e2 sn1 e4
      exact ⟨ss', z1, sn1, z2, q2, q1⟩
  -- so this one is
  obtain ⟨ps, z1, sn, z2, z3, z4⟩ := hh'.known _ _
    ⟨_, hg, _, k1, i1, pos1, k, i, pos, e1, hm, rfl, rfl⟩ _ _ hk1
  obtain ⟨ps', key, l, u1, u2, u3, u4⟩ := d4 _ (mem_outs_of ht hg hm ho)
  have u1' : get? s'.storage i.sto = some ps' := u1
  rw [z1] at u1'
  obtain rfl := Option.some.inj u1'
  have hmatch : Matches (rs.map fun o => (o.key, o.fp)) sn := by
    right
    rw [z3, z4]
    refine (mem_iff_get? ?_).1 (List.mem_map.2 ⟨o, hor, rfl⟩)
    simp only [keys, List.map_map]; exact hnd
  have hlk := u4 sn z2 hmatch
  obtain ⟨_, r', hr'', rs', hev', o', ho', cc, hpl⟩ := w2.ok σ key l u3 _ u2 sn hlk
  rw [evalPdr_congr hd.iter (hu'.rawEq hr'' hr'), heval] at hev'
  obtain rfl := Except.ok.inj hev'
  obtain rfl := inj_of_nodup_map hnd ho' hor ((place_key hpl).1.symm.trans z4)
  exact ⟨sn, cc, key, u2, hpl, by unfold linksOf; rw [u3]; exact hlk⟩

end Arti.Spec
