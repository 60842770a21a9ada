import Verif.Lemmas.Build

/-! The inputs of a producer in a build are those of the evaluator. -/

namespace Arti.Spec
open PyDict World M
variable {κ D : Type} [DecidableEq κ] {env : Env κ D} {gs : Graph → Prop}
  {E : Snapshot → PyDict Str (Data κ) → Art → PSnap κ → Prop}

theorem LInv.linksOf_nodup {s : St κ D} (h : LInv E s) (σ : Snapshot) (k : Str) :
    (linksOf s σ k).Nodup := by
  unfold linksOf
  cases hg : get? s.links (σ, k) with
  | none => simp
  | some l => exact h.nodup _ _ l hg

/-- Evaluated inputs whose data is there. -/
inductive XGood (files : PyDict Str Str) :
    List (Str × Art) → List (Str × (ArtInfo × Data κ)) → Prop
  | nil : XGood files [] []
  | cons {n a l as xs} : (keys l).Nodup → (∀ x ∈ l, content files x.1.part.loc = some x.2) →
      XGood files as xs → XGood files ((n, a) :: as) ((n, (a.info, l)) :: xs)

theorem XGood.mono {files files' : PyDict Str Str} (hf : FSub files files')
    {as : List (Str × Art)} {xs : List (Str × (ArtInfo × Data κ))} (h : XGood files as xs) :
    XGood files' as xs := by
  induction h with
  | nil => exact .nil
  | cons h1 h2 _ ih => exact .cons h1 (fun x hx => hf.content (h2 x hx)) ih

theorem XGood.get {files : PyDict Str Str} {as : List (Str × Art)}
    {xs : List (Str × (ArtInfo × Data κ))} (h : XGood files as xs) (n : Str) :
    (get? as n = none ∧ get? xs n = none) ∨
    ∃ a l, get? as n = some a ∧ get? xs n = some (a.info, l) ∧ (keys l).Nodup ∧
      ∀ x ∈ l, content files x.1.part.loc = some x.2 := by
  induction h with
  | nil => exact .inl ⟨rfl, rfl⟩
  | @cons m a l as xs h1 h2 _ ih =>
    by_cases hm : m = n
    · right; exact ⟨a, l, by simp [get?, hm], by simp [get?, hm], h1, h2⟩
    · simpa [get?, hm] using ih

theorem getInputs_state (σ : Snapshot) (l : List (Str × Art)) (s : St κ D) :
    (getInputs env σ l s).2 = s := by
  induction l with
  | nil => rfl
  | cons x l ih =>
    obtain ⟨n, a⟩ := x
    simp only [getInputs, run_bind, M.need]
    cases σ.graph.keyOf a with
    | none => rfl
    | some k =>
      simp only [readSnapshotPartitions, run_gets]
      revert ih
      cases hr : getInputs env σ l s with
      | mk r s' =>
        intro ih
        simp only at ih
        subst ih
        cases r <;> rfl

theorem getInputs_spec (hi : IterOk env) {s : St κ D} (hl : LInv E s) {σ : Snapshot}
    {ρ : ArtInfo → Data κ} : ∀ (ins : Ins),
    (∀ n a, (n, a) ∈ ins.toList → ∀ k, σ.graph.keyOf a = some k → Full env s σ ρ a) →
    ∀ l s', getInputs env σ ins.toList s = (.ok l, s') →
    ∃ xs, evalIns env ρ ins = .ok xs ∧
      l = xs.map (fun x => (x.1, env.iter (x.2.2.map Prod.fst))) ∧ XGood s.files ins.toList xs
  | .nil, _, l, s', h => by
    simp only [Ins.toList, getInputs, run_pure, Prod.mk.injEq, Except.ok.injEq] at h
    exact ⟨[], rfl, h.1.symm, .nil⟩
  | .cons n a rest, hf, l, s', h => by
    simp only [Ins.toList, getInputs, run_bind, M.need] at h
    cases hk : σ.graph.keyOf a with
    | none => rw [hk] at h; simp at h
    | some k =>
      rw [hk] at h
      simp only [readSnapshotPartitions, run_gets] at h
      cases hr : getInputs env σ rest.toList s with
      | mk r s'' =>
        have hs : s'' = s := by have := getInputs_state (env := env) σ rest.toList s; rwa [hr] at this
        subst hs
        rw [hr] at h
        cases r with
        | error e => simp at h
        | ok r =>
          simp only [run_pure, Prod.mk.injEq, Except.ok.injEq] at h
          obtain ⟨xs, h1, h2, h3⟩ := getInputs_spec hi hl rest
            (fun n' a' h' => hf n' a' (by simp [Ins.toList, h'])) r s'' hr
          obtain ⟨k', ℓ, f1, f2, f3, f4, f5⟩ := hf n a (by simp [Ins.toList]) k hk
          rw [hk] at f1
          obtain rfl := Option.some.inj f1
          refine ⟨(n, (a.info, ℓ)) :: xs, ?_, ?_, .cons f3 f5 h3⟩
          · simp [evalIns, f2, h1, bind, Except.bind]
          · rw [← h.1, h2]
            simp only [List.map_cons, List.cons.injEq, Prod.mk.injEq, true_and, and_true]
            exact hi.ext _ _ (hl.linksOf_nodup σ k) f3 f4

/-- The contents that the program reads are those of the evaluator. -/
theorem contents_eq {files : PyDict Str Str} {l : Data κ} {ss : List (PSnap κ)}
    (h : ∀ sn ∈ ss, ∃ c, get? l sn = some c ∧ content files sn.part.loc = some c) :
    contents files ss = lookAll l ss := by
  induction ss with
  | nil => rfl
  | cons s ss ih =>
    obtain ⟨c, h1, h2⟩ := h s (by simp)
    have := ih fun sn hs => h sn (List.mem_cons_of_mem _ hs)
    simp only [contents, lookAll, h1, h2, this, orElse]
    cases lookAll l ss <;> rfl

theorem ioRead_eq {files : PyDict Str Str} {l : Data κ} {ss : List (PSnap κ)} (i : ArtInfo)
    (view : Nat) (h : ∀ sn ∈ ss, ∃ c, get? l sn = some c ∧ content files sn.part.loc = some c) :
    ioRead env files i view ss = readData env i view l ss := by
  simp only [ioRead, readData, contents_eq h]

theorem readArgs_eq {files : PyDict Str Str} {as : List (Str × Art)}
    {xs : List (Str × (ArtInfo × Data κ))} (hx : XGood files as xs)
    {d : List (Str × List (PSnap κ))}
    (hd : ∀ n ss, (n, ss) ∈ d → ∀ sn ∈ ss, ∃ i l, get? xs n = some (i, l) ∧ sn ∈ keys l)
    (ps : List (Str × Nat)) : readArgs env files as d ps = argsOf env xs d ps := by
  induction ps with
  | nil => rfl
  | cons p ps ih =>
    obtain ⟨n, v⟩ := p
    simp only [readArgs, argsOf, ih]
    rcases hx.get n with ⟨h1, h2⟩ | ⟨a, l, h1, h2, h3, h4⟩
    · rw [h1, h2]; simp [orElse, bind, Except.bind]
    · rw [h1, h2]
      cases hg : get? d n with
      | none => simp [orElse, bind, Except.bind]
      | some ss =>
        simp only [orElse, bind, Except.bind]
        rw [ioRead_eq (l := l)]
        intro sn hsn
        obtain ⟨i', l', h5, h6⟩ := hd n ss (get?_mem hg) sn hsn
        rw [h2] at h5
        simp only [Option.some.injEq, Prod.mk.injEq] at h5
        obtain ⟨rfl, rfl⟩ := h5
        obtain ⟨⟨sn', c⟩, hm, rfl⟩ := List.mem_map.1 h6
        exact ⟨c, (mem_iff_get? h3).1 hm, h4 _ hm⟩

/-- The computed fingerprints are those of the outcomes. -/
theorem outcomes_of_fps {p : Pdr} (xs : List (Str × (ArtInfo × Data κ)))
    {items : List (κ × List (Str × List (PSnap κ)))} {fps : PyDict κ Fp}
    (h : inputFingerprints env p items = .ok fps) :
    ∃ rs, outcomes env p xs items = .ok rs ∧ fps = rs.map (fun r => (r.key, r.fp)) ∧
      (∀ pk d, (pk, d) ∈ items → ∃ r ∈ rs, r.key = pk ∧
        r.outs = runBuild (cls env p) (argsOf env xs d (cls env p).buildInputs)) ∧
      (∀ r ∈ rs, ∃ d, (r.key, d) ∈ items ∧
        r.outs = runBuild (cls env p) (argsOf env xs d (cls env p).buildInputs)) := by
  induction items generalizing fps with
  | nil => simp [inputFingerprints] at h; subst h; exact ⟨[], rfl, rfl, by simp, by simp⟩
  | cons x items ih =>
    obtain ⟨pk, d⟩ := x
    unfold inputFingerprints at h
    cases hf : computeInputFingerprint env p d with
    | error e => rw [hf] at h; simp [bind, Except.bind] at h
    | ok fp =>
      rw [hf] at h
      simp only [bind, Except.bind] at h
      cases hr : inputFingerprints env p items with
      | error e => rw [hr] at h; simp at h
      | ok fps' =>
        rw [hr] at h
        simp only [Except.ok.injEq] at h
        subst h
        obtain ⟨rs, h1, h2, h3, h4⟩ := ih hr
        refine ⟨⟨pk, fp, runBuild (cls env p) (argsOf env xs d (cls env p).buildInputs)⟩ :: rs,
          ?_, ?_, ?_, ?_⟩
        · simp only [outcomes, hf, h1, bind, Except.bind]; rfl
        · simp [h2]
        · intro pk' d' hm
          rcases List.mem_cons.1 hm with hm | hm
          · simp only [Prod.mk.injEq] at hm
            obtain ⟨rfl, rfl⟩ := hm
            exact ⟨_, List.mem_cons_self .., rfl, rfl⟩
          · obtain ⟨r, hr, h⟩ := h3 pk' d' hm
            exact ⟨r, List.mem_cons_of_mem _ hr, h⟩
        · intro r hr
          rcases List.mem_cons.1 hr with rfl | hr
          · exact ⟨d, List.mem_cons_self .., rfl⟩
          · obtain ⟨d', h5, h6⟩ := h4 r hr
            exact ⟨d', List.mem_cons_of_mem _ h5, h6⟩

theorem get?_filter_key {ν : Type} (d : PyDict Str ν) (f : Str → Bool) (n : Str) (v : ν)
    (h : get? (d.filter fun x => f x.1) n = some v) : get? d n = some v := by
  induction d with
  | nil => simpa using h
  | cons x d ih =>
    obtain ⟨m, w⟩ := x
    by_cases hm : f m
    · simp only [List.filter_cons, hm, ↓reduceIte, get?] at h ⊢
      split <;> rename_i heq
      · simpa [heq] using h
      · simp only [heq, ↓reduceIte] at h; exact ih h
    · simp only [List.filter_cons, hm, Bool.false_eq_true, ↓reduceIte] at h
      simp only [get?]
      split <;> rename_i heq
      · subst heq
        have := get?_mem (ih h)
        have h' := get?_mem h
        rw [List.mem_filter] at h'
        exact absurd h'.2 hm
      · exact ih h

theorem get?_map_snd {ν ω : Type} (d : PyDict Str ν) (f : ν → ω) (n : Str) :
    get? (d.map fun x => (x.1, f x.2)) n = (get? d n).map f := by
  induction d with
  | nil => rfl
  | cons x d ih =>
    obtain ⟨m, w⟩ := x
    simp only [List.map_cons, get?]
    split <;> simp [ih]

/-- What `compute_dependencies` returns on evaluated inputs, in terms of the evaluator. -/
theorem computeDependencies_spec (hd : Disciplined env gs) {i : ArtInfo} {p : Pdr} {pos : Nat}
    (hm : Made gs i p pos) {xs : List (Str × (ArtInfo × Data κ))}
    {deps : List (κ × List (Str × List (PSnap κ)))} {fps : PyDict κ Fp}
    (h : computeDependencies env p (xs.map fun x => (x.1, env.iter (x.2.2.map Prod.fst))) =
      .ok (deps, fps)) :
    ∃ rs, evalProducer env p xs = .ok rs ∧ fps = rs.map (fun r => (r.key, r.fp)) ∧
      fps ≠ [] ∧ (keys deps).Nodup ∧
      (∀ pk d, (pk, d) ∈ deps → ∃ r ∈ rs, r.key = pk ∧
        r.outs = runBuild (cls env p) (argsOf env xs d (cls env p).buildInputs)) ∧
      (∀ r ∈ rs, ∃ d, (r.key, d) ∈ deps ∧
        r.outs = runBuild (cls env p) (argsOf env xs d (cls env p).buildInputs)) ∧
      (∀ pk d, (pk, d) ∈ deps → ∀ n ss, (n, ss) ∈ d → ∀ sn ∈ ss,
        ∃ i l, get? xs n = some (i, l) ∧ sn ∈ keys l) := by
  unfold computeDependencies at h
  simp only [bind, Except.bind] at h
  split at h
  · simp at h
  · rename_i items hmap
    cases hf : inputFingerprints env p (ofItems items) with
    | error e => rw [hf] at h; simp at h
    | ok fps' =>
      rw [hf] at h
      simp only [Except.ok.injEq, Prod.mk.injEq] at h
      obtain ⟨rfl, rfl⟩ := h
      obtain ⟨rs, h1, h2, h3, h4⟩ := outcomes_of_fps xs hf
      refine ⟨rs, ?_, h2, ?_, nodup_keys_ofItems _, h3, h4, ?_⟩
      · unfold evalProducer
        simp only [bind, Except.bind]
        have hmap' : (env.impl p.cls (env.versionFp p.ver)).map
          ((xs.map fun x => (x.1, env.iter (x.2.2.map Prod.fst))).filter fun x =>
            (env.impl p.cls (env.versionFp p.ver)).mapInputs.contains x.1) = .ok items := hmap
        rw [hmap']
        exact h1
      · have hne := hd.mapNonempty i p pos hm _ _ hmap
        obtain ⟨⟨pk, d⟩, hx⟩ := List.exists_mem_of_ne_nil _ hne
        have : pk ∈ keys (ofItems items) := (mem_keys_ofItems items pk).2
          (List.mem_map.2 ⟨_, hx, rfl⟩)
        obtain ⟨⟨pk', d'⟩, hx', rfl⟩ := List.mem_map.1 this
        obtain ⟨r, hr, _⟩ := h3 _ _ hx'
        rw [h2]
        intro hc
        rw [List.map_eq_nil_iff] at hc
        rw [hc] at hr; simp at hr
      · intro pk d hx n ss hn sn hsn
        obtain ⟨l, hl, hs⟩ := hd.mapSelects i p pos hm _ _ hmap pk d (mem_of_mem_ofItems hx)
          n ss hn sn hsn
        have hl := get?_filter_key _ (fun n => (cls env p).mapInputs.contains n) n l hl
        rw [get?_map_snd (f := fun x : ArtInfo × Data κ => env.iter (x.2.map Prod.fst))] at hl
        cases hg : get? xs n with
        | none => rw [hg] at hl; simp at hl
        | some x =>
          rw [hg] at hl
          simp only [Option.map_some, Option.some.injEq] at hl
          subst hl
          exact ⟨x.1, x.2, rfl, (hd.iter.perm _).mem_iff.1 hs⟩

end Arti.Spec
