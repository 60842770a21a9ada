import Verif.Spec.Fingerprints
import Verif.Lemmas.Ints
import Verif.Lemmas.FromGraph
import Verif.Examples.World

/-!
# Input fingerprints (C04, C05) and snapshot ids (C29)
-/

namespace Arti.Props
open PyDict World Spec

variable {κ D : Type} {env : Env κ D}

/-! ## C04 -/

/-- **C04.** The input fingerprint of a partition only depends on the producer's class, the
fingerprint of its version, the names of the dependencies, and the multiset of the content
fingerprints: not on the order of the arguments or of the partitions, nor on where they are
stored. -/
theorem C04_depends_on_contents_only (hr : FpRanges env) {p p' : Pdr}
    {deps deps' : List (Str × List (PSnap κ))}
    (hc : ∀ c ∈ depContents deps, Int64Range c)
    (hcls : p.cls = p'.cls) (hver : env.versionFp p.ver = env.versionFp p'.ver)
    (hnames : ∀ n, n ∈ keys deps ↔ n ∈ keys deps')
    (hperm : (depContents deps).Perm (depContents deps')) :
    computeInputFingerprint env p deps = computeInputFingerprint env p' deps' := by
  have hc' : ∀ c ∈ depContents deps', Int64Range c := fun c h => hc c (hperm.mem_iff.2 h)
  have hcl : cls env p = cls env p' := by simp only [cls, hcls, hver]
  have hs : sameSet (keys deps) (keys (cls env p).buildInputs) =
      sameSet (keys deps') (keys (cls env p').buildInputs) := by
    rw [Bool.eq_iff_iff, sameSet_iff, sameSet_iff, hcl]
    exact forall_congr' fun x => by rw [hnames x]
  unfold computeInputFingerprint
  rw [hs]
  split
  · have e1 : (deps.flatMap fun x => x.2.map PSnap.contentFp) = depContents deps := rfl
    have e2 : (deps'.flatMap fun x => x.2.map PSnap.contentFp) = depContents deps' := rfl
    simp only [e1, e2]
    rw [fpCombine_eq _ _ (hr.str _) (by
        intro o ho; rcases List.mem_cons.1 ho with rfl | ho
        · exact hr.ver _
        · exact hc o ho),
      fpCombine_eq _ _ (hr.str _) (by
        intro o ho; rcases List.mem_cons.1 ho with rfl | ho
        · exact hr.ver _
        · exact hc' o ho), hcls, hver]
    congr 1
    exact signedXor_perm ((hperm.cons _).cons _)
  · rfl

/-- **C04.** Replacing the content fingerprint of exactly one partition by a different one changes
the input fingerprint. -/
theorem C04_single_change (hr : FpRanges env) {p : Pdr}
    {pre post : List (Str × List (PSnap κ))} {n : Str} {l r : List (PSnap κ)} {x y : PSnap κ}
    (hc : ∀ c ∈ depContents (pre ++ (n, l ++ x :: r) :: post), Int64Range c)
    (hy : Int64Range y.contentFp) (hne : x.contentFp ≠ y.contentFp) {f f' : Fp}
    (h : computeInputFingerprint env p (pre ++ (n, l ++ x :: r) :: post) = .ok f)
    (h' : computeInputFingerprint env p (pre ++ (n, l ++ y :: r) :: post) = .ok f') : f ≠ f' := by
  have split : ∀ z : PSnap κ, depContents (pre ++ (n, l ++ z :: r) :: post) =
      (depContents pre ++ l.map PSnap.contentFp) ++
        z.contentFp :: (r.map PSnap.contentFp ++ depContents post) := by
    intro z; simp [depContents]
  have hx : Int64Range x.contentFp := hc _ (by rw [split]; simp)
  have hcy : ∀ c ∈ depContents (pre ++ (n, l ++ y :: r) :: post), Int64Range c := by
    intro c hcm
    rw [split] at hcm
    rcases List.mem_append.1 hcm with h1 | h1
    · exact hc c (by rw [split]; exact List.mem_append.2 (.inl h1))
    · rcases List.mem_cons.1 h1 with rfl | h1
      · exact hy
      · exact hc c (by rw [split]; exact List.mem_append.2 (.inr (List.mem_cons_of_mem _ h1)))
  have val : ∀ z : PSnap κ, (∀ c ∈ depContents (pre ++ (n, l ++ z :: r) :: post), Int64Range c) →
      ∀ g, computeInputFingerprint env p (pre ++ (n, l ++ z :: r) :: post) = .ok g →
      g = signedXor ((env.strHash p.cls :: env.versionFp p.ver ::
        (depContents pre ++ l.map PSnap.contentFp)) ++
        z.contentFp :: (r.map PSnap.contentFp ++ depContents post)) := by
    intro z hz g hg
    unfold computeInputFingerprint at hg
    split at hg
    · have e1 : ((pre ++ (n, l ++ z :: r) :: post).flatMap fun x => x.2.map PSnap.contentFp) =
        depContents (pre ++ (n, l ++ z :: r) :: post) := rfl
      simp only [e1] at hg
      rw [fpCombine_eq _ _ (hr.str _) (by
        intro o ho; rcases List.mem_cons.1 ho with rfl | ho
        · exact hr.ver _
        · exact hz o ho), Except.ok.injEq, split] at hg
      rw [← hg]; rfl
    · simp at hg
  intro he
  apply hne
  have h1 := val x hc f h
  have h2 := val y hcy f' h'
  exact signedXor_change_one _ _ hx hy (by rw [← h1, ← h2, he])

/-! ## C05 -/

/-- **C05** does not hold: for every producer with two build inputs, swapping the contents of the
two arguments does not change the input fingerprint. -/
theorem C05_violated_by_swapped_arguments (hr : FpRanges env) (p : Pdr) (n m : Str)
    (x y x' y' : PSnap κ) (hx : Int64Range x.contentFp) (hy : Int64Range y.contentFp)
    (hx' : x'.contentFp = y.contentFp) (hy' : y'.contentFp = x.contentFp) :
    computeInputFingerprint env p [(n, [x]), (m, [y])] =
      computeInputFingerprint env p [(n, [x']), (m, [y'])] := by
  refine C04_depends_on_contents_only hr ?_ rfl rfl (fun _ => by simp [keys]) ?_
  · intro c hc
    simp only [depContents, List.flatMap_cons, List.flatMap_nil, List.map_cons, List.map_nil,
      List.append_nil, List.cons_append, List.nil_append, List.mem_cons, List.not_mem_nil,
      or_false] at hc
    rcases hc with rfl | rfl
    · exact hx
    · exact hy
  · simp only [depContents, List.flatMap_cons, List.flatMap_nil, List.map_cons, List.map_nil,
      List.append_nil, List.cons_append, List.nil_append, hx', hy']
    exact List.Perm.swap ..

/-- **C05** does not hold: if two partitions have the same content, changing both to another
common content does not change the input fingerprint. -/
theorem C05_violated_by_equal_contents (hr : FpRanges env) (p : Pdr) (n m : Str)
    (x y x' y' : PSnap κ) (hx : Int64Range x.contentFp) (hx' : Int64Range x'.contentFp)
    (hxy : x.contentFp = y.contentFp) (hxy' : x'.contentFp = y'.contentFp) :
    computeInputFingerprint env p [(n, [x]), (m, [y])] =
      computeInputFingerprint env p [(n, [x']), (m, [y'])] := by
  have key : ∀ u v : PSnap κ, Int64Range u.contentFp → u.contentFp = v.contentFp →
      fpCombine (env.strHash p.cls) [env.versionFp p.ver, u.contentFp, v.contentFp] =
        .ok (signedXor [env.strHash p.cls, env.versionFp p.ver]) := by
    intro u v hu huv
    rw [fpCombine_eq _ _ (hr.str _) (by
      intro o ho
      simp only [List.mem_cons, List.not_mem_nil, or_false] at ho
      rcases ho with rfl | rfl | rfl
      · exact hr.ver _
      · exact hu
      · exact huv ▸ hu)]
    simp [signedXor, xorAll, huv]
  unfold computeInputFingerprint
  simp only [keys, List.map_cons, List.map_nil, List.flatMap_cons, List.flatMap_nil,
    List.append_nil, List.cons_append, List.nil_append]
  rw [key x y hx hxy, key x' y' hx' hxy']

/-- **C05**, for changes of one partition: a different content of one partition of one argument
gives a different input fingerprint.  Missing: several changes at once, for which it does not hold
(`C05_violated_by_swapped_arguments`, `C05_violated_by_equal_contents`). -/
theorem C05_one_changed_partition_partial (hr : FpRanges env) {p : Pdr}
    {pre post : List (Str × List (PSnap κ))} {n : Str} {l r : List (PSnap κ)} {x y : PSnap κ}
    (hc : ∀ c ∈ depContents (pre ++ (n, l ++ x :: r) :: post), Int64Range c)
    (hy : Int64Range y.contentFp) (hne : x.contentFp ≠ y.contentFp) :
    ¬ ∃ f, computeInputFingerprint env p (pre ++ (n, l ++ x :: r) :: post) = .ok f ∧
      computeInputFingerprint env p (pre ++ (n, l ++ y :: r) :: post) = .ok f := by
  rintro ⟨f, h, h'⟩
  exact C04_single_change hr hc hy hne h h' rfl

/-! ### A stale output -/

namespace Ex05
open Ex

/-- `build(x, y) = x + y` -/
def pair : PClass Nat Str where
  buildInputs := [(['x'], 0), (['y'], 0)]
  mapInputs := [['x'], ['y']]
  outputs := [0]
  map ins := .ok [(0, ins)]
  build args := .ok [((get? args ['x']).getD []) ++ ((get? args ['y']).getD [])]
  validate _ := .ok true

def pairEnv : Env Nat Str := { Ex.env with
  impl := fun _ _ => pair
  snapFp := fun sn => hash (sn.part.sto.tmpl.text ++ '/' :: intToStr sn.contentFp) }

def x : Art := .raw ⟨0, false, .file ⟨"x".toList, false⟩⟩
def y : Art := .raw ⟨0, false, .file ⟨"y".toList, false⟩⟩
def p : Pdr := .mk ['P'] ['1'] (.cons ['x'] x (.cons ['y'] y .nil))
def z : Art := .made ⟨0, false, .file ⟨"z{input_fingerprint}".toList, false⟩⟩ p 0
def g : Graph := ⟨['g'], [(['x'], x), (['y'], y), (['z'], z)], []⟩

def s0 : St Nat Str :=
  ⟨[(['x'], ['1']), (['y'], ['2', '3'])], [], [], [], [], [], none, [], [], []⟩

/-- Build, then swap the contents of the raw files. -/
def s1 : St Nat Str := runOps pairEnv s0 [.build g none, .put ['x'] ['2', '3'], .put ['y'] ['1']]

def r1 := graphBuild pairEnv g s1

end Ex05

/-- **C05** does not hold: after the contents of two inputs are swapped, a build succeeds and links
the stale output: `x` is `23` and `y` is `1`, but their concatenation is read as `123`. -/
theorem C05_violated_by_stale_output : ∃ σ, Ex05.r1.1 = .ok σ ∧
    (readSnapshotData Ex05.pairEnv σ Ex05.x 0 Ex05.r1.2).1 = .ok ['2', '3'] ∧
    (readSnapshotData Ex05.pairEnv σ Ex05.y 0 Ex05.r1.2).1 = .ok ['1'] ∧
    (readSnapshotData Ex05.pairEnv σ Ex05.z 0 Ex05.r1.2).1 = .ok ['1', '2', '3'] ∧
    Ex05.pair.build [(['x'], ['2', '3']), (['y'], ['1'])] = .ok [['2', '3', '1']] := by
  have h : ∃ σ, Ex05.r1.1 = .ok σ := by
    cases hr : Ex05.r1.1 with
    | ok σ => exact ⟨σ, rfl⟩
    | error e =>
      exact absurd hr (by
        have : (match Ex05.r1.1 with | .ok _ => true | .error _ => false) = true := by
          decide +kernel
        intro h; rw [h] at this; simp at this)
  obtain ⟨σ, hσ⟩ := h
  have read : ∀ a v, (match Ex05.r1.1 with
      | .ok σ => decide ((readSnapshotData Ex05.pairEnv σ a 0 Ex05.r1.2).1 = .ok v)
      | .error _ => false) = true → (readSnapshotData Ex05.pairEnv σ a 0 Ex05.r1.2).1 = .ok v := by
    intro a v h
    rw [hσ] at h
    exact of_decide_eq_true h
  exact ⟨σ, hσ, read _ _ (by decide +kernel), read _ _ (by decide +kernel),
    read _ _ (by decide +kernel), by decide +kernel⟩

/-! ## C29 -/

section C29
variable [DecidableEq κ]

/-- What a node adds to the snapshot id. -/
private def parts (env : Env κ D) (files : PyDict Str Str) (g : Graph) : Nd → List Fp
  | .pdr p => [env.nodeFp (.pdr p)]
  | .art a => env.nodeFp (.art a) :: env.strHash ((g.keyOf a).getD []) ::
    (match a with
    | .made _ _ _ => []
    | .raw i => match discover env files i.sto [] with
      | .ok ps => ps.map env.snapFp
      | .error _ => [])

private theorem signedXor_flat (l r : List Int) :
    signedXor (signedXor l :: r) = signedXor (l ++ r) := by
  simp [signedXor, xorAll_append, xorAll_cons]

private theorem parts_range (hr : FpRanges env) (files : PyDict Str Str) (g : Graph) (n : Nd) :
    ∀ c ∈ parts env files g n, Int64Range c := by
  intro c hc
  unfold parts at hc
  split at hc
  · rw [List.mem_singleton.1 hc]; exact hr.node _
  · rcases List.mem_cons.1 hc with rfl | hc
    · exact hr.node _
    · rcases List.mem_cons.1 hc with rfl | hc
      · exact hr.str _
      · split at hc
        · simp at hc
        · split at hc
          · obtain ⟨sn, _, rfl⟩ := List.mem_map.1 hc
            exact hr.snap _
          · simp at hc

private theorem scanNodes_id (hr : FpRanges env) {files : PyDict Str Str} {g : Graph} :
    ∀ (nodes : List Nd) (fp fp' : Fp) (known known' : PyDict Str (List (PSnap κ))),
    Int64Range fp → scanNodes env files g nodes fp known = .ok (fp', known') →
    fp' = signedXor (fp :: nodes.flatMap (parts env files g))
  | [], fp, fp', known, known', hfp, h => by
    simp only [scanNodes, Except.ok.injEq, Prod.mk.injEq] at h
    rw [← h.1, List.flatMap_nil, signedXor, List.map_cons, List.map_nil, xorAll_cons, xorAll,
      BitVec.xor_zero, toInt_ofInt_range hfp]
  | n :: rest, fp, fp', known, known', hfp, h => by
    simp only [scanNodes, bind, Except.bind] at h
    rw [fpCombine_eq [env.nodeFp n] _ hfp (by simp; exact hr.node _)] at h
    simp only at h
    cases n with
    | pdr p =>
      have := scanNodes_id hr rest _ _ _ _ (signedXor_range _) h
      rw [this, signedXor_flat]; rfl
    | art a =>
      simp only at h
      cases hka : g.keyOf a with
      | none => rw [hka] at h; simp at h
      | some key =>
        rw [hka] at h
        simp only at h
        rw [fpCombine_eq _ _ (signedXor_range _) (by simp; exact hr.str _)] at h
        simp only at h
        cases a with
        | made j p pos =>
          have := scanNodes_id hr rest _ _ _ _ (signedXor_range _) h
          rw [this, signedXor_flat, List.cons_append, signedXor_flat]
          simp [parts, hka]
        | raw j =>
          simp only [Art.out, Art.info] at h
          cases hd : discover env files j.sto [] with
          | error e => rw [hd] at h; simp at h
          | ok ps =>
            rw [hd] at h
            simp only at h
            split at h
            · simp at h
            · rw [fpCombine_eq _ _ (signedXor_range _) (by
                intro o ho
                obtain ⟨sn, _, rfl⟩ := List.mem_map.1 ho
                exact hr.snap _)] at h
              simp only at h
              have := scanNodes_id hr rest _ _ _ _ (signedXor_range _) h
              rw [this, signedXor_flat, List.cons_append, signedXor_flat, List.cons_append,
                signedXor_flat]
              simp [parts, hka, hd]

private theorem fromGraph_id (hr : FpRanges env) {g : Graph} {s s' : St κ D} {σ : Snapshot}
    (h : fromGraph env g s = (.ok σ, s')) : σ.id =
      signedXor (env.graphFp g :: (keys g.dependencies).flatMap (parts env s.files g)) := by
  unfold fromGraph at h
  simp only [M.run_bind, M.run_gets, M.run_lift] at h
  cases hsc : scanNodes env s.files g (keys g.dependencies) (env.graphFp g) [] with
  | error e => rw [hsc] at h; simp at h
  | ok out =>
    obtain ⟨fp, known⟩ := out
    rw [hsc] at h
    simp only [M.run_ghost] at h
    have := scanNodes_id hr _ _ _ _ _ (hr.graph g) hsc
    split at h
    · split at h
      · split at h
        · simp only [M.run_pure, Prod.mk.injEq, Except.ok.injEq] at h
          rw [← h.1]; exact this
        · simp at h
      · simp at h
    · simp at h

private theorem nodup_keys_dependencies (g : Graph) : (keys g.dependencies).Nodup :=
  nodup_keys_ofItems _

private theorem mem_keys_dependencies (g : Graph) (n : Nd) : n ∈ keys g.dependencies ↔
    (∃ k a, (k, a) ∈ g.arts ∧ n = .art a) ∨
    ∃ k i p pos, (k, Art.made i p pos) ∈ g.arts ∧ n = .pdr p := by
  constructor
  · intro h
    obtain ⟨⟨x, ps⟩, hm, rfl⟩ := List.mem_map.1 h
    rcases (Graph.mem_dependencies g _ _).1 hm with ⟨k, a, h1, h2, _⟩ | ⟨k, i, p, pos, h1, h2, _⟩
    · exact .inl ⟨k, a, h1, h2⟩
    · exact .inr ⟨k, i, p, pos, h1, h2⟩
  · rintro (⟨k, a, h1, rfl⟩ | ⟨k, i, p, pos, h1, rfl⟩)
    · exact List.mem_map.2 ⟨_, (Graph.mem_dependencies g _ _).2 (.inl ⟨k, a, h1, rfl, rfl⟩), rfl⟩
    · exact List.mem_map.2
        ⟨_, (Graph.mem_dependencies g _ _).2 (.inr ⟨k, i, p, pos, h1, rfl, rfl⟩), rfl⟩

private theorem keyOf_perm {g g' : Graph} (hp : g.arts.Perm g'.arts)
    (hn : (g.arts.map Prod.snd).Nodup) (a : Art) : g.keyOf a = g'.keyOf a := by
  have hk : ∀ g : Graph, keys (g.arts.map fun x => (x.2, x.1)) = g.arts.map Prod.snd := by
    intro g; simp [keys, Function.comp_def]
  unfold Graph.keyOf
  rw [get?_ofItems_nodup (by rw [hk]; exact hn),
    get?_ofItems_nodup (by rw [hk]; exact (hp.map Prod.snd).nodup_iff.1 hn)]
  have hpm := hp.map fun x => (x.2, x.1)
  cases h : get? (g.arts.map fun x => (x.2, x.1)) a with
  | none =>
    rw [get?_eq_none_iff, hk] at h
    exact ((get?_eq_none_iff _ _).2 (by
      rw [hk]; intro hm; exact h ((hp.map Prod.snd).mem_iff.2 hm))).symm
  | some k =>
    exact (get?_of_mem (by rw [hk]; exact (hp.map Prod.snd).nodup_iff.1 hn)
      (hpm.mem_iff.1 (get?_mem h))).symm

private theorem perm_flatMap {α β : Type} {l l' : List α} {f f' : α → List β} (h : l.Perm l')
    (hf : ∀ a ∈ l, (f a).Perm (f' a)) : (l.flatMap f).Perm (l'.flatMap f') := by
  refine List.Perm.trans ?_ (h.flatMap_right f')
  clear h
  induction l with
  | nil => exact .refl _
  | cons a l ih =>
    simp only [List.flatMap_cons]
    exact (hf a (by simp)).append (ih fun b hb => hf b (List.mem_cons_of_mem _ hb))

private theorem scan_disc {files : PyDict Str Str} {g : Graph} :
    ∀ (nodes : List Nd) (fp fp' : Fp) (known known' : PyDict Str (List (PSnap κ))),
    scanNodes env files g nodes fp known = .ok (fp', known') →
    ∀ i, Nd.art (.raw i) ∈ nodes → ∃ ps, discover env files i.sto [] = .ok ps
  | [], _, _, _, _, _ => by simp
  | n :: rest, fp, fp', known, known', h => by
    intro i hi
    simp only [scanNodes, bind, Except.bind] at h
    cases h1 : fpCombine fp [env.nodeFp n] with
    | error e => rw [h1] at h; simp at h
    | ok fp1 =>
      rw [h1] at h
      simp only at h
      cases n with
      | pdr p => exact scan_disc rest _ _ _ _ h i (by simpa using hi)
      | art a =>
        simp only at h
        cases hka : g.keyOf a with
        | none => rw [hka] at h; simp at h
        | some key =>
          rw [hka] at h
          simp only at h
          cases h2 : fpCombine fp1 [env.strHash key] with
          | error e => rw [h2] at h; simp at h
          | ok fp2 =>
            rw [h2] at h
            simp only at h
            cases a with
            | made j p pos => exact scan_disc rest _ _ _ _ h i (by simpa using hi)
            | raw j =>
              simp only [Art.out, Art.info] at h
              cases hd : discover env files j.sto [] with
              | error e => rw [hd] at h; simp at h
              | ok ps =>
                rw [hd] at h
                simp only at h
                split at h
                · simp at h
                · split at h
                  · simp at h
                  · rcases List.mem_cons.1 hi with heq | hi
                    · simp only [Nd.art.injEq, Art.raw.injEq] at heq
                      subst heq
                      exact ⟨ps, hd⟩
                    · exact scan_disc rest _ _ _ _ h i hi

/-- **C29.** The id of a snapshot only depends on the fingerprint of the graph and on the
partitions discovered for each raw artifact: not on the order of the artifacts in the graph, nor
on the order in which partitions are discovered, nor on anything else in the world. -/
theorem C29_order_is_irrelevant (hr : FpRanges env) {g g' : Graph}
    (hfp : env.graphFp g = env.graphFp g') (harts : g.arts.Perm g'.arts)
    (hdist : (g.arts.map Prod.snd).Nodup) {s t s' t' : St κ D} {σ τ : Snapshot}
    (hdisc : ∀ i ∈ rawInfos g, ∀ ps ps', discover env s.files i.sto [] = .ok ps →
      discover env t.files i.sto [] = .ok ps' → ps.Perm ps')
    (hs : fromGraph env g s = (.ok σ, s')) (ht : fromGraph env g' t = (.ok τ, t')) :
    σ.id = τ.id := by
  have disc_ok : ∀ {g : Graph} {s s' : St κ D} {σ : Snapshot},
      fromGraph env g s = (.ok σ, s') → (g.arts.map Prod.snd).Nodup → ∀ i ∈ rawInfos g,
      ∃ ps, discover env s.files i.sto [] = .ok ps := by
    intro g s s' σ h hnd i hi
    unfold fromGraph at h
    simp only [M.run_bind, M.run_gets, M.run_lift] at h
    cases hsc : scanNodes env s.files g (keys g.dependencies) (env.graphFp g) [] with
    | error e => rw [hsc] at h; simp at h
    | ok out =>
      obtain ⟨fp, known⟩ := out
      exact scan_disc _ _ _ _ _ hsc i (by
        rw [mem_keys_dependencies]
        obtain ⟨⟨k, a⟩, h1, h2⟩ := List.mem_filterMap.1 hi
        cases a with
        | made _ _ _ => simp at h2
        | raw j =>
          simp only [Option.some.injEq] at h2
          exact .inl ⟨k, .raw i, by rw [← h2]; exact h1, rfl⟩)
  have hd' : (g'.arts.map Prod.snd).Nodup := (harts.map Prod.snd).nodup_iff.1 hdist
  have hri : ∀ i, i ∈ rawInfos g ↔ i ∈ rawInfos g' := fun i => (harts.filterMap _).mem_iff
  rw [fromGraph_id hr hs, fromGraph_id hr ht, hfp]
  refine signedXor_perm (List.Perm.cons _ (perm_flatMap ?_ ?_))
  · refine (List.perm_ext_iff_of_nodup (nodup_keys_dependencies g)
      (nodup_keys_dependencies g')).2 fun n => ?_
    rw [mem_keys_dependencies, mem_keys_dependencies]
    simp only [harts.mem_iff]
  · intro n hn
    cases n with
    | pdr p => exact .refl _
    | art a =>
      simp only [parts, keyOf_perm harts hdist a]
      refine List.Perm.cons _ (List.Perm.cons _ ?_)
      cases a with
      | made _ _ _ => exact .refl _
      | raw i =>
        have hi : i ∈ rawInfos g := by
          rcases (mem_keys_dependencies g _).1 hn with ⟨k, a, h1, h2⟩ | ⟨_, _, _, _, _, h2⟩
          · simp only [Nd.art.injEq] at h2
            exact List.mem_filterMap.2 ⟨(k, a), h1, by rw [← h2]⟩
          · simp at h2
        obtain ⟨ps, h1⟩ := disc_ok hs hdist i hi
        obtain ⟨ps', h2⟩ := disc_ok ht hd' i ((hri i).1 hi)
        simp only [h1, h2]
        exact (hdisc i hi ps ps' h1 h2).map _

/-- **C29.** Changing the content of exactly one partition of one raw artifact changes the id: `x`
and `y` are the old and the new snapshot of the partition, whose fingerprints are assumed not to
collide. -/
theorem C29_single_change (hr : FpRanges env) {g : Graph} {s t s' t' : St κ D} {σ τ : Snapshot}
    {i : ArtInfo} (hi : i ∈ rawInfos g) {l r : List (PSnap κ)} {x y : PSnap κ}
    (hx : discover env s.files i.sto [] = .ok (l ++ x :: r))
    (hy : discover env t.files i.sto [] = .ok (l ++ y :: r))
    (hne : env.snapFp x ≠ env.snapFp y)
    (hrest : ∀ j ∈ rawInfos g, j ≠ i →
      discover env s.files j.sto [] = discover env t.files j.sto [])
    (hs : fromGraph env g s = (.ok σ, s')) (ht : fromGraph env g t = (.ok τ, t')) :
    σ.id ≠ τ.id := by
  have hmem : Nd.art (.raw i) ∈ keys g.dependencies := by
    rw [mem_keys_dependencies]
    obtain ⟨⟨k, a⟩, h1, h2⟩ := List.mem_filterMap.1 hi
    cases a with
    | made _ _ _ => simp at h2
    | raw j =>
      simp only [Option.some.injEq] at h2
      exact .inl ⟨k, .raw i, by rw [← h2]; exact h1, rfl⟩
  obtain ⟨u, v, huv⟩ := List.append_of_mem hmem
  have hnd := nodup_keys_dependencies g
  rw [huv, List.nodup_append] at hnd
  have hsame : ∀ n ∈ keys g.dependencies, n ≠ .art (.raw i) →
      parts env s.files g n = parts env t.files g n := by
    intro n hn hni
    cases n with
    | pdr p => rfl
    | art a =>
      cases a with
      | made _ _ _ => rfl
      | raw j =>
        have hj : j ∈ rawInfos g := by
          rcases (mem_keys_dependencies g _).1 hn with ⟨k, a, h1, h2⟩ | ⟨_, _, _, _, _, h2⟩
          · simp only [Nd.art.injEq] at h2
            exact List.mem_filterMap.2 ⟨(k, a), h1, by rw [← h2]⟩
          · simp at h2
        unfold parts
        simp only [hrest j hj (by rintro rfl; exact hni rfl)]
  have hu : u.flatMap (parts env s.files g) = u.flatMap (parts env t.files g) := by
    rw [List.flatMap_def, List.flatMap_def]
    congr 1
    refine List.map_congr_left fun n hn => hsame n (by rw [huv]; simp [hn]) ?_
    rintro rfl
    exact hnd.2.2 _ hn _ (by simp) rfl
  have hv : v.flatMap (parts env s.files g) = v.flatMap (parts env t.files g) := by
    rw [List.flatMap_def, List.flatMap_def]
    congr 1
    refine List.map_congr_left fun n hn => hsame n (by rw [huv]; simp [hn]) ?_
    rintro rfl
    exact (List.nodup_cons.1 hnd.2.1).1 hn
  have shape : ∀ (files : PyDict Str Str) (z : PSnap κ),
      discover env files i.sto [] = .ok (l ++ z :: r) →
      env.graphFp g :: (keys g.dependencies).flatMap (parts env files g) =
      (env.graphFp g :: (u.flatMap (parts env files g) ++ (env.nodeFp (.art (.raw i)) ::
        env.strHash ((g.keyOf (.raw i)).getD []) :: l.map env.snapFp))) ++
      env.snapFp z :: (r.map env.snapFp ++ v.flatMap (parts env files g)) := by
    intro files z hz
    rw [huv]
    simp [parts, hz]
  intro he
  rw [fromGraph_id hr hs, fromGraph_id hr ht, shape _ _ hx, shape _ _ hy, hu, hv] at he
  exact hne (signedXor_change_one _ _ (hr.snap _) (hr.snap _) he)

end C29

/-! ### Concrete cases that meet the hypotheses -/

namespace ExFp
open Ex

theorem hash_range (s : Str) : Int64Range (Ex.hash s) := by
  have : ∀ (s : Str) (n : Nat), n ≤ 1000003 →
      s.foldl (fun h c => (h * 31 + c.toNat) % 1000003) n ≤ 1000003 := by
    intro s
    induction s with
    | nil => exact fun n h => h
    | cons c s ih => exact fun n _ => ih _ (by show (n * 31 + c.toNat) % 1000003 ≤ _; omega)
  have := this s 7 (by omega)
  unfold Ex.hash Int64Range
  omega

theorem ranges : FpRanges Ex.env where
  str := hash_range
  ver := hash_range
  node n := by
    cases n with
    | art a => show Int64Range 1; decide
    | pdr p => exact hash_range _
  graph g := hash_range _
  snap s := hash_range _

def sn (k : Nat) (c : Fp) : PSnap Nat :=
  ⟨c, ⟨.file ⟨['a'], true⟩, none, k, .file (['a', '~'] ++ natToStr 10 k)⟩⟩

def p : Pdr := .mk ['E'] ['1'] .nil

/-- Partitions in another order, stored elsewhere, have the same input fingerprint, which is a
number; a different content of one partition has another one. -/
example : computeInputFingerprint Ex.env p [(['x'], [sn 1 5, sn 2 6])] =
      computeInputFingerprint Ex.env p [(['x'], [sn 3 6, sn 4 5])] ∧
    computeInputFingerprint Ex.env p [(['x'], [sn 1 5, sn 2 6])] = .ok 23 ∧
    (∀ f f', computeInputFingerprint Ex.env p [(['x'], [sn 1 5, sn 2 6])] = .ok f →
      computeInputFingerprint Ex.env p [(['x'], [sn 1 5, sn 2 7])] = .ok f' → f ≠ f') := by
  refine ⟨C04_depends_on_contents_only ranges (by decide) rfl rfl (fun _ => Iff.rfl) (by decide),
    by decide +kernel, fun f f' h h' => ?_⟩
  exact C04_single_change (pre := []) (post := []) (l := [sn 1 5]) (r := []) ranges (by decide)
    (by decide) (by decide) h h'

def a : Art := .raw ⟨0, true, .file ⟨['a'], true⟩⟩
def b : Art := .made ⟨0, true, .file ⟨"b{input_fingerprint}".toList, true⟩⟩
  (.mk ['E'] ['1'] (.cons ['x'] a .nil)) 0
def g : Graph := ⟨['g'], [(['b'], b), (['a'], a)], []⟩
def g' : Graph := ⟨['g'], [(['a'], a), (['b'], b)], []⟩
def st (files : PyDict Str Str) : St Nat Str := ⟨files, [], [], [], [], [], none, [], [], []⟩
def f1 : PyDict Str Str := [("a~1".toList, ['u']), ("a~2".toList, ['v'])]
def f2 : PyDict Str Str := [("a~2".toList, ['v']), ("a~1".toList, ['u'])]
def f3 : PyDict Str Str := [("a~1".toList, ['w']), ("a~2".toList, ['v'])]

/-- The same files in another order and the same artifacts in another order have the same snapshot
id; another content has another one. -/
example (σ τ υ : Snapshot) (h1 : (fromGraph Ex.env g (st f1)).1 = .ok σ)
    (h2 : (fromGraph Ex.env g' (st f2)).1 = .ok τ) (h3 : (fromGraph Ex.env g (st f3)).1 = .ok υ) :
    σ.id = τ.id ∧ σ.id ≠ υ.id := by
  constructor
  · refine C29_order_is_irrelevant (g := g) (g' := g') ranges rfl (List.Perm.swap ..)
      (by decide) ?_
      (Prod.ext h1 rfl) (Prod.ext h2 rfl)
    intro i hi ps ps' d1 d2
    have : i = a.info := by simpa [rawInfos, g, a, b, Art.info] using hi
    subst this
    have e1 : discover Ex.env f1 a.info.sto [] = .ok [sn 1 (Ex.hash ['u']), sn 2 (Ex.hash ['v'])] := by
      decide +kernel
    have e2 : discover Ex.env f2 a.info.sto [] = .ok [sn 2 (Ex.hash ['v']), sn 1 (Ex.hash ['u'])] := by
      decide +kernel
    rw [show (st f1).files = f1 from rfl, e1] at d1
    rw [show (st f2).files = f2 from rfl, e2] at d2
    cases d1
    cases d2
    exact List.Perm.swap ..
  · refine C29_single_change (i := a.info) (l := []) (r := [sn 2 (Ex.hash ['v'])])
      (x := sn 1 (Ex.hash ['u'])) (y := sn 1 (Ex.hash ['w'])) ranges (by decide)
      (by decide +kernel) (by decide +kernel) (by decide +kernel) ?_
      (Prod.ext h1 rfl) (Prod.ext h3 rfl)
    intro j hj hne
    have : j = a.info := by simpa [rawInfos, g, a, b, Art.info] using hj
    exact absurd this hne

/-- All three snapshots can be taken. -/
example : (fromGraph Ex.env g (st f1)).1.isOk ∧ (fromGraph Ex.env g' (st f2)).1.isOk ∧
    (fromGraph Ex.env g (st f3)).1.isOk := by decide +kernel

end ExFp

end Arti.Props
