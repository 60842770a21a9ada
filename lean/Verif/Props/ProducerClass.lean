import Verif.Lemmas.ProducerClass
import Verif.Props.Fingerprints
import Verif.Lemmas.Ints
import Verif.Examples.World

/-!
# Producer classes (C06, C53)
-/

namespace Arti.Props
open PyDict Spec PCls

variable {H : Type} [DecidableEq H] {henv : Hints H}

/-! ## C53 -/

/-- **C53.** For every class that is accepted, however its attributes were inherited: `build` exists
and every parameter of it other than `cls` and `self` is a field and is passed by keyword; the same
holds for `map`, whose parameters are hinted as partitions; every field is a parameter of one of
them, and is a required artifact; there is at least one output, each output belongs to one return
hint, and all have the same partition fields. -/
theorem C53_fields_parameters_and_outputs {a : Attrs H} {i : Option (Derived H)} {c : Cls H}
    (h : initSubclass henv a i = .ok c) (hc : a.abstract = false) :
    ∃ f r m d, a.build = some f ∧ f.ret = some r ∧ c.attrs.map = some m ∧ c.derived = some d ∧
      (∀ p ∈ f.params, ¬ IsOwner p.name → p.name ∈ keys a.fields ∧ Keyword p) ∧
      (∀ g, m = .user g → ∀ p ∈ g.params, ¬ IsOwner p.name →
        p.name ∈ keys a.fields ∧ Keyword p ∧ p.hint = some henv.partitions) ∧
      (∀ n ∈ mapNames m, ¬ IsOwner n → n ∈ keys a.fields) ∧
      (∀ n fd, (n, fd) ∈ a.fields →
        (n ∈ f.params.map (·.name) ∨ n ∈ mapNames m) ∧
        henv.optional fd.hint = false ∧ fd.required = true ∧ henv.isArtifact fd.hint = true) ∧
      d.outputs ≠ [] ∧ List.Forall₂ (fun h v => henv.writeView h = .ok v) (henv.tuple r) d.outputs ∧
      ((∀ v ∈ d.outputs, ∀ fs, v.fields = some fs → (keys fs).Nodup) →
        ∀ v ∈ d.outputs, ∀ w ∈ d.outputs, ∀ n, scheme henv v n = scheme henv w n) := by
  obtain ⟨inputs, sig, hints, bi, outs, m, msig, names, h1, h2, h3, h4, h5, rfl⟩ :=
    initSubclass_ok h hc
  obtain ⟨rfl, hf⟩ := validateFields_ok h1
  obtain ⟨f, r, hb, _, rfl, hr, rfl, hp, _, _, ho, hne, ks, hks, hss⟩ := validateBuild_ok h2
  obtain ⟨rfl, _, _, hm, _, _⟩ := validateMap_ok h4
  refine ⟨f, r, m, _, hb, hr, rfl, rfl, ?_, ?_, ?_, ?_, hne, ho, fun hnd => sameScheme_get hks hss hnd⟩
  · intro p hpm hno
    have := hp p (mem_sig.2 ⟨hpm, hno⟩)
    rwa [keys_inputs] at this
  · rintro g rfl p hpm hno
    have := hm p (mem_sig.2 ⟨hpm, hno⟩)
    rwa [keys_inputs] at this
  · intro n hn hno
    cases m with
    | user g =>
      obtain ⟨p, hpm, rfl⟩ := List.mem_map.1 hn
      have := (hm p (mem_sig.2 ⟨hpm, hno⟩)).1
      rwa [keys_inputs] at this
    | gen ns =>
      have : (⟨n, some (if n = "kwargs".toList then henv.snapshots else henv.partitions), false,
          .kwOnly⟩ : Param H) ∈ (MapAttr.gen ns : MapAttr H).sig henv := by
        rw [MapAttr.sig, List.mem_filter]
        refine ⟨List.mem_map.2 ⟨n, hn, rfl⟩, ?_⟩
        simpa [IsOwner] using hno
      have := (hm _ this).1
      rwa [keys_inputs] at this
  · intro n fd hfd
    refine ⟨?_, hf n fd hfd⟩
    simp only [noUnusedFields] at h5
    split at h5
    · rename_i hall
      rw [List.all_eq_true] at hall
      have hk := hall n (by rw [keys_inputs]; exact List.mem_map.2 ⟨_, hfd, rfl⟩)
      simp only [Bool.or_eq_true, List.contains_iff_mem, List.mem_map] at hk
      rcases hk with ⟨p, hp1, rfl⟩ | ⟨p, hp1, rfl⟩
      · exact .inl (List.mem_map.2 ⟨p, (mem_sig.1 hp1).1, rfl⟩)
      · refine .inr ?_
        cases m with
        | user g => exact List.mem_map.2 ⟨p, (mem_sig.1 hp1).1, rfl⟩
        | gen ns =>
          rw [MapAttr.sig, List.mem_filter] at hp1
          obtain ⟨x, hx, rfl⟩ := List.mem_map.1 hp1.1
          exact hx
    · simp at h5

/-- **C53** (`validate_outputs`). The `validate_outputs` of an accepted class can be called with the
outputs of `build` by position: it takes exactly one parameter for each return hint of `build`, in
that order and each wide enough for it, or it takes `*args` wide enough for all of them. -/
theorem C53_validate_outputs_takes_the_outputs {a : Attrs H} {i : Option (Derived H)} {c : Cls H}
    (h : initSubclass henv a i = .ok c) (hc : a.abstract = false) :
    ∃ f r, a.build = some f ∧ f.ret = some r ∧
      (List.Forall₂ (TakesOutput henv) a.validate.sig (henv.tuple r) ∨
        ∃ p, a.validate.sig = [p] ∧ p.kind = .varPos ∧
          ∀ out ∈ henv.tuple r, ∀ ph, p.hint = some ph → henv.sub out ph = true) := by
  obtain ⟨inputs, sig, hints, bi, outs, m, msig, names, h1, h2, h3, h4, h5, rfl⟩ :=
    initSubclass_ok h hc
  obtain ⟨f, r, hb, _, rfl, hr, rfl, _⟩ := validateBuild_ok h2
  refine ⟨f, r, hb, hr, ?_⟩
  have hparam : ∀ (p : Param H) (out : H), validateParam henv p out = .ok () →
      TakesOutput henv p out := by
    intro p out hv
    simp only [validateParam] at hv
    split at hv
    · cases hv
    · rename_i hd
      split at hv
      · rename_i hk
        split at hv
        · rename_i hm
          refine ⟨by simpa using hd, hk, ?_⟩
          intro ph hph
          simpa [paramMatches, hph] using hm
        · cases hv
      · cases hv
  have hzip : ∀ (ps : List (Param H)) (hs : List H) (us : List Unit), ps.length = hs.length →
      mapE (fun (ph : Param H × H) => validateParam henv ph.1 ph.2) (ps.zip hs) = .ok us →
      List.Forall₂ (TakesOutput henv) ps hs := by
    intro ps
    induction ps with
    | nil => intro hs us hl _; cases hs with
      | nil => exact .nil
      | cons _ _ => simp at hl
    | cons p ps ih =>
      intro hs us hl hm
      cases hs with
      | nil => simp at hl
      | cons out hs =>
        simp only [List.zip_cons_cons, mapE, bind, Except.bind] at hm
        cases hv : validateParam henv p out with
        | error e => simp [hv] at hm
        | ok u =>
          simp only [hv] at hm
          cases hm' : mapE (fun (ph : Param H × H) => validateParam henv ph.1 ph.2) (ps.zip hs) with
          | error e => simp [hm'] at hm
          | ok us' => exact .cons (hparam p out hv) (ih hs us' (by simpa using hl) hm')
  have hpair : (if a.validate.sig.length = (henv.tuple r).length then do
        let _ ← mapE (fun (ph : Param H × H) => validateParam henv ph.1 ph.2)
          (a.validate.sig.zip (henv.tuple r))
        .ok ()
      else (.error .valueError : Except Err Unit)) = .ok () →
      List.Forall₂ (TakesOutput henv) a.validate.sig (henv.tuple r) := by
    intro hp
    split at hp
    · rename_i hl
      simp only [bind, Except.bind] at hp
      cases hm : mapE (fun (ph : Param H × H) => validateParam henv ph.1 ph.2)
          (a.validate.sig.zip (henv.tuple r)) with
      | error e => simp [hm] at hp
      | ok us => exact hzip _ _ us hl hm
    · cases hp
  simp only [validateValidate] at h3
  split at h3
  · rename_i p hsig
    split at h3
    · rename_i hk
      split at h3
      · rename_i hall
        refine .inr ⟨p, hsig, hk, ?_⟩
        intro out ho ph hph
        rw [List.all_eq_true] at hall
        simpa [paramMatches, hph] using hall out ho
      · cases h3
    · exact .inl (hpair h3)
  · exact .inl (hpair h3)

/-- The attribute `map` of a class all of whose ancestors are abstract is written by the user, in
one of the class statements, or is absent. -/
theorem define_map_abstract {any : H} : ∀ {ds : List (Def H)} {p c : Cls H},
    define henv p ds = .ok c → (∀ x ∈ ds, x.abstract = true) →
    (∀ m, c.attrs.map = some m → p.attrs.map = some m ∨ ∃ x ∈ ds, ∃ g, x.map = some g ∧ m = .user g)
  | [], p, c, h, _, m, hm => by
    simp only [define, Except.ok.injEq] at h
    subst h; exact .inl hm
  | d :: ds, p, c, h, ha, m, hm => by
    simp only [define, bind, Except.bind] at h
    cases hs : subclass henv p d with
    | error e => simp [hs] at h
    | ok c1 =>
      simp only [hs] at h
      have hd : d.abstract = true := ha d (by simp)
      have hc1 : c1.attrs = inherit p.attrs d := by
        have : (inherit p.attrs d).abstract = true := hd
        simp only [subclass, initSubclass, this, if_true, Except.ok.injEq] at hs
        rw [← hs]
      rcases define_map_abstract (any := any) h (fun x hx => ha x (List.mem_cons_of_mem _ hx)) m hm
        with hr | ⟨x, hx, hg⟩
      · rw [hc1] at hr
        simp only [inherit] at hr
        cases hdm : d.map with
        | none => simp only [hdm, Option.map_none, Option.none_or] at hr; exact .inl hr
        | some g =>
          simp only [hdm, Option.map_some, Option.some_or, Option.some.injEq] at hr
          exact .inr ⟨d, by simp, g, hdm, hr.symm⟩
      · exact .inr ⟨x, List.mem_cons_of_mem _ hx, hg⟩

theorem define_append : ∀ {ds : List (Def H)} {p c : Cls H} {d : Def H},
    define henv p (ds ++ [d]) = .ok c →
    ∃ q, define henv p ds = .ok q ∧ subclass henv q d = .ok c
  | [], p, c, d, h => by
    simp only [List.nil_append, define, bind, Except.bind] at h
    cases hs : subclass henv p d with
    | error e => simp [hs] at h
    | ok c1 =>
      simp only [hs, Except.ok.injEq] at h
      exact ⟨p, rfl, by rw [hs, h]⟩
  | x :: ds, p, c, d, h => by
    simp only [List.cons_append, define, bind, Except.bind] at h ⊢
    cases hs : subclass henv p x with
    | error e => simp [hs] at h
    | ok c1 =>
      simp only [hs] at h ⊢
      exact define_append h

theorem base_map (any : H) : (base any).attrs.map = none := rfl

/-- **C53** (`map` of classes with partitioned outputs), for classes whose ancestors are all
abstract: if an output is partitioned, `map` was written in the class or in one of its ancestors.
Missing: classes derived from a concrete class, for which it does not hold
(`C53_violated_by_inherited_map`). -/
theorem C53_partitioned_outputs_need_a_map_partial {any : H} {ds : List (Def H)} {d : Def H}
    {c : Cls H} (h : define henv (base any) (ds ++ [d]) = .ok c) (hd : d.abstract = false)
    (ha : ∀ x ∈ ds, x.abstract = true) :
    ∃ dv m, c.derived = some dv ∧ c.attrs.map = some m ∧
      ((∃ v ∈ dv.outputs, Partitioned v) →
        ∃ x ∈ ds ++ [d], ∃ g, x.map = some g ∧ m = .user g) := by
  obtain ⟨q, hq, hs⟩ := define_append h
  obtain ⟨inputs, sig, hints, bi, outs, m, msig, names, h1, h2, h3, h4, h5, rfl⟩ :=
    initSubclass_ok hs hd
  obtain ⟨_, _, _, _, hsome, hnone⟩ := validateMap_ok h4
  refine ⟨_, m, rfl, rfl, ?_⟩
  rintro ⟨v, hv, fs, n, hfs, hn⟩
  cases hm : (inherit q.attrs d).map with
  | none =>
    have := (hnone hm).1
    rw [List.any_eq_false] at this
    exfalso
    apply this v hv
    cases fs with
    | nil => simp [keys] at hn
    | cons x xs => simp [isPartitioned, hfs]
  | some m' =>
    have := hsome m' hm
    subst this
    simp only [inherit] at hm
    cases hdm : d.map with
    | some g =>
      simp only [hdm, Option.map_some, Option.some_or, Option.some.injEq] at hm
      exact ⟨d, by simp, g, hdm, hm.symm⟩
    | none =>
      simp only [hdm, Option.map_none, Option.none_or] at hm
      rcases define_map_abstract (any := any) hq ha m hm with hb | ⟨x, hx, hg⟩
      · simp [base_map] at hb
      · exact ⟨x, List.mem_append_left _ hx, hg⟩

/-! ## C06 -/

variable {κ D : Type} [DecidableEq κ] {env : Env κ D}

/-- **C06.** `compute_input_fingerprint` raises exactly when the names of the dependencies are not
those of the build inputs. -/
theorem C06_names_are_checked (hr : FpRanges env) (p : Pdr) (deps : List (Str × List (PSnap κ)))
    (hc : ∀ c ∈ depContents deps, Int64Range c) :
    (∃ e, World.computeInputFingerprint env p deps = .error e) ↔
      ∃ n, ¬ (n ∈ keys deps ↔ n ∈ keys (World.cls env p).buildInputs) := by
  unfold World.computeInputFingerprint
  cases hs : sameSet (keys deps) (keys (World.cls env p).buildInputs) with
  | true =>
    rw [sameSet_iff] at hs
    have e1 : (deps.flatMap fun x => x.2.map PSnap.contentFp) = depContents deps := rfl
    simp only [if_true, e1]
    rw [fpCombine_eq _ _ (hr.str _) (by
      intro o ho; rcases List.mem_cons.1 ho with rfl | ho
      · exact hr.ver _
      · exact hc o ho)]
    simp [hs]
  | false =>
    simp only [Bool.false_eq_true, if_false]
    refine iff_of_true ⟨_, rfl⟩ ?_
    by_contra hn
    simp only [not_exists, not_not] at hn
    rw [(sameSet_iff _ _).2 hn] at hs
    simp at hs

/-- The dependencies that a generated map gives. -/
theorem computeDependencies_gen {p : Pdr} {c : Cls H} {names : List Str} {user}
    (hi : Implements env p c user) (hm : c.attrs.map = some (.gen names))
    (ins : List (Str × List (PSnap κ))) :
    ∃ d, c.derived = some d ∧
    World.computeDependencies env p ins =
      match World.computeInputFingerprint env p (ins.filter fun x => d.mapInputs.contains x.1) with
      | .ok fp => .ok ([(env.npKey, ins.filter fun x => d.mapInputs.contains x.1)], [(env.npKey, fp)])
      | .error e => .error e := by
  obtain ⟨d, m, hd, hm', hb, hmi, hmap⟩ := hi
  rw [hm] at hm'
  cases hm'
  refine ⟨d, hd, ?_⟩
  simp only [World.computeDependencies, hmap, hmi, callMap, bind, Except.bind, ofItems,
    List.foldl_cons, List.foldl_nil, PyDict.set, World.inputFingerprints]
  cases World.computeInputFingerprint env p (ins.filter fun x => d.mapInputs.contains x.1) <;> rfl

/-- **C06**, for classes that keep the default map and whose ancestors are all abstract: given the
partitions of all input fields, `compute_dependencies` returns exactly one entry, for
`NotPartitioned`, whose dependencies are the partitions of the build inputs, and the input
fingerprint of these.  Missing: classes derived from a concrete class that keep its default map, for
which it does not hold (`C06_violated_by_inherited_map`). -/
theorem C06_default_map_partial (hr : FpRanges env) {any : H} {ds : List (Def H)} {d : Def H}
    {c : Cls H} (h : define henv (base any) (ds ++ [d]) = .ok c) (hd : d.abstract = false)
    (ha : ∀ x ∈ ds, x.abstract = true) (hm : ∀ x ∈ ds ++ [d], x.map = none)
    {p : Pdr} {user} (hi : Implements env p c user) (ins : List (Str × List (PSnap κ)))
    (hins : ∀ n ∈ keys c.attrs.fields, n ∈ keys ins)
    (hc : ∀ x ∈ depContents ins, Int64Range x) :
    ∃ deps fp, World.computeDependencies env p ins = .ok ([(env.npKey, deps)], [(env.npKey, fp)]) ∧
      World.computeInputFingerprint env p deps = .ok fp ∧
      ∀ n ss, (n, ss) ∈ deps ↔ (n, ss) ∈ ins ∧ n ∈ keys (World.cls env p).buildInputs := by
  obtain ⟨q, hq, hs⟩ := define_append h
  obtain ⟨inputs, sig, hints, bi, outs, m, msig, names, h1, h2, h3, h4, h5, rfl⟩ :=
    initSubclass_ok hs hd
  obtain ⟨rfl, hf⟩ := validateFields_ok h1
  obtain ⟨f, r, hb, _, rfl, hret, rfl, hp, hbi, _⟩ := validateBuild_ok h2
  obtain ⟨rfl, _, rfl, hms, _, hnone⟩ := validateMap_ok h4
  have hnm : (inherit q.attrs d).map = none := by
    simp only [inherit, hm d (by simp), Option.map_none, Option.none_or]
    cases hqm : q.attrs.map with
    | none => rfl
    | some m' =>
      rcases define_map_abstract (any := any) hq ha m' hqm with hb | ⟨x, hx, g, hg, _⟩
      · simp [base_map] at hb
      · rw [hm x (List.mem_append_left _ hx)] at hg; simp at hg
  obtain ⟨_, rfl⟩ := hnone hnm
  obtain ⟨dv, hdv, hcd⟩ := computeDependencies_gen hi rfl ins
  cases hdv
  have hbk : keys (World.cls env p).buildInputs = keys bi := by
    obtain ⟨d', m', hd', _, hb', _⟩ := hi
    cases hd'; exact hb'
  -- the inputs of the map are the build inputs
  have hmi : ∀ n, n ∈ (MapAttr.sig henv (MapAttr.gen ((keys ((inherit q.attrs d).fields.map
      (fun nf => (nf.1, nf.2.hint)))).filter fun n => contains bi n))).map (·.name) ↔
      n ∈ keys bi := by
    intro n
    constructor
    · intro hn
      obtain ⟨x, hx, rfl⟩ := List.mem_map.1 hn
      rw [MapAttr.sig, List.mem_filter] at hx
      obtain ⟨y, hy, rfl⟩ := List.mem_map.1 hx.1
      exact contains_iff.1 (List.mem_filter.1 hy).2
    · intro hn
      obtain ⟨x, hx, rfl⟩ := (hbi n).1 hn
      refine List.mem_map.2 ⟨⟨x.name, some (if x.name = "kwargs".toList then
        henv.snapshots else henv.partitions), false, .kwOnly⟩, ?_, rfl⟩
      rw [MapAttr.sig, List.mem_filter]
      refine ⟨List.mem_map.2 ⟨x.name, List.mem_filter.2 ⟨(hp x hx).1, contains_iff.2 hn⟩, rfl⟩, ?_⟩
      simpa [IsOwner] using (mem_sig.1 hx).2
  have hmem : ∀ n ss, (n, ss) ∈ ins.filter (fun x => ((MapAttr.sig henv (MapAttr.gen
      ((keys ((inherit q.attrs d).fields.map
      (fun nf => (nf.1, nf.2.hint)))).filter fun n => contains bi n))).map (·.name)).contains x.1) ↔
      (n, ss) ∈ ins ∧ n ∈ keys (World.cls env p).buildInputs := by
    intro n ss
    rw [List.mem_filter, hbk, ← hmi n, List.contains_iff_mem]
  have hnames : ∀ n, n ∈ keys (ins.filter (fun x => ((MapAttr.sig henv (MapAttr.gen
      ((keys ((inherit q.attrs d).fields.map
      (fun nf => (nf.1, nf.2.hint)))).filter fun n => contains bi n))).map (·.name)).contains x.1)) ↔
      n ∈ keys (World.cls env p).buildInputs := by
    intro n
    constructor
    · intro hn
      obtain ⟨x, hx, rfl⟩ := List.mem_map.1 hn
      exact ((hmem x.1 x.2).1 hx).2
    · intro hn
      have hfld : n ∈ keys (inherit q.attrs d).fields := by
        rw [hbk] at hn
        obtain ⟨x, hx, rfl⟩ := (hbi n).1 hn
        have := (hp x hx).1
        rwa [keys_inputs] at this
      obtain ⟨x, hx, rfl⟩ := List.mem_map.1 (hins n hfld)
      exact List.mem_map.2 ⟨x, (hmem x.1 x.2).2 ⟨hx, hn⟩, rfl⟩
  cases hfp : World.computeInputFingerprint env p (ins.filter (fun x => ((MapAttr.sig henv
      (MapAttr.gen ((keys ((inherit q.attrs d).fields.map
      (fun nf => (nf.1, nf.2.hint)))).filter fun n => contains bi n))).map (·.name)).contains x.1)) with
  | error e =>
    exfalso
    obtain ⟨n, hn⟩ := (C06_names_are_checked hr p _ (by
      intro x hx
      apply hc x
      simp only [depContents, List.mem_flatMap] at hx ⊢
      obtain ⟨y, hy, hx⟩ := hx
      exact ⟨y, (List.mem_filter.1 hy).1, hx⟩)).1 ⟨e, hfp⟩
    exact hn (hnames n)
  | ok fp =>
    refine ⟨_, fp, ?_, hfp, hmem⟩
    rw [hcd]
    simp only [hfp]

/-! ## Examples and violations -/

namespace Ex06

/-- Hints are numbers: 0 is an artifact class, 1 a plain hint, 2 a hint for a collection that is
partitioned by the field `d`, 3 and 4 are the hints for partitions and snapshots, 9 is `Any`. -/
def hints : Hints Nat where
  optional _ := false
  isArtifact h := h == 0
  readView _ field := .ok ⟨field, none⟩
  writeView h := .ok ⟨0, if h = 2 then some [("d".toList, 7)] else none⟩
  tuple h := [h]
  isNone _ := false
  partitions := 3
  snapshots := 4
  sub _ _ := true
  fieldClass t := some t

def kw (n : String) : Param Nat := ⟨n.toList, some 1, false, .posOrKw⟩
def fld (n : String) : Str × FieldDef Nat := (n.toList, ⟨0, true⟩)

/-- `a: A; build(a) -> int` -/
def parent : Def Nat := ⟨false, [fld "a"], some ⟨[kw "a"], some 1, true⟩, none, none⟩
/-- `b: A; build(a, b) -> int` -/
def child : Def Nat := ⟨false, [fld "b"], some ⟨[kw "a", kw "b"], some 1, true⟩, none, none⟩
/-- `build(a) -> Annotated[list, partitioned by d]` -/
def childPart : Def Nat := ⟨false, [], some ⟨[kw "a"], some 2, true⟩, none, none⟩
/-- the same with its own map -/
def withMap : Def Nat := ⟨false, [fld "a"], some ⟨[kw "a"], some 2, true⟩, none,
  some ⟨[⟨"a".toList, some 3, false, .posOrKw⟩], none, true⟩⟩
/-- an abstract base with a field -/
def mixin : Def Nat := ⟨true, [fld "x"], none, none, none⟩
def concrete : Def Nat := ⟨false, [fld "y"], some ⟨[kw "y", kw "x"], some 1, true⟩, none, none⟩
/-- `@staticmethod def build(cls, a)` -/
def owner : Def Nat :=
  ⟨false, [fld "a"], some ⟨[⟨"cls".toList, none, false, .posOrKw⟩, kw "a"], some 1, true⟩, none, none⟩
/-- a class with a field called `kwargs` -/
def kwargs : Def Nat := ⟨false, [fld "kwargs"], some ⟨[kw "kwargs"], some 1, true⟩, none, none⟩

/-- The parts of an accepted class that the examples look at. -/
structure Sum where
  build : List Str
  map : List Str
  outs : List (Option (PyDict Str Nat))
  gen : Option (List Str)
  deriving DecidableEq

def summary : Except Err (Cls Nat) → Option Sum
  | .ok ⟨a, some d⟩ => some ⟨keys d.buildInputs, d.mapInputs, d.outputs.map (·.fields),
      match a.map with
      | some (.gen ns) => some ns
      | _ => none⟩
  | _ => none

theorem of_summary {x : Except Err (Cls Nat)} {b m o g} (h : summary x = some ⟨b, m, o, some g⟩) :
    ∃ c d, x = .ok c ∧ c.derived = some d ∧ keys d.buildInputs = b ∧ d.mapInputs = m ∧
      d.outputs.map (·.fields) = o ∧ c.attrs.map = some (.gen g) := by
  rcases x with e | ⟨a, _ | d⟩
  · simp [summary] at h
  · simp [summary] at h
  · simp only [summary, Option.some.injEq, Sum.mk.injEq] at h
    obtain ⟨h1, h2, h3, h4⟩ := h
    refine ⟨_, d, rfl, rfl, h1, h2, h3, ?_⟩
    split at h4
    · rename_i ns hns
      simp only [Option.some.injEq] at h4
      rw [hns, h4]
    · simp at h4

/-- An accepted class below an abstract one: the hypotheses of `C06_default_map_partial` and
`C53_fields_parameters_and_outputs` are met. -/
example : summary (define hints (base 9) [mixin, concrete]) =
    some ⟨["y".toList, "x".toList], ["x".toList, "y".toList], [none],
      some ["x".toList, "y".toList]⟩ := by decide +kernel

/-- The same class in the model of executions. -/
def wenv : Env Nat Str := { Ex.env with
  impl := fun _ _ => ⟨[("y".toList, 0), ("x".toList, 0)], ["x".toList, "y".toList], [0],
    fun ins => .ok [(0, ins)], fun _ => .ok [[]], fun _ => .ok true⟩ }

def snap (c : Int) : PSnap Nat := ⟨c, ⟨.file ⟨"a".toList, false⟩, none, 0, .file "a".toList⟩⟩

/-- All hypotheses of `C06_default_map_partial` are met by this class, and dependencies are computed
as it says. -/
example : ∃ c, define hints (base 9) [mixin, concrete] = .ok c ∧
    Implements wenv (.mk "P".toList [] .nil) c (fun _ _ => .error .typeError) ∧ FpRanges wenv ∧
    keys c.attrs.fields = ["x".toList, "y".toList] := by
  obtain ⟨c, d, hc, hd, hb, hm, _, hg⟩ := of_summary
    (x := define hints (base 9) [mixin, concrete])
    (b := ["y".toList, "x".toList]) (m := ["x".toList, "y".toList]) (o := [none])
    (g := ["x".toList, "y".toList]) (by decide +kernel)
  refine ⟨c, hc, ⟨d, _, hd, hg, ?_, ?_, ?_⟩, ⟨ExFp.ranges.str, ExFp.ranges.ver, ExFp.ranges.node,
    ExFp.ranges.graph, ExFp.ranges.snap⟩, ?_⟩
  · rw [hb]; rfl
  · rw [hm]; rfl
  · rfl
  · have h : (match define hints (base 9) [mixin, concrete] with
      | .ok c => keys c.attrs.fields
      | .error _ => []) = ["x".toList, "y".toList] := by decide +kernel
    rw [hc] at h
    exact h
example : (match World.computeDependencies wenv (.mk "P".toList [] .nil)
      [("x".toList, [snap 5]), ("y".toList, [snap 6, snap 7])] with
    | .ok (deps, fps) => some (keys deps, deps.map fun x => keys x.2, keys fps)
    | .error _ => none) = some ([0], [["x".toList, "y".toList]], [0]) := by decide +kernel
/-- Other names are rejected (`C06_names_are_checked`). -/
example : World.computeInputFingerprint wenv (.mk "P".toList [] .nil) [("x".toList, [snap 5])] =
    .error .valueError := by decide +kernel

/-- A class with partitioned outputs is accepted with its own map, as
`C53_partitioned_outputs_need_a_map_partial` says, and rejected without. -/
example : summary (define hints (base 9) [withMap]) =
    some ⟨["a".toList], ["a".toList], [some [("d".toList, 7)]], none⟩ := by decide +kernel
example : summary (define hints (base 9) [mixin, { withMap with map := none }]) = none := by
  decide +kernel

/-- A class with a field called `kwargs` cannot have a default map. -/
example : summary (define hints (base 9) [kwargs]) = none := by decide +kernel

end Ex06

/-- **C06** does not hold for classes that inherit the default map of a concrete class: a class that
adds an input to `build` is accepted, and `compute_dependencies` of its instances always raises. -/
theorem C06_violated_by_inherited_map :
    ∃ (henv : Hints Nat) (any : Nat) (ds : List (Def Nat)) (c : Cls Nat),
      define henv (base any) ds = .ok c ∧ (∀ x ∈ ds, x.map = none ∧ x.abstract = false) ∧
      ∀ (κ D : Type) [DecidableEq κ] (env : Env κ D) (p : Pdr) (user) (ins),
        Implements env p c user → World.computeDependencies env p ins = .error .valueError := by
  obtain ⟨c, d, hc, hd, hb, hm, _, hg⟩ := Ex06.of_summary
    (x := define Ex06.hints (base 9) [Ex06.parent, Ex06.child])
    (b := ["a".toList, "b".toList]) (m := ["a".toList]) (o := [none]) (g := ["a".toList])
    (by decide +kernel)
  refine ⟨Ex06.hints, 9, [Ex06.parent, Ex06.child], c, hc, by decide +kernel, ?_⟩
  intro κ D _ env p user ins hi
  obtain ⟨d', hd', he⟩ := computeDependencies_gen hi hg ins
  rw [hd] at hd'
  cases hd'
  have hbk : keys (World.cls env p).buildInputs = ["a".toList, "b".toList] := by
    obtain ⟨d', _, h1, _, h2, _⟩ := hi
    rw [hd] at h1
    cases h1
    rw [h2, hb]
  have hne : sameSet (keys (ins.filter fun x => d.mapInputs.contains x.1))
      (keys (World.cls env p).buildInputs) = false := by
    rw [Bool.eq_false_iff]
    intro hs
    rw [sameSet_iff, hbk, hm] at hs
    have := (hs "b".toList).2 (by simp)
    obtain ⟨x, hx, hxe⟩ := List.mem_map.1 this
    have h2 := (List.mem_filter.1 hx).2
    rw [hxe] at h2
    revert h2
    decide
  rw [he, World.computeInputFingerprint, hne]
  rfl

/-- **C53** does not hold for classes that inherit the default map of a concrete class: a class whose
`build` has partitioned outputs is accepted though no class defines a map. -/
theorem C53_violated_by_inherited_map :
    ∃ (henv : Hints Nat) (any : Nat) (ds : List (Def Nat)) (c : Cls Nat) (d : Derived Nat),
      define henv (base any) ds = .ok c ∧ c.derived = some d ∧ (∀ x ∈ ds, x.map = none) ∧
      (∀ v ∈ d.outputs, Partitioned v) ∧ d.outputs ≠ [] := by
  obtain ⟨c, d, hc, hd, _, _, ho, _⟩ := Ex06.of_summary
    (x := define Ex06.hints (base 9) [Ex06.parent, Ex06.childPart])
    (b := ["a".toList]) (m := ["a".toList]) (o := [some [("d".toList, 7)]]) (g := ["a".toList])
    (by decide +kernel)
  refine ⟨Ex06.hints, 9, [Ex06.parent, Ex06.childPart], c, d, hc, hd, by decide +kernel, ?_, ?_⟩
  · intro v hv
    have : v.fields ∈ d.outputs.map (·.fields) := List.mem_map.2 ⟨v, hv, rfl⟩
    rw [ho, List.mem_singleton] at this
    exact ⟨_, "d".toList, this, by simp [keys]⟩
  · rintro hn
    rw [hn] at ho
    simp at ho

/-- **C53** does not hold for static methods with a parameter called `cls` or `self`: it is taken for
the class, so the class is accepted although the parameter is no field, and `build` cannot be
called. -/
theorem C53_violated_by_owner_names :
    ∃ (henv : Hints Nat) (any : Nat) (d : Def Nat) (f : Fn Nat) (p : Param Nat) (c : Cls Nat),
      define henv (base any) [d] = .ok c ∧ d.build = some f ∧ p ∈ f.params ∧
      p.name ∉ keys d.fields ∧ p.hasDefault = false := by
  obtain ⟨c, d, hc, _⟩ := Ex06.of_summary
    (x := define Ex06.hints (base 9) [Ex06.owner])
    (b := ["a".toList]) (m := ["a".toList]) (o := [none]) (g := ["a".toList])
    (by decide +kernel)
  exact ⟨Ex06.hints, 9, Ex06.owner, _, ⟨"cls".toList, none, false, .posOrKw⟩, c, hc, rfl, by simp,
    by decide, rfl⟩

end Arti.Props
