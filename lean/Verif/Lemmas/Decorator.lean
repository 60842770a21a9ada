import Verif.Spec.Decorator
import Verif.Lemmas.ProducerClass
import Verif.Lemmas.Items
import Verif.Props.FrozenDict

/-!
# Lemmas about the `producer` decorator
-/

namespace Arti.PCls
open PyDict Spec

section checks
variable {H : Type} [DecidableEq H] {env : Hints H}

theorem bind_ok_iff {α β : Type} {x : Except Err α} {f : α → Except Err β} {b : β} :
    (x >>= f) = .ok b ↔ ∃ a, x = .ok a ∧ f a = .ok b := by
  cases x <;> simp [bind, Except.bind]

theorem mapE_ok_iff {α β : Type} {f : α → Except Err β} {l : List α} {r : List β} :
    mapE f l = .ok r ↔ List.Forall₂ (fun a b => f a = .ok b) l r := by
  refine ⟨mapE_forall₂, fun h => ?_⟩
  induction h with
  | nil => rfl
  | cons hab _ ih => simp [mapE, hab, ih, bind, Except.bind]

theorem checkField_ok_iff {f : FieldDef H} : checkField env f = .ok () ↔
    env.optional f.hint = false ∧ f.required = true ∧ env.isArtifact f.hint = true := by
  simp only [checkField]
  cases env.optional f.hint <;> cases f.required <;> cases env.isArtifact f.hint <;> simp

theorem mapE_unit {α : Type} {f : α → Except Err Unit} {l : List α} (h : ∀ a ∈ l, f a = .ok ()) :
    mapE f l = .ok (l.map fun _ => ()) := by
  rw [mapE_ok_iff]
  induction l with
  | nil => exact .nil
  | cons a l ih =>
    exact .cons (h a (by simp)) (ih fun b hb => h b (List.mem_cons_of_mem _ hb))

theorem validateFields_iff {fields : PyDict Str (FieldDef H)} {inputs : PyDict Str H} :
    validateFields env fields = .ok inputs ↔
      inputs = fields.map (fun nf => (nf.1, nf.2.hint)) ∧
      ∀ n f, (n, f) ∈ fields → env.optional f.hint = false ∧ f.required = true ∧
        env.isArtifact f.hint = true := by
  refine ⟨validateFields_ok, fun ⟨h1, h2⟩ => ?_⟩
  simp only [validateFields, bind_ok_iff]
  exact ⟨_, mapE_unit fun nf hnf => checkField_ok_iff.2 (h2 nf.1 nf.2 hnf), by rw [h1]⟩

theorem validateParams_iff {β : Type} {inputs : PyDict Str H} {sig : List (Param H)}
    {v : Str → H → Except Err β} {r : List β} :
    validateParams inputs sig v = .ok r ↔
    (∀ p ∈ sig, p.name ∈ keys inputs ∧ Keyword p) ∧
    List.Forall₂ (fun p b => ∃ t, p.hint = some t ∧ v p.name t = .ok b) sig r := by
  refine ⟨validateParams_ok, fun ⟨h1, h2⟩ => ?_⟩
  have hn : (sig.any fun p => !contains inputs p.name) = false := by
    rw [List.any_eq_false]
    intro p hp
    simp [contains_iff.2 (h1 p hp).1]
  simp only [validateParams, hn, Bool.false_eq_true, if_false, mapE_ok_iff]
  have : ∀ (s : List (Param H)) (r : List β), (∀ p ∈ s, Keyword p) →
      List.Forall₂ (fun p b => ∃ t, p.hint = some t ∧ v p.name t = .ok b) s r →
      List.Forall₂ (fun p b => checkParam v p = .ok b) s r := by
    intro s r hk hf
    induction hf with
    | nil => exact .nil
    | @cons p b s r hpb _ ih =>
      refine .cons ?_ (ih fun q hq => hk q (List.mem_cons_of_mem _ hq))
      obtain ⟨t, ht, hv⟩ := hpb
      obtain ⟨_, hd, hkind⟩ := hk p (by simp)
      simp [checkParam, ht, hd, hkind, hv]
  exact this _ _ (fun p hp => (h1 p hp).2) h2

theorem fieldClasses_iff {fs : PyDict Str Nat} :
    (∃ r, fieldClasses env fs = .ok r) ↔ ∀ nt ∈ fs, (env.fieldClass nt.2).isSome := by
  induction fs with
  | nil => simp [fieldClasses]
  | cons nt fs ih =>
    obtain ⟨n, t⟩ := nt
    simp only [fieldClasses, List.forall_mem_cons]
    cases hc : env.fieldClass t with
    | none => simp
    | some c =>
      simp only [Option.isSome_some, true_and, bind_ok_iff, Except.ok.injEq, ← ih]
      constructor
      · rintro ⟨_, r, hr, _⟩; exact ⟨r, hr⟩
      · rintro ⟨r, hr⟩; exact ⟨_, r, hr, rfl⟩

theorem keyTypes_iff {v : Vw H} : (∃ r, keyTypes env v = .ok r) ↔
    ∀ fs, v.fields = some fs → ∀ nt ∈ fs, (env.fieldClass nt.2).isSome := by
  simp only [keyTypes]
  cases hv : v.fields with
  | none => simp
  | some fs => simpa using fieldClasses_iff

theorem exists_forall₂ {α β : Type} {R : α → β → Prop} {l : List α} :
    (∃ r, List.Forall₂ R l r) ↔ ∀ a ∈ l, ∃ b, R a b := by
  induction l with
  | nil => simp
  | cons a l ih =>
    rw [List.forall_mem_cons, ← ih]
    constructor
    · rintro ⟨_, h⟩
      cases h with
      | cons h1 h2 => exact ⟨⟨_, h1⟩, _, h2⟩
    · rintro ⟨⟨b, hb⟩, r, hr⟩
      exact ⟨b :: r, .cons hb hr⟩

/-- The outputs have the same partitioning scheme. -/
theorem sameScheme_iff {outs : List (Vw H)}
    (hnd : ∀ v ∈ outs, ∀ fs, v.fields = some fs → (keys fs).Nodup) :
    (∃ ks, List.Forall₂ (fun v k => keyTypes env v = .ok k) outs ks ∧ sameScheme ks = true) ↔
      outs ≠ [] ∧
      (∀ v ∈ outs, ∀ fs, v.fields = some fs → ∀ nt ∈ fs, (env.fieldClass nt.2).isSome) ∧
      ∀ v ∈ outs, ∀ w ∈ outs, ∀ n, scheme env v n = scheme env w n := by
  constructor
  · rintro ⟨ks, hf, hs⟩
    refine ⟨?_, fun v hv => keyTypes_iff.1 ?_, sameScheme_get hf hs hnd⟩
    · rintro rfl
      cases hf
      simp [sameScheme] at hs
    · exact exists_forall₂.1 ⟨ks, hf⟩ v hv
  · rintro ⟨hne, hc, hsch⟩
    obtain ⟨ks, hf⟩ := exists_forall₂.2 fun v hv => keyTypes_iff.2 (hc v hv)
    refine ⟨ks, hf, ?_⟩
    cases hf with
    | nil => exact absurd rfl hne
    | @cons v k outs ks hk hf =>
      have nd : ∀ w k, (∀ fs, w.fields = some fs → (keys fs).Nodup) → keyTypes env w = .ok k →
          (keys k).Nodup := by
        intro w k hw hk
        cases hfs : w.fields with
        | none => rw [(keyTypes_ok hk).2.2 hfs]; simp [keys]
        | some fs => rw [(keyTypes_ok hk).2.1 fs hfs]; exact hw fs hfs
      simp only [sameScheme, List.all_eq_true]
      intro k' hk'
      have : ∃ w ∈ outs, keyTypes env w = .ok k' := by
        clear hsch hc hne hnd
        induction hf with
        | nil => simp at hk'
        | @cons w k'' outs ks hw _ ih =>
          rcases List.mem_cons.1 hk' with rfl | hm
          · exact ⟨w, by simp, hw⟩
          · obtain ⟨w', h1, h2⟩ := ih hm
            exact ⟨w', List.mem_cons_of_mem _ h1, h2⟩
      obtain ⟨w, hw, hkw⟩ := this
      rw [Props.fdEq_iff (nd v k (hnd v (by simp)) hk)
        (nd w k' (hnd w (List.mem_cons_of_mem _ hw)) hkw)]
      intro n
      rw [(keyTypes_ok hk).1, (keyTypes_ok hkw).1]
      exact hsch v (by simp) w (List.mem_cons_of_mem _ hw) n

theorem validateBuild_iff {inputs : PyDict Str H} {f : Fn H} (hb : f.bound = true)
    {x : List (Param H) × List H × PyDict Str (Vw H) × List (Vw H)} :
    validateBuild env inputs (some f) = .ok x ↔
      ∃ items r outs ks, validateParams inputs f.sig (buildParam env inputs) = .ok items ∧
        f.ret = some r ∧ (∀ h, env.tuple r = [h] → env.isNone h = false) ∧
        List.Forall₂ (fun h v => env.writeView h = .ok v) (env.tuple r) outs ∧
        List.Forall₂ (fun v k => keyTypes env v = .ok k) outs ks ∧ sameScheme ks = true ∧
        x = (f.sig, env.tuple r, ofItems items, outs) := by
  simp only [validateBuild, hb, Bool.not_true, Bool.false_eq_true, if_false, bind_ok_iff]
  have hone : ∀ l : List H, (l.length = 1 ∧ l.all env.isNone = true) ↔
      ¬ ∀ h, l = [h] → env.isNone h = false := by
    intro l
    match l with
    | [] => simp
    | [h] => simp
    | a :: b :: l => simp
  constructor
  · rintro ⟨items, hp, h⟩
    cases hr : f.ret with
    | none => simp [hr] at h
    | some r =>
      simp only [hr] at h
      split at h
      · simp at h
      · rename_i hn
        rw [hone, not_not] at hn
        simp only [bind_ok_iff, mapE_ok_iff] at h
        obtain ⟨outs, ho, ks, hk, h⟩ := h
        split at h
        · rename_i hs
          simp only [Except.ok.injEq] at h
          exact ⟨items, r, outs, ks, hp, rfl, hn, ho, hk, hs, h.symm⟩
        · simp at h
  · rintro ⟨items, r, outs, ks, hp, hr, hn, ho, hk, hs, rfl⟩
    refine ⟨items, hp, ?_⟩
    have hn' : ¬ ((env.tuple r).length = 1 ∧ (env.tuple r).all env.isNone = true) := by
      rw [hone, not_not]; exact hn
    simp only [hr, if_neg hn', bind_ok_iff, mapE_ok_iff]
    exact ⟨outs, ho, ks, hk, by simp [hs]⟩

theorem paramMatches_iff {p : Param H} {out : H} :
    paramMatches env p out = true ↔ ∀ h, p.hint = some h → env.sub out h = true := by
  simp only [paramMatches]
  cases p.hint <;> simp

theorem validateParam_iff {p : Param H} {out : H} :
    validateParam env p out = .ok () ↔ TakesOutput env p out := by
  simp only [validateParam, TakesOutput, ← paramMatches_iff]
  cases p.hasDefault <;> simp
  split <;> simp_all

theorem validateValidate_iff {hints : List H} {f : Fn H} :
    validateValidate env hints f = .ok () ↔
      List.Forall₂ (TakesOutput env) f.sig hints ∨
        ∃ p, f.sig = [p] ∧ p.kind = .varPos ∧
          ∀ out ∈ hints, ∀ ph, p.hint = some ph → env.sub out ph = true := by
  have pw : (if f.sig.length = hints.length then (do
        let _ ← mapE (fun (ph : Param H × H) => validateParam env ph.1 ph.2) (f.sig.zip hints)
        Except.ok ()) else .error Err.valueError) = .ok () ↔
      List.Forall₂ (TakesOutput env) f.sig hints := by
    rw [List.forall₂_iff_zip]
    by_cases hl : f.sig.length = hints.length
    · simp only [hl, if_true, bind_ok_iff, true_and, and_true, exists_const]
      constructor
      · rintro ⟨r, hr⟩ a b hab
        obtain ⟨u, _, hu⟩ := mapE_mem hr hab
        exact validateParam_iff.1 hu
      · intro h
        exact ⟨_, mapE_unit fun ab hab => validateParam_iff.2 (h hab)⟩
    · simp [hl]
  have tk : ∀ (p : Param H) (outs : List H), List.Forall₂ (TakesOutput env) [p] outs →
      p.kind ≠ .varPos := by
    intro p outs h
    cases h with
    | cons h1 _ =>
      rcases h1.2.1 with h | h <;> simp [h]
  simp only [validateValidate]
  match hs : f.sig with
  | [] => rw [hs] at pw; rw [pw]; simp
  | [p] =>
    rw [hs] at pw
    by_cases hk : p.kind = .varPos
    · simp only [hk, if_true]
      have e : (hints.all (paramMatches env p) = true) ↔
          ∀ out ∈ hints, ∀ ph, p.hint = some ph → env.sub out ph = true := by
        simp only [List.all_eq_true, paramMatches_iff]
      constructor
      · intro h
        split at h
        · rename_i ha
          exact .inr ⟨p, rfl, hk, e.1 ha⟩
        · simp at h
      · rintro (h | ⟨q, hq, _, h⟩)
        · exact absurd hk (tk p _ h)
        · cases hq
          rw [if_pos (e.2 h)]
    · simp only [hk, if_false]
      rw [pw]
      constructor
      · exact .inl
      · rintro (h | ⟨q, hq, hqk, _⟩)
        · exact h
        · cases hq; exact absurd hqk hk
  | p :: q :: l => rw [hs] at pw; rw [pw]; simp

theorem initSubclass_iff {a : Attrs H} (ha : a.abstract = false) {i : Option (Derived H)}
    {c : Cls H} : initSubclass env a i = .ok c ↔
    ∃ inputs sig hints bi outs m msig names,
      validateFields env a.fields = .ok inputs ∧
      validateBuild env inputs a.build = .ok (sig, hints, bi, outs) ∧
      validateValidate env hints a.validate = .ok () ∧
      validateMap env inputs bi outs a.map = .ok (m, msig, names) ∧
      noUnusedFields inputs sig msig = .ok () ∧
      c = ⟨{ a with map := some m }, some ⟨inputs, sig, bi, outs, msig, names⟩⟩ := by
  refine ⟨fun h => initSubclass_ok h ha, ?_⟩
  rintro ⟨inputs, sig, hints, bi, outs, m, msig, names, h1, h2, h3, h4, h5, rfl⟩
  simp [initSubclass, ha, h1, h2, h3, h4, h5, bind, Except.bind]

end checks

section decorator
variable {H A V : Type} [DecidableEq H] {d : DEnv H}

theorem sig_eq (f : PyFn H) : f.static.sig = paramInputs f := by
  simp only [Fn.sig, PyFn.static, paramInputs]
  congr 1
  funext p
  simp [List.contains_cons]

/-- Parameters with the views of their hints. -/
def Viewed (d : DEnv H) (pvs : List (Param H × Vw H)) : Prop :=
  ∀ pv ∈ pvs, ∃ h, pv.1.hint = some h ∧ d.view h = .ok pv.2

def slotsOf (pvs : List (Param H × Vw H)) : PyDict Str (Slot H) :=
  pvs.map fun pv => (pv.1.name, .cls pv.2.cls)

theorem paramSlots_iff : ∀ {ps : List (Param H)} {slots r : PyDict Str (Slot H)},
    (keys slots ++ ps.map (·.name)).Nodup →
    (paramSlots d slots ps = .ok r ↔
      ∃ pvs, pvs.map Prod.fst = ps ∧ Viewed d pvs ∧ r = slots ++ slotsOf pvs)
  | [], slots, r, _ => by
    simp only [paramSlots, Except.ok.injEq]
    constructor
    · rintro rfl
      exact ⟨[], rfl, by simp [Viewed], by simp [slotsOf]⟩
    · rintro ⟨pvs, hp, _, rfl⟩
      simp only [List.map_eq_nil_iff] at hp
      simp [hp, slotsOf]
  | p :: ps, slots, r, hnd => by
    have hp : p.name ∉ keys slots := by
      rw [List.nodup_append] at hnd
      exact fun h => hnd.2.2 _ h _ (by simp) rfl
    have hnd' : ∀ v, (keys (slots ++ [(p.name, v)] : PyDict Str (Slot H)) ++
        ps.map (·.name)).Nodup := by
      intro v
      simpa [keys, List.append_assoc] using hnd
    simp only [paramSlots, addSlot, bind_ok_iff]
    cases hh : p.hint with
    | none =>
      simp only [reduceCtorEq, false_and, exists_false, false_iff, not_exists, not_and]
      intro pvs hm hv _
      match pvs with
      | [] => simp at hm
      | pv :: pvs =>
        simp only [List.map_cons, List.cons.injEq] at hm
        obtain ⟨h, h1, _⟩ := hv pv (by simp)
        rw [hm.1, hh] at h1
        cases h1
    | some h =>
      simp only [bind_ok_iff, Except.ok.injEq]
      constructor
      · rintro ⟨sl, ⟨v, hv, rfl⟩, hr⟩
        rw [set_absent _ _ _ hp, paramSlots_iff (hnd' _)] at hr
        obtain ⟨pvs, h1, h2, rfl⟩ := hr
        refine ⟨(p, v) :: pvs, by simp [h1], ?_, by simp [slotsOf]⟩
        intro pv hpv
        rcases List.mem_cons.1 hpv with rfl | hpv
        · exact ⟨h, hh, hv⟩
        · exact h2 pv hpv
      · rintro ⟨pvs, hm, hv, rfl⟩
        match pvs with
        | [] => simp at hm
        | pv :: pvs =>
          simp only [List.map_cons, List.cons.injEq] at hm
          obtain ⟨h', h1, h2⟩ := hv pv (by simp)
          rw [hm.1, hh] at h1
          cases h1
          refine ⟨_, ⟨pv.2, h2, rfl⟩, ?_⟩
          rw [set_absent _ _ _ hp, paramSlots_iff (hnd' _)]
          exact ⟨pvs, hm.2, fun q hq => hv q (List.mem_cons_of_mem _ hq), by simp [slotsOf, hm.1]⟩

theorem filterMap_set {ν β : Type} {g : Str × ν → Option β} {k : Str} {v : ν}
    (hg : ∀ v', g (k, v') = none) : ∀ s : PyDict Str ν, (set s k v).filterMap g = s.filterMap g
  | [] => by simp [PyDict.set, hg]
  | (k', v') :: s => by
    simp only [PyDict.set]
    by_cases h : k' = k
    · subst h; simp [hg]
    · simp only [if_neg h, List.filterMap_cons, filterMap_set hg s]

theorem contains_set_self {ν : Type} {k : Str} {v : ν} (s : PyDict Str ν) :
    contains (set s k v) k = true := by
  induction s with
  | nil => simp [PyDict.set, contains, get?]
  | cons x s ih =>
    obtain ⟨k', v'⟩ := x
    simp only [PyDict.set]
    by_cases h : k' = k
    · simp [h, contains, get?]
    · simp only [if_neg h, contains, get?] at ih ⊢
      exact ih

theorem contains_set_of {ν : Type} {k k' : Str} {v : ν} (s : PyDict Str ν) (hk : k ≠ k') :
    contains (set s k v) k' = contains s k' := by
  induction s with
  | nil => simp [PyDict.set, contains, get?, hk]
  | cons x s ih =>
    obtain ⟨k'', v''⟩ := x
    simp only [PyDict.set]
    by_cases h : k'' = k
    · subst h; simp [contains, get?, hk]
    · simp only [if_neg h, contains, get?] at ih ⊢
      by_cases h' : k'' = k'
      · simp [h']
      · simpa [if_neg h'] using ih

theorem version_ne : versionName ≠ annotationsName := by decide

attribute [local irreducible] annotationsName versionName

theorem contains_annotations (args : DecArgs H A V) (s : PyDict Str (Slot H)) :
    contains (ownSlots args s) annotationsName =
      (match args.annotations with
        | some (_ :: _) => true
        | _ => contains s annotationsName) := by
  simp only [ownSlots]
  cases args.version with
  | none =>
    rcases args.annotations with _ | _ | ⟨a, as⟩
    · rfl
    · rfl
    · exact contains_set_self _
  | some v =>
    simp only [contains_set_of _ version_ne]
    rcases args.annotations with _ | _ | ⟨a, as⟩
    · rfl
    · rfl
    · exact contains_set_self _

theorem contains_version (args : DecArgs H A V) (s : PyDict Str (Slot H))
    (h : args.version.isSome = true) : contains (ownSlots args s) versionName = true := by
  simp only [ownSlots]
  cases hv : args.version with
  | none => simp [hv] at h
  | some v => exact contains_set_self _

theorem filterMap_own (ns : Namespace H A V) (args : DecArgs H A V) (s : PyDict Str (Slot H)) :
    ((ownSlots args s).filterMap fun (n, s) => slotField d ns n s) =
      s.filterMap fun (n, s) => slotField d ns n s := by
  have h1 : ∀ v : Slot H, slotField d ns annotationsName v = none := by
    rintro (_ | _ | _) <;> simp [slotField]
  have h2 : ∀ v : Slot H, slotField d ns versionName v = none := by
    rintro (_ | _ | _) <;> simp [slotField]
  simp only [ownSlots]
  cases args.version with
  | none =>
    rcases args.annotations with _ | _ | ⟨a, as⟩
    · rfl
    · rfl
    · exact filterMap_set h1 s
  | some v =>
    simp only
    rw [filterMap_set h2]
    rcases args.annotations with _ | _ | ⟨a, as⟩
    · rfl
    · rfl
    · exact filterMap_set h1 s

/-- The fields that the parameters make. -/
def fieldsOf (d : DEnv H) (mapGiven : Bool) (pvs : List (Param H × Vw H)) :
    PyDict Str (FieldDef H) :=
  pvs.filterMap fun pv =>
    if isUnderscored pv.1.name || pv.1.name = annotationsName || pv.1.name = versionName then none
    else some (pv.1.name, ⟨pv.2.cls, !(d.baseAttr pv.1.name || pv.1.name = "build".toList ||
      pv.1.name = "validate_outputs".toList || (pv.1.name = "map".toList && mapGiven))⟩)

/-- The body of the class that is made. -/
def bodyOf (d : DEnv H) (args : DecArgs H A V) (f : PyFn H) (pvs : List (Param H × Vw H)) : Def H where
  abstract := false
  fields := fieldsOf d args.map.isSome pvs
  build := some f.static
  validate := args.validate.map PyFn.static
  map := args.map.map PyFn.static

theorem fields_eq (ns : Namespace H A V) (args : DecArgs H A V) (pvs : List (Param H × Vw H))
    (hm : ns.map = args.map.map PyFn.static) :
    ((slotsOf pvs).filterMap fun (n, s) => slotField d ns n s) =
      fieldsOf d args.map.isSome pvs := by
  simp only [slotsOf, fieldsOf, List.filterMap_map]
  congr 1
  funext pv
  simp only [slotField, Namespace.hasAttr, hm, Option.isSome_map, Function.comp]

/-- The class body that is made from views of the parameters. -/
theorem classBody_iff (args : DecArgs H A V) (f : PyFn H) (pvs : List (Param H × Vw H)) {b : Def H} :
    classBody d (⟨ownSlots args (slotsOf pvs), args.annotations, f.static, args.map.map PyFn.static,
        args.validate.map PyFn.static, args.version⟩ : Namespace H A V) = .ok b ↔
    (args.annotations = some [] → annotationsName ∈ keys (slotsOf pvs)) ∧ b = bodyOf d args f pvs := by
  simp only [classBody]
  rw [if_neg (c := (args.version.isSome && !contains (ownSlots args (slotsOf pvs)) versionName) = true)]
  · rw [contains_annotations, filterMap_own, fields_eq _ args pvs rfl]
    have hb : ∀ x : Def H, (Except.ok x : Except Err (Def H)) = .ok b ↔ b = x := by
      intro x; rw [Except.ok.injEq]; exact eq_comm
    rcases ha : args.annotations with _ | _ | ⟨a, as⟩
    · simp only [Option.isSome_none, Bool.false_and, Bool.false_eq_true, if_false, reduceCtorEq,
        false_imp_iff, true_and, hb]
      rfl
    · simp only [Option.isSome_some, Bool.true_and, forall_true_left, ← contains_iff]
      cases contains (slotsOf pvs) annotationsName
      · simp
      · simp only [Bool.not_true, Bool.false_eq_true, if_false, true_and, hb]
        rfl
    · simp only [Option.isSome_some, Bool.not_true, Bool.and_false, Bool.false_eq_true, if_false, hb,
        Option.some.injEq, reduceCtorEq, false_imp_iff, true_and]
      rfl
  · cases hv : args.version.isSome with
    | false => simp
    | true => simp [contains_version args (slotsOf pvs) hv]

theorem decorate_iff {any : H} {dflt : V} {args : DecArgs H A V} {stack : List Str}
    {st : Option Str} {f : PyFn H} {c : DCls H A V} (hnd : (f.params.map (·.name)).Nodup) :
    (decorate d any dflt args stack st f).1 = .ok c ↔
      ∃ pvs, pvs.map Prod.fst = paramInputs f ∧ Viewed d pvs ∧
        (args.annotations = some [] → annotationsName ∈ keys (slotsOf pvs)) ∧
        subclass d.hints (base any) (bodyOf d args f pvs) = .ok c.cls ∧
        c.name = st.getD f.name ∧ c.module = moduleName 0 stack ∧
        c.annotations = args.annotations.getD [] ∧ c.version = args.version.getD dflt := by
  have hns : (keys ([] : PyDict Str (Slot H)) ++ (f.static.sig).map (·.name)).Nodup := by
    simp only [keys, List.map_nil, List.nil_append, Fn.sig, PyFn.static]
    exact hnd.sublist ((List.filter_sublist ..).map _)
  rw [sig_eq] at hns
  have hmod : moduleName 2 ("arti.internal.utils".toList :: "arti.producers".toList :: stack) =
      moduleName 0 stack := rfl
  simp only [decorate, bind_ok_iff, namespaceOf, sig_eq, paramSlots_iff hns, List.nil_append,
    Except.ok.injEq]
  constructor
  · rintro ⟨ns, ⟨s, ⟨pvs, hp, hv, rfl⟩, rfl⟩, body, hb, cls, hc, rfl⟩
    rw [classBody_iff] at hb
    obtain ⟨ha, rfl⟩ := hb
    exact ⟨pvs, hp, hv, ha, hc, rfl, hmod, rfl, rfl⟩
  · rintro ⟨pvs, hp, hv, ha, hc, h1, h2, h3, h4⟩
    refine ⟨_, ⟨_, ⟨pvs, hp, hv, rfl⟩, rfl⟩, bodyOf d args f pvs, ?_, c.cls, hc, ?_⟩
    · rw [classBody_iff]
      exact ⟨ha, rfl⟩
    · obtain ⟨c1, c2, c3, c4, c5⟩ := c
      simp only at h1 h2 h3 h4
      subst h1 h2 h3 h4
      rfl

theorem validateMap_iff {env : Hints H} {inputs : PyDict Str H} {bi : PyDict Str (Vw H)}
    {outs : List (Vw H)} {map : Option (MapAttr H)} {m : MapAttr H} {sig : List (Param H)}
    {names : List Str} : validateMap env inputs bi outs map = .ok (m, sig, names) ↔
    chooseMap inputs bi outs map = .ok m ∧ m.bound = true ∧
    (∀ p ∈ m.sig env, p.name ∈ keys inputs ∧ Keyword p ∧ p.hint = some env.partitions) ∧
    sig = m.sig env ∧ names = (m.sig env).map (·.name) := by
  have hz : ∀ (ps : List (Param H)) (ns : List Str),
      List.Forall₂ (fun p b => ∃ t, p.hint = some t ∧ mapParam env p.name t = .ok b) ps ns ↔
      ns = ps.map (·.name) ∧ ∀ p ∈ ps, p.hint = some env.partitions := by
    intro ps
    induction ps with
    | nil => intro ns; simp
    | cons p ps ih =>
      intro ns
      have hone : ∀ b, (∃ t, p.hint = some t ∧ mapParam env p.name t = .ok b) ↔
          b = p.name ∧ p.hint = some env.partitions := by
        intro b
        constructor
        · rintro ⟨t, ht, hb⟩
          simp only [mapParam] at hb
          split at hb
          · rename_i hte
            simp only [Except.ok.injEq] at hb
            exact ⟨hb.symm, by rw [ht, hte]⟩
          · simp at hb
        · rintro ⟨rfl, ht⟩
          exact ⟨_, ht, by simp [mapParam]⟩
      simp only [List.forall₂_cons_left_iff, ih, hone, List.map_cons, List.forall_mem_cons]
      constructor
      · rintro ⟨b, u, ⟨rfl, h1⟩, ⟨rfl, h2⟩, rfl⟩
        exact ⟨rfl, h1, h2⟩
      · rintro ⟨rfl, h1, h2⟩
        exact ⟨_, _, ⟨rfl, h1⟩, ⟨rfl, h2⟩, rfl⟩
  simp only [validateMap, bind_ok_iff]
  constructor
  · rintro ⟨m', hm, h⟩
    cases hb : m'.bound <;> simp only [hb, Bool.not_false, Bool.not_true, if_true,
      Bool.false_eq_true, if_false, reduceCtorEq] at h
    simp only [bind_ok_iff, Except.ok.injEq, Prod.mk.injEq] at h
    obtain ⟨ns, hp, rfl, rfl, rfl⟩ := h
    rw [validateParams_iff, hz] at hp
    exact ⟨hm, hb, fun p h => ⟨(hp.1 p h).1, (hp.1 p h).2, hp.2.2 p h⟩, rfl, hp.2.1⟩
  · rintro ⟨hm, hb, hp, rfl, rfl⟩
    refine ⟨m, hm, ?_⟩
    simp only [hb, Bool.not_true, Bool.false_eq_true, if_false, bind_ok_iff, Except.ok.injEq,
      Prod.mk.injEq, true_and]
    refine ⟨_, ?_, rfl⟩
    rw [validateParams_iff, hz]
    exact ⟨fun p h => ⟨(hp p h).1, (hp p h).2.1⟩, rfl, fun p h => (hp p h).2.2⟩

/-- The names that do not clash with attributes of the class. -/
def NoClash (d : DEnv H) (mapGiven : Bool) (n : Str) : Prop :=
  isUnderscored n = false ∧ n ≠ annotationsName ∧ n ≠ versionName ∧ d.baseAttr n = false ∧
    n ≠ "build".toList ∧ n ≠ "validate_outputs".toList ∧ (mapGiven = true → n ≠ "map".toList)

theorem mem_fieldsOf {mg : Bool} {pvs : List (Param H × Vw H)} {n : Str} {fd : FieldDef H}
    (h : (n, fd) ∈ fieldsOf d mg pvs) : ∃ pv ∈ pvs, pv.1.name = n ∧ isUnderscored n = false ∧
      n ≠ annotationsName ∧ n ≠ versionName ∧ fd.hint = pv.2.cls ∧
      (fd.required = true → NoClash d mg n) := by
  simp only [fieldsOf, List.mem_filterMap] at h
  obtain ⟨pv, hpv, h⟩ := h
  split at h
  · simp at h
  · rename_i hn
    simp only [Bool.or_eq_true, decide_eq_true_eq, not_or, Bool.not_eq_true] at hn
    simp only [Option.some.injEq, Prod.mk.injEq] at h
    obtain ⟨rfl, rfl⟩ := h
    refine ⟨pv, hpv, rfl, hn.1.1, hn.1.2, hn.2, rfl, fun hr => ⟨hn.1.1, hn.1.2, hn.2, ?_⟩⟩
    simp only [Bool.not_eq_true', Bool.or_eq_false_iff, Bool.and_eq_false_iff,
      decide_eq_false_iff_not] at hr
    refine ⟨hr.1.1.1, hr.1.1.2, hr.1.2, fun hm => ?_⟩
    rcases hr.2 with h | h
    · exact h
    · rw [hm] at h; cases h

theorem fieldsOf_noClash {mg : Bool} {pvs : List (Param H × Vw H)}
    (h : ∀ pv ∈ pvs, NoClash d mg pv.1.name) :
    fieldsOf d mg pvs = pvs.map fun pv => (pv.1.name, ⟨pv.2.cls, true⟩) := by
  induction pvs with
  | nil => rfl
  | cons pv pvs ih =>
    have h1 := h pv (by simp)
    have ih := ih fun q hq => h q (List.mem_cons_of_mem _ hq)
    simp only [fieldsOf] at ih
    obtain ⟨a1, a2, a3, a4, a5, a6, a7⟩ := h1
    have hm : (decide (pv.1.name = "map".toList) && mg) = false := by
      cases mg
      · simp
      · rw [Bool.and_true, decide_eq_false_iff_not]; exact a7 rfl
    simp only [fieldsOf, List.filterMap_cons, a1, decide_eq_false a2, decide_eq_false a3, a4,
      decide_eq_false a5, decide_eq_false a6, hm, Bool.or_self, Bool.false_eq_true, if_false,
      Bool.not_false, List.map_cons]
    rw [ih]

/-- The class with the given fields and functions. -/
def clsOf (any : H) (d : DEnv H) (args : DecArgs H A V) (f : PyFn H) (pvs : List (Param H × Vw H))
    (outs : List (Vw H)) (m : MapAttr H) : Cls H where
  attrs := {
    abstract := false
    fields := pvs.map fun pv => (pv.1.name, ⟨pv.2.cls, true⟩)
    build := some f.static
    validate := (args.validate.map PyFn.static).getD (base any).attrs.validate
    map := some m }
  derived := some {
    inputs := pvs.map fun pv => (pv.1.name, pv.2.cls)
    buildSig := paramInputs f
    buildInputs := pvs.map fun pv => (pv.1.name, pv.2)
    outputs := outs
    mapSig := m.sig d.hints
    mapInputs := (m.sig d.hints).map (·.name) }

/-- The map of the class. -/
def MapOf (d : DEnv H) (args : DecArgs H A V) (f : PyFn H) (outs : List (Vw H)) (m : MapAttr H) :
    Prop :=
  (∃ g, args.map = some g ∧ m = .user g.static ∧ ∀ q ∈ paramInputs g,
    q.name ∈ (paramInputs f).map (·.name) ∧ Keyword q ∧ q.hint = some d.hints.partitions) ∨
  (args.map = none ∧ outs.any isPartitioned = false ∧ m = .gen ((paramInputs f).map (·.name)) ∧
    ∀ n ∈ (paramInputs f).map (·.name), n ≠ "kwargs".toList)

theorem not_owner {f : PyFn H} {n : Str} (h : n ∈ (paramInputs f).map (·.name)) :
    (["cls".toList, "self".toList].contains n) = false := by
  obtain ⟨p, hp, rfl⟩ := List.mem_map.1 h
  simp only [paramInputs, List.mem_filter, Bool.not_eq_true', Bool.or_eq_false_iff,
    decide_eq_false_iff_not] at hp
  rw [Bool.eq_false_iff, Ne, List.contains_iff_mem]
  simp only [List.mem_cons, List.not_mem_nil, or_false, not_or]
  exact hp.2

theorem subclass_iff (hc : Coherent d) {any : H} {args : DecArgs H A V} {f : PyFn H}
    (hnd : (f.params.map (·.name)).Nodup) {pvs : List (Param H × Vw H)}
    (hp : pvs.map Prod.fst = paramInputs f) (hv : Viewed d pvs) {c : Cls H} :
    subclass d.hints (base any) (bodyOf d args f pvs) = .ok c ↔
      ∃ r outs m ks, (∀ p ∈ paramInputs f, NoClash d args.map.isSome p.name ∧ Keyword p) ∧
        f.ret = some r ∧ (∀ h, d.hints.tuple r = [h] → d.hints.isNone h = false) ∧
        List.Forall₂ (fun h v => d.hints.writeView h = .ok v) (d.hints.tuple r) outs ∧
        List.Forall₂ (fun v k => keyTypes d.hints v = .ok k) outs ks ∧ sameScheme ks = true ∧
        validateValidate d.hints (d.hints.tuple r)
          ((args.validate.map PyFn.static).getD (base any).attrs.validate) = .ok () ∧
        MapOf d args f outs m ∧ c = clsOf any d args f pvs outs m := by
  have hndi : ((paramInputs f).map (·.name)).Nodup := by
    rw [← sig_eq]
    exact hnd.sublist ((List.filter_sublist ..).map _)
  have hndp : (pvs.map fun pv => pv.1.name).Nodup := by
    rw [← hp, List.map_map] at hndi; exact hndi
  have hnames : (pvs.map fun pv => pv.1.name) = (paramInputs f).map (·.name) := by
    rw [← hp, List.map_map]; rfl
  have hmem : ∀ pv ∈ pvs, pv.1 ∈ paramInputs f := fun pv h => by
    rw [← hp]; exact List.mem_map_of_mem h
  have hmem' : ∀ p ∈ paramInputs f, ∃ pv ∈ pvs, pv.1 = p := fun p h => by
    rw [← hp] at h; exact List.mem_map.1 h
  have hsub : (keys (fieldsOf d args.map.isSome pvs)).Sublist (pvs.map fun pv => pv.1.name) := by
    clear hp hv hndp hnames hmem hmem'
    induction pvs with
    | nil => simp [fieldsOf, keys]
    | cons pv pvs ih =>
      simp only [fieldsOf, List.filterMap_cons, List.map_cons] at ih ⊢
      split
      · exact ih.trans (List.sublist_cons_self ..)
      · rename_i x hx
        split at hx
        · simp at hx
        · simp only [Option.some.injEq] at hx
          rw [← hx]
          exact ih.cons_cons _
  have hinh : inherit (base any).attrs (bodyOf d args f pvs) =
      ⟨false, fieldsOf d args.map.isSome pvs, some f.static,
        (args.validate.map PyFn.static).getD (base any).attrs.validate,
        (args.map.map PyFn.static).map MapAttr.user⟩ := by
    have hm : merge ([] : PyDict Str (FieldDef H)) (fieldsOf d args.map.isSome pvs) =
        fieldsOf d args.map.isSome pvs := ofItems_nodup (hndp.sublist hsub)
    simp only [inherit, base, bodyOf, hm, Option.or_none, Option.some_or]
  simp only [subclass]
  rw [hinh, initSubclass_iff rfl]
  simp only [validateFields_iff, validateBuild_iff (f := f.static) rfl, sig_eq]
  -- with names that do not clash the fields are those of the parameters
  have hitems : ∀ (hn : ∀ p ∈ paramInputs f, NoClash d args.map.isSome p.name ∧ Keyword p)
      (items : List (Str × Vw H)),
      validateParams (pvs.map fun pv => (pv.1.name, pv.2.cls)) (paramInputs f)
        (buildParam d.hints (pvs.map fun pv => (pv.1.name, pv.2.cls))) = .ok items ↔
      items = pvs.map fun pv => (pv.1.name, pv.2) := by
    intro hn items
    have hk : keys (pvs.map fun pv => (pv.1.name, pv.2.cls)) = (paramInputs f).map (·.name) := by
      rw [← hnames]; simp [keys]
    have hview : ∀ pv ∈ pvs, ∀ b, (∃ t, pv.1.hint = some t ∧
        buildParam d.hints (pvs.map fun pv => (pv.1.name, pv.2.cls)) pv.1.name t = .ok b) ↔
        b = (pv.1.name, pv.2) := by
      intro pv hpv b
      obtain ⟨h, hh, hvw⟩ := hv pv hpv
      have hg : get? (pvs.map fun pv => (pv.1.name, pv.2.cls)) pv.1.name = some pv.2.cls := by
        refine get?_of_mem ?_ (List.mem_map.2 ⟨pv, hpv, rfl⟩)
        rw [hk]; exact hndi
      simp only [hh, Option.some.injEq, exists_eq_left', buildParam, hg, hc.again h _ hvw, bind,
        Except.bind, if_true, Except.ok.injEq]
      exact eq_comm
    rw [validateParams_iff]
    constructor
    · rintro ⟨-, hf⟩
      rw [← hp, List.forall₂_map_left_iff] at hf
      have : ∀ (l : List (Param H × Vw H)) (its : List (Str × Vw H)), (∀ pv ∈ l, pv ∈ pvs) →
          List.Forall₂ (fun pv b => ∃ t, pv.1.hint = some t ∧ buildParam d.hints
            (pvs.map fun pv => (pv.1.name, pv.2.cls)) pv.1.name t = .ok b) l its →
          its = l.map fun pv => (pv.1.name, pv.2) := by
        intro l its hl hf
        induction hf with
        | nil => rfl
        | cons h1 _ ih =>
          rw [(hview _ (hl _ (by simp)) _).1 h1, ih fun q hq => hl q (List.mem_cons_of_mem _ hq)]
          rfl
      exact this _ _ (fun _ h => h) hf
    · rintro rfl
      refine ⟨fun p hpm => ⟨?_, (hn p hpm).2⟩, ?_⟩
      · rw [hk]; exact List.mem_map_of_mem hpm
      · rw [← hp, List.forall₂_map_left_iff, List.forall₂_map_right_iff, List.forall₂_same]
        exact fun pv hpv => (hview pv hpv _).2 rfl
  have hof : ofItems (pvs.map fun pv => (pv.1.name, pv.2)) = pvs.map fun pv => (pv.1.name, pv.2) :=
    ofItems_nodup (by simpa [keys, Function.comp_def] using hndp)
  have hkin : keys (pvs.map fun pv => (pv.1.name, pv.2.cls)) = (paramInputs f).map (·.name) := by
    rw [← hnames]; simp [keys]
  have hfilt : (((paramInputs f).map (·.name)).filter fun n =>
      contains (pvs.map fun pv => (pv.1.name, pv.2)) n) = (paramInputs f).map (·.name) := by
    rw [List.filter_eq_self]
    intro n hn
    rw [contains_iff]
    rw [← hnames] at hn
    simpa [keys] using hn
  have hgensig : (MapAttr.gen ((paramInputs f).map (·.name)) : MapAttr H).sig d.hints =
      ((paramInputs f).map (·.name)).map fun n =>
        ⟨n, some (if n = "kwargs".toList then d.hints.snapshots else d.hints.partitions), false,
          .kwOnly⟩ := by
    rw [MapAttr.sig, List.filter_eq_self]
    intro q hq
    obtain ⟨n, hn, rfl⟩ := List.mem_map.1 hq
    simp only [not_owner hn, Bool.not_false]
  have hmap : ∀ (outs : List (Vw H)) (m : MapAttr H) (msig : List (Param H)) (ns : List Str),
      validateMap d.hints (pvs.map fun pv => (pv.1.name, pv.2.cls))
        (pvs.map fun pv => (pv.1.name, pv.2)) outs ((args.map.map PyFn.static).map MapAttr.user) =
        .ok (m, msig, ns) ↔
      MapOf d args f outs m ∧ msig = m.sig d.hints ∧ ns = (m.sig d.hints).map (·.name) := by
    intro outs m msig ns
    rw [validateMap_iff]
    cases hm : args.map with
    | some g =>
      simp only [Option.map_some, chooseMap, Except.ok.injEq, MapOf, hm, Option.some.injEq,
        exists_eq_left', reduceCtorEq, false_and, or_false, hkin]
      constructor
      · rintro ⟨rfl, -, h1, rfl, rfl⟩
        refine ⟨⟨rfl, fun q hq => h1 q ?_⟩, rfl, rfl⟩
        rw [MapAttr.sig, sig_eq]; exact hq
      · rintro ⟨⟨rfl, h1⟩, rfl, rfl⟩
        refine ⟨rfl, rfl, fun q hq => h1 q ?_, rfl, rfl⟩
        rw [MapAttr.sig, sig_eq] at hq; exact hq
    | none =>
      simp only [Option.map_none, chooseMap, MapOf, hm, reduceCtorEq, false_and, exists_false,
        false_or, true_and, hkin, hfilt]
      cases ho : outs.any isPartitioned with
      | true => simp
      | false =>
        simp only [Bool.false_eq_true, if_false, Except.ok.injEq, true_and]
        constructor
        · rintro ⟨rfl, -, h1, rfl, rfl⟩
          refine ⟨⟨rfl, fun n hn hk => ?_⟩, rfl, rfl⟩
          rw [hgensig] at h1
          have := (h1 _ (List.mem_map_of_mem hn)).2.2
          simp only [hk, if_true, Option.some.injEq] at this
          exact hc.hints this.symm
        · rintro ⟨⟨rfl, h1⟩, rfl, rfl⟩
          refine ⟨rfl, rfl, fun q hq => ?_, rfl, rfl⟩
          rw [hgensig] at hq
          obtain ⟨n, hn, rfl⟩ := List.mem_map.1 hq
          refine ⟨hn, ⟨rfl, rfl, .inr rfl⟩, ?_⟩
          simp only [if_neg (h1 n hn)]
  constructor
  · rintro ⟨inputs, sig, hints, bi, outs, m, msig, names, ⟨rfl, hfd⟩,
      ⟨items, r, outs', ks, hpar, hr, hone, ho, hk, hs, hx⟩, hval, hvm, hno, rfl⟩
    simp only [Prod.mk.injEq] at hx
    obtain ⟨rfl, rfl, rfl, rfl⟩ := hx
    have hpn := (validateParams_ok hpar).1
    have hn : ∀ p ∈ paramInputs f, NoClash d args.map.isSome p.name ∧ Keyword p := by
      intro p hpm
      obtain ⟨h1, h2⟩ := hpn p hpm
      refine ⟨?_, h2⟩
      rw [keys_inputs] at h1
      obtain ⟨⟨n, fd⟩, hfm, hnm⟩ := List.mem_map.1 h1
      obtain ⟨pv, _, _, _, _, _, _, hreq⟩ := mem_fieldsOf hfm
      simp only at hnm
      rw [← hnm]
      exact hreq (hfd n fd hfm).2.1
    have hfo := fieldsOf_noClash (d := d) fun pv hpv => (hn pv.1 (hmem pv hpv)).1
    have hin : (fieldsOf d args.map.isSome pvs).map (fun nf => (nf.1, nf.2.hint)) =
        pvs.map fun pv => (pv.1.name, pv.2.cls) := by
      rw [hfo, List.map_map]; rfl
    rw [hin] at hpar hvm hno
    rw [hitems hn] at hpar
    subst hpar
    rw [hof, hmap] at hvm
    obtain ⟨hvm, rfl, rfl⟩ := hvm
    refine ⟨r, outs, m, ks, hn, hr, hone, ho, hk, hs, hval, hvm, ?_⟩
    rw [hin, hof, hfo]
    rfl
  · rintro ⟨r, outs, m, ks, hn, hr, hone, ho, hk, hs, hval, hvm, rfl⟩
    have hfo := fieldsOf_noClash (d := d) fun pv hpv => (hn pv.1 (hmem pv hpv)).1
    have hin : (fieldsOf d args.map.isSome pvs).map (fun nf => (nf.1, nf.2.hint)) =
        pvs.map fun pv => (pv.1.name, pv.2.cls) := by
      rw [hfo, List.map_map]; rfl
    refine ⟨pvs.map fun pv => (pv.1.name, pv.2.cls), paramInputs f, d.hints.tuple r,
      pvs.map fun pv => (pv.1.name, pv.2), outs, m, m.sig d.hints, (m.sig d.hints).map (·.name),
      ⟨hin.symm, ?_⟩, ⟨_, r, outs, ks, (hitems hn _).2 rfl, hr, hone, ho, hk, hs, by rw [hof]⟩, hval,
      (hmap _ _ _ _).2 ⟨hvm, rfl, rfl⟩, ?_, ?_⟩
    · intro n fd hm
      rw [hfo] at hm
      obtain ⟨pv, hpv, he⟩ := List.mem_map.1 hm
      simp only [Prod.mk.injEq] at he
      obtain ⟨rfl, rfl⟩ := he
      obtain ⟨h, _, hvw⟩ := hv pv hpv
      exact ⟨(hc.artifact h _ hvw).2, rfl, (hc.artifact h _ hvw).1⟩
    · simp only [noUnusedFields, hkin]
      rw [if_pos]
      rw [List.all_eq_true]
      intro n hn
      rw [Bool.or_eq_true, List.contains_iff_mem]
      exact .inl hn
    · rw [hfo]
      rfl

end decorator

end Arti.PCls
