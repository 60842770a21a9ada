import Verif.Spec.ProducerClass
import Verif.Lemmas.Dict
import Mathlib.Data.List.Forall2
import Mathlib.Data.List.Perm.Subperm

/-!
# Lemmas about the validation of producer classes
-/

namespace Arti.PCls
open PyDict Spec

variable {H : Type} [DecidableEq H] {env : Hints H}

theorem mapE_forall₂ {α β : Type} {f : α → Except Err β} : ∀ {l : List α} {r : List β},
    mapE f l = .ok r → List.Forall₂ (fun a b => f a = .ok b) l r
  | [], r, h => by
    simp only [mapE, Except.ok.injEq] at h
    subst h; exact .nil
  | a :: l, r, h => by
    simp only [mapE, bind, Except.bind] at h
    cases ha : f a with
    | error e => simp [ha] at h
    | ok b =>
      simp only [ha] at h
      cases hl : mapE f l with
      | error e => simp [hl] at h
      | ok bs =>
        simp only [hl, Except.ok.injEq] at h
        subst h
        exact .cons ha (mapE_forall₂ hl)

theorem mapE_mem {α β : Type} {f : α → Except Err β} {l : List α} {r : List β}
    (h : mapE f l = .ok r) {a : α} (ha : a ∈ l) : ∃ b ∈ r, f a = .ok b := by
  have := mapE_forall₂ h
  induction this with
  | nil => simp at ha
  | cons hab _ ih =>
    rcases List.mem_cons.1 ha with rfl | ha
    · exact ⟨_, by simp, hab⟩
    · have h' := ‹mapE f _ = .ok _›
      simp only [mapE, bind, Except.bind, hab] at h'
      cases hl : mapE f ‹List α› with
      | error e => simp [hl] at h'
      | ok bs =>
        simp only [hl, Except.ok.injEq, List.cons.injEq, true_and] at h'
        subst h'
        obtain ⟨b, hb, hf⟩ := ih hl ha
        exact ⟨b, List.mem_cons_of_mem _ hb, hf⟩

theorem validateFields_ok {fields : PyDict Str (FieldDef H)} {inputs : PyDict Str H}
    (h : validateFields env fields = .ok inputs) :
    inputs = fields.map (fun nf => (nf.1, nf.2.hint)) ∧
    ∀ n f, (n, f) ∈ fields → env.optional f.hint = false ∧ f.required = true ∧
      env.isArtifact f.hint = true := by
  simp only [validateFields, bind, Except.bind] at h
  cases hm : mapE (fun (kv : Str × FieldDef H) => checkField env kv.2) fields with
  | error e => simp [hm] at h
  | ok r =>
    simp only [hm, Except.ok.injEq] at h
    refine ⟨h.symm, fun n f hf => ?_⟩
    obtain ⟨_, _, hc⟩ := mapE_mem hm hf
    simp only [checkField] at hc
    cases h1 : env.optional f.hint <;> simp [h1] at hc
    cases h2 : f.required <;> simp [h2] at hc
    cases h3 : env.isArtifact f.hint <;> simp [h3] at hc
    simp

theorem keys_inputs {fields : PyDict Str (FieldDef H)} :
    keys (fields.map (fun nf => (nf.1, nf.2.hint))) = keys fields := by
  simp [keys, List.map_map, Function.comp_def]

theorem contains_iff {κ ν : Type} [DecidableEq κ] {d : PyDict κ ν} {k : κ} :
    contains d k = true ↔ k ∈ keys d := by
  rw [contains, Option.isSome_iff_ne_none, Ne, get?_eq_none_iff, not_not]

theorem validateParams_ok {β : Type} {inputs : PyDict Str H} {sig : List (Param H)}
    {v : Str → H → Except Err β} {r : List β} (h : validateParams inputs sig v = .ok r) :
    (∀ p ∈ sig, p.name ∈ keys inputs ∧ Keyword p) ∧
    List.Forall₂ (fun p b => ∃ t, p.hint = some t ∧ v p.name t = .ok b) sig r := by
  simp only [validateParams] at h
  split at h
  · simp at h
  · rename_i hn
    have hf := mapE_forall₂ h
    have key : ∀ p b, checkParam v p = .ok b → Keyword p ∧
        ∃ t, p.hint = some t ∧ v p.name t = .ok b := by
      intro p b hb
      simp only [checkParam] at hb
      cases ht : p.hint with
      | none => simp [ht] at hb
      | some t =>
        simp only [ht] at hb
        cases hd : p.hasDefault <;> simp [hd] at hb
        by_cases hk : p.kind = .posOrKw ∨ p.kind = .kwOnly
        · simp only [hk, if_true] at hb
          exact ⟨⟨by simp [ht], hd, hk⟩, t, rfl, hb⟩
        · simp [hk] at hb
    refine ⟨fun p hp => ⟨?_, ?_⟩, ?_⟩
    · rw [← contains_iff]
      simp only [List.any_eq_true, Bool.not_eq_true', not_exists, not_and, Bool.not_eq_false] at hn
      exact hn p hp
    · obtain ⟨b, _, hb⟩ := mapE_mem h hp
      exact (key p b hb).1
    · exact hf.imp fun p b hb => (key p b hb).2

theorem mem_sig {f : Fn H} {p : Param H} : p ∈ f.sig ↔ p ∈ f.params ∧ ¬ IsOwner p.name := by
  simp [Fn.sig, IsOwner]

theorem fieldClasses_ok : ∀ {fs r : PyDict Str Nat}, fieldClasses env fs = .ok r →
    keys r = keys fs ∧ ∀ n, get? r n = (get? fs n).bind env.fieldClass
  | [], r, h => by
    simp only [fieldClasses, Except.ok.injEq] at h
    subst h; simp [keys]
  | (m, t) :: fs, r, h => by
    simp only [fieldClasses] at h
    cases hc : env.fieldClass t with
    | none => simp [hc] at h
    | some c =>
      simp only [hc, bind, Except.bind] at h
      cases hr : fieldClasses env fs with
      | error e => simp [hr] at h
      | ok r' =>
        simp only [hr, Except.ok.injEq] at h
        subst h
        obtain ⟨h1, h2⟩ := fieldClasses_ok hr
        refine ⟨by simpa [keys] using h1, fun n => ?_⟩
        by_cases hmn : m = n
        · subst hmn; simp [get?, hc]
        · simp [get?, hmn, h2]

theorem keyTypes_ok {v : Vw H} {r : PyDict Str Nat} (h : keyTypes env v = .ok r) :
    (∀ n, get? r n = scheme env v n) ∧ (∀ fs, v.fields = some fs → keys r = keys fs) ∧
    (v.fields = none → r = []) := by
  simp only [keyTypes] at h
  cases hv : v.fields with
  | none =>
    simp only [hv, Except.ok.injEq] at h
    subst h; simp [scheme, hv]
  | some fs =>
    simp only [hv] at h
    obtain ⟨h1, h2⟩ := fieldClasses_ok h
    refine ⟨fun n => by simp [scheme, hv, h2], fun fs' hfs => ?_, by simp⟩
    simp only [Option.some.injEq] at hfs
    rw [h1, hfs]

/-- Equal frozendicts have equal values. -/
theorem get?_of_fdEq {a b : PyDict Str Nat} (ha : (keys a).Nodup) (hb : (keys b).Nodup)
    (h : fdEq a b = true) (n : Str) : get? a n = get? b n := by
  simp only [fdEq, Bool.and_eq_true, beq_iff_eq, List.all_eq_true] at h
  obtain ⟨hl, hi⟩ := h
  have hsub : keys a ⊆ keys b := by
    intro k hk
    obtain ⟨kv, hkv, rfl⟩ := List.mem_map.1 hk
    have := hi kv hkv
    by_contra hc
    rw [(get?_eq_none_iff b kv.1).2 hc] at this
    simp at this
  have hsup : keys b ⊆ keys a := by
    have hp := (List.subperm_of_subset ha hsub).perm_of_length_le (by simp [keys, hl])
    exact hp.symm.subset
  cases hg : get? a n with
  | some v =>
    have := hi _ (get?_mem hg)
    exact this.symm
  | none =>
    rw [get?_eq_none_iff] at hg
    exact ((get?_eq_none_iff b n).2 fun hm => hg (hsup hm)).symm

/-- What an accepted build function looks like. -/
theorem validateBuild_ok {inputs : PyDict Str H} {build : Option (Fn H)} {sig : List (Param H)}
    {hints : List H} {bi : PyDict Str (Vw H)} {outs : List (Vw H)}
    (h : validateBuild env inputs build = .ok (sig, hints, bi, outs)) :
    ∃ f r, build = some f ∧ f.bound = true ∧ sig = f.sig ∧ f.ret = some r ∧ hints = env.tuple r ∧
      (∀ p ∈ f.sig, p.name ∈ keys inputs ∧ Keyword p) ∧
      (∀ n, n ∈ keys bi ↔ ∃ p ∈ f.sig, p.name = n) ∧
      (∀ p t v, p ∈ f.sig → p.hint = some t → get? bi p.name = some v →
        ∃ q t', q ∈ f.sig ∧ q.name = p.name ∧ q.hint = some t' ∧ ∃ fld, get? inputs p.name = some fld ∧
          env.readView t' fld = .ok v ∧ v.cls = fld) ∧
      List.Forall₂ (fun h v => env.writeView h = .ok v) hints outs ∧ outs ≠ [] ∧
      ∃ ks, List.Forall₂ (fun v k => keyTypes env v = .ok k) outs ks ∧ sameScheme ks = true := by
  simp only [validateBuild] at h
  cases build with
  | none => simp at h
  | some f =>
    simp only at h
    cases hb : f.bound <;> simp only [hb, Bool.not_false, Bool.not_true, if_true] at h
    · simp at h
    simp only [bind, Except.bind, Bool.false_eq_true, if_false] at h
    cases hp : validateParams inputs f.sig (buildParam env inputs) with
    | error e => simp [hp] at h
    | ok items =>
      simp only [hp] at h
      cases hr : f.ret with
      | none => simp [hr] at h
      | some r =>
        simp only [hr] at h
        split at h
        · simp at h
        cases ho : mapE env.writeView (env.tuple r) with
        | error e => simp [ho] at h
        | ok outs' =>
          simp only [ho] at h
          cases hk : mapE (keyTypes env) outs' with
          | error e => simp [hk] at h
          | ok ks =>
            simp only [hk] at h
            cases hs : sameScheme ks with
            | false => simp [hs] at h
            | true =>
              simp only [hs, if_true, Except.ok.injEq, Prod.mk.injEq] at h
              obtain ⟨rfl, rfl, rfl, rfl⟩ := h
              obtain ⟨h1, h2⟩ := validateParams_ok hp
              have hitem : ∀ (ps : List (Param H)) (its : List (Str × Vw H)),
                  List.Forall₂ (fun p b => ∃ t, p.hint = some t ∧
                    buildParam env inputs p.name t = .ok b) ps its →
                  (keys its = ps.map (·.name)) ∧ ∀ nv ∈ its, ∃ p t, p ∈ ps ∧ p.name = nv.1 ∧
                    p.hint = some t ∧ ∃ fld, get? inputs nv.1 = some fld ∧
                      env.readView t fld = .ok nv.2 ∧ nv.2.cls = fld := by
                intro ps its hf
                induction hf with
                | nil => simp [keys]
                | @cons p b ps its hpb _ ih =>
                  obtain ⟨t, ht, hb⟩ := hpb
                  simp only [buildParam] at hb
                  cases hg : get? inputs p.name with
                  | none => simp [hg] at hb
                  | some fld =>
                    simp only [hg, bind, Except.bind] at hb
                    cases hv : env.readView t fld with
                    | error e => simp [hv] at hb
                    | ok v =>
                      simp only [hv] at hb
                      by_cases hc : v.cls = fld
                      · simp only [hc, if_true, Except.ok.injEq] at hb
                        subst hb
                        refine ⟨by simpa [keys] using ih.1, fun nv hnv => ?_⟩
                        rcases List.mem_cons.1 hnv with rfl | hnv
                        · exact ⟨p, t, by simp, rfl, ht, fld, hg, hv, hc⟩
                        · obtain ⟨q, t', hq, rest⟩ := ih.2 nv hnv
                          exact ⟨q, t', List.mem_cons_of_mem _ hq, rest⟩
                      · simp [hc] at hb
              obtain ⟨hkeys, hits⟩ := hitem _ _ h2
              refine ⟨f, r, rfl, hb, rfl, hr, rfl, h1, fun n => ?_, ?_, mapE_forall₂ ho, ?_, ks,
                mapE_forall₂ hk, hs⟩
              · have : n ∈ keys (ofItems items) ↔ n ∈ keys items := by
                  rw [← not_iff_not, ← get?_eq_none_iff, ← get?_eq_none_iff, get?_ofItems,
                    get?_eq_none_iff, get?_eq_none_iff]
                  simp [keys]
                rw [this, hkeys]; simp
              · intro p t v hpm ht hg
                rw [get?_ofItems] at hg
                have hm := get?_mem hg
                rw [List.mem_reverse] at hm
                obtain ⟨q, t', hq, hn, hqt, rest⟩ := hits _ hm
                exact ⟨q, t', hq, hn, hqt, rest⟩
              · intro hnil
                subst hnil
                simp only [mapE, Except.ok.injEq] at hk
                subst hk
                simp [sameScheme] at hs

theorem sameScheme_get {outs : List (Vw H)} {ks : List (PyDict Str Nat)}
    (hf : List.Forall₂ (fun v k => keyTypes env v = .ok k) outs ks) (hs : sameScheme ks = true)
    (hnd : ∀ v ∈ outs, ∀ fs, v.fields = some fs → (keys fs).Nodup) :
    ∀ v ∈ outs, ∀ w ∈ outs, ∀ n, scheme env v n = scheme env w n := by
  have nd : ∀ v k, v ∈ outs → keyTypes env v = .ok k → (keys k).Nodup := by
    intro v k hv hk
    cases hfs : v.fields with
    | none => rw [(keyTypes_ok hk).2.2 hfs]; simp [keys]
    | some fs => rw [(keyTypes_ok hk).2.1 fs hfs]; exact hnd v hv fs hfs
  cases hf with
  | nil => simp
  | @cons v0 k0 outs ks h0 hrest =>
    simp only [sameScheme, List.all_eq_true] at hs
    have key : ∀ w ∈ v0 :: outs, ∀ n, scheme env w n = scheme env v0 n := by
      intro w hw n
      rcases List.mem_cons.1 hw with rfl | hw'
      · rfl
      · obtain ⟨k, hk, hkw⟩ : ∃ k ∈ ks, keyTypes env w = .ok k := by
          clear nd hnd hs hw
          induction hrest with
          | nil => simp at hw'
          | cons hab _ ih =>
            rcases List.mem_cons.1 hw' with rfl | hw'
            · exact ⟨_, by simp, hab⟩
            · obtain ⟨k, hk, h⟩ := ih hw'
              exact ⟨k, List.mem_cons_of_mem _ hk, h⟩
        rw [← (keyTypes_ok hkw).1, ← (keyTypes_ok h0).1]
        exact (get?_of_fdEq (nd v0 k0 (by simp) h0) (nd w k hw hkw) (hs k hk) n).symm
    intro v hv w hw n
    rw [key v hv n, key w hw n]

/-- What an accepted map function looks like. -/
theorem validateMap_ok {inputs : PyDict Str H} {bi : PyDict Str (Vw H)} {outs : List (Vw H)}
    {map : Option (MapAttr H)} {m : MapAttr H} {sig : List (Param H)} {names : List Str}
    (h : validateMap env inputs bi outs map = .ok (m, sig, names)) :
    sig = m.sig env ∧ m.bound = true ∧ names = sig.map (·.name) ∧
    (∀ p ∈ sig, p.name ∈ keys inputs ∧ Keyword p ∧ p.hint = some env.partitions) ∧
    (∀ m', map = some m' → m = m') ∧
    (map = none → outs.any isPartitioned = false ∧
      m = .gen ((keys inputs).filter fun n => contains bi n)) := by
  simp only [validateMap, bind, Except.bind] at h
  cases hm : chooseMap inputs bi outs map with
  | error e => simp [hm] at h
  | ok m' =>
    simp only [hm] at h
    cases hb : m'.bound <;> simp only [hb, Bool.not_false, Bool.not_true, if_true] at h
    · simp at h
    simp only [Bool.false_eq_true, if_false] at h
    cases hp : validateParams inputs (m'.sig env) (mapParam env) with
    | error e => simp [hp] at h
    | ok names' =>
      simp only [hp, Except.ok.injEq, Prod.mk.injEq] at h
      obtain ⟨rfl, rfl, rfl⟩ := h
      obtain ⟨h1, h2⟩ := validateParams_ok hp
      have hz : ∀ (ps : List (Param H)) (ns : List Str),
          List.Forall₂ (fun p b => ∃ t, p.hint = some t ∧ mapParam env p.name t = .ok b) ps ns →
          ns = ps.map (·.name) ∧ ∀ p ∈ ps, p.hint = some env.partitions := by
        intro ps ns hf
        induction hf with
        | nil => simp
        | cons hpb _ ih =>
          obtain ⟨t, ht, hb⟩ := hpb
          simp only [mapParam] at hb
          split at hb
          · rename_i hte
            simp only [Except.ok.injEq] at hb
            subst hb
            refine ⟨by simp [ih.1], fun p hp => ?_⟩
            rcases List.mem_cons.1 hp with rfl | hp
            · rw [ht, hte]
            · exact ih.2 p hp
          · simp at hb
      obtain ⟨hz1, hz2⟩ := hz _ _ h2
      refine ⟨rfl, hb, hz1, fun p hpm => ⟨(h1 p hpm).1, (h1 p hpm).2, hz2 p hpm⟩, ?_, ?_⟩
      · rintro m'' rfl
        simp only [chooseMap, Except.ok.injEq] at hm
        exact hm.symm
      · rintro rfl
        simp only [chooseMap] at hm
        split at hm
        · simp at hm
        · rename_i hno
          simp only [Except.ok.injEq] at hm
          exact ⟨by simpa using hno, hm.symm⟩

/-- All the checks that an accepted concrete class passed. -/
theorem initSubclass_ok {a : Attrs H} {i : Option (Derived H)} {c : Cls H}
    (h : initSubclass env a i = .ok c) (hc : a.abstract = false) :
    ∃ inputs sig hints bi outs m msig names,
      validateFields env a.fields = .ok inputs ∧
      validateBuild env inputs a.build = .ok (sig, hints, bi, outs) ∧
      validateValidate env hints a.validate = .ok () ∧
      validateMap env inputs bi outs a.map = .ok (m, msig, names) ∧
      noUnusedFields inputs sig msig = .ok () ∧
      c = ⟨{ a with map := some m }, some ⟨inputs, sig, bi, outs, msig, names⟩⟩ := by
  simp only [initSubclass, hc, Bool.false_eq_true, if_false, bind, Except.bind] at h
  cases h1 : validateFields env a.fields with
  | error e => simp [h1] at h
  | ok inputs =>
    simp only [h1] at h
    cases h2 : validateBuild env inputs a.build with
    | error e => simp [h2] at h
    | ok x =>
      obtain ⟨sig, hints, bi, outs⟩ := x
      simp only [h2] at h
      cases h3 : validateValidate env hints a.validate with
      | error e => simp [h3] at h
      | ok u =>
        simp only [h3] at h
        cases h4 : validateMap env inputs bi outs a.map with
        | error e => simp [h4] at h
        | ok y =>
          obtain ⟨m, msig, names⟩ := y
          simp only [h4] at h
          cases h5 : noUnusedFields inputs sig msig with
          | error e => simp [h5] at h
          | ok w =>
            simp only [h5, Except.ok.injEq] at h
            exact ⟨inputs, sig, hints, bi, outs, m, msig, names, rfl, h2, h3, h4, h5, by rw [← h, hc]⟩

end Arti.PCls
