import Verif.Lemmas.ClassDecl

/-!
# C71: abstract classes and partition field classes
-/

namespace Arti.Props
open Arti Decl PyDict
variable {Ty Ann : Type} [DecidableEq Ty] [DecidableEq Ann]

private theorem any_iff {l : PyDict Str Attr} {a : Attr} :
    ((keys l).any fun n => get? l n == some a) = true ↔ ∃ n, get? l n = some a := by
  rw [List.any_eq_true]
  constructor
  · rintro ⟨n, _, h⟩; exact ⟨n, by simpa using h⟩
  · rintro ⟨n, h⟩
    exact ⟨n, List.mem_map.2 ⟨(n, a), get?_mem h, rfl⟩, by simpa using h⟩

/-- C71: after any program, `cls(…)` is refused for a class exactly if its own body says that it is
abstract, whatever its base classes say, or an abstract method of a base class is not overridden. -/
theorem C71_instantiated_iff (fieldAnn : Str → Ann) (ops : List (Op Ty Ann))
    (ho : ∀ op ∈ ops, op.WF) (c : Nat) (hc : c < (run fieldAnn ops).classes.length) :
    new (run fieldAnn ops) c = .ok () ↔
      (¬ MarkedAbstract (run fieldAnn ops) c ∧
        ∀ n, ¬ AttrIs (run fieldAnn ops) c n .abstractMethod) := by
  have hw := WF.run fieldAnn ho
  obtain ⟨k, hk⟩ : ∃ k, (run fieldAnn ops).classes[c]? = some k := ⟨_, List.getElem?_eq_getElem hc⟩
  have habs : k.abstract = k.body.abstract.getD false := by
    rcases hw.cls c k hk with ⟨_, d⟩ | ⟨_, _, _, _, _, d⟩ <;> exact d.abstract
  have hm : MarkedAbstract (run fieldAnn ops) c ↔ k.abstract = true := by
    rw [habs]
    constructor
    · rintro ⟨k', h1, h2⟩; rw [hk] at h1; cases h1; simp [h2]
    · intro h; refine ⟨k, hk, ?_⟩; cases hb : k.body.abstract <;> simp_all
  unfold new
  simp only [hk, hm]
  by_cases ha : k.abstract = true
  · simp [ha]
  · simp only [ha, Bool.false_eq_true, if_false, not_false_eq_true, true_and]
    rw [← not_exists]
    have : (∃ n, AttrIs (run fieldAnn ops) c n .abstractMethod) ↔
        ∃ n, get? k.attrs n = some .abstractMethod :=
      exists_congr fun n => (hw.attrIs hk n _).symm
    rw [this, ← any_iff]
    split <;> simp_all

/-- C71: after any program, the partition field class for a `Type` class is found exactly if it is
a subclass of `PartitionField` that is not abstract and has that `matching_type`, set by itself or
inherited. -/
theorem C71_field_class_found_iff (fieldAnn : Str → Ann) (ops : List (Op Ty Ann))
    (ho : ∀ op ∈ ops, op.WF) (t : Ty) (c : Nat) :
    getClassFor (run fieldAnn ops) t = .ok c ↔
      (Sub (run fieldAnn ops) c partitionField ∧ ¬ MarkedAbstract (run fieldAnn ops) c ∧
        MatchingType (run fieldAnn ops) c t) := by
  have hw := WF.run fieldAnn ho
  have h1 : getClassFor (run fieldAnn ops) t = .ok c ↔
      get? (run fieldAnn ops).byType t = some c := by
    unfold getClassFor; cases get? (run fieldAnn ops).byType t <;> simp
  rw [h1, hw.registry]
  constructor
  · rintro ⟨k, hk, hkd, ha, hm⟩
    refine ⟨(hw.kind_iff 1 .field (by simp [rootKind]) hk).1 hkd, ?_, (hw.matchingType hk t).1 hm⟩
    rintro ⟨k', hk', hab⟩
    rw [hk] at hk'; cases hk'
    have habs : k.abstract = k.body.abstract.getD false := by
      rcases hw.cls c k hk with ⟨_, d⟩ | ⟨_, _, _, _, _, d⟩ <;> exact d.abstract
    rw [habs, hab] at ha; cases ha
  · rintro ⟨hs, hna, hm⟩
    obtain ⟨k, hk⟩ : ∃ k, (run fieldAnn ops).classes[c]? = some k := by
      cases hs with
      | refl h => exact ⟨_, h⟩
      | base h _ _ => exact ⟨_, h⟩
    refine ⟨k, hk, (hw.kind_iff 1 .field (by simp [rootKind]) hk).2 hs, ?_,
      (hw.matchingType hk t).2 hm⟩
    have habs : k.abstract = k.body.abstract.getD false := by
      rcases hw.cls c k hk with ⟨_, d⟩ | ⟨_, _, _, _, _, d⟩ <;> exact d.abstract
    rw [habs]
    cases hb : k.body.abstract with
    | none => rfl
    | some b => cases b <;> first | rfl | exact absurd ⟨k, hk, hb⟩ hna

/-- C71: so at most one partition field class that is not abstract has a given `matching_type`. -/
theorem C71_one_field_class_for_a_type (fieldAnn : Str → Ann) (ops : List (Op Ty Ann))
    (ho : ∀ op ∈ ops, op.WF) (t : Ty) (c c' : Nat)
    (h : Sub (run fieldAnn ops) c partitionField ∧ ¬ MarkedAbstract (run fieldAnn ops) c ∧
        MatchingType (run fieldAnn ops) c t)
    (h' : Sub (run fieldAnn ops) c' partitionField ∧ ¬ MarkedAbstract (run fieldAnn ops) c' ∧
        MatchingType (run fieldAnn ops) c' t) : c = c' := by
  have h1 := (C71_field_class_found_iff fieldAnn ops ho t c).2 h
  rw [(C71_field_class_found_iff fieldAnn ops ho t c').2 h'] at h1
  injection h1 with h1
  exact h1.symm

private theorem declare_byType {w w' : Classes Ty Ann} {base : Nat} {b : Body Ty Ann}
    (h : declare w base b = .ok w') {t : Ty} {c : Nat} (hg : get? w.byType t = some c) :
    get? w'.byType t = some c := by
  unfold declare at h
  cases hq : w.classes[base]? with
  | none => simp [hq] at h
  | some q =>
    simp only [hq] at h
    cases hk : (derive q base b).kind with
    | field =>
      simp only [hk, bind, Except.bind] at h
      cases hf : fieldHook w.byType w.classes.length (derive q base b) with
      | error e => simp [hf] at h
      | ok r =>
        simp only [hf, Except.ok.injEq] at h
        subst h
        rcases fieldHook_ok hf with ⟨_, rfl⟩ | ⟨_, d, t0, _, _, _, hn, rfl⟩
        · exact hg
        · rw [get?_set]
          split
          · rename_i he; subst he; rw [hn] at hg; cases hg
          · exact hg
    | storage =>
      simp only [hk, bind, Except.bind] at h
      split at h
      · cases h
      · cases h; exact hg
    | model => simp only [hk, Except.ok.injEq] at h; subst h; exact hg
    | partition => simp only [hk, Except.ok.injEq] at h; subst h; exact hg

/-- C71: the class that is found for a type is the same after any further declarations, accepted
or refused. -/
theorem C71_found_class_never_changes (fieldAnn : Str → Ann) (ops more : List (Op Ty Ann))
    (t : Ty) (c : Nat) (h : getClassFor (run fieldAnn ops) t = .ok c) :
    getClassFor (run fieldAnn (ops ++ more)) t = .ok c := by
  unfold run at h ⊢
  rw [List.foldl_append]
  generalize ops.foldl step (init fieldAnn) = w at h ⊢
  have key : ∀ w : Classes Ty Ann, getClassFor w t = .ok c ↔ get? w.byType t = some c := fun w => by
    unfold getClassFor; cases get? w.byType t <;> simp
  induction more generalizing w with
  | nil => exact h
  | cons op more ih =>
    refine ih _ ?_
    rw [key] at h ⊢
    unfold step
    cases op with
    | declare base b =>
      cases hr : declare w base b with
      | error e => simpa only [hr] using h
      | ok w' => simpa only [hr] using declare_byType hr h
    | subscript base item =>
      cases hr : subscript w base item with
      | error e => simpa only [hr] using h
      | ok w' =>
        simp only [hr]
        unfold subscript at hr
        split at hr
        · split at hr
          · simp only [bind, Except.bind] at hr
            split at hr
            · cases hr
            · cases hr; exact h
          · cases hr
        · cases hr

/-- C71: a subclass of `PartitionField` that is not abstract is accepted exactly if it has
`default_components` and a `matching_type`, every default component is a field or a
`field_component` of it, and no class was found for its type before; `w'` is what the program
would see. -/
theorem C71_field_class_accepted_iff (fieldAnn : Str → Ann) (ops : List (Op Ty Ann))
    (ho : ∀ op ∈ ops, op.WF) (base : Nat) (b : Body Ty Ann) (hb : b.WF)
    (hbase : Sub (run fieldAnn ops) base partitionField) (hna : b.abstract ≠ some true) :
    (∃ w', declare (run fieldAnn ops) base b = .ok w') ↔
      ∃ d t, (b.defaults = some d ∨
          b.defaults = none ∧ DefaultComponents (run fieldAnn ops) base d) ∧
        (b.matching = some t ∨ b.matching = none ∧ MatchingType (run fieldAnn ops) base t) ∧
        (∀ n ∈ keys d, n ∈ keys b.fields ∨ (∃ a, FieldIs (run fieldAnn ops) base n a) ∨
          get? b.attrs n = some .component ∨
          (get? b.attrs n = none ∧ AttrIs (run fieldAnn ops) base n .component)) ∧
        getClassFor (run fieldAnn ops) t = .error .keyError := by
  have hw := WF.run fieldAnn ho
  generalize run fieldAnn ops = w at *
  obtain ⟨q, hq⟩ : ∃ q, w.classes[base]? = some q := by
    cases hbase with
    | refl h => exact ⟨_, h⟩
    | base h _ _ => exact ⟨_, h⟩
  have hkd : q.kind = .field := (hw.kind_iff 1 .field (by simp [rootKind]) hq).2 hbase
  have hkd' : (derive q base b).kind = .field := hkd
  have ha : (derive q base b).abstract = false := by
    cases hb : b.abstract with
    | none => simp [derive, hb]
    | some x => cases x <;> simp_all [derive]
  have hd := derived_derive (base := base) hb (hw.nodup hq).1 (hw.nodup hq).2
  have hcomp : ∀ n, n ∈ components (derive q base b) ↔
      (n ∈ keys b.fields ∨ (∃ a, FieldIs w base n a) ∨
          get? b.attrs n = some .component ∨
          (get? b.attrs n = none ∧ AttrIs w base n .component)) := by
    intro n
    have hf : n ∈ keys (derive q base b).fields ↔
        (n ∈ keys b.fields ∨ ∃ a, FieldIs w base n a) := by
      have h1 : ∀ d : PyDict Str Ann, n ∈ keys d ↔ (get? d n).isSome := fun d => by
        have := get?_eq_none_iff d n
        cases hg : get? d n <;> simp_all
      rw [h1, hd.fields, h1]
      have h2 : (∃ a, FieldIs w base n a) ↔ (get? q.fields n).isSome := by
        rw [Option.isSome_iff_exists]
        exact exists_congr fun a => (hw.fieldIs hq n a).symm
      rw [h2]
      simp only [Option.bind_some]
      change ((get? b.fields n).or (get? q.fields n)).isSome ↔ _
      cases get? b.fields n <;> simp
    have hA : (n ∈ (keys (derive q base b).attrs).filter
          fun n => get? (derive q base b).attrs n == some .component) ↔
        (get? b.attrs n = some .component ∨
          (get? b.attrs n = none ∧ AttrIs w base n .component)) := by
      rw [List.mem_filter, ← hw.attrIs hq]
      have h3 : (n ∈ keys (derive q base b).attrs ∧
          (get? (derive q base b).attrs n == some .component) = true) ↔
          get? (derive q base b).attrs n = some .component := by
        constructor
        · rintro ⟨_, h⟩; simpa using h
        · intro h; exact ⟨List.mem_map.2 ⟨(n, _), get?_mem h, rfl⟩, by simpa using h⟩
      rw [h3, hd.attrs]
      change (get? b.attrs n).or (get? q.attrs n) = _ ↔ _
      cases get? b.attrs n <;> simp
    unfold components
    rw [List.mem_append, hf, hA, or_assoc]
  have hdef : ∀ d, (derive q base b).defaults = some d ↔
      (b.defaults = some d ∨ b.defaults = none ∧ DefaultComponents w base d) := fun d => by
    rw [← hw.defaultComponents hq]
    simp only [derive]; cases b.defaults <;> simp
  have hmat : ∀ t, (derive q base b).matching = some t ↔
      (b.matching = some t ∨ b.matching = none ∧ MatchingType w base t) := fun t => by
    rw [← hw.matchingType hq]
    simp only [derive]; cases b.matching <;> simp
  have hgc : ∀ t, getClassFor w t = .error .keyError ↔ get? w.byType t = none := fun t => by
    unfold getClassFor; cases get? w.byType t <;> simp
  have hok : (∃ w', declare w base b = .ok w') ↔
      ∃ r, fieldHook w.byType w.classes.length (derive q base b) = .ok r := by
    unfold declare
    simp only [hq, hkd', bind, Except.bind]
    cases fieldHook w.byType w.classes.length (derive q base b) <;> simp
  rw [hok]
  simp only [← hdef, ← hmat, ← hcomp, hgc]
  constructor
  · rintro ⟨r, hr⟩
    rcases fieldHook_ok hr with ⟨h1, _⟩ | ⟨_, d, t, h1, h2, h3, h4, _⟩
    · rw [ha] at h1; cases h1
    · exact ⟨d, t, h1, h2, h3, h4⟩
  · rintro ⟨d, t, h1, h2, h3, h4⟩
    refine ⟨PyDict.set w.byType t w.classes.length, ?_⟩
    unfold fieldHook
    simp only [ha, h1, h2, Bool.false_eq_true, if_false]
    rw [if_neg]
    · simp [register, h4]
    · rw [List.any_eq_true]
      rintro ⟨n, hn, hc⟩
      have := h3 n hn
      simp at hc
      exact hc this

/-- C71: a subclass of a partition field class that is found for a type, without an own
`matching_type` and not marked abstract, is refused. -/
theorem C71_subclass_needs_its_own_type (fieldAnn : Str → Ann) (ops : List (Op Ty Ann))
    (ho : ∀ op ∈ ops, op.WF) (t : Ty) (c : Nat)
    (hf : getClassFor (run fieldAnn ops) t = .ok c) (b : Body Ty Ann) (hb : b.WF)
    (hna : b.abstract ≠ some true) (hm : b.matching = none) (w' : Classes Ty Ann) :
    declare (run fieldAnn ops) c b ≠ .ok w' := by
  intro h
  obtain ⟨hs, _, hmt⟩ := (C71_field_class_found_iff fieldAnn ops ho t c).1 hf
  obtain ⟨d, t', _, ht', _, hk⟩ :=
    (C71_field_class_accepted_iff fieldAnn ops ho c b hb hs hna).1 ⟨w', h⟩
  have hw := WF.run fieldAnn ho
  obtain ⟨k, hk'⟩ : ∃ k, (run fieldAnn ops).classes[c]? = some k := by
    cases hs with
    | refl h => exact ⟨_, h⟩
    | base h _ _ => exact ⟨_, h⟩
  have h1 := (hw.matchingType hk' t).2 hmt
  rcases ht' with h2 | ⟨_, h2⟩
  · rw [hm] at h2; cases h2
  · have h3 := (hw.matchingType hk' t').2 h2
    rw [h1] at h3; cases h3
    rw [hf] at hk; cases hk

/-- C71: every default component of a partition field class that is found for a type is a field or
a `field_component` of it. -/
theorem C71_default_components_exist (fieldAnn : Str → Ann) (ops : List (Op Ty Ann))
    (ho : ∀ op ∈ ops, op.WF) (t : Ty) (c : Nat)
    (hf : getClassFor (run fieldAnn ops) t = .ok c) :
    ∃ d, DefaultComponents (run fieldAnn ops) c d ∧
      ∀ n ∈ keys d, IsComponent (run fieldAnn ops) c n := by
  have hw := WF.run fieldAnn ho
  have h1 : get? (run fieldAnn ops).byType t = some c := by
    unfold getClassFor at hf; cases hg : get? (run fieldAnn ops).byType t <;> simp_all
  obtain ⟨k, hk, hkd, ha, hm⟩ := (hw.registry t c).1 h1
  obtain ⟨d, hd, hc⟩ := hw.comps c k hk hkd ha
  refine ⟨d, (hw.defaultComponents hk d).1 hd, fun n hn => ?_⟩
  have := hc n hn
  unfold components at this
  rcases List.mem_append.1 this with h2 | h2
  · refine .inl ?_
    obtain ⟨⟨n', a⟩, hm', rfl⟩ := List.mem_map.1 h2
    exact ⟨a, (hw.fieldIs hk _ a).1 (get?_of_mem (hw.nodup hk).1 hm')⟩
  · refine .inr ((hw.attrIs hk n _).1 ?_)
    simpa using (List.mem_filter.1 h2).2

/-- Specification: the attribute that `'{x.SPEC}'.format(x=…)` looks up: `SPEC` up to the first
character that ends a name in a replacement field. -/
def specAttribute (spec : Str) : Str :=
  spec.takeWhile fun ch => !['.', '[', '!', ':', '}'].contains ch

namespace Ex71

/-- The partition field classes of the package (`partitions/__init__.py:75-158`): `Date` is type 10,
`Int8` 11, `Int16` 12; the annotation of `date` is 0 and that of `int` is 1.  The last but one
declaration is a subclass of `DateField` without an own type, the last one a field class whose
default component does not exist. -/
def ops : List (Op Nat Nat) :=
  let fc : Str × Attr := ("from_components".toList, .other)
  [.declare 1 {
      fields := [("value".toList, 0)],
      attrs := [("iso".toList, .component), ("Y".toList, .component), ("m".toList, .component),
        ("d".toList, .component), fc],
      defaults := some [("Y".toList, "Y".toList), ("m".toList, "m:02".toList),
        ("d".toList, "d:02".toList)],
      matching := some 10 },
   .declare 1 {
      abstract := some true, fields := [("value".toList, 1)],
      attrs := [("hex".toList, .component), fc],
      defaults := some [("value".toList, "value".toList)] },
   .declare 5 { matching := some 11 },
   .declare 5 { matching := some 12 },
   .declare 4 { attrs := [("week".toList, .component)] },
   .declare 5 { matching := some 13, defaults := some [("oct".toList, "oct".toList)] }]

/-- The annotations of the fields of `StoragePartition`. -/
def ann : Str → Nat := fun n => 100 + n.length

theorem wf : ∀ op ∈ ops, op.WF := by
  intro op h
  simp only [ops, List.mem_cons, List.not_mem_nil, or_false] at h
  rcases h with rfl | rfl | rfl | rfl | rfl | rfl <;>
    exact ⟨by simp [keys], by simp [keys]⟩

/-- The field classes are found for their types, the abstract one is not instantiated, and the last
two declarations are refused. -/
example : getClassFor (run ann ops) 10 = .ok 4 ∧ getClassFor (run ann ops) 11 = .ok 6 ∧
    getClassFor (run ann ops) 12 = .ok 7 ∧ getClassFor (run ann ops) 13 = .error .keyError ∧
    new (run ann ops) 4 = .ok () ∧ new (run ann ops) 5 = .error .typeError ∧
    new (run ann ops) 6 = .ok () ∧ new (run ann ops) 2 = .error .typeError ∧
    (run ann ops).classes.length = 8 := by
  decide +kernel

/-- An abstract subclass of a class that is found is accepted, and so is a subclass with its own
type. -/
example : (∃ w', declare (run ann ops) 6 { abstract := some true } = .ok w') ∧
    ∃ w', declare (run ann ops) 6 { matching := some 13 } = .ok w' :=
  ⟨⟨_, rfl⟩, ⟨_, rfl⟩⟩

/-- The hypotheses of `C71_subclass_needs_its_own_type` hold here. -/
example (w' : Classes Nat Nat) :
    declare (run ann ops) 6 { attrs := [("oct".toList, .component)] } ≠ .ok w' :=
  C71_subclass_needs_its_own_type ann ops wf 11 6 (by decide +kernel) _
    ⟨by simp [keys], by simp [keys]⟩ (by simp) rfl w'

/-- A field class with the default component `Y`, shown as `{….Q}`. -/
def bad : List (Op Nat Nat) :=
  [.declare 1 {
      attrs := [("Y".toList, .component), ("from_components".toList, .other)],
      defaults := some [("Y".toList, "Q".toList)], matching := some 10 }]

theorem bad_wf : ∀ op ∈ bad, op.WF := by
  intro op h
  simp only [bad, List.mem_cons, List.not_mem_nil, or_false] at h
  subst h
  exact ⟨by simp [keys], by simp [keys]⟩

end Ex71

/-- C71 is violated: the default template that a partition field class gives to storages can refer
to an attribute that the class does not have, since only the names of the default components are
checked, not what they are formatted as: the class is accepted, found and instantiated, but each
path that is formatted with the default template raises. -/
theorem C71_violated_by_unchecked_component_spec :
    ∃ (ops : List (Op Nat Nat)) (t c : Nat) (d : PyDict Str Str) (n spec : Str),
      (∀ op ∈ ops, op.WF) ∧ getClassFor (run Ex71.ann ops) t = .ok c ∧
      new (run Ex71.ann ops) c = .ok () ∧
      DefaultComponents (run Ex71.ann ops) c d ∧ get? d n = some spec ∧
      (∀ a, ¬ FieldIs (run Ex71.ann ops) c (specAttribute spec) a) ∧
      ∀ a, ¬ AttrIs (run Ex71.ann ops) c (specAttribute spec) a := by
  have hw := WF.run (Ty := Nat) Ex71.ann Ex71.bad_wf
  have hk : (run Ex71.ann Ex71.bad).classes[4]? =
      some ((run Ex71.ann Ex71.bad).classes[4]'(by decide +kernel)) :=
    List.getElem?_eq_getElem _
  refine ⟨Ex71.bad, 10, 4, [("Y".toList, "Q".toList)], "Y".toList, "Q".toList, Ex71.bad_wf,
    by decide +kernel, by decide +kernel, (hw.defaultComponents hk _).1 (by decide +kernel), rfl,
    fun a => ?_, fun a => ?_⟩
  · rw [← hw.fieldIs hk]
    have : get? ((run Ex71.ann Ex71.bad).classes[4]'(by decide +kernel)).fields
        (specAttribute "Q".toList) = none := by decide +kernel
    rw [this]; simp
  · rw [← hw.attrIs hk]
    have : get? ((run Ex71.ann Ex71.bad).classes[4]'(by decide +kernel)).attrs
        (specAttribute "Q".toList) = none := by decide +kernel
    rw [this]; simp

/-- C71 (partial): if each default component is formatted as itself (with a format specification or
not, as in the package), the attributes that the default template refers to exist. -/
theorem C71_default_template_attributes_exist_partial (fieldAnn : Str → Ann)
    (ops : List (Op Ty Ann)) (ho : ∀ op ∈ ops, op.WF) (t : Ty) (c : Nat)
    (hf : getClassFor (run fieldAnn ops) t = .ok c) (d : PyDict Str Str)
    (hd : DefaultComponents (run fieldAnn ops) c d)
    (hself : ∀ n spec, (n, spec) ∈ d → specAttribute spec = n) (n spec : Str)
    (hn : (n, spec) ∈ d) : IsComponent (run fieldAnn ops) c (specAttribute spec) := by
  obtain ⟨d', hd', h⟩ := C71_default_components_exist fieldAnn ops ho t c hf
  have hw := WF.run fieldAnn ho
  have : d = d' := by
    obtain ⟨k, hk⟩ : ∃ k, (run fieldAnn ops).classes[c]? = some k := by
      cases hd with
      | own h _ => exact ⟨_, h⟩
      | inherited h _ _ _ => exact ⟨_, h⟩
    have h1 := (hw.defaultComponents hk d).2 hd
    rw [(hw.defaultComponents hk d').2 hd'] at h1
    injection h1 with h1; exact h1.symm
  subst this
  rw [hself n spec hn]
  exact h n (List.mem_map.2 ⟨(n, spec), hn, rfl⟩)

/-- The field classes of the package meet the hypotheses. -/
example : ∃ d, DefaultComponents (run Ex71.ann Ex71.ops) 4 d ∧
    ∀ n spec, (n, spec) ∈ d → specAttribute spec = n ∧
      IsComponent (run Ex71.ann Ex71.ops) 4 (specAttribute spec) := by
  have hf : getClassFor (run Ex71.ann Ex71.ops) 10 = .ok 4 := by decide +kernel
  have hw := WF.run (Ty := Nat) Ex71.ann Ex71.wf
  have hk : (run Ex71.ann Ex71.ops).classes[4]? =
      some ((run Ex71.ann Ex71.ops).classes[4]'(by decide +kernel)) :=
    List.getElem?_eq_getElem _
  have hd : DefaultComponents (run Ex71.ann Ex71.ops) 4 [("Y".toList, "Y".toList),
      ("m".toList, "m:02".toList), ("d".toList, "d:02".toList)] :=
    (hw.defaultComponents hk _).1 (by decide +kernel)
  have hs : ∀ n spec, (n, spec) ∈ [("Y".toList, "Y".toList),
      ("m".toList, "m:02".toList), ("d".toList, "d:02".toList)] → specAttribute spec = n := by
    intro n spec h
    simp only [List.mem_cons, Prod.mk.injEq, List.not_mem_nil, or_false] at h
    rcases h with ⟨rfl, rfl⟩ | ⟨rfl, rfl⟩ | ⟨rfl, rfl⟩ <;> decide
  exact ⟨_, hd, fun n spec h => ⟨hs n spec h,
    C71_default_template_attributes_exist_partial _ _ Ex71.wf 10 4 hf _ hd hs n spec h⟩⟩

end Arti.Props
