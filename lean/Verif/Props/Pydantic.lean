import Verif.Lemmas.Pydantic
import Verif.Lemmas.ModelTable

/-!
# C63: pydantic models round-trip
-/

namespace Arti
namespace Props
open TH Typ Spec

variable {M : Models} (ids : Ids)

/-- C63: every supported type has a hint, in which structs are models, and the hint is converted back
to the widened type. -/
theorem C63_roundtrip_partial (hM : LawfulModels M) {t : Ty} (ht : ModelSupported M t) (h h' : Hints) :
    ∃ hint, pmToSystem M ids t h = .ok hint ∧
      ∀ limit, 3 * t.size ≤ limit → pmToArtigraph M ids limit hint h' = .ok (modelWiden t) :=
  ⟨mHint M ids t, pm_toSystem _ t (Nat.le_refl _) ht _ (Nat.le_refl _),
    pm_toArtigraph hM _ t (Nat.le_refl _) ht⟩

/-! ## What comes back -/

mutual
theorem modelWiden_of_exact (t : Ty) (h : ModelExact t) : modelWiden t = t := by
  cases t with
  | list e m => simp only [ModelExact] at h; simp [modelWiden, bareMeta_eq h.2, modelWiden_of_exact e h.1]
  | set e m => simp only [ModelExact] at h; simp [modelWiden, bareMeta_eq h.2, modelWiden_of_exact e h.1]
  | map k v m =>
    simp only [ModelExact] at h
    simp [modelWiden, bareMeta_eq h.2.2, modelWiden_of_exact k h.1, modelWiden_of_exact v h.2.1]
  | struct n fs m =>
    simp only [ModelExact] at h
    simp [modelWiden, modelWidenFields_of_exact fs h.1, h.2]
  | enum n t i m =>
    simp only [ModelExact] at h
    rw [modelWiden, widen_of_widened]
    · simpa only [Widened] using h
    all_goals simp
  | collection n e p c m => simp [ModelExact, Widened] at h
  | _ =>
    rw [modelWiden, widen_of_widened]
    · simpa only [ModelExact] using h
    all_goals simp
theorem modelWidenFields_of_exact (fs : List (Str × Ty)) (h : ModelExactFields fs) :
    modelWidenFields fs = fs := by
  match fs, h with
  | [], _ => rfl
  | (n, t) :: fs, h =>
    simp only [ModelExactFields] at h
    rw [modelWidenFields, h.1, modelWidenFields_of_exact fs h.2.2]
    simp only [Bool.false_eq_true, if_false, List.cons.injEq, and_true, Prod.mk.injEq, true_and]
    exact modelWiden_of_exactField n t h.2.1
theorem modelWiden_of_exactField (n : Str) (t : Ty) (h : ModelExactField n t) :
    (modelWiden t).rename n = t := by
  cases t with
  | struct n' fs m =>
    simp only [ModelExactField] at h
    simp [modelWiden, Ty.rename, modelWidenFields_of_exact fs h.2.1, h.2.2, h.1]
  | enum n' t i m =>
    simp only [ModelExactField] at h
    simp [modelWiden, widen, Ty.rename, h.1, widen_of_widened t h.2.1, setNullable_self h.2.2.1,
      bareMeta_eq h.2.2.2]
  | collection n' e p c m => simp [ModelExactField, ModelExact, Widened] at h
  | list e m =>
    simp only [ModelExactField, ModelExact] at h
    simp [modelWiden, bareMeta_eq h.2, modelWiden_of_exact e h.1, Ty.rename]
  | set e m =>
    simp only [ModelExactField, ModelExact] at h
    simp [modelWiden, bareMeta_eq h.2, modelWiden_of_exact e h.1, Ty.rename]
  | map k v m =>
    simp only [ModelExactField, ModelExact] at h
    simp [modelWiden, bareMeta_eq h.2.2, modelWiden_of_exact k h.1, modelWiden_of_exact v h.2.1, Ty.rename]
  | _ =>
    rw [modelWiden, widen_of_widened]
    · rfl
    · simpa only [ModelExactField, ModelExact] using h
    all_goals simp
end

theorem rename_null {t : Ty} {n : Str} : (t.rename n).isScalar .null = t.isScalar .null := by
  cases t <;> rfl

mutual
theorem exact_modelWiden (t : Ty) (h : ModelSupported M t) :
    (ModelExact (modelWiden t) ∧ ModelSupported M (modelWiden t) ∧
      (modelWiden t).isScalar .null = t.isScalar .null) ∧
    ∀ n, ModelExactField n ((modelWiden t).rename n) ∧
      ModelSupported M ((modelWiden t).rename n) := by
  cases t with
  | scalar s m =>
    simp only [ModelSupported] at h
    cases s <;> simp_all [hasPythonScalar, ModelSupported, ModelExact, ModelExactField, Widened,
      modelWiden, widen, bareMeta, Ty.isScalar, Ty.rename]
  | binary s m =>
    simp [ModelSupported, ModelExact, ModelExactField, Widened, modelWiden, widen, bareMeta,
      Ty.isScalar, Ty.rename]
  | timestamp s m =>
    simp [ModelSupported, ModelExact, ModelExactField, Widened, modelWiden, widen, bareMeta,
      Ty.isScalar, Ty.rename]
  | enum n t i m =>
    simp only [ModelSupported] at h
    obtain ⟨h1, h2, c, hc, hi⟩ := h
    simp only [modelWiden, widen, valueClass_widen hc, ModelExact, ModelExactField, ModelSupported,
      Ty.isScalar, Ty.rename]
    exact ⟨⟨⟨trivial, widened_classTy, nullable_classTy, rfl⟩,
      ⟨h1, h2, c, valueClass_classTy (valueClass_mem hc), hi⟩, trivial⟩,
      fun n => ⟨⟨trivial, widened_classTy, nullable_classTy, rfl⟩,
        ⟨h1, h2, c, valueClass_classTy (valueClass_mem hc), hi⟩⟩⟩
  | list e m =>
    simp only [ModelSupported] at h
    have := exact_modelWiden e h
    simp [ModelSupported, ModelExact, ModelExactField, modelWiden, bareMeta, Ty.isScalar, Ty.rename, this.1]
  | collection n e p c m =>
    simp only [ModelSupported] at h
    have := exact_modelWiden e h
    simp [ModelSupported, ModelExact, ModelExactField, modelWiden, bareMeta, Ty.isScalar, Ty.rename, this.1]
  | set e m =>
    simp only [ModelSupported] at h
    have := exact_modelWiden e h
    simp [ModelSupported, ModelExact, ModelExactField, modelWiden, bareMeta, Ty.isScalar, Ty.rename, this.1]
  | map k v m =>
    simp only [ModelSupported] at h
    have hk := exact_modelWiden k h.1
    have hv := exact_modelWiden v h.2
    simp [ModelSupported, ModelExact, ModelExactField, modelWiden, bareMeta, Ty.isScalar, Ty.rename,
      hk.1, hv.1]
  | struct n fs m =>
    simp only [ModelSupported] at h
    have := exactFields_modelWiden fs h
    simp [ModelSupported, ModelExact, ModelExactField, modelWiden, Ty.isScalar, Ty.rename, this]
  | _ => exact absurd h (by simp [ModelSupported])
theorem exactFields_modelWiden (fs : List (Str × Ty)) (h : ModelSupportedFields M fs) :
    ModelExactFields (modelWidenFields fs) ∧ ModelSupportedFields M (modelWidenFields fs) := by
  match fs, h with
  | [], _ => simp [modelWidenFields, ModelExactFields, ModelSupportedFields]
  | (n, t) :: fs, h =>
    simp only [ModelSupportedFields] at h
    have ht := exact_modelWiden t h.1.1
    have hf := exactFields_modelWiden fs h.2
    rw [modelWidenFields]
    cases hh : hiddenName n with
    | true => exact hf
    | false =>
      simp only [Bool.false_eq_true, if_false, ModelExactFields, ModelSupportedFields, hf, h.1.2,
        rename_null, ht.1.2.2, ht.2 n, hh, and_self]
end

/-- C63: a supported type comes back as it was exactly if models can express it. -/
theorem C63_exact_iff (hM : LawfulModels M) {t : Ty} (ht : ModelSupported M t) (h h' : Hints) :
    (∃ hint, pmToSystem M ids t h = .ok hint ∧
      ∀ limit, 3 * t.size ≤ limit → pmToArtigraph M ids limit hint h' = .ok t) ↔ ModelExact t := by
  obtain ⟨hint, h1, h2⟩ := C63_roundtrip_partial ids hM ht h h'
  constructor
  · rintro ⟨hint', h1', h2'⟩
    obtain rfl : hint = hint' := by rw [h1] at h1'; exact Except.ok.inj h1'
    have := Except.ok.inj ((h2 _ (Nat.le_refl _)).symm.trans (h2' _ (Nat.le_refl _)))
    rw [← this]
    exact (exact_modelWiden t ht).1.1
  · exact fun he => ⟨hint, h1, fun l hl => by rw [h2 l hl, modelWiden_of_exact t he]⟩

/-- C63: what comes back is supported and comes back from another round trip as it is. -/
theorem C63_widened_once (hM : LawfulModels M) {t : Ty} (ht : ModelSupported M t) (h h' : Hints) :
    ∃ hint, pmToSystem M ids (modelWiden t) h = .ok hint ∧
      ∀ limit, 3 * (modelWiden t).size ≤ limit →
        pmToArtigraph M ids limit hint h' = .ok (modelWiden t) := by
  have h1 := exact_modelWiden t ht
  exact (C63_exact_iff ids hM h1.1.2.1 h h').2 h1.1.1

/-! ## Models -/

theorem exceptBind_ok {α β : Type} {x : Except Err α} {f : α → Except Err β} {b : β}
    (h : (x >>= f) = .ok b) : ∃ a, x = .ok a ∧ f a = .ok b := by
  cases x with
  | error e => cases h
  | ok a => exact ⟨a, rfl, h⟩

theorem modelFields_ok {root : PyHint → Hints → Except Err Ty} {h : Hints} :
    ∀ {l : List (Str × PyHint)} {fs : List (Str × Ty)}, modelFields root h l = .ok fs →
      fs.map Prod.fst = l.map Prod.fst ∧ ∀ (i : Nat) n a, l[i]? = some (n, a) →
        ∃ t, root a h = .ok t ∧ fs[i]? = some (n, t.rename n)
  | [], fs, he => by
    rw [modelFields] at he
    obtain rfl := Except.ok.inj he
    exact ⟨rfl, fun i n a hi => by simp at hi⟩
  | (n, a) :: l, fs, he => by
    rw [modelFields] at he
    obtain ⟨t, ht, he⟩ := exceptBind_ok he
    obtain ⟨fs', hf, he⟩ := exceptBind_ok he
    obtain rfl := Except.ok.inj he
    obtain ⟨h1, h2⟩ := modelFields_ok hf
    refine ⟨by simp [h1], fun i n' a' hi => ?_⟩
    cases i with
    | zero =>
      simp only [List.getElem?_cons_zero, Option.some.injEq, Prod.mk.injEq] at hi
      obtain ⟨rfl, rfl⟩ := hi
      exact ⟨t, ht, by simp⟩
    | succ i =>
      simp only [List.getElem?_cons_succ] at hi ⊢
      exact h2 i n' a' hi

/-- C63: a model that has a type has as type a struct with the model's name and, in order, a field for
each field of the model: with the type of its annotation, under the name of the field if it has a
name. -/
theorem C63_model_fields {c : PyCls} (hc : baseModel ∈ PyCls.mro c) {limit : Nat} {h : Hints} {t : Ty}
    (ht : pmToArtigraph M ids limit (.cls c) h = .ok t) :
    ∃ fs, t = .struct (M.info c).1 fs {} ∧ fs.map Prod.fst = (M.info c).2.map Prod.fst ∧
      ∀ (i : Nat) n a, (M.info c).2[i]? = some (n, a) → ∃ u,
        pmToArtigraph M ids (limit - 1) a h = .ok u ∧ fs[i]? = some (n, u.rename n) := by
  cases limit with
  | zero => simp [pmToArtigraph, run] at ht
  | succ limit =>
    rw [pmToArtigraph, pmA_model hc] at ht
    obtain ⟨fs, hf, ht⟩ := exceptBind_ok ht
    obtain rfl := Except.ok.inj ht
    obtain ⟨h1, h2⟩ := modelFields_ok hf
    exact ⟨fs, rfl, h1, h2⟩

/-- C63: a struct with a field whose name pydantic refuses has no model. -/
theorem C63_refused_names {nm n : Str} {f : Ty} {fs : List (Str × Ty)} {m : Meta} {h : Hints}
    (hf : (n, f) ∈ fs) (hr : M.refused n = true) (x : PyHint) :
    pmToSystem M ids (.struct nm fs m) h ≠ .ok x := by
  intro he
  have h2 : 2 * (Ty.struct nm fs m).size = (2 * (Ty.struct nm fs m).size - 1) + 1 := by
    have := size_pos (Ty.struct nm fs m); omega
  rw [pmToSystem, h2, pmS_struct] at he
  obtain ⟨gs, hg, he⟩ := exceptBind_ok he
  rw [createModel] at he
  have key : ∀ {fs : List (Str × Ty)} {gs} {root : Ty → Except Err PyHint},
      convertFields root fs = .ok gs → gs.map Prod.fst = fs.map Prod.fst := by
    intro fs
    induction fs with
    | nil => intro gs root hg; rw [convertFields] at hg; obtain rfl := Except.ok.inj hg; rfl
    | cons x fs ih =>
      intro gs root hg
      obtain ⟨n, t⟩ := x
      rw [convertFields] at hg
      obtain ⟨t', _, hg⟩ := exceptBind_ok hg
      obtain ⟨fs', hf, hg⟩ := exceptBind_ok hg
      obtain rfl := Except.ok.inj hg
      simp [ih hf]
  have hm : n ∈ gs.map Prod.fst := by rw [key hg]; exact List.mem_map.2 ⟨_, hf, rfl⟩
  obtain ⟨⟨n', g⟩, hgm, rfl⟩ := List.mem_map.1 hm
  rw [if_pos (List.any_eq_true.2 ⟨_, hgm, hr⟩)] at he
  cases he

/-! ## Recursive models -/

/-- The hints made of a class in `S`: the class itself, lists, sets and dicts of such a hint, and such
a hint or `None`. -/
inductive Mentions (S : PyCls → Prop) : PyHint → Prop
  | cls {c} : S c → Mentions S (.cls c)
  | list {i a} : Mentions S a → Mentions S (.gen i .list [a])
  | set {i a} : Mentions S a → Mentions S (.gen i .set [a])
  | key {i a b} : Mentions S a → Mentions S (.gen i .dict [a, b])
  | value {i a b} : Mentions S b → Mentions S (.gen i .dict [a, b])
  | optional {i a} : Mentions S a → Mentions S (.union i [a, .cls .noneType])

theorem mentions_ne {S : PyCls → Prop} (hS : ∀ c, S c → baseModel ∈ PyCls.mro c) {a : PyHint}
    (h : Mentions S a) : a ≠ .cls .noneType := by
  cases h with
  | cls hc =>
    intro he
    injection he with he
    subst he
    exact absurd (hS _ hc) (by decide)
  | _ => simp

/-- C63: models that refer to each other in a circle (a model with a field that is itself, a list of
itself, itself or `None`, ...) have no type, however far the recursion may go. -/
theorem C63_recursive_models (S : PyCls → Prop)
    (hS : ∀ c, S c → baseModel ∈ PyCls.mro c ∧ ∃ f ∈ (M.info c).2, Mentions S f.2)
    {x : PyHint} (hx : Mentions S x) (limit : Nat) (h : Hints) (t : Ty) :
    pmToArtigraph M ids limit x h ≠ .ok t := by
  induction limit generalizing x t with
  | zero => simp [pmToArtigraph, run]
  | succ n ih =>
    intro he
    rw [pmToArtigraph] at he
    cases hx with
    | cls hc =>
      obtain ⟨hb, ⟨fn, a⟩, hf, hm⟩ := hS _ hc
      rw [pmA_model hb] at he
      obtain ⟨fs, hfs, _⟩ := exceptBind_ok he
      obtain ⟨i, hi⟩ := List.getElem?_of_mem hf
      obtain ⟨u, hu, _⟩ := (modelFields_ok hfs).2 i fn a hi
      exact ih hm _ hu
    | list hm =>
      rw [pmA_list] at he
      obtain ⟨u, hu, _⟩ := exceptBind_ok he
      exact ih hm _ hu
    | set hm =>
      rw [pmA_set] at he
      obtain ⟨u, hu, _⟩ := exceptBind_ok he
      exact ih hm _ hu
    | key hm =>
      rw [pmA_map] at he
      obtain ⟨u, hu, _⟩ := exceptBind_ok he
      exact ih hm _ hu
    | value hm =>
      rw [pmA_map] at he
      obtain ⟨_, _, he⟩ := exceptBind_ok he
      obtain ⟨u, hu, _⟩ := exceptBind_ok he
      exact ih hm _ hu
    | optional hm =>
      rw [pmA_optional (isSame_noneType (mentions_ne (fun c hc => (hS c hc).1) hm))] at he
      obtain ⟨u, hu, _⟩ := exceptBind_ok he
      exact ih hm _ hu

/-! ## What is lost -/

namespace Ex63

/-- A struct with a struct in it, under another name than its own. -/
def inner : Ty := .struct "Address".toList [("city".toList, .scalar .string {})] {}
def nestedNames : Ty := .struct "Person".toList [("home".toList, inner)] {}

theorem supported_nestedNames {M : Models} (hr : ∀ n, M.refused n = false) :
    ModelSupported M nestedNames := by
  simp [nestedNames, inner, ModelSupported, ModelSupportedFields, hasPythonScalar, Ty.isScalar, hr]

def nullableStruct : Ty := .list (.struct "Row".toList [("x".toList, .scalar .int64 {})] { nullable := true }) {}
def privateField : Ty :=
  .struct "Row".toList [("x".toList, .scalar .int64 {}), ("_y".toList, .scalar .int64 {})] {}

end Ex63

/-- The claim without the restriction: what Python hints express exactly survives. -/
def ModelsRoundTrip (ids : Ids) (M : Models) (t : Ty) : Prop :=
  ∀ h h' hint t' limit, pmToSystem M ids t h = .ok hint →
    pmToArtigraph M ids limit hint h' = .ok t' → t' = t

theorem violated_of {M : Models} (hM : LawfulModels M) {t : Ty} (ht : ModelSupported M t)
    (hne : modelWiden t ≠ t) : ¬ ModelsRoundTrip ids M t := by
  intro hr
  obtain ⟨hint, h1, h2⟩ := C63_roundtrip_partial ids hM ht [] []
  exact hne (hr [] [] hint _ _ h1 (h2 _ (Nat.le_refl _)))

/-- C63: the name of a struct inside a struct is replaced by the name of the field. -/
theorem C63_violated_by_nested_names : ∃ (M : Models) (t : Ty), LawfulModels M ∧ Widened t ∧
    ModelSupported M t ∧ ¬ ModelsRoundTrip ids M t := by
  obtain ⟨M, hM, hr⟩ := models_exist fun _ => false
  have hs := Ex63.supported_nestedNames (M := M) (by simp [hr])
  exact ⟨M, Ex63.nestedNames, hM, by simp [Ex63.nestedNames, Ex63.inner, Widened, WidenedFields], hs,
    violated_of ids hM hs (by simp [Ex63.nestedNames, Ex63.inner, Ty.rename, hiddenName, modelWiden, modelWidenFields])⟩

/-- C63: structs that may be null come back as structs that may not. -/
theorem C63_violated_by_nullable_structs : ∃ (M : Models) (t : Ty), LawfulModels M ∧ Widened t ∧
    ModelSupported M t ∧ ¬ ModelsRoundTrip ids M t := by
  obtain ⟨M, hM, hr⟩ := models_exist fun _ => false
  have hs : ModelSupported M Ex63.nullableStruct := by
    simp [Ex63.nullableStruct, ModelSupported, ModelSupportedFields, hasPythonScalar, Ty.isScalar, hr]
  exact ⟨M, Ex63.nullableStruct, hM, by simp [Ex63.nullableStruct, Widened, WidenedFields], hs,
    violated_of ids hM hs (by simp [Ex63.nullableStruct, modelWiden, modelWidenFields])⟩

/-- C63: fields with a leading underscore are lost. -/
theorem C63_violated_by_private_fields : ∃ (M : Models) (t : Ty), LawfulModels M ∧ Widened t ∧
    ModelSupported M t ∧ ¬ ModelsRoundTrip ids M t := by
  obtain ⟨M, hM, hr⟩ := models_exist fun _ => false
  have hs : ModelSupported M Ex63.privateField := by
    simp [Ex63.privateField, ModelSupported, ModelSupportedFields, hasPythonScalar, Ty.isScalar, hr]
  exact ⟨M, Ex63.privateField, hM, by simp [Ex63.privateField, Widened, WidenedFields], hs,
    violated_of ids hM hs (by simp [Ex63.privateField, hiddenName, modelWiden, modelWidenFields])⟩

namespace Ex63

/-- Something that survives: a struct of a list of structs, and a struct under its field's name. -/
def good : Ty := .struct "Person".toList [
  ("homes".toList, .list (.struct "Address".toList [("city".toList, .scalar .string { nullable := true })] {}) {}),
  ("kind".toList, .enum "kind".toList (.scalar .string {}) [.str "a".toList, .str "b".toList] {})] {}

example : ModelExact good ∧ ∃ M, LawfulModels M ∧ ModelSupported M good := by
  obtain ⟨M, hM, hr⟩ := models_exist fun n => n = "model_config".toList
  refine ⟨by simp [good, ModelExact, ModelExactFields, ModelExactField, Widened, hiddenName,
    Ty.nullable, Ty.info], M, hM, ?_⟩
  simp [good, ModelSupported, ModelSupportedFields, hasPythonScalar, Ty.isScalar, hr, valueClass, Lit.cls]

/-- A model of a tree: a label and a list of trees. -/
def tree : PyCls := .user 7 baseModel
example : ∃ M : Models, ∀ limit h t, pmToArtigraph M ids limit (.cls tree) h ≠ .ok t := by
  refine ⟨⟨fun _ => ("Tree".toList, [("label".toList, .cls .str), ("sub".toList, .gen 0 .list [.cls tree])]),
    fun _ _ => 0, fun _ => false⟩, fun limit h t => ?_⟩
  refine C63_recursive_models ids (· = tree) ?_ (.cls rfl) limit h t
  rintro c rfl
  exact ⟨by decide, _, List.mem_cons_of_mem _ List.mem_cons_self, .list (.cls rfl)⟩

end Ex63

end Props
end Arti
