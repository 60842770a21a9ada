import Verif.Lemmas.PythonTypes
import Verif.Spec.TypeSystem

/-!
# C48: Python type hints round-trip up to the documented widening
-/

namespace Arti
namespace Props
open TH Typ Spec
variable (ids : Ids)

/-- C48: every supported type, nested to any depth, is converted to a hint that is converted back to
the widened type. -/
theorem C48_roundtrip_widens_partial {t : Ty} (ht : Supported t) :
    ∃ hint, pyToSystem ids t = .ok hint ∧ pyToArtigraph ids hint = .ok (widen t) :=
  ⟨hintOf ids t, toSystem _ t (Nat.le_refl _) ht _ (Nat.le_refl _),
    toArtigraph _ t (Nat.le_refl _) ht _ (Nat.le_refl _)⟩

/-- C48: the round trip is the identity on widened types. -/
theorem C48_roundtrip_identity_on_widened {t : Ty} (ht : Supported t) (hw : Widened t) :
    ∃ hint, pyToSystem ids t = .ok hint ∧ pyToArtigraph ids hint = .ok t := by
  obtain ⟨hint, h1, h2⟩ := C48_roundtrip_widens_partial ids ht
  exact ⟨hint, h1, by rw [h2, widen_of_widened t hw]⟩

/-- C48: what comes back is widened and supported, so that further round trips change nothing, and it
has the same hint as the type it came from. -/
theorem C48_widened_once {t : Ty} (ht : Supported t) :
    Widened (widen t) ∧ Supported (widen t) ∧ widen (widen t) = widen t ∧
      pyToSystem ids (widen t) = pyToSystem ids t := by
  obtain ⟨hw, hs, _⟩ := widened_widen t ht
  refine ⟨hw, hs, widen_widen t, ?_⟩
  have h1 : pyToSystem ids (widen t) = .ok (hintOf ids (widen t)) :=
    toSystem _ _ (Nat.le_refl _) hs _ (Nat.le_refl _)
  have h2 : pyToSystem ids t = .ok (hintOf ids t) := toSystem _ _ (Nat.le_refl _) ht _ (Nat.le_refl _)
  rw [h1, h2, hintOf_widen ht]

/-- A nested case: a nullable collection of structs of a narrow integer, an enum and a nullable map. -/
def exampleTy : Ty :=
  .collection "c".toList (.struct "s".toList [
    ("a".toList, .scalar .int16 {}),
    ("b".toList, .enum "e".toList (.scalar .string {}) [.str "x".toList, .str "y".toList] {}),
    ("c".toList, .map (.scalar .date {}) (.timestamp .second { nullable := true })
      { nullable := true })] {}) [] [] { nullable := true, description := some "d".toList }

example : Supported exampleTy ∧ widen exampleTy =
    .list (.struct "s".toList [
      ("a".toList, .scalar .int64 {}),
      ("b".toList, .enum anon (.scalar .string {}) [.str "x".toList, .str "y".toList] {}),
      ("c".toList, .map (.scalar .date {}) (.timestamp .microsecond { nullable := true })
        { nullable := true })] {}) { nullable := true } := by
  refine ⟨?_, rfl⟩
  simp [exampleTy, Supported, SupportedFields, hasPythonScalar, Ty.isScalar, valueClass, Lit.cls]

/-! ## Enums and tuples -/

theorem frozenset_sub : ∀ (items : List Lit), ∀ x ∈ frozenset items, x ∈ items
  | [], x, h => by simp [frozenset] at h
  | y :: ys, x, h => by
    simp only [frozenset, List.mem_cons, List.mem_filter] at h
    rcases h with rfl | ⟨h, _⟩
    · exact List.mem_cons_self
    · exact List.mem_cons_of_mem _ (frozenset_sub ys x h)

theorem litEq_refl (x : Lit) : Lit.pyEq x x = true := by
  cases x <;> simp [Lit.pyEq]

theorem litEq_trans {x y z : Lit} (h1 : Lit.pyEq x y = true) (h2 : Lit.pyEq y z = true) :
    Lit.pyEq x z = true := by
  cases x <;> cases y <;> cases z <;> simp only [Lit.pyEq, decide_eq_true_eq, reduceCtorEq] at h1 h2 ⊢
  all_goals first
    | (rw [h1]; exact h2)
    | (injection h1 with h1; injection h2 with h2; rw [h1, h2])
    | (rename_i a b c; cases a <;> cases b <;> cases c <;> simp_all; done)
    | (rename_i a b c; cases a <;> cases c <;> simp_all; done)
    | simp_all

theorem frozenset_covers : ∀ (items : List Lit), ∀ y ∈ items,
    ∃ x ∈ frozenset items, Lit.pyEq x y = true
  | [], y, h => by simp at h
  | z :: zs, y, h => by
    rcases List.mem_cons.1 h with rfl | h
    · exact ⟨y, by simp [frozenset], litEq_refl y⟩
    · obtain ⟨x, hx, hxy⟩ := frozenset_covers zs y h
      by_cases hz : Lit.pyEq z x = true
      · exact ⟨z, by simp [frozenset], litEq_trans hz hxy⟩
      · refine ⟨x, ?_, hxy⟩
        simp only [frozenset, List.mem_cons, List.mem_filter]
        exact .inr ⟨hx, by simpa using hz⟩

theorem mismatched_of_all {py : PyHint} : ∀ {xs : List Lit},
    (∀ x ∈ xs, lenient PyCls.hier (.cls x.cls) py = .ok true) → mismatched py xs = .ok []
  | [], _ => rfl
  | x :: xs, h => by
    simp [mismatched, bind, Except.bind, h x (by simp), pure, Except.pure,
      mismatched_of_all fun y hy => h y (List.mem_cons_of_mem _ hy)]

theorem pyToSystem_valueClass {t : Ty} {c : PyCls} (hc : valueClass t = some c)
    (hn : t.info.nullable = false) : pyToSystem ids t = .ok (.cls c) := by
  have hs : Supported t := by
    cases t <;> simp [valueClass] at hc <;> simp only [Supported]
    rename_i s m
    cases s <;> simp_all [hasPythonScalar]
  have h : pyToSystem ids t = .ok (hintOf ids t) := toSystem _ _ (Nat.le_refl _) hs _ (Nat.le_refl _)
  rw [h]
  cases t <;> simp [valueClass] at hc <;> simp only [Ty.info] at hn <;>
    simp_all [hintOf, baseHint, Ty.info, Ty.nullable, Typ.optional]
  rename_i s m
  cases s <;> simp_all [scalarHint]

/-- C48: an `Enum` of values of a class can be made exactly if there is an item and the items, equal
ones kept once, are all instances of that class (of a subclass); so no enum has an item that is not a
value of its type. -/
theorem C48_enums_hold_values_of_their_type (name : Str) {t : Ty} {c : PyCls}
    (hc : valueClass t = some c) (hn : t.info.nullable = false) (items : List Lit) (m : Meta) :
    ∃ kept : List Lit, (∀ x ∈ kept, x ∈ items) ∧ (∀ y ∈ items, ∃ x ∈ kept, Lit.pyEq x y = true) ∧
      ∀ e, mkEnum ids name t items m = .ok e ↔
        (e = .enum name t kept m ∧ items ≠ [] ∧ ∀ x ∈ kept, c ∈ PyCls.mro x.cls) := by
  refine ⟨frozenset items, frozenset_sub items, frozenset_covers items, fun e => ⟨fun h => ?_, ?_⟩⟩
  · obtain ⟨hne, rfl, py, hp, hall⟩ := mkEnum_ok h
    rw [pyToSystem_valueClass ids hc hn] at hp
    injection hp with hp
    subst hp
    refine ⟨rfl, ?_, fun x hx => ?_⟩
    · rintro rfl
      exact hne rfl
    · have := hall x hx
      rw [lenient_cls] at this
      injection this with this
      exact of_decide_eq_true this
  · rintro ⟨rfl, hne, hall⟩
    have he : (frozenset items).isEmpty = false := by
      cases items with
      | nil => exact absurd rfl hne
      | cons x xs => rfl
    have hm : mismatched (.cls c) (frozenset items) = .ok [] := mismatched_of_all fun x hx => by
      rw [lenient_cls]
      simp [hall x hx]
    simp [mkEnum, he, pyToSystem_valueClass ids hc hn, bind, Except.bind, hm, pure, Except.pure]

example : mkEnum ids "e".toList (.scalar .string {}) [.str "x".toList, .int 1] {} = .error .valueError := by
  obtain ⟨kept, h1, h2, h3⟩ := C48_enums_hold_values_of_their_type ids "e".toList
    (t := .scalar .string {}) rfl rfl [.str "x".toList, .int 1] {}
  have h := pyToSystem_valueClass ids (t := .scalar .string {}) rfl rfl
  have hf : frozenset [.str "x".toList, .int 1] = [.str "x".toList, .int 1] := by decide
  simp only [mkEnum, hf, h, mismatched, Lit.cls, bind, Except.bind, lenient_cls]
  rfl

/-- C48: `tuple[T, ...]` is a list of `T`, and no other tuple hint (`tuple[int, str]`,
`tuple[int]`, ...) has a type. -/
theorem C48_only_variadic_tuples (n i : Nat) (as : List PyHint) (h : Hints) :
    (∀ a, as = [a, .ellipsis] → run (pyArti ids) (n + 1) (.gen i .tuple as) h =
        (do let t ← run (pyArti ids) n a h; return .list t {})) ∧
    ((∀ a, as ≠ [a, .ellipsis]) →
      run (pyArti ids) (n + 1) (.gen i .tuple as) h = .error .notImplemented) := by
  refine ⟨?_, A_tuple_other⟩
  rintro a rfl
  exact A_tuple

example : run (pyArti ids) 5 (.gen 0 .tuple [.cls .int, .cls .str]) [] = .error .notImplemented :=
  (C48_only_variadic_tuples ids 4 0 _ []).2 (by simp)

/-! ## Where the round trip fails -/

/-- C48 is false for the nullable `Null`: its hint is `type(None)`, which has no type. -/
theorem C48_violated_by_nullable_null :
    pyToSystem ids (.scalar .null { nullable := true }) = .ok (.cls .noneType) ∧
    pyToArtigraph ids (.cls .noneType) = .error .notImplemented := by
  refine ⟨?_, A_cls_none (by decide)⟩
  show run (pySys ids) (0 + 1 + 1) _ [] = _
  rw [run_S_nullable ids rfl]
  simp only [Ty.setNullable, Ty.withMeta, Ty.info]
  rw [S_scalar rfl rfl]
  rfl

/-- C48 is false for every struct with a `Null` field (alone, for simplicity): the annotation `None`
of a `TypedDict` becomes `type(None)`, which has no type. -/
theorem C48_violated_by_null_fields (name field : Str) (m : Meta) (hm : m.nullable = false) :
    pyToSystem ids (.struct name [(field, .scalar .null {})] m) =
      .ok (.tdict ids.new name [(field, .cls .noneType)]) ∧
    pyToArtigraph ids (.tdict ids.new name [(field, .cls .noneType)]) = .error .notImplemented := by
  constructor
  · show run (pySys ids) (1 + 1 + 1 + 1) _ [] = _
    rw [S_struct (m := m) hm]
    simp only [convertFields]
    rw [S_scalar rfl rfl]
    rfl
  · show run (pyArti ids) (1 + 1 + 1 + 1) _ [] = _
    rw [A_struct]
    simp only [convertFields, fieldHint, strip]
    rw [A_cls_none (by decide)]
    rfl

/-- C48 is false for enums of integers with a boolean item: they can be made (a `bool` is an `int`),
but come back as an enum of booleans. -/
theorem C48_violated_by_boolean_items (name : Str) :
    mkEnum ids name (.scalar .int64 {}) [.bool true] {} =
      .ok (.enum name (.scalar .int64 {}) [.bool true] {}) ∧
    pyToSystem ids (.enum name (.scalar .int64 {}) [.bool true] {}) =
      .ok (.literal (ids.lit [.bool true]) [.bool true]) ∧
    pyToArtigraph ids (.literal (ids.lit [.bool true]) [.bool true]) =
      .ok (.enum anon (.scalar .boolean {}) [.bool true] {}) := by
  refine ⟨?_, ?_, ?_⟩
  · have h := pyToSystem_classTy (ids := ids) (c := .int) (by simp)
    simp only [classTy] at h
    simp only [mkEnum, frozenset, List.filter_nil, h, mismatched, Lit.cls, bind, Except.bind, lenient_cls]
    rfl
  · show run (pySys ids) (1 + 1 + 1 + 1) _ [] = _
    exact S_enum rfl
  · exact A_enum (c := .bool) (n := 0) (by simp) (by simp) (by simp) (by simp [Lit.cls])

/-- C48 is false for enums that mix integers and booleans: they can be made, but the way back raises
a `ValueError`. -/
theorem C48_violated_by_mixed_items (name : Str) :
    mkEnum ids name (.scalar .int64 {}) [.bool true, .int 2] {} =
      .ok (.enum name (.scalar .int64 {}) [.bool true, .int 2] {}) ∧
    pyToSystem ids (.enum name (.scalar .int64 {}) [.bool true, .int 2] {}) =
      .ok (.literal (ids.lit [.bool true, .int 2]) [.bool true, .int 2]) ∧
    pyToArtigraph ids (.literal (ids.lit [.bool true, .int 2]) [.bool true, .int 2]) =
      .error .valueError := by
  refine ⟨?_, ?_, ?_⟩
  · have h := pyToSystem_classTy (ids := ids) (c := .int) (by simp)
    simp only [classTy] at h
    have hf : frozenset [.bool true, .int 2] = [.bool true, .int 2] := by decide
    simp only [mkEnum, hf, h, mismatched, Lit.cls, bind, Except.bind, lenient_cls]
    rfl
  · show run (pySys ids) (1 + 1 + 1 + 1) _ [] = _
    exact S_enum rfl
  · show run (pyArti ids) (1 + 1) _ [] = _
    rw [A_literal]
    rfl

/-- C47: "they raise iff none matches" is false for nested types: `list[object]` matches the adapter
of lists, but `object` has no adapter. -/
theorem C47_violated_by_nested_types (n i : Nat) (h : Hints) :
    MatchesAnywhere (pyArti ids) (.gen i .list [.cls .object]) h ∧
    run (pyArti ids) (n + 2) (.gen i .list [.cls .object]) h = .error .notImplemented := by
  constructor
  · refine ⟨_, .refl _, pyListA, ?_, (originIs_gen i .list [.cls .object] .list).trans rfl⟩
    simp [adaptersOf, pyArti, pyAdaptersA]
  · rw [A_list, A_cls_none (by decide)]
    rfl

end Props
end Arti
