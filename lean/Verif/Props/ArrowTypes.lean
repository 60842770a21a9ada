import Verif.Lemmas.ArrowTypes

/-!
# C49: PyArrow types round-trip
-/

namespace Arti
namespace Props
open Typ Spec

/-- C49: every supported type, nested to any depth, is converted to an Arrow type (or schema) that is
converted back to the same type, up to what Arrow cannot carry. -/
theorem C49_roundtrip_partial {t : Ty} (ht : ArrowSupported t) :
    ∃ o, paToSystem t = .ok o ∧ paToArtigraph o = .ok (arrowForget t) := by
  have data : ∀ t, ArrowData t →
      ∃ o, paToSystem t = .ok o ∧ paToArtigraph o = .ok (arrowForget t) := by
    intro t ht
    obtain ⟨p, _, h1, h2⟩ := data_roundTrip (h := []) _ t (Nat.le_refl _) ht
    exact ⟨.ty p, h1 _ (Nat.le_refl _), h2 _ (Nat.le_refl _)⟩
  unfold ArrowSupported at ht
  split at ht
  · exact collection_roundTrip ht.1 ht.2.1 ht.2.2.1 ht.2.2.2
  · exact data _ ht

/-- C49: types without descriptions and struct names that are nullable only in struct fields come back
unchanged. -/
theorem C49_roundtrip_identity_on_exact {t : Ty} (ht : ArrowSupported t) (he : ArrowExact t)
    (hn : t.nullable = false) : ∃ o, paToSystem t = .ok o ∧ paToArtigraph o = .ok t := by
  obtain ⟨o, h1, h2⟩ := C49_roundtrip_partial ht
  exact ⟨o, h1, by rw [h2, forget_exact t he, setNullable_self hn]⟩

/-- C49: what comes back is carried completely, so that further round trips change nothing. -/
theorem C49_forgets_once {t : Ty} (ht : ArrowSupported t) :
    ArrowExact (arrowForget t) ∧ (arrowForget t).nullable = false ∧
      arrowForget (arrowForget t) = arrowForget t := by
  have key : ∀ t : Ty, ArrowExact (arrowForget t) → (arrowForget t).nullable = false →
      ArrowExact (arrowForget t) ∧ (arrowForget t).nullable = false ∧
      arrowForget (arrowForget t) = arrowForget t := fun t h1 h2 =>
    ⟨h1, h2, by rw [forget_exact _ h1, setNullable_self h2]⟩
  unfold ArrowSupported at ht
  split at ht
  · refine key _ ?_ rfl
    exact ⟨⟨⟨rfl, exactFields_forget _ ht.1, rfl⟩, rfl⟩, rfl⟩
  · exact key _ (exact_forget _ ht) (arrowForget_nullable ht)

/-- A collection of structs with a nullable list field, partitioned by a date. -/
def exampleCollection : Ty :=
  .collection "events \"é\"".toList (.struct "row".toList [
    ("day".toList, .scalar .date { description := some "d".toList }),
    ("tags".toList, .list (.binary (some 16) { nullable := true }) { nullable := true }),
    ("at".toList, .timestamp .nanosecond {})] {}) ["day".toList] ["at".toList] { nullable := true }

example : ArrowSupported exampleCollection ∧ arrowForget exampleCollection =
    .collection "events \"é\"".toList (.struct anon [
      ("day".toList, .scalar .date {}),
      ("tags".toList, .list (.binary (some 16) {}) { nullable := true }),
      ("at".toList, .timestamp .nanosecond {})] {}) ["day".toList] ["at".toList] {} := by
  refine ⟨?_, rfl⟩
  simp [exampleCollection, ArrowSupported, ArrowFields, ArrowData]

/-! ## Where the round trip fails -/

/-- C49 is false for every `Geography`: it comes back as a `String` or a `Binary`. -/
theorem C49_violated_by_geographies (format srid : Option Str) (m : Meta) :
    ∃ o, paToSystem (.geography format srid m) = .ok o ∧
      paToArtigraph o = .ok (if format = some "WKB".toList then .binary none {} else .scalar .string {}) := by
  refine ⟨_, paS_geography (n := 0), ?_⟩
  split
  · exact paA_binary (n := 0)
  · exact paA_scalar (n := 0) (s := .string)

/-- C49 is false for `Binary(byte_size=-1)`, which is accepted and comes back without a size. -/
theorem C49_violated_by_negative_sizes (m : Meta) :
    ∃ o, paToSystem (.binary (some (-1)) m) = .ok o ∧ paToArtigraph o = .ok (.binary none {}) :=
  ⟨_, paS_binary_neg (n := 0), paA_binary (n := 0)⟩

/-- Collections of structs cannot be nested: a struct with a field of such a type cannot be
converted. -/
theorem C49_nested_collections_raise {field name name' : Str} {fs : List (Str × Ty)}
    {p c : List Str} {m m' m'' : Meta} (ha : ArrowFields fs) :
    paToSystem (.struct name [(field, .collection name' (.struct anon fs m') p c m)] m'') =
      .error .typeError := by
  obtain ⟨ps, _, g2, _⟩ := fields_roundTrip (h := []) ha fun x hx =>
    data_roundTrip _ x.2 (Nat.le_refl _) (arrowFields_mem ha hx)
  show run paSys _ _ [] = _
  simp only [Ty.size, Ty.sizes]
  rw [show 1 + (1 + (1 + Ty.sizes fs) + 0) = (1 + Ty.sizes fs) + 1 + 1 from by omega, paS_struct]
  simp only [convertFields, fieldToSystem]
  rw [paS_collection, g2 _ (by omega)]
  rfl

/-- Sets and enums have no Arrow type. -/
theorem C49_sets_and_enums_raise :
    (∀ (e : Ty) (m : Meta), paToSystem (.set e m) = .error .notImplemented) ∧
    ∀ (n : Str) (t : Ty) (items : List TH.Lit) (m : Meta),
      paToSystem (.enum n t items m) = .error .notImplemented := by
  have key : ∀ (n : Nat) (t : Ty), (∃ e m, t = .set e m) ∨ (∃ n t' i m, t = .enum n t' i m) →
      run paSys (n + 1) t [] = .error .notImplemented := by
    intro n t ht
    rw [pa_run_S, paSortedS]
    rcases ht with ⟨e, m, rfl⟩ | ⟨n, t', i, m, rfl⟩ <;>
    · repeat (rw [dispatched_false]; rotate_left; exact rfl)
      exact dispatched_nil
  constructor
  · intro e m
    show run paSys (1 + e.size) _ [] = _
    rw [Nat.add_comm]
    exact key _ _ (.inl ⟨e, m, rfl⟩)
  · intro n t i m
    show run paSys (1 + t.size) _ [] = _
    rw [Nat.add_comm]
    exact key _ _ (.inr ⟨n, t, i, m, rfl⟩)

/-- In the other direction `date32` is not kept: it becomes a `Date`, which is a `date64`. -/
theorem C49_date32_becomes_date64 :
    ∃ t, paToArtigraph (.ty (.prim .date32)) = .ok t ∧
      paToSystem t = .ok (.ty (.prim .date64)) :=
  ⟨_, paA_date32 (n := 0), paS_scalar (n := 0)⟩

/-- C49: a schema without the metadata of artigraph, such as one from elsewhere, is a collection of the
struct that its fields are, without partitions. -/
theorem C49_other_schemas_are_collections {fs : List (Str × (PaTy × Bool))}
    {metadata : PyDict Str Str} (hm : metadata.get? metaKey = none) {t : Ty}
    (ht : paToArtigraph (.ty (.struct fs)) = .ok t) :
    (∃ fields, t = .struct anon fields {}) ∧
    paToArtigraph (.schema fs metadata) = .ok (.collection anon t [] [] {}) := by
  have h1 : paToArtigraph (.ty (.struct fs)) = structA (run paArti (PaTy.sizes fs)) [] fs := by
    show run paArti (PaObj.size (.ty (.struct fs))) _ [] = _
    rw [show PaObj.size (.ty (.struct fs)) = PaTy.sizes fs + 1 from by
      simp [PaObj.size, PaTy.size, Nat.add_comm]]
    exact paA_struct
  have h2 : paToArtigraph (.schema fs metadata) =
      (do let e ← structA (run paArti (PaTy.sizes fs)) [] fs
          mkCollection anon e [] [] {}) := by
    show run paArti (PaObj.size (.schema fs metadata)) _ [] = _
    rw [show PaObj.size (.schema fs metadata) = PaTy.sizes fs + 1 from by
      simp [PaObj.size, Nat.add_comm]]
    exact paA_schema_none hm
  rw [h1] at ht
  rw [h2, ht]
  unfold structA at ht
  cases hc : convertFields (fieldToArtigraph (run paArti (PaTy.sizes fs)) []) fs with
  | error e => rw [hc] at ht; cases ht
  | ok fields =>
    rw [hc] at ht
    cases ht
    refine ⟨⟨_, rfl⟩, ?_⟩
    show mkCollection anon (.struct anon fields {}) [] [] {} = _
    exact mkCollection_ok (fun _ h => nomatch h) (fun _ h => nomatch h) fun _ h => nomatch h

/-- A schema with the metadata of pandas, say. -/
example : paToArtigraph (.schema [("a".toList, (.prim .int64, true))] [("pandas".toList, "{}".toList)]) =
    .ok (.collection anon (.struct anon [("a".toList, .scalar .int64 { nullable := true })] {}) [] [] {}) :=
  (C49_other_schemas_are_collections (by decide +kernel) (by
    show run paArti 2 _ [] = _
    rw [paA_struct]
    simp only [structA, convertFields, fieldToArtigraph]
    rw [show run paArti 1 (.ty (.prim .int64)) [] = _ from paA_scalar (n := 0) (s := .int64)]
    rfl)).2

end Props
end Arti
