import Verif.Lemmas.ModelDoc

/-!
# C07, C08, C09: what the fingerprints of models depend on
-/

namespace Arti.Props
open Spec MDoc PyDict

/-! ## C07 -/

/-- Two `SemVer`s have the same fingerprint document iff their majors are equal and, unless the major is
positive, so are the other components. -/
theorem C07_semver_documents (a b c a' b' c' : Int) :
    doc (semver a b c) = doc (semver a' b' c') ↔ a = a' ∧ (0 < a ∨ (b = b' ∧ c = c')) := by
  rw [doc_inj, semver_json, semver_json, Json.obj.injEq]
  simp only [List.cons.injEq, Prod.mk.injEq, true_and, Json.int.injEq]
  constructor
  · rintro ⟨rfl, h⟩
    refine ⟨rfl, ?_⟩
    by_cases hp : 0 < a
    · exact .inl hp
    · simp [hp] at h; exact .inr h
  · rintro ⟨rfl, h | ⟨rfl, rfl⟩⟩
    · simp [h]
    · simp

example : doc (semver 1 2 3) = doc (semver 1 7 0) := (C07_semver_documents ..).2 ⟨rfl, .inl (by decide)⟩
example : doc (semver 0 2 3) ≠ doc (semver 0 2 4) := by
  rw [ne_eq, C07_semver_documents]; decide
example : doc (semver 1 2 3) = "{\"_arti_type_\":\"SemVer\",\"major\":1}".toList := by
  rw [doc, semver_json]; decide +kernel

/-! ## C08 -/

/-- Two values have the same document exactly if they have the same fingerprinted content: the same class
keys, and the same remaining fields, to any depth - up to the kinds that JSON does not tell apart, and as
long as no mapping has the key `_arti_type_`. -/
theorem C08_same_document_iff_same_content {a b : Val} (ha : WfVal a) (hb : WfVal b) (na : NoTypeKey a)
    (nb : NoTypeKey b) : doc a = doc b ↔ Agree a b :=
  ⟨fun h => agree_of_toJson ha b hb na nb ((doc_inj a b).1 h),
    fun h => (doc_inj a b).2 (toJson_of_agree h ha hb)⟩

/-- Fields that are skipped or excluded do not enter the document: instances of a class that agree on the
other fields have the same one. (For a `SemVer`, the major version has to agree in any case, as it decides
on the fields.) -/
theorem C08_skipped_and_excluded_fields_do_not_matter {c : Cls} {xs ys : List (Str × Val)}
    (ha : WfVal (.model c xs)) (hb : WfVal (.model c ys))
    (h : ∀ fi ∈ c.fields, fi.exclude = false → fi.skip = false → get? xs fi.name = get? ys fi.name)
    (hm : c.semver = true → get? xs "major".toList = get? ys "major".toList) :
    doc (.model c xs) = doc (.model c ys) := by
  have key : ∀ {xs ys : List (Str × Val)}, WfVal (.model c xs) → WfVal (.model c ys) →
      (∀ fi ∈ c.fields, fi.exclude = false → fi.skip = false → get? xs fi.name = get? ys fi.name) →
      (c.semver = true → get? xs "major".toList = get? ys "major".toList) →
      ∀ f x, Seen c xs f x → Seen c ys f x := by
    intro xs ys ha hb h hm f x hs
    cases ha with | model k1 n1 _ _ _ =>
    cases hb with | model k2 n2 _ _ _ =>
    obtain ⟨⟨fi, hfi, hn, he, hsk⟩, hx, hv⟩ := hs
    refine ⟨⟨fi, hfi, hn, he, hsk⟩, ?_, ?_⟩
    · have h1 := get?_of_mem (nodup_vals k1 n1) hx
      have h2 := h fi hfi he hsk
      rw [hn] at h2
      exact get?_mem (h2 ▸ h1)
    · rintro ⟨hsv, hne, m, hpos, hmem⟩
      refine hv ⟨hsv, hne, m, hpos, ?_⟩
      have h1 := get?_of_mem (nodup_vals k2 n2) hmem
      exact get?_mem ((hm hsv).trans h1)
  exact doc_of_seen rfl ha hb fun f x => ⟨key ha hb h hm f x,
    key hb ha (fun fi h1 h2 h3 => (h fi h1 h2 h3).symm) (fun hs => (hm hs).symm) f x⟩

/-- The order in which a class declares its fields does not matter. -/
theorem C08_declaration_order_does_not_matter {c c' : Cls} {xs ys : List (Str × Val)}
    (ha : WfVal (.model c xs)) (hb : WfVal (.model c' ys)) (hn : c.name = c'.name)
    (hs : c.semver = c'.semver) (hf : c.fields.Perm c'.fields) (hv : xs.Perm ys) :
    doc (.model c xs) = doc (.model c' ys) := by
  refine doc_of_seen hn ha hb fun f x => ?_
  simp only [Seen, hf.mem_iff, hv.mem_iff, hs]

/-- Values of the same declared type with the same document have the same content: every fingerprinted
field has the same value, to any depth. Missing: fields declared as `Any` (see the violations), and
classes that share their name. -/
theorem C08_same_document_same_content_partial {reg : Str → Cls} {t : Ty} {a b : Val} (ta : HasTy reg t a)
    (tb : HasTy reg t b) (ha : WfVal a) (hb : WfVal b) (na : NoTypeKey a) (nb : NoTypeKey b)
    (h : doc a = doc b) : Same a b :=
  same_of_agree ta b tb ha hb ((C08_same_document_iff_same_content ha hb na nb).1 h)

end Arti.Props

namespace Arti.ExDoc
open Spec MDoc

/-- An annotation of a user, with a field declared as `Any`. -/
def noteCls : Cls := ⟨9, "Note".toList, [plain "value" .any], false⟩
def note (v : Val) : Val := .model noteCls [("value".toList, v)]

theorem wf_note {v : Val} (h : WfVal v) : WfVal (note v) := by
  refine .model rfl (by decide) (by decide) (by decide) ?_
  intro p hp
  simp only [List.mem_singleton] at hp
  subst hp; exact h

def reg (n : Str) : Cls := if n = "Struct".toList then structCls else int64Cls

theorem wf_int64 {d : Val} (h : WfVal d) : WfVal (int64 d) := by
  refine .model rfl (by decide) (by decide) (by decide) ?_
  intro p hp
  simp only [List.mem_cons, List.not_mem_nil, or_false] at hp
  rcases hp with rfl | rfl
  · exact h
  · exact .bool _

theorem noKey_int64 {d : Val} (h : NoTypeKey d) : NoTypeKey (int64 d) := by
  refine .model ?_
  intro p hp
  simp only [List.mem_cons, List.not_mem_nil, or_false] at hp
  rcases hp with rfl | rfl
  · exact h
  · exact .bool _

theorem ty_int64 {d : Val} (h : HasTy reg (.opt .str) d) : HasTy reg .model (int64 d) := by
  refine .model (by decide) ?_
  intro p hp fi hfi he
  simp only [List.mem_cons, List.not_mem_nil, or_false] at hp
  rcases hp with rfl | rfl
  · simp only [int64Cls, typeFields, List.mem_cons, List.not_mem_nil, or_false] at hfi
    rcases hfi with rfl | rfl
    · exact h
    · exact absurd (show "nullable".toList = "description".toList from he) (by decide)
  · simp only [int64Cls, typeFields, List.mem_cons, List.not_mem_nil, or_false] at hfi
    rcases hfi with rfl | rfl
    · exact absurd he (by decide)
    · exact .bool _

theorem wf_struct {n : Str} {fields : List (Str × Val)} (hn : (fields.map (·.1)).Nodup)
    (h : ∀ p ∈ fields, WfVal p.2) : WfVal (struct n fields) := by
  refine .model rfl (by decide) (by decide) (by decide) ?_
  intro p hp
  simp only [List.mem_cons, List.not_mem_nil, or_false] at hp
  rcases hp with rfl | rfl | rfl | rfl
  · exact .null
  · exact .bool _
  · exact .str _
  · exact .map hn h

theorem wf_enum {n : Str} {t : Val} {items : List Val} (ht : WfVal t)
    (h : ∀ p ∈ items, WfVal p) : WfVal (enum n t items) := by
  refine .model rfl (by decide) (by decide) (by decide) ?_
  intro p hp
  simp only [List.mem_cons, List.not_mem_nil, or_false] at hp
  rcases hp with rfl | rfl | rfl | rfl | rfl
  · exact .null
  · exact .bool _
  · exact .str _
  · exact ht
  · exact .set h

end Arti.ExDoc

namespace Arti.Props
open Spec MDoc PyDict ExDoc

example : doc (int64 .null) = doc (int64 (.str "an id".toList)) :=
  C08_skipped_and_excluded_fields_do_not_matter (wf_int64 .null) (wf_int64 (.str _))
    (by
      intro fi hfi _ hs
      simp only [int64Cls, typeFields, List.mem_cons, List.not_mem_nil, or_false] at hfi
      rcases hfi with rfl | rfl
      · exact absurd hs (by decide)
      · rfl)
    (fun h => absurd h (by decide))

example : doc (int64 .null) = "{\"_arti_type_\":\"Int64\",\"nullable\":false}".toList := by decide +kernel

example : doc (int64 .null) =
    doc (.model { int64Cls with fields := int64Cls.fields.reverse }
      [("nullable".toList, .bool false), ("description".toList, .null)]) := by
  refine C08_declaration_order_does_not_matter (wf_int64 .null) ?_ rfl rfl
    (List.reverse_perm _).symm (List.Perm.swap _ _ _)
  refine .model rfl (by decide) (by decide) (by decide) ?_
  intro p hp
  simp only [List.mem_cons, List.not_mem_nil, or_false] at hp
  rcases hp with rfl | rfl
  · exact .bool _
  · exact .null

example : Agree (int64 .null) (int64 (.str "an id".toList)) :=
  (C08_same_document_iff_same_content (wf_int64 .null) (wf_int64 (.str _)) (noKey_int64 .null)
    (noKey_int64 (.str _))).1 (by decide +kernel)

example : Same (int64 .null) (int64 (.str "an id".toList)) :=
  C08_same_document_same_content_partial (ty_int64 .none) (ty_int64 (.some (.str _))) (wf_int64 .null)
    (wf_int64 (.str _)) (noKey_int64 .null) (noKey_int64 (.str _)) (by decide +kernel)

/-- The full claim fails in fields declared as `Any`: a string and a date, or a tuple and a frozenset,
share their document. -/
theorem C08_violated_by_any_fields :
    (doc (note (.str "2020-01-01".toList)) = doc (note (.text 0 "2020-01-01".toList)) ∧
      ¬ Same (note (.str "2020-01-01".toList)) (note (.text 0 "2020-01-01".toList))) ∧
    (doc (note (.seq [.int 1])) = doc (note (.set [.int 1])) ∧
      ¬ Same (note (.seq [.int 1])) (note (.set [.int 1]))) := by
  have seen : ∀ v, Seen noteCls [("value".toList, v)] "value".toList v := by
    intro v
    exact ⟨⟨plain "value" .any, by simp [noteCls], rfl, rfl, rfl⟩, by simp, by simp [noteCls]⟩
  refine ⟨⟨by decide +kernel, ?_⟩, by decide +kernel, ?_⟩
  · intro h
    cases h with
    | model _ he => cases he _ _ _ (seen _) (seen _)
  · intro h
    cases h with
    | model _ he => cases he _ _ _ (seen _) (seen _)

/-- A mapping with the key `_arti_type_` passes for a model: the class key is not determined either. -/
theorem C08_violated_by_type_keys :
    doc (note (int64 .null)) =
      doc (note (.map [("_arti_type_".toList, .str "Int64".toList), ("nullable".toList, .bool false)])) ∧
    ¬ Same (note (int64 .null))
      (note (.map [("_arti_type_".toList, .str "Int64".toList), ("nullable".toList, .bool false)])) := by
  have seen : ∀ v, Seen noteCls [("value".toList, v)] "value".toList v := by
    intro v
    exact ⟨⟨plain "value" .any, by simp [noteCls], rfl, rfl, rfl⟩, by simp, by simp [noteCls]⟩
  refine ⟨by decide +kernel, ?_⟩
  intro h
  cases h with
  | model _ he => cases he _ _ _ (seen _) (seen _)

/-! ## C09 -/

/-- The fingerprint that is cached, if any, is the one of the current values. -/
def Current (hash : Str → Fp) (o : Obj) : Prop :=
  o.cached = none ∨ o.cached = some (hash (doc (.model o.cls o.values)))

/-- Equal models have equal fingerprints, whatever the hash, as long as their fields have declared types
(not `Any`), their mappings and frozensets have at most one entry, their datetimes are in UTC, and the
fingerprint was not cached before a `model_copy`. Missing: everything else (see the violations). -/
theorem C09_equal_models_equal_fingerprints_partial {reg : Str → Cls} (hash : Str → Fp) {o o' : Obj}
    (ta : HasTy reg .model (.model o.cls o.values)) (tb : HasTy reg .model (.model o'.cls o'.values))
    (ha : WfVal (.model o.cls o.values)) (hb : WfVal (.model o'.cls o'.values))
    (ra : Rigid (.model o.cls o.values)) (rb : Rigid (.model o'.cls o'.values))
    (co : Current hash o) (co' : Current hash o')
    (h : PyEq (.model o.cls o.values) (.model o'.cls o'.values)) :
    (o.fingerprint hash).1 = (o'.fingerprint hash).1 := by
  have key : ∀ o : Obj, Current hash o → (o.fingerprint hash).1 = hash (doc (.model o.cls o.values)) := by
    intro o ho
    rcases ho with ho | ho <;> simp [Obj.fingerprint, ho]
  have he := (doc_inj _ _).2 (toJson_of_agree (agree_of_pyEq ta _ tb ha hb ra rb h) ha hb)
  rw [key o co, key o' co', he]

example (hash : Str → Fp) :
    ((Obj.new int64Cls [("description".toList, .null), ("nullable".toList, .bool false)]).fingerprint
      hash).1 =
    (((Obj.new int64Cls [("description".toList, .null), ("nullable".toList, .bool false)]).fingerprint
      hash).2.fingerprint hash).1 := by
  refine C09_equal_models_equal_fingerprints_partial (reg := ExDoc.reg) hash (ty_int64 .none)
    (ty_int64 .none) (wf_int64 .null) (wf_int64 .null) ?_ ?_ (.inl rfl) (.inr rfl) ?_
  · refine .model ?_
    intro f x hs
    have := hs.2.1
    simp only [Obj.new, List.mem_cons, List.not_mem_nil, or_false, Prod.mk.injEq] at this
    rcases this with ⟨_, rfl⟩ | ⟨_, rfl⟩
    · exact .null
    · exact .bool _
  · refine .model ?_
    intro f x hs
    have := hs.2.1
    simp only [Obj.new, Obj.fingerprint, List.mem_cons, List.not_mem_nil, or_false, Prod.mk.injEq] at this
    rcases this with ⟨_, rfl⟩ | ⟨_, rfl⟩
    · exact .null
    · exact .bool _
  · refine .model rfl ?_
    intro f x y h1 h2
    simp only [Obj.new, Obj.fingerprint, List.mem_cons, List.not_mem_nil, or_false, Prod.mk.injEq] at h1 h2
    rcases h1 with ⟨rfl, rfl⟩ | ⟨rfl, rfl⟩ <;> rcases h2 with ⟨h, rfl⟩ | ⟨h, rfl⟩
    · exact .null
    · exact absurd h (by decide)
    · exact absurd h (by decide)
    · exact .bool _

theorem struct_pyEq {n : Str} {xs ys : List (Str × Val)}
    (h : PyEq (.map xs) (.map ys)) : PyEq (struct n xs) (struct n ys) := by
  refine .model rfl ?_
  intro f x y h1 h2
  simp only [List.mem_cons, List.not_mem_nil, or_false, Prod.mk.injEq] at h1 h2
  rcases h1 with ⟨rfl, rfl⟩ | ⟨rfl, rfl⟩ | ⟨rfl, rfl⟩ | ⟨rfl, rfl⟩ <;>
    rcases h2 with ⟨he, rfl⟩ | ⟨he, rfl⟩ | ⟨he, rfl⟩ | ⟨he, rfl⟩ <;>
    first
      | exact absurd he (by decide)
      | exact .null
      | exact .bool _
      | exact .str _
      | exact h

theorem seen_struct (n : Str) (xs : List (Str × Val)) :
    Seen structCls [("description".toList, .null), ("nullable".toList, .bool false),
      ("name".toList, .str n), ("fields".toList, .map xs)] "fields".toList (.map xs) :=
  ⟨⟨plain "fields" (.map .model), by simp [structCls], rfl, rfl, rfl⟩, by simp, by simp [structCls]⟩

theorem pyEq_refl {a : Val} (h : WfVal a) : PyEq a a := by
  induction h with
  | null => exact .null
  | bool => exact .bool _
  | int => exact .int _
  | str => exact .str _
  | text => exact .text _ _
  | stamp => exact .stamp _ _ _
  | seq _ ih =>
    refine .seq rfl ?_
    intro i x y h1 h2
    rw [h1] at h2
    cases h2
    exact ih x (List.mem_of_getElem? h1)
  | set _ ih =>
    refine .set (.refl _) rfl ?_
    intro i x y h1 h2
    rw [h1] at h2
    cases h2
    exact ih x (List.mem_of_getElem? h1)
  | map hn _ ih =>
    refine .map (fun k => Iff.rfl) ?_
    intro f x y h1 h2
    have h3 := get?_of_mem hn h1
    rw [get?_of_mem hn h2] at h3
    cases h3
    exact ih _ h2
  | model hk hnd _ _ _ ih =>
    refine .model rfl ?_
    intro f x y h1 h2
    have h3 := get?_of_mem (nodup_vals hk hnd) h1
    rw [get?_of_mem (nodup_vals hk hnd) h2] at h3
    cases h3
    exact ih _ h2

/-- Two `Struct`s with the same fields in another order are equal, but their documents always differ. -/
theorem C09_violated_by_mapping_order (n : Str) {xs ys : List (Str × Val)} (hp : xs.Perm ys)
    (hk : (xs.map (·.1)).Nodup) (hw : ∀ p ∈ xs, WfVal p.2) (hne : xs.map (·.1) ≠ ys.map (·.1)) :
    PyEq (struct n xs) (struct n ys) ∧ doc (struct n xs) ≠ doc (struct n ys) := by
  constructor
  · refine struct_pyEq (.map (fun k => by simp [hp.mem_iff]) ?_)
    intro k x y h1 h2
    have h3 := get?_of_mem hk h1
    rw [get?_of_mem hk (hp.mem_iff.2 h2)] at h3
    cases h3
    exact pyEq_refl (hw _ h1)
  · intro h
    have h := (doc_inj _ _).1 h
    have wa : WfVal (struct n xs) := wf_struct hk hw
    have wb : WfVal (struct n ys) :=
      wf_struct ((hp.map (·.1)).nodup_iff.1 hk) fun p hp' => hw p (hp.mem_iff.2 hp')
    unfold struct at h wa wb
    cases wa with
    | model k1 n1 u1 s1 _ =>
      cases wb with
      | model k2 n2 u2 s2 _ =>
        rw [toJson_model, toJson_model, Json.obj.injEq] at h
        have h1 := (mem_obj k1 n1 u1 s1).2 (.inr ⟨_, seen_struct n xs, rfl⟩)
        rw [h] at h1
        rcases (mem_obj k2 n2 u2 s2).1 h1 with ⟨h2, _⟩ | ⟨y, hy, he⟩
        · exact absurd h2 (by decide)
        · rw [seen_unique k2 n2 hy (seen_struct n ys)] at he
          simp only [toJson, Json.obj.injEq, toFields_eq] at he
          apply hne
          have := congrArg (List.map (·.1)) he
          simpa [List.map_map, Function.comp_def] using this

example : PyEq (struct "s".toList [("a".toList, int64 .null), ("b".toList, int64 .null)])
    (struct "s".toList [("b".toList, int64 .null), ("a".toList, int64 .null)]) :=
  (C09_violated_by_mapping_order _ (List.Perm.swap _ _ _) (by decide)
    (by
      intro p hp
      simp only [List.mem_cons, List.not_mem_nil, or_false] at hp
      rcases hp with rfl | rfl <;> exact wf_int64 .null) (by decide)).1

theorem enum_pyEq {n : Str} {t : Val} (ht : WfVal t) {xs ys : List Val} (h : PyEq (.set xs) (.set ys)) :
    PyEq (enum n t xs) (enum n t ys) := by
  refine .model rfl ?_
  intro f x y h1 h2
  simp only [List.mem_cons, List.not_mem_nil, or_false, Prod.mk.injEq] at h1 h2
  rcases h1 with ⟨rfl, rfl⟩ | ⟨rfl, rfl⟩ | ⟨rfl, rfl⟩ | ⟨rfl, rfl⟩ | ⟨rfl, rfl⟩ <;>
    rcases h2 with ⟨he, rfl⟩ | ⟨he, rfl⟩ | ⟨he, rfl⟩ | ⟨he, rfl⟩ | ⟨he, rfl⟩ <;>
    first
      | exact absurd he (by decide)
      | exact .null
      | exact .bool _
      | exact .str _
      | exact h
      | exact pyEq_refl ht

/-- Equal `Enum`s: the iteration order of their frozensets of items, and `True` for `1`, show in the
document. -/
theorem C09_violated_by_enum_items :
    (PyEq (enum "e".toList (int64 .null) [.int 1, .int 2]) (enum "e".toList (int64 .null) [.int 2, .int 1]) ∧
      doc (enum "e".toList (int64 .null) [.int 1, .int 2]) ≠
        doc (enum "e".toList (int64 .null) [.int 2, .int 1])) ∧
    (PyEq (enum "e".toList (int64 .null) [.int 1]) (enum "e".toList (int64 .null) [.bool true]) ∧
      doc (enum "e".toList (int64 .null) [.int 1]) ≠ doc (enum "e".toList (int64 .null) [.bool true])) := by
  refine ⟨⟨enum_pyEq (wf_int64 .null) (.set (List.Perm.swap _ _ _) rfl ?_), by decide +kernel⟩,
    enum_pyEq (wf_int64 .null) (.set (.refl _) rfl ?_), by decide +kernel⟩
  · intro i x z h1 h2
    rw [h1] at h2
    cases h2
    have := List.mem_of_getElem? h1
    simp only [List.mem_cons, List.not_mem_nil, or_false] at this
    rcases this with rfl | rfl <;> exact .int _
  · intro i x z h1 h2
    have h1 := List.mem_of_getElem? h1
    have h2 := List.mem_of_getElem? h2
    simp only [List.mem_singleton] at h1 h2
    subst h1 h2
    exact .intBool true

/-- Two `Timestamp` versions of the same instant in different timezones are equal, but their documents
always differ. -/
theorem C09_violated_by_timezones (u o o' : Int) (h : o ≠ o') :
    PyEq (.model timestampCls [("dt".toList, .stamp u o)]) (.model timestampCls [("dt".toList, .stamp u o')]) ∧
    doc (.model timestampCls [("dt".toList, .stamp u o)]) ≠
      doc (.model timestampCls [("dt".toList, .stamp u o')]) := by
  constructor
  · refine .model rfl ?_
    intro f x y h1 h2
    simp only [List.mem_singleton, Prod.mk.injEq] at h1 h2
    rw [h1.2, h2.2]
    exact .stamp _ _ _
  · intro he
    have hc : classFields timestampCls = [typeName, "dt".toList] := by decide +kernel
    have key : ∀ o, toJson (.model timestampCls [("dt".toList, .stamp u o)]) =
        .obj [(typeName, .str "Timestamp".toList), ("dt".toList, .str (stampText u o))] := by
      intro o
      rw [toJson_model]
      have : instFields timestampCls [("dt".toList, .stamp u o)] = classFields timestampCls := rfl
      rw [this, hc]
      rfl
    rw [doc_inj, key, key] at he
    simp only [Json.obj.injEq, List.cons.injEq, Prod.mk.injEq, true_and, Json.str.injEq, and_true] at he
    exact h (stampText_inj he).2

example : (0 : Int) ≠ 60 := by decide

/-- A copy of a model whose fingerprint was looked at keeps it: it is equal to a model that is newly made
from the same values, but has the fingerprint of the old document. -/
theorem C09_violated_by_copies (hash : Str → Fp) (o : Obj) (update : List (Str × Val))
    (ho : o.cached = none) (hw : WfVal (.model o.cls ((o.fingerprint hash).2.copy update).values)) :
    let copy := (o.fingerprint hash).2.copy update
    let new := Obj.new o.cls copy.values
    PyEq (.model copy.cls copy.values) (.model new.cls new.values) ∧
    (copy.fingerprint hash).1 = hash (doc (.model o.cls o.values)) ∧
    (new.fingerprint hash).1 = hash (doc (.model o.cls copy.values)) := by
  have hc : (o.fingerprint hash).2 = { o with cached := some (hash (doc (.model o.cls o.values))) } := by
    simp [Obj.fingerprint, ho]
  refine ⟨?_, ?_, rfl⟩
  · have := pyEq_refl hw
    rw [hc] at this ⊢
    exact this
  · rw [hc]; rfl

example : doc (.model int64Cls
      (((Obj.new int64Cls [("description".toList, .null), ("nullable".toList, .bool false)]).fingerprint
        (fun _ => 1)).2.copy [("nullable".toList, .bool true)]).values) ≠ doc (int64 .null) := by
  decide +kernel

end Arti.Props
