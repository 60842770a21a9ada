import Verif.Spec.ModelDoc
import Verif.Lemmas.Json
import Verif.Lemmas.Dict

/-!
# The documents of models
-/

namespace Arti.MDoc
open Json Spec PyDict

theorem toItems_eq (xs : List Val) : toItems xs = xs.map toJson := by
  induction xs with
  | nil => rfl
  | cons x xs ih => simp [toItems, ih]

theorem toFields_eq (xs : List (Str × Val)) : toFields xs = xs.map fun p => (p.1, toJson p.2) := by
  induction xs with
  | nil => rfl
  | cons x xs ih => obtain ⟨k, v⟩ := x; simp [toFields, ih]

/-! ## The documents have no floats -/

theorem okItems_iff (l : List Json) : OkItems l ↔ ∀ j ∈ l, Ok j := by
  induction l with
  | nil => simp [OkItems]
  | cons j l ih => simp [OkItems, ih]

theorem okFields_iff (l : List (Str × Json)) : OkFields l ↔ ∀ p ∈ l, Ok p.2 := by
  induction l with
  | nil => simp [OkFields]
  | cons j l ih => obtain ⟨k, j⟩ := j; simp [OkFields, ih]

mutual
theorem ok_toJson : ∀ v, Ok (toJson v)
  | .null => trivial
  | .bool _ => trivial
  | .int _ => trivial
  | .str _ => trivial
  | .text _ _ => trivial
  | .stamp _ _ => trivial
  | .seq xs => ok_toItems xs
  | .set xs => ok_toItems xs
  | .map xs => ok_toFields xs
  | .model c xs => by
    have h := (okFields_iff _).1 (ok_toFields xs)
    simp only [toJson]
    refine (okFields_iff _).2 ?_
    intro p hp
    obtain ⟨f, _, hf⟩ := List.mem_filterMap.1 hp
    cases hg : get? ((toFields xs).filter (fun p => !excluded c p.1) ++ [(typeName, Json.str c.name)]) f with
    | none => simp [hg] at hf
    | some j =>
      simp only [hg, Option.map_some, Option.some.injEq] at hf
      subst hf
      have hm := get?_mem hg
      rcases List.mem_append.1 hm with hm | hm
      · exact h _ (List.mem_filter.1 hm).1
      · simp only [List.mem_singleton, Prod.mk.injEq] at hm
        rw [hm.2]; trivial
theorem ok_toItems : ∀ xs, OkItems (toItems xs)
  | [] => trivial
  | x :: xs => ⟨ok_toJson x, ok_toItems xs⟩
theorem ok_toFields : ∀ xs, OkFields (toFields xs)
  | [] => trivial
  | (_, x) :: xs => ⟨ok_toJson x, ok_toFields xs⟩
end

theorem doc_inj (a b : Val) : doc a = doc b ↔ toJson a = toJson b :=
  ⟨fun h => write_inj compact_ok (ok_toJson a) (ok_toJson b) h, fun h => by simp [doc, h]⟩

/-! ## Sorting -/

theorem char_toNat_inj {a b : Char} (h : a.toNat = b.toNat) : a = b := by
  rw [← ofNat_toNat a, ← ofNat_toNat b, h]

theorem strLe_refl (a : Str) : strLe a a = true := by
  induction a with
  | nil => rfl
  | cons c a ih => simp [strLe, ih]

theorem strLe_total (a b : Str) : (strLe a b || strLe b a) = true := by
  induction a generalizing b with
  | nil => simp [strLe]
  | cons c a ih =>
    cases b with
    | nil => simp [strLe]
    | cons d b =>
      have := ih b
      simp only [strLe, Bool.or_eq_true, Bool.and_eq_true, decide_eq_true_eq, beq_iff_eq] at this ⊢
      by_cases h1 : c.toNat < d.toNat
      · simp [h1]
      · by_cases h2 : d.toNat < c.toNat
        · simp [h2]
        · have : c = d := char_toNat_inj (by omega)
          subst this
          simpa using this

theorem strLe_antisymm {a b : Str} (h : strLe a b = true) (h' : strLe b a = true) : a = b := by
  induction a generalizing b with
  | nil => cases b with
    | nil => rfl
    | cons d b => simp [strLe] at h'
  | cons c a ih =>
    cases b with
    | nil => simp [strLe] at h
    | cons d b =>
      simp only [strLe, Bool.or_eq_true, Bool.and_eq_true, decide_eq_true_eq, beq_iff_eq] at h h'
      rcases h with h | ⟨rfl, h⟩
      · rcases h' with h' | ⟨rfl, h'⟩ <;> omega
      · rcases h' with h' | ⟨_, h'⟩
        · omega
        · rw [ih h h']

theorem strLe_trans (a b c : Str) (h : strLe a b = true) (h' : strLe b c = true) :
    strLe a c = true := by
  induction a generalizing b c with
  | nil => simp [strLe]
  | cons x a ih =>
    cases b with
    | nil => simp [strLe] at h
    | cons y b =>
      cases c with
      | nil => simp [strLe] at h'
      | cons z c =>
        simp only [strLe, Bool.or_eq_true, Bool.and_eq_true, decide_eq_true_eq, beq_iff_eq] at h h' ⊢
        rcases h with h | ⟨rfl, h⟩
        · rcases h' with h' | ⟨rfl, h'⟩
          · left; omega
          · left; exact h
        · rcases h' with h' | ⟨rfl, h'⟩
          · left; exact h'
          · right; exact ⟨rfl, ih _ _ h h'⟩

theorem insertName_perm (a : Str) (l : List Str) : (insertName a l).Perm (a :: l) := by
  induction l with
  | nil => exact .refl _
  | cons b l ih =>
    unfold insertName
    split
    · exact .refl _
    · exact (ih.cons b).trans (.swap _ _ _)

theorem sortNames_perm (l : List Str) : (sortNames l).Perm l := by
  induction l with
  | nil => exact .refl _
  | cons a l ih => exact (insertName_perm a _).trans (ih.cons a)

theorem insertName_sorted {a : Str} {l : List Str} (h : l.Pairwise fun x y => strLe x y = true) :
    (insertName a l).Pairwise fun x y => strLe x y = true := by
  induction l with
  | nil => simp [insertName]
  | cons b l ih =>
    have hb := List.pairwise_cons.1 h
    unfold insertName
    split
    · rename_i hab
      refine List.pairwise_cons.2 ⟨?_, h⟩
      intro x hx
      rcases List.mem_cons.1 hx with rfl | hx
      · exact hab
      · exact strLe_trans _ _ _ hab (hb.1 x hx)
    · rename_i hab
      have hba : strLe b a = true := by
        have := strLe_total a b
        simpa [hab] using this
      refine List.pairwise_cons.2 ⟨?_, ih hb.2⟩
      intro x hx
      rcases List.mem_cons.1 ((insertName_perm a l).mem_iff.1 hx) with rfl | hx
      · exact hba
      · exact hb.1 x hx

theorem sortNames_sorted (l : List Str) : (sortNames l).Pairwise fun x y => strLe x y = true := by
  induction l with
  | nil => exact .nil
  | cons a l ih => exact insertName_sorted ih

theorem sorted_ext {a b : List Str} (ha : a.Pairwise fun x y => strLe x y = true)
    (hb : b.Pairwise fun x y => strLe x y = true) (na : a.Nodup) (nb : b.Nodup)
    (h : ∀ x, x ∈ a ↔ x ∈ b) : a = b :=
  ((List.perm_ext_iff_of_nodup na nb).2 h).eq_of_pairwise (fun _ _ _ _ => strLe_antisymm) ha hb

/-! ## The fields of an instance -/

section
variable {c : Cls} {xs : List (Str × Val)} (hk : xs.map (·.1) = c.fields.map (·.name))
  (hnd : (c.fields.map (·.name)).Nodup) (hus : ∀ f ∈ c.fields, f.name.head? ≠ some '_')
  (hsv : c.semver = true → ∀ f ∈ c.fields, f.exclude = false → f.skip = false →
    f.name ∈ ["major".toList, "minor".toList, "patch".toList])

/-- The part of `data` that comes from fields. -/
def dataOf (c : Cls) (xs : List (Str × Val)) : List (Str × Json) :=
  (toFields xs).filter (fun p => !excluded c p.1) ++ [(typeName, .str c.name)]

theorem field_unique {l : List FieldInfo} (hnd : (l.map (·.name)).Nodup) {f g : FieldInfo} (hf : f ∈ l)
    (hg : g ∈ l) (h : f.name = g.name) : f = g := by
  induction l with
  | nil => simp at hf
  | cons a l ih =>
    simp only [List.map_cons, List.nodup_cons] at hnd
    rcases List.mem_cons.1 hf with hf1 | hf1 <;> rcases List.mem_cons.1 hg with hg1 | hg1
    · rw [hf1, hg1]
    · exact absurd (List.mem_map.2 ⟨g, hg1, by rw [← h, hf1]⟩) hnd.1
    · exact absurd (List.mem_map.2 ⟨f, hf1, by rw [h, hg1]⟩) hnd.1
    · exact ih hnd.2 hf1 hg1

include hus in
theorem typeName_not_field : typeName ∉ c.fields.map (·.name) := by
  intro h
  obtain ⟨f, hf, he⟩ := List.mem_map.1 h
  have := hus f hf
  rw [he] at this
  exact this (by decide)

include hnd in
theorem excluded_iff {fi : FieldInfo} (hf : fi ∈ c.fields) : excluded c fi.name = fi.exclude := by
  cases h : fi.exclude with
  | true =>
    simp only [excluded, List.any_eq_true]
    exact ⟨fi, hf, by simp [h]⟩
  | false =>
    simp only [excluded, List.any_eq_false]
    intro g hg
    by_cases hn : g.name = fi.name
    · have := field_unique hnd hg hf hn
      subst this; simp [h]
    · simp [hn]

include hk hnd in
theorem nodup_vals : (keys xs).Nodup := by
  simpa [keys, hk] using hnd

include hk hnd in
theorem seen_unique {f : Str} {x y : Val} (h : Seen c xs f x) (h' : Seen c xs f y) : x = y := by
  have h1 := get?_of_mem (nodup_vals hk hnd) h.2.1
  have h2 := get?_of_mem (nodup_vals hk hnd) h'.2.1
  exact Option.some.inj (h1.symm.trans h2)

include hus in
theorem seen_ne_typeName {f : Str} {x : Val} (h : Seen c xs f x) : f ≠ typeName := by
  obtain ⟨⟨fi, hfi, hn, _⟩, _⟩ := h
  rintro rfl
  exact typeName_not_field hus (List.mem_map.2 ⟨fi, hfi, hn⟩)

include hk hnd in
theorem majorPos_iff : majorPos xs = true ↔ ∃ m, 0 < m ∧ ("major".toList, Val.int m) ∈ xs := by
  unfold majorPos
  constructor
  · intro h
    cases hg : get? xs "major".toList with
    | none => rw [hg] at h; simp at h
    | some v =>
      rw [hg] at h
      cases v with
      | int m => exact ⟨m, by simpa using h, get?_mem hg⟩
      | _ => simp at h
  · rintro ⟨m, hm, hmem⟩
    rw [get?_of_mem (nodup_vals hk hnd) hmem]
    simpa using hm

theorem mem_classFields {f : Str} : f ∈ classFields c ↔ f = typeName ∨
    ∃ fi ∈ c.fields, fi.name = f ∧ fi.exclude = false ∧ fi.skip = false := by
  unfold classFields
  rw [(sortNames_perm _).mem_iff]
  simp only [List.mem_append, List.mem_map, List.mem_filter, Bool.not_eq_true', List.mem_singleton]
  constructor
  · rintro (⟨fi, ⟨⟨h1, h2⟩, h3⟩, h4⟩ | h)
    · exact .inr ⟨fi, h1, h4, h2, h3⟩
    · exact .inl h
  · rintro (h | ⟨fi, h1, h4, h2, h3⟩)
    · exact .inr h
    · exact .inl ⟨fi, ⟨⟨h1, h2⟩, h3⟩, h4⟩

include hnd hus in
theorem nodup_classFields : (classFields c).Nodup := by
  unfold classFields
  rw [(sortNames_perm _).nodup_iff, List.nodup_append]
  refine ⟨?_, by simp, ?_⟩
  · exact List.Nodup.sublist ((List.filter_sublist.trans List.filter_sublist).map _) hnd
  · intro a ha b hb
    simp only [List.mem_singleton] at hb
    subst hb
    rintro rfl
    refine typeName_not_field hus ?_
    obtain ⟨fi, hf, he⟩ := List.mem_map.1 ha
    exact List.mem_map.2 ⟨fi, (List.mem_filter.1 (List.mem_filter.1 hf).1).1, he⟩

theorem sorted_classFields : (classFields c).Pairwise fun a b => strLe a b = true :=
  sortNames_sorted _

include hk in
theorem has_value {fi : FieldInfo} (h : fi ∈ c.fields) : ∃ x, (fi.name, x) ∈ xs := by
  have : fi.name ∈ xs.map (·.1) := by rw [hk]; exact List.mem_map.2 ⟨fi, h, rfl⟩
  obtain ⟨⟨n, x⟩, hp, he⟩ := List.mem_map.1 this
  exact ⟨x, by simpa [← he] using hp⟩

include hk hnd hus hsv in
theorem mem_instFields {f : Str} : f ∈ instFields c xs ↔ f = typeName ∨ ∃ x, Seen c xs f x := by
  have hT : typeName ∈ classFields c := mem_classFields.2 (.inl rfl)
  by_cases hs : c.semver = true
  · by_cases hm : majorPos xs = true
    · have hpos := (majorPos_iff hk hnd).1 hm
      simp only [instFields, hs, hm, if_true, List.mem_filter, decide_eq_true_eq, List.mem_cons,
        List.not_mem_nil, or_false]
      constructor
      · rintro ⟨h1, h2⟩
        rcases h2 with rfl | rfl
        · exact .inl rfl
        · rcases mem_classFields.1 h1 with h1 | ⟨fi, hfi, hn, he, hsk⟩
          · exact .inl h1
          · obtain ⟨x, hx⟩ := has_value hk hfi
            exact .inr ⟨x, ⟨fi, hfi, hn, he, hsk⟩, hn ▸ hx, by simp⟩
      · rintro (rfl | ⟨x, ⟨fi, hfi, hn, he, hsk⟩, hx, hne⟩)
        · exact ⟨hT, .inl rfl⟩
        · refine ⟨mem_classFields.2 (.inr ⟨fi, hfi, hn, he, hsk⟩), .inr ?_⟩
          rcases Decidable.em (f = "major".toList) with h | h
          · exact h
          · exact absurd ⟨hs, h, hpos⟩ hne
    · simp only [Bool.not_eq_true] at hm
      have hnpos : ¬ ∃ m, 0 < m ∧ ("major".toList, Val.int m) ∈ xs := by
        rw [← majorPos_iff hk hnd]; simp [hm]
      simp only [instFields, hs, hm, if_true, Bool.false_eq_true, if_false, List.mem_filter,
        decide_eq_true_eq]
      constructor
      · rintro ⟨h1, h2⟩
        rcases mem_classFields.1 h1 with h1 | ⟨fi, hfi, hn, he, hsk⟩
        · exact .inl h1
        · obtain ⟨x, hx⟩ := has_value hk hfi
          exact .inr ⟨x, ⟨fi, hfi, hn, he, hsk⟩, hn ▸ hx, fun h => hnpos h.2.2⟩
      · rintro (rfl | ⟨x, ⟨fi, hfi, hn, he, hsk⟩, hx, hne⟩)
        · exact ⟨hT, by simp⟩
        · refine ⟨mem_classFields.2 (.inr ⟨fi, hfi, hn, he, hsk⟩), ?_⟩
          rw [← hn]
          exact List.mem_cons_of_mem _ (hsv hs fi hfi he hsk)
  · have hs' : c.semver = false := by simpa using hs
    simp only [instFields, hs', Bool.false_eq_true, if_false]
    rw [mem_classFields]
    constructor
    · rintro (h | ⟨fi, hfi, hn, he, hsk⟩)
      · exact .inl h
      · obtain ⟨x, hx⟩ := has_value hk hfi
        exact .inr ⟨x, ⟨fi, hfi, hn, he, hsk⟩, hn ▸ hx, fun h => by simp [hs'] at h⟩
    · rintro (h | ⟨x, h, _⟩)
      · exact .inl h
      · exact .inr h

include hnd hus in
theorem instFields_sorted : (instFields c xs).Pairwise (fun a b => strLe a b = true) ∧
    (instFields c xs).Nodup := by
  unfold instFields
  split
  · exact ⟨sorted_classFields.filter _, (nodup_classFields hnd hus).filter _⟩
  · exact ⟨sorted_classFields, nodup_classFields hnd hus⟩

include hk hnd hus in
theorem nodup_data : (keys (dataOf c xs)).Nodup := by
  have h : ((toFields xs).filter (fun p => !excluded c p.1)).map (·.1) = 
      (xs.map (·.1)).filter (fun n => !excluded c n) := by
    rw [toFields_eq, List.filter_map, List.map_map, List.filter_map]
    rfl
  unfold dataOf keys
  rw [List.map_append, List.nodup_append, h]
  refine ⟨?_, by simp, ?_⟩
  · rw [hk]; exact hnd.filter _
  · intro a ha b hb
    simp only [List.map_cons, List.map_nil, List.mem_singleton] at hb
    subst hb
    rintro rfl
    refine typeName_not_field hus ?_
    rw [← hk]
    exact (List.mem_filter.1 ha).1

include hk hnd hus in
theorem get_data_type : get? (dataOf c xs) typeName = some (.str c.name) :=
  get?_of_mem (nodup_data hk hnd hus) (by simp [dataOf])

include hk hnd hus in
theorem get_data_seen {f : Str} {x : Val} (h : Seen c xs f x) :
    get? (dataOf c xs) f = some (toJson x) := by
  refine get?_of_mem (nodup_data hk hnd hus) ?_
  obtain ⟨⟨fi, hfi, hn, he, hsk⟩, hx, _⟩ := h
  unfold dataOf
  refine List.mem_append_left _ (List.mem_filter.2 ⟨?_, ?_⟩)
  · rw [toFields_eq]
    exact List.mem_map.2 ⟨(f, x), hx, rfl⟩
  · subst hn
    simp [excluded_iff hnd hfi, he]

theorem toJson_model : toJson (.model c xs) =
    .obj ((instFields c xs).filterMap fun f => (get? (dataOf c xs) f).map fun j => (f, j)) := rfl

include hk hnd hus hsv in
/-- The entries of the document of a model. -/
theorem mem_obj {f : Str} {j : Json} :
    (f, j) ∈ (instFields c xs).filterMap (fun f => (get? (dataOf c xs) f).map fun j => (f, j)) ↔
      (f = typeName ∧ j = .str c.name) ∨ ∃ x, Seen c xs f x ∧ j = toJson x := by
  have hT := get_data_type hk hnd hus
  rw [List.mem_filterMap]
  constructor
  · rintro ⟨g, hg, he⟩
    rcases (mem_instFields hk hnd hus hsv).1 hg with rfl | ⟨x, hx⟩
    · rw [hT] at he
      simp only [Option.map_some, Option.some.injEq, Prod.mk.injEq] at he
      exact .inl ⟨he.1.symm, he.2.symm⟩
    · rw [get_data_seen hk hnd hus hx] at he
      simp only [Option.map_some, Option.some.injEq, Prod.mk.injEq] at he
      exact .inr ⟨x, he.1 ▸ hx, he.2.symm⟩
  · rintro (⟨rfl, rfl⟩ | ⟨x, hx, rfl⟩)
    · exact ⟨typeName, (mem_instFields hk hnd hus hsv).2 (.inl rfl), by rw [hT]; rfl⟩
    · exact ⟨f, (mem_instFields hk hnd hus hsv).2 (.inr ⟨x, hx⟩),
        by rw [get_data_seen hk hnd hus hx]; rfl⟩

end

/-! ## Same document, same content -/

theorem getElem?_map_eq {α β : Type} {f g : α → β} {xs ys : List α} (h : xs.map f = ys.map g) (i : Nat)
    {x y : α} (hx : xs[i]? = some x) (hy : ys[i]? = some y) : f x = g y := by
  have h1 : (xs.map f)[i]? = some (f x) := by simp [hx]
  have h2 : (ys.map g)[i]? = some (g y) := by simp [hy]
  rw [h, h2] at h1
  exact (Option.some.inj h1).symm

theorem map_eq_of_getElem? {α β : Type} {f g : α → β} {xs ys : List α} (hl : xs.length = ys.length)
    (h : ∀ (i : Nat) x y, xs[i]? = some x → ys[i]? = some y → f x = g y) : xs.map f = ys.map g := by
  apply List.ext_getElem?
  intro i
  simp only [List.getElem?_map]
  cases hx : xs[i]? with
  | none =>
    have : ys[i]? = none := by rw [List.getElem?_eq_none_iff] at hx ⊢; omega
    simp [this]
  | some x =>
    have hi : i < ys.length := by
      have := (List.getElem?_eq_some_iff.1 hx).1; omega
    rw [List.getElem?_eq_getElem hi]
    simp [h i x _ hx (List.getElem?_eq_getElem hi)]

theorem filterMap_ext {α β : Type} {f g : α → Option β} {l : List α} (h : ∀ x ∈ l, f x = g x) :
    l.filterMap f = l.filterMap g := by
  induction l with
  | nil => rfl
  | cons x l ih =>
    simp only [List.filterMap_cons, h x (by simp), ih fun y hy => h y (List.mem_cons_of_mem _ hy)]

theorem model_obj_type {c : Cls} {xs : List (Str × Val)} (h : WfVal (.model c xs)) :
    ∃ l, toJson (.model c xs) = .obj l ∧ (typeName, Json.str c.name) ∈ l := by
  cases h with
  | model hk hnd hus hsv _ =>
    exact ⟨_, rfl, (mem_obj hk hnd hus hsv).2 (.inl ⟨rfl, rfl⟩)⟩

theorem map_ne_model {c : Cls} {xs ys : List (Str × Val)} (hx : NoTypeKey (.map xs))
    (hy : WfVal (.model c ys)) : toJson (.map xs) ≠ toJson (.model c ys) := by
  intro h
  obtain ⟨l, hl, hm⟩ := model_obj_type hy
  rw [hl] at h
  simp only [toJson, Json.obj.injEq, toFields_eq] at h
  rw [← h] at hm
  obtain ⟨p, hp, he⟩ := List.mem_map.1 hm
  cases hx with
  | map h1 _ =>
    simp only [Prod.mk.injEq] at he
    exact h1 p hp he.1

theorem agree_of_toJson {a : Val} (ha : WfVal a) : ∀ b, WfVal b → NoTypeKey a → NoTypeKey b →
    toJson a = toJson b → Agree a b := by
  induction ha with
  | null => intro b _ _ _ h; cases b <;> first | exact .null | simp [toJson] at h
  | bool b => intro b _ _ _ h; cases b <;> simp [toJson] at h; subst h; exact .bool _
  | int b => intro b _ _ _ h; cases b <;> simp [toJson] at h; subst h; exact .int _
  | str s =>
    intro b _ _ _ h
    cases b <;> simp [toJson] at h <;> subst h <;> exact .text rfl rfl
  | text k s =>
    intro b _ _ _ h
    cases b <;> simp [toJson] at h <;> subst h <;> exact .text rfl rfl
  | stamp u o =>
    intro b _ _ _ h
    cases b <;> simp [toJson] at h
    · subst h; exact .text rfl rfl
    · subst h; exact .text rfl rfl
    · exact .text (s := stampText u o) rfl (by simp [textOf, h])
  | @seq xs hx ih =>
    intro b hb na nb h
    have main : ∀ ys, itemsOf b = some ys → (∀ y ∈ ys, WfVal y) → (∀ y ∈ ys, NoTypeKey y) →
        toItems xs = toItems ys → Agree (.seq xs) b := by
      intro ys hbi hw hn he
      rw [toItems_eq, toItems_eq] at he
      refine .items rfl hbi (by simpa using congrArg List.length he) ?_
      intro i x y hxi hyi
      have hxm := List.mem_of_getElem? hxi
      cases na with
      | seq na =>
        exact ih x hxm y (hw y (List.mem_of_getElem? hyi)) (na x hxm) (hn y (List.mem_of_getElem? hyi))
          (getElem?_map_eq he i hxi hyi)
    cases b <;> simp [toJson] at h
    · cases hb with | seq hb => cases nb with | seq nb => exact main _ rfl hb nb h
    · cases hb with | set hb => cases nb with | set nb => exact main _ rfl hb nb h
  | @set xs hx ih =>
    intro b hb na nb h
    have main : ∀ ys, itemsOf b = some ys → (∀ y ∈ ys, WfVal y) → (∀ y ∈ ys, NoTypeKey y) →
        toItems xs = toItems ys → Agree (.set xs) b := by
      intro ys hbi hw hn he
      rw [toItems_eq, toItems_eq] at he
      refine .items rfl hbi (by simpa using congrArg List.length he) ?_
      intro i x y hxi hyi
      have hxm := List.mem_of_getElem? hxi
      cases na with
      | set na =>
        exact ih x hxm y (hw y (List.mem_of_getElem? hyi)) (na x hxm) (hn y (List.mem_of_getElem? hyi))
          (getElem?_map_eq he i hxi hyi)
    cases b <;> simp [toJson] at h
    · cases hb with | seq hb => cases nb with | seq nb => exact main _ rfl hb nb h
    · cases hb with | set hb => cases nb with | set nb => exact main _ rfl hb nb h
  | @map xs hnd hx ih =>
    intro b hb na nb h
    cases b with
    | map ys =>
      simp only [toJson, Json.obj.injEq, toFields_eq] at h
      cases na with
      | map _ na =>
        cases hb with
        | map _ hb =>
          cases nb with
          | map _ nb =>
            refine .map ?_ ?_
            · have := congrArg (List.map (·.1)) h
              simpa [List.map_map, Function.comp_def] using this
            · intro i p q hp hq
              have he := getElem?_map_eq h i hp hq
              simp only [Prod.mk.injEq] at he
              have hpm := List.mem_of_getElem? hp
              have hqm := List.mem_of_getElem? hq
              exact ih p hpm q.2 (hb q hqm) (na p hpm) (nb q hqm) he.2
    | model c ys => exact absurd h (map_ne_model na hb)
    | _ => simp [toJson] at h
  | @model c xs hk hnd hus hsv hx ih =>
    intro b hb na nb h
    cases b with
    | map ys => exact absurd h.symm (map_ne_model nb (.model hk hnd hus hsv hx))
    | model c' ys =>
      cases na with
      | model na =>
        cases nb with
        | model nb =>
          cases hb with
          | model hk' hnd' hus' hsv' hb =>
            rw [toJson_model, toJson_model, Json.obj.injEq] at h
            have hm : ∀ f j, ((f = typeName ∧ j = .str c.name) ∨ ∃ x, Seen c xs f x ∧ j = toJson x) ↔
                ((f = typeName ∧ j = .str c'.name) ∨ ∃ x, Seen c' ys f x ∧ j = toJson x) := by
              intro f j
              rw [← mem_obj hk hnd hus hsv, ← mem_obj hk' hnd' hus' hsv', h]
            have hto : ∀ f x, Seen c xs f x → ∃ y, Seen c' ys f y ∧ toJson x = toJson y := by
              intro f x hs
              rcases (hm f (toJson x)).1 (.inr ⟨x, hs, rfl⟩) with ⟨hf, _⟩ | h
              · exact absurd hf (seen_ne_typeName hus hs)
              · exact h
            have hfrom : ∀ f y, Seen c' ys f y → ∃ x, Seen c xs f x := by
              intro f y hs
              rcases (hm f (toJson y)).2 (.inr ⟨y, hs, rfl⟩) with ⟨hf, _⟩ | ⟨x, h, _⟩
              · exact absurd hf (seen_ne_typeName hus' hs)
              · exact ⟨x, h⟩
            refine .model ?_ ?_ ?_
            · rcases (hm typeName (.str c.name)).1 (.inl ⟨rfl, rfl⟩) with ⟨_, hn⟩ | ⟨x, hs, _⟩
              · simpa using hn
              · exact absurd rfl (seen_ne_typeName hus' hs)
            · intro f
              constructor
              · rintro ⟨x, hs⟩
                obtain ⟨y, hy, _⟩ := hto f x hs
                exact ⟨y, hy⟩
              · rintro ⟨y, hs⟩
                exact hfrom f y hs
            · intro f x y hs hs'
              obtain ⟨y', hy', he⟩ := hto f x hs
              have := seen_unique hk' hnd' hs' hy'
              subst this
              exact ih _ hs.2.1 y (hb _ hs'.2.1) (na _ hs.2.1) (nb _ hs'.2.1) he
    | _ => simp [toJson] at h

theorem toJson_of_agree {a b : Val} (h : Agree a b) : WfVal a → WfVal b → toJson a = toJson b := by
  have text : ∀ v s, textOf v = some s → toJson v = .str s := by
    intro v s hv
    cases v <;> simp [textOf] at hv <;> simp [toJson, hv]
  have items : ∀ v xs, itemsOf v = some xs → toJson v = .arr (xs.map toJson) := by
    intro v s hv
    cases v <;> simp [itemsOf] at hv <;> simp [toJson, hv, toItems_eq]
  have itemsWf : ∀ v xs, itemsOf v = some xs → WfVal v → ∀ x ∈ xs, WfVal x := by
    intro v xs hv hw
    cases v <;> simp [itemsOf] at hv <;> subst hv <;> cases hw <;> assumption
  induction h with
  | null => intros; rfl
  | bool => intros; rfl
  | int => intros; rfl
  | text h1 h2 => intros; rw [text _ _ h1, text _ _ h2]
  | items h1 h2 hl _ ih =>
    intro wa wb
    rw [items _ _ h1, items _ _ h2]
    rw [map_eq_of_getElem? hl fun i x y hx hy => ih i x y hx hy
      (itemsWf _ _ h1 wa x (List.mem_of_getElem? hx)) (itemsWf _ _ h2 wb y (List.mem_of_getElem? hy))]
  | @map xs ys hk _ ih =>
    intro wa wb
    cases wa with
    | map _ wa =>
      cases wb with
      | map _ wb =>
        simp only [toJson, Json.obj.injEq, toFields_eq]
        refine map_eq_of_getElem? (by simpa using congrArg List.length hk) ?_
        intro i p q hp hq
        rw [Prod.mk.injEq]
        exact ⟨getElem?_map_eq hk i hp hq, ih i p q hp hq (wa p (List.mem_of_getElem? hp))
          (wb q (List.mem_of_getElem? hq))⟩
  | @model c c' xs ys hn hs _ ih =>
    intro wa wb
    cases wa with
    | model hk hnd hus hsv wa =>
      cases wb with
      | model hk' hnd' hus' hsv' wb =>
        have hL : instFields c xs = instFields c' ys := by
          obtain ⟨s1, n1⟩ := instFields_sorted (xs := xs) hnd hus
          obtain ⟨s2, n2⟩ := instFields_sorted (xs := ys) hnd' hus'
          refine sorted_ext s1 s2 n1 n2 ?_
          intro f
          rw [mem_instFields hk hnd hus hsv, mem_instFields hk' hnd' hus' hsv', hs f]
        rw [toJson_model, toJson_model, ← hL]
        congr 1
        apply filterMap_ext
        intro f hf
        rcases (mem_instFields hk hnd hus hsv).1 hf with rfl | ⟨x, hx⟩
        · rw [get_data_type hk hnd hus, get_data_type hk' hnd' hus', hn]
        · obtain ⟨y, hy⟩ := (hs f).1 ⟨x, hx⟩
          rw [get_data_seen hk hnd hus hx, get_data_seen hk' hnd' hus' hy,
            ih f x y hx hy (wa _ hx.2.1) (wb _ hy.2.1)]

/-! ## Declared types -/

theorem intToStr_no_at (i : Int) : '@' ∉ intToStr i := by
  intro h
  have key : ∀ n, '@' ∉ natToStr 10 n := by
    intro n hn
    have := natToStr_chars (by omega) (by omega) n '@' hn
    revert this; decide
  cases i with
  | ofNat n => exact key n h
  | negSucc n =>
    simp only [intToStr, List.mem_cons] at h
    rcases h with h | h
    · revert h; decide
    · exact key _ h

theorem split_at {a b c d : Str} {x : Char} (ha : x ∉ a) (hc : x ∉ c) (h : a ++ x :: b = c ++ x :: d) :
    a = c ∧ b = d := by
  induction a generalizing c with
  | nil =>
    cases c with
    | nil => simpa using h
    | cons y c =>
      simp only [List.nil_append, List.cons_append, List.cons.injEq] at h
      exact absurd (h.1 ▸ List.mem_cons_self) hc
  | cons y a ih =>
    cases c with
    | nil =>
      simp only [List.nil_append, List.cons_append, List.cons.injEq] at h
      exact absurd (h.1 ▸ List.mem_cons_self) ha
    | cons z c =>
      simp only [List.cons_append, List.cons.injEq] at h
      obtain ⟨h1, h2⟩ := ih (fun hm => ha (List.mem_cons_of_mem _ hm))
        (fun hm => hc (List.mem_cons_of_mem _ hm)) h.2
      exact ⟨by rw [h.1, h1], h2⟩

theorem stampText_inj {u o u' o' : Int} (h : stampText u o = stampText u' o') : u = u' ∧ o = o' := by
  obtain ⟨h1, h2⟩ := split_at (intToStr_no_at _) (intToStr_no_at _) h
  have h3 := intToStr_inj h1
  have h4 := intToStr_inj h2
  omega

theorem same_of_agree {reg : Str → Cls} {t : Ty} {a : Val} (ha : HasTy reg t a) :
    ∀ b, HasTy reg t b → WfVal a → WfVal b → Agree a b → Same a b := by
  induction ha with
  | bool b => intro b hb _ _ h; cases hb; cases h with
    | bool => exact .bool _
    | text h => simp [textOf] at h
    | items h => simp [itemsOf] at h
  | int b => intro b hb _ _ h; cases hb; cases h with
    | int => exact .int _
    | text h => simp [textOf] at h
    | items h => simp [itemsOf] at h
  | str s => intro b hb _ _ h; cases hb; cases h with
    | text h h' => simp [textOf] at h h'; subst h h'; exact .str _
    | items h => simp [itemsOf] at h
  | text k s => intro b hb _ _ h; cases hb; cases h with
    | text h h' => simp [textOf] at h h'; subst h h'; exact .text _ _
    | items h => simp [itemsOf] at h
  | stamp u o => intro b hb _ _ h; cases hb; cases h with
    | text h h' =>
      simp [textOf] at h h'; rw [← h'] at h
      obtain ⟨rfl, rfl⟩ := stampText_inj h
      exact .stamp _ _
    | items h => simp [itemsOf] at h
  | none =>
    intro b _ _ _ h
    cases h with
    | null => exact .null
    | text h => simp [textOf] at h
    | items h => simp [itemsOf] at h
  | @some t v hv ih =>
    intro b hb wa wb h
    cases hb with
    | none =>
      cases h with
      | null => exact .null
      | text _ h => simp [textOf] at h
      | items _ h => simp [itemsOf] at h
    | some hb => exact ih b hb wa wb h
  | @seq t xs hx ih =>
    intro b hb wa wb h
    cases hb with
    | @seq _ ys hy =>
      cases wa with
      | seq wa =>
        cases wb with
        | seq wb =>
          cases h with
          | text h => simp [textOf] at h
          | items h1 h2 hl he =>
            simp only [itemsOf, Option.some.injEq] at h1 h2
            subst h1 h2
            refine .seq hl ?_
            intro i x y hxi hyi
            have hxm := List.mem_of_getElem? hxi
            have hym := List.mem_of_getElem? hyi
            exact ih x hxm y (hy y hym) (wa x hxm) (wb y hym) (he i x y hxi hyi)
  | @set t xs hx ih =>
    intro b hb wa wb h
    cases hb with
    | @set _ ys hy =>
      cases wa with
      | set wa =>
        cases wb with
        | set wb =>
          cases h with
          | text h => simp [textOf] at h
          | items h1 h2 hl he =>
            simp only [itemsOf, Option.some.injEq] at h1 h2
            subst h1 h2
            refine .set hl ?_
            intro i x y hxi hyi
            have hxm := List.mem_of_getElem? hxi
            have hym := List.mem_of_getElem? hyi
            exact ih x hxm y (hy y hym) (wa x hxm) (wb y hym) (he i x y hxi hyi)
  | @map t xs hx ih =>
    intro b hb wa wb h
    cases hb with
    | @map _ ys hy =>
      cases wa with
      | map _ wa =>
        cases wb with
        | map _ wb =>
          cases h with
          | text h => simp [textOf] at h
          | items h => simp [itemsOf] at h
          | map hk he =>
            refine .map hk ?_
            intro i p q hp hq
            have hpm := List.mem_of_getElem? hp
            have hqm := List.mem_of_getElem? hq
            exact ih p hpm q.2 (hy q hqm) (wa p hpm) (wb q hqm) (he i p q hp hq)
  | @model c xs hreg hx ih =>
    intro b hb wa wb h
    cases hb with
    | @model c' ys hreg' hy =>
      cases wa with
      | model _ _ _ _ wa =>
        cases wb with
        | model _ _ _ _ wb =>
          cases h with
          | text h => simp [textOf] at h
          | items h => simp [itemsOf] at h
          | model hn hs he =>
            have hcc : c = c' := by rw [← hreg, ← hreg', hn]
            subst hcc
            refine .model hs ?_
            intro f x y h1 h2
            obtain ⟨fi, hfi, hnm, _⟩ := h1.1
            exact ih (f, x) h1.2.1 fi hfi hnm y (hy (f, y) h2.2.1 fi hfi hnm) (wa _ h1.2.1)
              (wb _ h2.2.1) (he f x y h1 h2)

/-! ## Equal values -/

theorem seen_names {c : Cls} {xs ys : List (Str × Val)}
    (he : ∀ m, ("major".toList, Val.int m) ∈ xs ↔ ("major".toList, Val.int m) ∈ ys)
    (hk : xs.map (·.1) = ys.map (·.1)) {f : Str} {x : Val} (h : Seen c xs f x) :
    ∃ y, Seen c ys f y := by
  obtain ⟨h1, h2, h3⟩ := h
  have : f ∈ ys.map (·.1) := by rw [← hk]; exact List.mem_map.2 ⟨_, h2, rfl⟩
  obtain ⟨⟨g, y⟩, hy, hg⟩ := List.mem_map.1 this
  refine ⟨y, h1, ?_, ?_⟩
  · simpa [← hg] using hy
  · rintro ⟨a, b, m, hm, hmm⟩
    exact h3 ⟨a, b, m, hm, (he m).2 hmm⟩

theorem hasTy_int_bool {reg : Str → Cls} {t : Ty} {m : Int} {b : Bool} (h : HasTy reg t (.int m)) :
    ¬ HasTy reg t (.bool b) := by
  induction t with
  | opt t ih =>
    intro h'
    cases h with | some h => cases h' with | some h' => exact ih h h'
  | int => intro h'; cases h'
  | _ => cases h

theorem agree_of_pyEq {reg : Str → Cls} {t : Ty} {a : Val} (ha : HasTy reg t a) :
    ∀ b, HasTy reg t b → WfVal a → WfVal b → Rigid a → Rigid b → PyEq a b → Agree a b := by
  induction ha with
  | bool b => intro b hb _ _ _ _ h; cases hb; cases h; exact .bool _
  | int b => intro b hb _ _ _ _ h; cases hb; cases h; exact .int _
  | str s => intro b hb _ _ _ _ h; cases h; exact .text rfl rfl
  | text k s => intro b hb _ _ _ _ h; cases h; exact .text rfl rfl
  | stamp u o => intro b hb _ _ ra rb h; cases h; cases ra; cases rb; exact .text rfl rfl
  | none => intro b _ _ _ _ _ h; cases h; exact .null
  | @some t v hv ih =>
    intro b hb wa wb ra rb h
    cases hb with
    | none => cases h; exact .null
    | some hb => exact ih b hb wa wb ra rb h
  | @seq t xs hx ih =>
    intro b hb wa wb ra rb h
    cases h with
    | @seq _ ys hl he =>
      cases hb with | seq hy =>
      cases wa with | seq wa =>
      cases wb with | seq wb =>
      cases ra with | seq ra =>
      cases rb with | seq rb =>
      refine .items rfl rfl hl ?_
      intro i x y hxi hyi
      have hxm := List.mem_of_getElem? hxi
      have hym := List.mem_of_getElem? hyi
      exact ih x hxm y (hy y hym) (wa x hxm) (wb y hym) (ra x hxm) (rb y hym) (he i x y hxi hyi)
  | @set t xs hx ih =>
    intro b hb wa wb ra rb h
    cases h with
    | @set _ ys zs hp hl he =>
      cases hb with | set hy =>
      cases wa with | set wa =>
      cases wb with | set wb =>
      cases ra with | set rl ra =>
      cases rb with | set rl' rb =>
      have hz : zs = ys := by
        have hlen := hp.length_eq
        match zs, ys with
        | [], ys => exact (List.nil_perm.1 hp).symm
        | [z], ys => exact (List.singleton_perm.1 hp)
        | _ :: _ :: _, _ => simp at hlen; omega
      subst hz
      refine .items rfl rfl hl ?_
      intro i x y hxi hyi
      have hxm := List.mem_of_getElem? hxi
      have hym := List.mem_of_getElem? hyi
      exact ih x hxm y (hy y hym) (wa x hxm) (wb y hym) (ra x hxm) (rb y hym) (he i x y hxi hyi)
  | @map t xs hx ih =>
    intro b hb wa wb ra rb h
    cases h with
    | @map _ ys hk he =>
      cases hb with | map hy =>
      cases wa with | map _ wa =>
      cases wb with | map _ wb =>
      cases ra with | map rl ra =>
      cases rb with | map rl' rb =>
      match xs, ys with
      | [], [] => exact .map rfl (by intro i p q hp; simp at hp)
      | [], (k, y) :: ys =>
        obtain ⟨x, hx⟩ := (hk k).2 ⟨y, by simp⟩
        simp at hx
      | (k, x) :: xs, [] =>
        obtain ⟨y, hy⟩ := (hk k).1 ⟨x, by simp⟩
        simp at hy
      | [(k, x)], [(k', y)] =>
        obtain ⟨y', hy'⟩ := (hk k).1 ⟨x, by simp⟩
        simp only [List.mem_singleton, Prod.mk.injEq] at hy'
        obtain ⟨rfl, rfl⟩ := hy'
        refine .map rfl ?_
        intro i p q hp hq
        have hpm := List.mem_of_getElem? hp
        have hqm := List.mem_of_getElem? hq
        simp only [List.mem_singleton] at hpm hqm
        subst hpm hqm
        exact ih (k, x) (by simp) y' (hy (k, y') (by simp)) (wa (k, x) (by simp)) (wb (k, y') (by simp))
          (ra (k, x) (by simp)) (rb (k, y') (by simp)) (he k x y' (by simp) (by simp))
      | _ :: _ :: _, _ => simp at rl
      | _, _ :: _ :: _ => simp at rl'
  | @model c xs hreg hx ih =>
    intro b hb wa wb ra rb h
    cases h with
    | @model _ _ ys hk he =>
      cases hb with | model hreg' hy =>
      cases wa with | model kx nx ux sx wa =>
      cases wb with | model ky ny uy sy wb =>
      cases ra with | model ra =>
      cases rb with | model rb =>
      have typed : ∀ f x y, (f, x) ∈ xs → (f, y) ∈ ys → ∃ t, HasTy reg t x ∧ HasTy reg t y := by
        intro f x y h1 h2
        have : f ∈ c.fields.map (·.name) := by rw [← kx]; exact List.mem_map.2 ⟨_, h1, rfl⟩
        obtain ⟨fi, hfi, hn⟩ := List.mem_map.1 this
        exact ⟨fi.ty, hx _ h1 fi hfi hn, hy _ h2 fi hfi hn⟩
      have major : ∀ f m, (f, Val.int m) ∈ xs ↔ (f, Val.int m) ∈ ys := by
        intro f m
        constructor
        · intro h1
          have : f ∈ ys.map (·.1) := by rw [← hk]; exact List.mem_map.2 ⟨_, h1, rfl⟩
          obtain ⟨⟨g, y⟩, h2, hg⟩ := List.mem_map.1 this
          simp only at hg
          subst hg
          obtain ⟨t, t1, t2⟩ := typed _ _ _ h1 h2
          have hq := he _ _ _ h1 h2
          cases hq with
          | int => exact h2
          | intBool b => exact absurd t2 (hasTy_int_bool t1)
        · intro h1
          have : f ∈ xs.map (·.1) := by rw [hk]; exact List.mem_map.2 ⟨_, h1, rfl⟩
          obtain ⟨⟨g, y⟩, h2, hg⟩ := List.mem_map.1 this
          simp only at hg
          subst hg
          obtain ⟨t, t1, t2⟩ := typed _ _ _ h2 h1
          have hq := he _ _ _ h2 h1
          cases hq with
          | int => exact h2
          | boolInt b => exact absurd t1 (hasTy_int_bool t2)
      refine .model rfl ?_ ?_
      · intro f
        constructor
        · rintro ⟨x, hs⟩
          exact seen_names (fun m => major _ m) hk hs
        · rintro ⟨y, hs⟩
          exact seen_names (fun m => (major _ m).symm) hk.symm hs
      · intro f x y h1 h2
        obtain ⟨fi, hfi, hn, _⟩ := h1.1
        exact ih (f, x) h1.2.1 fi hfi hn y (hy (f, y) h2.2.1 fi hfi hn) (wa _ h1.2.1) (wb _ h2.2.1)
          (ra f x h1) (rb f y h2) (he f x y h1.2.1 h2.2.1)

end Arti.MDoc

namespace Arti.MDoc
open Json Spec PyDict

theorem agree_refl {a : Val} (h : WfVal a) : Agree a a := by
  induction h with
  | null => exact .null
  | bool => exact .bool _
  | int => exact .int _
  | str => exact .text rfl rfl
  | text => exact .text rfl rfl
  | stamp => exact .text rfl rfl
  | seq _ ih =>
    refine .items rfl rfl rfl ?_
    intro i x y h1 h2
    rw [h1] at h2
    cases h2
    exact ih x (List.mem_of_getElem? h1)
  | set _ ih =>
    refine .items rfl rfl rfl ?_
    intro i x y h1 h2
    rw [h1] at h2
    cases h2
    exact ih x (List.mem_of_getElem? h1)
  | map _ _ ih =>
    refine .map rfl ?_
    intro i x y h1 h2
    rw [h1] at h2
    cases h2
    exact ih x (List.mem_of_getElem? h1)
  | model hk hnd _ _ _ ih =>
    refine .model rfl (fun f => Iff.rfl) ?_
    intro f x y h1 h2
    rw [seen_unique hk hnd h1 h2]
    exact ih _ h2.2.1

/-- Models whose fingerprinted fields are the same have the same document. -/
theorem doc_of_seen {c c' : Cls} {xs ys : List (Str × Val)} (hn : c.name = c'.name)
    (wa : WfVal (.model c xs)) (wb : WfVal (.model c' ys))
    (h : ∀ f x, Seen c xs f x ↔ Seen c' ys f x) : doc (.model c xs) = doc (.model c' ys) := by
  refine (doc_inj _ _).2 (toJson_of_agree (.model hn (fun f => ?_) ?_) wa wb)
  · exact ⟨fun ⟨x, hx⟩ => ⟨x, (h f x).1 hx⟩, fun ⟨x, hx⟩ => ⟨x, (h f x).2 hx⟩⟩
  · intro f x y h1 h2
    have h3 := (h f x).1 h1
    cases wb with
    | model hk hnd _ _ wb =>
      rw [seen_unique hk hnd h3 h2]
      exact agree_refl (wb _ h2.2.1)

theorem classFields_semver : classFields semverCls =
    [typeName, "major".toList, "minor".toList, "patch".toList] := by decide +kernel

theorem semver_json (a b c : Int) : toJson (semver a b c) =
    .obj ((typeName, .str "SemVer".toList) :: ("major".toList, .int a) ::
      if 0 < a then [] else [("minor".toList, .int b), ("patch".toList, .int c)]) := by
  have hm : majorPos [("major".toList, .int a), ("minor".toList, .int b), ("patch".toList, .int c)] =
      decide (0 < a) := rfl
  have hs : semverCls.semver = true := rfl
  unfold semver
  rw [toJson_model]
  unfold instFields
  rw [hm, hs, classFields_semver]
  by_cases h : 0 < a
  · simp only [h, decide_true, if_true]
    rfl
  · simp only [h, decide_false, Bool.false_eq_true, if_true, if_false]
    rfl

theorem wf_semver (a b c : Int) : WfVal (semver a b c) := by
  refine .model rfl (by decide) (by decide) (by decide) ?_
  intro p hp
  simp only [List.mem_cons, List.not_mem_nil, or_false] at hp
  rcases hp with rfl | rfl | rfl <;> exact .int _

end Arti.MDoc
