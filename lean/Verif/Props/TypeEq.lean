import Mathlib.Data.List.Perm.Subperm
import Verif.Spec.TypeEq
import Verif.Lemmas.Views

/-!
# Equal types (C55)
-/

namespace Arti.Props
open Arti Spec Typ TH Views

theorem pyEq_iff (x y : Lit) : Lit.pyEq x y = true ↔ litValue x = litValue y := by
  cases x <;> cases y <;> simp [Lit.pyEq, litValue]
  case bool.bool a b => cases a <;> cases b <;> simp

theorem sameItems_iff (i j : List Lit) : sameItems i j = true ↔ SameItems i j := by
  simp only [sameItems, Bool.and_eq_true, List.all_eq_true, List.any_eq_true, pyEq_iff, SameItems,
    List.mem_map]
  constructor
  · rintro ⟨h1, h2⟩ v
    constructor
    · rintro ⟨x, hx, rfl⟩
      obtain ⟨y, hy, he⟩ := h1 x hx
      exact ⟨y, hy, he.symm⟩
    · rintro ⟨y, hy, rfl⟩
      obtain ⟨x, hx, he⟩ := h2 y hy
      exact ⟨x, hx, he.symm⟩
  · intro h
    constructor
    · intro x hx
      obtain ⟨y, hy, he⟩ := (h _).1 ⟨x, hx, rfl⟩
      exact ⟨y, hy, he.symm⟩
    · intro y hy
      obtain ⟨x, hx, he⟩ := (h _).2 ⟨y, hy, rfl⟩
      exact ⟨x, hx, he.symm⟩

theorem distinct_mem {fs : List (Str × Ty)} (h : DistinctNamesF fs) {n : Str} {t : Ty}
    (hm : (n, t) ∈ fs) : DistinctNames t := by
  induction fs with
  | nil => simp at hm
  | cons p fs ih =>
    obtain ⟨n', t'⟩ := p
    simp only [DistinctNamesF] at h
    rcases List.mem_cons.1 hm with he | hm
    · cases he; exact h.1
    · exact ih h.2 hm

/-- Two mappings of the same size, one of which has all the names of the other. -/
theorem names_same {fs gs : List (Str × Ty)} (hf : (fs.map Prod.fst).Nodup)
    (hl : fs.length = gs.length) (h : ∀ k ∈ fs.map Prod.fst, k ∈ gs.map Prod.fst) :
    ∀ k, k ∈ gs.map Prod.fst → k ∈ fs.map Prod.fst := by
  have hp := (List.subperm_of_subset hf h).perm_of_length_le (by simp [hl])
  exact fun k hk => hp.mem_iff.2 hk

mutual
theorem tyEq_iff (a b : Ty) (ha : DistinctNames a) (hb : DistinctNames b) :
    tyEq a b = true ↔ SameType a b := by
  cases a with
  | struct n fs m =>
    cases b with
    | struct n' gs m' =>
      simp only [DistinctNames] at ha hb
      have key := tyEqFields_iff fs gs ha.2 hb.2
      simp only [tyEq, Bool.and_eq_true, decide_eq_true_eq, key]
      constructor
      · rintro ⟨⟨⟨rfl, hl⟩, h⟩, rfl⟩
        have hsub : ∀ k ∈ fs.map Prod.fst, k ∈ gs.map Prod.fst := by
          intro k hk
          obtain ⟨⟨k', t⟩, hm, rfl⟩ := List.mem_map.1 hk
          obtain ⟨u, hu, -⟩ := h _ _ hm
          exact List.mem_map.2 ⟨_, PyDict.get?_mem hu, rfl⟩
        have hsub' := names_same ha.1 hl hsub
        refine .struct n m (fun k => ⟨?_, ?_⟩) ?_
        · rintro ⟨t, hm⟩
          obtain ⟨u, hu, -⟩ := h _ _ hm
          exact ⟨u, PyDict.get?_mem hu⟩
        · rintro ⟨u, hm⟩
          obtain ⟨⟨k', t⟩, hm', rfl⟩ := List.mem_map.1 (hsub' k (List.mem_map.2 ⟨_, hm, rfl⟩))
          exact ⟨t, hm'⟩
        · intro k t u ht hu
          obtain ⟨u', hu', hs⟩ := h _ _ ht
          rw [PyDict.get?_of_mem hb.1 hu] at hu'
          cases hu'
          exact hs
      · intro h
        cases h with
        | struct _ _ hn ht =>
          refine ⟨⟨⟨rfl, ?_⟩, ?_⟩, rfl⟩
          · have h1 := (List.subperm_of_subset ha.1 (l₂ := gs.map Prod.fst) (by
              intro k hk
              obtain ⟨⟨k', t⟩, hm, rfl⟩ := List.mem_map.1 hk
              obtain ⟨u, hu⟩ := (hn k').1 ⟨t, hm⟩
              exact List.mem_map.2 ⟨_, hu, rfl⟩)).length_le
            have h2 := (List.subperm_of_subset hb.1 (l₂ := fs.map Prod.fst) (by
              intro k hk
              obtain ⟨⟨k', t⟩, hm, rfl⟩ := List.mem_map.1 hk
              obtain ⟨u, hu⟩ := (hn k').2 ⟨t, hm⟩
              exact List.mem_map.2 ⟨_, hu, rfl⟩)).length_le
            simp only [List.length_map] at h1 h2
            omega
          · intro k t hm
            obtain ⟨u, hu⟩ := (hn k).1 ⟨t, hm⟩
            exact ⟨u, PyDict.get?_of_mem hb.1 hu, ht k t u hm hu⟩
    | _ => simp only [tyEq, Bool.false_eq_true, false_iff]; intro h; cases h
  | enum n t i m =>
    cases b with
    | enum n' t' i' m' =>
      simp only [DistinctNames] at ha hb
      simp only [tyEq, Bool.and_eq_true, decide_eq_true_eq, tyEq_iff t t' ha hb, sameItems_iff]
      constructor
      · rintro ⟨⟨⟨rfl, h1⟩, h2⟩, rfl⟩; exact .enum n m h1 h2
      · intro h; cases h with | enum _ _ h1 h2 => exact ⟨⟨⟨rfl, h1⟩, h2⟩, rfl⟩
    | _ => simp only [tyEq, Bool.false_eq_true, false_iff]; intro h; cases h
  | list e m =>
    cases b with
    | list e' m' =>
      simp only [DistinctNames] at ha hb
      simp only [tyEq, Bool.and_eq_true, decide_eq_true_eq, tyEq_iff e e' ha hb]
      constructor
      · rintro ⟨h1, rfl⟩; exact .list m h1
      · intro h; cases h with | list _ h1 => exact ⟨h1, rfl⟩
    | _ => simp only [tyEq, Bool.false_eq_true, false_iff]; intro h; cases h
  | set e m =>
    cases b with
    | set e' m' =>
      simp only [DistinctNames] at ha hb
      simp only [tyEq, Bool.and_eq_true, decide_eq_true_eq, tyEq_iff e e' ha hb]
      constructor
      · rintro ⟨h1, rfl⟩; exact .set m h1
      · intro h; cases h with | set _ h1 => exact ⟨h1, rfl⟩
    | _ => simp only [tyEq, Bool.false_eq_true, false_iff]; intro h; cases h
  | map k v m =>
    cases b with
    | map k' v' m' =>
      simp only [DistinctNames] at ha hb
      simp only [tyEq, Bool.and_eq_true, decide_eq_true_eq, tyEq_iff k k' ha.1 hb.1,
        tyEq_iff v v' ha.2 hb.2]
      constructor
      · rintro ⟨⟨h1, h2⟩, rfl⟩; exact .map m h1 h2
      · intro h; cases h with | map _ h1 h2 => exact ⟨⟨h1, h2⟩, rfl⟩
    | _ => simp only [tyEq, Bool.false_eq_true, false_iff]; intro h; cases h
  | collection n e p c m =>
    cases b with
    | collection n' e' p' c' m' =>
      simp only [DistinctNames] at ha hb
      simp only [tyEq, Bool.and_eq_true, decide_eq_true_eq, tyEq_iff e e' ha hb]
      constructor
      · rintro ⟨⟨⟨⟨rfl, h1⟩, rfl⟩, rfl⟩, rfl⟩; exact .collection n p c m h1
      · intro h; cases h with | collection _ _ _ _ h1 => exact ⟨⟨⟨⟨rfl, h1⟩, rfl⟩, rfl⟩, rfl⟩
    | _ => simp only [tyEq, Bool.false_eq_true, false_iff]; intro h; cases h
  | scalar s m =>
    cases b with
    | scalar s' m' =>
      simp only [tyEq, Bool.and_eq_true, decide_eq_true_eq]
      exact ⟨fun ⟨h1, h2⟩ => by subst h1 h2; exact .scalar _ _, fun h => by cases h; exact ⟨rfl, rfl⟩⟩
    | _ => simp only [tyEq, Bool.false_eq_true, false_iff]; intro h; cases h
  | binary s m =>
    cases b with
    | binary s' m' =>
      simp only [tyEq, Bool.and_eq_true, decide_eq_true_eq]
      exact ⟨fun ⟨h1, h2⟩ => by subst h1 h2; exact .binary _ _, fun h => by cases h; exact ⟨rfl, rfl⟩⟩
    | _ => simp only [tyEq, Bool.false_eq_true, false_iff]; intro h; cases h
  | geography f s m =>
    cases b with
    | geography f' s' m' =>
      simp only [tyEq, Bool.and_eq_true, decide_eq_true_eq]
      exact ⟨fun ⟨⟨h1, h2⟩, h3⟩ => by subst h1 h2 h3; exact .geography _ _ _,
        fun h => by cases h; exact ⟨⟨rfl, rfl⟩, rfl⟩⟩
    | _ => simp only [tyEq, Bool.false_eq_true, false_iff]; intro h; cases h
  | dateTime s m =>
    cases b with
    | dateTime s' m' =>
      simp only [tyEq, Bool.and_eq_true, decide_eq_true_eq]
      exact ⟨fun ⟨h1, h2⟩ => by subst h1 h2; exact .dateTime _ _, fun h => by cases h; exact ⟨rfl, rfl⟩⟩
    | _ => simp only [tyEq, Bool.false_eq_true, false_iff]; intro h; cases h
  | time s m =>
    cases b with
    | time s' m' =>
      simp only [tyEq, Bool.and_eq_true, decide_eq_true_eq]
      exact ⟨fun ⟨h1, h2⟩ => by subst h1 h2; exact .time _ _, fun h => by cases h; exact ⟨rfl, rfl⟩⟩
    | _ => simp only [tyEq, Bool.false_eq_true, false_iff]; intro h; cases h
  | timestamp s m =>
    cases b with
    | timestamp s' m' =>
      simp only [tyEq, Bool.and_eq_true, decide_eq_true_eq]
      exact ⟨fun ⟨h1, h2⟩ => by subst h1 h2; exact .timestamp _ _, fun h => by cases h; exact ⟨rfl, rfl⟩⟩
    | _ => simp only [tyEq, Bool.false_eq_true, false_iff]; intro h; cases h
theorem tyEqFields_iff (fs gs : List (Str × Ty)) (hf : DistinctNamesF fs) (hg : DistinctNamesF gs) :
    tyEqFields fs gs = true ↔ ∀ k t, (k, t) ∈ fs → ∃ u, PyDict.get? gs k = some u ∧ SameType t u := by
  cases fs with
  | nil => simp [tyEqFields]
  | cons p fs =>
    obtain ⟨n, t⟩ := p
    simp only [DistinctNamesF] at hf
    have ih := tyEqFields_iff fs gs hf.2 hg
    have iht := fun u hb => tyEq_iff t u hf.1 hb
    simp only [tyEqFields, Bool.and_eq_true, ih]
    constructor
    · rintro ⟨h1, h2⟩ k t' hm
      rcases List.mem_cons.1 hm with he | hm
      · obtain ⟨rfl, rfl⟩ := Prod.mk.inj he
        cases hg' : PyDict.get? gs k with
        | none => simp [hg'] at h1
        | some u =>
          rw [hg'] at h1
          exact ⟨u, rfl, (iht u (distinct_mem hg (PyDict.get?_mem hg'))).1 h1⟩
      · exact h2 k t' hm
    · intro h
      refine ⟨?_, fun k t' hm => h k t' (List.mem_cons_of_mem _ hm)⟩
      obtain ⟨u, hu, hs⟩ := h n t List.mem_cons_self
      rw [hu]
      exact (iht u (distinct_mem hg (PyDict.get?_mem hu))).2 hs
end

/-- C55: types are equal (`==`) exactly if they are of the same class with the same fields, at any
depth, where enums have the same set of items and structs the same mapping of fields. -/
theorem C55_equal_types_iff (a b : Ty) (ha : DistinctNames a) (hb : DistinctNames b) :
    tyEq a b = true ↔ SameType a b := tyEq_iff a b ha hb

theorem sameType_symm {a b : Ty} (h : SameType a b) : SameType b a := by
  induction h with
  | enum n m _ hi ih => exact .enum n m ih fun v => (hi v).symm
  | struct n m hn _ ih =>
    exact .struct n m (fun k => (hn k).symm) fun k t u ht hu => ih k u t hu ht
  | list m _ ih => exact .list m ih
  | set m _ ih => exact .set m ih
  | map m _ _ ih1 ih2 => exact .map m ih1 ih2
  | collection n p c m _ ih => exact .collection n p c m ih
  | _ => constructor

theorem sameType_trans {a b c : Ty} (h : SameType a b) (h' : SameType b c) : SameType a c := by
  induction h generalizing c with
  | enum n m _ hi ih =>
    cases h' with
    | enum _ _ ht' hi' => exact .enum n m (ih ht') fun v => (hi v).trans (hi' v)
  | struct n m hn _ ih =>
    cases h' with
    | struct _ _ hn' ht' =>
      refine .struct n m (fun k => (hn k).trans (hn' k)) fun k t u ht hu => ?_
      obtain ⟨w, hw⟩ := (hn k).1 ⟨t, ht⟩
      exact ih k t w ht hw (ht' k w u hw hu)
  | list m _ ih => cases h' with | list _ h => exact .list m (ih h)
  | set m _ ih => cases h' with | set _ h => exact .set m (ih h)
  | map m _ _ ih1 ih2 => cases h' with | map _ h1 h2 => exact .map m (ih1 h1) (ih2 h2)
  | collection n p c m _ ih => cases h' with | collection _ _ _ _ h => exact .collection n p c m (ih h)
  | _ => exact h'

/-- C55: so equality of types is an equivalence: it does not matter through how many equal types a
view and an artifact are compared. -/
theorem C55_equality_is_an_equivalence :
    (∀ a, DistinctNames a → tyEq a a = true) ∧
    (∀ a b, DistinctNames a → DistinctNames b → tyEq a b = true → tyEq b a = true) ∧
    (∀ a b c, DistinctNames a → DistinctNames b → DistinctNames c → tyEq a b = true →
      tyEq b c = true → tyEq a c = true) := by
  refine ⟨tyEq_refl, fun a b ha hb h => ?_, fun a b c ha hb hc h h' => ?_⟩
  · exact (tyEq_iff b a hb ha).2 (sameType_symm ((tyEq_iff a b ha hb).1 h))
  · exact (tyEq_iff a c ha hc).2 (sameType_trans ((tyEq_iff a b ha hb).1 h) ((tyEq_iff b c hb hc).1 h'))

namespace ExTypeEq

def a : Ty := .struct anon [("x".toList, .scalar .int64 {}),
  ("e".toList, .enum anon (.scalar .int64 {}) [.int 1, .int 2] {})] {}
def b : Ty := .struct anon [("e".toList, .enum anon (.scalar .int64 {}) [.int 2, .bool true] {}),
  ("x".toList, .scalar .int64 {})] {}

example : SameType a b :=
  (C55_equal_types_iff a b (by simp [a, DistinctNames, DistinctNamesF])
    (by simp [b, DistinctNames, DistinctNamesF])).1 (by decide +kernel)

example : ¬ SameType (.list (.scalar .int64 {}) {}) (.list (.scalar .int32 {}) {}) := fun h =>
  absurd ((C55_equal_types_iff _ _ (by simp [DistinctNames]) (by simp [DistinctNames])).2 h) (by decide +kernel)

end ExTypeEq

end Arti.Props
