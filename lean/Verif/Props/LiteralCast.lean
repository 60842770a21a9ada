import Verif.Props.Literals

/-!
# C52: which values casting accepts
-/

namespace Arti.Props
open Arti PyDict Spec Fmt Stg Part Lit TH Typ

/-- A mapping whose keys are simple values of one kind and whose values are too, not empty. -/
def UniformMap (items : List (Val × Val)) : Prop :=
  Uniform (items.map Prod.fst) ∧ Uniform (items.map Prod.snd)

theorem toJsonItems_mem : ∀ {items : List (Val × Val)} {js : List (Str × Json)},
    toJsonItems items = .ok js → ∀ p ∈ items, (∃ k, keyText p.1 = .ok k) ∧ ∃ j, toJson p.2 = .ok j
  | [], _, _, p, hp => by simp at hp
  | (k, x) :: items, js, h, p, hp => by
    rw [toJsonItems] at h
    obtain ⟨t, ht, h⟩ := bind_ok h
    obtain ⟨j, hj, h⟩ := bind_ok h
    obtain ⟨js', hjs, -⟩ := bind_ok h
    rcases List.mem_cons.1 hp with rfl | hp
    · exact ⟨⟨t, ht⟩, ⟨j, hj⟩⟩
    · exact toJsonItems_mem hjs p hp

theorem toJson_of_keyText {v : Val} {k : Str} (h : keyText v = .ok k) : ∃ j, toJson v = .ok j := by
  cases v <;> simp [keyText] at h <;> simp [toJson]

/-- C52: casting accepts only `None`, booleans, numbers, strings and non-empty lists, tuples and
mappings of such values of one kind; every other value is refused. -/
theorem C52_only_uniform_values_are_cast {ids : Ids} {v : Val} {a : LitArtifact}
    (hc : castValue ids v = .ok a) :
    IsLiteral v ∨ (∃ xs, v = .tuple xs ∧ Uniform xs) ∨ ∃ items, v = .dict items ∧ UniformMap items := by
  rcases castable hc with h | h | ⟨items, rfl⟩
  · exact .inl h
  · exact .inr (.inl h)
  · refine .inr (.inr ⟨items, rfl, ?_⟩)
    obtain ⟨h, h1, hc⟩ := bind_ok hc
    obtain ⟨t, h2, hc⟩ := bind_ok hc
    obtain ⟨text, h3, hc⟩ := bind_ok hc
    obtain ⟨j, h3, -⟩ := map_ok h3
    rw [toJson] at h3
    obtain ⟨js, hjs, -⟩ := map_ok h3
    have hm := toJsonItems_mem hjs
    have elem : ∀ {v : Val} {n : Nat} {t : Ty},
        run (pyArti ids) (n + 1) (.cls v.cls) [] = .ok t →
        v.cls ∈ [PyCls.bool, .int, .float, .str, .bytes, .date, .datetime] := by
      intro v n t hr
      rcases val_cls v with h | h
      · exact h
      · rw [A_cls_other h] at hr; cases hr
    cases items with
    | nil => cases h1
    | cons p items =>
      obtain ⟨k, x⟩ := p
      rw [annotationOf] at h1
      split at h1
      · rename_i hall
        injection h1 with h1
        subst h1
        have h2 : run (pyArti ids) (5 + 1) (.gen ids.new .dict [.cls k.cls, .cls x.cls]) [] = .ok t := h2
        rw [A_map] at h2
        obtain ⟨kt, hk, h2⟩ := bind_ok h2
        obtain ⟨vt, hx, -⟩ := bind_ok h2
        have hself : ∀ v : Val, v.isInstance v.cls = true := fun v => by
          simp only [Val.isInstance]; cases v <;> simp [Val.cls, PyCls.mro]
        have h0 := hm (k, x) (by simp)
        obtain ⟨⟨kt, hkt⟩, hxj⟩ := h0
        have hkj := toJson_of_keyText hkt
        have hall := List.all_eq_true.1 hall
        constructor
        · have hs := sameKind_of (elem hk) hkj (hself k)
          refine ⟨hs.1, hs.2.1, fun y hy => ?_⟩
          obtain ⟨p, hp, rfl⟩ := List.mem_map.1 hy
          exact (sameKind_of (elem hk) hkj (Bool.and_eq_true _ _ ▸ hall p hp).1).2.2
        · have hs := sameKind_of (elem hx) hxj (hself x)
          refine ⟨hs.1, hs.2.1, fun y hy => ?_⟩
          obtain ⟨p, hp, rfl⟩ := List.mem_map.1 hy
          exact (sameKind_of (elem hx) hxj (Bool.and_eq_true _ _ ▸ hall p hp).2).2.2
      · cases h1

/-- `(1, True)` is cast; `[True, 1]` and `{}` are not. -/
example (ids : Ids) : (∃ a, castValue ids (.tuple [.int 1, .bool true]) = .ok a) ∧
    (¬ ∃ a, castValue ids (.list [.bool true, .int 1]) = .ok a) ∧
    ¬ ∃ a, castValue ids (.dict []) = .ok a := by
  refine ⟨?_, ?_, ?_⟩
  · have h := C52_violated_by_tuples (ids := ids) (fun _ => 0) Ex52.texts [.int 1, .bool true]
      ⟨.int 1, trivial, by simp [Simple.bool, SameKind]⟩ (by simp [FloatsIn]) (by simp [NoBracesIn])
    obtain ⟨a, ha, -⟩ := bind_ok h
    exact ⟨a, ha⟩
  · rintro ⟨a, ha⟩
    rcases C52_only_uniform_values_are_cast ha with (h | ⟨xs, h, hu⟩) | ⟨xs, h, -⟩ | ⟨xs, h, -⟩
    · cases h
    · injection h with h
      subst h
      exact (hu.2.2 (.int 1) (by simp)).2
    · cases h
    · cases h
  · rintro ⟨a, ha⟩
    cases ha

end Arti.Props
