import Verif.Spec.Views
import Verif.Lemmas.PythonTypes
import Verif.Lemmas.Dict

/-!
# Lemmas: views
-/

namespace Arti
namespace Views
open TH Typ Spec
variable {ids : Ids}

/-! ## Equality of types -/

theorem sameItems_refl (l : List Lit) : sameItems l l = true := by
  have : ∀ x : Lit, Lit.pyEq x x = true := by intro x; cases x <;> simp [Lit.pyEq]
  simp only [sameItems, Bool.and_self, List.all_eq_true, List.any_eq_true]
  exact fun x hx => ⟨x, hx, this x⟩

mutual
theorem tyEq_refl (t : Ty) (h : DistinctNames t) : tyEq t t = true := by
  cases t with
  | enum n t i m =>
    simp only [DistinctNames] at h
    simp [tyEq, tyEq_refl t h, sameItems_refl]
  | list e m => simp only [DistinctNames] at h; simp [tyEq, tyEq_refl e h]
  | set e m => simp only [DistinctNames] at h; simp [tyEq, tyEq_refl e h]
  | map k v m => simp only [DistinctNames] at h; simp [tyEq, tyEq_refl k h.1, tyEq_refl v h.2]
  | struct n fs m =>
    simp only [DistinctNames] at h
    have := tyEqFields_of fs h.2 fs fun n t hm => PyDict.get?_of_mem h.1 hm
    simp [tyEq, this]
  | collection n e p c m => simp only [DistinctNames] at h; simp [tyEq, tyEq_refl e h]
  | _ => simp [tyEq]
theorem tyEqFields_of (fs : List (Str × Ty)) (h : DistinctNamesF fs) (gs : List (Str × Ty))
    (hg : ∀ n t, (n, t) ∈ fs → PyDict.get? gs n = some t) : tyEqFields fs gs = true := by
  match fs with
  | [] => rfl
  | (n, t) :: fs =>
    simp only [DistinctNamesF] at h
    rw [tyEqFields, hg n t List.mem_cons_self]
    simp [tyEq_refl t h.1, tyEqFields_of fs h.2 gs fun n t hm => hg n t (List.mem_cons_of_mem _ hm)]
end

/-! ## Hints as they are written -/

theorem pyToSystem_supported {t : Ty} (hs : Supported t) : pyToSystem ids t = .ok (hintOf ids t) :=
  toSystem _ t (Nat.le_refl _) hs _ (Nat.le_refl _)

theorem meta_default {m : Meta} (h : m.description = none) (hn : m.nullable = false) : m = {} := by
  cases m; simp_all

theorem written_artigraph {t : Ty} (hs : Supported t) (hw : Widened t) {h : PyHint}
    (hh : WrittenAs ids t h) (n : Nat) (hn : 2 * hintSize h ≤ n) :
    run (pyArti ids) n h [] = .ok t := by
  have exact_ : ∀ {t : Ty}, Supported t → Widened t → pyToSystem ids t = .ok h →
      run (pyArti ids) n h [] = .ok t := by
    intro t hs hw hh
    rw [pyToSystem_supported hs] at hh
    cases hh
    rw [toArtigraph _ t (Nat.le_refl _) hs n hn, widen_of_widened t hw]
  cases t with
  | list e m =>
    rw [WrittenAs] at hh
    split at hh
    · exact exact_ hs hw hh
    · rename_i hm
      obtain ⟨i, a, rfl, ha⟩ := hh
      rw [Widened] at hw
      rw [Supported] at hs
      simp only [hintSize, hintSizes] at hn
      obtain ⟨n, rfl⟩ : ∃ k, n = k + 1 := ⟨n - 1, by omega⟩
      rw [A_list, written_artigraph hs hw.1 ha n (by omega), meta_default hw.2 (by simpa using hm)]
      rfl
  | set e m =>
    rw [WrittenAs] at hh
    split at hh
    · exact exact_ hs hw hh
    · rename_i hm
      obtain ⟨i, a, rfl, ha⟩ := hh
      rw [Widened] at hw
      rw [Supported] at hs
      simp only [hintSize, hintSizes] at hn
      obtain ⟨n, rfl⟩ : ∃ k, n = k + 1 := ⟨n - 1, by omega⟩
      rw [A_set, written_artigraph hs hw.1 ha n (by omega), meta_default hw.2 (by simpa using hm)]
      rfl
  | map k v m =>
    rw [WrittenAs] at hh
    split at hh
    · exact exact_ hs hw hh
    · rename_i hm
      obtain ⟨i, a, b, rfl, ha, hb⟩ := hh
      rw [Widened] at hw
      rw [Supported] at hs
      simp only [hintSize, hintSizes] at hn
      obtain ⟨n, rfl⟩ : ∃ k, n = k + 1 := ⟨n - 1, by omega⟩
      rw [A_map, written_artigraph hs.1 hw.1 ha n (by omega),
        written_artigraph hs.2 hw.2.1 hb n (by omega), meta_default hw.2.2 (by simpa using hm)]
      rfl
  | _ => exact exact_ hs hw hh

theorem lenient_gen_gen {i j : Nat} {o o' : PyCls} {as bs : List PyHint} (hb : bs ≠ [])
    (hl : as.length = bs.length) :
    lenient PyCls.hier (.gen i o as) (.gen j o' bs) =
      pyAnd (lenientArgs PyCls.hier as bs) (.ok (decide (o' ∈ PyCls.mro o))) := by
  rw [lenient, if_pos (by rfl), if_neg (by simp [isUnionHint]), checkIssubclass]
  simp [bare, discardAnnotated, unbind, isSame, ident, getOrigin, isLiteral, hasArgs, getArgs, hb, hl,
    lenientOrigins, PyCls.hier]

/-- Accepted as an argument of a generic: below, or the same object. -/
def ArgOk (k c : PyHint) : Prop := ∃ b, lenient PyCls.hier k c = .ok b ∧ (b || isSame k c) = true

theorem argOk_of_true {k c : PyHint} (h : lenient PyCls.hier k c = .ok true) : ArgOk k c :=
  ⟨true, h, rfl⟩

theorem argOk_of_not_classLike {k : PyHint} (h : classLike k = false) : ArgOk k k :=
  ⟨false, by rw [lenient, if_neg (by simp [h])], by simp [isSame]⟩

theorem lenient_cls_refl (c : PyCls) : lenient PyCls.hier (.cls c) (.cls c) = .ok true := by
  rw [lenient_cls]
  have : c ∈ PyCls.mro c := by cases c <;> simp [PyCls.mro]
  simp [this]

theorem argOk_cls (c : PyCls) : ArgOk (.cls c) (.cls c) := argOk_of_true (lenient_cls_refl c)

theorem lenientArgs_ok : ∀ {ks cs : List PyHint}, List.Forall₂ ArgOk ks cs →
    lenientArgs PyCls.hier ks cs = .ok true
  | _, _, .nil => by rw [lenientArgs]; rintro k ks c cs h; simp at h
  | _, _, .cons ⟨b, h, hb⟩ hs => by
    rw [lenientArgs, h]
    simp only [hb, if_true]
    exact lenientArgs_ok hs

theorem lenient_gen_ok {i j : Nat} {o : PyCls} {as bs : List PyHint} (hb : bs ≠ [])
    (h : List.Forall₂ ArgOk as bs) :
    lenient PyCls.hier (.gen i o as) (.gen j o bs) = .ok true := by
  rw [lenient_gen_gen hb h.length_eq, lenientArgs_ok h]
  have : o ∈ PyCls.mro o := by cases o <;> simp [PyCls.mro]
  simp [pyAnd, this]

theorem hintOf_nullable {t : Ty} (hs : Supported t) (hn : t.nullable = true) :
    hintOf ids t = .union (ids.opt (baseHint ids t)) [baseHint ids t, .cls .noneType] := by
  have hnn : t.isScalar .null = false := by
    cases t with
    | scalar s m =>
      simp only [Supported] at hs
      simp only [Ty.isScalar, decide_eq_false_iff_not]
      intro h
      rw [show (Ty.scalar s m).nullable = m.nullable from rfl, hs.2 h] at hn
      exact absurd hn (by simp)
    | _ => rfl
  obtain ⟨h1, h2⟩ := baseHint_ne_none (ids := ids) hs hnn
  rw [hintOf, hn, ← mkOptional_of h1 h2]
  rfl

theorem hintOf_base {t : Ty} (hn : t.nullable = false) : hintOf ids t = baseHint ids t := by
  rw [hintOf, hn]; rfl

theorem argOk_exact {t : Ty} (hs : Supported t) (hst : NoStruct t)
    (hc : t.nullable = true ∨ t.isList = false ∧ isSet t = false ∧ isMap t = false) :
    ArgOk (hintOf ids t) (hintOf ids t) := by
  cases hn : t.nullable with
  | true => rw [hintOf_nullable hs hn]; exact argOk_of_not_classLike rfl
  | false =>
    rw [hintOf_base hn]
    rcases hc with hc | hc
    · rw [hn] at hc; simp at hc
    · cases t with
      | scalar s m =>
        cases s <;> simp [Supported, hasPythonScalar] at hs <;> simp only [baseHint, scalarHint] <;>
          first | exact argOk_cls _ | exact argOk_of_not_classLike rfl
      | binary s m => exact argOk_cls _
      | timestamp p m => exact argOk_cls _
      | enum n t i m => rw [baseHint]; exact argOk_of_not_classLike rfl
      | struct n fs m => simp [NoStruct] at hst
      | list e m => simp [Ty.isList] at hc
      | collection n e p c m => simp [Ty.isList] at hc
      | set e m => simp [isSet] at hc
      | map k v m => simp [isMap] at hc
      | _ => simp [Supported] at hs

/-- No collection inside (a widened type has none). -/
theorem written_lenient {t : Ty} (hs : Supported t) (hw : Widened t) (hst : NoStruct t)
    {h : PyHint} (hh : WrittenAs ids t h) :
    ArgOk (hintOf ids t) h ∧
      (t.nullable = false → t.isList = true ∨ isMap t = true →
        lenient PyCls.hier (hintOf ids t) h = .ok true) := by
  have exact_ : ∀ {t : Ty}, Supported t → NoStruct t →
      (t.nullable = true ∨ t.isList = false ∧ isSet t = false ∧ isMap t = false) →
      pyToSystem ids t = .ok h → ArgOk (hintOf ids t) h := by
    intro t hs hst hc hh
    rw [pyToSystem_supported hs] at hh
    cases hh
    exact argOk_exact hs hst hc
  cases t with
  | list e m =>
    rw [WrittenAs] at hh
    split at hh
    · rename_i hm
      exact ⟨exact_ hs hst (.inl hm) hh, fun h => absurd h (by simp [Ty.nullable, Ty.info, hm])⟩
    · rename_i hm
      obtain ⟨i, a, rfl, ha⟩ := hh
      rw [Supported] at hs
      rw [Widened] at hw
      rw [NoStruct] at hst
      have key : lenient PyCls.hier (hintOf ids (.list e m)) (.gen i .list [a]) = .ok true := by
        rw [hintOf_base (by simpa [Ty.nullable, Ty.info] using hm)]
        exact lenient_gen_ok (by simp) (.cons (written_lenient hs hw.1 hst ha).1 .nil)
      exact ⟨argOk_of_true key, fun _ _ => key⟩
  | set e m =>
    rw [WrittenAs] at hh
    split at hh
    · rename_i hm
      exact ⟨exact_ hs hst (.inl hm) hh, fun h => absurd h (by simp [Ty.nullable, Ty.info, hm])⟩
    · rename_i hm
      obtain ⟨i, a, rfl, ha⟩ := hh
      rw [Supported] at hs
      rw [Widened] at hw
      rw [NoStruct] at hst
      have key : lenient PyCls.hier (hintOf ids (.set e m)) (.gen i .set [a]) = .ok true := by
        rw [hintOf_base (by simpa [Ty.nullable, Ty.info] using hm)]
        exact lenient_gen_ok (by simp) (.cons (written_lenient hs hw.1 hst ha).1 .nil)
      exact ⟨argOk_of_true key, fun _ _ => key⟩
  | map k v m =>
    rw [WrittenAs] at hh
    split at hh
    · rename_i hm
      exact ⟨exact_ hs hst (.inl hm) hh, fun h => absurd h (by simp [Ty.nullable, Ty.info, hm])⟩
    · rename_i hm
      obtain ⟨i, a, b, rfl, ha, hb⟩ := hh
      rw [Supported] at hs
      rw [Widened] at hw
      rw [NoStruct] at hst
      have key : lenient PyCls.hier (hintOf ids (.map k v m)) (.gen i .dict [a, b]) = .ok true := by
        rw [hintOf_base (by simpa [Ty.nullable, Ty.info] using hm)]
        exact lenient_gen_ok (by simp) (.cons (written_lenient hs.1 hw.1 hst.1 ha).1
          (.cons (written_lenient hs.2 hw.2.1 hst.2 hb).1 .nil))
      exact ⟨argOk_of_true key, fun _ _ => key⟩
  | collection n e p c m => simp [Widened] at hw
  | _ =>
    refine ⟨exact_ hs hst (.inr ⟨rfl, rfl, rfl⟩) hh, fun _ h => ?_⟩
    simp [Ty.isList, isMap] at h

/-! ## Items of annotations -/

theorem getItem_eq {α : Type} {ann : Ann} {pick : Item → Option α} :
    getItem ann pick = match ann.items.filterMap pick with
      | [] => .ok none
      | [x] => .ok (some x)
      | _ => .error .valueError := by
  unfold getItem oneOrNone
  match ann.items.filterMap pick with
  | [] => rfl
  | [x] => rfl
  | _ :: _ :: _ => rfl

end Views
end Arti
