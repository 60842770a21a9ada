import Verif.Spec.Pydantic
import Verif.Lemmas.PythonTypes

/-!
# Lemmas: conversions of the pydantic type system
-/

namespace Arti
namespace Typ
open TH Spec

variable {M : Models} {ids : Ids}

/-- One step of the Python system, for a given root. -/
def pyStepS (ids : Ids) (root : Ty → Hints → Except Err PyHint) :=
  dispatched root (sortByPriority (((pyAdaptersS ids).map fun a => (a.key, a)).map Prod.snd))
def pyStepA (ids : Ids) (root : PyHint → Hints → Except Err Ty) :=
  dispatched root (sortByPriority (((pyAdaptersA ids).map fun a => (a.key, a)).map Prod.snd))

theorem pm_run_S (n : Nat) (t : Ty) (h : Hints) :
    run (pmSys M ids) (n + 1) t h =
      if t.isStruct then (pmStructS M).convert (run (pmSys M ids) n) t h
      else pyStepS ids (run (pmSys M ids) n) t h := by
  rw [run, pmSys, convert]
  have e0 : sortByPriority (([((pmStructS M).key, pmStructS M)] : PyDict Str (Adapter Ty PyHint)).map
      Prod.snd) = [pmStructS M] := rfl
  rw [e0]
  simp only [firstMatch]
  have e1 : (pmStructS M).accepts t h = .ok t.isStruct := rfl
  rw [e1]
  cases t.isStruct with
  | true => simp
  | false =>
    simp only [Bool.false_eq_true, if_false]
    exact (convertExt_single _ _ _ _).trans (convert_leaf _ _ _ _ _)

theorem pm_run_A_model {n : Nat} {x : PyHint} {h : Hints}
    (hx : lenient PyCls.hier x (.cls baseModel) = .ok true) :
    run (pmArti M ids) (n + 1) x h = pmConvert M (run (pmArti M ids) n) x h := by
  rw [run, pmArti, convert]
  have e0 : sortByPriority (([((pmStructA M).key, pmStructA M)] : PyDict Str (Adapter PyHint Ty)).map
      Prod.snd) = [pmStructA M] := rfl
  rw [e0]
  have e1 : (pmStructA M).accepts x h = lenient PyCls.hier x (.cls baseModel) := rfl
  simp only [firstMatch, e1, hx]
  rfl

theorem pm_run_A_other {n : Nat} {x : PyHint} {h : Hints}
    (hx : lenient PyCls.hier x (.cls baseModel) = .ok false) :
    run (pmArti M ids) (n + 1) x h = pyStepA ids (run (pmArti M ids) n) x h := by
  rw [run, pmArti, convert]
  have e0 : sortByPriority (([((pmStructA M).key, pmStructA M)] : PyDict Str (Adapter PyHint Ty)).map
      Prod.snd) = [pmStructA M] := rfl
  rw [e0]
  have e1 : (pmStructA M).accepts x h = lenient PyCls.hier x (.cls baseModel) := rfl
  simp only [firstMatch, e1, hx]
  exact (convertExt_single _ _ _ _).trans (convert_leaf _ _ _ _ _)

/-! ## The steps -/

macro "pmStepS" : tactic => `(tactic| (
  rw [pm_run_S, if_neg (by simp [Ty.isStruct]), pyStepS, sortedS]
  rw [dispatched_false (a := pyOptionalS _)]
  on_goal 2 => exact congrArg Except.ok (by assumption)
  repeat (rw [dispatched_false]; on_goal 2 => exact rfl)
  rw [dispatched_true]
  on_goal 2 => exact rfl
  exact rfl))

theorem pmS_nullable {n : Nat} {t : Ty} {h : Hints} (hn : t.nullable = true) (hs : t.isStruct = false) :
    run (pmSys M ids) (n + 1) t h = (do
      let a ← run (pmSys M ids) n (t.setNullable false) h
      return mkOptional ids a) := by
  rw [pm_run_S, if_neg (by simp [hs]), pyStepS, sortedS, dispatched_true]
  · exact rfl
  · exact congrArg Except.ok hn

theorem pmS_list {n : Nat} {e : Ty} {m : Meta} {h : Hints} (hn : m.nullable = false) :
    run (pmSys M ids) (n + 1) (.list e m) h =
      (do let a ← run (pmSys M ids) n e h; return .gen ids.new .list [a]) := by pmStepS

theorem pmS_collection {n : Nat} {nm : Str} {e : Ty} {p c : List Str} {m : Meta} {h : Hints}
    (hn : m.nullable = false) :
    run (pmSys M ids) (n + 1) (.collection nm e p c m) h =
      (do let a ← run (pmSys M ids) n e h; return .gen ids.new .list [a]) := by pmStepS

theorem pmS_set {n : Nat} {e : Ty} {m : Meta} {h : Hints} (hn : m.nullable = false) :
    run (pmSys M ids) (n + 1) (.set e m) h =
      (do let a ← run (pmSys M ids) n e h; return .gen ids.new .set [a]) := by pmStepS

theorem pmS_map {n : Nat} {k v : Ty} {m : Meta} {h : Hints} (hn : m.nullable = false) :
    run (pmSys M ids) (n + 1) (.map k v m) h =
      (do let a ← run (pmSys M ids) n k h; let b ← run (pmSys M ids) n v h
          return .gen ids.new .dict [a, b]) := by pmStepS

theorem pmS_enum {n : Nat} {nm : Str} {t : Ty} {items : List Lit} {m : Meta} {h : Hints}
    (hn : m.nullable = false) :
    run (pmSys M ids) (n + 1) (.enum nm t items m) h = .ok (.literal (ids.lit items) items) := by
  pmStepS

theorem pmS_binary {n : Nat} {s : Option Int} {m : Meta} {h : Hints} (hn : m.nullable = false) :
    run (pmSys M ids) (n + 1) (.binary s m) h = .ok (.cls .bytes) := by pmStepS

theorem pmS_timestamp {n : Nat} {p : Prec} {m : Meta} {h : Hints} (hn : m.nullable = false) :
    run (pmSys M ids) (n + 1) (.timestamp p m) h = .ok (.cls .datetime) := by pmStepS

theorem pmS_scalar {n : Nat} {s : Scalar} {m : Meta} {h : Hints} (hn : m.nullable = false)
    (hs : hasPythonScalar s = true) :
    run (pmSys M ids) (n + 1) (.scalar s m) h = .ok (scalarHint s) := by
  cases s <;> simp [hasPythonScalar] at hs <;> simp only [scalarHint] <;> pmStepS

theorem pmS_struct {n : Nat} {nm : Str} {fs : List (Str × Ty)} {m : Meta} {h : Hints} :
    run (pmSys M ids) (n + 1) (.struct nm fs m) h =
      (do let fs ← convertFields (fun f => run (pmSys M ids) n f h) fs
          createModel M nm fs) := by
  rw [pm_run_S, if_pos (by rfl : (Ty.struct nm fs m).isStruct = true)]
  rfl

theorem notModel_cls {c : PyCls}
    (hc : c ∈ [PyCls.bool, .int, .float, .str, .bytes, .date, .datetime]) :
    lenient PyCls.hier (.cls c) (.cls baseModel) = .ok false := by
  simp only [List.mem_cons, List.not_mem_nil, or_false] at hc
  rw [lenient_cls]
  rcases hc with rfl | rfl | rfl | rfl | rfl | rfl | rfl <;> rfl

theorem notModel_gen {i : Nat} {o : PyCls} {as : List PyHint}
    (ho : o ∈ [PyCls.list, .set, .dict]) :
    lenient PyCls.hier (.gen i o as) (.cls baseModel) = .ok false := by
  simp only [List.mem_cons, List.not_mem_nil, or_false] at ho
  rw [lenient_gen]
  rcases ho with rfl | rfl | rfl <;> rfl

macro "pmStepA" : tactic => `(tactic| (
  rw [pyStepA, sortedA]
  repeat (rw [dispatched_false]; on_goal 2 => acceptsA)
  rw [dispatched_true]
  on_goal 2 => acceptsA
  try exact rfl))

theorem pmA_cls {n : Nat} {c : PyCls} {h : Hints}
    (hc : c ∈ [PyCls.bool, .int, .float, .str, .bytes, .date, .datetime]) :
    run (pmArti M ids) (n + 1) (.cls c) h = .ok (classTy c) := by
  rw [pm_run_A_other (notModel_cls hc)]
  simp only [List.mem_cons, List.not_mem_nil, or_false] at hc
  rcases hc with rfl | rfl | rfl | rfl | rfl | rfl | rfl <;> pmStepA

theorem pmA_none {n : Nat} {h : Hints} :
    run (pmArti M ids) (n + 1) .none h = .ok (.scalar .null {}) := by
  rw [pm_run_A_other (lenient_other rfl _)]
  pmStepA

theorem pmA_list {n i : Nat} {a : PyHint} {h : Hints} :
    run (pmArti M ids) (n + 1) (.gen i .list [a]) h =
      (do let t ← run (pmArti M ids) n a h; return .list t {}) := by
  rw [pm_run_A_other (notModel_gen (by simp))]
  pmStepA

theorem pmA_set {n i : Nat} {a : PyHint} {h : Hints} :
    run (pmArti M ids) (n + 1) (.gen i .set [a]) h =
      (do let t ← run (pmArti M ids) n a h; return .set t {}) := by
  rw [pm_run_A_other (notModel_gen (by simp))]
  pmStepA

theorem pmA_map {n i : Nat} {a b : PyHint} {h : Hints} :
    run (pmArti M ids) (n + 1) (.gen i .dict [a, b]) h =
      (do let k ← run (pmArti M ids) n a h; let v ← run (pmArti M ids) n b h
          return .map k v {}) := by
  rw [pm_run_A_other (notModel_gen (by simp))]
  pmStepA

theorem pmA_optional {n i : Nat} {a : PyHint} {h : Hints} (ha : isSame a (.cls .noneType) = false) :
    run (pmArti M ids) (n + 1) (.union i [a, .cls .noneType]) h =
      (do let t ← run (pmArti M ids) n a h; return t.setNullable true) := by
  rw [pm_run_A_other (lenient_other rfl _), pyStepA, sortedA, dispatched_true]
  · show (do let u ← mkUnion ids (([a, .cls .noneType] : List PyHint).filter fun a => !isSame a (.cls .noneType))
             let t ← run (pmArti M ids) n u h; return t.setNullable true) = _
    simp [ha, isSame_refl, mkUnion, bind, Except.bind]
  · show Except.ok (isUnionHint (.union i [a, .cls .noneType] : PyHint) && ([a, .cls .noneType] : List PyHint).any (fun a => isSame a (.cls .noneType))) = _
    simp [isUnionHint, isSame_refl]

theorem pmA_enum {n i : Nat} {items : List Lit} {h : Hints} {c : PyCls}
    (hc : c ∈ [PyCls.bool, .int, .float, .str, .bytes, .date, .datetime])
    (hne : items ≠ []) (hn : items.Nodup) (hi : ∀ x ∈ items, x.cls = c) :
    run (pmArti M ids) (n + 2) (.literal i items) h = .ok (.enum anon (classTy c) items {}) := by
  have hl : run (pmArti M ids) (n + 2) (.literal i items) h =
      (pyLiteralA ids).convert (run (pmArti M ids) (n + 1)) (.literal i items) h := by
    rw [pm_run_A_other (lenient_other rfl _), pyStepA, sortedA]
    repeat (rw [dispatched_false]; on_goal 2 => acceptsA)
    exact dispatched_true rfl
  rw [hl]
  cases items with
  | nil => exact absurd rfl hne
  | cons x xs =>
    show (if xs.all (fun y => y.cls = x.cls) then do
        let t ← run (pmArti M ids) (n + 1) (.cls x.cls) h
        mkEnum ids anon t (x :: xs) {}
      else .error .valueError) = _
    rw [hi x List.mem_cons_self, if_pos, pmA_cls hc]
    · exact mkEnum_of hc hne hn hi _ _
    · simpa using fun y hy => hi y (List.mem_cons_of_mem _ hy)

/-- A class with `BaseModel` among its bases. -/
theorem pmA_model {n : Nat} {c : PyCls} {h : Hints} (hc : baseModel ∈ PyCls.mro c) :
    run (pmArti M ids) (n + 1) (.cls c) h =
      (do let fs ← modelFields (run (pmArti M ids) n) h (M.info c).2
          return .struct (M.info c).1 fs {}) := by
  rw [pm_run_A_model (by rw [lenient_cls]; simp [hc])]
  rfl

theorem made_isModel (k : Nat) : baseModel ∈ PyCls.mro (.user k baseModel) := by
  simp [PyCls.mro, baseModel]

/-! ## Types to models -/

mutual
/-- The hint of a type, apart from its own `nullable`. -/
def mBase (M : Models) (ids : Ids) : Ty → PyHint
  | .list e _ => .gen ids.new .list [optional ids (e.nullable && !e.isStruct) (mBase M ids e)]
  | .collection _ e _ _ _ =>
    .gen ids.new .list [optional ids (e.nullable && !e.isStruct) (mBase M ids e)]
  | .set e _ => .gen ids.new .set [optional ids (e.nullable && !e.isStruct) (mBase M ids e)]
  | .map k v _ =>
      .gen ids.new .dict [optional ids (k.nullable && !k.isStruct) (mBase M ids k),
        optional ids (v.nullable && !v.isStruct) (mBase M ids v)]
  | .struct n fs _ => .cls (.user (M.make n (mFields M ids fs)) baseModel)
  | t => baseHint ids t
def mFields (M : Models) (ids : Ids) : List (Str × Ty) → List (Str × PyHint)
  | [] => []
  | (n, t) :: fs =>
    if hiddenName n then mFields M ids fs
    else (n, optional ids (t.nullable && !t.isStruct) (mBase M ids t)) :: mFields M ids fs
end

/-- The hint of a type. -/
def mHint (M : Models) (ids : Ids) (t : Ty) : PyHint :=
  optional ids (t.nullable && !t.isStruct) (mBase M ids t)

@[simp] theorem mBase_setNullable (t : Ty) (b : Bool) :
    mBase M ids (t.setNullable b) = mBase M ids t := by
  cases t <;> simp [Ty.setNullable, Ty.withMeta, mBase, baseHint]

theorem modelSupported_setNullable {t : Ty} (h : ModelSupported M t) :
    ModelSupported M (t.setNullable false) := by
  cases t <;> simp_all [Ty.setNullable, Ty.withMeta, ModelSupported]

theorem mBase_ne_none {t : Ty} (h : ModelSupported M t) (hn : t.isScalar .null = false) :
    mBase M ids t ≠ .none ∧ mBase M ids t ≠ .cls .noneType := by
  cases t with
  | scalar s m =>
    cases s <;> simp_all [mBase, baseHint, scalarHint, Ty.isScalar]
  | _ => simp_all [mBase, baseHint, ModelSupported]

theorem fieldHint_mHint {t : Ty} (h : ModelSupported M t) (hn : t.isScalar .null = false) :
    fieldHint (mHint M ids t) = mHint M ids t := by
  have hb := mBase_ne_none (ids := ids) h hn
  unfold mHint optional
  split
  · unfold mkOptional
    split <;> simp_all [fieldHint]
  · generalize mBase M ids t = b at *
    cases b <;> simp_all [fieldHint]

theorem modelFields_mem {fs : List (Str × Ty)} (h : ModelSupportedFields M fs) {x : Str × Ty}
    (hx : x ∈ fs) : ModelSupported M x.2 ∧ x.2.isScalar .null = false ∧ M.refused x.1 = false := by
  induction fs with
  | nil => simp at hx
  | cons y fs ih =>
    obtain ⟨n, t⟩ := y
    rw [ModelSupportedFields] at h
    rcases List.mem_cons.1 hx with hx | hx
    · subst hx; exact h.1
    · exact ih h.2 hx

theorem convertFields_pm {root : Ty → Except Err PyHint} : ∀ {fs : List (Str × Ty)},
    (∀ x ∈ fs, root x.2 = .ok (mHint M ids x.2)) →
    convertFields root fs = .ok (fs.map fun x => (x.1, mHint M ids x.2))
  | [], _ => rfl
  | (nm, t) :: fs, hr => by
    have ih := convertFields_pm fun x hx => hr x (List.mem_cons_of_mem _ hx)
    have h1 := hr (nm, t) List.mem_cons_self
    simp only at h1
    rw [convertFields, h1, ih]
    rfl

theorem createModel_of {nm : Str} {fs : List (Str × Ty)} (h : ModelSupportedFields M fs) :
    createModel M nm (fs.map fun x => (x.1, mHint M ids x.2)) =
      .ok (.cls (.user (M.make nm (mFields M ids fs)) baseModel)) := by
  have h1 : ((fs.map fun x => (x.1, mHint M ids x.2)).any fun f => M.refused f.1) = false := by
    rw [List.any_eq_false]
    intro f hf
    obtain ⟨x, hx, rfl⟩ := List.mem_map.1 hf
    simp [(modelFields_mem h hx).2.2]
  have h2 : ((fs.map fun x => (x.1, mHint M ids x.2)).filter fun f => !hiddenName f.1).map
      (fun f => (f.1, fieldHint f.2)) = mFields M ids fs := by
    clear h1
    induction fs with
    | nil => rfl
    | cons x fs ih =>
      obtain ⟨n, t⟩ := x
      rw [ModelSupportedFields] at h
      rw [mFields]
      rcases hh : hiddenName n with _ | _
      · simp only [List.map_cons, hh, Bool.not_false, List.filter_cons_of_pos, Bool.false_eq_true,
          if_false, ih h.2, fieldHint_mHint h.1.1 h.1.2.1]
        rfl
      · simp only [List.map_cons, hh, Bool.not_true, Bool.false_eq_true, not_false_eq_true,
          List.filter_cons_of_neg, if_true, ih h.2]
  rw [createModel, h1, h2]
  rfl

theorem pm_base {t : Ty} {h : Hints} (hs : ModelSupported M t) (hn : t.nullable = false ∨ t.isStruct = true)
    (ih : ∀ e : Ty, e.size < t.size → ModelSupported M e → ∀ n, 2 * e.size ≤ n →
      run (pmSys M ids) n e h = .ok (mHint M ids e)) :
    ∀ n, 2 * t.size - 1 ≤ n → run (pmSys M ids) n t h = .ok (mBase M ids t) := by
  intro n hle
  have hp := size_pos t
  obtain ⟨n, rfl⟩ : ∃ m, n = m + 1 := ⟨n - 1, by omega⟩
  cases t with
  | struct nm fs m =>
    simp only [Ty.size] at hle ih
    have hs' : ModelSupportedFields M fs := by simpa only [ModelSupported] using hs
    rw [pmS_struct, convertFields_pm (M := M) (ids := ids) fun x hx =>
      ih x.2 (by have := mem_sizes hx; omega) (modelFields_mem hs' hx).1 n
        (by have := mem_sizes hx; omega)]
    exact createModel_of hs'
  | scalar s m => exact pmS_scalar (hn.resolve_right (by simp [Ty.isStruct])) hs.1
  | binary s m => exact pmS_binary (hn.resolve_right (by simp [Ty.isStruct]))
  | timestamp p m => exact pmS_timestamp (hn.resolve_right (by simp [Ty.isStruct]))
  | enum nm t items m => exact pmS_enum (hn.resolve_right (by simp [Ty.isStruct]))
  | list e m =>
    simp only [Ty.size] at hle ih
    rw [pmS_list (m := m) (hn.resolve_right (by simp [Ty.isStruct])), ih e (by omega) hs n (by omega)]
    rfl
  | collection nm e p c m =>
    simp only [Ty.size] at hle ih
    rw [pmS_collection (m := m) (hn.resolve_right (by simp [Ty.isStruct])),
      ih e (by omega) hs n (by omega)]
    rfl
  | set e m =>
    simp only [Ty.size] at hle ih
    rw [pmS_set (m := m) (hn.resolve_right (by simp [Ty.isStruct])), ih e (by omega) hs n (by omega)]
    rfl
  | map k v m =>
    simp only [Ty.size] at hle ih
    rw [pmS_map (m := m) (hn.resolve_right (by simp [Ty.isStruct])), ih k (by omega) hs.1 n (by omega),
      ih v (by omega) hs.2 n (by omega)]
    rfl
  | geography f s m => exact absurd hs (by simp [ModelSupported])
  | dateTime p m => exact absurd hs (by simp [ModelSupported])
  | time p m => exact absurd hs (by simp [ModelSupported])

/-- Every supported type has the hint `mHint`. -/
theorem pm_toSystem {h : Hints} : ∀ (N : Nat) (t : Ty), t.size ≤ N → ModelSupported M t →
    ∀ n, 2 * t.size ≤ n → run (pmSys M ids) n t h = .ok (mHint M ids t)
  | 0, t, hN, _, _, _ => absurd (size_pos t) (by omega)
  | N + 1, t, hN, hs, n, hle => by
    have ih : ∀ e : Ty, e.size < t.size → ModelSupported M e → ∀ n, 2 * e.size ≤ n →
        run (pmSys M ids) n e h = .ok (mHint M ids e) :=
      fun e he hse n hn => pm_toSystem N e (by omega) hse n hn
    cases hb : (t.nullable && !t.isStruct) with
    | false =>
      have hn : t.nullable = false ∨ t.isStruct = true := by
        cases h1 : t.nullable <;> cases h2 : t.isStruct <;> simp_all
      rw [pm_base hs hn ih n (by omega), mHint, hb]
      rfl
    | true =>
      simp only [Bool.and_eq_true, Bool.not_eq_true'] at hb
      have hp := size_pos t
      obtain ⟨n, rfl⟩ : ∃ m, n = m + 1 := ⟨n - 1, by omega⟩
      rw [pmS_nullable hb.1 hb.2, pm_base (modelSupported_setNullable hs) (.inl (by simp))
        (by simpa using ih) n (by simp; omega), mHint, hb.1, hb.2, mBase_setNullable]
      rfl

/-! ## Models to types -/

theorem modelWiden_nullable (t : Ty) (hs : t.isStruct = false) :
    (modelWiden t).nullable = t.nullable := by
  cases t with
  | struct => simp [Ty.isStruct] at hs
  | _ => simp [modelWiden, widen, Ty.nullable, Ty.info, bareMeta]

theorem modelFields_A {root : PyHint → Hints → Except Err Ty} {h : Hints} : ∀ {fs : List (Str × Ty)},
    (∀ x ∈ fs, root (mHint M ids x.2) h = .ok (modelWiden x.2)) →
    modelFields root h (mFields M ids fs) = .ok (modelWidenFields fs)
  | [], _ => rfl
  | (nm, t) :: fs, hr => by
    have ih := modelFields_A fun x hx => hr x (List.mem_cons_of_mem _ hx)
    have h1 := hr (nm, t) List.mem_cons_self
    simp only at h1
    rw [mFields, modelWidenFields]
    rcases hiddenName nm with _ | _
    · simp only [Bool.false_eq_true, if_false]
      rw [modelFields]
      change (do let t ← root (mHint M ids t) h; _) = _
      rw [h1, ih]
      rfl
    · exact ih

theorem pm_backBase (hM : LawfulModels M) {t : Ty} {h : Hints} (hs : ModelSupported M t)
    (ih : ∀ e : Ty, e.size < t.size → ModelSupported M e → ∀ n, 3 * e.size ≤ n →
      run (pmArti M ids) n (mHint M ids e) h = .ok (modelWiden e)) :
    ∀ n, 3 * t.size - 1 ≤ n →
      run (pmArti M ids) n (mBase M ids t) h = .ok ((modelWiden t).setNullable false) := by
  intro n hle
  have hp := size_pos t
  obtain ⟨n, rfl⟩ : ∃ m, n = m + 2 := ⟨n - 2, by omega⟩
  cases t with
  | scalar s m =>
    simp only [ModelSupported] at hs
    have hs := hs.1
    simp only [mBase, baseHint]
    cases s <;> simp only [hasPythonScalar, Bool.false_eq_true] at hs <;> simp only [scalarHint] <;>
      first
      | (rw [pmA_cls (by simp)]; rfl)
      | (rw [pmA_none]; rfl)
  | binary s m => simp only [mBase, baseHint]; rw [pmA_cls (by simp)]; rfl
  | timestamp p m => simp only [mBase, baseHint]; rw [pmA_cls (by simp)]; rfl
  | enum nm t items m =>
    simp only [ModelSupported] at hs
    obtain ⟨hne, hn, c, hc, hi⟩ := hs
    simp only [mBase, baseHint]
    rw [pmA_enum (valueClass_mem hc) hne hn hi, modelWiden, widen, valueClass_widen hc]
    rfl
    all_goals simp
  | list e m =>
    simp only [Ty.size] at ih hle
    rw [show mBase M ids (.list e m) = .gen ids.new .list [mHint M ids e] by simp only [mBase]; rfl, pmA_list,
      ih e (by omega) (by simpa only [ModelSupported] using hs) (n + 1) (by omega)]
    simp [modelWiden]
    rfl
  | collection nm e p c m =>
    simp only [Ty.size] at ih hle
    rw [show mBase M ids (.collection nm e p c m) = .gen ids.new .list [mHint M ids e] by simp only [mBase]; rfl, pmA_list,
      ih e (by omega) (by simpa only [ModelSupported] using hs) (n + 1) (by omega)]
    simp [modelWiden]
    rfl
  | set e m =>
    simp only [Ty.size] at ih hle
    rw [show mBase M ids (.set e m) = .gen ids.new .set [mHint M ids e] by simp only [mBase]; rfl, pmA_set,
      ih e (by omega) (by simpa only [ModelSupported] using hs) (n + 1) (by omega)]
    simp [modelWiden]
    rfl
  | map k v m =>
    simp only [Ty.size] at ih hle
    simp only [ModelSupported] at hs
    rw [show mBase M ids (.map k v m) = .gen ids.new .dict [mHint M ids k, mHint M ids v] by simp only [mBase]; rfl,
      pmA_map, ih k (by omega) hs.1 (n + 1) (by omega), ih v (by omega) hs.2 (n + 1) (by omega)]
    simp [modelWiden]
    rfl
  | struct nm fs m =>
    simp only [Ty.size] at ih hle
    have hs' : ModelSupportedFields M fs := by simpa only [ModelSupported] using hs
    simp only [mBase]
    rw [pmA_model (made_isModel _), hM]
    show (do let fs ← modelFields (run (pmArti M ids) (n + 1)) h (mFields M ids fs)
             return Ty.struct nm fs {}) = _
    rw [modelFields_A fun x hx => ih x.2 (by have := mem_sizes hx; omega)
        (modelFields_mem hs' hx).1 (n + 1)
        (by have := mem_sizes hx; omega)]
    simp [modelWiden]
    rfl
  | geography f s m => exact absurd hs (by simp [ModelSupported])
  | dateTime p m => exact absurd hs (by simp [ModelSupported])
  | time p m => exact absurd hs (by simp [ModelSupported])

/-- The hint of a supported type is converted back to the widened type. -/
theorem pm_toArtigraph (hM : LawfulModels M) {h : Hints} : ∀ (N : Nat) (t : Ty), t.size ≤ N →
    ModelSupported M t →
    ∀ n, 3 * t.size ≤ n → run (pmArti M ids) n (mHint M ids t) h = .ok (modelWiden t)
  | 0, t, hN, _, _, _ => absurd (size_pos t) (by omega)
  | N + 1, t, hN, hs, n, hle => by
    have ih : ∀ e : Ty, e.size < t.size → ModelSupported M e → ∀ n, 3 * e.size ≤ n →
        run (pmArti M ids) n (mHint M ids e) h = .ok (modelWiden e) :=
      fun e he hse n hn => pm_toArtigraph hM N e (by omega) hse n hn
    cases hb : (t.nullable && !t.isStruct) with
    | false =>
      have he : mHint M ids t = mBase M ids t := by rw [mHint, hb]; rfl
      rw [he, pm_backBase hM hs ih n (by omega), setNullable_self]
      cases hx : t.isStruct with
      | true =>
        cases t with
        | struct => simp [modelWiden, Ty.nullable, Ty.info]
        | _ => simp [Ty.isStruct] at hx
      | false =>
        rw [modelWiden_nullable t hx]
        simpa [hx] using hb
    | true =>
      simp only [Bool.and_eq_true, Bool.not_eq_true'] at hb
      have hnn : t.isScalar .null = false := by
        cases t with
        | scalar s m =>
          simp only [ModelSupported] at hs
          simp only [Ty.isScalar, decide_eq_false_iff_not]
          intro h
          have := hb.1
          rw [show (Ty.scalar s m).nullable = m.nullable from rfl, hs.2 h] at this
          exact absurd this (by simp)
        | _ => rfl
      obtain ⟨h1, h2⟩ := mBase_ne_none (ids := ids) hs hnn
      have he : mHint M ids t = .union (ids.opt (mBase M ids t)) [mBase M ids t, .cls .noneType] := by
        rw [mHint, hb.1, hb.2, ← mkOptional_of h1 h2]; rfl
      rw [he]
      have hp := size_pos t
      obtain ⟨n, rfl⟩ : ∃ m, n = m + 1 := ⟨n - 1, by omega⟩
      rw [pmA_optional (isSame_noneType h2), pm_backBase hM hs ih n (by omega)]
      show Except.ok (((modelWiden t).setNullable false).setNullable true) = _
      rw [setNullable_setNullable, setNullable_self]
      rw [modelWiden_nullable t hb.2, hb.1]

end Typ
end Arti
