import Verif.Model.Numpy
import Verif.Spec.Numpy
import Verif.Lemmas.Dispatch
import Verif.Lemmas.Items

/-!
# Lemmas: conversions of the NumPy and pandas type systems
-/

namespace Arti
namespace Typ
open Spec

@[simp] theorem npSimpleS_priority (a) : (npSimpleS a).priority = a.priority := rfl
@[simp] theorem npSimpleA_priority (a) : (npSimpleA a).priority = a.priority := rfl
@[simp] theorem npListS_priority : npListS.priority = 0 := rfl
@[simp] theorem npListA_priority : npListA.priority = 0 := rfl

/-- The generated adapters, highest priority first. -/
def npSorted : List NpSimple := [
  ⟨"numpyFloat64", Ty.isScalar .float64, .scalar .float64 {}, .float64, 64⟩,
  ⟨"numpyInt64", Ty.isScalar .int64, .scalar .int64 {}, .int64, 64⟩,
  ⟨"numpyUInt64", Ty.isScalar .uint64, .scalar .uint64 {}, .uint64, 64⟩,
  ⟨"numpyFloat32", Ty.isScalar .float32, .scalar .float32 {}, .float32, 32⟩,
  ⟨"numpyInt32", Ty.isScalar .int32, .scalar .int32 {}, .int32, 32⟩,
  ⟨"numpyUInt32", Ty.isScalar .uint32, .scalar .uint32 {}, .uint32, 32⟩,
  ⟨"numpyFloat16", Ty.isScalar .float16, .scalar .float16 {}, .float16, 16⟩,
  ⟨"numpyInt16", Ty.isScalar .int16, .scalar .int16 {}, .int16, 16⟩,
  ⟨"numpyUInt16", Ty.isScalar .uint16, .scalar .uint16 {}, .uint16, 16⟩,
  ⟨"numpyInt8", Ty.isScalar .int8, .scalar .int8 {}, .int8, 8⟩,
  ⟨"numpyUInt8", Ty.isScalar .uint8, .scalar .uint8 {}, .uint8, 8⟩,
  ⟨"numpyBinary", isTyBinary, .binary none {}, .bytes, 0⟩,
  ⟨"numpyBoolean", Ty.isScalar .boolean, .scalar .boolean {}, .bool, 0⟩,
  ⟨"numpyString", Ty.isScalar .string, .scalar .string {}, .str, 0⟩]

theorem npSortedS : sortByPriority ((npAdaptersS.map fun a => (a.key, a)).map Prod.snd) =
    npSorted.map npSimpleS ++ [npListS] := by
  simp [npAdaptersS, npSimples, npSorted, sortByPriority, insertByPriority]

theorem npSortedA : sortByPriority ((npAdaptersA.map fun a => (a.key, a)).map Prod.snd) =
    npSorted.map npSimpleA ++ [npListA] := by
  simp [npAdaptersA, npSimples, npSorted, sortByPriority, insertByPriority]

/-- One step of the NumPy system, for a given root. -/
def npStepS (root : Ty → Hints → Except Err PdObj) := dispatched root (npSorted.map npSimpleS ++ [npListS])
def npStepA (root : PdObj → Hints → Except Err Ty) := dispatched root (npSorted.map npSimpleA ++ [npListA])

theorem convert_npSys (root) (t : Ty) (h : Hints) : convert root npSys t h = npStepS root t h := by
  rw [npSys, convert_leaf, npSortedS]; rfl

theorem convert_npArti (root) (o : PdObj) (h : Hints) : convert root npArti o h = npStepA root o h := by
  rw [npArti, convert_leaf, npSortedA]; rfl

theorem np_run_S (n : Nat) (t : Ty) (h : Hints) : run npSys (n + 1) t h = npStepS (run npSys n) t h := by
  rw [run, convert_npSys]

theorem np_run_A (n : Nat) (o : PdObj) (h : Hints) :
    run npArti (n + 1) o h = npStepA (run npArti n) o h := by
  rw [run, convert_npArti]

macro "npGo" : tactic => `(tactic| (
  simp only [npStepS, npStepA, npSorted, List.map_cons, List.map_nil, List.cons_append, List.nil_append]
  repeat (rw [dispatched_false]; rotate_left; exact rfl)
  refine Eq.trans (dispatched_true rfl) ?_))

macro "npNone" : tactic => `(tactic| (
  simp only [npStepS, npStepA, npSorted, List.map_cons, List.map_nil, List.cons_append, List.nil_append]
  repeat (rw [dispatched_false]; rotate_left; exact rfl)
  exact dispatched_nil))

theorem stored_iff {t : Ty} : Stored t ↔ ∃ k, kindOf t = some k := by
  constructor
  · rintro (⟨h1, h2⟩ | _)
    · rename_i s m
      cases s <;> simp_all [kindOf]
    · exact ⟨_, rfl⟩
  · rintro ⟨k, hk⟩
    cases t with
    | scalar s m => cases s <;> first | (exact .scalar (by decide) (by decide)) | simp [kindOf] at hk
    | binary n m => exact .binary
    | _ => simp [kindOf] at hk

theorem tyOf_kind {t : Ty} {k : NpKind} (h : kindOf t = some k) : tyOf k = bare t := by
  cases t with
  | scalar s m => cases s <;> simp [kindOf] at h <;> subst h <;> rfl
  | binary n m => simp [kindOf] at h; subst h; rfl
  | _ => simp [kindOf] at h

theorem kindOf_tyOf (k : NpKind) : kindOf (tyOf k) = some k := by cases k <;> rfl

theorem bare_tyOf (k : NpKind) : bare (tyOf k) = tyOf k := by cases k <;> rfl

theorem npStepS_kind {root} {t : Ty} {k : NpKind} {h : Hints} (hk : kindOf t = some k) :
    npStepS root t h = .ok (.cls k) := by
  cases t with
  | scalar s m => cases s <;> simp [kindOf] at hk <;> subst hk <;> (npGo; rfl)
  | binary n m => simp [kindOf] at hk; subst hk; npGo; rfl
  | _ => simp [kindOf] at hk

theorem npStepS_list {root} {e t : Ty} {h : Hints} (ht : ListOf e t) :
    npStepS root t h = (do let o ← root e h; npArray o) := by
  cases ht <;> (npGo; rfl)

theorem npStepS_none {root} {t : Ty} {h : Hints} (hk : kindOf t = none) (hl : t.isList = false) :
    npStepS root t h = .error .notImplemented := by
  cases t with
  | scalar s m => cases s <;> simp [kindOf] at hk <;> npNone
  | binary n m => simp [kindOf] at hk
  | list e m => simp [Ty.isList] at hl
  | collection => simp [Ty.isList] at hl
  | _ => npNone

theorem npStepA_cls {root} {k : NpKind} {h : Hints} : npStepA root (.cls k) h = .ok (tyOf k) := by
  cases k <;> (npGo; rfl)

theorem npStepA_dtype {root} {k : NpKind} {h : Hints} : npStepA root (.dtype k 0) h = .ok (tyOf k) := by
  cases k <;> (npGo; rfl)

theorem npStepA_dtype_sized {root} {k : NpKind} {n : Nat} {h : Hints} :
    npStepA root (.dtype k n) h =
      if (k = .bytes ∨ k = .str) ∧ n ≠ 0 then .error .notImplemented else .ok (tyOf k) := by
  by_cases hn : n = 0
  · subst hn; rw [npStepA_dtype]; simp
  · have hf : ∀ l : List NpSimple, ∀ rest, (k = .bytes ∨ k = .str) →
        dispatched root (l.map npSimpleA ++ rest) (.dtype k n) h = dispatched root rest (.dtype k n) h := by
      intro l rest hk
      induction l with
      | nil => rfl
      | cons a l ih =>
        rw [List.map_cons, List.cons_append, dispatched_false, ih]
        have : ¬ (k = .bytes ∨ k = .str → n = 0) := fun hc => hn (hc hk)
        show (if isArray (.dtype k n) = true then Except.ok false else npEq a.system (.dtype k n)) = _
        simp only [isArray, npEq, this, and_false, decide_false, Bool.false_eq_true, if_false]
    by_cases hk : k = .bytes ∨ k = .str
    · rw [npStepA, hf _ _ hk, dispatched_false rfl, dispatched_nil]
      simp [hk, hn]
    · cases k <;> simp at hk <;> (simp only [reduceCtorEq, false_and, or_self, if_false]; npGo; rfl)

theorem npStepA_other {root} {n : Nat} {h : Hints} :
    npStepA root (.other n) h = .error .notImplemented := by npNone

theorem npStepA_array {root} {k : Option NpKind} {shape : List Nat} {h : Hints} :
    npStepA root (.array k shape) h =
      (do let v ← npFirst (.array k shape); let e ← root v h; return .list e {}) := by
  npGo; rfl

/-! ## The pandas system -/

theorem pd_run_S (n : Nat) (t : Ty) (h : Hints) :
    run pdSys (n + 1) t h =
      if t.isList && !isStructList t then pdSeriesS.convert (run pdSys n) t h
      else if t.isList && isStructList t then pdFrameS.convert (run pdSys n) t h
      else npStepS (run pdSys n) t h := by
  rw [run, pdSys, convert]
  have : sortByPriority ((pdAdaptersS.map fun a => (a.key, a)).map Prod.snd) = [pdSeriesS, pdFrameS] := by
    rfl
  rw [this]
  simp only [firstMatch]
  have e1 : pdSeriesS.accepts t h = .ok (t.isList && !isStructList t) := rfl
  have e2 : pdFrameS.accepts t h = .ok (t.isList && isStructList t) := rfl
  rw [e1, e2]
  rcases (t.isList && !isStructList t) with _ | _
  · rcases (t.isList && isStructList t) with _ | _
    · exact (convertExt_single _ _ _ _).trans (convert_npSys _ _ _)
    · rfl
  · rfl

theorem pd_run_A (n : Nat) (o : PdObj) (h : Hints) :
    run pdArti (n + 1) o h =
      match o with
      | .series s => pdSeriesConvert (run pdArti n) s h
      | .frame cs => pdFrameConvert (run pdArti n) cs h
      | o => npStepA (run pdArti n) o h := by
  rw [run, pdArti, convert]
  have : sortByPriority ((pdAdaptersA.map fun a => (a.key, a)).map Prod.snd) = [pdSeriesA, pdFrameA] := by
    rfl
  rw [this]
  simp only [firstMatch]
  have e1 : pdSeriesA.accepts o h = .ok (isSeries o) := rfl
  have e2 : pdFrameA.accepts o h = .ok (isFrame o) := rfl
  rw [e1, e2]
  have e3 : ∀ o, convertExt (run pdArti n) [npArti] o h = npStepA (run pdArti n) o h := fun o =>
    (convertExt_single _ _ _ _).trans (convert_npArti _ _ _)
  cases o with
  | series s => rfl
  | frame cs => rfl
  | _ => exact e3 _

end Typ
end Arti
