import Verif.Model.BigQuery
import Verif.Spec.BigQuery
import Verif.Lemmas.Dispatch
import Verif.Lemmas.Items
import Mathlib.Data.List.Forall2

/-!
# Lemmas: conversions of the BigQuery type system
-/

namespace Arti
namespace Typ
open Spec

@[simp] theorem bqSimpleS_priority (a) : (bqSimpleS a).priority = a.priority := rfl
@[simp] theorem bqSimpleA_priority (a) : (bqSimpleA a).priority = a.priority := rfl
@[simp] theorem bqStructS_priority : bqStructS.priority = 0 := rfl
@[simp] theorem bqListS_priority : bqListS.priority = 1000000000 := rfl
@[simp] theorem bqTableS_priority : bqTableS.priority = 1000000001 := rfl
@[simp] theorem bqStructA_priority : bqStructA.priority = 0 := rfl
@[simp] theorem bqListA_priority : bqListA.priority = 1000000000 := rfl
@[simp] theorem bqTableA_priority : bqTableA.priority = 1000000001 := rfl

/-- The adapters without attributes, highest priority first. -/
def bqSorted : List BqSimple := [
  ⟨"BigQuerySqlTypeNames.FLOAT<class 'arti.types.Float64'>", Ty.isScalar .float64, .float64,
    .scalar .float64, 64⟩,
  ⟨"BigQuerySqlTypeNames.INTEGER<class 'arti.types.Int64'>", Ty.isScalar .int64, .int64,
    .scalar .int64, 64⟩,
  ⟨"BigQuerySqlTypeNames.FLOAT<class 'arti.types.Float32'>", Ty.isScalar .float32, .float64,
    .scalar .float32, 32⟩,
  ⟨"BigQuerySqlTypeNames.INTEGER<class 'arti.types.Int32'>", Ty.isScalar .int32, .int64,
    .scalar .int32, 32⟩,
  ⟨"BigQuerySqlTypeNames.FLOAT<class 'arti.types.Float16'>", Ty.isScalar .float16, .float64,
    .scalar .float16, 16⟩,
  ⟨"BigQuerySqlTypeNames.INTEGER<class 'arti.types.Int16'>", Ty.isScalar .int16, .int64,
    .scalar .int16, 16⟩,
  ⟨"BigQuerySqlTypeNames.INTEGER<class 'arti.types.Int8'>", Ty.isScalar .int8, .int64,
    .scalar .int8, 8⟩,
  ⟨"BigQuerySqlTypeNames.BYTES<class 'arti.types.Binary'>", isTyBinary, .bytes, .binary none, 0⟩,
  ⟨"BigQuerySqlTypeNames.BOOLEAN<class 'arti.types.Boolean'>", Ty.isScalar .boolean, .bool,
    .scalar .boolean, 0⟩,
  ⟨"BigQuerySqlTypeNames.DATE<class 'arti.types.Date'>", Ty.isScalar .date, .date, .scalar .date, 0⟩,
  ⟨"BigQuerySqlTypeNames.GEOGRAPHY<class 'arti.types.Geography'>", isTyGeography, .geography,
    .geography none none, 0⟩,
  ⟨"BigQuerySqlTypeNames.STRING<class 'arti.types.String'>", Ty.isScalar .string, .string,
    .scalar .string, 0⟩,
  ⟨"DateTimeTypeAdapter", isTyDateTime, .datetime, .dateTime .microsecond, 0⟩,
  ⟨"TimeTypeAdapter", isTyTime, .time, .time .microsecond, 0⟩,
  ⟨"TimestampTypeAdapter", isTyTimestamp, .timestamp, .timestamp .microsecond, 0⟩]

theorem bqSortedS : sortByPriority ((bqAdaptersS.map fun a => (a.key, a)).map Prod.snd) =
    bqTableS :: bqListS :: (bqSorted.map bqSimpleS ++ [bqStructS]) := by
  simp [bqAdaptersS, bqSimples, bqSorted, sortByPriority, insertByPriority]

theorem bqSortedA : sortByPriority ((bqAdaptersA.map fun a => (a.key, a)).map Prod.snd) =
    bqTableA :: bqListA :: (bqSorted.map bqSimpleA ++ [bqStructA]) := by
  simp [bqAdaptersA, bqSimples, bqSorted, sortByPriority, insertByPriority]

theorem bq_run_S (n : Nat) (t : Ty) (h : Hints) : run bqSys (n + 1) t h =
    dispatched (run bqSys n) (sortByPriority ((bqAdaptersS.map fun a => (a.key, a)).map Prod.snd)) t h :=
  run_leaf _ _ _ _ _

theorem bq_run_A (n : Nat) (o : BqObj) (h : Hints) : run bqArti (n + 1) o h =
    dispatched (run bqArti n) (sortByPriority ((bqAdaptersA.map fun a => (a.key, a)).map Prod.snd)) o h :=
  run_leaf _ _ _ _ _

macro "bqDispatchS" : tactic => `(tactic| (
  rw [bq_run_S, bqSortedS]
  simp only [bqSorted, List.map_cons, List.map_nil, List.cons_append, List.nil_append]
  repeat (rw [dispatched_false]; rotate_left; exact rfl)
  refine Eq.trans (dispatched_true rfl) ?_))

macro "bqDispatchA" : tactic => `(tactic| (
  rw [bq_run_A, bqSortedA]
  simp only [bqSorted, List.map_cons, List.map_nil, List.cons_append, List.nil_append]
  repeat (rw [dispatched_false]; rotate_left; exact rfl)
  refine Eq.trans (dispatched_true rfl) ?_))

macro "bqNoneS" : tactic => `(tactic| (
  rw [bq_run_S, bqSortedS]
  simp only [bqSorted, List.map_cons, List.map_nil, List.cons_append, List.nil_append]
  repeat (rw [dispatched_false]; rotate_left; exact rfl)
  exact dispatched_nil))

/-- The SQL type of a scalar. -/
def bqScalarKind : Scalar → Option BqKind
  | .boolean => some .bool | .date => some .date | .string => some .string
  | .float16 => some .float64 | .float32 => some .float64 | .float64 => some .float64
  | .int8 => some .int64 | .int16 => some .int64 | .int32 => some .int64 | .int64 => some .int64
  | _ => none

theorem bqS_scalar {n : Nat} {s : Scalar} {k : BqKind} {m : Meta} {h : Hints}
    (hk : bqScalarKind s = some k) :
    run bqSys (n + 1) (.scalar s m) h = .ok (.field (createField k (.scalar s m) h [])) := by
  cases s <;> simp only [bqScalarKind, Option.some.injEq, reduceCtorEq] at hk <;> subst hk <;>
    (bqDispatchS; rfl)

theorem bqS_scalar_none {n : Nat} {s : Scalar} {m : Meta} {h : Hints}
    (hk : bqScalarKind s = none) : run bqSys (n + 1) (.scalar s m) h = .error .notImplemented := by
  cases s <;> simp only [bqScalarKind, reduceCtorEq] at hk <;> bqNoneS

theorem bqS_set {n : Nat} {e : Ty} {m : Meta} {h : Hints} :
    run bqSys (n + 1) (.set e m) h = .error .notImplemented := by bqNoneS

theorem bqS_enum {n : Nat} {nm : Str} {t : Ty} {i} {m : Meta} {h : Hints} :
    run bqSys (n + 1) (.enum nm t i m) h = .error .notImplemented := by bqNoneS

theorem bqS_map {n : Nat} {k v : Ty} {m : Meta} {h : Hints} :
    run bqSys (n + 1) (.map k v m) h = .error .notImplemented := by bqNoneS

theorem bqS_binary {n : Nat} {s : Option Int} {m : Meta} {h : Hints} :
    run bqSys (n + 1) (.binary s m) h = .ok (.field (createField .bytes (.binary s m) h [])) := by
  bqDispatchS; rfl

theorem bqS_geography {n : Nat} {f s : Option Str} {m : Meta} {h : Hints} :
    run bqSys (n + 1) (.geography f s m) h =
      .ok (.field (createField .geography (.geography f s m) h [])) := by
  bqDispatchS; rfl

theorem bqS_dateTime {n : Nat} {p : Prec} {m : Meta} {h : Hints} :
    run bqSys (n + 1) (.dateTime p m) h = .ok (.field (createField .datetime (.dateTime p m) h [])) := by
  bqDispatchS; rfl

theorem bqS_time {n : Nat} {p : Prec} {m : Meta} {h : Hints} :
    run bqSys (n + 1) (.time p m) h = .ok (.field (createField .time (.time p m) h [])) := by
  bqDispatchS; rfl

theorem bqS_timestamp {n : Nat} {p : Prec} {m : Meta} {h : Hints} :
    run bqSys (n + 1) (.timestamp p m) h =
      .ok (.field (createField .timestamp (.timestamp p m) h [])) := by
  bqDispatchS; rfl

theorem bqS_struct {n : Nat} {nm : Str} {fs : List (Str × Ty)} {m : Meta} {h : Hints} :
    run bqSys (n + 1) (.struct nm fs m) h =
      (do let gs ← bqFieldsS (run bqSys n) h fs
          return .field (createField .struct (.struct nm fs m) h gs)) := by
  bqDispatchS; rfl

theorem bqS_list {n : Nat} {e : Ty} {m : Meta} {h : Hints} :
    run bqSys (n + 1) (.list e m) h =
      if e.isList then .error .valueError else
      (do let o ← run bqSys n (e.setNullable false) h
          let f ← asField o
          if f.mode = .required then return .field (f.withMode .repeated) else .error .assertion) := by
  rw [bq_run_S, bqSortedS, dispatched_false (by rfl), dispatched_true (by rfl)]
  have he : (if e.nullable = true then e.setNullable false else e) = e.setNullable false := by
    split
    · rfl
    · rename_i hn; exact (setNullable_self (by simpa using hn)).symm
  have hl : (e.setNullable false).isList = e.isList := by cases e <;> rfl
  show bqListToSystem (run bqSys n) (.list e m) h = _
  simp only [bqListToSystem, he, hl]
  cases e.isList
  · rfl
  · rfl

theorem bqS_table {n : Nat} {nm sn : Str} {fs : List (Str × Ty)} {sm m : Meta} {p c : List Str}
    {h : Hints} : run bqSys (n + 1) (.collection nm (.struct sn fs sm) p c m) h =
      (do let o ← run bqSys n (.struct sn fs sm) h
          let f ← asField o
          let id ← bqTableId (if nm = anon then "project.dataset.table".toList else nm)
          let (part, cluster) ← bqPartitioning fs p c
          return .table
            { id, schema := f.fields, timePart := part, rangePart := false,
              requireFilter := part.isSome,
              clustering := if cluster = [] then none else some cluster }) := by
  bqDispatchS; rfl

/-! ## Towards artigraph -/

theorem bqA_simple {n : Nat} {h : Hints} {nm : Str} {k : BqKind} {mode : BqMode} {d : Option Str}
    {fs : List BqField} (hm : mode ≠ .repeated) (mk : Meta → Ty)
    (hk : (k = .bool ∧ mk = .scalar .boolean) ∨ (k = .date ∧ mk = .scalar .date) ∨
      (k = .string ∧ mk = .scalar .string) ∨ (k = .float64 ∧ mk = .scalar .float64) ∨
      (k = .int64 ∧ mk = .scalar .int64) ∨ (k = .bytes ∧ mk = .binary none) ∨
      (k = .geography ∧ mk = .geography none none) ∨ (k = .datetime ∧ mk = .dateTime .microsecond) ∨
      (k = .time ∧ mk = .time .microsecond) ∨ (k = .timestamp ∧ mk = .timestamp .microsecond)) :
    run bqArti (n + 1) (.field (.mk nm k mode d fs)) h =
      .ok (mk { description := d, nullable := decide (mode = .nullable) }) := by
  cases mode with
  | repeated => exact absurd rfl hm
  | required =>
    rcases hk with ⟨rfl, rfl⟩ | ⟨rfl, rfl⟩ | ⟨rfl, rfl⟩ | ⟨rfl, rfl⟩ | ⟨rfl, rfl⟩ | ⟨rfl, rfl⟩ |
      ⟨rfl, rfl⟩ | ⟨rfl, rfl⟩ | ⟨rfl, rfl⟩ | ⟨rfl, rfl⟩ <;> (bqDispatchA; rfl)
  | nullable =>
    rcases hk with ⟨rfl, rfl⟩ | ⟨rfl, rfl⟩ | ⟨rfl, rfl⟩ | ⟨rfl, rfl⟩ | ⟨rfl, rfl⟩ | ⟨rfl, rfl⟩ |
      ⟨rfl, rfl⟩ | ⟨rfl, rfl⟩ | ⟨rfl, rfl⟩ | ⟨rfl, rfl⟩ <;> (bqDispatchA; rfl)

theorem bqA_struct {n : Nat} {h : Hints} {nm : Str} {mode : BqMode} {d : Option Str}
    {fs : List BqField} (hm : mode ≠ .repeated) :
    run bqArti (n + 1) (.field (.mk nm .struct mode d fs)) h =
      (do let ts ← bqFieldsA (run bqArti n) h fs
          return .struct anon (PyDict.ofItems ts)
            { description := d, nullable := decide (mode = .nullable) }) := by
  cases mode with
  | repeated => exact absurd rfl hm
  | required => bqDispatchA; rfl
  | nullable => bqDispatchA; rfl

theorem bqA_list {n : Nat} {h : Hints} {nm : Str} {k : BqKind} {d : Option Str} {fs : List BqField} :
    run bqArti (n + 1) (.field (.mk nm k .repeated d fs)) h =
      (do let e ← run bqArti n (.field (.mk nm k .required d fs)) h
          return .list e { description := d, nullable := false }) := by
  bqDispatchA; rfl

theorem bqA_table {n : Nat} {h : Hints} {t : BqTable} :
    run bqArti (n + 1) (.table t) h =
      (do let p ← bqPartitionBy t
          let e ← run bqArti n (.field (.mk anon .struct .required none t.schema)) h
          mkCollection t.id e p (t.clustering.getD []) {}) := by
  bqDispatchA; rfl

/-! ## Round trip of columns -/

theorem bqScalarKind_of {s : Scalar} (h : BqScalar s) : ∃ k, bqScalarKind s = some k := by
  cases s <;> simp_all [BqScalar, bqScalarKind]

theorem bqData_setNullable {t : Ty} {b : Bool} (h : BqData t) : BqData (t.setNullable b) := by
  cases t <;> simp_all [BqData, Ty.setNullable, Ty.withMeta]

theorem distinct_setNullable {t : Ty} {b : Bool} (h : DistinctNames t) :
    DistinctNames (t.setNullable b) := by
  cases t <;> simp_all [DistinctNames, Ty.setNullable, Ty.withMeta]

theorem desc_setNullable (t : Ty) (b : Bool) :
    (t.setNullable b).info.description = t.info.description := by
  cases t <;> rfl

theorem bqData_isList {t : Ty} (h : BqData t) (hl : ∀ e m, t ≠ .list e m) : t.isList = false := by
  cases t with
  | list e m => exact absurd rfl (hl e m)
  | collection _ _ _ _ _ => simp [BqData] at h
  | _ => rfl

theorem bqForget_setNullable {t : Ty} {b : Bool} (h : BqData t) (hl : ∀ e m, t ≠ .list e m) :
    bqForget (t.setNullable b) = (bqForget t).setNullable b := by
  cases t with
  | list e m => exact absurd rfl (hl e m)
  | _ => simp_all [BqData, bqForget, Ty.setNullable, Ty.withMeta, Ty.info]

theorem bqMode_nullable (b : Bool) :
    decide ((if b = true then BqMode.nullable else BqMode.required) = .nullable) = b := by
  cases b <;> rfl

theorem bqMode_ne (b : Bool) : (if b = true then BqMode.nullable else BqMode.required) ≠ .repeated := by
  cases b <;> simp

/-- `t` is converted, with any fuel that is at least its size, to a field that is converted back to
`bqForget t`. -/
structure BqRound (t : Ty) (h : Hints) (f : BqField) : Prop where
  name : f.name = (PyDict.get? h bqHint).getD anon
  mode : t.isList = false → f.mode = if t.nullable then .nullable else .required
  desc : t.isList = false → f.description = t.info.description
  kind : bqKindOf t = some f.kind
  rep : t.isList = true → f.mode = .repeated
  size : f.size ≤ t.size
  there : ∀ n, t.size ≤ n → run bqSys n t h = .ok (.field f)
  back : ∀ n h', f.size ≤ n → run bqArti n (.field f) h' = .ok (bqForget t)

theorem BqRound.column {n : Str} {t : Ty} {h : Hints} {f : BqField} (hb : BqData t)
    (hr : BqRound t (PyDict.set h bqHint n) f) : BqColumn n t f where
  name := by rw [hr.name, PyDict.get?_set, if_pos rfl]; rfl
  kind := hr.kind
  repeated := fun ⟨e, m, he⟩ => hr.rep (by rw [he]; rfl)
  mode := fun hl => hr.mode (bqData_isList hb hl)
  description := fun hl => hr.desc (bqData_isList hb hl)

theorem bqFields_round {h : Hints} : ∀ {fs : List (Str × Ty)}, (∀ x ∈ fs, BqData x.2) →
    (∀ x ∈ fs, ∀ h, ∃ f, BqRound x.2 h f) →
    ∃ gs : List BqField, BqField.sizes gs ≤ Ty.sizes fs ∧
      List.Forall₂ (fun x g => BqColumn x.1 x.2 g) fs gs ∧
      (∀ n, Ty.sizes fs ≤ n → bqFieldsS (run bqSys n) h fs = .ok gs) ∧
      ∀ n h', BqField.sizes gs ≤ n → bqFieldsA (run bqArti n) h' gs = .ok (bqForgetFields fs)
  | [], _, _ => ⟨[], Nat.le_refl _, .nil, fun _ _ => rfl, fun _ _ _ => rfl⟩
  | (nm, t) :: fs, hb, hr => by
    obtain ⟨gs, h1, h0, h2, h3⟩ := bqFields_round (h := h)
      (fun x hx => hb x (List.mem_cons_of_mem _ hx)) fun x hx => hr x (List.mem_cons_of_mem _ hx)
    obtain ⟨f, hf⟩ := hr (nm, t) List.mem_cons_self (PyDict.set h bqHint nm)
    have hname : f.name = nm := by
      rw [hf.name, PyDict.get?_set, if_pos rfl]; rfl
    have hsz := hf.size
    simp only at hsz
    refine ⟨f :: gs, by simp only [BqField.sizes, Ty.sizes]; omega,
      .cons (hf.column (hb _ List.mem_cons_self)) h0, ?_, ?_⟩
    · intro n hn
      simp only [Ty.sizes] at hn
      rw [bqFieldsS, hf.there n (by simp only; omega), h2 n (by omega)]
      rfl
    · intro n h' hn
      simp only [BqField.sizes] at hn
      rw [bqFieldsA, hf.back n h' (by omega), h3 n h' (by omega), bqForgetFields, hname]
      rfl

theorem bqFields_mem {fs : List (Str × Ty)} (h : BqFields fs) {x : Str × Ty} (hx : x ∈ fs) :
    BqData x.2 := by
  induction fs with
  | nil => simp at hx
  | cons y fs ih =>
    obtain ⟨n, t⟩ := y
    rw [BqFields] at h
    rcases List.mem_cons.1 hx with hx | hx
    · subst hx; exact h.1
    · exact ih h.2 hx

theorem bqForgetFields_names : ∀ fs : List (Str × Ty),
    (bqForgetFields fs).map Prod.fst = fs.map Prod.fst
  | [] => rfl
  | (n, t) :: fs => by simp [bqForgetFields, bqForgetFields_names fs]

theorem distinctF_mem {fs : List (Str × Ty)} (h : DistinctNamesF fs) {x : Str × Ty} (hx : x ∈ fs) :
    DistinctNames x.2 := by
  induction fs with
  | nil => simp at hx
  | cons y fs ih =>
    obtain ⟨n, t⟩ := y
    rw [DistinctNamesF] at h
    rcases List.mem_cons.1 hx with hx | hx
    · subst hx; exact h.1
    · exact ih h.2 hx

theorem bqData_round : ∀ (N : Nat) (t : Ty), t.size ≤ N → BqData t → DistinctNames t →
    ∀ h, ∃ f, BqRound t h f
  | 0, t, hN, _, _, _ => absurd (size_pos t) (by omega)
  | N + 1, t, hN, hb, hd, h => by
    have leaf : ∀ (k : BqKind) (mk : Meta → Ty),
        ((k = .bool ∧ mk = .scalar .boolean) ∨ (k = .date ∧ mk = .scalar .date) ∨
        (k = .string ∧ mk = .scalar .string) ∨ (k = .float64 ∧ mk = .scalar .float64) ∨
        (k = .int64 ∧ mk = .scalar .int64) ∨ (k = .bytes ∧ mk = .binary none) ∨
        (k = .geography ∧ mk = .geography none none) ∨
        (k = .datetime ∧ mk = .dateTime .microsecond) ∨
        (k = .time ∧ mk = .time .microsecond) ∨ (k = .timestamp ∧ mk = .timestamp .microsecond)) →
        (∀ n, run bqSys (n + 1) t h = .ok (.field (createField k t h []))) →
        bqForget t = mk t.info → bqKindOf t = some k → t.isList = false → ∃ f, BqRound t h f := by
      intro k mk hk h1 h2 h3 h4
      have ht := size_pos t
      refine ⟨createField k t h [], rfl, fun _ => rfl, fun _ => rfl, h3, fun h => absurd h (by simp [h4]), ?_, fun n hn => ?_,
        fun n h' hn => ?_⟩
      · simp only [createField, BqField.size, bqMode_ne, if_false, BqField.sizes]; omega
      · obtain ⟨n, rfl⟩ : ∃ m, n = m + 1 := ⟨n - 1, by omega⟩
        exact h1 n
      · have : 1 ≤ n := by
          simp only [createField, BqField.size, bqMode_ne, if_false, BqField.sizes] at hn; omega
        obtain ⟨n, rfl⟩ : ∃ m, n = m + 1 := ⟨n - 1, by omega⟩
        rw [createField, bqA_simple (bqMode_ne _) mk hk, h2, bqMode_nullable]
        rfl
    cases t with
    | scalar s m =>
      rw [BqData] at hb
      obtain ⟨k, hk⟩ := bqScalarKind_of hb
      refine leaf k (.scalar (bqWiden s)) ?_ (fun n => bqS_scalar hk) (by rw [bqForget]; rfl) ?_ rfl
      · cases s <;> simp_all [bqScalarKind, bqWiden]
      · cases s <;> simp_all [bqScalarKind, bqKindOf]
    | binary s m =>
      exact leaf .bytes (.binary none) (by simp) (fun n => bqS_binary) (by rw [bqForget]; rfl)
        rfl rfl
    | geography f s m =>
      exact leaf .geography (.geography none none) (by simp) (fun n => bqS_geography) (by rw [bqForget]; rfl)
        rfl rfl
    | dateTime p m =>
      exact leaf .datetime (.dateTime .microsecond) (by simp) (fun n => bqS_dateTime) (by rw [bqForget]; rfl)
        rfl rfl
    | time p m =>
      exact leaf .time (.time .microsecond) (by simp) (fun n => bqS_time) (by rw [bqForget]; rfl)
        rfl rfl
    | timestamp p m =>
      exact leaf .timestamp (.timestamp .microsecond) (by simp) (fun n => bqS_timestamp) (by rw [bqForget]; rfl)
        rfl rfl
    | list e m =>
      simp only [Ty.size] at hN
      rw [BqData] at hb
      rw [DistinctNames] at hd
      have hl := bqData_isList hb.2 hb.1
      obtain ⟨f, hf⟩ := bqData_round N (e.setNullable false) (by rw [size_setNullable]; omega)
        (bqData_setNullable hb.2) (distinct_setNullable hd) h
      have hl' : (e.setNullable false).isList = false := by rw [← hl]; cases e <;> rfl
      have hmode : f.mode = .required := by rw [hf.mode hl', nullable_setNullable]; rfl
      have hdesc : f.description = e.info.description := by rw [hf.desc hl', desc_setNullable]
      obtain ⟨nm, k, mode, d, fs⟩ := f
      simp only [BqField.mode] at hmode
      simp only [BqField.description] at hdesc
      subst hmode hdesc
      have hkind := hf.kind
      simp only [BqField.kind] at hkind
      have hsz := hf.size
      rw [size_setNullable] at hsz
      simp only [BqField.size, reduceCtorEq, if_false] at hsz
      refine ⟨.mk nm k .repeated e.info.description fs, hf.name, fun h => by simp [Ty.isList] at h,
        fun h => by simp [Ty.isList] at h, ?_, fun _ => rfl, ?_, fun n hn => ?_, fun n h' hn => ?_⟩
      · show bqKindOf e = some k
        rw [← hkind]
        cases e with
        | scalar s m => cases s <;> rfl
        | _ => rfl
      · simp only [BqField.size, Ty.size, if_true]; omega
      · simp only [Ty.size] at hn
        obtain ⟨n, rfl⟩ : ∃ m, n = m + 1 := ⟨n - 1, by omega⟩
        rw [bqS_list, hl, hf.there n (by rw [size_setNullable]; omega)]
        rfl
      · simp only [BqField.size, if_true] at hn
        obtain ⟨n, rfl⟩ : ∃ m, n = m + 1 := ⟨n - 1, by omega⟩
        rw [bqA_list, hf.back n h' (by simp only [BqField.size, reduceCtorEq, if_false]; omega),
          bqForget_setNullable hb.2 hb.1, bqForget]
        rfl
    | struct nm fs m =>
      simp only [Ty.size] at hN
      rw [BqData] at hb
      rw [DistinctNames] at hd
      obtain ⟨gs, h1, _, h2, h3⟩ := bqFields_round (h := h) (fs := fs)
        (fun x hx => bqFields_mem hb hx) fun x hx h => bqData_round N x.2 (by have := mem_sizes hx; omega) (bqFields_mem hb hx)
          (distinctF_mem hd.2 hx) h
      refine ⟨createField .struct (.struct nm fs m) h gs, rfl, fun _ => rfl, fun _ => rfl, rfl,
        fun h => by simp [Ty.isList] at h, ?_,
        fun n hn => ?_, fun n h' hn => ?_⟩
      · simp only [createField, BqField.size, bqMode_ne, if_false, Ty.size]; omega
      · simp only [Ty.size] at hn
        obtain ⟨n, rfl⟩ : ∃ m, n = m + 1 := ⟨n - 1, by omega⟩
        rw [bqS_struct, h2 n (by omega)]
        rfl
      · simp only [createField, BqField.size, bqMode_ne, if_false] at hn
        obtain ⟨n, rfl⟩ : ∃ m, n = m + 1 := ⟨n - 1, by omega⟩
        rw [createField, bqA_struct (bqMode_ne _), h3 n h' (by omega), bqMode_nullable, bqForget]
        show Except.ok _ = _
        rw [PyDict.ofItems_nodup (by rw [PyDict.keys, bqForgetFields_names]; exact hd.1)]
        rfl
    | _ => simp [BqData] at hb

/-! ## Only the supported types are converted -/

theorem bqScalar_of_kind {s : Scalar} (h : bqScalarKind s ≠ none) : BqScalar s := by
  cases s <;> simp_all [BqScalar, bqScalarKind]

theorem noCollection_setNullable {t : Ty} {b : Bool} (h : NoCollection t) :
    NoCollection (t.setNullable b) := by
  cases t <;> simp_all [NoCollection, Ty.setNullable, Ty.withMeta]

theorem bqData_of_setNullable {t : Ty} {b : Bool} (h : BqData (t.setNullable b)) : BqData t := by
  cases t <;> simp_all [BqData, Ty.setNullable, Ty.withMeta]

mutual
theorem bqData_of_ok : ∀ (n : Nat) (t : Ty) (h : Hints) (o : BqObj), NoCollection t →
    run bqSys n t h = .ok o → BqData t
  | 0, _, _, _, _, hr => by simp [run] at hr
  | n + 1, t, h, o, hc, hr => by
    cases t with
    | scalar s m =>
      rw [BqData]
      refine bqScalar_of_kind fun hk => ?_
      rw [bqS_scalar_none hk] at hr
      cases hr
    | list e m =>
      rw [NoCollection] at hc
      rw [bqS_list] at hr
      cases hl : e.isList with
      | true => rw [hl] at hr; cases hr
      | false =>
        rw [hl] at hr
        simp only [Bool.false_eq_true, if_false] at hr
        cases hr' : run bqSys n (e.setNullable false) h with
        | error _ => rw [hr'] at hr; cases hr
        | ok o' =>
          rw [BqData]
          refine ⟨fun e' m' he => ?_, bqData_of_setNullable
            (bqData_of_ok n _ h o' (noCollection_setNullable hc) hr')⟩
          subst he; cases hl
    | struct nm fs m =>
      rw [NoCollection] at hc
      rw [bqS_struct] at hr
      rw [BqData]
      cases hr' : bqFieldsS (run bqSys n) h fs with
      | error _ => rw [hr'] at hr; cases hr
      | ok gs => exact bqFields_of_ok n fs h gs hc hr'
    | enum => rw [bqS_enum] at hr; cases hr
    | set => rw [bqS_set] at hr; cases hr
    | map => rw [bqS_map] at hr; cases hr
    | collection => simp [NoCollection] at hc
    | _ => simp [BqData]
theorem bqFields_of_ok : ∀ (n : Nat) (fs : List (Str × Ty)) (h : Hints) (gs : List BqField),
    NoCollectionF fs → bqFieldsS (run bqSys n) h fs = .ok gs → BqFields fs
  | _, [], _, _, _, _ => by simp [BqFields]
  | n, (nm, t) :: fs, h, gs, hc, hr => by
    rw [NoCollectionF] at hc
    rw [bqFieldsS] at hr
    cases h1 : run bqSys n t (PyDict.set h bqHint nm) with
    | error _ => rw [h1] at hr; cases hr
    | ok o =>
      rw [h1] at hr
      cases h2 : asField o with
      | error _ =>
        have : (do let f ← asField o; let fs ← bqFieldsS (run bqSys n) h fs; return f :: fs :
          Except Err (List BqField)) = .ok gs := hr
        rw [h2] at this; cases this
      | ok f =>
        have : (do let f ← asField o; let fs ← bqFieldsS (run bqSys n) h fs; return f :: fs :
          Except Err (List BqField)) = .ok gs := hr
        rw [h2] at this
        cases h3 : bqFieldsS (run bqSys n) h fs with
        | error _ =>
          have : (do let fs ← bqFieldsS (run bqSys n) h fs; return f :: fs :
            Except Err (List BqField)) = .ok gs := this
          rw [h3] at this; cases this
        | ok gs' =>
          rw [BqFields]
          exact ⟨bqData_of_ok n t _ o hc.1 h1, bqFields_of_ok n fs h gs' hc.2 h3⟩
end

end Typ
end Arti
