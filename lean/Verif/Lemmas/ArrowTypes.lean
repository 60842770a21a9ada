import Verif.Model.ArrowTypes
import Verif.Spec.ArrowTypes
import Verif.Lemmas.Dispatch
import Verif.Lemmas.Json

/-!
# Lemmas: conversions of the Arrow type system
-/

namespace Arti
namespace Typ
open Spec

@[simp] theorem primS_priority (k s p pr) : (primS k s p pr).priority = pr := rfl
@[simp] theorem paBinaryS_priority : paBinaryS.priority = 0 := rfl
@[simp] theorem paBoolS_priority : paBoolS.priority = 0 := rfl
@[simp] theorem paGeographyS_priority : paGeographyS.priority = 0 := rfl
@[simp] theorem paListS_priority : paListS.priority = 0 := rfl
@[simp] theorem paMapS_priority : paMapS.priority = 0 := rfl
@[simp] theorem paStructS_priority : paStructS.priority = 0 := rfl
@[simp] theorem paSchemaS_priority : paSchemaS.priority = 1 := rfl
@[simp] theorem paDateTimeS_priority : paDateTimeS.priority = 0 := rfl
@[simp] theorem paTimestampS_priority : paTimestampS.priority = 0 := rfl
@[simp] theorem paTimeS_priority (k o m) : (paTimeS k o m).priority = 0 := rfl
@[simp] theorem primA_priority (k s p pr) : (primA k s p pr).priority = pr := rfl
@[simp] theorem paBinaryA_priority : paBinaryA.priority = 0 := rfl
@[simp] theorem paBoolA_priority : paBoolA.priority = 0 := rfl
@[simp] theorem paGeographyA_priority : paGeographyA.priority = 0 := rfl
@[simp] theorem paListA_priority : paListA.priority = 0 := rfl
@[simp] theorem paMapA_priority : paMapA.priority = 0 := rfl
@[simp] theorem paStructA_priority : paStructA.priority = 0 := rfl
@[simp] theorem paSchemaA_priority : paSchemaA.priority = 1 := rfl
@[simp] theorem paDateTimeA_priority : paDateTimeA.priority = 0 := rfl
@[simp] theorem paTimestampA_priority : paTimestampA.priority = 0 := rfl
@[simp] theorem paTimeA_priority (k o m) : (paTimeA k o m).priority = 0 := rfl

theorem paSortedS : sortByPriority ((paAdaptersS.map fun a => (a.key, a)).map Prod.snd) =
    [primS "Pyarrowdate64" .date .date64 64, primS "Pyarrowdate32" .date .date32 32, paSchemaS,
     primS "Pyarrowstring" .string .string 0, primS "Pyarrownull" .null .null 0,
     primS "Pyarrowfloat16" .float16 .float16 0, primS "Pyarrowfloat32" .float32 .float32 0,
     primS "Pyarrowfloat64" .float64 .float64 0,
     primS "Pyarrowint8" .int8 .int8 0, primS "Pyarrowuint8" .uint8 .uint8 0,
     primS "Pyarrowint16" .int16 .int16 0, primS "Pyarrowuint16" .uint16 .uint16 0,
     primS "Pyarrowint32" .int32 .int32 0, primS "Pyarrowuint32" .uint32 .uint32 0,
     primS "Pyarrowint64" .int64 .int64 0, primS "Pyarrowuint64" .uint64 .uint64 0,
     paBinaryS, paBoolS, paGeographyS, paListS, paMapS, paStructS, paDateTimeS,
     paTimestampS, paTimeS "Time32TypeAdapter" is32 .time32,
     paTimeS "Time64TypeAdapter" (fun p => !is32 p) .time64] := by
  simp [paAdaptersS, paPrims, sortByPriority, insertByPriority]

theorem paSortedA : sortByPriority ((paAdaptersA.map fun a => (a.key, a)).map Prod.snd) =
    [primA "Pyarrowdate64" .date .date64 64, primA "Pyarrowdate32" .date .date32 32, paSchemaA,
     primA "Pyarrowstring" .string .string 0, primA "Pyarrownull" .null .null 0,
     primA "Pyarrowfloat16" .float16 .float16 0, primA "Pyarrowfloat32" .float32 .float32 0,
     primA "Pyarrowfloat64" .float64 .float64 0,
     primA "Pyarrowint8" .int8 .int8 0, primA "Pyarrowuint8" .uint8 .uint8 0,
     primA "Pyarrowint16" .int16 .int16 0, primA "Pyarrowuint16" .uint16 .uint16 0,
     primA "Pyarrowint32" .int32 .int32 0, primA "Pyarrowuint32" .uint32 .uint32 0,
     primA "Pyarrowint64" .int64 .int64 0, primA "Pyarrowuint64" .uint64 .uint64 0,
     paBinaryA, paBoolA, paGeographyA, paListA, paMapA, paStructA, paDateTimeA,
     paTimestampA, paTimeA "Time32TypeAdapter" is32 time32Unit,
     paTimeA "Time64TypeAdapter" (fun p => !is32 p) time64Unit] := by
  simp [paAdaptersA, paPrims, sortByPriority, insertByPriority]

theorem pa_run_S (n : Nat) (t : Ty) (h : Hints) : run paSys (n + 1) t h =
    dispatched (run paSys n) (sortByPriority ((paAdaptersS.map fun a => (a.key, a)).map Prod.snd)) t h :=
  run_leaf _ _ _ _ _

theorem pa_run_A (n : Nat) (o : PaObj) (h : Hints) : run paArti (n + 1) o h =
    dispatched (run paArti n) (sortByPriority ((paAdaptersA.map fun a => (a.key, a)).map Prod.snd)) o h :=
  run_leaf _ _ _ _ _

macro "paDispatchS" : tactic => `(tactic| (
  rw [pa_run_S, paSortedS]
  repeat (rw [dispatched_false]; rotate_left; exact rfl)
  refine Eq.trans (dispatched_true rfl) ?_))

macro "paDispatchA" : tactic => `(tactic| (
  rw [pa_run_A, paSortedA]
  repeat (rw [dispatched_false]; rotate_left; exact rfl)
  refine Eq.trans (dispatched_true rfl) ?_))

/-- The Arrow type of a scalar. -/
def scalarPa : Scalar → PaPrim
  | .boolean => .boolean | .date => .date64 | .null => .null | .string => .string
  | .float16 => .float16 | .float32 => .float32 | .float64 => .float64
  | .int8 => .int8 | .int16 => .int16 | .int32 => .int32 | .int64 => .int64
  | .uint8 => .uint8 | .uint16 => .uint16 | .uint32 => .uint32 | .uint64 => .uint64

theorem paS_scalar {n : Nat} {s : Scalar} {m : Meta} {h : Hints} :
    run paSys (n + 1) (.scalar s m) h = .ok (.ty (.prim (scalarPa s))) := by
  cases s <;> (paDispatchS; rfl)

theorem paA_scalar {n : Nat} {s : Scalar} {h : Hints} :
    run paArti (n + 1) (.ty (.prim (scalarPa s))) h = .ok (.scalar s {}) := by
  cases s <;> simp only [scalarPa] <;> (paDispatchA; rfl)

theorem paA_date32 {n : Nat} {h : Hints} :
    run paArti (n + 1) (.ty (.prim .date32)) h = .ok (.scalar .date {}) := by
  paDispatchA; rfl

theorem paS_binary_none {n : Nat} {m : Meta} {h : Hints} :
    run paSys (n + 1) (.binary none m) h = .ok (.ty .binary) := by
  paDispatchS; rfl

theorem paS_binary_some {n : Nat} {w : Nat} {m : Meta} {h : Hints} :
    run paSys (n + 1) (.binary (some (.ofNat w)) m) h = .ok (.ty (.fixedBinary w)) := by
  paDispatchS; rfl

theorem paS_binary_neg {n : Nat} {m : Meta} {h : Hints} :
    run paSys (n + 1) (.binary (some (-1)) m) h = .ok (.ty .binary) := by
  paDispatchS; rfl

theorem paA_binary {n : Nat} {h : Hints} :
    run paArti (n + 1) (.ty .binary) h = .ok (.binary none {}) := by
  paDispatchA; rfl

theorem paA_fixedBinary {n w : Nat} {h : Hints} :
    run paArti (n + 1) (.ty (.fixedBinary w)) h = .ok (.binary (some (.ofNat w)) {}) := by
  paDispatchA; rfl

theorem paS_geography {n : Nat} {f s : Option Str} {m : Meta} {h : Hints} :
    run paSys (n + 1) (.geography f s m) h =
      .ok (.ty (if f = some "WKB".toList then .binary else .prim .string)) := by
  paDispatchS; rfl

theorem paS_dateTime {n : Nat} {p : Prec} {m : Meta} {h : Hints} :
    run paSys (n + 1) (.dateTime p m) h = .ok (.ty (.timestamp (precisionToUnit p) none)) := by
  paDispatchS; rfl

theorem paA_dateTime {n : Nat} {u : PaUnit} {h : Hints} :
    run paArti (n + 1) (.ty (.timestamp u none)) h = .ok (.dateTime (unitToPrecision u) {}) := by
  paDispatchA; rfl

theorem paS_timestamp {n : Nat} {p : Prec} {m : Meta} {h : Hints} :
    run paSys (n + 1) (.timestamp p m) h =
      .ok (.ty (.timestamp (precisionToUnit p) (some utc))) := by
  paDispatchS; rfl

theorem paA_timestamp {n : Nat} {u : PaUnit} {tz : Str} {h : Hints} :
    run paArti (n + 1) (.ty (.timestamp u (some tz))) h =
      if tz.map Char.toUpper = utc then .ok (.timestamp (unitToPrecision u) {})
      else .error .valueError := by
  paDispatchA; rfl

def timePa : Prec → PaTy
  | .second => .time32 .s
  | .millisecond => .time32 .ms
  | .microsecond => .time64 .us
  | .nanosecond => .time64 .ns

theorem paS_time {n : Nat} {p : Prec} {m : Meta} {h : Hints} :
    run paSys (n + 1) (.time p m) h = .ok (.ty (timePa p)) := by
  cases p <;> (paDispatchS; rfl)

theorem paA_time {n : Nat} {p : Prec} {h : Hints} :
    run paArti (n + 1) (.ty (timePa p)) h = .ok (.time p {}) := by
  cases p <;> simp only [timePa] <;> (paDispatchA; rfl)

theorem paS_list {n : Nat} {e : Ty} {m : Meta} {h : Hints} :
    run paSys (n + 1) (.list e m) h =
      (do let o ← run paSys n e h; let v ← asType o; return .ty (.list v)) := by
  paDispatchS; rfl

theorem paA_list {n : Nat} {v : PaTy} {h : Hints} :
    run paArti (n + 1) (.ty (.list v)) h =
      (do let e ← run paArti n (.ty v) h; return .list e {}) := by
  paDispatchA; rfl

theorem paS_map {n : Nat} {k v : Ty} {m : Meta} {h : Hints} :
    run paSys (n + 1) (.map k v m) h =
      (do let k ← run paSys n k h; let v ← run paSys n v h
          let k ← asType k; let v ← asType v; return .ty (.map k v)) := by
  paDispatchS; rfl

theorem paA_map {n : Nat} {k v : PaTy} {h : Hints} :
    run paArti (n + 1) (.ty (.map k v)) h =
      (do let k ← run paArti n (.ty k) h; let v ← run paArti n (.ty v) h
          return .map k v {}) := by
  paDispatchA; rfl

theorem paS_struct {n : Nat} {nm : Str} {fs : List (Str × Ty)} {m : Meta} {h : Hints} :
    run paSys (n + 1) (.struct nm fs m) h =
      (do let fs ← convertFields (fieldToSystem (run paSys n) h) fs
          return .ty (.struct fs)) := by
  paDispatchS; rfl

theorem paA_struct {n : Nat} {fs : List (Str × (PaTy × Bool))} {h : Hints} :
    run paArti (n + 1) (.ty (.struct fs)) h = structA (run paArti n) h fs := by
  paDispatchA; rfl

theorem paS_collection {n : Nat} {nm nm' : Str} {fs : List (Str × Ty)} {p c : List Str} {m m' : Meta}
    {h : Hints} : run paSys (n + 1) (.collection nm (.struct nm' fs m') p c m) h =
      (do let fs ← convertFields (fieldToSystem (run paSys n) h) fs
          return .schema fs [(metaKey, Json.write Json.python (collectionDoc nm p c))]) := by
  paDispatchS; rfl

theorem paA_schema {n : Nat} {fs : List (Str × (PaTy × Bool))} {text : Str} {h : Hints} :
    run paArti (n + 1) (.schema fs [(metaKey, text)]) h =
      (do let (name, p, c) ← collectionKwargs text
          let e ← structA (run paArti n) h fs
          mkCollection name e p c {}) := by
  paDispatchA; rfl

theorem paA_schema_none {n : Nat} {fs : List (Str × (PaTy × Bool))} {metadata : PyDict Str Str}
    {h : Hints} (hm : metadata.get? metaKey = none) :
    run paArti (n + 1) (.schema fs metadata) h =
      (do let e ← structA (run paArti n) h fs
          mkCollection anon e [] [] {}) := by
  have : run paArti (n + 1) (.schema fs metadata) h =
      (do let (name, p, c) ← match metadata.get? metaKey with
            | some text => collectionKwargs text
            | none => .ok (anon, [], [])
          let e ← structA (run paArti n) h fs
          mkCollection name e p c {}) := by
    paDispatchA; rfl
  rw [this, hm]
  rfl

/-! ## The metadata of collections -/

theorem strTuple_map (p : List Str) : strTuple (p.map .str) = .ok p := by
  induction p with
  | nil => rfl
  | cons x p ih => simp [strTuple, ih, bind, Except.bind, pure, Except.pure]

theorem okItems_strs (p : List Str) : Json.OkItems (p.map .str) := by
  induction p with
  | nil => trivial
  | cons x p ih => exact ⟨trivial, ih⟩

theorem collectionKwargs_write (nm : Str) (p c : List Str) :
    collectionKwargs (Json.write Json.python (collectionDoc nm p c)) = .ok (nm, p, c) := by
  unfold collectionKwargs
  rw [Json.loads_write Json.python_ok]
  · simp [collectionDoc, strTuple_map, bind, Except.bind, pure, Except.pure]
  · simp only [collectionDoc, Json.Ok, Json.OkFields]
    exact ⟨trivial, okItems_strs p, okItems_strs c, trivial⟩

/-! ## Round trip -/

theorem arrowForget_nullable {t : Ty} (h : ArrowData t) : (arrowForget t).nullable = false := by
  cases t <;> simp_all [ArrowData, arrowForget, Ty.nullable, Ty.info]

theorem arrowFields_mem {fs : List (Str × Ty)} (h : ArrowFields fs) {x : Str × Ty}
    (hx : x ∈ fs) : ArrowData x.2 := by
  induction fs with
  | nil => simp at hx
  | cons y fs ih =>
    obtain ⟨n, t⟩ := y
    rw [ArrowFields] at h
    rcases List.mem_cons.1 hx with hx | hx
    · subst hx; exact h.1
    · exact ih h.2 hx

/-- `t` has a data type that is converted back to `arrowForget t`, with any fuel that is at least the
size. -/
def RoundTrips (h : Hints) (t : Ty) : Prop :=
  ∃ p : PaTy, p.size ≤ t.size ∧ (∀ n, t.size ≤ n → run paSys n t h = .ok (.ty p)) ∧
    ∀ n, p.size ≤ n → run paArti n (.ty p) h = .ok (arrowForget t)

theorem fields_roundTrip {h : Hints} : ∀ {fs : List (Str × Ty)}, ArrowFields fs →
    (∀ x ∈ fs, RoundTrips h x.2) →
    ∃ ps : List (Str × (PaTy × Bool)), PaTy.sizes ps ≤ Ty.sizes fs ∧
      (∀ n, Ty.sizes fs ≤ n → convertFields (fieldToSystem (run paSys n) h) fs = .ok ps) ∧
      ∀ n, PaTy.sizes ps ≤ n →
        convertFields (fieldToArtigraph (run paArti n) h) ps = .ok (arrowForgetFields fs)
  | [], _, _ => ⟨[], Nat.le_refl _, fun _ _ => rfl, fun _ _ => rfl⟩
  | (nm, t) :: fs, ha, hr => by
    rw [ArrowFields] at ha
    obtain ⟨ps, h1, h2, h3⟩ := fields_roundTrip ha.2 fun x hx => hr x (List.mem_cons_of_mem _ hx)
    obtain ⟨p, g1, g2, g3⟩ := hr (nm, t) List.mem_cons_self
    simp only at g1 g2 g3
    refine ⟨(nm, (p, t.nullable)) :: ps, by simp only [PaTy.sizes, Ty.sizes]; omega, ?_, ?_⟩
    · intro n hn
      simp only [Ty.sizes] at hn
      rw [convertFields, h2 n (by omega), fieldToSystem, g2 n (by omega)]
      rfl
    · intro n hn
      simp only [PaTy.sizes] at hn
      rw [convertFields, h3 n (by omega), fieldToArtigraph, g3 n (by omega), arrowForgetFields]
      have hnl := arrowForget_nullable ha.1
      cases hb : t.nullable with
      | true =>
        simp [bind, Except.bind, pure, Except.pure, hnl]
      | false =>
        simp [bind, Except.bind, pure, Except.pure, hnl, setNullable_self hnl]

theorem paSize_pos (p : PaTy) : 0 < p.size := by cases p <;> simp [PaTy.size] <;> omega

theorem unit_prec (p : Prec) : unitToPrecision (precisionToUnit p) = p := by cases p <;> rfl

theorem data_roundTrip {h : Hints} : ∀ (N : Nat) (t : Ty), t.size ≤ N → ArrowData t → RoundTrips h t
  | 0, t, hN, _ => absurd (size_pos t) (by omega)
  | N + 1, t, hN, ha => by
    have leaf : ∀ p : PaTy, p.size = 1 → (∀ n, run paSys (n + 1) t h = .ok (.ty p)) →
        (∀ n, run paArti (n + 1) (.ty p) h = .ok (arrowForget t)) → RoundTrips h t := by
      intro p hp h1 h2
      have ht := size_pos t
      refine ⟨p, by omega, fun n hn => ?_, fun n hn => ?_⟩
      · obtain ⟨n, rfl⟩ : ∃ m, n = m + 1 := ⟨n - 1, by omega⟩
        exact h1 n
      · obtain ⟨n, rfl⟩ : ∃ m, n = m + 1 := ⟨n - 1, by omega⟩
        exact h2 n
    cases t with
    | scalar s m =>
      refine leaf (.prim (scalarPa s)) rfl (fun n => paS_scalar) fun n => ?_
      rw [paA_scalar, arrowForget]
    | binary s m =>
      cases s with
      | none => exact leaf .binary rfl (fun n => paS_binary_none) fun n => by rw [paA_binary, arrowForget]
      | some i =>
        simp only [ArrowData] at ha
        obtain ⟨w, rfl⟩ := Int.eq_ofNat_of_zero_le (ha i rfl)
        exact leaf (.fixedBinary w) rfl (fun n => paS_binary_some) fun n => by
          rw [paA_fixedBinary, arrowForget]; rfl
    | dateTime p m =>
      exact leaf _ rfl (fun n => paS_dateTime) fun n => by rw [paA_dateTime, unit_prec, arrowForget]
    | time p m =>
      exact leaf (timePa p) (by cases p <;> rfl) (fun n => paS_time) fun n => by rw [paA_time, arrowForget]
    | timestamp p m =>
      refine leaf _ rfl (fun n => paS_timestamp) fun n => ?_
      rw [paA_timestamp, if_pos (by rfl), unit_prec, arrowForget]
    | list e m =>
      simp only [Ty.size] at hN
      simp only [ArrowData] at ha
      obtain ⟨p, g1, g2, g3⟩ := data_roundTrip (h := h) N e (by omega) ha
      refine ⟨.list p, by simp only [PaTy.size, Ty.size]; omega, fun n hn => ?_, fun n hn => ?_⟩
      · simp only [Ty.size] at hn
        obtain ⟨n, rfl⟩ : ∃ m, n = m + 1 := ⟨n - 1, by omega⟩
        rw [paS_list, g2 n (by omega)]; rfl
      · simp only [PaTy.size] at hn
        obtain ⟨n, rfl⟩ : ∃ m, n = m + 1 := ⟨n - 1, by omega⟩
        rw [paA_list, g3 n (by omega), arrowForget]; rfl
    | map k v m =>
      simp only [Ty.size] at hN
      simp only [ArrowData] at ha
      obtain ⟨p, g1, g2, g3⟩ := data_roundTrip (h := h) N k (by omega) ha.1
      obtain ⟨q, k1, k2, k3⟩ := data_roundTrip (h := h) N v (by omega) ha.2
      refine ⟨.map p q, by simp only [PaTy.size, Ty.size]; omega, fun n hn => ?_, fun n hn => ?_⟩
      · simp only [Ty.size] at hn
        obtain ⟨n, rfl⟩ : ∃ m, n = m + 1 := ⟨n - 1, by omega⟩
        rw [paS_map, g2 n (by omega), k2 n (by omega)]; rfl
      · simp only [PaTy.size] at hn
        obtain ⟨n, rfl⟩ : ∃ m, n = m + 1 := ⟨n - 1, by omega⟩
        rw [paA_map, g3 n (by omega), k3 n (by omega), arrowForget]; rfl
    | struct nm fs m =>
      simp only [Ty.size] at hN
      simp only [ArrowData] at ha
      obtain ⟨ps, g1, g2, g3⟩ := fields_roundTrip (h := h) ha fun x hx =>
        data_roundTrip N x.2 (by have := mem_sizes hx; omega) (arrowFields_mem ha hx)
      refine ⟨.struct ps, by simp only [PaTy.size, Ty.size]; omega, fun n hn => ?_, fun n hn => ?_⟩
      · simp only [Ty.size] at hn
        obtain ⟨n, rfl⟩ : ∃ m, n = m + 1 := ⟨n - 1, by omega⟩
        rw [paS_struct, g2 n (by omega)]; rfl
      · simp only [PaTy.size] at hn
        obtain ⟨n, rfl⟩ : ∃ m, n = m + 1 := ⟨n - 1, by omega⟩
        rw [paA_struct, structA, g3 n (by omega), arrowForget]; rfl
    | geography f s m => exact absurd ha (by simp [ArrowData])
    | enum n t i m => exact absurd ha (by simp [ArrowData])
    | set e m => exact absurd ha (by simp [ArrowData])
    | collection n e p c m => exact absurd ha (by simp [ArrowData])

theorem forgetFields_names (fs : List (Str × Ty)) :
    (arrowForgetFields fs).map Prod.fst = fs.map Prod.fst := by
  induction fs with
  | nil => rfl
  | cons x fs ih => obtain ⟨n, t⟩ := x; simp [arrowForgetFields, ih]

theorem mkCollection_ok {nm nm' : Str} {fs : List (Str × Ty)} {p c : List Str} {m m' : Meta}
    (hp : ∀ x ∈ p, x ∈ fs.map Prod.fst) (hc : ∀ x ∈ c, x ∈ fs.map Prod.fst) (hd : ∀ x ∈ c, x ∉ p) :
    mkCollection nm (.struct nm' fs m') p c m = .ok (.collection nm (.struct nm' fs m') p c m) := by
  have h1 : p.all (fun r => (fs.map Prod.fst).contains r) = true := by
    simpa using fun x hx => by simpa using hp x hx
  have h2 : c.all (fun r => (fs.map Prod.fst).contains r) = true := by
    simpa using fun x hx => by simpa using hc x hx
  have h3 : c.any (fun r => p.contains r) = false := by
    simpa using hd
  simp only [mkCollection, h1, h2, h3, if_true]
  rfl

theorem collection_roundTrip {h : Hints} {nm nm' : Str} {fs : List (Str × Ty)} {p c : List Str}
    {m m' : Meta} (ha : ArrowFields fs) (hp : ∀ x ∈ p, x ∈ fs.map Prod.fst)
    (hc : ∀ x ∈ c, x ∈ fs.map Prod.fst) (hd : ∀ x ∈ c, x ∉ p) :
    ∃ o : PaObj, run paSys (Ty.collection nm (.struct nm' fs m') p c m).size
        (.collection nm (.struct nm' fs m') p c m) h = .ok o ∧
      run paArti o.size o h = .ok (arrowForget (.collection nm (.struct nm' fs m') p c m)) := by
  obtain ⟨ps, g1, g2, g3⟩ := fields_roundTrip (h := h) ha fun x hx =>
    data_roundTrip _ x.2 (Nat.le_refl _) (arrowFields_mem ha hx)
  refine ⟨.schema ps [(metaKey, Json.write Json.python (collectionDoc nm p c))], ?_, ?_⟩
  · simp only [Ty.size]
    rw [Nat.add_comm, paS_collection, g2 _ (by omega)]
    rfl
  · rw [show PaObj.size (.schema ps [(metaKey, Json.write Json.python (collectionDoc nm p c))]) =
      PaTy.sizes ps + 1 from by simp [PaObj.size, Nat.add_comm], paA_schema, collectionKwargs_write]
    simp only [bind, Except.bind, structA, g3 _ (Nat.le_refl _), pure, Except.pure]
    rw [mkCollection_ok (by rwa [forgetFields_names]) (by rwa [forgetFields_names]) hd]
    simp only [arrowForget]

/-! ## The types that Arrow carries completely -/

theorem meta_eq {m : Meta} (hd : m.description = none) (hn : m.nullable = false) : m = {} := by
  cases m; simp_all

theorem setNullable_meta {t : Ty} (hd : t.info.description = none) :
    t.setNullable false = t.withMeta {} := by
  simp only [Ty.setNullable, hd]

theorem exact_desc {t : Ty} (h : ArrowExact t) : t.info.description = none := by
  cases t <;> simp_all [ArrowExact, Ty.info]

mutual
theorem forget_exact (t : Ty) (h : ArrowExact t) : arrowForget t = t.setNullable false := by
  rw [setNullable_meta (exact_desc h)]
  cases t with
  | scalar s m => rfl
  | binary s m => rfl
  | dateTime s m => rfl
  | time s m => rfl
  | timestamp s m => rfl
  | list e m =>
    simp only [ArrowExact] at h
    rw [arrowForget, forget_exact e h.1.1, setNullable_self h.1.2]; rfl
  | map k v m =>
    simp only [ArrowExact] at h
    rw [arrowForget, forget_exact k h.1.1, setNullable_self h.1.2,
      forget_exact v h.2.1.1, setNullable_self h.2.1.2]; rfl
  | struct n fs m =>
    simp only [ArrowExact] at h
    rw [arrowForget, forgetFields_exact fs h.2.1, h.1]; rfl
  | collection n e p c m =>
    simp only [ArrowExact] at h
    rw [arrowForget, forget_exact e h.1.1, setNullable_self h.1.2]; rfl
  | _ => exact absurd h (by simp [ArrowExact])
theorem forgetFields_exact (fs : List (Str × Ty)) (h : ArrowExactFields fs) :
    arrowForgetFields fs = fs := by
  match fs, h with
  | [], _ => rfl
  | (n, t) :: fs, h =>
    simp only [ArrowExactFields] at h
    rw [arrowForgetFields, forget_exact t h.1, forgetFields_exact fs h.2, setNullable_setNullable,
      setNullable_self rfl]
end

theorem info_setNullable (t : Ty) (b : Bool) : (t.setNullable b).info.description = t.info.description := by
  cases t <;> rfl

theorem exact_setNullable {t : Ty} {b : Bool} (h : ArrowExact t) : ArrowExact (t.setNullable b) := by
  cases t <;> simp_all [Ty.setNullable, Ty.withMeta, Ty.info, ArrowExact]

mutual
theorem exact_forget (t : Ty) (h : ArrowData t) : ArrowExact (arrowForget t) := by
  cases t with
  | list e m =>
    simp only [ArrowData] at h
    exact ⟨⟨exact_forget e h, arrowForget_nullable h⟩, rfl⟩
  | map k v m =>
    simp only [ArrowData] at h
    exact ⟨⟨exact_forget k h.1, arrowForget_nullable h.1⟩, ⟨exact_forget v h.2, arrowForget_nullable h.2⟩, rfl⟩
  | struct n fs m =>
    simp only [ArrowData] at h
    exact ⟨rfl, exactFields_forget fs h, rfl⟩
  | geography f s m => exact absurd h (by simp [ArrowData])
  | enum n t i m => exact absurd h (by simp [ArrowData])
  | set e m => exact absurd h (by simp [ArrowData])
  | collection n e p c m => exact absurd h (by simp [ArrowData])
  | _ => simp [arrowForget, ArrowExact]
theorem exactFields_forget (fs : List (Str × Ty)) (h : ArrowFields fs) :
    ArrowExactFields (arrowForgetFields fs) := by
  match fs, h with
  | [], _ => trivial
  | (n, t) :: fs, h =>
    simp only [ArrowFields] at h
    exact ⟨exact_setNullable (exact_forget t h.1), exactFields_forget fs h.2⟩
end

end Typ
end Arti
