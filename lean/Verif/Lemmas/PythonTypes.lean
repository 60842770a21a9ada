import Verif.Spec.PythonTypes
import Verif.Lemmas.Dispatch
import Verif.Lemmas.Hints

/-!
# Lemmas: conversions of the Python type system
-/

namespace Arti
namespace Typ
open TH Spec
variable (ids : Ids)

/-! ## Dispatch -/


@[simp] theorem scalarS_priority (k i s p) : (scalarS k i s p).priority = p := rfl
@[simp] theorem containerS_priority (k i s p) : (containerS ids k i s p).priority = p := rfl
@[simp] theorem pyNoneS_priority : pyNoneS.priority = 0 := rfl
@[simp] theorem pyDatetimeS_priority : pyDatetimeS.priority = 1 := rfl
@[simp] theorem pyListS_priority : (pyListS ids).priority = 1 := rfl
@[simp] theorem pyTupleS_priority : (pyTupleS ids).priority = 0 := rfl
@[simp] theorem pyFrozensetS_priority : (pyFrozensetS ids).priority = 0 := rfl
@[simp] theorem pySetS_priority : (pySetS ids).priority = 1 := rfl
@[simp] theorem pyLiteralS_priority : (pyLiteralS ids).priority = 0 := rfl
@[simp] theorem pyMapS_priority : (pyMapS ids).priority = 0 := rfl
@[simp] theorem pyOptionalS_priority : (pyOptionalS ids).priority = int1e9 := rfl
@[simp] theorem pyStructS_priority : (pyStructS ids).priority = 0 := rfl
@[simp] theorem scalarA_priority (k i s p) : (scalarA k i s p).priority = p := rfl
@[simp] theorem pyNoneA_priority : pyNoneA.priority = 0 := rfl
@[simp] theorem pyDatetimeA_priority : pyDatetimeA.priority = 1 := rfl
@[simp] theorem pyListA_priority : pyListA.priority = 1 := rfl
@[simp] theorem pyTupleA_priority : pyTupleA.priority = 0 := rfl
@[simp] theorem pyFrozensetA_priority : pyFrozensetA.priority = 0 := rfl
@[simp] theorem pySetA_priority : pySetA.priority = 1 := rfl
@[simp] theorem pyLiteralA_priority : (pyLiteralA ids).priority = 0 := rfl
@[simp] theorem pyMapA_priority : pyMapA.priority = 0 := rfl
@[simp] theorem pyOptionalA_priority : (pyOptionalA ids).priority = int1e9 := rfl
@[simp] theorem pyStructA_priority : pyStructA.priority = 0 := rfl

/-- The adapters in the order in which they are tried. -/
theorem sortedS : sortByPriority (((pyAdaptersS ids).map fun a => (a.key, a)).map Prod.snd) =
    [pyOptionalS ids, scalarS "pythonBoolean" (Ty.isScalar .boolean) (.cls .bool) 1000,
     scalarS "pythonFloat64" (Ty.isScalar .float64) (.cls .float) 64,
     scalarS "pythonInt64" (Ty.isScalar .int64) (.cls .int) 64,
     scalarS "pythonFloat32" (Ty.isScalar .float32) (.cls .float) 32,
     scalarS "pythonInt32" (Ty.isScalar .int32) (.cls .int) 32,
     scalarS "pythonFloat16" (Ty.isScalar .float16) (.cls .float) 16,
     scalarS "pythonInt16" (Ty.isScalar .int16) (.cls .int) 16,
     scalarS "pythonInt8" (Ty.isScalar .int8) (.cls .int) 8,
     pyDatetimeS, pyListS ids, pySetS ids,
     scalarS "pythonBinary" isBinary (.cls .bytes) 0,
     scalarS "pythonDate" (Ty.isScalar .date) (.cls .date) 0,
     scalarS "pythonString" (Ty.isScalar .string) (.cls .str) 0,
     pyNoneS, pyTupleS ids, pyFrozensetS ids, pyLiteralS ids, pyMapS ids, pyStructS ids] := by
  simp [pyAdaptersS, scalarAdapters, sortByPriority, insertByPriority, int1e9]

theorem sortedA : sortByPriority (((pyAdaptersA ids).map fun a => (a.key, a)).map Prod.snd) =
    [pyOptionalA ids, scalarA "pythonBoolean" (.scalar .boolean {}) .bool 1000,
     scalarA "pythonFloat64" (.scalar .float64 {}) .float 64,
     scalarA "pythonInt64" (.scalar .int64 {}) .int 64,
     scalarA "pythonFloat32" (.scalar .float32 {}) .float 32,
     scalarA "pythonInt32" (.scalar .int32 {}) .int 32,
     scalarA "pythonFloat16" (.scalar .float16 {}) .float 16,
     scalarA "pythonInt16" (.scalar .int16 {}) .int 16,
     scalarA "pythonInt8" (.scalar .int8 {}) .int 8,
     pyDatetimeA, pyListA, pySetA,
     scalarA "pythonBinary" (.binary none {}) .bytes 0,
     scalarA "pythonDate" (.scalar .date {}) .date 0,
     scalarA "pythonString" (.scalar .string {}) .str 0,
     pyNoneA, pyTupleA, pyFrozensetA, pyLiteralA ids, pyMapA, pyStructA] := by
  simp [pyAdaptersA, scalarAdapters, sortByPriority, insertByPriority, int1e9]

theorem run_S (n : Nat) (t : Ty) (h : Hints) : run (pySys ids) (n + 1) t h =
    dispatched (run (pySys ids) n)
      (sortByPriority (((pyAdaptersS ids).map fun a => (a.key, a)).map Prod.snd)) t h :=
  run_leaf _ _ _ _ _

theorem run_A (n : Nat) (x : PyHint) (h : Hints) : run (pyArti ids) (n + 1) x h =
    dispatched (run (pyArti ids) n)
      (sortByPriority (((pyAdaptersA ids).map fun a => (a.key, a)).map Prod.snd)) x h :=
  run_leaf _ _ _ _ _

/-- A nullable type is converted by `PyOptional`. -/
theorem run_S_nullable {n : Nat} {t : Ty} {h : Hints} (hn : t.nullable = true) :
    run (pySys ids) (n + 1) t h = (do
      let a ← run (pySys ids) n (t.setNullable false) h
      return mkOptional ids a) := by
  rw [run_S, sortedS]
  rw [dispatched_true]
  · exact rfl
  · exact congrArg Except.ok hn

section
variable {ids}

macro "dispatchS" : tactic => `(tactic| (
  rw [run_S, sortedS]
  rw [dispatched_false (a := pyOptionalS _)]
  on_goal 2 => exact congrArg Except.ok (by assumption)
  repeat (rw [dispatched_false]; on_goal 2 => exact rfl)
  rw [dispatched_true]
  on_goal 2 => exact rfl
  exact rfl))

theorem S_list {n : Nat} {e : Ty} {m : Meta} {h : Hints} (hn : m.nullable = false) :
    run (pySys ids) (n + 1) (.list e m) h =
      (do let a ← run (pySys ids) n e h; return .gen ids.new .list [a]) := by dispatchS

theorem S_collection {n : Nat} {nm : Str} {e : Ty} {p c : List Str} {m : Meta} {h : Hints}
    (hn : m.nullable = false) :
    run (pySys ids) (n + 1) (.collection nm e p c m) h =
      (do let a ← run (pySys ids) n e h; return .gen ids.new .list [a]) := by dispatchS

theorem S_set {n : Nat} {e : Ty} {m : Meta} {h : Hints} (hn : m.nullable = false) :
    run (pySys ids) (n + 1) (.set e m) h =
      (do let a ← run (pySys ids) n e h; return .gen ids.new .set [a]) := by dispatchS

theorem S_map {n : Nat} {k v : Ty} {m : Meta} {h : Hints} (hn : m.nullable = false) :
    run (pySys ids) (n + 1) (.map k v m) h =
      (do let a ← run (pySys ids) n k h; let b ← run (pySys ids) n v h
          return .gen ids.new .dict [a, b]) := by dispatchS

theorem S_struct {n : Nat} {nm : Str} {fs : List (Str × Ty)} {m : Meta} {h : Hints}
    (hn : m.nullable = false) :
    run (pySys ids) (n + 1) (.struct nm fs m) h =
      (do let fs ← convertFields (fun f => run (pySys ids) n f h) fs
          return .tdict ids.new nm (fs.map fun (n, a) => (n, fieldHint a))) := by dispatchS

theorem S_enum {n : Nat} {nm : Str} {t : Ty} {items : List Lit} {m : Meta} {h : Hints}
    (hn : m.nullable = false) :
    run (pySys ids) (n + 1) (.enum nm t items m) h = .ok (.literal (ids.lit items) items) := by
  dispatchS

theorem S_binary {n : Nat} {s : Option Int} {m : Meta} {h : Hints} (hn : m.nullable = false) :
    run (pySys ids) (n + 1) (.binary s m) h = .ok (.cls .bytes) := by dispatchS

theorem S_timestamp {n : Nat} {p : Prec} {m : Meta} {h : Hints} (hn : m.nullable = false) :
    run (pySys ids) (n + 1) (.timestamp p m) h = .ok (.cls .datetime) := by dispatchS

/-- The class, or `None`, of a scalar. -/
def scalarHint : Scalar → PyHint
  | .boolean => .cls .bool
  | .date => .cls .date
  | .null => .none
  | .string => .cls .str
  | .float16 => .cls .float
  | .float32 => .cls .float
  | .float64 => .cls .float
  | _ => .cls .int

theorem S_scalar {n : Nat} {s : Scalar} {m : Meta} {h : Hints} (hn : m.nullable = false)
    (hs : hasPythonScalar s = true) :
    run (pySys ids) (n + 1) (.scalar s m) h = .ok (scalarHint s) := by
  cases s <;> simp [hasPythonScalar] at hs <;> simp only [scalarHint] <;> dispatchS

end

/-! ## Types to hints -/

mutual
/-- The hint of a type, apart from its own `nullable`. -/
def baseHint : Ty → PyHint
  | .scalar s _ => scalarHint s
  | .binary _ _ => .cls .bytes
  | .timestamp _ _ => .cls .datetime
  | .enum _ _ items _ => .literal (ids.lit items) items
  | .list e _ => .gen ids.new .list [optional e.nullable (baseHint e)]
  | .collection _ e _ _ _ => .gen ids.new .list [optional e.nullable (baseHint e)]
  | .set e _ => .gen ids.new .set [optional e.nullable (baseHint e)]
  | .map k v _ =>
      .gen ids.new .dict [optional k.nullable (baseHint k), optional v.nullable (baseHint v)]
  | .struct n fs _ => .tdict ids.new n (fieldHints fs)
  | _ => .none
def fieldHints : List (Str × Ty) → List (Str × PyHint)
  | [] => []
  | (n, t) :: fs => (n, optional t.nullable (baseHint t)) :: fieldHints fs
def optional (b : Bool) (h : PyHint) : PyHint := if b then mkOptional ids h else h
end

/-- The hint of a type. -/
def hintOf (t : Ty) : PyHint := optional ids t.nullable (baseHint ids t)

section
variable {ids}

@[simp] theorem baseHint_setNullable (t : Ty) (b : Bool) :
    baseHint ids (t.setNullable b) = baseHint ids t := by
  cases t <;> simp [Ty.setNullable, Ty.withMeta, baseHint]
theorem supported_setNullable {t : Ty} (h : Supported t) : Supported (t.setNullable false) := by
  cases t <;> simp_all [Ty.setNullable, Ty.withMeta, Supported]

/-- Supported types have a base hint other than `None`, except `Null`. -/
theorem baseHint_ne_none {t : Ty} (h : Supported t) (hn : t.isScalar .null = false) :
    baseHint ids t ≠ .none ∧ baseHint ids t ≠ .cls .noneType := by
  cases t with
  | scalar s m =>
    cases s <;> simp_all [baseHint, scalarHint, Ty.isScalar]
  | _ => simp_all [baseHint, Supported]

theorem fieldHint_hintOf {t : Ty} (h : Supported t) (hn : t.isScalar .null = false) :
    fieldHint (hintOf ids t) = hintOf ids t := by
  have hb := baseHint_ne_none (ids := ids) h hn
  unfold hintOf optional
  split
  · unfold mkOptional
    split <;> simp_all [fieldHint]
  · generalize baseHint ids t = b at *
    cases b <;> simp_all [fieldHint]

theorem convertFields_S {n : Nat} {h : Hints} : ∀ {fs : List (Str × Ty)}, SupportedFields fs →
    (∀ x ∈ fs, run (pySys ids) n x.2 h = .ok (hintOf ids x.2)) →
    (do let fs ← convertFields (fun f => run (pySys ids) n f h) fs
        return fs.map fun (n, a) => (n, fieldHint a)) = Except.ok (fieldHints ids fs)
  | [], _, _ => rfl
  | (nm, t) :: fs, hs, hr => by
    rw [SupportedFields] at hs
    have ih := convertFields_S hs.2 fun x hx => hr x (List.mem_cons_of_mem _ hx)
    have h1 := hr (nm, t) List.mem_cons_self
    simp only at h1
    simp only [convertFields, h1, fieldHints]
    have hf := fieldHint_hintOf (ids := ids) hs.1.1 hs.1.2
    revert ih
    generalize convertFields _ fs = r
    intro ih
    cases r with
    | error e => exact absurd ih (by simp [bind, Except.bind])
    | ok r =>
      simp only [bind, Except.bind, pure, Except.pure, Except.ok.injEq] at ih ⊢
      rw [List.map_cons, hf, ih]
      rfl

theorem supportedFields_mem {fs : List (Str × Ty)} (h : SupportedFields fs) {x : Str × Ty}
    (hx : x ∈ fs) : Supported x.2 ∧ x.2.isScalar .null = false := by
  induction fs with
  | nil => simp at hx
  | cons y fs ih =>
    obtain ⟨n, t⟩ := y
    rw [SupportedFields] at h
    rcases List.mem_cons.1 hx with hx | hx
    · subst hx; exact h.1
    · exact ih h.2 hx

theorem toSystem_base {t : Ty} {h : Hints} (hs : Supported t) (hn : t.nullable = false)
    (ih : ∀ e : Ty, e.size < t.size → Supported e → ∀ n, 2 * e.size ≤ n →
      run (pySys ids) n e h = .ok (hintOf ids e)) :
    ∀ n, 2 * t.size - 1 ≤ n → run (pySys ids) n t h = .ok (baseHint ids t) := by
  intro n hle
  have hp := size_pos t
  obtain ⟨n, rfl⟩ : ∃ m, n = m + 1 := ⟨n - 1, by omega⟩
  cases t with
  | scalar s m => exact S_scalar hn hs.1
  | binary s m => exact S_binary hn
  | timestamp p m => exact S_timestamp hn
  | enum nm t items m => exact S_enum hn
  | list e m =>
    simp only [Ty.size] at hle ih
    rw [S_list (m := m) hn, ih e (by omega) hs n (by omega)]
    rfl
  | collection nm e p c m =>
    simp only [Ty.size] at hle ih
    rw [S_collection (m := m) hn, ih e (by omega) hs n (by omega)]
    rfl
  | set e m =>
    simp only [Ty.size] at hle ih
    rw [S_set (m := m) hn, ih e (by omega) hs n (by omega)]
    rfl
  | map k v m =>
    simp only [Ty.size] at hle ih
    rw [S_map (m := m) hn, ih k (by omega) hs.1 n (by omega), ih v (by omega) hs.2 n (by omega)]
    rfl
  | struct nm fs m =>
    simp only [Ty.size] at hle ih
    have hs' : SupportedFields fs := by simpa only [Supported] using hs
    have hc := convertFields_S (n := n) (h := h) (ids := ids) hs' fun x hx =>
      ih x.2 (by have := mem_sizes hx; omega) (supportedFields_mem hs' hx).1 n
        (by have := mem_sizes hx; omega)
    rw [S_struct (m := m) hn]
    revert hc
    generalize convertFields _ fs = r
    intro hc
    cases r with
    | error e => exact absurd hc (by simp [bind, Except.bind])
    | ok r =>
      simp only [bind, Except.bind, pure, Except.pure, Except.ok.injEq] at hc ⊢
      rw [hc]
      rfl
  | geography f s m => exact absurd hs (by simp [Supported])
  | dateTime p m => exact absurd hs (by simp [Supported])
  | time p m => exact absurd hs (by simp [Supported])

/-- Every supported type has the hint `hintOf`. -/
theorem toSystem {h : Hints} : ∀ (N : Nat) (t : Ty), t.size ≤ N → Supported t →
    ∀ n, 2 * t.size ≤ n → run (pySys ids) n t h = .ok (hintOf ids t)
  | 0, t, hN, _, _, _ => absurd (size_pos t) (by omega)
  | N + 1, t, hN, hs, n, hle => by
    have ih : ∀ e : Ty, e.size < t.size → Supported e → ∀ n, 2 * e.size ≤ n →
        run (pySys ids) n e h = .ok (hintOf ids e) :=
      fun e he hse n hn => toSystem N e (by omega) hse n hn
    cases hb : t.nullable with
    | false =>
      rw [toSystem_base hs hb ih n (by omega), hintOf, hb]
      rfl
    | true =>
      have hp := size_pos t
      obtain ⟨n, rfl⟩ : ∃ m, n = m + 1 := ⟨n - 1, by omega⟩
      rw [run_S_nullable ids hb, toSystem_base (supported_setNullable hs) (by simp) (by simpa using ih) n
        (by simp; omega), hintOf, hb, baseHint_setNullable]
      rfl


/-! ## Hints to types -/

theorem lenient_cls (c d : PyCls) :
    lenient PyCls.hier (.cls c) (.cls d) = .ok (decide (d ∈ PyCls.mro c)) := by
  rw [lenient, checkIssubclass]
  rfl

theorem lenient_gen (i : Nat) (o : PyCls) (as : List PyHint) (d : PyCls) :
    lenient PyCls.hier (.gen i o as) (.cls d) = .ok (decide (d ∈ PyCls.mro o)) := by
  rw [lenient, checkIssubclass]
  rfl

theorem lenient_tdict (i : Nat) (n : Str) (fs : List (Str × PyHint)) (d : PyCls) :
    lenient PyCls.hier (.tdict i n fs) (.cls d) = .ok (decide (d ∈ PyCls.mro .dict)) := by
  rw [lenient, checkIssubclass]
  rfl

theorem lenient_other {h : PyHint} (hc : classLike h = false) (d : PyCls) :
    lenient PyCls.hier h (.cls d) = .ok false := by
  rw [lenient, hc]
  rfl

theorem originIs_gen (i : Nat) (o : PyCls) (as : List PyHint) (d : PyCls) :
    originIs (.gen i o as) d = .ok (decide (d ∈ PyCls.mro o)) := lenient_cls o d

theorem tupleA_gen (i : Nat) (o : PyCls) (as : List PyHint) (h : Hints)
    (ho : decide (PyCls.tuple ∈ PyCls.mro o) = false) :
    pyTupleA.accepts (.gen i o as) h = .ok false := by
  show (do let b ← originIs (.gen i o as) .tuple; return b && (variadic (.gen i o as)).isSome) = _
  rw [originIs_gen, ho]
  rfl

theorem mapA_gen_false (i : Nat) (o : PyCls) (as : List PyHint) (h : Hints)
    (ho : decide (PyCls.dict ∈ PyCls.mro o) = false)
    (ho' : decide (PyCls.mapping ∈ PyCls.mro o) = false) :
    pyMapA.accepts (.gen i o as) h = .ok false := by
  show (do let b ← originIs (.gen i o as) .dict; if b then return true else originIs (.gen i o as) .mapping) = _
  rw [originIs_gen, originIs_gen, ho, ho']
  rfl

theorem mapA_gen_true (i : Nat) (as : List PyHint) (h : Hints) :
    pyMapA.accepts (.gen i .dict as) h = .ok true := by
  show (do let b ← originIs (.gen i .dict as) .dict; if b then return true else originIs (.gen i .dict as) .mapping) = _
  rw [originIs_gen]
  rfl

macro "acceptsA" : tactic => `(tactic| first
  | exact rfl
  | exact (lenient_cls _ _).trans rfl
  | exact (lenient_gen _ _ _ _).trans rfl
  | exact (lenient_tdict _ _ _ _).trans rfl
  | exact (lenient_other (by rfl) _).trans rfl
  | exact (originIs_gen _ _ _ _).trans rfl
  | exact tupleA_gen _ _ _ _ (by rfl)
  | exact mapA_gen_false _ _ _ _ (by rfl) (by rfl)
  | exact mapA_gen_true _ _ _)

macro "dispatchA" : tactic => `(tactic| (
  rw [run_A, sortedA]
  repeat (rw [dispatched_false]; on_goal 2 => acceptsA)
  rw [dispatched_true]
  on_goal 2 => acceptsA
  try exact rfl))

/-- The type of a class. -/
def classTy : PyCls → Ty
  | .bool => .scalar .boolean {}
  | .int => .scalar .int64 {}
  | .float => .scalar .float64 {}
  | .str => .scalar .string {}
  | .bytes => .binary none {}
  | .date => .scalar .date {}
  | _ => .timestamp .microsecond {}

theorem A_cls {n : Nat} {c : PyCls} {h : Hints}
    (hc : c ∈ [PyCls.bool, .int, .float, .str, .bytes, .date, .datetime]) :
    run (pyArti ids) (n + 1) (.cls c) h = .ok (classTy c) := by
  simp only [List.mem_cons, List.not_mem_nil, or_false] at hc
  rcases hc with rfl | rfl | rfl | rfl | rfl | rfl | rfl <;> dispatchA

theorem A_none {n : Nat} {h : Hints} :
    run (pyArti ids) (n + 1) .none h = .ok (.scalar .null {}) := by dispatchA

theorem A_list {n i : Nat} {a : PyHint} {h : Hints} :
    run (pyArti ids) (n + 1) (.gen i .list [a]) h =
      (do let t ← run (pyArti ids) n a h; return .list t {}) := by dispatchA

theorem A_set {n i : Nat} {a : PyHint} {h : Hints} :
    run (pyArti ids) (n + 1) (.gen i .set [a]) h =
      (do let t ← run (pyArti ids) n a h; return .set t {}) := by dispatchA

theorem A_map {n i : Nat} {a b : PyHint} {h : Hints} :
    run (pyArti ids) (n + 1) (.gen i .dict [a, b]) h =
      (do let k ← run (pyArti ids) n a h; let v ← run (pyArti ids) n b h
          return .map k v {}) := by dispatchA

theorem A_struct {n i : Nat} {nm : Str} {fs : List (Str × PyHint)} {h : Hints} :
    run (pyArti ids) (n + 1) (.tdict i nm fs) h =
      (do let fs ← convertFields (fun a => run (pyArti ids) n (strip (fieldHint a)) h) fs
          return .struct nm fs {}) := by dispatchA

theorem A_literal {n i : Nat} {items : List Lit} {h : Hints} :
    run (pyArti ids) (n + 1) (.literal i items) h =
      (pyLiteralA ids).convert (run (pyArti ids) n) (.literal i items) h := by
  rw [run_A, sortedA]
  repeat (rw [dispatched_false]; on_goal 2 => acceptsA)
  exact dispatched_true rfl

theorem A_optional {n i : Nat} {a : PyHint} {h : Hints} (ha : isSame a (.cls .noneType) = false) :
    run (pyArti ids) (n + 1) (.union i [a, .cls .noneType]) h =
      (do let t ← run (pyArti ids) n a h; return t.setNullable true) := by
  rw [run_A, sortedA, dispatched_true]
  · show (do let u ← mkUnion ids (([a, .cls .noneType] : List PyHint).filter fun a => !isSame a (.cls .noneType))
             let t ← run (pyArti ids) n u h; return t.setNullable true) = _
    simp [ha, isSame_refl, mkUnion, bind, Except.bind]
  · show Except.ok (isUnionHint (.union i [a, .cls .noneType] : PyHint) && ([a, .cls .noneType] : List PyHint).any (fun a => isSame a (.cls .noneType))) = _
    simp [isUnionHint, isSame_refl]

/-! ## Enums -/

theorem pyEq_of_cls {x y : Lit} (h : x.cls = y.cls) : Lit.pyEq x y = decide (x = y) := by
  cases x <;> cases y <;> simp_all [Lit.cls, Lit.pyEq]

theorem frozenset_of_nodup {c : PyCls} : ∀ {items : List Lit}, items.Nodup →
    (∀ x ∈ items, x.cls = c) → frozenset items = items
  | [], _, _ => rfl
  | x :: xs, hn, hc => by
    rw [List.nodup_cons] at hn
    have ih := frozenset_of_nodup hn.2 fun y hy => hc y (List.mem_cons_of_mem _ hy)
    rw [frozenset, ih, List.filter_eq_self.2]
    intro y hy
    have : x ≠ y := fun h => hn.1 (h ▸ hy)
    rw [pyEq_of_cls ((hc x List.mem_cons_self).trans (hc y (List.mem_cons_of_mem _ hy)).symm)]
    simpa using this

theorem mismatched_of_cls {c : PyCls} (hc : c ∈ PyCls.mro c) : ∀ {items : List Lit},
    (∀ x ∈ items, x.cls = c) → mismatched (.cls c) items = .ok []
  | [], _ => rfl
  | x :: xs, h => by
    have ih := mismatched_of_cls hc fun y hy => h y (List.mem_cons_of_mem _ hy)
    rw [mismatched, ih, h x List.mem_cons_self, lenient_cls]
    simp [hc, bind, Except.bind, pure, Except.pure]

theorem valueClass_mem {t : Ty} {c : PyCls} (h : valueClass t = some c) :
    c ∈ [PyCls.bool, .int, .float, .str, .bytes, .date, .datetime] := by
  cases t with
  | scalar s m => cases s <;> simp_all [valueClass]
  | _ => simp_all [valueClass]

theorem valueClass_widen {t : Ty} {c : PyCls} (h : valueClass t = some c) :
    (widen t).setNullable false = classTy c := by
  cases t with
  | scalar s m => cases s <;> simp [valueClass] at h <;> subst h <;> rfl
  | binary s m => simp [valueClass] at h; subst h; simp [widen, classTy, Ty.setNullable, Ty.withMeta, Ty.info, bareMeta]
  | timestamp s m => simp [valueClass] at h; subst h; simp [widen, classTy, Ty.setNullable, Ty.withMeta, Ty.info, bareMeta]
  | _ => simp [valueClass] at h

theorem pyToSystem_classTy {c : PyCls}
    (hc : c ∈ [PyCls.bool, .int, .float, .str, .bytes, .date, .datetime]) :
    pyToSystem ids (classTy c) = .ok (.cls c) := by
  simp only [List.mem_cons, List.not_mem_nil, or_false] at hc
  rcases hc with rfl | rfl | rfl | rfl | rfl | rfl | rfl <;>
    exact (toSystem _ _ (Nat.le_refl _) (by simp [classTy, Supported, hasPythonScalar]) _ (Nat.le_refl _))

theorem mkEnum_of {c : PyCls} (hc : c ∈ [PyCls.bool, .int, .float, .str, .bytes, .date, .datetime])
    {items : List Lit} (hne : items ≠ []) (hn : items.Nodup) (hi : ∀ x ∈ items, x.cls = c)
    (name : Str) (m : Meta) : mkEnum ids name (classTy c) items m = .ok (.enum name (classTy c) items m) := by
  have hr : c ∈ PyCls.mro c := by
    simp only [List.mem_cons, List.not_mem_nil, or_false] at hc
    rcases hc with rfl | rfl | rfl | rfl | rfl | rfl | rfl <;> decide
  have he : items.isEmpty = false := by cases items <;> simp_all
  unfold mkEnum
  rw [frozenset_of_nodup hn hi, pyToSystem_classTy hc]
  simp [he, bind, Except.bind, mismatched_of_cls hr hi, pure, Except.pure]

theorem A_enum {n i : Nat} {items : List Lit} {h : Hints} {c : PyCls}
    (hc : c ∈ [PyCls.bool, .int, .float, .str, .bytes, .date, .datetime])
    (hne : items ≠ []) (hn : items.Nodup) (hi : ∀ x ∈ items, x.cls = c) :
    run (pyArti ids) (n + 2) (.literal i items) h = .ok (.enum anon (classTy c) items {}) := by
  rw [A_literal]
  cases items with
  | nil => exact absurd rfl hne
  | cons x xs =>
    show (if xs.all (fun y => y.cls = x.cls) then do
        let t ← run (pyArti ids) (n + 1) (.cls x.cls) h
        mkEnum ids anon t (x :: xs) {}
      else .error .valueError) = _
    rw [hi x List.mem_cons_self, if_pos, A_cls hc]
    · exact mkEnum_of hc hne hn hi _ _
    · simpa using fun y hy => hi y (List.mem_cons_of_mem _ hy)

/-! ## The round trip -/

theorem strip_optional {b : Bool} {h : PyHint} (hh : strip h = h) :
    strip (optional ids b h) = optional ids b h := by
  unfold optional
  split
  · unfold mkOptional
    split
    · rfl
    · rfl
    · simp [strip, strips, hh]
  · exact hh

theorem strip_baseHint (t : Ty) : strip (baseHint ids t) = baseHint ids t := by
  cases t with
  | scalar s m => cases s <;> rfl
  | list e m => simp [baseHint, strip, strips, strip_optional (strip_baseHint e)]
  | collection n e p c m => simp [baseHint, strip, strips, strip_optional (strip_baseHint e)]
  | set e m => simp [baseHint, strip, strips, strip_optional (strip_baseHint e)]
  | map k v m =>
    simp [baseHint, strip, strips, strip_optional (strip_baseHint k),
      strip_optional (strip_baseHint v)]
  | _ => simp [baseHint, strip]

theorem strip_hintOf (t : Ty) : strip (hintOf ids t) = hintOf ids t := strip_optional (strip_baseHint t)

theorem widen_nullable (t : Ty) : (widen t).nullable = t.nullable := by
  cases t <;> simp [widen, Ty.nullable, Ty.info, bareMeta]

theorem hintSize_pos (h : PyHint) : 0 < hintSize h := by cases h <;> simp [hintSize] <;> omega

theorem mkOptional_of {h : PyHint} (h1 : h ≠ .none) (h2 : h ≠ .cls .noneType) :
    mkOptional ids h = .union (ids.opt h) [h, .cls .noneType] := by
  unfold mkOptional
  split <;> simp_all

theorem isSame_noneType {h : PyHint} (h2 : h ≠ .cls .noneType) :
    isSame h (.cls .noneType) = false := by
  rw [Bool.eq_false_iff]
  exact fun hc => h2 (isSame_cls.1 hc)

theorem mem_fieldHints {fs : List (Str × Ty)} {x : Str × Ty} (h : x ∈ fs) :
    hintSize (hintOf ids x.2) ≤ hintSizesF (fieldHints ids fs) := by
  induction fs with
  | nil => simp at h
  | cons y fs ih =>
    obtain ⟨n, t⟩ := y
    rcases List.mem_cons.1 h with h | h
    · subst h; simp [fieldHints, hintSizesF, hintOf]
    · have := ih h; simp only [fieldHints, hintSizesF]; omega

theorem convertFields_A {n : Nat} {h : Hints} : ∀ {fs : List (Str × Ty)}, SupportedFields fs →
    (∀ x ∈ fs, run (pyArti ids) n (hintOf ids x.2) h = .ok (widen x.2)) →
    convertFields (fun a => run (pyArti ids) n (strip (fieldHint a)) h) (fieldHints ids fs) =
      .ok (widenFields fs)
  | [], _, _ => rfl
  | (nm, t) :: fs, hs, hr => by
    rw [SupportedFields] at hs
    have ih := convertFields_A hs.2 fun x hx => hr x (List.mem_cons_of_mem _ hx)
    have h1 := hr (nm, t) List.mem_cons_self
    simp only at h1
    have hf : strip (fieldHint (hintOf ids t)) = hintOf ids t := by
      rw [fieldHint_hintOf hs.1.1 hs.1.2, strip_hintOf]
    rw [fieldHints, convertFields]
    change (do let y ← run (pyArti ids) n (strip (fieldHint (hintOf ids t))) h; _) = _
    rw [hf, h1, ih]
    rfl

theorem toArtigraph_base {t : Ty} {h : Hints} (hs : Supported t)
    (ih : ∀ e : Ty, e.size < t.size → Supported e → ∀ n, 2 * hintSize (hintOf ids e) ≤ n →
      run (pyArti ids) n (hintOf ids e) h = .ok (widen e)) :
    ∀ n, 2 * hintSize (baseHint ids t) ≤ n →
      run (pyArti ids) n (baseHint ids t) h = .ok ((widen t).setNullable false) := by
  intro n hle
  have hp := hintSize_pos (baseHint ids t)
  obtain ⟨n, rfl⟩ : ∃ m, n = m + 2 := ⟨n - 2, by omega⟩
  cases t with
  | scalar s m =>
    simp only [Supported] at hs
    have hs := hs.1
    rw [baseHint]
    cases s <;> simp only [hasPythonScalar, Bool.false_eq_true] at hs <;> simp only [scalarHint] <;>
      first
      | (rw [A_cls (by simp)]; rfl)
      | (rw [A_none]; rfl)
  | binary s m => rw [baseHint, A_cls (by simp)]; rfl
  | timestamp p m => rw [baseHint, A_cls (by simp)]; rfl
  | enum nm t items m =>
    simp only [Supported] at hs
    obtain ⟨hne, hn, c, hc, hi⟩ := hs
    rw [baseHint, A_enum (valueClass_mem hc) hne hn hi, widen, valueClass_widen hc]
    rfl
  | list e m =>
    simp only [Ty.size] at ih
    have hle' : 2 * (1 + (hintSize (hintOf ids e) + 0)) ≤ n + 2 := hle
    rw [show baseHint ids (.list e m) = .gen ids.new .list [hintOf ids e] from rfl, A_list,
      ih e (by omega) hs (n + 1) (by omega)]
    rfl
  | collection nm e p c m =>
    simp only [Ty.size] at ih
    have hle' : 2 * (1 + (hintSize (hintOf ids e) + 0)) ≤ n + 2 := hle
    rw [show baseHint ids (.collection nm e p c m) = .gen ids.new .list [hintOf ids e] from rfl, A_list,
      ih e (by omega) hs (n + 1) (by omega)]
    rfl
  | set e m =>
    simp only [Ty.size] at ih
    have hle' : 2 * (1 + (hintSize (hintOf ids e) + 0)) ≤ n + 2 := hle
    rw [show baseHint ids (.set e m) = .gen ids.new .set [hintOf ids e] from rfl, A_set,
      ih e (by omega) hs (n + 1) (by omega)]
    rfl
  | map k v m =>
    simp only [Ty.size] at ih
    have hle' : 2 * (1 + (hintSize (hintOf ids k) + (hintSize (hintOf ids v) + 0))) ≤ n + 2 := hle
    rw [show baseHint ids (.map k v m) = .gen ids.new .dict [hintOf ids k, hintOf ids v] from rfl,
      A_map, ih k (by omega) hs.1 (n + 1) (by omega), ih v (by omega) hs.2 (n + 1) (by omega)]
    rfl
  | struct nm fs m =>
    simp only [Ty.size] at ih
    have hs' : SupportedFields fs := by simpa only [Supported] using hs
    have hle' : 2 * (1 + hintSizesF (fieldHints ids fs)) ≤ n + 2 := hle
    rw [show baseHint ids (.struct nm fs m) = .tdict ids.new nm (fieldHints ids fs) from rfl, A_struct,
      convertFields_A hs' fun x hx => ih x.2 (by have := mem_sizes hx; omega)
        (supportedFields_mem hs' hx).1 (n + 1)
        (by have := mem_fieldHints (ids := ids) hx; omega)]
    rfl
  | geography f s m => exact absurd hs (by simp [Supported])
  | dateTime p m => exact absurd hs (by simp [Supported])
  | time p m => exact absurd hs (by simp [Supported])

/-- The hint of a supported type is converted back to the widened type. -/
theorem toArtigraph {h : Hints} : ∀ (N : Nat) (t : Ty), t.size ≤ N → Supported t →
    ∀ n, 2 * hintSize (hintOf ids t) ≤ n → run (pyArti ids) n (hintOf ids t) h = .ok (widen t)
  | 0, t, hN, _, _, _ => absurd (size_pos t) (by omega)
  | N + 1, t, hN, hs, n, hle => by
    have ih : ∀ e : Ty, e.size < t.size → Supported e → ∀ n, 2 * hintSize (hintOf ids e) ≤ n →
        run (pyArti ids) n (hintOf ids e) h = .ok (widen e) :=
      fun e he hse n hn => toArtigraph N e (by omega) hse n hn
    cases hb : t.nullable with
    | false =>
      have he : hintOf ids t = baseHint ids t := by rw [hintOf, hb]; rfl
      rw [he] at hle ⊢
      rw [toArtigraph_base hs ih n hle, setNullable_self ((widen_nullable t).trans hb)]
    | true =>
      have hnn : t.isScalar .null = false := by
        cases t with
        | scalar s m =>
          simp only [Supported] at hs
          simp only [Ty.isScalar, decide_eq_false_iff_not]
          intro h
          rw [show (Ty.scalar s m).nullable = m.nullable from rfl, hs.2 h] at hb
          exact absurd hb (by simp)
        | _ => rfl
      obtain ⟨h1, h2⟩ := baseHint_ne_none (ids := ids) hs hnn
      have he : hintOf ids t = .union (ids.opt (baseHint ids t)) [baseHint ids t, .cls .noneType] := by
        rw [hintOf, hb, ← mkOptional_of h1 h2]; rfl
      rw [he] at hle ⊢
      have hle' : 2 * (1 + (hintSize (baseHint ids t) + (1 + 0))) ≤ n := hle
      obtain ⟨n, rfl⟩ : ∃ m, n = m + 1 := ⟨n - 1, by omega⟩
      rw [A_optional (isSame_noneType h2), toArtigraph_base hs ih n (by omega)]
      show Except.ok (((widen t).setNullable false).setNullable true) = _
      rw [setNullable_setNullable, setNullable_self ((widen_nullable t).trans hb)]

mutual
theorem widen_widen (t : Ty) : widen (widen t) = widen t := by
  cases t with
  | scalar s m => cases s <;> rfl
  | enum n t i m =>
    have := widen_widen t
    simp only [widen]
    congr 1
    have h : widen ((widen t).setNullable false) = (widen (widen t)).setNullable false := by
      cases widen t <;> simp [widen, Ty.setNullable, Ty.withMeta, Ty.info, bareMeta]
    rw [h, this, setNullable_setNullable]
  | list e m => simp [widen, widen_widen e, bareMeta]
  | collection n e p c m => simp [widen, widen_widen e, bareMeta]
  | set e m => simp [widen, widen_widen e, bareMeta]
  | map k v m => simp [widen, widen_widen k, widen_widen v, bareMeta]
  | struct n fs m => simp [widen, widenFields_widenFields fs, bareMeta]
  | _ => simp [widen, bareMeta]
theorem widenFields_widenFields (fs : List (Str × Ty)) : widenFields (widenFields fs) = widenFields fs := by
  match fs with
  | [] => rfl
  | (n, t) :: fs => simp [widenFields, widen_widen t, widenFields_widenFields fs]
end

theorem bareMeta_eq {m : Meta} (h : m.description = none) : bareMeta m = m := by
  cases m; simp_all [bareMeta]

mutual
theorem widen_of_widened (t : Ty) (h : Widened t) : widen t = t := by
  cases t with
  | scalar s m =>
    simp only [Widened] at h
    cases s <;> simp at h <;> simp [widen, bareMeta_eq h]
  | binary s m => simp only [Widened] at h; simp [widen, bareMeta_eq h.2, h.1]
  | timestamp s m => simp only [Widened] at h; simp [widen, bareMeta_eq h.2, h.1]
  | enum n t i m =>
    simp only [Widened] at h
    simp [widen, bareMeta_eq h.2.2.2, h.1, widen_of_widened t h.2.1, setNullable_self h.2.2.1]
  | list e m => simp only [Widened] at h; simp [widen, bareMeta_eq h.2, widen_of_widened e h.1]
  | set e m => simp only [Widened] at h; simp [widen, bareMeta_eq h.2, widen_of_widened e h.1]
  | map k v m =>
    simp only [Widened] at h
    simp [widen, bareMeta_eq h.2.2, widen_of_widened k h.1, widen_of_widened v h.2.1]
  | struct n fs m =>
    simp only [Widened] at h
    simp [widen, bareMeta_eq h.2, widenFields_of_widened fs h.1]
  | _ => exact absurd h (by simp [Widened])
theorem widenFields_of_widened (fs : List (Str × Ty)) (h : WidenedFields fs) :
    widenFields fs = fs := by
  match fs, h with
  | [], _ => rfl
  | (n, t) :: fs, h =>
    simp only [WidenedFields] at h
    simp [widenFields, widen_of_widened t h.1, widenFields_of_widened fs h.2]
end

theorem widened_classTy {c : PyCls} : Widened (classTy c) := by
  cases c <;> simp [classTy, Widened]

theorem nullable_classTy {c : PyCls} : (classTy c).nullable = false := by
  cases c <;> rfl

theorem valueClass_classTy {c : PyCls}
    (hc : c ∈ [PyCls.bool, .int, .float, .str, .bytes, .date, .datetime]) :
    valueClass (classTy c) = some c := by
  simp only [List.mem_cons, List.not_mem_nil, or_false] at hc
  rcases hc with rfl | rfl | rfl | rfl | rfl | rfl | rfl <;> rfl

mutual
theorem widened_widen (t : Ty) (h : Supported t) :
    Widened (widen t) ∧ Supported (widen t) ∧ (widen t).isScalar .null = t.isScalar .null := by
  cases t with
  | scalar s m =>
    simp only [Supported] at h
    cases s <;> simp_all [hasPythonScalar, Supported, Widened, widen, bareMeta, Ty.isScalar]
  | binary s m => simp [widen, Widened, Supported, bareMeta, Ty.isScalar]
  | timestamp s m => simp [widen, Widened, Supported, bareMeta, Ty.isScalar]
  | enum n t i m =>
    simp only [Supported] at h
    obtain ⟨h1, h2, c, hc, hi⟩ := h
    simp only [widen, valueClass_widen hc, Widened, Supported, Ty.isScalar]
    exact ⟨⟨trivial, widened_classTy, nullable_classTy, rfl⟩,
      ⟨h1, h2, c, valueClass_classTy (valueClass_mem hc), hi⟩, trivial⟩
  | list e m =>
    simp only [Supported] at h
    have := widened_widen e h
    simp [widen, Widened, Supported, bareMeta, this, Ty.isScalar]
  | collection n e p c m =>
    simp only [Supported] at h
    have := widened_widen e h
    simp [widen, Widened, Supported, bareMeta, this, Ty.isScalar]
  | set e m =>
    simp only [Supported] at h
    have := widened_widen e h
    simp [widen, Widened, Supported, bareMeta, this, Ty.isScalar]
  | map k v m =>
    simp only [Supported] at h
    have hk := widened_widen k h.1
    have hv := widened_widen v h.2
    simp [widen, Widened, Supported, bareMeta, hk, hv, Ty.isScalar]
  | struct n fs m =>
    simp only [Supported] at h
    have := widenedFields_widen fs h
    simp [widen, Widened, Supported, bareMeta, this, Ty.isScalar]
  | _ => exact absurd h (by simp [Supported])
theorem widenedFields_widen (fs : List (Str × Ty)) (h : SupportedFields fs) :
    WidenedFields (widenFields fs) ∧ SupportedFields (widenFields fs) := by
  match fs, h with
  | [], _ => exact ⟨trivial, trivial⟩
  | (n, t) :: fs, h =>
    simp only [SupportedFields] at h
    have ht := widened_widen t h.1.1
    have hf := widenedFields_widen fs h.2
    simp only [widenFields, WidenedFields, SupportedFields, ht, hf, h.1.2, and_self]
end

mutual
theorem baseHint_widen (t : Ty) (h : Supported t) : baseHint ids (widen t) = baseHint ids t := by
  cases t with
  | scalar s m => cases s <;> rfl
  | enum n t i m => simp [widen, baseHint]
  | list e m =>
    simp only [Supported] at h
    simp [widen, baseHint, baseHint_widen e h, widen_nullable]
  | collection n e p c m =>
    simp only [Supported] at h
    simp [widen, baseHint, baseHint_widen e h, widen_nullable]
  | set e m =>
    simp only [Supported] at h
    simp [widen, baseHint, baseHint_widen e h, widen_nullable]
  | map k v m =>
    simp only [Supported] at h
    simp [widen, baseHint, baseHint_widen k h.1, baseHint_widen v h.2, widen_nullable]
  | struct n fs m =>
    simp only [Supported] at h
    simp [widen, baseHint, fieldHints_widen fs h]
  | _ => simp [widen, baseHint]
theorem fieldHints_widen (fs : List (Str × Ty)) (h : SupportedFields fs) :
    fieldHints ids (widenFields fs) = fieldHints ids fs := by
  match fs, h with
  | [], _ => rfl
  | (n, t) :: fs, h =>
    simp only [SupportedFields] at h
    simp [widenFields, fieldHints, baseHint_widen t h.1.1, fieldHints_widen fs h.2, widen_nullable]
end

theorem hintOf_widen {t : Ty} (h : Supported t) : hintOf ids (widen t) = hintOf ids t := by
  rw [hintOf, hintOf, widen_nullable, baseHint_widen t h]

/-- Classes without an adapter. -/
theorem A_cls_none {n : Nat} {c : PyCls} {h : Hints}
    (hc : ∀ d ∈ [PyCls.bool, .int, .float, .str, .bytes, .date, .datetime], d ∉ PyCls.mro c) :
    run (pyArti ids) (n + 1) (.cls c) h = .error .notImplemented := by
  have hs : ∀ d ∈ [PyCls.bool, .int, .float, .str, .bytes, .date, .datetime],
      lenient PyCls.hier (.cls c) (.cls d) = .ok false := by
    intro d hd
    rw [lenient_cls]
    simp [hc d hd]
  rw [run_A, sortedA]
  repeat (rw [dispatched_false]; on_goal 2 => first | exact rfl | exact hs _ (by simp))
  exact dispatched_nil

theorem tupleA_true (i : Nat) (a : PyHint) (h : Hints) :
    pyTupleA.accepts (.gen i .tuple [a, .ellipsis]) h = .ok true := by
  show (do let b ← originIs (.gen i .tuple [a, .ellipsis]) .tuple; return b && (variadic (.gen i .tuple [a, .ellipsis])).isSome) = _
  rw [originIs_gen]
  rfl

theorem A_tuple {n i : Nat} {a : PyHint} {h : Hints} :
    run (pyArti ids) (n + 1) (.gen i .tuple [a, .ellipsis]) h =
      (do let t ← run (pyArti ids) n a h; return .list t {}) := by
  rw [run_A, sortedA]
  repeat (rw [dispatched_false]; on_goal 2 => acceptsA)
  exact dispatched_true (tupleA_true _ _ _)

theorem variadic_none {i : Nat} {o : PyCls} {as : List PyHint} (has : ∀ a, as ≠ [a, .ellipsis]) :
    variadic (.gen i o as) = none := by
  show (match as with
    | [e, .ellipsis] => some e
    | _ => none) = none
  split
  · exact absurd rfl (has _)
  · rfl

theorem A_tuple_other {n i : Nat} {as : List PyHint} {h : Hints} (has : ∀ a, as ≠ [a, .ellipsis]) :
    run (pyArti ids) (n + 1) (.gen i .tuple as) h = .error .notImplemented := by
  have ht : pyTupleA.accepts (.gen i .tuple as) h = .ok false := by
    show (do let b ← originIs (.gen i .tuple as) .tuple; return b && (variadic (.gen i .tuple as)).isSome) = _
    rw [originIs_gen, variadic_none has]
    rfl
  rw [run_A, sortedA]
  repeat (rw [dispatched_false]; on_goal 2 => first | exact ht | acceptsA)
  exact dispatched_nil

theorem mismatched_nil {py : PyHint} : ∀ {xs : List Lit}, mismatched py xs = .ok [] →
    ∀ x ∈ xs, lenient PyCls.hier (.cls x.cls) py = .ok true
  | [], _ => by simp
  | x :: xs, h => by
    simp only [mismatched, bind, Except.bind] at h
    cases hl : lenient PyCls.hier (.cls x.cls) py with
    | error e => simp [hl] at h
    | ok b =>
      simp only [hl] at h
      cases hm : mismatched py xs with
      | error e => simp [hm] at h
      | ok rest =>
        simp only [hm, pure, Except.pure, Except.ok.injEq] at h
        cases b with
        | false => simp at h
        | true =>
          simp only [if_true] at h
          subst h
          intro y hy
          rcases List.mem_cons.1 hy with rfl | hy
          · exact hl
          · exact mismatched_nil hm y hy

theorem mkEnum_ok {name : Str} {t : Ty} {items : List Lit} {m : Meta} {e : Ty}
    (h : mkEnum ids name t items m = .ok e) :
    frozenset items ≠ [] ∧ e = .enum name t (frozenset items) m ∧
      ∃ py, pyToSystem ids t = .ok py ∧
        ∀ x ∈ frozenset items, lenient PyCls.hier (.cls x.cls) py = .ok true := by
  simp only [mkEnum] at h
  split at h
  · cases h
  · rename_i hne
    simp only [bind, Except.bind] at h
    cases hp : pyToSystem ids t with
    | error e => simp [hp] at h
    | ok py =>
      simp only [hp] at h
      cases hm : mismatched py (frozenset items) with
      | error e => simp [hm] at h
      | ok bad =>
        simp only [hm] at h
        split at h
        · rename_i hb
          simp only [pure, Except.pure, Except.ok.injEq] at h
          have : bad = [] := by simpa using hb
          subst this
          exact ⟨by simpa using hne, h.symm, py, rfl, mismatched_nil hm⟩
        · cases h

end
end Typ
end Arti
