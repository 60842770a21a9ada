import Verif.Lemmas.Numpy
import Mathlib.Data.List.Forall2
import Mathlib.Data.List.Nodup

/-!
# C62: NumPy and pandas types round-trip
-/

namespace Arti
namespace Props
open Typ Spec

/-! ## NumPy -/

theorem listOf_size {e t : Ty} (h : ListOf e t) : t.size = 1 + e.size := by
  cases h <;> rfl

theorem listOf_unique {e e' t : Ty} (h : ListOf e t) (h' : ListOf e' t) : e = e' := by
  cases h <;> cases h' <;> rfl

theorem listOf_isList {e t : Ty} (h : ListOf e t) : t.isList = true := by cases h <;> rfl

theorem listOf_element {e t : Ty} (h : ListOf e t) : listElement t = some e := by cases h <;> rfl

theorem listOf_kind {e t : Ty} (h : ListOf e t) : kindOf t = none := by cases h <;> rfl

theorem listOf_bare {e t : Ty} (h : ListOf e t) : bare t = .list (bare e) {} := by
  cases h <;> simp [bare]

theorem isList_listOf {t : Ty} (h : t.isList = true) : ∃ e, ListOf e t := by
  cases t with
  | list e m => exact ⟨e, .list⟩
  | collection n e p c m => exact ⟨e, .collection⟩
  | _ => simp [Ty.isList] at h

theorem nested_bare {e t : Ty} {n : Nat} (h : Nested e n t) : bare t = nested n (bare e) := by
  induction h with
  | zero => rfl
  | succ hl _ ih => rw [listOf_bare hl, ih]; rfl

theorem nested_supported {e t : Ty} {n : Nat} (h : Nested e n t) (he : Stored e) :
    NumpySupported t := by
  induction h with
  | zero => exact .stored he
  | succ hl _ ih => exact .list hl ih

theorem supported_nested {t : Ty} (h : NumpySupported t) : ∃ n e, Nested e n t ∧ Stored e := by
  induction h with
  | stored hs => exact ⟨0, _, .zero, hs⟩
  | list hl _ ih =>
    obtain ⟨n, e, h1, h2⟩ := ih
    exact ⟨n + 1, e, .succ hl h1, h2⟩

/-- The object of a type, for any fuel that is enough. -/
theorem np_object {e t : Ty} {n : Nat} {k : NpKind} (hk : kindOf e = some k) (h : Nested e n t)
    (hs : Hints) : ∀ fuel, t.size ≤ fuel → run npSys fuel t hs =
      .ok (if n = 0 then .cls k else .array (some k) (List.replicate n 1)) := by
  induction h with
  | zero =>
    intro fuel hf
    obtain ⟨m, rfl⟩ : ∃ m, fuel = m + 1 := ⟨fuel - 1, by have := size_pos e; omega⟩
    rw [np_run_S, npStepS_kind hk]; rfl
  | @succ n e' t hl _ ih =>
    intro fuel hf
    have hz := listOf_size hl
    obtain ⟨m, rfl⟩ : ∃ m, fuel = m + 1 := ⟨fuel - 1, by omega⟩
    rw [np_run_S, npStepS_list hl, ih m (by omega)]
    rcases Nat.eq_zero_or_pos n with h0 | h0
    · subst h0; rfl
    · rw [if_neg (by omega), if_neg (by omega)]; rfl

/-- C62: the NumPy object of a stored type is the class of that name, the object of a list `n` deep is
an array of that class with `n` dimensions. -/
theorem C62_numpy_object {e t : Ty} {n : Nat} {k : NpKind} (hk : kindOf e = some k)
    (h : Nested e n t) (hs : Hints) : npToSystem t hs =
      .ok (if n = 0 then .cls k else .array (some k) (List.replicate n 1)) :=
  np_object hk h hs _ (Nat.le_refl _)

/-- C62: what NumPy cannot store is refused, at any depth. -/
theorem C62_numpy_unsupported {t : Ty} (ht : ¬ NumpySupported t) (hs : Hints) :
    npToSystem t hs = .error .notImplemented := by
  suffices H : ∀ fuel (t : Ty), ¬ NumpySupported t → t.size ≤ fuel →
      run npSys fuel t hs = .error .notImplemented from H _ _ ht (Nat.le_refl _)
  clear ht
  intro fuel
  induction fuel with
  | zero => intro t _ hf; have := size_pos t; omega
  | succ m ih =>
    intro t ht hf
    rw [np_run_S]
    rcases hb : t.isList with _ | _
    · refine npStepS_none ?_ hb
      rcases hk : kindOf t with _ | k
      · rfl
      · exact absurd (.stored (stored_iff.2 ⟨k, hk⟩)) ht
    · obtain ⟨e, hl⟩ := isList_listOf hb
      have hz := listOf_size hl
      rw [npStepS_list hl, ih e (fun he => ht (.list hl he)) (by omega)]
      rfl

/-- C62: the types with a NumPy object are the stored types and the lists of them at any depth. -/
theorem C62_numpy_supported_iff {t : Ty} {hs : Hints} :
    (∃ o, npToSystem t hs = .ok o) ↔ NumpySupported t := by
  constructor
  · rintro ⟨o, ho⟩
    by_contra hn
    rw [C62_numpy_unsupported hn] at ho
    cases ho
  · intro h
    obtain ⟨n, e, h1, h2⟩ := supported_nested h
    obtain ⟨k, hk⟩ := stored_iff.1 h2
    exact ⟨_, C62_numpy_object hk h1 hs⟩

theorem np_array_back {k : NpKind} {hs : Hints} : ∀ (shape : List Nat) (fuel : Nat), shape ≠ [] →
    0 ∉ shape → shape.length + 1 ≤ fuel →
    run npArti fuel (.array (some k) shape) hs = .ok (nested shape.length (tyOf k)) := by
  intro shape
  induction shape with
  | nil => intro _ h; exact absurd rfl h
  | cons d rest ih =>
    intro fuel _ h0 hf
    obtain ⟨m, rfl⟩ : ∃ m, fuel = m + 1 := ⟨fuel - 1, by simp at hf; omega⟩
    rw [np_run_A, npStepA_array]
    obtain ⟨d, rfl⟩ : ∃ d', d = d' + 1 := by
      cases d with
      | zero => simp at h0
      | succ d => exact ⟨d, rfl⟩
    cases rest with
    | nil =>
      obtain ⟨m, rfl⟩ : ∃ m', m = m' + 1 := ⟨m - 1, by simp at hf; omega⟩
      show (do let e ← run npArti (m + 1) (.cls k) hs; return Ty.list e {}) = _
      rw [np_run_A, npStepA_cls]; rfl
    | cons d' rest =>
      show (do let e ← run npArti m (.array (some k) (d' :: rest)) hs; return Ty.list e {}) = _
      rw [ih m (by simp) (fun h => h0 (List.mem_cons_of_mem _ h)) (by simp at hf ⊢; omega)]
      rfl

/-- C62: converting a type to NumPy and back yields the type without descriptions, nullability,
sizes and the attributes of collections. -/
theorem C62_numpy_roundtrip {t : Ty} (ht : NumpySupported t) (hs : Hints) :
    ∃ o, npToSystem t hs = .ok o ∧ npToArtigraph o hs = .ok (bare t) := by
  obtain ⟨n, e, h1, h2⟩ := supported_nested ht
  obtain ⟨k, hk⟩ := stored_iff.1 h2
  refine ⟨_, C62_numpy_object hk h1 hs, ?_⟩
  rw [nested_bare h1, ← tyOf_kind hk]
  rcases Nat.eq_zero_or_pos n with h0 | h0
  · subst h0
    show run npArti 1 (.cls k) hs = _
    rw [np_run_A, npStepA_cls]; rfl
  · rw [if_neg (by omega)]
    have := np_array_back (k := k) (hs := hs) (List.replicate n 1) (n + 1)
      (by simp; omega) (by simp [List.mem_replicate]) (by simp)
    simpa [npToArtigraph, PdObj.depth] using this

/-- C62: two types have the same NumPy object exactly if they differ only in what a round trip
drops. -/
theorem C62_numpy_same_object_iff {t t' : Ty} (ht : NumpySupported t) (ht' : NumpySupported t')
    (hs : Hints) : npToSystem t hs = npToSystem t' hs ↔ bare t = bare t' := by
  constructor
  · intro h
    obtain ⟨o, h1, h2⟩ := C62_numpy_roundtrip ht hs
    obtain ⟨o', h1', h2'⟩ := C62_numpy_roundtrip ht' hs
    rw [h1, h1'] at h
    cases h
    rw [h2] at h2'
    exact Except.ok.inj h2'
  · intro h
    obtain ⟨n, e, h1, h2⟩ := supported_nested ht
    obtain ⟨k, hk⟩ := stored_iff.1 h2
    obtain ⟨n', e', h1', h2'⟩ := supported_nested ht'
    obtain ⟨k', hk'⟩ := stored_iff.1 h2'
    rw [C62_numpy_object hk h1 hs, C62_numpy_object hk' h1' hs]
    rw [nested_bare h1, nested_bare h1', ← tyOf_kind hk, ← tyOf_kind hk'] at h
    have key : ∀ n n', nested n (tyOf k) = nested n' (tyOf k') → n = n' ∧ k = k' := by
      intro n
      induction n with
      | zero =>
        intro n' h
        cases n' with
        | zero =>
          refine ⟨rfl, ?_⟩
          have := congrArg kindOf h
          simpa [nested, kindOf_tyOf] using this
        | succ n' => cases k <;> simp [nested, tyOf] at h
      | succ n ih =>
        intro n' h
        cases n' with
        | zero => cases k' <;> simp [nested, tyOf] at h
        | succ n' =>
          simp only [nested, Ty.list.injEq, and_true] at h
          obtain ⟨a, b⟩ := ih n' h
          exact ⟨by rw [a], b⟩
    obtain ⟨rfl, rfl⟩ := key n n' h
    rfl

/-- C62: an array has a type exactly if its elements have one and no dimension is empty; then it is
the type of its elements, listed as often as the array has dimensions. -/
theorem C62_array_iff {k : Option NpKind} {shape : List Nat} {hs : Hints} {t : Ty} :
    npToArtigraph (.array k shape) hs = .ok t ↔
      shape ≠ [] ∧ 0 ∉ shape ∧ ∃ e k', k = some k' ∧ kindOf e = some k' ∧ bare e = e ∧
        t = nested shape.length e := by
  constructor
  · intro h
    suffices H : ∀ (shape : List Nat) (fuel : Nat) (t : Ty), run npArti fuel (.array k shape) hs = .ok t →
        shape ≠ [] ∧ 0 ∉ shape ∧ ∃ k', k = some k' by
      obtain ⟨h1, h2, k', rfl⟩ := H shape _ t h
      have := np_array_back (k := k') (hs := hs) shape (shape.length + 1) h1 h2 (Nat.le_refl _)
      have h : run npArti (shape.length + 1) (.array (some k') shape) hs = .ok t := h
      rw [this] at h
      exact ⟨h1, h2, tyOf k', k', rfl, kindOf_tyOf k', bare_tyOf k', (Except.ok.inj h).symm⟩
    intro shape
    induction shape with
    | nil =>
      intro fuel t h
      cases fuel with
      | zero => cases h
      | succ m => rw [np_run_A, npStepA_array] at h; cases h
    | cons d rest ih =>
      intro fuel t h
      cases fuel with
      | zero => cases h
      | succ m =>
        rw [np_run_A, npStepA_array] at h
        cases d with
        | zero => cases h
        | succ d =>
          cases rest with
          | nil =>
            refine ⟨by simp, by simp, ?_⟩
            cases k with
            | some k => exact ⟨k, rfl⟩
            | none =>
              cases m with
              | zero => cases h
              | succ m =>
                have h : (do let e ← run npArti (m + 1) (.other 0) hs; return Ty.list e {}) = Except.ok t := h
                rw [np_run_A, npStepA_other] at h
                cases h
          | cons d' rest =>
            have h : (do let e ← run npArti m (.array k (d' :: rest)) hs; return Ty.list e {}) = Except.ok t := h
            rcases hr : run npArti m (.array k (d' :: rest)) hs with e | u
            · rw [hr] at h; cases h
            · obtain ⟨_, h2, h3⟩ := ih m u hr
              refine ⟨by simp, ?_, h3⟩
              simp only [List.mem_cons, not_or] at h2 ⊢
              exact ⟨by omega, h2⟩
  · rintro ⟨h1, h2, e, k', rfl, hk, hp, rfl⟩
    rw [← hp, ← tyOf_kind hk]
    exact np_array_back shape _ h1 h2 (Nat.le_refl _)

/-- C62: converting an array to a type and back yields an array of the same element class and as many
dimensions. -/
theorem C62_array_roundtrip {k : Option NpKind} {shape : List Nat} {hs : Hints} {t : Ty}
    (h : npToArtigraph (.array k shape) hs = .ok t) :
    npToSystem t hs = .ok (.array k (shape.map fun _ => 1)) := by
  obtain ⟨h1, -, e, k', rfl, hk, -, rfl⟩ := C62_array_iff.1 h
  have hn : ∀ n, Nested e n (nested n e) := by
    intro n
    induction n with
    | zero => exact .zero
    | succ n ih => exact .succ .list ih
  rw [C62_numpy_object hk (hn shape.length) hs, if_neg (by simp [h1])]
  simp

/-- C62: scalar classes and their dtypes are the same type; the dtypes of strings and bytes are
refused unless they have no size (`np.dtype("U5")` is refused, though arrays of it are accepted). -/
theorem C62_dtype {k : NpKind} {n : Nat} {hs : Hints} {e : Ty} (hk : kindOf e = some k) :
    npToArtigraph (.cls k) hs = .ok (bare e) ∧
    npToArtigraph (.dtype k n) hs =
      if (k = .bytes ∨ k = .str) ∧ n ≠ 0 then .error .notImplemented else .ok (bare e) := by
  rw [← tyOf_kind hk]
  exact ⟨(np_run_A 0 _ _).trans npStepA_cls, (np_run_A 0 _ _).trans npStepA_dtype_sized⟩

/-! ## pandas -/

theorem stored_notList {t : Ty} (h : Stored t) : t.isList = false := by cases h <;> rfl

theorem stored_notStruct {t : Ty} (h : Stored t) : t.isStruct = false := by cases h <;> rfl

theorem isStructList_of {e t : Ty} (h : ListOf e t) : isStructList t = e.isStruct := by
  simp [isStructList, listOf_element h]

theorem pd_stored {t : Ty} {k : NpKind} (hk : kindOf t = some k) (n : Nat) (hs : Hints) :
    run pdSys (n + 1) t hs = .ok (.cls k) := by
  have hl := stored_notList (stored_iff.2 ⟨k, hk⟩)
  rw [pd_run_S, hl]
  simpa using npStepS_kind hk

/-- The series of a class. -/
def seriesOf (k : NpKind) : PdSeries :=
  match k with
  | .str => ⟨.object, [.str]⟩
  | .bytes => ⟨.other 0, [.other 0]⟩
  | k => ⟨.np k, [.other 0]⟩

theorem pdSeries_cls (k : NpKind) : pdSeries (.cls k) = .ok (seriesOf k) := by cases k <;> rfl

theorem pd_series {e t : Ty} {k : NpKind} (hl : ListOf e t) (hk : kindOf e = some k) (n : Nat)
    (hs : Hints) : run pdSys (n + 2) t hs = .ok (.series (seriesOf k)) := by
  rw [pd_run_S, listOf_isList hl, isStructList_of hl, stored_notStruct (stored_iff.2 ⟨k, hk⟩)]
  simp only [Bool.not_false, Bool.and_true, if_true]
  have : pdSeriesS.convert (run pdSys (n + 1)) t hs =
      (match listElement t with
        | some e => (do
          let o ← run pdSys (n + 1) e hs
          let s ← pdSeries o
          return .series s)
        | none => .error .assertion) := rfl
  rw [this, listOf_element hl]
  simp only [pd_stored hk]
  show (do let s ← pdSeries (.cls k); return PdObj.series s) = _
  rw [pdSeries_cls]; rfl

theorem pd_frame {nm : Str} {fs : List (Str × Ty)} {m : Meta} {t : Ty}
    (hl : ListOf (.struct nm fs m) t) (n : Nat) (hs : Hints) :
    run pdSys (n + 1) t hs = (do
      let os ← pdColumnsS (run pdSys n) hs fs
      let cs ← pdFrame os
      return .frame cs) := by
  rw [pd_run_S, listOf_isList hl, isStructList_of hl]
  simp only [Ty.isStruct, Bool.not_true, Bool.and_false, Bool.false_eq_true, if_false, Bool.and_true,
    if_true]
  have : pdFrameS.convert (run pdSys n) t hs =
      (match listElement t with
        | some (.struct _ fields _) => (do
          let os ← pdColumnsS (run pdSys n) hs fields
          let cs ← pdFrame os
          return .frame cs)
        | _ => .error .assertion) := rfl
  rw [this, listOf_element hl]

theorem pd_columns {n : Nat} {hs : Hints} : ∀ {fs : List (Str × Ty)}, (∀ f ∈ fs, Stored f.2) →
    ∃ cs : List (Str × NpKind), List.Forall₂ (fun f c => c.1 = f.1 ∧ kindOf f.2 = some c.2) fs cs ∧
      pdColumnsS (run pdSys (n + 2)) hs fs = .ok (cs.map fun c => (c.1, .series (seriesOf c.2))) ∧
      pdFrame (cs.map fun c => (c.1, .series (seriesOf c.2))) =
        .ok (cs.map fun c => (c.1, seriesOf c.2)) := by
  intro fs
  induction fs with
  | nil => intro _; exact ⟨[], .nil, rfl, rfl⟩
  | cons f fs ih =>
    intro h
    obtain ⟨nm, t⟩ := f
    obtain ⟨k, hk⟩ := stored_iff.1 (h _ List.mem_cons_self)
    obtain ⟨cs, h1, h2, h3⟩ := ih fun g hg => h g (List.mem_cons_of_mem _ hg)
    refine ⟨(nm, k) :: cs, .cons ⟨rfl, hk⟩ h1, ?_, ?_⟩
    · rw [pdColumnsS, pd_series (e := t) .list hk, h2]; rfl
    · simp only [List.map_cons, pdFrame, asColumn, h3]
      rfl

theorem pd_nonstruct_step {e t : Ty} (hl : ListOf e t) (hx : e.isStruct = false) (n : Nat) (hs : Hints) :
    run pdSys (n + 1) t hs = (do
      let o ← run pdSys n e hs
      let s ← pdSeries o
      return .series s) := by
  rw [pd_run_S, listOf_isList hl, isStructList_of hl, hx]
  simp only [Bool.not_false, Bool.and_true, if_true]
  have : pdSeriesS.convert (run pdSys n) t hs =
      (match listElement t with
        | some e => (do
          let o ← run pdSys n e hs
          let s ← pdSeries o
          return .series s)
        | none => .error .assertion) := rfl
  rw [this, listOf_element hl]

theorem isStruct_eq {e : Ty} (h : e.isStruct = true) : ∃ n fs m, e = .struct n fs m := by
  cases e with
  | struct n fs m => exact ⟨n, fs, m, rfl⟩
  | _ => simp [Ty.isStruct] at h

/-- Only stored types become classes. -/
theorem pd_cls_of {n : Nat} {t : Ty} {hs : Hints} {k : NpKind}
    (h : run pdSys n t hs = .ok (.cls k)) : kindOf t = some k := by
  cases n with
  | zero => cases h
  | succ n =>
    rcases hb : t.isList with _ | _
    · rcases hk : kindOf t with _ | k'
      · rw [pd_run_S, hb] at h
        simp only [Bool.false_and, Bool.false_eq_true, if_false, npStepS_none hk hb] at h
        cases h
      · rw [pd_stored hk] at h; cases h; rfl
    · exfalso
      obtain ⟨e, hl⟩ := isList_listOf hb
      rcases hx : e.isStruct with _ | _
      · rw [pd_nonstruct_step hl hx] at h
        simp only [bind, Except.bind, pure, Except.pure] at h
        split at h
        · cases h
        · split at h <;> cases h
      · obtain ⟨nm, fs, m, rfl⟩ := isStruct_eq hx
        rw [pd_frame hl] at h
        simp only [bind, Except.bind, pure, Except.pure] at h
        split at h
        · cases h
        · split at h <;> cases h

theorem pd_nonstruct {n : Nat} {e t : Ty} {hs : Hints} {o : PdObj} (hl : ListOf e t)
    (hx : e.isStruct = false) (h : run pdSys (n + 1) t hs = .ok o) : Stored e := by
  rw [pd_nonstruct_step hl hx] at h
  simp only [bind, Except.bind, pure, Except.pure] at h
  split at h
  · cases h
  · rename_i o' ho
    cases o' with
    | cls k => exact stored_iff.2 ⟨k, pd_cls_of ho⟩
    | _ => simp [pdSeries] at h

theorem pd_structs {n : Nat} {nm : Str} {fs : List (Str × Ty)} {m : Meta} {t : Ty} {hs : Hints}
    {o : PdObj} (hl : ListOf (.struct nm fs m) t) (h : run pdSys (n + 1) t hs = .ok o) :
    ∀ f ∈ fs, Stored f.2 := by
  rw [pd_frame hl] at h
  simp only [bind, Except.bind, pure, Except.pure] at h
  split at h
  · cases h
  · rename_i os hos
    split at h
    · cases h
    · rename_i cs hcs
      clear h hl
      induction fs generalizing os cs with
      | nil => intro f hf; cases hf
      | cons f fs ih =>
        obtain ⟨a, u⟩ := f
        simp only [pdColumnsS, bind, Except.bind, pure, Except.pure] at hos
        split at hos
        · cases hos
        · rename_i o' ho'
          split at hos
          · cases hos
          · rename_i os' hos'
            cases hos
            simp only [pdFrame, bind, Except.bind, pure, Except.pure] at hcs
            split at hcs
            · cases hcs
            · rename_i s hs'
              split at hcs
              · cases hcs
              · rename_i cs' hcs'
                intro f hf
                rcases List.mem_cons.1 hf with rfl | hf
                · cases o' with
                  | series s' =>
                    cases n with
                    | zero => cases ho'
                    | succ n =>
                      rcases hx : u.isStruct with _ | _
                      · exact pd_nonstruct .list hx ho'
                      · obtain ⟨nm', fs', m', rfl⟩ := isStruct_eq hx
                        exfalso
                        rw [pd_frame .list] at ho'
                        simp only [bind, Except.bind, pure, Except.pure] at ho'
                        split at ho'
                        · cases ho'
                        · split at ho' <;> cases ho'
                  | _ => cases hs'
                · exact ih os' hos' cs' hcs' f hf

/-- C62: the types with a pandas object are the stored types, lists of them, and lists of structs of
them.  (All other types are refused, with one error or another.) -/
theorem C62_pandas_supported_iff {t : Ty} {hs : Hints} :
    (∃ o, pdToSystem t hs = .ok o) ↔ PandasSupported t := by
  constructor
  · rintro ⟨o, ho⟩
    have hp := size_pos t
    obtain ⟨n, hn⟩ : ∃ n, t.size = n + 1 := ⟨t.size - 1, by omega⟩
    rw [pdToSystem, hn] at ho
    rcases hb : t.isList with _ | _
    · rcases hk : kindOf t with _ | k'
      · rw [pd_run_S, hb] at ho
        simp only [Bool.false_and, Bool.false_eq_true, if_false, npStepS_none hk hb] at ho
        cases ho
      · exact .stored (stored_iff.2 ⟨_, hk⟩)
    · obtain ⟨e, hl⟩ := isList_listOf hb
      rcases hx : e.isStruct with _ | _
      · exact .series hl (pd_nonstruct hl hx ho)
      · obtain ⟨nm, fs, m, rfl⟩ := isStruct_eq hx
        exact .frame hl (pd_structs hl ho)
  · intro h
    cases h with
    | stored hs' =>
      obtain ⟨k, hk⟩ := stored_iff.1 hs'
      obtain ⟨n, hn⟩ : ∃ n, t.size = n + 1 := ⟨t.size - 1, by have := size_pos t; omega⟩
      exact ⟨_, by rw [pdToSystem, hn, pd_stored hk]⟩
    | @series e _ hl hs' =>
      obtain ⟨k, hk⟩ := stored_iff.1 hs'
      obtain ⟨n, hn⟩ : ∃ n, t.size = n + 2 :=
        ⟨t.size - 2, by have := size_pos e; have := listOf_size hl; omega⟩
      exact ⟨_, by rw [pdToSystem, hn, pd_series hl hk]⟩
    | @frame nm fs m _ hl hs' =>
      cases fs with
      | nil => exact ⟨.frame [], by rw [pdToSystem, listOf_size hl, Nat.add_comm, pd_frame hl]; rfl⟩
      | cons f fs =>
        obtain ⟨n, hn⟩ : ∃ n, t.size = n + 2 + 1 := by
          have h1 := listOf_size hl
          have h2 := size_pos f.2
          obtain ⟨a, u⟩ := f
          simp only [Ty.size, Ty.sizes] at h1 h2
          exact ⟨t.size - 3, by omega⟩
        obtain ⟨cs, -, h2, h3⟩ := pd_columns (n := n) (hs := hs) hs'
        exact ⟨.frame (cs.map fun c => (c.1, seriesOf c.2)), by
          rw [pdToSystem, hn, pd_frame hl, h2]
          show (do let cs ← pdFrame _; return PdObj.frame cs) = _
          rw [h3]; rfl⟩

theorem pdA_dtype {n : Nat} {k : NpKind} {hs : Hints} :
    run pdArti (n + 1) (.dtype k 0) hs = .ok (tyOf k) := (pd_run_A n _ hs).trans npStepA_dtype

theorem pdA_other {n i : Nat} {hs : Hints} :
    run pdArti (n + 1) (.other i) hs = .error .notImplemented := (pd_run_A n _ hs).trans npStepA_other

/-- The type of the elements of a series. -/
theorem pd_series_back {s : PdSeries} {n : Nat} {hs : Hints} {t : Ty} :
    run pdArti (n + 2) (.series s) hs = .ok t ↔
      (∃ k, s.dtype = .np k ∧ t = .list (tyOf k) {}) ∨
      (s.dtype = .object ∧ s.values.head? = some .str ∧ t = .list (.scalar .string {}) {}) := by
  rw [pd_run_A]
  obtain ⟨d, vs⟩ := s
  cases d with
  | np k =>
    show (do let e ← run pdArti (n + 1) (.dtype k 0) hs; return Ty.list e {}) = _ ↔ _
    rw [pdA_dtype]
    simp only [PdDtype.np.injEq, reduceCtorEq, false_and, or_false]
    constructor
    · intro h; exact ⟨k, rfl, (Except.ok.inj h).symm⟩
    · rintro ⟨k', rfl, rfl⟩; rfl
  | object =>
    simp only [reduceCtorEq, false_and, exists_false, false_or, true_and]
    cases vs with
    | nil => exact ⟨fun h => (by cases h), fun h => (by simp at h)⟩
    | cons v vs =>
      cases v with
      | str =>
        exact ⟨fun h => ⟨rfl, (Except.ok.inj h).symm⟩, fun h => by rw [h.2]; rfl⟩
      | other i => exact ⟨fun h => (by cases h), fun h => (by simp at h)⟩
  | other i =>
    show (do let e ← run pdArti (n + 1) (.other i) hs; return Ty.list e {}) = _ ↔ _
    rw [pdA_other]
    exact ⟨fun h => (by cases h), fun h => (by simp at h)⟩

/-- C62: a series has a type exactly if its dtype has one, or its dtype is `object` and the first
value is a string. -/
theorem C62_series_iff {s : PdSeries} {hs : Hints} {t : Ty} :
    pdToArtigraph (.series s) hs = .ok t ↔
      (∃ k e, s.dtype = .np k ∧ kindOf e = some k ∧ bare e = e ∧ t = .list e {}) ∨
      (s.dtype = .object ∧ s.values.head? = some .str ∧ t = .list (.scalar .string {}) {}) := by
  rw [pdToArtigraph, PdObj.depth, pd_series_back]
  constructor
  · rintro (⟨k, h1, h2⟩ | h)
    · exact .inl ⟨k, tyOf k, h1, kindOf_tyOf k, bare_tyOf k, h2⟩
    · exact .inr h
  · rintro (⟨k, e, h1, h2, h3, h4⟩ | h)
    · exact .inl ⟨k, h1, by rw [tyOf_kind h2, h3]; exact h4⟩
    · exact .inr h

/-- The type of the elements of a series is a stored type. -/
theorem pd_series_list {s : PdSeries} {n : Nat} {hs : Hints} {t : Ty}
    (h : run pdArti (n + 2) (.series s) hs = .ok t) : ∃ e, t = .list e {} := by
  rcases pd_series_back.1 h with ⟨k, -, rfl⟩ | ⟨-, -, rfl⟩
  · exact ⟨_, rfl⟩
  · exact ⟨_, rfl⟩

theorem pdColumn_nodup {cs : List (Str × PdSeries)} (hn : (cs.map Prod.fst).Nodup)
    {c : Str × PdSeries} (hc : c ∈ cs) : pdColumn cs c.1 = .series c.2 := by
  have : cs.filter (fun d => decide (d.1 = c.1)) = [c] := by
    induction cs with
    | nil => cases hc
    | cons d cs ih =>
      simp only [List.map_cons, List.nodup_cons, List.mem_map, not_exists, not_and] at hn
      rcases List.mem_cons.1 hc with rfl | hc
      · rw [List.filter_cons_of_pos (by simp), List.filter_eq_nil_iff.2]
        intro x hx
        simpa using hn.1 x hx
      · rw [List.filter_cons_of_neg, ih hn.2 hc]
        simpa using fun he => hn.1 c hc he.symm
  rw [pdColumn, this]

/-- The columns, one by one. -/
theorem pdColumnsA_iff {root : PdObj → Hints → Except Err Ty} {cs : List (Str × PdSeries)} {hs : Hints} :
    ∀ {ns : List Str} {fs : List (Str × Ty)}, pdColumnsA root cs hs ns = .ok fs ↔
      List.Forall₂ (fun n f => f.1 = n ∧ ∃ t, root (pdColumn cs n) hs = .ok t ∧
        listElement t = some f.2) ns fs := by
  intro ns
  induction ns with
  | nil =>
    intro fs
    simp only [pdColumnsA, List.forall₂_nil_left_iff]
    exact ⟨fun h => (Except.ok.inj h).symm, fun h => by rw [h]⟩
  | cons n ns ih =>
    intro fs
    constructor
    · intro h
      simp only [pdColumnsA, bind, Except.bind, pure, Except.pure] at h
      split at h
      · cases h
      · rename_i t ht
        split at h
        · cases h
        · rename_i e he
          split at h
          · cases h
          · rename_i fs' hfs'
            cases h
            exact .cons ⟨rfl, t, ht, he⟩ (ih.1 hfs')
    · intro h
      cases h with
      | @cons _ f _ fs' h1 h2 =>
        obtain ⟨rfl, t, ht, he⟩ := h1
        simp [pdColumnsA, bind, Except.bind, pure, Except.pure, ht, he, ih.2 h2]

theorem pd_frame_back {cs : List (Str × PdSeries)} {n : Nat} {hs : Hints} :
    run pdArti (n + 1) (.frame cs) hs = (do
      let fs ← pdColumnsA (run pdArti n) cs hs (cs.map Prod.fst)
      return .list (.struct anon (PyDict.ofItems fs) {}) {}) := by
  rw [pd_run_A]; rfl

/-- C62: two columns with the same name make the conversion of a frame recurse forever: it does not
return, whatever the recursion limit. -/
theorem C62_duplicate_columns {cs : List (Str × PdSeries)} (hn : ¬ (cs.map Prod.fst).Nodup)
    (hs : Hints) : ∀ limit t, run pdArti limit (.frame cs) hs ≠ .ok t := by
  intro limit
  induction limit generalizing cs with
  | zero => intro t h; cases h
  | succ n ih =>
    intro t h
    rw [pd_frame_back] at h
    simp only [bind, Except.bind, pure, Except.pure] at h
    split at h
    · cases h
    · rename_i fs hfs
      rw [pdColumnsA_iff] at hfs
      rw [List.nodup_iff_count_le_one] at hn
      simp only [not_forall] at hn
      obtain ⟨x, hx⟩ := hn
      have hmem : x ∈ cs.map Prod.fst := by
        rw [← List.count_pos_iff]; omega
      have : ∃ f, f ∈ fs ∧ f.1 = x ∧ ∃ t, run pdArti n (pdColumn cs x) hs = .ok t ∧
          listElement t = some f.2 := by
        clear h hx ih
        generalize cs.map Prod.fst = ns at hfs hmem
        induction hfs with
        | nil => cases hmem
        | cons h1 _ ih =>
          rcases List.mem_cons.1 hmem with rfl | hm
          · exact ⟨_, List.mem_cons_self, h1⟩
          · obtain ⟨f, hf, h⟩ := ih hm
            exact ⟨f, List.mem_cons_of_mem _ hf, h⟩
      obtain ⟨f, -, -, u, hu, -⟩ := this
      have hlen : (cs.filter fun c => decide (c.1 = x)).length = (cs.map Prod.fst).count x := by
        rw [List.count, List.countP_map, List.countP_eq_length_filter]
        congr 1
        apply List.filter_congr
        intro c _
        rw [Bool.eq_iff_iff]
        simp
      have hc : pdColumn cs x = .frame (cs.filter fun c => decide (c.1 = x)) := by
        rw [pdColumn]
        split
        · rename_i c he
          rw [he] at hlen
          simp at hlen; omega
        · rfl
      rw [hc] at hu
      refine ih ?_ u hu
      rw [List.nodup_iff_count_le_one]
      simp only [not_forall]
      refine ⟨x, ?_⟩
      have : ((cs.filter fun c => decide (c.1 = x)).map Prod.fst).count x =
          (cs.filter fun c => decide (c.1 = x)).length := by
        rw [List.count_eq_length.2]
        · simp
        · intro y hy
          obtain ⟨c, hc, rfl⟩ := List.mem_map.1 hy
          exact (of_decide_eq_true (List.mem_filter.1 hc).2).symm
      rw [this, hlen]
      omega

/-- C62: a frame has a type exactly if its column names are distinct and each column has one; then it
is a list of structs with a field for each column, in order. -/
theorem C62_frame_iff {cs : List (Str × PdSeries)} {hs : Hints} {t : Ty} :
    pdToArtigraph (.frame cs) hs = .ok t ↔
      (cs.map Prod.fst).Nodup ∧ ∃ fs : List (Str × Ty), t = .list (.struct anon fs {}) {} ∧
        List.Forall₂ (fun c f => f.1 = c.1 ∧ pdToArtigraph (.series c.2) hs = .ok (.list f.2 {}))
          cs fs := by
  have key : ∀ {cs : List (Str × PdSeries)}, (cs.map Prod.fst).Nodup → ∀ {fs : List (Str × Ty)},
      List.Forall₂ (fun n f => f.1 = n ∧ ∃ t, run pdArti 2 (pdColumn cs n) hs = .ok t ∧
        listElement t = some f.2) (cs.map Prod.fst) fs ↔
      List.Forall₂ (fun c f => f.1 = c.1 ∧ pdToArtigraph (.series c.2) hs = .ok (.list f.2 {}))
          cs fs := by
    intro cs hn fs
    rw [List.forall₂_map_left_iff]
    have hh : ∀ c ∈ cs, ∀ f : Str × Ty, ((f.1 = c.1 ∧ ∃ t, run pdArti 2 (pdColumn cs c.1) hs = .ok t ∧
        listElement t = some f.2) ↔ (f.1 = c.1 ∧ pdToArtigraph (.series c.2) hs = .ok (.list f.2 {}))) := by
      intro c hc f
      rw [pdColumn_nodup hn hc]
      refine and_congr_right fun _ => ?_
      show _ ↔ run pdArti 2 (.series c.2) hs = _
      constructor
      · rintro ⟨t, h1, h2⟩
        obtain ⟨e, rfl⟩ := pd_series_list h1
        simp only [listElement, Option.some.injEq] at h2
        rw [h1, h2]
      · intro h; exact ⟨_, h, rfl⟩
    generalize hcs : cs = cs' at hh
    rw [← hcs] at hh
    have : ∀ (l : List (Str × PdSeries)) (fs : List (Str × Ty)), (∀ c ∈ l, c ∈ cs) →
        (List.Forall₂ (fun (c : Str × PdSeries) (f : Str × Ty) => f.1 = c.1 ∧ ∃ t,
          run pdArti 2 (pdColumn cs c.1) hs = .ok t ∧ listElement t = some f.2) l fs ↔
        List.Forall₂ (fun c f => f.1 = c.1 ∧ pdToArtigraph (.series c.2) hs = .ok (.list f.2 {})) l fs) := by
      intro l
      induction l with
      | nil => intro fs _; simp
      | cons c l ih =>
        intro fs hl
        cases fs with
        | nil => simp
        | cons f fs =>
          rw [List.forall₂_cons, List.forall₂_cons, hh c (hcs ▸ hl c List.mem_cons_self),
            ih fs fun d hd => hl d (List.mem_cons_of_mem _ hd)]
    subst hcs
    exact this cs fs fun _ h => h
  have keys_eq : ∀ {cs : List (Str × PdSeries)} {fs : List (Str × Ty)},
      List.Forall₂ (fun c f => f.1 = c.1 ∧ pdToArtigraph (.series c.2) hs = .ok (.list f.2 {})) cs fs →
      PyDict.keys fs = cs.map Prod.fst := by
    intro cs fs h
    induction h with
    | nil => rfl
    | cons h1 _ ih => simp only [PyDict.keys, List.map_cons] at ih ⊢; rw [ih, h1.1]
  constructor
  · intro h
    have hn : (cs.map Prod.fst).Nodup := by
      by_contra hn
      exact C62_duplicate_columns hn hs 3 t h
    have h : run pdArti (2 + 1) (.frame cs) hs = .ok t := h
    rw [pd_frame_back] at h
    simp only [bind, Except.bind, pure, Except.pure] at h
    split at h
    · cases h
    · rename_i fs hfs
      have h2 := (key hn).1 (pdColumnsA_iff.1 hfs)
      refine ⟨hn, fs, ?_, h2⟩
      rw [← Except.ok.inj h, PyDict.ofItems_nodup (by rw [keys_eq h2]; exact hn)]
  · rintro ⟨hn, fs, rfl, h2⟩
    show run pdArti (2 + 1) (.frame cs) hs = _
    rw [pd_frame_back, pdColumnsA_iff.2 ((key hn).2 h2)]
    show Except.ok _ = _
    rw [PyDict.ofItems_nodup (by rw [keys_eq h2]; exact hn)]

theorem seriesOf_back {e : Ty} {k : NpKind} (hk : kindOf e = some k) (hb : ¬ IsBytes e) (hs : Hints) :
    pdToArtigraph (.series (seriesOf k)) hs = .ok (.list (bare e) {}) := by
  rw [← tyOf_kind hk, pdToArtigraph, PdObj.depth, pd_series_back]
  have hkb : k ≠ .bytes := by
    intro h
    subst h
    cases e with
    | binary n m => exact hb ⟨n, m, rfl⟩
    | scalar s m => cases s <;> simp [kindOf] at hk
    | _ => simp [kindOf] at hk
  cases k <;> first | exact absurd rfl hkb | exact .inl ⟨_, rfl, rfl⟩ | exact .inr ⟨rfl, rfl, rfl⟩

/-- C62 (partial): converting a type to pandas and back yields the type without descriptions,
nullability, sizes and names.  Missing: bytes inside of lists (`C62_violated_by_bytes`). -/
theorem C62_pandas_roundtrip_partial {t : Ty} (ht : NoBytesInside t)
    (hn : ∀ n fs m, ListOf (.struct n fs m) t → (fs.map Prod.fst).Nodup) (hs : Hints) :
    ∃ o, pdToSystem t hs = .ok o ∧ pdToArtigraph o hs = .ok (bareRows t) := by
  cases ht with
  | stored hs' =>
    obtain ⟨k, hk⟩ := stored_iff.1 hs'
    obtain ⟨n, hz⟩ : ∃ n, t.size = n + 1 := ⟨t.size - 1, by have := size_pos t; omega⟩
    refine ⟨_, by rw [pdToSystem, hz, pd_stored hk], ?_⟩
    have : bareRows t = bare t := by cases hs' <;> rfl
    rw [this, ← tyOf_kind hk]
    show run pdArti 1 (.cls k) hs = _
    rw [pd_run_A]; exact npStepA_cls
  | @series e _ hl hs' hb =>
    obtain ⟨k, hk⟩ := stored_iff.1 hs'
    obtain ⟨n, hz⟩ : ∃ n, t.size = n + 2 :=
      ⟨t.size - 2, by have := size_pos e; have := listOf_size hl; omega⟩
    refine ⟨_, by rw [pdToSystem, hz, pd_series hl hk], ?_⟩
    rw [seriesOf_back hk hb]
    congr 1
    cases hs' <;> cases hl <;> simp [bareRows, bare]
  | @frame nm fs m _ hl hs' =>
    have hnd := hn _ _ _ hl
    have hpr : bareRows t = .list (.struct anon (fs.map fun f => (f.1, bare f.2)) {}) {} := by
      cases hl <;> rfl
    obtain ⟨cs, hcs, hgo⟩ : ∃ cs : List (Str × NpKind),
        List.Forall₂ (fun f c => c.1 = f.1 ∧ kindOf f.2 = some c.2) fs cs ∧
        pdToSystem t hs = .ok (.frame (cs.map fun c => (c.1, seriesOf c.2))) := by
      cases fs with
      | nil => exact ⟨[], .nil, by rw [pdToSystem, listOf_size hl, Nat.add_comm, pd_frame hl]; rfl⟩
      | cons f fs =>
        obtain ⟨n, hz⟩ : ∃ n, t.size = n + 2 + 1 := by
          have h1 := listOf_size hl
          have h2 := size_pos f.2
          obtain ⟨a, u⟩ := f
          simp only [Ty.size, Ty.sizes] at h1 h2
          exact ⟨t.size - 3, by omega⟩
        obtain ⟨cs, h1, h2, h3⟩ := pd_columns (n := n) (hs := hs) fun f hf => (hs' f hf).1
        refine ⟨cs, h1, ?_⟩
        rw [pdToSystem, hz, pd_frame hl, h2]
        show (do let cs ← pdFrame _; return PdObj.frame cs) = _
        rw [h3]; rfl
    refine ⟨_, hgo, ?_⟩
    rw [C62_frame_iff, hpr]
    have hnames : (cs.map fun c => (c.1, seriesOf c.2)).map Prod.fst = fs.map Prod.fst := by
      clear hgo hs' hn hnd hpr hl
      induction hcs with
      | nil => rfl
      | cons h1 _ ih => simp only [List.map_cons] at ih ⊢; rw [ih, h1.1]
    refine ⟨by rw [hnames]; exact hnd, _, rfl, ?_⟩
    clear hnames hgo hn hnd hpr hl
    induction hcs with
    | nil => exact .nil
    | @cons f c fs' cs' h1 _ ih =>
      refine .cons ⟨h1.1.symm, ?_⟩ (ih fun g hg => hs' g (List.mem_cons_of_mem _ hg))
      exact seriesOf_back h1.2 (hs' f List.mem_cons_self).2 hs

/-- A series of a NumPy dtype does not hold strings or bytes: pandas stores them otherwise. -/
def ProperDtype : PdDtype → Prop
  | .np k => k ≠ .bytes ∧ k ≠ .str
  | _ => True

theorem series_stored {s : PdSeries} {e : Ty} {hs : Hints} (hd : ProperDtype s.dtype)
    (h : pdToArtigraph (.series s) hs = .ok (.list e {})) :
    ∃ k, kindOf e = some k ∧ (seriesOf k).dtype = s.dtype := by
  rcases C62_series_iff.1 h with ⟨k, e', h1, h2, -, h4⟩ | ⟨h1, -, h4⟩
  · cases h4
    refine ⟨k, h2, ?_⟩
    rw [h1] at hd ⊢
    cases k <;> first | rfl | exact absurd rfl hd.1 | exact absurd rfl hd.2
  · cases h4
    exact ⟨.str, rfl, h1.symm⟩

/-- C62: converting a series to a type and back yields a series of the same dtype. -/
theorem C62_series_roundtrip {s : PdSeries} {t : Ty} {hs : Hints} (hd : ProperDtype s.dtype)
    (h : pdToArtigraph (.series s) hs = .ok t) :
    ∃ s', pdToSystem t hs = .ok (.series s') ∧ s'.dtype = s.dtype := by
  obtain ⟨e, rfl⟩ := pd_series_list (n := 0) h
  obtain ⟨k, hk, he⟩ := series_stored hd h
  refine ⟨_, ?_, he⟩
  obtain ⟨n, hz⟩ : ∃ n, (Ty.list e {}).size = n + 2 :=
    ⟨e.size - 1, by have := size_pos e; simp only [Ty.size]; omega⟩
  rw [pdToSystem, hz, pd_series .list hk]

/-- C62: converting a frame to a type and back yields a frame with the same columns and dtypes, in
order. -/
theorem C62_frame_roundtrip {cs : List (Str × PdSeries)} {t : Ty} {hs : Hints}
    (hd : ∀ c ∈ cs, ProperDtype c.2.dtype) (h : pdToArtigraph (.frame cs) hs = .ok t) :
    ∃ cs' : List (Str × PdSeries), pdToSystem t hs = .ok (.frame cs') ∧
      cs'.map (fun c => (c.1, c.2.dtype)) = cs.map (fun c => (c.1, c.2.dtype)) := by
  obtain ⟨-, fs, rfl, hf⟩ := C62_frame_iff.1 h
  obtain ⟨ks, hk, he⟩ : ∃ ks : List (Str × NpKind),
      List.Forall₂ (fun f c => c.1 = f.1 ∧ kindOf f.2 = some c.2) fs ks ∧
      ks.map (fun c => (c.1, (seriesOf c.2).dtype)) = cs.map (fun c => (c.1, c.2.dtype)) := by
    clear h
    induction hf with
    | nil => exact ⟨[], .nil, rfl⟩
    | @cons c f cs fs h1 _ ih =>
      obtain ⟨ks, h3, h4⟩ := ih fun d hd' => hd d (List.mem_cons_of_mem _ hd')
      obtain ⟨k, h5, h6⟩ := series_stored (hd c List.mem_cons_self) h1.2
      exact ⟨(f.1, k) :: ks, .cons ⟨rfl, h5⟩ h3, by simp only [List.map_cons, h4, h1.1, h6]⟩
  have hst : ∀ f ∈ fs, Stored f.2 := by
    intro f hf'
    clear he h hf
    induction hk with
    | nil => cases hf'
    | cons h1 _ ih =>
      rcases List.mem_cons.1 hf' with rfl | hf'
      · exact stored_iff.2 ⟨_, h1.2⟩
      · exact ih hf'
  refine ⟨ks.map fun c => (c.1, seriesOf c.2), ?_, by rw [List.map_map]; exact he⟩
  have uniq : ∀ {fs : List (Str × Ty)} {a b : List (Str × NpKind)},
      List.Forall₂ (fun f c => c.1 = f.1 ∧ kindOf f.2 = some c.2) fs a →
      List.Forall₂ (fun f c => c.1 = f.1 ∧ kindOf f.2 = some c.2) fs b → a = b := by
    intro fs a b ha
    induction ha generalizing b with
    | nil => intro hb; cases hb; rfl
    | @cons f c fs cs h1 _ ih =>
      intro hb
      cases hb with
      | @cons _ d _ ds h3 h4 =>
        rw [ih h4]
        have h5 : c.1 = d.1 := h1.1.trans h3.1.symm
        have h6 : c.2 = d.2 := Option.some.inj (h1.2.symm.trans h3.2)
        obtain ⟨c1, c2⟩ := c
        obtain ⟨d1, d2⟩ := d
        cases h5; cases h6; rfl
  cases fs with
  | nil => cases hk; rfl
  | cons f fs =>
    obtain ⟨n, hz⟩ : ∃ n, (Ty.list (.struct anon (f :: fs) {}) {}).size = n + 2 + 1 := by
      have h2 := size_pos f.2
      obtain ⟨a, u⟩ := f
      simp only [Ty.size, Ty.sizes] at h2 ⊢
      exact ⟨u.size + Ty.sizes fs - 1, by omega⟩
    obtain ⟨ks', h1, h2, h3⟩ := pd_columns (n := n) (hs := hs) hst
    obtain rfl := uniq hk h1
    rw [pdToSystem, hz, pd_frame .list, h2]
    show (do let cs ← pdFrame _; return PdObj.frame cs) = _
    rw [h3]; rfl

/-- C62 is violated by bytes: a list of bytes has a series, which cannot be converted back. -/
theorem C62_violated_by_bytes {e t : Ty} (hl : ListOf e t) (he : IsBytes e) (hs : Hints) :
    ∃ o, pdToSystem t hs = .ok o ∧ pdToArtigraph o hs = .error .notImplemented := by
  obtain ⟨n, m, rfl⟩ := he
  refine ⟨.series ⟨.other 0, [.other 0]⟩, ?_, ?_⟩
  · obtain ⟨n, hz⟩ : ∃ n, t.size = n + 2 := ⟨0, by rw [listOf_size hl]; rfl⟩
    rw [pdToSystem, hz, pd_series hl rfl]; rfl
  · show run pdArti (1 + 1) _ hs = _
    rw [pd_run_A]
    show (do let e ← run pdArti (0 + 1) (.other 0) hs; return Ty.list e {}) = _
    rw [pdA_other]; rfl

/-- C62 is violated by series of objects that are not all strings: only the first value is looked
at. -/
theorem C62_violated_by_mixed_values (n : Nat) (hs : Hints) :
    pdToArtigraph (.series ⟨.object, [.str, .other n]⟩) hs = .ok (.list (.scalar .string {}) {}) :=
  C62_series_iff.2 (.inr ⟨rfl, rfl, rfl⟩)

/-! ## Examples -/

namespace Ex62

def rows : Ty := .collection "c".toList
  (.struct "s".toList [("a".toList, .scalar .int8 { nullable := true }), ("b".toList, .scalar .string {})] {})
  ["a".toList] [] {}

/-- A collection of structs becomes a frame and a plain list of structs. -/
example : ∃ o, pdToSystem rows [] = .ok o ∧ pdToArtigraph o [] = .ok (.list (.struct anon
    [("a".toList, .scalar .int8 {}), ("b".toList, .scalar .string {})] {}) {}) := by
  refine C62_pandas_roundtrip_partial (t := rows) (.frame .collection ?_) ?_ []
  · intro f hf
    rcases List.mem_cons.1 hf with rfl | hf
    · exact ⟨.scalar (by decide) (by decide), by rintro ⟨_, _, h⟩; cases h⟩
    · rcases List.mem_cons.1 hf with rfl | hf
      · exact ⟨.scalar (by decide) (by decide), by rintro ⟨_, _, h⟩; cases h⟩
      · cases hf
  · intro n fs m h
    cases h
    decide

/-- A two-dimensional array of bytes. -/
example : ∃ o, npToSystem (.list (.list (.binary (some 3) {}) {}) {}) [] = .ok o ∧
    npToArtigraph o [] = .ok (.list (.list (.binary none {}) {}) {}) :=
  C62_numpy_roundtrip (.list .list (.list .list (.stored .binary))) []

example : ¬ NumpySupported (.list (.map (.scalar .int8 {}) (.scalar .int8 {}) {}) {}) := by
  intro h
  cases h with
  | stored h => cases h
  | list hl h =>
    cases hl
    cases h with
    | stored h => cases h
    | list hl _ => cases hl

example : npToArtigraph (.array (some .uint8) [3, 2]) [] =
    .ok (.list (.list (.scalar .uint8 {}) {}) {}) :=
  C62_array_iff.2 ⟨by simp, by decide, .scalar .uint8 {}, .uint8, rfl, rfl, rfl, rfl⟩

/-- A frame with an integer and a string column keeps both. -/
example (hs : Hints) : ∃ t, pdToArtigraph (.frame [("a".toList, ⟨.np .int64, []⟩),
    ("b".toList, ⟨.object, [.str]⟩)]) hs = .ok t := by
  refine ⟨.list (.struct anon [("a".toList, .scalar .int64 {}), ("b".toList, .scalar .string {})] {}) {},
    C62_frame_iff.2 ⟨by decide, _, rfl, .cons ⟨rfl, ?_⟩ (.cons ⟨rfl, ?_⟩ .nil)⟩⟩
  · exact C62_series_iff.2 (.inl ⟨.int64, _, rfl, rfl, rfl, rfl⟩)
  · exact C62_series_iff.2 (.inr ⟨rfl, rfl, rfl⟩)

example : ¬ ([("a".toList, (⟨.object, []⟩ : PdSeries)), ("a".toList, ⟨.object, []⟩)].map Prod.fst).Nodup := by
  decide

end Ex62

end Props
end Arti
