import Verif.Props.BigQuery
import Verif.Lemmas.Graph

/-!
# C60: reading the schemas of existing tables
-/

namespace Arti
namespace Props
open Typ Spec

/-- The column has no counterpart: `NotImplementedError`. -/
def known : Option α → Except Err α
  | some a => .ok a
  | none => .error .notImplemented

theorem bqA_other {n : Nat} {h : Hints} {nm : Str} {i : Nat} {mode : BqMode} {d : Option Str}
    {fs : List BqField} (hm : mode ≠ .repeated) :
    run bqArti (n + 1) (.field (.mk nm (.other i) mode d fs)) h = .error .notImplemented := by
  cases mode with
  | repeated => exact absurd rfl hm
  | required =>
    rw [bq_run_A, bqSortedA]
    simp only [bqSorted, List.map_cons, List.map_nil, List.cons_append, List.nil_append]
    repeat (rw [dispatched_false]; rotate_left; exact rfl)
    exact dispatched_nil
  | nullable =>
    rw [bq_run_A, bqSortedA]
    simp only [bqSorted, List.map_cons, List.map_nil, List.cons_append, List.nil_append]
    repeat (rw [dispatched_false]; rotate_left; exact rfl)
    exact dispatched_nil

theorem bqA_plain {n : Nat} {h : Hints} {nm : Str} {k : BqKind} {mode : BqMode} {d : Option Str}
    {fs : List BqField} (hm : mode ≠ .repeated) (hk : k ≠ .struct) :
    run bqArti (n + 1) (.field (.mk nm k mode d fs)) h =
      known ((bqPlain k).map (· { description := d, nullable := decide (mode = .nullable) })) := by
  cases k with
  | other i => exact bqA_other hm
  | struct => exact absurd rfl hk
  | bool => exact bqA_simple hm (.scalar .boolean) (by simp)
  | date => exact bqA_simple hm (.scalar .date) (by simp)
  | string => exact bqA_simple hm (.scalar .string) (by simp)
  | float64 => exact bqA_simple hm (.scalar .float64) (by simp)
  | int64 => exact bqA_simple hm (.scalar .int64) (by simp)
  | bytes => exact bqA_simple hm (.binary none) (by simp)
  | geography => exact bqA_simple hm (.geography none none) (by simp)
  | datetime => exact bqA_simple hm (.dateTime .microsecond) (by simp)
  | time => exact bqA_simple hm (.time .microsecond) (by simp)
  | timestamp => exact bqA_simple hm (.timestamp .microsecond) (by simp)

mutual
theorem bqRead_run : ∀ (f : BqField) (n : Nat) (h : Hints), f.size ≤ n →
    run bqArti n (.field f) h = known (bqRead f)
  | .mk nm k mode d fs, n, h, hn => by
    have fields := bqReadFields_run fs
    -- the conversion of the column itself
    have plain : ∀ (mode : BqMode) (n : Nat), mode ≠ .repeated → 1 + BqField.sizes fs ≤ n →
        run bqArti n (.field (.mk nm k mode d fs)) h =
          known (bqRead (.mk nm k mode d fs)) := by
      intro mode n hm hn
      obtain ⟨n, rfl⟩ : ∃ m, n = m + 1 := ⟨n - 1, by omega⟩
      rw [bqRead]
      by_cases hk : k = .struct
      · subst hk
        rw [bqA_struct hm, fields n h (by omega)]
        simp only [if_pos, if_neg hm]
        cases bqReadFields fs <;> rfl
      · rw [bqA_plain hm hk]
        simp only [if_neg hk, if_neg hm]
    rw [BqField.size] at hn
    by_cases hm : mode = .repeated
    · subst hm
      rw [if_pos rfl] at hn
      obtain ⟨n, rfl⟩ : ∃ m, n = m + 1 := ⟨n - 1, by omega⟩
      rw [bqA_list, plain .required n (by simp) (by omega), bqRead, bqRead]
      simp only [reduceCtorEq, if_false, if_true, decide_false]
      split
      · cases bqReadFields fs <;> rfl
      · cases bqPlain k <;> rfl
    · rw [if_neg hm] at hn
      exact plain mode n hm hn
theorem bqReadFields_run : ∀ (fs : List BqField) (n : Nat) (h : Hints), BqField.sizes fs ≤ n →
    bqFieldsA (run bqArti n) h fs = known (bqReadFields fs)
  | [], _, _, _ => rfl
  | f :: fs, n, h, hn => by
    rw [BqField.sizes] at hn
    rw [bqFieldsA, bqRead_run f n h (by omega), bqReadFields_run fs n h (by omega), bqReadFields]
    cases bqRead f with
    | none => rfl
    | some t => cases bqReadFields fs <;> rfl
end

theorem bqReadFields_names : ∀ {fs : List BqField} {ts : List (Str × Ty)},
    bqReadFields fs = some ts → ts.map Prod.fst = fs.map BqField.name
  | [], _, h => by simp only [bqReadFields, Option.some.injEq] at h; subst h; rfl
  | f :: fs, ts, h => by
    rw [bqReadFields] at h
    split at h
    · rename_i t ts' _ h2
      cases h
      simp [bqReadFields_names h2]
    · cases h

/-- C60: every column of an existing table, nested to any depth, is described by the type that its SQL
type, mode and description say; columns of other SQL types raise. -/
theorem C60_columns_are_described (f : BqField) :
    bqToArtigraph (.field f) = match bqRead f with
      | some t => .ok t
      | none => .error .notImplemented := by
  rw [show bqToArtigraph (.field f) = known (bqRead f) from bqRead_run f _ [] (Nat.le_refl _)]
  cases bqRead f <;> rfl

/-- C60: a table can be read exactly if its columns can, it has no range partitioning, and its time
partitioning, if any, is by the days of a column.  What is read has the id, the columns in order, the
partition column and the clustering columns of the table. -/
theorem C60_tables_are_described (t : BqTable) (c : Ty) :
    bqToArtigraph (.table t) = .ok c ↔ BqReadTable t c := by
  have hrun : bqToArtigraph (.table t) = (do
      let p ← bqPartitionBy t
      let e ← (do
        let ts ← known (bqReadFields t.schema)
        return Ty.struct anon (PyDict.ofItems ts) {})
      mkCollection t.id e p (t.clustering.getD []) {}) := by
    show run bqArti (2 + BqField.sizes t.schema) _ _ = _
    rw [show 2 + BqField.sizes t.schema = (BqField.sizes t.schema + 1) + 1 from by omega, bqA_table,
      bqA_struct (by simp), bqReadFields_run _ _ _ (Nat.le_refl _)]
    rfl
  have hpart : ∀ p, bqPartitionBy t = .ok p ↔ t.rangePart = false ∧
      (t.timePart = none ∧ p = [] ∨ ∃ f, t.timePart = some (true, some f) ∧ p = [f]) := by
    intro p
    unfold bqPartitionBy
    rcases t.timePart with _ | ⟨_ | _, _ | f⟩ <;> cases t.rangePart <;> simp [eq_comm]
  rw [hrun]
  have hmem : ∀ {fs : List (Str × Ty)} (x : Str), bqReadFields t.schema = some fs →
      (x ∈ (PyDict.ofItems fs).map Prod.fst ↔ x ∈ t.schema.map BqField.name) := by
    intro fs x h
    rw [← bqReadFields_names h]
    exact PyDict.mem_keys_ofItems fs x
  constructor
  · intro h
    cases hp : bqPartitionBy t with
    | error _ => rw [hp] at h; cases h
    | ok p =>
      rw [hp] at h
      cases hf : bqReadFields t.schema with
      | none => rw [hf] at h; cases h
      | some fs =>
        rw [hf] at h
        have h : mkCollection t.id (.struct anon (PyDict.ofItems fs) {}) p (t.clustering.getD []) {} =
          .ok c := h
        rw [mkCollection] at h
        split at h
        · rename_i h1
          split at h
          · rename_i h2
            split at h
            · cases h
            · rename_i h3
              cases h
              simp only [List.all_eq_true, List.contains_iff_mem, List.any_eq_true, not_exists,
                not_and] at h1 h2 h3
              exact ⟨((hpart p).1 hp).1, fs, p, hf, ((hpart p).1 hp).2,
                fun x hx => (hmem x hf).1 (h1 x hx), fun x hx => ⟨(hmem x hf).1 (h2 x hx), h3 x hx⟩,
                rfl⟩
          · cases h
        · cases h
  · rintro ⟨hr, fs, p, hf, hp, h1, h2, rfl⟩
    rw [(hpart p).2 ⟨hr, hp⟩, hf]
    show mkCollection t.id (.struct anon (PyDict.ofItems fs) {}) p (t.clustering.getD []) {} = _
    rw [mkCollection, if_pos, if_pos, if_neg]
    · simp only [List.any_eq_true, List.contains_iff_mem, not_exists, not_and]
      exact fun x hx => (h2 x hx).2
    · simp only [List.all_eq_true, List.contains_iff_mem]
      exact fun x hx => (hmem x hf).2 (h2 x hx).1
    · simp only [List.all_eq_true, List.contains_iff_mem]
      exact fun x hx => (hmem x hf).2 (h1 x hx)

namespace Ex60

/-- A table that is partitioned by hours cannot be read, the same table by days can. -/
def events (day : Bool) : BqTable where
  id := "p.d.t".toList
  schema := [.mk "at".toList .timestamp .required none [],
    .mk "r".toList .struct .repeated (some "rows".toList) [.mk "n".toList .int64 .nullable none []]]
  timePart := some (day, some "at".toList)
  rangePart := false
  requireFilter := false
  clustering := some ["r".toList]

example : BqReadTable (events true) (.collection "p.d.t".toList (.struct anon [
    ("at".toList, .timestamp .microsecond {}),
    ("r".toList, .list (.struct anon [("n".toList, .scalar .int64 { nullable := true })]
      { description := some "rows".toList }) { description := some "rows".toList })] {})
    ["at".toList] ["r".toList] {}) :=
  (C60_tables_are_described _ _).1 rfl

example : ∀ c, ¬ BqReadTable (events false) c := by
  rintro c ⟨_, fs, p, _, h, _⟩
  rcases h with ⟨h, _⟩ | ⟨f, h, _⟩ <;> cases h

end Ex60

end Props
end Arti
