import Verif.Lemmas.BigQuery

/-!
# C60: BigQuery schemas describe the types they are made from
-/

namespace Arti
namespace Props
open Typ Spec

/-! ## Tables -/

theorem bqTableId_iff {name : Str} (hc : ':' ∉ name) : (∃ i, bqTableId name = .ok i) ↔ BqId name := by
  unfold bqTableId
  rw [if_neg hc]
  constructor
  · rintro ⟨i, hi⟩
    split at hi
    · rename_i hl
      match hs : splitOn '.' name, hl with
      | [a, b, c], _ =>
        have hj := joinWith_splitOn '.' name
        rw [hs] at hj
        have hn := not_mem_splitOn '.' name
        rw [hs] at hn
        refine ⟨hc, a, b, c, hn a (by simp), hn b (by simp), hn c (by simp), ?_⟩
        rw [← hj]; simp [joinWith]
    · cases hi
  · rintro ⟨_, a, b, c, ha, hb, hcc, rfl⟩
    have : splitOn '.' (a ++ '.' :: b ++ '.' :: c) = [a, b, c] := by
      have h := splitOn_joinWith '.' [a, b, c] (by simp) (by simp [ha, hb, hcc])
      simpa [joinWith] using h
    rw [this]
    exact ⟨_, rfl⟩

theorem bqTableId_ok {name : Str} (h : BqId name) : bqTableId name = .ok name := by
  obtain ⟨i, hi⟩ := (bqTableId_iff h.1).2 h
  rw [hi]
  unfold bqTableId at hi
  rw [if_neg h.1] at hi
  split at hi
  · exact hi.symm
  · cases hi

theorem isDayPart_iff {t : Ty} : isDayPart t = true ↔ BqDay t := by
  cases t with
  | scalar s m => cases s <;> simp [isDayPart, BqDay]
  | _ => simp [isDayPart, BqDay]

theorem get?_of_mem {fs : List (Str × Ty)} (hn : (fs.map Prod.fst).Nodup) {k : Str} {t : Ty}
    (h : (k, t) ∈ fs) : PyDict.get? fs k = some t := PyDict.get?_of_mem hn h

theorem bqDefault_id : BqId "project.dataset.table".toList :=
  ⟨by decide, "project".toList, "dataset".toList, "table".toList, by decide, by decide, by decide, rfl⟩

/-- The name that a table gets. -/
def bqName (name : Str) : Str := if name = anon then "project.dataset.table".toList else name

theorem bqName_id {name : Str} (h : name = anon ∨ BqId name) : BqId (bqName name) := by
  unfold bqName
  split
  · exact bqDefault_id
  · exact h.resolve_left (by assumption)

/-- The table that a collection is converted to. -/
def tableOf (name : Str) (gs : List BqField) (p c : List Str) : BqTable where
  id := bqName name
  schema := gs
  timePart := p.head?.map fun f => (true, some f)
  rangePart := false
  requireFilter := p.head?.isSome
  clustering := if p.tail ++ c = [] then none else some (p.tail ++ c)

theorem bqPartitioning_ok {fs : List (Str × Ty)} {p c : List Str} (hn : (fs.map Prod.fst).Nodup)
    (hp : ∀ head tail, p = head :: tail → ∃ t, (head, t) ∈ fs ∧ BqDay t) :
    bqPartitioning fs p c = .ok (p.head?.map fun f => (true, some f), p.tail ++ c) := by
  cases p with
  | nil => rfl
  | cons head tail =>
    obtain ⟨t, ht, hd⟩ := hp head tail rfl
    simp only [bqPartitioning, get?_of_mem hn ht, isDayPart_iff.2 hd, if_true]
    rfl

theorem bqTable_there {nm sn : Str} {fs : List (Str × Ty)} {p c : List Str} {m sm : Meta}
    (hv : Valid (.collection nm (.struct sn fs sm) p c m))
    (hs : BqSupported (.collection nm (.struct sn fs sm) p c m)) :
    ∃ gs : List BqField, List.Forall₂ (fun x g => BqColumn x.1 x.2 g) fs gs ∧
      bqToSystem (.collection nm (.struct sn fs sm) p c m) = .ok (.table (tableOf nm gs p c)) ∧
      ∀ n h', BqField.sizes gs ≤ n → bqFieldsA (run bqArti n) h' gs = .ok (bqForgetFields fs) := by
  simp only [Valid] at hv
  simp only [BqSupported] at hs
  obtain ⟨gs, h1, h0, h2, h3⟩ := bqFields_round (h := []) (fs := fs)
    (fun x hx => bqFields_mem hs.1 hx) fun x hx h =>
      bqData_round _ x.2 (Nat.le_refl _) (bqFields_mem hs.1 hx) (distinctF_mem hv.1.2 hx) h
  refine ⟨gs, h0, ?_, h3⟩
  have hid : bqTableId (if nm = anon then "project.dataset.table".toList else nm) = .ok (bqName nm) :=
    bqTableId_ok (bqName_id hs.2.1)
  rw [bqToSystem, Ty.size, Ty.size,
    show 1 + (1 + Ty.sizes fs) = (Ty.sizes fs + 1) + 1 from by omega, bqS_table, bqS_struct,
    h2 _ (by omega), bqPartitioning_ok hv.1.1 hs.2.2, hid]
  simp only [bind, Except.bind, pure, Except.pure, asField]
  cases p <;> rfl

/-- C60: a type can be converted exactly if it is supported: no unsigned integers, nulls, enums, sets,
maps, or lists directly in lists, at any depth, and tables are partitioned by a day first and have an id
of three parts. -/
theorem C60_accepted_iff (t : Ty) (hv : Valid t)
    (hc : ∀ n e p c m, t = .collection n e p c m → ':' ∉ n) :
    (∃ o, bqToSystem t = .ok o) ↔ BqSupported t := by
  have data : ∀ t : Ty, DistinctNames t → NoCollection t →
      ((∃ o, bqToSystem t = .ok o) ↔ BqData t) := by
    intro t hd hn
    constructor
    · rintro ⟨o, ho⟩
      exact bqData_of_ok _ _ _ _ hn ho
    · intro hb
      obtain ⟨f, hf⟩ := bqData_round _ t (Nat.le_refl _) hb hd []
      exact ⟨_, hf.there _ (Nat.le_refl _)⟩
  cases t with
  | collection n e p c m =>
    cases e with
    | struct sn fs sm =>
      have hcn := hc _ _ _ _ _ rfl
      constructor
      · rintro ⟨o, ho⟩
        have hv' := hv
        simp only [Valid] at hv'
        have ho' : run bqSys ((Ty.sizes fs + 1) + 1) (.collection n (.struct sn fs sm) p c m) [] =
            .ok o := by
          rw [← ho, show Ty.sizes fs + 1 + 1 = 1 + (1 + Ty.sizes fs) from by omega]; rfl
        rw [bqS_table, bqS_struct] at ho'
        cases h1 : bqFieldsS (run bqSys (Ty.sizes fs)) [] fs with
        | error _ => rw [h1] at ho'; cases ho'
        | ok gs =>
          rw [h1] at ho'
          simp only [bind, Except.bind, pure, Except.pure, asField] at ho'
          cases h2 : bqTableId (if n = anon then "project.dataset.table".toList else n) with
          | error _ => rw [h2] at ho'; cases ho'
          | ok i =>
            rw [h2] at ho'
            simp only at ho'
            cases h3 : bqPartitioning fs p c with
            | error _ => rw [h3] at ho'; cases ho'
            | ok pc =>
              refine ⟨bqFields_of_ok _ _ _ _ hv'.2.1 h1, ?_, ?_⟩
              · by_cases hn : n = anon
                · exact .inl hn
                · rw [if_neg hn] at h2
                  exact .inr ((bqTableId_iff hcn).1 ⟨i, h2⟩)
              · rintro head tail rfl
                simp only [bqPartitioning] at h3
                cases hg : PyDict.get? fs head with
                | none => rw [hg] at h3; cases h3
                | some t =>
                  rw [hg] at h3
                  refine ⟨t, PyDict.get?_mem hg, isDayPart_iff.1 ?_⟩
                  by_contra hd
                  simp only [hd, Bool.false_eq_true, if_false] at h3
                  split at h3 <;> cases h3
      · intro hs
        obtain ⟨gs, _, h, _⟩ := bqTable_there hv hs
        exact ⟨_, h⟩
    | _ => simp [Valid] at hv
  | _ => exact data _ hv.1 hv.2

/-- C60: the schema of the table of a collection has one column for each field, in order, with the name,
the SQL type, the mode and the description of the field; the table is partitioned by days of the first
partition field and clustered by the other ones. -/
theorem C60_table_has_the_columns {nm sn : Str} {fs : List (Str × Ty)} {p c : List Str} {m sm : Meta}
    (hv : Valid (.collection nm (.struct sn fs sm) p c m))
    (hs : BqSupported (.collection nm (.struct sn fs sm) p c m)) :
    ∃ t : BqTable, bqToSystem (.collection nm (.struct sn fs sm) p c m) = .ok (.table t) ∧
      List.Forall₂ (fun x g => BqColumn x.1 x.2 g) fs t.schema ∧
      (nm ≠ anon → t.id = nm) ∧
      t.timePart = p.head?.map (fun f => (true, some f)) ∧ t.requireFilter = p.head?.isSome ∧
      t.clustering.getD [] = p.tail ++ c := by
  obtain ⟨gs, h0, h, _⟩ := bqTable_there hv hs
  refine ⟨_, h, h0, fun hn => by simp [tableOf, bqName, hn], rfl, rfl, ?_⟩
  simp only [tableOf]
  split <;> simp_all

/-- C60: every supported type, nested to any depth, comes back as the same type, up to what BigQuery
cannot carry.  Partition fields that are listed twice are excluded. -/
theorem C60_roundtrip_partial {t : Ty} (hv : Valid t) (hs : BqSupported t)
    (hp : ∀ n e head tail c m, t = .collection n e (head :: tail) c m → head ∉ tail) :
    ∃ o, bqToSystem t = .ok o ∧ bqToArtigraph o = .ok (bqForgetRoot t) := by
  have data : ∀ t : Ty, DistinctNames t → BqData t → bqForgetRoot t = bqForget t →
      ∃ o, bqToSystem t = .ok o ∧ bqToArtigraph o = .ok (bqForgetRoot t) := by
    intro t hd hb he
    obtain ⟨f, hf⟩ := bqData_round _ t (Nat.le_refl _) hb hd []
    exact ⟨_, hf.there _ (Nat.le_refl _), by rw [he]; exact hf.back _ [] (Nat.le_refl _)⟩
  cases t with
  | collection n e p c m =>
    cases e with
    | struct sn fs sm =>
      obtain ⟨gs, _, h, h3⟩ := bqTable_there hv hs
      refine ⟨_, h, ?_⟩
      simp only [Valid] at hv
      show run bqArti (2 + BqField.sizes gs) _ _ = _
      rw [show 2 + BqField.sizes gs = (BqField.sizes gs + 1) + 1 from by omega, bqA_table]
      have hpart : bqPartitionBy (tableOf n gs p c) = .ok p.head?.toList := by
        cases p <;> rfl
      rw [hpart]
      simp only [tableOf]
      rw [bqA_struct (by simp), h3 _ _ (Nat.le_refl _)]
      simp only [bind, Except.bind, pure, Except.pure]
      have hnames : (bqForgetFields fs).map Prod.fst = fs.map Prod.fst := bqForgetFields_names fs
      rw [PyDict.ofItems_nodup (by rw [PyDict.keys, hnames]; exact hv.1.1)]
      have hcl : ((if p.tail ++ c = [] then none else some (p.tail ++ c) : Option (List Str)).getD []) =
          p.tail ++ c := by
        split <;> simp_all
      rw [hcl, mkCollection, if_pos, if_pos, if_neg]
      · rw [bqForgetRoot]; rfl
      · simp only [List.any_eq_true, List.contains_iff_mem, not_exists, not_and]
        intro x hx hx'
        cases p with
        | nil => simp at hx'
        | cons head tail =>
          simp only [List.head?_cons, Option.toList_some, List.mem_singleton] at hx'
          subst hx'
          simp only [List.tail_cons, List.mem_append] at hx
          rcases hx with hx | hx
          · exact hp _ _ _ _ _ _ rfl hx
          · exact hv.2.2.2.2 _ hx List.mem_cons_self
      · simp only [List.all_eq_true, List.contains_iff_mem, hnames]
        intro x hx
        rcases List.mem_append.1 hx with hx | hx
        · exact hv.2.2.1 _ (List.mem_of_mem_tail hx)
        · exact hv.2.2.2.1 _ hx
      · simp only [List.all_eq_true, List.contains_iff_mem, hnames]
        intro x hx
        refine hv.2.2.1 _ ?_
        cases p with
        | nil => simp at hx
        | cons head tail => simp at hx; simp [hx]
    | _ => simp [Valid] at hv
  | _ => exact data _ hv.1 hs (by rw [bqForgetRoot]; simp)

/-! ## What BigQuery carries completely -/

mutual
theorem bqForget_exact : ∀ t : Ty, BqExact t → bqForget t = t
  | .scalar s m, h => by rw [BqExact] at h; rw [bqForget, h]
  | .binary s m, h => by rw [BqExact] at h; rw [bqForget, h]
  | .geography f s m, h => by rw [BqExact] at h; rw [bqForget, h.1, h.2]
  | .dateTime p m, h => by rw [BqExact] at h; rw [bqForget, h]
  | .time p m, h => by rw [BqExact] at h; rw [bqForget, h]
  | .timestamp p m, h => by rw [BqExact] at h; rw [bqForget, h]
  | .list e m, h => by
    rw [BqExact] at h
    rw [bqForget, bqForget_exact e h.1, setNullable_self h.2.1, ← h.2.2.2]
    cases m; simp_all
  | .struct n fs m, h => by
    rw [BqExact] at h
    rw [bqForget, bqForgetFields_exact fs h.2, h.1]
  | .enum .., h => by simp [BqExact] at h
  | .set .., h => by simp [BqExact] at h
  | .map .., h => by simp [BqExact] at h
  | .collection .., h => by simp [BqExact] at h
theorem bqForgetFields_exact : ∀ fs : List (Str × Ty), BqExactFields fs → bqForgetFields fs = fs
  | [], _ => by rw [bqForgetFields]
  | (n, t) :: fs, h => by
    rw [BqExactFields] at h
    rw [bqForgetFields, bqForget_exact t h.1, bqForgetFields_exact fs h.2]
end

theorem bqExact_setNullable {t : Ty} {b : Bool} (h : BqExact t) (hl : ∀ e m, t ≠ .list e m) :
    BqExact (t.setNullable b) := by
  cases t with
  | list e m => exact absurd rfl (hl e m)
  | _ => simp_all [BqExact, Ty.setNullable, Ty.withMeta]

theorem bqForget_desc {t : Ty} (hl : ∀ e m, t ≠ .list e m) :
    (bqForget t).info.description = t.info.description := by
  cases t with
  | list e m => exact absurd rfl (hl e m)
  | _ => simp [bqForget, Ty.info]

theorem bqForget_not_list {t : Ty} (hl : ∀ e m, t ≠ .list e m) : ∀ e m, bqForget t ≠ .list e m := by
  cases t with
  | list e m => exact absurd rfl (hl e m)
  | _ => simp [bqForget]

mutual
theorem bqExact_forget : ∀ t : Ty, BqData t → BqExact (bqForget t)
  | .scalar s m, _ => by rw [bqForget, BqExact]; cases s <;> rfl
  | .binary s m, _ => by rw [bqForget, BqExact]
  | .geography f s m, _ => by rw [bqForget, BqExact]; exact ⟨rfl, rfl⟩
  | .dateTime p m, _ => by rw [bqForget, BqExact]
  | .time p m, _ => by rw [bqForget, BqExact]
  | .timestamp p m, _ => by rw [bqForget, BqExact]
  | .list e m, h => by
    rw [BqData] at h
    rw [bqForget, BqExact]
    exact ⟨bqExact_setNullable (bqExact_forget e h.2) (bqForget_not_list h.1),
      nullable_setNullable _ _, rfl, by rw [desc_setNullable, bqForget_desc h.1]⟩
  | .struct n fs m, h => by
    rw [BqData] at h
    rw [bqForget, BqExact]
    exact ⟨rfl, bqExact_forgetFields fs h⟩
  | .enum .., h => by simp [BqData] at h
  | .set .., h => by simp [BqData] at h
  | .map .., h => by simp [BqData] at h
  | .collection .., h => by simp [BqData] at h
theorem bqExact_forgetFields : ∀ fs : List (Str × Ty), BqFields fs →
    BqExactFields (bqForgetFields fs)
  | [], _ => by rw [bqForgetFields, BqExactFields]; trivial
  | (n, t) :: fs, h => by
    rw [BqFields] at h
    rw [bqForgetFields, BqExactFields]
    exact ⟨bqExact_forget t h.1, bqExact_forgetFields fs h.2⟩
end

/-- C60: types with 64-bit numbers, microseconds and no attributes that BigQuery does not have come back
unchanged, with their descriptions and with `nullable`. -/
theorem C60_roundtrip_identity_on_exact {t : Ty} (hd : DistinctNames t) (hs : BqData t)
    (he : BqExact t) : ∃ o, bqToSystem t = .ok o ∧ bqToArtigraph o = .ok t := by
  obtain ⟨f, hf⟩ := bqData_round _ t (Nat.le_refl _) hs hd []
  exact ⟨_, hf.there _ (Nat.le_refl _), by rw [← bqForget_exact t he]; exact hf.back _ [] (Nat.le_refl _)⟩

/-- C60: so do collections of such structs with a table id that are partitioned by at most one field. -/
theorem C60_tables_identity_on_exact {nm : Str} {fs : List (Str × Ty)} {p c : List Str}
    (hv : Valid (.collection nm (.struct anon fs {}) p c {}))
    (hs : BqSupported (.collection nm (.struct anon fs {}) p c {})) (he : BqExactFields fs)
    (hn : nm ≠ anon) (hp : p.length ≤ 1) :
    ∃ o, bqToSystem (.collection nm (.struct anon fs {}) p c {}) = .ok o ∧
      bqToArtigraph o = .ok (.collection nm (.struct anon fs {}) p c {}) := by
  have hp' : p = [] ∨ ∃ x, p = [x] := by
    match p, hp with
    | [], _ => exact .inl rfl
    | [x], _ => exact .inr ⟨x, rfl⟩
  obtain ⟨o, h1, h2⟩ := C60_roundtrip_partial hv hs (by
    rintro n e head tail c m h
    injection h with _ _ h
    rcases hp' with rfl | ⟨x, rfl⟩
    · cases h
    · injection h with _ h; simp [← h])
  refine ⟨o, h1, ?_⟩
  rw [h2, bqForgetRoot, if_neg hn, bqForgetFields_exact fs he]
  rcases hp' with rfl | ⟨x, rfl⟩ <;> rfl

/-- C60: what comes back is carried completely, so that further round trips change nothing. -/
theorem C60_forgets_once {t : Ty} (hs : BqData t) :
    BqExact (bqForget t) ∧ bqForget (bqForget t) = bqForget t :=
  ⟨bqExact_forget t hs, bqForget_exact _ (bqExact_forget t hs)⟩

/-! ## Where the round trip fails -/

/-- C60 is false for the description of any list: it is replaced by that of the elements. -/
theorem C60_violated_by_list_descriptions (d : Str) :
    ∃ o, bqToSystem (.list (.scalar .int64 {}) { description := some d }) = .ok o ∧
      bqToArtigraph o = .ok (.list (.scalar .int64 {}) {}) :=
  ⟨_, rfl, rfl⟩

/-- C60 is false for nullable lists and for lists of nullable elements (with a warning). -/
theorem C60_violated_by_nullable_lists :
    ∃ o, bqToSystem (.list (.scalar .int64 { nullable := true }) { nullable := true }) = .ok o ∧
      bqToArtigraph o = .ok (.list (.scalar .int64 {}) {}) :=
  ⟨_, rfl, rfl⟩

/-- C60 is false for collections in which a partition field is listed twice, which `Collection`
accepts: the table cannot be converted back. -/
theorem C60_violated_by_repeated_partition_fields :
    ∃ t o, mkCollection "p.d.t".toList (.struct anon [("day".toList, .scalar .date {})] {})
        ["day".toList, "day".toList] [] {} = .ok t ∧ bqToSystem t = .ok o ∧
      bqToArtigraph o = .error .valueError :=
  ⟨_, _, rfl, rfl, rfl⟩

/-- Tables that are partitioned by ingestion time cannot be converted. -/
theorem C60_ingestion_time_raises (t : BqTable) (ht : t.timePart = some (true, none))
    (hr : t.rangePart = false) : bqToArtigraph (.table t) = .error .valueError := by
  show run bqArti (2 + BqField.sizes t.schema) _ _ = _
  rw [Nat.add_comm, bqA_table]
  simp only [bqPartitionBy, ht, hr]
  rfl

namespace Ex60

/-- A table with a repeated record, partitioned by two fields. -/
def table : Ty :=
  .collection "p.d.events".toList (.struct "row".toList [
    ("day".toList, .scalar .date { description := some "d".toList }),
    ("n".toList, .scalar .int16 { nullable := true }),
    ("tags".toList, .list (.struct anon [("at".toList, .timestamp .nanosecond {}),
      ("xs".toList, .list (.binary (some 16) { nullable := true }) {})] {}) {})] {})
    ["day".toList, "n".toList] [] {}

example : Valid table ∧ BqSupported table ∧ bqForgetRoot table =
    .collection "p.d.events".toList (.struct anon [
      ("day".toList, .scalar .date { description := some "d".toList }),
      ("n".toList, .scalar .int64 { nullable := true }),
      ("tags".toList, .list (.struct anon [("at".toList, .timestamp .microsecond {}),
        ("xs".toList, .list (.binary none {}) {})] {}) {})] {})
      ["day".toList] ["n".toList] {} := by
  refine ⟨?_, ?_, rfl⟩
  · simp [table, Valid, DistinctNamesF, DistinctNames, NoCollectionF, NoCollection]
  · refine ⟨by simp [BqFields, BqData, BqScalar], .inr ⟨by decide, "p".toList, "d".toList,
      "events".toList, by decide, by decide, by decide, rfl⟩, ?_⟩
    rintro head tail h
    injection h with h _
    exact ⟨.scalar .date { description := some "d".toList }, by rw [← h]; exact List.mem_cons_self, trivial⟩

example : ¬ BqSupported (.list (.list (.scalar .int64 {}) {}) {}) := by
  simp [BqSupported, BqData]

example : ∃ t : BqTable, bqToSystem table = .ok (.table t) ∧ t.schema.map BqField.name =
    ["day".toList, "n".toList, "tags".toList] ∧ t.clustering = some ["n".toList] :=
  ⟨_, rfl, rfl, rfl⟩

end Ex60

end Props
end Arti
