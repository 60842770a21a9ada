import Verif.Lemmas.ClassDecl

/-!
# C72: storage classes and the partitions that they generate
-/

namespace Arti.Props
open Arti Decl PyDict
variable {Ty Ann : Type} [DecidableEq Ty] [DecidableEq Ann]

private theorem exists_of_sub {w : Classes Ty Ann} {c a : Nat} (h : Sub w c a) :
    ∃ k, w.classes[c]? = some k := by
  cases h with
  | refl h => exact ⟨_, h⟩
  | base h _ _ => exact ⟨_, h⟩

private theorem get?_ownFields {root : List Str} {d : PyDict Str Ann} (hd : (keys d).Nodup)
    (n : Str) : get? (ownFields root d) n = if n ∈ root then none else get? d n := by
  unfold ownFields
  induction d with
  | nil => simp
  | cons kv d ih =>
    obtain ⟨m, a⟩ := kv
    have hd' : (keys d).Nodup := (List.nodup_cons.1 hd).2
    by_cases hm : m ∈ root
    · rw [List.filter_cons_of_neg (by simpa using hm), ih hd']
      by_cases hn : m = n
      · subst hn; simp [hm]
      · simp [get?, hn]
    · rw [List.filter_cons_of_pos (by simpa using hm)]
      by_cases hn : m = n
      · subst hn; simp [get?, hm]
      · simp only [get?, if_neg hn]; exact ih hd'

private theorem nodup_ownFields {root : List Str} {d : PyDict Str Ann} (hd : (keys d).Nodup) :
    (keys (ownFields root d)).Nodup := by
  unfold ownFields keys
  exact hd.sublist (List.Sublist.map _ List.filter_sublist)

private theorem same_iff {w : Classes Ty Ann} (hw : WF w) {c p : Nat} {k pc : Cls Ty Ann}
    (hk : w.classes[c]? = some k) (hp : w.classes[p]? = some pc) :
    fdEq (ownFields storageRootFields k.fields) (ownFields partitionRootFields pc.fields) = true ↔
      SameFields w c p := by
  rw [fdEq_iff (nodup_ownFields (hw.nodup hk).1) (nodup_ownFields (hw.nodup hp).1)]
  unfold SameFields
  constructor
  · intro h n a
    have := h n
    rw [get?_ownFields (hw.nodup hk).1, get?_ownFields (hw.nodup hp).1] at this
    simp only [storageRootFields, List.not_mem_nil, if_false] at this
    rw [← hw.fieldIs hk, ← hw.fieldIs hp, this]
    split <;> simp_all
  · intro h n
    rw [get?_ownFields (hw.nodup hk).1, get?_ownFields (hw.nodup hp).1]
    simp only [storageRootFields, List.not_mem_nil, if_false]
    apply Option.ext
    intro a
    rw [hw.fieldIs hk, h n a, ← hw.fieldIs hp]
    split <;> simp_all

/-- C72: after any program, a storage class that is not marked abstract and has a
`storage_partition_type` has exactly the fields of its partition class, with the same annotations
(apart from the three fields that every partition has). -/
theorem C72_fields_agree (fieldAnn : Str → Ann) (ops : List (Op Ty Ann))
    (ho : ∀ op ∈ ops, op.WF) (c p : Nat) (hs : Sub (run fieldAnn ops) c storage)
    (hna : ¬ MarkedAbstract (run fieldAnn ops) c) (hp : PartitionType (run fieldAnn ops) c p) :
    SameFields (run fieldAnn ops) c p := by
  have hw := WF.run fieldAnn ho
  obtain ⟨k, hk⟩ := exists_of_sub hs
  have ha : k.abstract = false := by
    have habs : k.abstract = k.body.abstract.getD false := by
      rcases hw.cls c k hk with ⟨_, d⟩ | ⟨_, _, _, _, _, d⟩ <;> exact d.abstract
    rw [habs]
    cases hb : k.body.abstract with
    | none => rfl
    | some b => cases b <;> first | rfl | exact absurd ⟨k, hk, hb⟩ hna
  obtain ⟨pc, hpc, he⟩ := hw.stor c k hk ((hw.kind_iff 3 .storage (by simp [rootKind]) hk).2 hs) ha
    p ((hw.partitionType hk p).2 hp)
  exact (same_iff hw hk hpc).1 he

/-- The annotation that a field would have in a subclass of `base` with body `b`. -/
def WouldBe (w : Classes Ty Ann) (base : Nat) (b : Body Ty Ann) (n : Str) (a : Ann) : Prop :=
  get? b.fields n = some a ∨ (get? b.fields n = none ∧ FieldIs w base n a)

/-- C72: a subclass of `Storage` that is not marked abstract, whose partition class is `p`, is
accepted exactly if its fields, own and inherited, are those of the partition class. -/
theorem C72_accepted_iff (fieldAnn : Str → Ann) (ops : List (Op Ty Ann))
    (ho : ∀ op ∈ ops, op.WF) (base p : Nat) (b : Body Ty Ann) (hb : b.WF)
    (hbase : Sub (run fieldAnn ops) base storage) (hna : b.abstract ≠ some true)
    (hp : b.partType = some p ∨ b.partType = none ∧ PartitionType (run fieldAnn ops) base p)
    (hpk : Sub (run fieldAnn ops) p storagePartition) :
    (∃ w', declare (run fieldAnn ops) base b = .ok w') ↔
      ∀ n a, WouldBe (run fieldAnn ops) base b n a ↔
        (FieldIs (run fieldAnn ops) p n a ∧ n ∉ partitionRootFields) := by
  have hw := WF.run fieldAnn ho
  generalize run fieldAnn ops = w at *
  obtain ⟨q, hq⟩ := exists_of_sub hbase
  obtain ⟨pc, hpc⟩ := exists_of_sub hpk
  have hkd : (derive q base b).kind = .storage :=
    (hw.kind_iff 3 .storage (by simp [rootKind]) hq).2 hbase
  have ha : (derive q base b).abstract = false := by
    cases hb : b.abstract with
    | none => simp [derive, hb]
    | some x => cases x <;> simp_all [derive]
  have hd := derived_derive (base := base) hb (hw.nodup hq).1 (hw.nodup hq).2
  have hpt : (derive q base b).partType = some p := by
    rcases hp with h | ⟨h1, h2⟩
    · simp [derive, h]
    · simp [derive, h1, (hw.partitionType hq p).2 h2]
  have hok : (∃ w', declare w base b = .ok w') ↔
      fdEq (ownFields storageRootFields (derive q base b).fields)
        (ownFields partitionRootFields pc.fields) = true := by
    unfold declare storageHook
    simp only [hq, hkd, ha, hpt, hpc, bind, Except.bind, Bool.false_eq_true, if_false]
    by_cases he : fdEq (ownFields storageRootFields (derive q base b).fields)
        (ownFields partitionRootFields pc.fields) = true
    · simp [he]
    · simp [he]
  have hwb : ∀ n a, get? (derive q base b).fields n = some a ↔ WouldBe w base b n a := fun n a => by
    rw [hd.fields]
    unfold WouldBe
    rw [← hw.fieldIs hq]
    change (get? b.fields n).or (get? q.fields n) = _ ↔ _
    cases get? b.fields n <;> simp
  rw [hok, fdEq_iff (nodup_ownFields hd.nodupF) (nodup_ownFields (hw.nodup hpc).1)]
  constructor
  · intro h n a
    have := h n
    rw [get?_ownFields hd.nodupF, get?_ownFields (hw.nodup hpc).1] at this
    simp only [storageRootFields, List.not_mem_nil, if_false] at this
    rw [← hwb, ← hw.fieldIs hpc, this]
    split <;> simp_all
  · intro h n
    rw [get?_ownFields hd.nodupF, get?_ownFields (hw.nodup hpc).1]
    simp only [storageRootFields, List.not_mem_nil, if_false]
    apply Option.ext
    intro a
    rw [hwb, h n a, ← hw.fieldIs hpc]
    split <;> simp_all

/-- C72: a subclass of `Storage` that is marked abstract, or has no partition class, is accepted
whatever its fields are. -/
theorem C72_other_storage_classes_are_accepted (fieldAnn : Str → Ann) (ops : List (Op Ty Ann))
    (ho : ∀ op ∈ ops, op.WF) (base : Nat) (b : Body Ty Ann)
    (hbase : Sub (run fieldAnn ops) base storage)
    (h : b.abstract = some true ∨
      b.partType = none ∧ ∀ p, ¬ PartitionType (run fieldAnn ops) base p) :
    ∃ w', declare (run fieldAnn ops) base b = .ok w' := by
  have hw := WF.run fieldAnn ho
  generalize run fieldAnn ops = w at *
  obtain ⟨q, hq⟩ := exists_of_sub hbase
  have hkd : (derive q base b).kind = .storage :=
    (hw.kind_iff 3 .storage (by simp [rootKind]) hq).2 hbase
  unfold declare storageHook
  simp only [hq, hkd, bind, Except.bind]
  rcases h with h | ⟨h1, h2⟩
  · have ha : (derive q base b).abstract = true := by simp [derive, h]
    simp [ha]
  · have hpt : (derive q base b).partType = none := by
      cases hx : q.partType with
      | none => simp [derive, h1, hx]
      | some p => exact absurd ((hw.partitionType hq p).1 hx) (h2 p)
    simp only [hpt]
    cases (derive q base b).abstract <;> simp

/-- C72: `Storage[P]` itself is never instantiated. -/
theorem C72_subscripted_is_abstract (w w' : Classes Ty Ann) (base item : Nat)
    (h : subscript w base item = .ok w') :
    w'.classes.length = w.classes.length + 1 ∧
      new w' w.classes.length = .error .typeError := by
  unfold subscript at h
  split at h
  · rename_i q i hq hi
    split at h
    · simp only [bind, Except.bind] at h
      split at h
      · cases h
      · cases h
        refine ⟨by simp, ?_⟩
        unfold new
        simp [derive]
    · cases h
  · cases h

variable {Val : Type}

/-- Specification: the value of the field of the partition for the storage's value `v`: strings
are formatted, other values are passed on. -/
def Generated (toStr : Val → Option Str) (ofStr : Str → Val) (fmt : Str → Except Err Str)
    (v v' : Val) : Prop :=
  (toStr v = none ∧ v' = v) ∨ ∃ s s', toStr v = some s ∧ fmt s = .ok s' ∧ v' = ofStr s'

private theorem mapM_ok {α β : Type} {f : α → Except Err β} {g : α → β} :
    ∀ {l : List α}, (∀ x ∈ l, f x = .ok (g x)) → l.mapM f = .ok (l.map g)
  | [], _ => rfl
  | x :: l, h => by
    rw [List.mapM_cons, h x (by simp), mapM_ok fun y hy => h y (List.mem_cons_of_mem _ hy)]
    rfl

private theorem any_false {α : Type} {l : List α} {f : α → Bool} (h : ∀ x ∈ l, f x = false) :
    ¬ l.any f = true := by
  rw [List.any_eq_true]
  rintro ⟨x, hx, hf⟩
  rw [h x hx] at hf; cases hf

/-- C72 (partial: for storage classes that have a partition class): a storage whose class could be
instantiated generates its
partitions: if the values of the storage are valid, the strings among them can be formatted, and
the results are valid for the fields, as are the values of the three fields that every partition
has, a partition is made, with exactly the fields of the partition class, holding the values of
the storage, formatted. -/
theorem C72_partitions_are_generated_partial (fieldAnn : Str → Ann) (ops : List (Op Ty Ann))
    (ho : ∀ op ∈ ops, op.WF) (c p : Nat) (hs : Sub (run fieldAnn ops) c storage)
    (hnew : new (run fieldAnn ops) c = .ok ()) (hp : PartitionType (run fieldAnn ops) c p)
    (hpk : Sub (run fieldAnn ops) p storagePartition)
    (valid : Ann → Val → Bool) (vals : PyDict Str Val) (toStr : Val → Option Str)
    (ofStr : Str → Val) (fmt : Str → Except Err Str) (ifp pk st : Val)
    (hvals : ∀ n a, FieldIs (run fieldAnn ops) c n a →
      ∃ v, get? vals n = some v ∧ ∃ v', Generated toStr ofStr fmt v v' ∧ valid a v' = true)
    (hroot : ∀ n v, (n, v) ∈ partitionRootFields.zip [ifp, pk, st] →
      ∀ a, FieldIs (run fieldAnn ops) p n a → valid a v = true) :
    ∃ args, generatePartition valid (run fieldAnn ops) c vals toStr ofStr fmt ifp pk st = .ok args ∧
      (keys args).Nodup ∧
      (∀ n, n ∈ keys args ↔ ∃ a, FieldIs (run fieldAnn ops) p n a) ∧
      get? args "input_fingerprint".toList = some ifp ∧
      get? args "partition_key".toList = some pk ∧
      get? args "storage".toList = some st ∧
      ∀ n v, n ∉ partitionRootFields → (get? args n = some v →
        ∃ v0, get? vals n = some v0 ∧ Generated toStr ofStr fmt v0 v) := by
  have hw := WF.run fieldAnn ho
  obtain ⟨k, hk⟩ := exists_of_sub hs
  obtain ⟨pc, hpc⟩ := exists_of_sub hpk
  have hna : ¬ MarkedAbstract (run fieldAnn ops) c := by
    rintro ⟨k', hk', hab⟩
    rw [hk] at hk'; cases hk'
    have habs : k.abstract = k.body.abstract.getD false := by
      rcases hw.cls c k hk with ⟨_, d⟩ | ⟨_, _, _, _, _, d⟩ <;> exact d.abstract
    unfold new at hnew
    simp [hk, habs, hab] at hnew
  have hsame := C72_fields_agree fieldAnn ops ho c p hs hna hp
  have hpt := (hw.partitionType hk p).2 hp
  have hrf := hw.rootF p pc hpc ((hw.kind_iff 2 .partition (by simp [rootKind]) hpc).2 hpk)
  generalize run fieldAnn ops = w at *
  -- the names that are passed on
  let names := (keys k.fields).filter fun n => (keys pc.fields).contains n
  have hmem : ∀ {d : PyDict Str Ann} {n : Str}, n ∈ keys d ↔ ∃ a, get? d n = some a := by
    intro d n
    rw [← Option.isSome_iff_exists]
    have := get?_eq_none_iff d n
    cases hg : get? d n <;> simp_all
  have hnames : ∀ n, n ∈ names ↔ ∃ a, FieldIs w c n a := by
    intro n
    simp only [names, List.mem_filter, List.contains_iff_mem, hmem]
    constructor
    · rintro ⟨⟨a, h⟩, _⟩; exact ⟨a, (hw.fieldIs hk n a).1 h⟩
    · rintro ⟨a, h⟩
      exact ⟨⟨a, (hw.fieldIs hk n a).2 h⟩, a, (hw.fieldIs hpc n a).2 ((hsame n a).1 h).1⟩
  -- the values that are passed on
  have hex : ∀ n, ∃ v', n ∈ names → ∃ v, get? vals n = some v ∧ Generated toStr ofStr fmt v v' ∧
      ∀ a, FieldIs w c n a → valid a v' = true := by
    intro n
    by_cases hn : n ∈ names
    · obtain ⟨a, ha⟩ := (hnames n).1 hn
      obtain ⟨v, hv, v', hg, hva⟩ := hvals n a ha
      refine ⟨v', fun _ => ⟨v, hv, hg, fun a' ha' => ?_⟩⟩
      have h1 := (hw.fieldIs hk n a).2 ha
      rw [(hw.fieldIs hk n a').2 ha'] at h1
      cases h1; exact hva
    · exact ⟨ifp, fun h => absurd h hn⟩
  choose g hg using hex
  have hgen : generateFields w c vals toStr ofStr fmt = .ok (names.map fun n => (n, g n)) := by
    unfold generateFields
    simp only [hk, hpt, hpc]
    refine mapM_ok fun n hn => ?_
    obtain ⟨v, hv, hgn, _⟩ := hg n hn
    rcases hgn with ⟨h1, h2⟩ | ⟨s, s', h1, h2, h3⟩
    · simp only [hv, h1, h2]
    · simp only [hv, h1, h2, h3, bind, Except.bind]
  have hroots : ∀ n ∈ partitionRootFields, n ∉ names := by
    intro n hn hc
    obtain ⟨a, ha⟩ := (hnames n).1 hc
    exact ((hsame n a).1 ha).2 hn
  let args := partitionRootFields.zip [ifp, pk, st] ++ names.map fun n => (n, g n)
  have hkeys : keys args = partitionRootFields ++ names := by
    simp [args, keys, partitionRootFields, List.map_map, Function.comp_def]
  have hnd : (keys args).Nodup := by
    rw [hkeys, List.nodup_append]
    refine ⟨by simp [partitionRootFields], (hw.nodup hk).1.filter _, fun a ha b hb hab => ?_⟩
    subst hab; exact hroots a ha hb
  have hall : ∀ n, n ∈ keys args ↔ ∃ a, FieldIs w p n a := by
    intro n
    rw [hkeys, List.mem_append, hnames]
    constructor
    · rintro (h | ⟨a, h⟩)
      · obtain ⟨a, ha⟩ := Option.isSome_iff_exists.1 (hrf n h)
        exact ⟨a, (hw.fieldIs hpc n a).1 ha⟩
      · exact ⟨a, ((hsame n a).1 h).1⟩
    · rintro ⟨a, h⟩
      by_cases hn : n ∈ partitionRootFields
      · exact .inl hn
      · exact .inr ⟨a, (hsame n a).2 ⟨h, hn⟩⟩
  have hcon : construct valid pc args = .ok args := by
    unfold construct
    rw [if_neg (by simpa using hnd), if_neg, if_neg, if_neg]
    · refine any_false fun nv hnv => ?_
      obtain ⟨n, v⟩ := nv
      have hn : n ∈ keys args := List.mem_map.2 ⟨_, hnv, rfl⟩
      obtain ⟨a, ha⟩ := (hall n).1 hn
      have hga := (hw.fieldIs hpc n a).2 ha
      simp only [hga]
      rcases List.mem_append.1 hnv with h | h
      · simp [hroot n v h a ha]
      · obtain ⟨n', hn', he⟩ := List.mem_map.1 h
        cases he
        obtain ⟨_, _, _, hva⟩ := hg n hn'
        rw [hva a ((hsame n a).2 ⟨ha, fun hr => hroots n hr hn'⟩)]
        rfl
    · refine any_false fun n hn => ?_
      obtain ⟨a, ha⟩ := hmem.1 hn
      have := (hall n).2 ⟨a, (hw.fieldIs hpc n a).1 ha⟩
      simpa using this
    · refine any_false fun n hn => ?_
      obtain ⟨a, ha⟩ := (hall n).1 hn
      have := hmem.2 ⟨a, (hw.fieldIs hpc n a).2 ha⟩
      simpa using this
  refine ⟨args, ?_, hnd, hall, get?_of_mem hnd (by simp [args, partitionRootFields]),
    get?_of_mem hnd (by simp [args, partitionRootFields]),
    get?_of_mem hnd (by simp [args, partitionRootFields]), fun n v hn hv => ?_⟩
  · unfold generatePartition
    simp only [hgen, hk, hpt, hpc, bind, Except.bind]
    exact hcon
  · rcases List.mem_append.1 (get?_mem hv) with h | h
    · exact absurd (List.of_mem_zip h).1 hn
    · obtain ⟨n', hn', he⟩ := List.mem_map.1 h
      cases he
      obtain ⟨v0, h1, h2, _⟩ := hg n hn'
      exact ⟨v0, h1, h2⟩

namespace Ex72

/-- `LocalFilePartition`, `Storage[LocalFilePartition]` and `LocalFile` (`storage/local.py`) with the
field `path`, then three classes that are refused (a field of another type, a missing field and a
further field), and a subclass of `LocalFile`. The annotation 1 is `str`. -/
def ops : List (Op Nat Nat) :=
  [.declare 2 {
      fields := [("path".toList, 1)], attrs := [("compute_content_fingerprint".toList, .other)] },
   .subscript 3 4,
   .declare 5 {
      fields := [("path".toList, 1)], attrs := [("discover_partitions".toList, .other)] },
   .declare 5 {
      fields := [("path".toList, 2)], attrs := [("discover_partitions".toList, .other)] },
   .declare 5 { attrs := [("discover_partitions".toList, .other)] },
   .declare 6 { fields := [("bucket".toList, 1)] },
   .declare 6 {}]

def ann : Str → Nat := fun n => 100 + n.length

theorem wf : ∀ op ∈ ops, op.WF := by
  intro op h
  simp only [ops, List.mem_cons, List.not_mem_nil, or_false] at h
  rcases h with rfl | rfl | rfl | rfl | rfl | rfl | rfl <;>
    first | exact trivial | exact ⟨by simp [keys], by simp [keys]⟩

example : (run ann ops).classes.length = 8 ∧ new (run ann ops) 5 = .error .typeError ∧
    new (run ann ops) 6 = .ok () ∧ new (run ann ops) 7 = .ok () ∧ new (run ann ops) 4 = .ok () := by
  decide +kernel

/-- An abstract subclass of `LocalFile` with further fields. -/
example : ∃ w', declare (run ann ops) 6 { abstract := some true, fields := [("x".toList, 1)] } =
    .ok w' := by
  have hw := WF.run (Ty := Nat) ann wf
  have h6 : (run ann ops).classes[6]? = some ((run ann ops).classes[6]'(by decide +kernel)) :=
    List.getElem?_eq_getElem _
  exact C72_other_storage_classes_are_accepted ann ops wf 6 _
    ((hw.kind_iff 3 .storage (by simp [rootKind]) h6).1 (by decide +kernel)) (.inl rfl)

/-- Values: strings, or something else. -/
abbrev V := Str ⊕ Nat
/-- The annotation 1 accepts strings, the others accept the other values. -/
def valid (a : Nat) (v : V) : Bool := (a == 1) == v.isLeft
/-- Formatting adds a character. -/
def fmt (s : Str) : Except Err Str := .ok ('/' :: s)

example : generatePartition valid (run ann ops) 7 [("path".toList, .inl "p".toList)]
      (fun v => v.getLeft?) .inl fmt (.inr 0) (.inr 1) (.inr 2) =
    .ok [("input_fingerprint".toList, .inr 0), ("partition_key".toList, .inr 1),
      ("storage".toList, .inr 2), ("path".toList, .inl "/p".toList)] := by
  decide +kernel

/-- The hypotheses of `C72_partitions_are_generated_partial` hold for the subclass of `LocalFile`. -/
example : ∃ args, generatePartition valid (run ann ops) 7 [("path".toList, .inl "p".toList)]
      (fun v => v.getLeft?) .inl fmt (.inr 0) (.inr 1) (.inr 2) = .ok args ∧
    ∀ n, n ∈ keys args ↔ ∃ a, FieldIs (run ann ops) 4 n a := by
  have hw := WF.run (Ty := Nat) ann wf
  have h7 : (run ann ops).classes[7]? = some ((run ann ops).classes[7]'(by decide +kernel)) :=
    List.getElem?_eq_getElem _
  have h4 : (run ann ops).classes[4]? = some ((run ann ops).classes[4]'(by decide +kernel)) :=
    List.getElem?_eq_getElem _
  have hf7 : ((run ann ops).classes[7]'(by decide +kernel)).fields = [("path".toList, 1)] := by
    decide +kernel
  have hf4 : ((run ann ops).classes[4]'(by decide +kernel)).fields =
      [("input_fingerprint".toList, 117), ("partition_key".toList, 113), ("storage".toList, 107),
        ("path".toList, 1)] := by
    decide +kernel
  have hpt : PartitionType (run ann ops) 7 4 := (hw.partitionType h7 4).1 (by decide +kernel)
  have hs : Sub (run ann ops) 7 storage :=
    (hw.kind_iff 3 .storage (by simp [rootKind]) h7).1 (by decide +kernel)
  have hpk : Sub (run ann ops) 4 storagePartition :=
    (hw.kind_iff 2 .partition (by simp [rootKind]) h4).1 (by decide +kernel)
  obtain ⟨args, h1, _, h2, _⟩ := C72_partitions_are_generated_partial ann ops wf 7 4 hs (by decide +kernel)
    hpt hpk valid [("path".toList, .inl "p".toList)] (fun v => v.getLeft?) .inl fmt (.inr 0)
    (.inr 1) (.inr 2)
    (fun n a h => by
      have := (hw.fieldIs h7 n a).2 h
      rw [hf7] at this
      by_cases hn : "path".toList = n
      · subst hn
        have ha : a = 1 := by simpa [get?, eq_comm] using this
        subst ha
        exact ⟨.inl "p".toList, rfl, .inl "/p".toList, .inr ⟨"p".toList, "/p".toList, rfl, rfl, rfl⟩,
          rfl⟩
      · rw [get?, if_neg hn] at this; cases this)
    (fun n v h a ha => by
      have hga := (hw.fieldIs h4 n a).2 ha
      rw [hf4] at hga
      simp only [partitionRootFields, List.zip_cons_cons, List.zip_nil_left, List.mem_cons,
        Prod.mk.injEq, List.not_mem_nil, or_false] at h
      rcases h with ⟨rfl, rfl⟩ | ⟨rfl, rfl⟩ | ⟨rfl, rfl⟩
      · obtain rfl : 117 = a := Option.some.inj (Eq.trans (by decide +kernel) hga)
        rfl
      · obtain rfl : 113 = a := Option.some.inj (Eq.trans (by decide +kernel) hga)
        rfl
      · obtain rfl : 107 = a := Option.some.inj (Eq.trans (by decide +kernel) hga)
        rfl)
  exact ⟨args, h1, h2⟩

/-- A storage class that is a direct subclass of `Storage`, without a partition class. -/
def bare : List (Op Nat Nat) :=
  [.declare 3 {
      fields := [("path".toList, 1)], attrs := [("discover_partitions".toList, .other)] }]

end Ex72

/-- C72 is violated: a subclass of `Storage` without a partition class is accepted and instantiated,
with any fields, but generating a partition raises for all its instances. -/
theorem C72_violated_by_storage_without_partition_class :
    ∃ (ops : List (Op Nat Nat)) (c : Nat), (∀ op ∈ ops, op.WF) ∧
      Sub (run Ex72.ann ops) c storage ∧ new (run Ex72.ann ops) c = .ok () ∧
      ∀ (Val : Type) (valid : Nat → Val → Bool) (vals : PyDict Str Val) (toStr : Val → Option Str)
        (ofStr : Str → Val) (fmt : Str → Except Err Str) (ifp pk st : Val),
        generatePartition valid (run Ex72.ann ops) c vals toStr ofStr fmt ifp pk st =
          .error .attributeError := by
  have hwf : ∀ op ∈ Ex72.bare, op.WF := by
    intro op h
    simp only [Ex72.bare, List.mem_cons, List.not_mem_nil, or_false] at h
    subst h; exact ⟨by simp [keys], by simp [keys]⟩
  have hw := WF.run (Ty := Nat) Ex72.ann hwf
  have hk : (run Ex72.ann Ex72.bare).classes[4]? =
      some ((run Ex72.ann Ex72.bare).classes[4]'(by decide +kernel)) := List.getElem?_eq_getElem _
  have hpt : ((run Ex72.ann Ex72.bare).classes[4]'(by decide +kernel)).partType = none := by
    decide +kernel
  refine ⟨Ex72.bare, 4, hwf, (hw.kind_iff 3 .storage (by simp [rootKind]) hk).1 (by decide +kernel),
    by decide +kernel, fun Val valid vals toStr ofStr fmt ifp pk st => ?_⟩
  unfold generatePartition generateFields
  simp only [hk, hpt, bind, Except.bind]

end Arti.Props
