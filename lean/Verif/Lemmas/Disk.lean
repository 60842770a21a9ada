import Verif.Spec.Disk
import Verif.Props.Discovery
import Verif.Examples.Apart
import Verif.Props.Build

/-! Lemmas about the world over real paths. -/

namespace Arti.Disk
open PyDict Stg Fmt Part Spec Props
variable {D : Type} {base : Env CKey D} {kt : Str → KeyTypes}

/-! ## Keys -/

theorem nodup_key (k : CKey) : (keys k.1).Nodup := by
  rw [keys, List.nodup_iff_pairwise_ne, List.pairwise_map]
  exact k.2.imp fun h => ne_of_lt h

theorem get?_perm {κ ν : Type} [DecidableEq κ] {a b : PyDict κ ν} (h : a.Perm b)
    (hn : (keys a).Nodup) (k : κ) : get? a k = get? b k := by
  have hn' : (keys b).Nodup := (h.map Prod.fst).nodup_iff.1 hn
  apply Option.ext
  intro v
  rw [← mem_iff_get? hn, ← mem_iff_get? hn', h.mem_iff]

theorem get?_ofPKey (pk : PKey) (k : Str) : get? (ofPKey pk).1 k = get? (ofItems pk) k :=
  get?_perm (List.perm_insertionSort _ _) (nodup_key (ofPKey pk)) k

theorem get?_ofPKey_nodup {pk : PKey} (h : (keys pk).Nodup) (k : Str) :
    get? (ofPKey pk).1 k = get? pk k := by
  rw [get?_ofPKey, get?_ofItems_nodup h]

/-- Keys with the same items are the same. -/
theorem key_ext {a b : CKey} (h : ∀ k, get? a.1 k = get? b.1 k) : a = b := by
  have hm : ∀ x, x ∈ a.1 ↔ x ∈ b.1 := fun x => by
    obtain ⟨k, v⟩ := x
    rw [mem_iff_get? (nodup_key a), mem_iff_get? (nodup_key b), h k]
  have hp : a.1.Perm b.1 := (List.perm_ext_iff_of_nodup
    (List.Nodup.of_map _ (nodup_key a)) (List.Nodup.of_map _ (nodup_key b))).2 hm
  refine Subtype.ext (hp.eq_of_pairwise ?_ a.2 b.2)
  intro x y _ _ h1 h2
  exact absurd h1 (not_lt_of_gt h2)

theorem key_eq_iff {a b : CKey} : fdEq a.1 b.1 = true ↔ a = b := by
  rw [fdEq_iff (nodup_key a) (nodup_key b)]
  exact ⟨key_ext, fun h k => by rw [h]⟩

theorem ofPKey_eq {pk : PKey} (h : (keys pk).Nodup) {k : CKey} :
    ofPKey pk = k ↔ fdEq pk k.1 = true := by
  rw [fdEq_iff h (nodup_key k)]
  constructor
  · rintro rfl n; rw [get?_ofPKey_nodup h]
  · intro hk
    exact key_ext fun n => by rw [get?_ofPKey_nodup h, hk n]

theorem conforms_iff {kt : KeyTypes} {k : CKey} : conforms kt k.1 = true ↔ Conforms kt k.1 := by
  simp only [conforms, Bool.and_eq_true, sameSet_iff, List.all_eq_true, beq_iff_eq]
  constructor
  · rintro ⟨h1, h2⟩
    refine ⟨nodup_key k, h1, fun n v h => (h2 (n, v) h).1, fun n v h => ?_⟩
    have := (h2 (n, v) h).2
    cases v <;> first | exact this | trivial
  · intro h
    refine ⟨h.same, fun x hx => ⟨h.cls x.1 x.2 hx, ?_⟩⟩
    have := h.valid x.1 x.2 hx
    obtain ⟨n, v⟩ := x
    cases v <;> first | exact this | rfl

theorem inRange_iff {fp : Option Fp} : inRange fp = true ↔ ∀ w, fp = some w → Int64Range w := by
  cases fp with
  | none => simp [inRange]
  | some w => simp [inRange, Int64Range]

/-! ## Generating partitions -/

theorem kwargs_get (fp : Option Fp) (pk : PKey) (k : Str) :
    get? (kwargs fp pk) k = argOf fp pk k := by
  have hb : ∀ k, get? (pk.map fun (k, v) => (k, FVal.field v)) k = (get? pk k).map .field := by
    intro k
    induction pk with
    | nil => rfl
    | cons x pk ih =>
      simp only [List.map_cons, get?]
      split
      · rfl
      · exact ih
  unfold kwargs argOf
  cases fp with
  | none => exact hb k
  | some w =>
    simp only [get?_set, hb]
    by_cases h : ifpName = k
    · simp [h]
    · simp [h, Ne.symm h]

/-- In the world over real paths partitions are where `LocalFile.generate_partition` puts them. -/
theorem generate_eq {t : Tmpl} (ht : t.keyed = !(kt t.text).isEmpty) {fp : Option Fp} {k : CKey}
    (hc : conforms (kt t.text) k.1 = true) (hr : inRange fp = true) :
    World.generate (disk base kt) (.file t) fp k =
      (genFile ⟨t.text, some (kt t.text)⟩ fp k.1).map fun p => ⟨.file t, fp, k, .file p.path⟩ := by
  have hk : (k = (disk base kt).npKey) ↔ k.1 = [] := by
    constructor
    · rintro rfl; rfl
    · intro h; exact Subtype.ext h
  unfold World.generate genFile genKwargs World.checkKey Stg.checkKey
  simp only [Sto.tmpl, Sto.hasFp, ht, List.any_cons, List.any_nil, Bool.or_false, ne_eq, hk]
  have h1 : (k.1.isEmpty = true) ↔ k.1 = [] := List.isEmpty_iff
  cases hke : (kt t.text).isEmpty <;> by_cases hp : k.1 = [] <;>
    cases fp <;> rcases Bool.eq_false_or_eq_true (isInfix ifpTmpl t.text) with hi | hi <;>
    simp [hp, bind, Except.bind, disk, render, hc, hr, Except.map, kwargs, hi] <;>
    (try (split <;> simp_all))

theorem generate_ok_iff {t : Tmpl} {T : List Tok} (hx : t.text = print T)
    (ht : t.keyed = !(kt t.text).isEmpty) {fp : Option Fp} {k : CKey} {part : Prt CKey} :
    World.generate (disk base kt) (.file t) fp k = .ok part ↔
      ∃ path, part = ⟨.file t, fp, k, .file path⟩ ∧ PartitionAt (kt t.text) T fp k.1 path := by
  by_cases hcr : conforms (kt t.text) k.1 = true ∧ inRange fp = true
  · rw [generate_eq ht hcr.1 hcr.2]
    constructor
    · intro h
      cases hg : genFile ⟨t.text, some (kt t.text)⟩ fp k.1 with
      | error e => rw [hg] at h; simp [Except.map] at h
      | ok p =>
        rw [hg] at h
        simp only [Except.map, Except.ok.injEq] at h
        refine ⟨p.path, h.symm, conforms_iff.1 hcr.1, inRange_iff.1 hcr.2, ?_⟩
        rw [← hx, hg]
        unfold genFile at hg
        simp only [bind, Except.bind] at hg
        split at hg
        · simp at hg
        · split at hg
          · simp at hg
          · simp only [Except.ok.injEq] at hg
            rw [← hg]
    · rintro ⟨path, rfl, h⟩
      rw [hx, ← hx, ]
      have := h.path
      rw [← hx] at this
      rw [this]
      rfl
  · constructor
    · intro h
      exfalso
      apply hcr
      unfold World.generate at h
      simp only [bind, Except.bind] at h
      split at h
      · simp at h
      · split at h
        · simp at h
        · split at h
          · simp at h
          · split at h
            · simp at h
            · rename_i heq
              simp only [disk, render] at heq
              split at heq
              · rename_i hh; simpa using hh
              · simp at heq
    · rintro ⟨path, rfl, h⟩
      exact absurd ⟨conforms_iff.2 h.conforms, inRange_iff.2 h.range⟩ hcr

end Arti.Disk
namespace Arti.Disk
open PyDict Stg Fmt Part Spec Props
variable {D : Type} {base : Env CKey D} {kt : Str → KeyTypes}

/-! ## Discovering partitions -/

/-- `parse_spec` filters what the paths say. -/
theorem parseSpec_eq (toks : List Tok) (kt : KeyTypes) (ifps : InputFps) : ∀ paths,
    parseSpec toks kt ifps paths = (scanPaths toks kt paths).map fun xs =>
      xs.filter fun x => decide ((ifpGet ifps x.2).join = x.1)
  | [] => rfl
  | path :: paths => by
    simp only [parseSpec, scanPaths]
    cases lazyMatch toks [] path with
    | none => rfl
    | some named =>
      simp only
      cases expand named >>= extractPlaceholders kt with
      | error e => rfl
      | ok x =>
        simp only [parseSpec_eq toks kt ifps paths]
        cases scanPaths toks kt paths with
        | error e => rfl
        | ok xs =>
          simp only [Except.map, List.filter_cons]
          split <;> simp_all

theorem scanPaths_ok {cls : FieldCls} {kt : KeyTypes} {T : List Tok} (hD : Discoverable cls kt T) :
    ∀ paths : List Str, (∀ path ∈ paths, ∃ fp pk, PartitionAt kt T fp pk path) →
    ∃ xs, scanPaths T kt paths = .ok xs ∧
      List.Forall₂ (fun path x => PartitionAt kt T x.1 x.2 path) paths xs
  | [], _ => ⟨[], rfl, .nil⟩
  | path :: paths, h => by
    obtain ⟨xs, h1, h2⟩ := scanPaths_ok hD paths fun p hp => h p (List.mem_cons_of_mem _ hp)
    obtain ⟨fp, pk, hpa⟩ := h path (by simp)
    obtain ⟨named, pk', e1, ex, -, -, e2, e3, e4⟩ := extract_path hD hpa
    exact ⟨(fp, pk') :: xs, by simp only [scanPaths, e1, ex, bind, Except.bind, e2, h1],
      .cons (partitionAt_congr hD.ok hpa e3 e4) h2⟩

theorem partitionAt_ofPKey {kt : KeyTypes} {T : List Tok} (hT : tmplOk T = true) {fp : Option Fp}
    {pk : PKey} {path : Str} (hp : PartitionAt kt T fp pk path) :
    PartitionAt kt T fp (ofPKey pk).1 path :=
  partitionAt_congr hT hp (get?_ofPKey_nodup hp.conforms.nodup) (nodup_key _)

/-- A partition is at one path, and a path is of one partition. -/
theorem partitionAt_path {kt : KeyTypes} {T : List Tok} {fp : Option Fp} {pk : PKey}
    {path path' : Str} (h : PartitionAt kt T fp pk path) (h' : PartitionAt kt T fp pk path') :
    path = path' := by
  have := h.path.symm.trans h'.path
  simpa using this

theorem partitionAt_key {cls : FieldCls} {kt : KeyTypes} {T : List Tok}
    (hD : Discoverable cls kt T) {fp fp' : Option Fp} {k k' : CKey} {path : Str}
    (h : PartitionAt kt T fp k.1 path) (h' : PartitionAt kt T fp' k'.1 path) :
    fp = fp' ∧ k = k' := by
  obtain ⟨named, pk, e1, -, -, -, e2, e3, -⟩ := extract_path hD h
  obtain ⟨named', pk', f1, -, -, -, f2, f3, -⟩ := extract_path hD h'
  rw [e1] at f1
  cases f1
  rw [e2] at f2
  cases f2
  exact ⟨rfl, key_ext fun n => (e3 n).symm.trans (f3 n)⟩

theorem fits_of_partitionAt {cls : FieldCls} {kt : KeyTypes} {T : List Tok}
    (hD : Discoverable cls kt T) {fp : Option Fp} {pk : PKey} {path : Str}
    (h : PartitionAt kt T fp pk path) : globMatch true (wild T) path = true ∧ Fits T path := by
  obtain ⟨-, -, -, -, hr⟩ := genFile_ok hD.ok h.path
  rw [disc_strip hD] at hr
  have hg := glob_of_render (b := true) hD.noGlob (fun f t h => fieldText_chars h) hr
  exact ⟨hg, fits_of_glob hD.noGlob hg⟩

/-- Every file of the form of the template is the file of a partition. -/
def Clean (kt : KeyTypes) (T : List Tok) (files : PyDict Str Str) : Prop :=
  ∀ path, get? files path ≠ none → Fits T path → ∃ fp pk, PartitionAt kt T fp pk path

theorem scan_ok {t : Tmpl} {T : List Tok} {cls : FieldCls} (hx : t.text = print T)
    (hD : Discoverable cls (kt t.text) T) {files : PyDict Str Str}
    (hcl : Clean (kt t.text) T files) :
    ∃ xs, (disk base kt).scan t (keys files) = .ok (xs.map fun x => (x.1, ofPKey x.2)) ∧
      scanPaths T (kt t.text) ((keys files).filter (globMatch true (wild T))) = .ok xs ∧
      List.Forall₂ (fun path x => PartitionAt (kt t.text) T x.1 x.2 path)
        ((keys files).filter (globMatch true (wild T))) xs := by
  obtain ⟨xs, h1, h2⟩ := scanPaths_ok hD ((keys files).filter (globMatch true (wild T)))
    fun path hp => by
      obtain ⟨hp1, hp2⟩ := List.mem_filter.1 hp
      exact hcl path (fun h => (get?_eq_none_iff _ _).1 h hp1) (fits_of_glob hD.noGlob hp2)
  refine ⟨xs, ?_, h1, h2⟩
  have hw : specToWildcard t.text (kt t.text) = .ok (wild T) := by
    have := specToWildcard_ok hD; rw [← hx] at this; exact this
  have hp : parse t.text = .ok T := by rw [hx]; exact parse_print T hD.ok
  simp only [disk, scan, bind, Except.bind, hw, hp, h1]

theorem forall₂_left {α β : Type} {R : α → β → Prop} {l : List α} {r : List β}
    (h : List.Forall₂ R l r) {a : α} (ha : a ∈ l) : ∃ b ∈ r, R a b := by
  induction h with
  | nil => simp at ha
  | cons h1 _ ih =>
    rcases List.mem_cons.1 ha with rfl | ha
    · exact ⟨_, .head _, h1⟩
    · obtain ⟨b, hb, h⟩ := ih ha
      exact ⟨b, .tail _ hb, h⟩

theorem forall₂_right {α β : Type} {R : α → β → Prop} {l : List α} {r : List β}
    (h : List.Forall₂ R l r) {b : β} (hb : b ∈ r) : ∃ a ∈ l, R a b := by
  obtain ⟨a, ha, h⟩ := forall₂_left h.flip hb
  exact ⟨a, ha, h⟩

/-- What is discovered: exactly the wanted partitions whose files exist. -/
theorem discover_ok {t : Tmpl} {T : List Tok} {cls : FieldCls} (hx : t.text = print T)
    (ht : t.keyed = !(kt t.text).isEmpty) (hD : Discoverable cls (kt t.text) T)
    {files : PyDict Str Str} (hcl : Clean (kt t.text) T files) (ifps : PyDict CKey Fp) :
    ∃ ps, World.discover (disk base kt) files (.file t) ifps = .ok ps ∧
      ∀ sn, sn ∈ ps ↔ ∃ fp k path c, sn = ⟨base.fileHash c, .file t, fp, k, .file path⟩ ∧
        PartitionAt (kt t.text) T fp k.1 path ∧ get? files path = some c ∧ get? ifps k = fp := by
  obtain ⟨xs, h1, -, h2⟩ := scan_ok (base := base) hx hD hcl
  have hone : ∀ x : Option Fp × CKey, ∀ path, PartitionAt (kt t.text) T x.1 x.2.1 path →
      ∀ c, get? files path = some c → World.snapOne (disk base kt) files (.file t) x =
        .ok ⟨base.fileHash c, .file t, x.1, x.2, .file path⟩ := by
    intro x path hp c hc
    unfold World.snapOne
    rw [(generate_ok_iff hx ht).2 ⟨path, rfl, hp⟩]
    simp only [Except.bind, World.snap, World.content, hc, World.contentFp]
    rfl
  have hsrc : ∀ x ∈ xs.map (fun x => (x.1, ofPKey x.2)), ∃ path c,
      PartitionAt (kt t.text) T x.1 x.2.1 path ∧ get? files path = some c := by
    intro x hx'
    obtain ⟨y, hy, rfl⟩ := List.mem_map.1 hx'
    obtain ⟨path, hp1, hp2⟩ := forall₂_right h2 hy
    obtain ⟨c, hc⟩ := Option.ne_none_iff_exists'.1 fun h =>
      (get?_eq_none_iff files path).1 h (List.mem_filter.1 hp1).1
    exact ⟨path, c, partitionAt_ofPKey hD.ok hp2, hc⟩
  let found := (xs.map fun x => (x.1, ofPKey x.2)).filter fun x => decide (get? ifps x.2 = x.1)
  obtain ⟨ps, hps⟩ := (World.snapAll_ok_iff (env := disk base kt) (files := files)
    (sto := .file t) (l := found)).2 fun x hxm => by
      obtain ⟨path, c, hp, hc⟩ := hsrc x (List.mem_filter.1 hxm).1
      exact ⟨_, hone x path hp c hc⟩
  refine ⟨ps, ?_, fun sn => ?_⟩
  · simp only [World.discover, h1, bind, Except.bind]
    exact hps
  · rw [World.mem_snapAll_iff hps]
    constructor
    · rintro ⟨x, hxm, hs⟩
      obtain ⟨hm, hw⟩ := List.mem_filter.1 hxm
      obtain ⟨path, c, hp, hc⟩ := hsrc x hm
      rw [hone x path hp c hc] at hs
      cases hs
      exact ⟨x.1, x.2, path, c, rfl, hp, hc, by simpa using hw⟩
    · rintro ⟨fp, k, path, c, rfl, hp, hc, hw⟩
      refine ⟨(fp, k), List.mem_filter.2 ⟨?_, by simpa using hw⟩, hone (fp, k) path hp c hc⟩
      have hm : path ∈ (keys files).filter (globMatch true (wild T)) :=
        List.mem_filter.2 ⟨Classical.byContradiction fun h => by
          rw [(get?_eq_none_iff files path).2 h] at hc; simp at hc, (fits_of_partitionAt hD hp).1⟩
      obtain ⟨x, hxm, h3⟩ := forall₂_left h2 hm
      obtain ⟨e1, e2⟩ := partitionAt_key hD hp (partitionAt_ofPKey hD.ok h3)
      exact List.mem_map.2 ⟨x, hxm, by rw [e1, e2]⟩

end Arti.Disk

namespace Arti.Disk
open PyDict Stg Fmt Part Spec Props
variable {D : Type} {base : Env CKey D} {kt : Str → KeyTypes}

theorem ifpGet_eq (ifps : PyDict CKey Fp) {pk : PKey} (hn : (keys pk).Nodup) :
    (ifpGet (ifps.map fun x => (x.1.1, some x.2)) pk).join = get? ifps (ofPKey pk) := by
  induction ifps with
  | nil => rfl
  | cons x ifps ih =>
    have : fdEq x.1.1 pk = decide (x.1 = ofPKey pk) := by
      rw [Bool.eq_iff_iff, decide_eq_true_iff, fdEq_iff (nodup_key _) hn, eq_comm, ofPKey_eq hn,
        fdEq_iff hn (nodup_key _)]
      exact ⟨fun h k => (h k).symm, fun h k => (h k).symm⟩
    simp only [List.map_cons, ifpGet, this, get?, decide_eq_true_eq]
    split
    · rfl
    · exact ih

/-- In the world over real paths, discovery is `LocalFile.discover_partitions`. -/
theorem discover_eq {t : Tmpl} {T : List Tok} {cls : FieldCls} (hx : t.text = print T)
    (ht : t.keyed = !(kt t.text).isEmpty) (hD : Discoverable cls (kt t.text) T)
    {files : PyDict Str Str} (hcl : Clean (kt t.text) T files) (ifps : PyDict CKey Fp) :
    World.discover (disk base kt) files (.file t) ifps =
      (discoverFile base.fileHash files ⟨t.text, some (kt t.text)⟩
        (ifps.map fun x => (x.1.1, some x.2))).map fun snaps => snaps.map fun s =>
          ⟨s.contentFp, .file t, s.partition.inputFp, ofPKey s.partition.key,
            .file s.partition.path⟩ := by
  obtain ⟨xs, h1, h2, h3⟩ := scan_ok (base := base) hx hD hcl
  have hw : specToWildcard t.text (kt t.text) = .ok (wild T) := by
    have := specToWildcard_ok hD; rw [← hx] at this; exact this
  have hp : parse t.text = .ok T := by rw [hx]; exact parse_print T hD.ok
  simp only [World.discover, h1, discoverFile, bind, Except.bind, hw, hp, parseSpec_eq, h2,
    Except.map]
  have hall : ∀ x ∈ xs, ∃ path, PartitionAt (kt t.text) T x.1 x.2 path ∧
      get? files path ≠ none := by
    intro x hxm
    obtain ⟨path, hp1, hp2⟩ := forall₂_right h3 hxm
    exact ⟨path, hp2, fun h => (get?_eq_none_iff files path).1 h (List.mem_filter.1 hp1).1⟩
  clear h1 h2 h3
  induction xs with
  | nil => rfl
  | cons x xs ih =>
    have ih := ih fun y hy => hall y (List.mem_cons_of_mem _ hy)
    obtain ⟨path, hpa, hf⟩ := hall x (by simp)
    obtain ⟨c, hc⟩ := Option.ne_none_iff_exists'.1 hf
    simp only [List.map_cons, List.filter_cons, ifpGet_eq ifps hpa.conforms.nodup]
    split
    · rw [World.snapAll]
      simp only [Stg.snapAll, bind, Except.bind,
        (generate_ok_iff (base := base) hx ht).2 ⟨path, rfl, partitionAt_ofPKey hD.ok hpa⟩,
        World.snap, World.content, hc, ih]
      have := hpa.path
      rw [← hx] at this
      rw [this]
      simp only [snapFile, hc]
      cases Stg.snapAll base.fileHash files ⟨t.text, some (kt t.text)⟩ _ <;> rfl
    · exact ih

/-! ## No clashes, and nothing is mistaken -/

variable {gs : Graph → Prop} {files0 : PyDict Str Str}

theorem templateOf_unique {sto : Sto} {T T' : List Tok} (h : TemplateOf kt sto T)
    (h' : TemplateOf kt sto T') : T = T' := by
  obtain ⟨t, c, rfl, h1, -, h2⟩ := h
  obtain ⟨t', c', he, h1', -, h2'⟩ := h'
  cases he
  have := parse_print T h2.ok
  rw [← h1, h1', parse_print T' h2'.ok] at this
  injection this with this
  exact this.symm

theorem generate_at {sto : Sto} {T : List Tok} (h : TemplateOf kt sto T) {fp : Option Fp}
    {k : CKey} {part : Prt CKey} {path : Str}
    (hg : World.generate (disk base kt) sto fp k = .ok part) (hp : part.loc = .file path) :
    PartitionAt (kt sto.tmpl.text) T fp k.1 path := by
  obtain ⟨t, c, rfl, h1, h2, h3⟩ := h
  obtain ⟨path', rfl, h4⟩ := (generate_ok_iff h1 h2).1 hg
  cases hp
  exact h4

theorem generate_fits {sto : Sto} {T : List Tok} (h : TemplateOf kt sto T) {fp : Option Fp}
    {k : CKey} {part : Prt CKey} {path : Str}
    (hg : World.generate (disk base kt) sto fp k = .ok part) (hp : part.loc = .file path) :
    Fits T path := by
  have := generate_at h hg hp
  obtain ⟨t, c, rfl, h1, h2, h3⟩ := h
  exact (fits_of_partitionAt h3 this).2

/-- Different partitions have different paths. -/
theorem paths_differ (hL : Layout kt gs) {i1 i2 : ArtInfo} {p1 p2 : Pdr} {pos1 pos2 : Nat}
    (m1 : Made gs i1 p1 pos1) (m2 : Made gs i2 p2 pos2) {f1 f2 : Fp} {k1 k2 : CKey}
    {q1 q2 : Prt CKey} {path : Str}
    (g1 : World.generate (disk base kt) i1.sto (some f1) k1 = .ok q1)
    (g2 : World.generate (disk base kt) i2.sto (some f2) k2 = .ok q2)
    (l1 : q1.loc = .file path) (l2 : q2.loc = .file path) :
    i1.sto = i2.sto ∧ f1 = f2 ∧ k1 = k2 := by
  obtain ⟨T1, h1⟩ := hL.made _ _ _ m1
  obtain ⟨T2, h2⟩ := hL.made _ _ _ m2
  have hs : i1.sto = i2.sto := by
    by_contra hne
    obtain ⟨g, hg, k, hk⟩ := m2
    exact hL.apart _ _ _ m1 g hg k _ hk (.inr (Ne.symm hne)) T1 T2 h1 h2 path
      (generate_fits h1 g1 l1) (generate_fits h2 g2 l2)
  refine ⟨hs, ?_⟩
  rw [← hs] at h2 g2
  have h3 := generate_at h1 g1 l1
  have h4 := generate_at h1 g2 l2
  obtain ⟨t, c, he, h5, h6, h7⟩ := h1
  rw [he] at h3 h4
  obtain ⟨h8, h9⟩ := partitionAt_key h7 h3 h4
  exact ⟨Option.some.inj h8, h9⟩

theorem noClash (hL : Layout kt gs) (ho : OneOwner (disk base kt) gs)
    {log : List (Inv CKey D)} (hf : FpUnique (disk base kt) log) :
    NoClash (disk base kt) gs log :=
  C42_no_clash_if_fingerprints_do_not_collide log
    (fun _ _ _ _ _ _ _ _ _ _ _ _ _ m1 m2 g1 g2 l1 l2 => paths_differ hL m1 m2 g1 g2 l1 l2)
    (fun _ _ _ _ _ _ m1 m2 h => ho _ _ _ _ _ _ m1 m2 h)
    fun e1 h1 e2 h2 h3 h4 h5 => hf e1 h1 e2 h2 h3 h4 h5

/-- Adding produced files leaves the files tidy. -/
theorem tidy_of (hL : Layout kt gs) (h0 : Tidy kt gs files0) {files : PyDict Str Str}
    (hf : ∀ path, get? files path ≠ none →
      get? files0 path ≠ none ∨ ProducedPath (disk base kt) gs path) : Tidy kt gs files := by
  intro g hg k a hka T h path hp hfit
  rcases hf path hp with hp0 | ⟨i', p', pos', f, key, part, m', hgen, hl⟩
  · exact h0 g hg k a hka T h path hp0 hfit
  · obtain ⟨T', h'⟩ := hL.made _ _ _ m'
    by_cases hs : i'.sto = a.info.sto
    · rw [hs] at hgen
      exact ⟨_, _, generate_at h hgen hl⟩
    · exact absurd hfit (hL.apart _ _ _ m' g hg k a hka (.inr (Ne.symm hs)) T' T h' h path
        (generate_fits h' hgen hl))

/-- What is discovered for a storage with a template. -/
theorem discover_sto {sto : Sto} {T : List Tok} (h : TemplateOf kt sto T)
    {files : PyDict Str Str} (hcl : Clean (kt sto.tmpl.text) T files) (ifps : PyDict CKey Fp) :
    ∃ ps, World.discover (disk base kt) files sto ifps = .ok ps ∧
      ∀ sn, sn ∈ ps ↔ ∃ fp k path c, sn = ⟨base.fileHash c, sto, fp, k, .file path⟩ ∧
        PartitionAt (kt sto.tmpl.text) T fp k.1 path ∧ get? files path = some c ∧
        get? ifps k = fp := by
  obtain ⟨t, c, rfl, h1, h2, h3⟩ := h
  exact discover_ok h1 h2 h3 hcl ifps

theorem mem_rawItems {κ : Type} [DecidableEq κ] {files : PyDict Str Str} {ps : List (PSnap κ)}
    {x : PSnap κ × Str} :
    x ∈ ofItems (ps.filterMap fun sn => (World.content files sn.part.loc).map fun c => (sn, c)) ↔
      x.1 ∈ ps ∧ World.content files x.1.part.loc = some x.2 := by
  have hm : ∀ y : PSnap κ × Str, y ∈ (ps.filterMap fun sn =>
      (World.content files sn.part.loc).map fun c => (sn, c)) ↔
      y.1 ∈ ps ∧ World.content files y.1.part.loc = some y.2 := by
    intro y
    rw [List.mem_filterMap]
    constructor
    · rintro ⟨sn, h1, h2⟩
      obtain ⟨c, h3, rfl⟩ := Option.map_eq_some_iff.1 h2
      exact ⟨h1, h3⟩
    · rintro ⟨h1, h2⟩
      exact ⟨y.1, h1, by rw [h2]; rfl⟩
  constructor
  · intro hx
    exact (hm x).1 (mem_of_mem_ofItems hx)
  · intro hx
    refine mem_ofItems_of_unique ((hm x).2 hx) fun v hv => ?_
    have := ((hm _).1 hv).2
    rw [hx.2] at this
    exact (Option.some.inj this).symm

theorem snapAll_lit {κ : Type} [DecidableEq κ] {env : Env κ D} {t : Tmpl} {v : Option Str}
    (files files' : PyDict Str Str) : ∀ l : List (Option Fp × κ),
    World.snapAll env files (.lit t v) l = World.snapAll env files' (.lit t v) l
  | [] => rfl
  | (fp, pk) :: l => by
    simp only [World.snapAll, bind, Except.bind, snapAll_lit files files' l]
    cases hg : World.generate env (.lit t v) fp pk with
    | error e => rfl
    | ok part =>
      have hl : ∃ id v', part.loc = .lit id v' := by
        unfold World.generate at hg
        simp only [bind, Except.bind] at hg
        repeat' split at hg
        all_goals first | (simp at hg; done) | (cases hg; exact ⟨_, _, rfl⟩)
      obtain ⟨id, v', hl⟩ := hl
      simp [World.snap, hl, World.content]

theorem discover_lit {κ : Type} [DecidableEq κ] {env : Env κ D} {t : Tmpl} {v : Option Str}
    (files files' : PyDict Str Str) (ifps : PyDict κ Fp) :
    World.discover env files (.lit t v) ifps = World.discover env files' (.lit t v) ifps := by
  simp only [World.discover, snapAll_lit files files']

theorem lit_loc {κ : Type} [DecidableEq κ] {env : Env κ D} {t : Tmpl} {v : Option Str}
    {files : PyDict Str Str} {ps : List (PSnap κ)} {l : List (Option Fp × κ)}
    (h : World.snapAll env files (.lit t v) l = .ok ps) :
    ∀ sn ∈ ps, ∃ id v', sn.part.loc = .lit id v' := by
  intro sn hsn
  obtain ⟨x, -, hx⟩ := (World.mem_snapAll_iff h sn).1 hsn
  unfold World.snapOne at hx
  cases hg : World.generate env (.lit t v) x.1 x.2 with
  | error e => rw [hg] at hx; simp [Except.bind] at hx
  | ok part =>
    rw [hg] at hx
    simp only [Except.bind, World.snap] at hx
    have hl : ∃ id v', part.loc = .lit id v' := by
      unfold World.generate at hg
      simp only [bind, Except.bind] at hg
      repeat' split at hg
      all_goals first | (simp at hg; done) | (cases hg; exact ⟨_, _, rfl⟩)
    split at hx
    · cases hx; exact hl
    · simp at hx

theorem discover_lit_loc {κ : Type} [DecidableEq κ] {env : Env κ D} {t : Tmpl} {v : Option Str}
    {files : PyDict Str Str} {ps : List (PSnap κ)} {ifps : PyDict κ Fp}
    (h : World.discover env files (.lit t v) ifps = .ok ps) :
    ∀ sn ∈ ps, ∃ id v', sn.part.loc = .lit id v' := by
  rw [World.discover] at h
  by_cases h1 : (!ifps.isEmpty && v.isSome) = true
  · rw [if_pos h1] at h; cases h
  rw [if_neg h1] at h
  by_cases h2 : (t.keyed && ifps.isEmpty) = true
  · rw [if_pos h2] at h; cases h
  rw [if_neg h2] at h
  by_cases h3 : v.isNone = true
  · rw [if_pos h3] at h; cases h; simp
  rw [if_neg h3] at h
  exact lit_loc h

/-- Produced files are not mistaken for something else. -/
theorem apart (hL : Layout kt gs) (h0 : Tidy kt gs files0) {g : Graph} (hg : gs g) :
    Apart (disk base kt) gs g files0 := by
  refine ⟨fun files hadd i => ?_, fun files hnew i p pos hm ifps _ => ?_⟩
  · have hn : ∀ fs : PyDict Str Str, (keys (rawNow (disk base kt) g fs i)).Nodup := by
      intro fs
      simp only [rawNow]; split
      · split
        · exact nodup_keys_ofItems _
        · simp [keys]
      · simp [keys]
    refine ⟨hn _, hn _, fun x => ?_⟩
    simp only [rawNow]
    split
    · rename_i hany
      obtain ⟨⟨k, a⟩, hka, ha⟩ := List.any_eq_true.1 hany
      simp only [decide_eq_true_eq] at ha
      subst ha
      rcases hL.raw g hg k i hka with ⟨t, v, hs⟩ | ⟨T, hT⟩
      · rw [hs, discover_lit files0 files]
        cases hd : World.discover (disk base kt) files (.lit t v) [] with
        | error e => exact Iff.rfl
        | ok ps =>
          rw [mem_rawItems, mem_rawItems]
          refine and_congr_right fun hx => ?_
          obtain ⟨id, v', hl⟩ := discover_lit_loc hd _ hx
          rw [hl]; exact Iff.rfl
      · have h1 := h0 g hg k _ hka T hT
        have h2 := tidy_of hL h0 hadd.new g hg k _ hka T hT
        obtain ⟨ps, d1, e1⟩ := discover_sto (base := base) hT h1 []
        obtain ⟨ps', d2, e2⟩ := discover_sto (base := base) hT h2 []
        change World.discover _ _ i.sto _ = _ at d1 d2
        rw [d1, d2]
        simp only [mem_rawItems, e1, e2]
        have hsame : ∀ path c, Fits T path →
            (get? files0 path = some c ↔ get? files path = some c) := by
          intro path c hfit
          refine ⟨hadd.old path c, fun hc => ?_⟩
          rcases hadd.new path (by rw [hc]; simp) with hne | ⟨i', p', pos', f, key, part, m', g1, l1⟩
          · obtain ⟨c', hc'⟩ := Option.ne_none_iff_exists'.1 hne
            have := hadd.old path c' hc'
            rw [hc] at this
            rw [hc', this]
          · obtain ⟨T', h'⟩ := hL.made _ _ _ m'
            exact absurd hfit (hL.apart _ _ _ m' g hg k _ hka (.inl ⟨i, rfl⟩) T' T h' hT path
              (generate_fits h' g1 l1))
        constructor
        · rintro ⟨⟨fp, key, path, c, hx, hp, hc, hw⟩, hcont⟩
          have hfit : Fits T path := by
            obtain ⟨t, c, he, -, -, hD⟩ := hT
            rw [he] at hp
            exact (fits_of_partitionAt hD hp).2
          refine ⟨⟨fp, key, path, c, hx, hp, (hsame _ _ hfit).1 hc, hw⟩, ?_⟩
          rw [hx] at hcont ⊢
          exact (hsame _ _ hfit).1 hcont
        · rintro ⟨⟨fp, key, path, c, hx, hp, hc, hw⟩, hcont⟩
          have hfit : Fits T path := by
            obtain ⟨t, c, he, -, -, hD⟩ := hT
            rw [he] at hp
            exact (fits_of_partitionAt hD hp).2
          refine ⟨⟨fp, key, path, c, hx, hp, (hsame _ _ hfit).2 hc, hw⟩, ?_⟩
          rw [hx] at hcont ⊢
          exact (hsame _ _ hfit).2 hcont
    · exact Iff.rfl
  · obtain ⟨T, hT⟩ := hL.made _ _ _ hm
    obtain ⟨g', hg', k', hk'⟩ := hm
    obtain ⟨ps, h, -⟩ := discover_sto (base := base) hT
      (tidy_of hL h0 hnew g' hg' k' _ hk' T hT) ifps
    exact ⟨ps, h⟩

end Arti.Disk
