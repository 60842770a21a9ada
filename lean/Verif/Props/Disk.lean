import Verif.Props.Resume
import Verif.Examples.Disk

/-!
# C65: builds over the paths of the file system

`Model/World.lean` leaves open how partitions are named in the file system; `Model/Disk.lean` fills
this in with the templates, globs and parsers of `Model/Storage.lean`.  So the theorems about
builds hold with conditions on templates and files instead of conditions on the naming scheme
(`Spec/Disk.lean`).
-/

namespace Arti.Props
open Arti PyDict World Spec Disk Stg

section
variable {D : Type} {base : Env CKey D} {kt : Str → KeyTypes} {gs : Graph → Prop}

/-- C65: two keys of the world over real paths are the same if they are equal as dicts. -/
theorem C65_keys_are_equal_as_dicts {a b : CKey} : fdEq a.1 b.1 = true ↔ a = b := key_eq_iff

/-- C65: partitions of the world over real paths are generated by `generate_partition`. -/
theorem C65_generates_as_local_files {t : Tmpl} {T : List Tok} (h : TemplateOf kt (.file t) T)
    {fp : Option Fp} {k : CKey} (hc : Conforms (kt t.text) k.1)
    (hr : ∀ w, fp = some w → Int64Range w) :
    World.generate (disk base kt) (.file t) fp k =
      (genFile ⟨t.text, some (kt t.text)⟩ fp k.1).map fun p => ⟨.file t, fp, k, .file p.path⟩ := by
  obtain ⟨t', c, he, -, h2, -⟩ := h
  cases he
  exact generate_eq h2 (conforms_iff.2 hc) (inRange_iff.2 hr)

/-- C65: partitions of the world over real paths are discovered by `discover_partitions`. -/
theorem C65_discovers_as_local_files {t : Tmpl} {T : List Tok} (h : TemplateOf kt (.file t) T)
    {files : PyDict Str Str}
    (hcl : ∀ path, get? files path ≠ none → Fits T path →
      ∃ fp pk, PartitionAt (kt t.text) T fp pk path) (ifps : PyDict CKey Fp) :
    World.discover (disk base kt) files (.file t) ifps =
      (discoverFile base.fileHash files ⟨t.text, some (kt t.text)⟩
        (ifps.map fun x => (x.1.1, some x.2))).map fun snaps => snaps.map fun s =>
          ⟨s.contentFp, .file t, s.partition.inputFp, ofPKey s.partition.key,
            .file s.partition.path⟩ := by
  obtain ⟨t', c, he, h1, h2, h3⟩ := h
  cases he
  exact discover_eq h1 h2 h3 hcl ifps

/-- C65: the raw data of an artifact in files is what is in the files of its partitions, each with
the fingerprint of its content. -/
theorem C65_raw_data_is_what_is_in_the_files {g : Graph} (hg : gs g) {k : Str} {i : ArtInfo}
    (hi : (k, Art.raw i) ∈ g.arts) {T : List Tok} (hT : TemplateOf kt i.sto T)
    {files : PyDict Str Str} (ht : Tidy kt gs files) (sn : PSnap CKey) (c : Str) :
    (sn, c) ∈ rawNow (disk base kt) g files i ↔ ∃ key path,
      sn = ⟨base.fileHash c, i.sto, none, key, .file path⟩ ∧
      PartitionAt (kt i.sto.tmpl.text) T none key.1 path ∧ get? files path = some c := by
  obtain ⟨ps, h1, h2⟩ := discover_sto (base := base) hT (ht g hg k _ hi T hT) []
  have hany : g.arts.any (fun x => x.2 = Art.raw i) = true :=
    List.any_eq_true.2 ⟨_, hi, by simp⟩
  change World.discover _ _ i.sto _ = _ at h1
  simp only [rawNow, hany, ↓reduceIte, h1, mem_rawItems, h2]
  constructor
  · rintro ⟨⟨fp, key, path, c', rfl, hp, hc', hf⟩, hc⟩
    simp only [get?_nil] at hf
    subst hf
    simp only [World.content, hc', Option.some.injEq] at hc
    subst hc
    exact ⟨key, path, rfl, hp, hc'⟩
  · rintro ⟨key, path, rfl, hp, hc⟩
    exact ⟨⟨none, key, path, c, rfl, hp, hc, by simp⟩, hc⟩

/-- C65: two storages whose templates begin differently are apart. -/
theorem C65_different_directories_are_apart {T T' : List Tok} (h : ¬ lead T <+: lead T')
    (h' : ¬ lead T' <+: lead T) {path : Str} (h1 : Fits T path) : ¬ Fits T' path :=
  ExDisk.leads_apart h h' h1

/-- C65: with such a layout two outputs never have the same path, unless they are the same output
of the same code for the same arguments, or input fingerprints collide. -/
theorem C65_no_two_outputs_have_the_same_path (hL : Layout kt gs)
    (ho : OneOwner (disk base kt) gs) {log : List (Inv CKey D)}
    (hf : FpUnique (disk base kt) log) : NoClash (disk base kt) gs log := Disk.noClash hL ho hf

/-- C65: with such a layout, produced files are never taken for raw data and never make discovery
fail. -/
theorem C65_produced_files_are_not_mistaken (hL : Layout kt gs) {files : PyDict Str Str}
    (ht : Tidy kt gs files) {g : Graph} (hg : gs g) : Apart (disk base kt) gs g files :=
  Disk.apart hL ht hg

/-- What it means over real paths that a snapshot holds an artifact as evaluated. -/
theorem files_of_full (hL : Layout kt gs) {g : Graph} (hg : gs g) {k : Str} {i : ArtInfo} {p : Pdr}
    {pos : Nat} (hm : (k, Art.made i p pos) ∈ g.arts) {s s' : St CKey D} {σ : Snapshot}
    (h1 : σ.graph = g)
    (hfull : Full (disk base kt) s' σ (rawNow (disk base kt) g s.files) (.made i p pos)) :
    ∃ key ℓ T,
      g.keyOf (.made i p pos) = some key ∧ TemplateOf kt i.sto T ∧
      evalArt (disk base kt) (rawNow (disk base kt) g s.files) (.made i p pos) = .ok ℓ ∧
      (∀ sn, sn ∈ linksOf s' σ key ↔ ∃ c, (sn, c) ∈ ℓ) ∧
      ∀ sn c, (sn, c) ∈ ℓ → ∃ fp path, sn.part.sto = i.sto ∧ sn.part.inputFp = some fp ∧
        sn.part.loc = .file path ∧
        PartitionAt (kt i.sto.tmpl.text) T (some fp) sn.part.key.1 path ∧
        get? s'.files path = some c ∧ sn.contentFp = base.fileHash c := by
  obtain ⟨key, ℓ, h3, h4, h5, h6, h7⟩ := hfull
  have hmade : Made gs i p pos := ⟨g, hg, k, hm⟩
  obtain ⟨T, hT⟩ := hL.made _ _ _ hmade
  refine ⟨key, ℓ, T, by rw [← h1]; exact h3, hT, h4, fun sn => ?_, fun sn c hx => ?_⟩
  · rw [h6]
    simp [keys]
  · have hpl := h4
    simp only [evalArt, bind, Except.bind] at hpl
    cases hr : evalPdr (disk base kt) (rawNow (disk base kt) g s.files) p with
    | error e => rw [hr] at hpl; simp at hpl
    | ok rs =>
      rw [hr] at hpl
      obtain ⟨o, -, hplace⟩ := (mem_placeAll hpl _).1 hx
      obtain ⟨-, part, hgen, hst⟩ := place_ok hplace
      obtain ⟨t, c', he, g1, g2, g3⟩ := hT
      rw [he] at hgen
      obtain ⟨path, rfl, hat⟩ := (generate_ok_iff g1 g2).1 hgen
      simp only [stored, Except.ok.injEq, Prod.mk.injEq, and_true] at hst
      subst hst
      refine ⟨o.fp, path, he.symm, rfl, rfl, ?_, h7 _ hx, rfl⟩
      rw [he]
      exact hat

/-- **C65**, for producers with one output.  After any history, if `Graph.build` succeeds, then
everything that is evaluated from the raw data in the files when the build started is in the file
at the path that its template, its fingerprint and its key spell, it is linked to the snapshot, and
nothing else is.

Missing: producers with several outputs (C42), templates with partition keys of more than one field
class (C21), storages other than local files and string literals. -/
theorem C65_build_writes_evaluated_files_partial (hL : Layout kt gs)
    (hd : Disciplined (disk base kt) gs) (hso : ∀ g, gs g → SingleOutput (disk base kt) g)
    (ho : OneOwner (disk base kt) gs) {s s' : St CKey D} (hs : Reach (disk base kt) gs s)
    {g : Graph} (hg : gs g) {b : Option Nat} {σ : Snapshot}
    (hrun : graphBuild (disk base kt) g { s with budget := b } = (.ok σ, s'))
    (hf : FpUnique (disk base kt) s'.invs) (hu : SnapUnique s'.raws) :
    σ.graph = g ∧ ∀ k i p pos, (k, Art.made i p pos) ∈ g.arts → ∃ key ℓ T,
      g.keyOf (.made i p pos) = some key ∧ TemplateOf kt i.sto T ∧
      evalArt (disk base kt) (rawNow (disk base kt) g s.files) (.made i p pos) = .ok ℓ ∧
      (∀ sn, sn ∈ linksOf s' σ key ↔ ∃ c, (sn, c) ∈ ℓ) ∧
      ∀ sn c, (sn, c) ∈ ℓ → ∃ fp path, sn.part.sto = i.sto ∧ sn.part.inputFp = some fp ∧
        sn.part.loc = .file path ∧
        PartitionAt (kt i.sto.tmpl.text) T (some fp) sn.part.key.1 path ∧
        get? s'.files path = some c ∧ sn.contentFp = base.fileHash c := by
  obtain ⟨h1, h2⟩ := C42_incremental_build_is_evaluation_partial hd hso hs hg hrun
    (Disk.noClash hL ho hf) hu
  exact ⟨h1, fun k i p pos hm => files_of_full hL hg hm h1 (h2 k _ hm)⟩

/-- C65: raw data can be changed at any time: a file of the form of a raw template is not a
produced file. -/
theorem C65_raw_files_are_not_produced (hL : Layout kt gs) {g : Graph} (hg : gs g) {k : Str}
    {i : ArtInfo} (hi : (k, Art.raw i) ∈ g.arts) {T : List Tok} (hT : TemplateOf kt i.sto T)
    {path : Str} (hp : Fits T path) : ¬ ProducedPath (disk base kt) gs path := by
  rintro ⟨i', p, pos, f, pk, part, hm, hgen, hl⟩
  obtain ⟨T', hT'⟩ := hL.made _ _ _ hm
  exact hL.apart _ _ _ hm g hg k _ hi (.inl ⟨i, rfl⟩) T' T hT' hT path (generate_fits hT' hgen hl) hp

/-- **C65**, for producers with one output.  A build that would have succeeded is interrupted at
any effects, any number of times, with restarts, lookups and builds of other graphs in between.
Then building again succeeds and reads the same values as if nothing had happened.  There are no
conditions on how partitions are named: this follows from the templates.

Missing: as in `C65_build_writes_evaluated_files_partial`. -/
theorem C65_interrupted_build_can_be_resumed_partial (hL : Layout kt gs)
    (hd : Disciplined (disk base kt) gs) (hso : ∀ g, gs g → SingleOutput (disk base kt) g)
    (ho : OneOwner (disk base kt) gs) (hr : FpRanges (disk base kt)) {s t : St CKey D}
    (hs : Reach (disk base kt) gs s) {g : Graph} (hg : gs g) (ht : Tidy kt gs s.files)
    {σ : Snapshot} (hrun : graphBuild (disk base kt) g { s with budget := none } = (.ok σ, t))
    (hft : FpUnique (disk base kt) t.invs) (hut : SnapUnique t.raws) {ops : List (HOp CKey D)}
    (hv : ValidOps (disk base kt) gs s ops) (hq : ∀ op ∈ ops, op.Quiet) {u s' : St CKey D}
    (hops : runOps (disk base kt) s ops = u) {res : Except Err Snapshot}
    (hrun' : graphBuild (disk base kt) g { u with budget := none } = (res, s'))
    (hf : FpUnique (disk base kt) s'.invs) (hu : SnapUnique s'.raws) :
    ∃ σ', res = .ok σ' ∧ σ'.graph = g ∧ ∀ k a, (k, a) ∈ g.arts → ∃ key, g.keyOf a = some key ∧
      (∀ sn, sn ∈ linksOf t σ key ↔ sn ∈ linksOf s' σ' key) ∧
      (∀ sn ∈ linksOf t σ key, ∃ c, content t.files sn.part.loc = some c ∧
        content s'.files sn.part.loc = some c) ∧
      ∀ view, (readSnapshotData (disk base kt) σ a view t).1 =
        (readSnapshotData (disk base kt) σ' a view s').1 :=
  C40_interrupted_build_can_be_resumed_partial hd hso hr hs hg (Disk.apart hL ht hg) hrun
    (Disk.noClash hL ho hft) hut hv hq hops hrun' (Disk.noClash hL ho hf) hu

end

/-! ### A history that meets the hypotheses

A raw artifact with a file for each number, a producer of a file from each of them, a producer of
one file from all of these. -/

namespace Ex65
open ExDisk

def key : KeyTypes := [("k".toList, .int .int8)]

def aT : List Tok := "/d/a/".toList.map .ch ++ [.fld ⟨"k".toList, [.attr "value".toList], []⟩] ++
  ".txt".toList.map .ch
def bT : List Tok := "/d/b/".toList.map .ch ++ [.fld ⟨"k".toList, [.attr "hex".toList], []⟩,
  .ch '/', .fld (plain ifpName)] ++ ".txt".toList.map .ch
def cT : List Tok := "/d/c/".toList.map .ch ++ [.fld (plain ifpName)]

def aText : Str := "/d/a/{k.value}.txt".toList
def bText : Str := "/d/b/{k.hex}/{input_fingerprint}.txt".toList
def cText : Str := "/d/c/{input_fingerprint}".toList

def kt (text : Str) : KeyTypes := if text = aText ∨ text = bText then key else []

def tm (sto : Sto) : Option (FieldCls × List Tok) :=
  if sto.tmpl.text = aText then some (.int .int8, aT)
  else if sto.tmpl.text = bText then some (.int .int8, bT)
  else some (.int .int8, cT)

def env : Env CKey Str := disk base kt

def a : Art := .raw ⟨0, true, .file ⟨aText, true⟩⟩
def p : Pdr := .mk ['E'] ['1'] (.cons ['x'] a .nil)
def b : Art := .made ⟨0, true, .file ⟨bText, true⟩⟩ p 0
def q : Pdr := .mk ['A'] ['1'] (.cons ['x'] b .nil)
def c : Art := .made ⟨0, false, .file ⟨cText, false⟩⟩ q 0
def g : Graph := ⟨['g'], [(['c'], c), (['b'], b), (['a'], a)], []⟩

theorem isLayout : Layout kt (· ∈ [g]) := layout (tm := tm) [g] (by decide +kernel)

theorem owner : OneOwner env (· ∈ [g]) := oneOwner [g] (by decide +kernel)

theorem disc : Disciplined env (· ∈ [g]) := disciplined [g] (by decide +kernel)

theorem single : ∀ g', g' ∈ [g] → SingleOutput env g' := by
  intro g' hg
  rw [List.mem_singleton.1 hg]
  exact singleOutput g (by decide +kernel)

theorem ranges : FpRanges env where
  str := ExFp.hash_range
  ver := ExFp.hash_range
  node n := by
    cases n with
    | art a => show Int64Range 1; decide
    | pdr p => exact ExFp.hash_range _
  graph g := ExFp.hash_range _
  snap s := ExFp.hash_range _

def files : PyDict Str Str :=
  [("/d/a/1.txt".toList, ['u']), ("/d/a/-20.txt".toList, ['v']), ("/d/notes".toList, ['w'])]

def s0 : St CKey Str := ⟨files, [], [], [], [], [], none, [], [], []⟩

theorem isTidy : Tidy kt (· ∈ [g]) s0.files := tidy (tm := tm) [g] files (by decide +kernel)

theorem not_produced (path : Str) (h : (lead bT).isPrefixOf path = false)
    (h' : (lead cT).isPrefixOf path = false) : ¬ ProducedPath env (· ∈ [g]) path := by
  rintro ⟨i, p', pos, f, pk, part, ⟨g', hg, k, hm⟩, h1, h2⟩
  rw [List.mem_singleton.1 hg] at hm
  have hT : TemplateOf kt i.sto bT ∨ TemplateOf kt i.sto cT := by
    simp only [g, a, b, c, List.mem_cons, Prod.mk.injEq, List.not_mem_nil, or_false, reduceCtorEq,
      and_false, Art.made.injEq] at hm
    rcases hm with ⟨-, rfl, -⟩ | ⟨-, rfl, -⟩
    · exact .inr ⟨_, .int .int8, rfl, by decide +kernel, by decide +kernel,
        discoverable_of (by decide +kernel)⟩
    · exact .inl ⟨_, .int .int8, rfl, by decide +kernel, by decide +kernel,
        discoverable_of (by decide +kernel)⟩
  rcases hT with hT | hT
  · have := List.isPrefixOf_iff_prefix.2 (lead_of_fits (generate_fits hT h1 h2))
    rw [h] at this; simp at this
  · have := List.isPrefixOf_iff_prefix.2 (lead_of_fits (generate_fits hT h1 h2))
    rw [h'] at this; simp at this

theorem reach0 : Reach env (· ∈ [g]) s0 := .init files none fun path hp => by
  have : path ∈ keys files := by
    apply Classical.byContradiction
    intro h; exact hp ((get?_eq_none_iff _ _).2 h)
  simp only [files, keys, List.map_cons, List.map_nil, List.mem_cons, List.not_mem_nil,
    or_false] at this
  rcases this with rfl | rfl | rfl <;> exact not_produced _ (by decide +kernel) (by decide +kernel)

/-- Interrupt a build, change raw data, lose the backend. -/
def ops : List (HOp CKey Str) :=
  [.build g (some 12), .put "/d/a/1.txt".toList ['w'], .restart fun _ => true]

def s : St CKey Str := runOps env s0 ops

def s' : St CKey Str := (graphBuild env g { s with budget := none }).2

theorem reach : Reach env (· ∈ [g]) s := by
  refine Reach.ops _ _ reach0 ⟨?_, ?_, ?_, trivial⟩
  · exact List.mem_singleton.2 rfl
  · exact not_produced _ (by decide +kernel) (by decide +kernel)
  · trivial

def σ : Snapshot := ⟨620507, g⟩

theorem run_ok : graphBuild env g { s with budget := none } = (.ok σ, s') := by
  have : (graphBuild env g { s with budget := none }).1 = .ok σ := by decide +kernel
  exact Prod.ext this (by rw [s'])

theorem fps : FpUnique env s'.invs := fpUnique _ (by decide +kernel)

theorem snaps : SnapUnique s'.raws := snapUnique _ (by decide +kernel)

theorem made_c : (['c'], c) ∈ g.arts := .head _

/-- The history meets all hypotheses; the file that the interrupted build made
of the old raw data is still there. -/
example : (∃ key ℓ T, g.keyOf c = some key ∧ TemplateOf kt (.file ⟨cText, false⟩) T ∧
      evalArt env (rawNow env g s.files) c = .ok ℓ ∧
      ∀ sn, sn ∈ linksOf s' σ key ↔ ∃ c, (sn, c) ∈ ℓ) ∧
    (readSnapshotData env σ c 0 s').1 = .ok "v1w11".toList ∧
    keys s'.files = ["/d/a/1.txt".toList, "/d/a/-20.txt".toList, "/d/notes".toList,
      "/d/b/0x1/346.txt".toList, "/d/b/-0x14/347.txt".toList, "/d/b/0x1/324.txt".toList,
      "/d/c/51".toList] := by
  refine ⟨?_, by decide +kernel, by decide +kernel⟩
  obtain ⟨key, ℓ, T, h1, h2, h3, h4, -⟩ := (C65_build_writes_evaluated_files_partial isLayout disc
    single owner reach (List.mem_singleton.2 rfl) run_ok fps snaps).2 _ _ _ _ made_c
  exact ⟨key, ℓ, T, h1, h2, h3, h4⟩

/-- Builds that are interrupted, and the loss of the backend. -/
def quiet : List (HOp CKey Str) :=
  [.build g (some 12), .restart fun _ => true, .lookup b [], .build g (some 3)]

def t : St CKey Str := (graphBuild env g { s0 with budget := none }).2
def u : St CKey Str := runOps env s0 quiet
def w : St CKey Str := (graphBuild env g { u with budget := none }).2
def again : Except Err Snapshot := (graphBuild env g { u with budget := none }).1

def τ : Snapshot := ⟨620505, g⟩

theorem run_t : graphBuild env g { s0 with budget := none } = (.ok τ, t) := by
  have : (graphBuild env g { s0 with budget := none }).1 = .ok τ := by decide +kernel
  exact Prod.ext this (by rw [t])

theorem run_again : graphBuild env g { u with budget := none } = (again, w) :=
  Prod.ext (by rw [again]) (by rw [w])

/-- The interrupted build left two files behind; resuming makes the third. -/
example : (∃ σ', again = .ok σ' ∧ (readSnapshotData env σ' c 0 w).1 =
      (readSnapshotData env τ c 0 t).1) ∧ u.files.length = 5 ∧ w.files.length = 6 := by
  refine ⟨?_, by decide +kernel, by decide +kernel⟩
  obtain ⟨σ', h1, -, h2⟩ := C65_interrupted_build_can_be_resumed_partial (ops := quiet) (u := u)
    isLayout disc single owner ranges reach0 (List.mem_singleton.2 rfl) isTidy run_t
    (fpUnique _ (by decide +kernel)) (snapUnique _ (by decide +kernel))
    ⟨List.mem_singleton.2 rfl, trivial, trivial, List.mem_singleton.2 rfl, trivial⟩
    (by
      intro op ho
      simp only [quiet, List.mem_cons, List.not_mem_nil, or_false] at ho
      rcases ho with rfl | rfl | rfl | rfl <;> simp [HOp.Quiet])
    (by rw [u, env]) run_again (fpUnique _ (by decide +kernel)) (snapUnique _ (by decide +kernel))
  obtain ⟨_, -, -, -, h3⟩ := h2 _ _ made_c
  exact ⟨σ', h1, (h3 0).symm⟩

end Ex65

end Arti.Props
