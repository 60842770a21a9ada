import Verif.Lemmas.HardCoded

/-! # Discovering partitions with hard-coded components (C57) -/

namespace Arti.Props
open Arti PyDict Spec Fmt Stg Part

/-- C57: with a template like `{date.Y[2021]}/{date.m}/{date.d}`, where every existing file with the
hard-coded texts is the file of a partition, discovery finds exactly the existing wanted partitions
whose key has the hard-coded components: it does not raise, everything that it returns has them and is
at the path that its key and fingerprint generate, every existing wanted partition that has them is
returned, and nothing is returned twice. -/
theorem C57_discovers_the_hard_coded {β : Type} (hash : β → Fp) (files : PyDict Str β)
    (hf : (keys files).Nodup) (cls : FieldCls) (kt : KeyTypes) (T : List Tok)
    (hH : HardCoded cls kt T) (ifps : InputFps) (hi : FpsOk ifps)
    (hclean : ∀ path ∈ keys files, FitsHard T path → ∃ fp pk, PartitionAt kt T fp pk path) :
    ∃ snaps, discoverFile hash files ⟨print T, some kt⟩ ifps = .ok snaps ∧
      (snaps.map (·.partition.path)).Nodup ∧
      (∀ s ∈ snaps, PartitionAt kt T s.partition.inputFp s.partition.key s.partition.path ∧
        HasHardCoded T s.partition.key ∧ FpWanted ifps s.partition.key s.partition.inputFp ∧
        ∃ content, get? files s.partition.path = some content ∧ s.contentFp = hash content) ∧
      (∀ fp pk path, PartitionAt kt T fp pk path → HasHardCoded T pk → path ∈ keys files →
        FpWanted ifps pk fp → ∃ s ∈ snaps, s.partition.path = path ∧ s.partition.inputFp = fp ∧
          fdEq s.partition.key pk = true) := by
  have hg : ∀ c, .ch c ∈ T → c ∉ ['*', '?', '['] := by
    intro c hc
    refine hH.base.noGlob c ?_
    rw [unindexed_eq]
    exact List.mem_map.2 ⟨_, hc, rfl⟩
  have hstar : ∀ k c i, .fld (hard k c i) ∈ T → ∀ x ∈ i, x ≠ '*' := fun k c i hm x hx =>
    noGlob_component (hH.chars k c i hm x hx)
  have hd : delimited T = true := by
    rw [← delimited_strip, ← unindexed_eq]
    exact hH.base.delimited
  -- a partition whose path has the hard-coded texts has the hard-coded components
  have hhas : ∀ fp pk path, PartitionAt kt T fp pk path → FitsHard T path → HasHardCoded T pk := by
    intro fp pk path hp hfit k c i hm
    obtain ⟨-, -, -, -, hr⟩ := genFile_ok hH.ok hp.path
    exact (fieldText_hard hH hm).1 (fits_texts hd (fun f t h => fieldText_chars h) hr hfit k c i hm)
  have hpaths : ∀ path ∈ (keys files).filter (globMatch true (wildHard T)),
      ∃ fp pk, PartitionAt kt T fp pk path ∧ HasHardCoded T pk := by
    intro path hm
    obtain ⟨h1, h2⟩ := List.mem_filter.1 hm
    have hfit := fitsHard_of_glob hg hstar h2
    obtain ⟨fp, pk, hp⟩ := hclean path h1 hfit
    exact ⟨fp, pk, hp, hhas fp pk path hp hfit⟩
  obtain ⟨ms, snaps, h1, h2, h3, h4, h5⟩ := parse_and_snap hash files hH.base hi
    ((keys files).filter (globMatch true (wildHard T))) (fun p hm => (List.mem_filter.1 hm).1)
    (fun p hm => by
      obtain ⟨fp, pk, hp, -⟩ := hpaths p hm
      exact ⟨fp, pk, (partitionAt_hard hH).1 hp⟩)
  refine ⟨snaps, ?_, (hf.filter _).sublist h3, ?_, ?_⟩
  · rw [← parseSpec_hard hH fun p hm => by
      obtain ⟨fp, pk, hp, hh⟩ := hpaths p hm
      exact ⟨fp, pk, (partitionAt_hard hH).1 hp, hh⟩] at h1
    simp only [discoverFile, bind, Except.bind, specToWildcard_hard hH, parse_print T hH.ok, h1,
      snapAll_hard hH h2]
  · intro s hs
    obtain ⟨g1, g2, g3⟩ := h4 s hs
    have hp := (partitionAt_hard hH).2 g1
    refine ⟨hp, hhas _ _ _ hp ?_, g2, g3⟩
    have hm := h3.subset (List.mem_map.2 ⟨s, hs, rfl⟩)
    exact fitsHard_of_glob hg hstar (List.mem_filter.1 hm).2
  · intro fp pk path hp hh hm hw
    refine h5 fp pk path ((partitionAt_hard hH).1 hp) (List.mem_filter.2 ⟨hm, ?_⟩) hw
    obtain ⟨-, -, -, -, hr⟩ := genFile_ok hH.ok hp.path
    exact glob_of_renderHard hg hstar (fun f t h => fieldText_chars h)
      (fun k c i hm => (fieldText_hard hH hm).2 (hh k c i hm)) hr

namespace Ex57

def kt : KeyTypes := [("i".toList, .int .int8), ("j".toList, .int .int8)]

/-- `i` is hard-coded. -/
def tmpl : List Tok :=
  ("/d/i=".toList.map .ch) ++ [.fld (hard "i".toList "value".toList "7".toList), .ch '/',
    .fld ⟨"j".toList, [.attr "hex".toList], []⟩]

example : print tmpl = "/d/i={i.value[7]}/{j.hex}".toList := by decide +kernel

theorem mem_tmpl {x : Tok} (h : x ∈ tmpl) : (∃ c, x = .ch c ∧ c ∉ ['*', '?', '[']) ∨
    x = .fld (hard "i".toList "value".toList "7".toList) ∨
    x = .fld ⟨"j".toList, [.attr "hex".toList], []⟩ := by
  have h : x ∈ [.ch '/', .ch 'd', .ch '/', .ch 'i', .ch '=',
    .fld (hard "i".toList "value".toList "7".toList), .ch '/',
    .fld ⟨"j".toList, [.attr "hex".toList], []⟩] := h
  simp only [List.mem_cons, List.not_mem_nil, or_false] at h
  rcases h with rfl | rfl | rfl | rfl | rfl | rfl | rfl | rfl
  all_goals first
    | exact .inl ⟨_, rfl, by decide⟩
    | exact .inr (.inl rfl)
    | exact .inr (.inr rfl)

def base : List Tok :=
  ("/d/i=".toList.map .ch) ++ [.fld ⟨"i".toList, [.attr "value".toList], []⟩, .ch '/',
    .fld ⟨"j".toList, [.attr "hex".toList], []⟩]

theorem unindexed_tmpl : unindexed tmpl = base := by decide +kernel

theorem mem_base {x : Tok} (h : x ∈ base) : (∃ c, x = .ch c ∧ c ∉ ['*', '?', '[']) ∨
    x = .fld ⟨"i".toList, [.attr "value".toList], []⟩ ∨
    x = .fld ⟨"j".toList, [.attr "hex".toList], []⟩ := by
  have h : x ∈ [.ch '/', .ch 'd', .ch '/', .ch 'i', .ch '=',
    .fld ⟨"i".toList, [.attr "value".toList], []⟩, .ch '/',
    .fld ⟨"j".toList, [.attr "hex".toList], []⟩] := h
  simp only [List.mem_cons, List.not_mem_nil, or_false] at h
  rcases h with rfl | rfl | rfl | rfl | rfl | rfl | rfl | rfl
  all_goals first
    | exact .inl ⟨_, rfl, by decide⟩
    | exact .inr (.inl rfl)
    | exact .inr (.inr rfl)

theorem mentions_base {k c : Str} : mentions base k c = true ↔
    (k = ['i'] ∧ c = "value".toList) ∨ (k = ['j'] ∧ c = "hex".toList) := by
  constructor
  · intro h
    simp only [mentions, List.any_eq_true] at h
    obtain ⟨x, hx, h⟩ := h
    rcases mem_base hx with ⟨c, rfl, -⟩ | rfl | rfl
    · simp at h
    · simp only [Bool.and_eq_true, beq_iff_eq] at h
      exact .inl ⟨h.1.symm, by simpa using h.2.symm⟩
    · simp only [Bool.and_eq_true, beq_iff_eq] at h
      exact .inr ⟨h.1.symm, by simpa using h.2.symm⟩
  · rintro (⟨rfl, rfl⟩ | ⟨rfl, rfl⟩) <;> decide +kernel

theorem discoverable : Discoverable (.int .int8) kt base := by
  refine ⟨by decide +kernel, by decide +kernel, ?_, Ex21.oneClass, by decide +kernel, ?_, ?_⟩
  · intro c hc
    rcases mem_base hc with ⟨c', he, h⟩ | h | h
    · cases he; exact h
    all_goals cases h
  · intro f hf
    rcases mem_base hf with ⟨c', h, -⟩ | h | h <;> cases h
    · exact .inr ⟨"i".toList, by decide +kernel, _, rfl⟩
    · exact .inr ⟨"j".toList, by decide +kernel, _, rfl⟩
  · intro k hk
    simp only [kt, keys, List.map_cons, List.map_nil, List.mem_cons, List.not_mem_nil, or_false]
      at hk
    rcases hk with rfl | rfl
    · refine ⟨["value"], .head _, fun c => ?_⟩
      rw [mentions_base]
      simp
    · refine ⟨["hex"], .tail _ (.head _), fun c => ?_⟩
      rw [mentions_base]
      simp

theorem hardCoded : HardCoded (.int .int8) kt tmpl := by
  refine ⟨by decide +kernel, unindexed_tmpl ▸ discoverable, ?_, ?_, ?_⟩
  · intro f hf
    rcases mem_tmpl hf with ⟨c', h, -⟩ | h | h <;> cases h
    · exact .inl ⟨_, _, _, rfl⟩
    · exact .inr (by simp)
  · intro k c i hm
    rcases mem_tmpl hm with ⟨c', h, -⟩ | h | h <;> cases h
    decide +kernel
  · intro k c i hm f hf h1 h2
    rcases mem_tmpl hm with ⟨c', h, -⟩ | h | h <;> cases h
    rcases mem_tmpl hf with ⟨c', h, -⟩ | h | h <;> cases h
    · rfl
    · exact absurd h1 (by decide)

def pk1 : PKey := [("i".toList, .int .int8 7), ("j".toList, .int .int8 26)]
def pk2 : PKey := [("i".toList, .int .int8 8), ("j".toList, .int .int8 26)]

theorem partition (v : Int) (hv : v = 7 ∨ v = 8) :
    PartitionAt kt tmpl none [("i".toList, .int .int8 v), ("j".toList, .int .int8 26)]
      ("/d/i=".toList ++ intToStr v ++ "/0x1a".toList) := by
  refine ⟨⟨by simp [keys], ?_, ?_, ?_⟩, by simp, ?_⟩
  · intro k; simp [kt, keys]
  · intro k v h
    simp only [List.mem_cons, Prod.mk.injEq, List.not_mem_nil, or_false] at h
    rcases h with ⟨rfl, rfl⟩ | ⟨rfl, rfl⟩ <;> rfl
  · intro k v h
    simp only [List.mem_cons, Prod.mk.injEq, List.not_mem_nil, or_false] at h
    rcases h with ⟨rfl, rfl⟩ | ⟨rfl, rfl⟩ <;> trivial
  · rcases hv with rfl | rfl <;> decide +kernel

/-- The files of both partitions exist. -/
def files : PyDict Str Nat := [("/d/i=7/0x1a".toList, 10), ("/d/i=8/0x1a".toList, 11)]

theorem clean : ∀ path ∈ keys files, FitsHard tmpl path →
    ∃ fp pk, PartitionAt kt tmpl fp pk path := by
  intro path hp _
  simp only [files, keys, List.map_cons, List.map_nil, List.mem_cons, List.not_mem_nil, or_false]
    at hp
  rcases hp with rfl | rfl
  · exact ⟨_, _, partition 7 (.inl rfl)⟩
  · exact ⟨_, _, partition 8 (.inr rfl)⟩

example : ∃ snaps, discoverFile (fun n : Nat => (n : Int)) files ⟨print tmpl, some kt⟩ [] =
    .ok snaps ∧ ∃ s ∈ snaps, s.partition.path = "/d/i=7/0x1a".toList := by
  obtain ⟨snaps, h, -, -, hc⟩ := C57_discovers_the_hard_coded (fun n : Nat => (n : Int)) files
    (by decide +kernel) _ kt tmpl hardCoded [] ⟨by simp, by simp⟩ clean
  obtain ⟨s, hs, hp, -⟩ := hc none _ _ (partition 7 (.inl rfl)) (by
    intro k c i hm
    rcases mem_tmpl hm with ⟨c', h, -⟩ | h | h <;> cases h
    exact ⟨_, _, rfl, rfl, by decide +kernel⟩) (by decide +kernel) (by simp [FpWanted])
  exact ⟨snaps, h, s, hs, hp⟩

end Ex57

/-- A partition with another value than the hard-coded one can be generated and written, to a path
with that other value, but it is not discovered. -/
theorem C57_violated_by_other_values : ∃ T kt pk p,
    HardCoded (.int .int8) kt T ∧ genFile ⟨print T, some kt⟩ none pk = .ok p ∧
      discoverFile (fun n : Nat => (n : Int)) [(p.path, 1)] ⟨print T, some kt⟩ [] = .ok [] :=
  ⟨Ex57.tmpl, Ex57.kt, Ex57.pk2, _, Ex57.hardCoded, (Ex57.partition 8 (.inr rfl)).path,
    by decide +kernel⟩

/-- A component that is hard-coded in one place and not in another makes discovery fail, or not,
depending on which comes first. -/
theorem C57_violated_by_mixed_placeholders :
    discoverFile (fun n : Nat => (n : Int)) [("/7/7".toList, 1)]
      ⟨"/{i.value}/{i.value[7]}".toList, some [("i".toList, .int .int8)]⟩ [] = .error .typeError ∧
    discoverFile (fun n : Nat => (n : Int)) [("/7/7".toList, 1)]
      ⟨"/{i.value[7]}/{i.value}".toList, some [("i".toList, .int .int8)]⟩ [] =
        .ok [⟨1, ⟨none, [("i".toList, .int .int8 7)], "/7/7".toList⟩⟩] := by decide +kernel

end Arti.Props
