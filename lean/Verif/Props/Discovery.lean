import Verif.Lemmas.Discover
import Verif.Props.Locations

/-!
# Discovering partitions (C21, C22, C23)
-/

namespace Arti.Props
open Arti PyDict Spec Fmt Stg Part

/-! ## C21 -/

theorem fdEq_congr_right {a b b' : PKey} (ha : (keys a).Nodup) (hb : (keys b).Nodup)
    (hb' : (keys b').Nodup) (h : ∀ k, get? b k = get? b' k) : fdEq a b = fdEq a b' := by
  rw [Bool.eq_iff_iff, fdEq_iff ha hb, fdEq_iff ha hb']
  exact forall_congr' fun k => by rw [h k]

theorem wanted_congr {ifps : InputFps} (hi : FpsOk ifps) {pk pk' : PKey} (hn : (keys pk).Nodup)
    (hn' : (keys pk').Nodup) (h : ∀ k, get? pk' k = get? pk k) (fp : Option Fp) :
    FpWanted ifps pk fp ↔ FpWanted ifps pk' fp := by
  have : ∀ e ∈ ifps, fdEq e.1 pk = fdEq e.1 pk' := fun e he =>
    fdEq_congr_right (hi.nodup e he) hn hn' fun k => (h k).symm
  cases fp with
  | none => exact forall_congr' fun e => forall_congr' fun he => by rw [this e he]
  | some w =>
    refine exists_congr fun e => ⟨fun ⟨h1, h2⟩ => ⟨h1, ?_⟩, fun ⟨h1, h2⟩ => ⟨h1, ?_⟩⟩
    · rw [← this e h1]; exact h2
    · rw [this e h1]; exact h2

theorem ifpGet_wanted {ifps : InputFps} (hi : FpsOk ifps) {pk : PKey} (hn : (keys pk).Nodup)
    (fp : Option Fp) : (ifpGet ifps pk).join = fp ↔ FpWanted ifps pk fp := by
  induction ifps with
  | nil => cases fp <;> simp [ifpGet, FpWanted]
  | cons e d ih =>
    obtain ⟨k', v⟩ := e
    have hi' : FpsOk d := ⟨fun e he => hi.nodup e (by simp [he]), (List.pairwise_cons.1 hi.2).2⟩
    by_cases hk : fdEq k' pk = true
    · have hd : ∀ e ∈ d, fdEq e.1 pk = false := by
        intro e he
        have h1 := (List.pairwise_cons.1 hi.2).1 e he
        have hk' := hi.nodup (k', v) (by simp)
        have he' := hi.nodup e (by simp [he])
        rw [Bool.eq_false_iff] at h1 ⊢
        intro h2
        apply h1
        rw [fdEq_iff hk' hn] at hk
        rw [fdEq_iff he' hn] at h2
        rw [fdEq_iff hk' he']
        exact fun k => (hk k).trans (h2 k).symm
      simp only [ifpGet, hk, ↓reduceIte, Option.join_some]
      cases fp with
      | none =>
        simp only [FpWanted, List.mem_cons]
        constructor
        · rintro rfl e (rfl | he) h
          · rfl
          · rw [hd e he] at h; cases h
        · intro h
          exact h (k', v) (.inl rfl) hk
      | some w =>
        simp only [FpWanted, List.mem_cons]
        constructor
        · rintro rfl
          exact ⟨_, .inl rfl, hk, rfl⟩
        · rintro ⟨e, rfl | he, h1, h2⟩
          · exact h2
          · rw [hd e he] at h1; cases h1
    · simp only [ifpGet, hk, Bool.false_eq_true, ↓reduceIte]
      rw [ih hi']
      cases fp with
      | none =>
        simp only [FpWanted, List.mem_cons]
        constructor
        · rintro h e (rfl | he) h1
          · exact absurd h1 hk
          · exact h e he h1
        · intro h e he
          exact h e (.inr he)
      | some w =>
        simp only [FpWanted, List.mem_cons]
        constructor
        · rintro ⟨e, he, h⟩; exact ⟨e, .inr he, h⟩
        · rintro ⟨e, rfl | he, h1, h2⟩
          · exact absurd h1 hk
          · exact ⟨e, he, h1, h2⟩

theorem partitionAt_congr {kt : KeyTypes} {T : List Tok} (hT : tmplOk T = true) {fp : Option Fp}
    {pk pk' : PKey} {path : Str} (hp : PartitionAt kt T fp pk path)
    (h : ∀ k, get? pk' k = get? pk k) (hn : (keys pk').Nodup) : PartitionAt kt T fp pk' path := by
  obtain ⟨-, -, h1, h2, h3⟩ := genFile_ok hT hp.path
  refine ⟨Conforms_congr hp.conforms h hn, hp.range, genFile_of hT ?_ h2 ?_⟩
  · rw [h1]
    constructor
    · rintro rfl
      cases pk' with
      | nil => rfl
      | cons p pk' => exact absurd (h p.1) (by simp [get?])
    · rintro rfl
      cases pk with
      | nil => rfl
      | cons p pk => exact absurd (h p.1).symm (by simp [get?])
  · rw [fieldText_congr h]
    exact h3

theorem parse_and_snap {β : Type} (hash : β → Fp) (files : PyDict Str β) {cls : FieldCls}
    {kt : KeyTypes} {T : List Tok} (hD : Discoverable cls kt T) {ifps : InputFps}
    (hi : FpsOk ifps) (paths : List Str) (hex : ∀ path ∈ paths, path ∈ keys files)
    (hp : ∀ path ∈ paths, ∃ fp pk, PartitionAt kt T fp pk path) :
    ∃ ms snaps, parseSpec T kt ifps paths = .ok ms ∧
      snapAll hash files ⟨print T, some kt⟩ ms = .ok snaps ∧
      (snaps.map (·.partition.path)).Sublist paths ∧
      (∀ s ∈ snaps, PartitionAt kt T s.partition.inputFp s.partition.key s.partition.path ∧
        FpWanted ifps s.partition.key s.partition.inputFp ∧
        ∃ content, get? files s.partition.path = some content ∧ s.contentFp = hash content) ∧
      (∀ fp pk path, PartitionAt kt T fp pk path → path ∈ paths → FpWanted ifps pk fp →
        ∃ s ∈ snaps, s.partition.path = path ∧ s.partition.inputFp = fp ∧
          fdEq s.partition.key pk = true) := by
  induction paths with
  | nil => exact ⟨[], [], rfl, rfl, by simp, by simp, by simp⟩
  | cons path paths ih =>
    obtain ⟨ms, snaps, h1, h2, h3, h4, h5⟩ := ih (fun p hm => hex p (by simp [hm]))
      fun p hm => hp p (by simp [hm])
    obtain ⟨fp, pk, hpa⟩ := hp path (by simp)
    obtain ⟨named, pk', e1, ex, -, -, e2, e3, e4⟩ := extract_path hD hpa
    obtain ⟨content, hcont⟩ : ∃ content, get? files path = some content := by
      cases hg : get? files path with
      | none => exact absurd (hex path (by simp)) ((get?_eq_none_iff _ _).1 hg)
      | some c => exact ⟨c, rfl⟩
    have hpa' := partitionAt_congr hD.ok hpa e3 e4
    -- any partition at this path is the one found
    have huniq : ∀ fp2 pk2, PartitionAt kt T fp2 pk2 path → fp2 = fp ∧
        (∀ k, get? pk' k = get? pk2 k) := by
      intro fp2 pk2 hq
      obtain ⟨named2, pk2', f1, -, -, -, f2, f3, -⟩ := extract_path hD hq
      rw [e1] at f1
      cases f1
      rw [e2] at f2
      injection f2 with f2
      injection f2 with f2 f4
      exact ⟨f2.symm, fun k => by rw [f4]; exact f3 k⟩
    by_cases hw : FpWanted ifps pk' fp
    · refine ⟨(fp, pk') :: ms, ⟨hash content, ⟨fp, pk', path⟩⟩ :: snaps, ?_, ?_, ?_, ?_, ?_⟩
      · simp only [parseSpec, e1, ex, bind, Except.bind, e2, h1, (ifpGet_wanted hi e4 fp).2 hw, ↓reduceIte]
      · simp only [snapAll, hpa'.path, bind, Except.bind, snapFile, hcont, h2]
      · exact h3.cons_cons path
      · intro s hs
        rcases List.mem_cons.1 hs with rfl | hs
        · exact ⟨hpa', hw, content, hcont, rfl⟩
        · exact h4 s hs
      · intro fp2 pk2 path2 hq hm hw2
        by_cases he : path2 = path
        · subst he
          obtain ⟨rfl, hu⟩ := huniq fp2 pk2 hq
          exact ⟨_, .head _, rfl, rfl, (fdEq_iff e4 hq.conforms.nodup).2 hu⟩
        · obtain ⟨s, hs, h⟩ := h5 fp2 pk2 path2 hq (by simpa [he] using hm) hw2
          exact ⟨s, .tail _ hs, h⟩
    · refine ⟨ms, snaps, ?_, h2, h3.cons path, h4, ?_⟩
      · have : ¬ (ifpGet ifps pk').join = fp := fun h => hw ((ifpGet_wanted hi e4 fp).1 h)
        simp only [parseSpec, e1, ex, bind, Except.bind, e2, h1, this, ↓reduceIte]
      · intro fp2 pk2 path2 hq hm hw2
        by_cases he : path2 = path
        · subst he
          obtain ⟨rfl, hu⟩ := huniq fp2 pk2 hq
          exact absurd ((wanted_congr hi hq.conforms.nodup e4 hu _).1 hw2) hw
        · exact h5 fp2 pk2 path2 hq (by simpa [he] using hm) hw2

/-- If every existing file of the form of the template is the file of a partition, then discovery
finds exactly the existing partitions that are wanted: it does not raise, everything that it
returns is at the path that its key and fingerprint generate and has the fingerprint of the
content, every existing wanted partition is returned with an equal key, and nothing is returned
twice. -/
theorem C21_discovers_what_was_written {β : Type} (hash : β → Fp) (files : PyDict Str β)
    (hf : (keys files).Nodup) (cls : FieldCls) (kt : KeyTypes) (T : List Tok)
    (hD : Discoverable cls kt T) (ifps : InputFps) (hi : FpsOk ifps)
    (hclean : ∀ path ∈ keys files, Fits T path → ∃ fp pk, PartitionAt kt T fp pk path) :
    ∃ snaps, discoverFile hash files ⟨print T, some kt⟩ ifps = .ok snaps ∧
      (snaps.map (·.partition.path)).Nodup ∧
      (∀ s ∈ snaps, PartitionAt kt T s.partition.inputFp s.partition.key s.partition.path ∧
        FpWanted ifps s.partition.key s.partition.inputFp ∧
        ∃ content, get? files s.partition.path = some content ∧ s.contentFp = hash content) ∧
      (∀ fp pk path, PartitionAt kt T fp pk path → path ∈ keys files → FpWanted ifps pk fp →
        ∃ s ∈ snaps, s.partition.path = path ∧ s.partition.inputFp = fp ∧
          fdEq s.partition.key pk = true) := by
  obtain ⟨ms, snaps, h1, h2, h3, h4, h5⟩ := parse_and_snap hash files hD hi
    ((keys files).filter (globMatch true (wild T))) (fun p hm => (List.mem_filter.1 hm).1)
    (fun p hm => hclean p (List.mem_filter.1 hm).1
      (fits_of_glob hD.noGlob (List.mem_filter.1 hm).2))
  refine ⟨snaps, ?_, (hf.filter _).sublist h3, h4, ?_⟩
  · simp only [discoverFile, bind, Except.bind, specToWildcard_ok hD, parse_print T hD.ok, h1, h2]
  · intro fp pk path hp hm hw
    refine h5 fp pk path hp (List.mem_filter.2 ⟨hm, ?_⟩) hw
    obtain ⟨-, -, -, -, hr⟩ := genFile_ok hD.ok hp.path
    rw [disc_strip hD] at hr
    exact glob_of_render hD.noGlob (fun f t h => fieldText_chars h) hr

namespace Ex21

def kt : KeyTypes := [("i".toList, .int .int8), ("j".toList, .int .int8)]

def tmpl : List Tok :=
  ("/d/i=".toList.map .ch) ++ [.fld ⟨"i".toList, [.attr "value".toList], []⟩, .ch '/',
    .fld ⟨"j".toList, [.attr "hex".toList], []⟩, .ch '/', .fld (plain ifpName)] ++
    (".json".toList.map .ch)

example : print tmpl = "/d/i={i.value}/{j.hex}/{input_fingerprint}.json".toList := by
  decide +kernel

theorem mem_tmpl {x : Tok} (h : x ∈ tmpl) : (∃ c, x = .ch c ∧ c ∉ ['*', '?', '[']) ∨
    x = .fld ⟨"i".toList, [.attr "value".toList], []⟩ ∨
    x = .fld ⟨"j".toList, [.attr "hex".toList], []⟩ ∨ x = .fld (plain ifpName) := by
  have h : x ∈ [.ch '/', .ch 'd', .ch '/', .ch 'i', .ch '=',
    .fld ⟨"i".toList, [.attr "value".toList], []⟩, .ch '/',
    .fld ⟨"j".toList, [.attr "hex".toList], []⟩, .ch '/', .fld (plain ifpName), .ch '.', .ch 'j',
    .ch 's', .ch 'o', .ch 'n'] := h
  simp only [List.mem_cons, List.not_mem_nil, or_false] at h
  rcases h with rfl | rfl | rfl | rfl | rfl | rfl | rfl | rfl | rfl | rfl | rfl | rfl | rfl | rfl |
    rfl
  all_goals first
    | exact .inl ⟨_, rfl, by decide⟩
    | exact .inr (.inl rfl)
    | exact .inr (.inr (.inl rfl))
    | exact .inr (.inr (.inr rfl))

theorem mentions_iff {k c : Str} : mentions tmpl k c = true ↔
    (k = ['i'] ∧ c = "value".toList) ∨ (k = ['j'] ∧ c = "hex".toList) := by
  constructor
  · intro h
    simp only [mentions, List.any_eq_true] at h
    obtain ⟨x, hx, h⟩ := h
    rcases mem_tmpl hx with ⟨c, rfl, -⟩ | rfl | rfl | rfl
    · simp at h
    · simp only [Bool.and_eq_true, beq_iff_eq] at h
      exact .inl ⟨h.1.symm, by simpa using h.2.symm⟩
    · simp only [Bool.and_eq_true, beq_iff_eq] at h
      exact .inr ⟨h.1.symm, by simpa using h.2.symm⟩
    · simp [plain] at h
  · rintro (⟨rfl, rfl⟩ | ⟨rfl, rfl⟩) <;> decide +kernel

theorem oneClass (k : Str) (c : FieldCls) (h : (k, c) ∈ kt) : c = .int .int8 := by
  simp only [kt, List.mem_cons, Prod.mk.injEq, List.not_mem_nil, or_false] at h
  rcases h with ⟨-, rfl⟩ | ⟨-, rfl⟩ <;> rfl

theorem discoverable : Discoverable (.int .int8) kt tmpl := by
  refine ⟨by decide +kernel, by decide +kernel, ?_, oneClass, by decide +kernel, ?_, ?_⟩
  · intro c hc
    rcases mem_tmpl hc with ⟨c', he, h⟩ | h | h | h
    · cases he; exact h
    all_goals cases h
  · intro f hf
    rcases mem_tmpl hf with ⟨c', h, -⟩ | h | h | h <;> cases h
    · exact .inr ⟨"i".toList, by decide +kernel, _, rfl⟩
    · exact .inr ⟨"j".toList, by decide +kernel, _, rfl⟩
    · exact .inl rfl
  · intro k hk
    simp only [kt, keys, List.map_cons, List.map_nil, List.mem_cons, List.not_mem_nil, or_false]
      at hk
    rcases hk with rfl | rfl
    · refine ⟨["value"], .head _, fun c => ?_⟩
      rw [mentions_iff]
      simp
    · refine ⟨["hex"], .tail _ (.head _), fun c => ?_⟩
      rw [mentions_iff]
      simp

def pk1 : PKey := [("i".toList, .int .int8 (-3)), ("j".toList, .int .int8 26)]
def pk2 : PKey := [("j".toList, .int .int8 0), ("i".toList, .int .int8 7)]

theorem partition1 : PartitionAt kt tmpl (some 5) pk1 "/d/i=-3/0x1a/5.json".toList := by
  refine ⟨⟨by decide +kernel, ?_, ?_, ?_⟩, by simp [Int64Range], by decide +kernel⟩
  · intro k; simp [kt, pk1, keys]
  · intro k v h
    simp only [pk1, List.mem_cons, Prod.mk.injEq, List.not_mem_nil, or_false] at h
    rcases h with ⟨rfl, rfl⟩ | ⟨rfl, rfl⟩ <;> decide +kernel
  · intro k v h
    simp only [pk1, List.mem_cons, Prod.mk.injEq, List.not_mem_nil, or_false] at h
    rcases h with ⟨rfl, rfl⟩ | ⟨rfl, rfl⟩ <;> trivial

theorem partition2 : PartitionAt kt tmpl (some (-9)) pk2 "/d/i=7/0x0/-9.json".toList := by
  refine ⟨⟨by decide +kernel, ?_, ?_, ?_⟩, by simp [Int64Range], by decide +kernel⟩
  · intro k; simp [kt, pk2, keys, or_comm]
  · intro k v h
    simp only [pk2, List.mem_cons, Prod.mk.injEq, List.not_mem_nil, or_false] at h
    rcases h with ⟨rfl, rfl⟩ | ⟨rfl, rfl⟩ <;> decide +kernel
  · intro k v h
    simp only [pk2, List.mem_cons, Prod.mk.injEq, List.not_mem_nil, or_false] at h
    rcases h with ⟨rfl, rfl⟩ | ⟨rfl, rfl⟩ <;> trivial

/-- Two partitions and a file that does not belong to the storage. -/
def files : PyDict Str Nat :=
  [("/d/i=-3/0x1a/5.json".toList, 10), ("/x".toList, 11), ("/d/i=7/0x0/-9.json".toList, 12)]

theorem clean : ∀ path ∈ keys files, Fits tmpl path → ∃ fp pk, PartitionAt kt tmpl fp pk path := by
  intro path hp hfit
  simp only [files, keys, List.map_cons, List.map_nil, List.mem_cons, List.not_mem_nil, or_false]
    at hp
  rcases hp with rfl | rfl | rfl
  · exact ⟨_, _, partition1⟩
  · exfalso
    have hfit : Fits (.ch '/' :: .ch 'd' :: tmpl.drop 2) ['/', 'x'] := hfit
    cases hfit with
    | ch _ h => cases h
  · exact ⟨_, _, partition2⟩

def ifps : InputFps := [(pk1, some 5), (pk2, some 4)]

theorem ifpsOk : FpsOk ifps :=
  ⟨by decide +kernel, by decide +kernel⟩

example : ∃ snaps, discoverFile (fun n : Nat => (n : Int)) files ⟨print tmpl, some kt⟩ ifps =
    .ok snaps ∧ ∃ s ∈ snaps, s.partition.path = "/d/i=-3/0x1a/5.json".toList ∧
      s.partition.inputFp = some 5 ∧ fdEq s.partition.key pk1 = true := by
  obtain ⟨snaps, h, -, -, hc⟩ := C21_discovers_what_was_written (fun n : Nat => (n : Int)) files
    (by decide +kernel) _ kt tmpl discoverable ifps ifpsOk clean
  exact ⟨snaps, h, hc _ _ _ partition1 (by decide +kernel)
    ⟨(pk1, some 5), .head _, by decide +kernel, rfl⟩⟩

example : discoverFile (fun n : Nat => (n : Int)) files ⟨print tmpl, some kt⟩ ifps =
    .ok [⟨10, ⟨some 5, pk1, "/d/i=-3/0x1a/5.json".toList⟩⟩] := by decide +kernel

end Ex21

/-- Why the files of the form of the template have to be files of partitions: another file makes
discovery fail. -/
theorem C21_needs_clean_directory : ∃ T : List Tok, ∃ kt : KeyTypes, ∃ files : PyDict Str Nat,
    Discoverable (.int .int8) kt T ∧
      discoverFile (fun n : Nat => (n : Int)) files ⟨print T, some kt⟩ [] = .error .valueError := by
  exact ⟨Ex21.tmpl, Ex21.kt, [("/d/i=7/0x0/README.json".toList, 1)], Ex21.discoverable,
    by decide +kernel⟩

/-! ## C22 -/

theorem collect_nodup {rest : List (Str × Str)} {fp fp' : Option Fp}
    {fc fc' : PyDict Str (PyDict Str Str)} {last last' : Option Str} (hn : (keys fc).Nodup)
    (h : collect rest fp fc last = .ok (fp', fc', last')) : (keys fc').Nodup := by
  induction rest generalizing fp fc last with
  | nil =>
    simp only [collect, Except.ok.injEq, Prod.mk.injEq] at h
    rw [← h.2.1]; exact hn
  | cons e rest ih =>
    obtain ⟨k, v⟩ := e
    simp only [collect] at h
    split at h
    · cases h1 : pyInt 10 v with
      | error e => simp [h1] at h
      | ok i =>
        cases h2 : fpFromInt i with
        | error e => simp [h1, h2] at h
        | ok w =>
          simp only [h1, h2] at h
          exact ih hn h
    · split at h
      · exact ih (nodup_keys_set _ _ _ hn) h
      · cases h

theorem buildKey_cls {kt : KeyTypes} {last : Option Str} {fc : PyDict Str (PyDict Str Str)}
    {pk : PKey} (h : buildKey kt last fc = .ok pk) :
    keys pk = keys fc ∧ (pk = [] ∨ ∃ key cls, get? kt key = some cls ∧
      ∀ k v, (k, v) ∈ pk → v.cls = cls ∧ ValidField v) := by
  induction fc generalizing pk with
  | nil =>
    simp only [buildKey, Except.ok.injEq] at h
    subst h
    exact ⟨rfl, .inl rfl⟩
  | cons p fc ih =>
    obtain ⟨name, cs⟩ := p
    simp only [buildKey] at h
    cases last with
    | none => simp at h
    | some key =>
      simp only at h
      cases hk : get? kt key with
      | none => simp [hk] at h
      | some cls =>
        simp only [hk] at h
        cases hv : fromComponents cls cs with
        | error e => simp [hv] at h
        | ok v =>
          simp only [hv] at h
          cases hr : buildKey kt (some key) fc with
          | error e => simp [hr, Except.map] at h
          | ok r =>
            simp only [hr, Except.map, Except.ok.injEq] at h
            subst h
            obtain ⟨h1, h2⟩ := ih hr
            refine ⟨by simp [keys] at h1 ⊢; exact h1, .inr ?_⟩
            have hcv := C24_class_and_validity cls cs v hv
            refine ⟨key, cls, hk, fun k w hm => ?_⟩
            rcases List.mem_cons.1 hm with he | hm
            · cases he; exact hcv
            · have hall : ∀ fc r, buildKey kt (some key) fc = .ok r → ∀ k v, (k, v) ∈ r →
                  v.cls = cls ∧ ValidField v := by
                intro fc
                induction fc with
                | nil => intro r hr k v hm; simp only [buildKey, Except.ok.injEq] at hr; simp [← hr] at hm
                | cons p fc ih =>
                  intro r hr k v hm
                  obtain ⟨n, cs⟩ := p
                  simp only [buildKey, hk] at hr
                  cases hv : fromComponents cls cs with
                  | error e => simp [hv] at hr
                  | ok u =>
                    cases hr' : buildKey kt (some key) fc with
                    | error e => simp [hv, hr', Except.map] at hr
                    | ok r' =>
                      simp only [hv, hr', Except.map, Except.ok.injEq] at hr
                      subst hr
                      rcases List.mem_cons.1 hm with he | hm
                      · cases he; exact C24_class_and_validity cls cs _ hv
                      · exact ih r' hr' k v hm
              exact hall fc r hr k w hm

theorem extract_cls {kt : KeyTypes} {named : List (Str × Str)} {fp : Option Fp} {pk : PKey}
    (h : extractPlaceholders kt named = .ok (fp, pk)) :
    (keys pk).Nodup ∧ (∀ k, k ∈ keys pk ↔ k ∈ keys kt) ∧
      (pk = [] ∨ ∃ key cls, get? kt key = some cls ∧
        ∀ k v, (k, v) ∈ pk → v.cls = cls ∧ ValidField v) := by
  unfold extractPlaceholders at h
  cases h1 : collect named none [] none with
  | error e => simp [h1] at h
  | ok r =>
    obtain ⟨fp', fc, last⟩ := r
    cases h2 : buildKey kt last fc with
    | error e => simp [h1, h2] at h
    | ok pk' =>
      simp only [h1, h2] at h
      split at h
      · rename_i hs
        cases h
        obtain ⟨h3, h4⟩ := buildKey_cls h2
        exact ⟨by rw [h3]; exact collect_nodup (by simp [keys]) h1, (sameSet_iff _ _).1 hs, h4⟩
      · cases h

theorem parseSpec_mem {toks : List Tok} {kt : KeyTypes} {ifps : InputFps} {paths : List Str}
    {ms : List (Option Fp × PKey)} (h : parseSpec toks kt ifps paths = .ok ms) {fp : Option Fp}
    {pk : PKey} (hm : (fp, pk) ∈ ms) :
    ∃ named, extractPlaceholders kt named = .ok (fp, pk) := by
  induction paths generalizing ms with
  | nil =>
    simp only [parseSpec, Except.ok.injEq] at h
    simp [← h] at hm
  | cons path paths ih =>
    simp only [parseSpec] at h
    cases h1 : lazyMatch toks [] path with
    | none => simp [h1] at h
    | some named =>
      cases h2' : expand named >>= extractPlaceholders kt with
      | error e => simp [h1, h2'] at h
      | ok r =>
        obtain ⟨fp', pk'⟩ := r
        obtain ⟨named', h2⟩ : ∃ named', extractPlaceholders kt named' = .ok (fp', pk') := by
          simp only [bind, Except.bind] at h2'
          split at h2'
          · cases h2'
          · exact ⟨_, h2'⟩
        cases h3 : parseSpec toks kt ifps paths with
        | error e => simp [h1, h2', h3] at h
        | ok ms' =>
          simp only [h1, h2', h3, Except.ok.injEq] at h
          subst h
          split at hm
          · rcases List.mem_cons.1 hm with he | hm
            · cases he; exact ⟨named', h2⟩
            · exact ih h3 hm
          · exact ih h3 hm

theorem snapAll_mem {β : Type} {hash : β → Fp} {files : PyDict Str β} {st : FileStorage}
    {ms : List (Option Fp × PKey)} {snaps : List (Snap FilePartition)}
    (h : snapAll hash files st ms = .ok snaps) {s : Snap FilePartition} (hs : s ∈ snaps) :
    (s.partition.inputFp, s.partition.key) ∈ ms := by
  induction ms generalizing snaps with
  | nil =>
    simp only [snapAll, Except.ok.injEq] at h
    simp [← h] at hs
  | cons p ms ih =>
    obtain ⟨fp, pk⟩ := p
    simp only [snapAll, bind, Except.bind] at h
    cases h1 : genFile st fp pk with
    | error e => simp [h1] at h
    | ok p =>
      cases h2 : snapFile hash files p with
      | error e => simp [h1, h2] at h
      | ok s' =>
        cases h3 : snapAll hash files st ms with
        | error e => simp [h1, h2, h3] at h
        | ok ss =>
          simp only [h1, h2, h3, Except.ok.injEq] at h
          subst h
          rcases List.mem_cons.1 hs with rfl | hs
          · have hp : p.inputFp = fp ∧ p.key = pk := by
              unfold genFile at h1
              simp only [bind, Except.bind] at h1
              cases h4 : genKwargs st.keyTypes [st.path] fp pk with
              | error e => simp [h4] at h1
              | ok kw =>
                cases h5 : genField kw st.path with
                | error e => simp [h4, h5] at h1
                | ok path => simp only [h4, h5, Except.ok.injEq] at h1; subst h1; exact ⟨rfl, rfl⟩
            have hs' : s.partition = p := by
              unfold snapFile at h2
              split at h2
              · cases h2; rfl
              · cases h2
            rw [hs', hp.1, hp.2]
            simp
          · exact List.mem_cons_of_mem _ (ih h3 hs)

theorem discover_keys {β : Type} {hash : β → Fp} {files : PyDict Str β} {path : Str}
    {kt : KeyTypes} {ifps : InputFps} {snaps : List (Snap FilePartition)}
    (h : discoverFile hash files ⟨path, some kt⟩ ifps = .ok snaps) {s : Snap FilePartition}
    (hs : s ∈ snaps) : (keys s.partition.key).Nodup ∧
      (∀ k, k ∈ keys s.partition.key ↔ k ∈ keys kt) ∧
      (s.partition.key = [] ∨ ∃ key cls, get? kt key = some cls ∧
        ∀ k v, (k, v) ∈ s.partition.key → v.cls = cls ∧ ValidField v) := by
  simp only [discoverFile, bind, Except.bind] at h
  cases h1 : specToWildcard path kt with
  | error e => simp [h1] at h
  | ok w =>
    cases h2 : parse path with
    | error e => simp [h1, h2] at h
    | ok toks =>
      simp only [h1, h2] at h
      cases h3 : parseSpec toks kt ifps ((keys files).filter (globMatch true w)) with
      | error e => simp [h3] at h
      | ok ms =>
        simp only [h3] at h
        obtain ⟨named, h4⟩ := parseSpec_mem h3 (snapAll_mem h hs)
        exact extract_cls h4

/-- Whatever the template and the files: a discovered key has exactly the declared names, and all
its fields have one class, that of one of the declared keys. -/
theorem C22_one_class_for_all_fields {β : Type} (hash : β → Fp) (files : PyDict Str β) (path : Str)
    (kt : KeyTypes) (ifps : InputFps) (snaps : List (Snap FilePartition))
    (h : discoverFile hash files ⟨path, some kt⟩ ifps = .ok snaps) (s : Snap FilePartition)
    (hs : s ∈ snaps) : (∀ k, k ∈ keys s.partition.key ↔ k ∈ keys kt) ∧
      (s.partition.key = [] ∨ ∃ key cls, get? kt key = some cls ∧
        ∀ k v, (k, v) ∈ s.partition.key → v.cls = cls) := by
  obtain ⟨-, h2, h3⟩ := discover_keys h hs
  refine ⟨h2, ?_⟩
  rcases h3 with h3 | ⟨key, cls, h4, h5⟩
  · exact .inl h3
  · exact .inr ⟨key, cls, h4, fun k v hm => (h5 k v hm).1⟩

/-- With one declared class, every discovered key has the declared names and classes. -/
theorem C22_own_class_partial {β : Type} (hash : β → Fp) (files : PyDict Str β) (path : Str)
    (kt : KeyTypes) (ifps : InputFps) (snaps : List (Snap FilePartition))
    (h : discoverFile hash files ⟨path, some kt⟩ ifps = .ok snaps) (cls : FieldCls)
    (hone : ∀ k c, (k, c) ∈ kt → c = cls) (s : Snap FilePartition) (hs : s ∈ snaps) :
    Conforms kt s.partition.key := by
  obtain ⟨h1, h2, h3⟩ := discover_keys h hs
  have hget : ∀ k, k ∈ keys kt → get? kt k = some cls := by
    intro k hk
    cases hg : get? kt k with
    | none => exact absurd hk ((get?_eq_none_iff _ _).1 hg)
    | some c => rw [hone k c (get?_mem hg)]
  refine ⟨h1, h2, ?_, ?_⟩
  · intro k v hm
    have hk := (h2 k).1 (List.mem_map.2 ⟨_, hm, rfl⟩)
    rcases h3 with h3 | ⟨key, cls', h4, h5⟩
    · rw [h3] at hm; simp at hm
    · rw [hget k hk, (h5 k v hm).1, hone key cls' (get?_mem h4)]
  · intro k v hm
    rcases h3 with h3 | ⟨key, cls', h4, h5⟩
    · rw [h3] at hm; simp at hm
    · exact (h5 k v hm).2

example : Conforms Ex21.kt Ex21.pk1 :=
  C22_own_class_partial (fun n : Nat => (n : Int)) Ex21.files (print Ex21.tmpl) Ex21.kt Ex21.ifps
    [⟨10, ⟨some 5, Ex21.pk1, "/d/i=-3/0x1a/5.json".toList⟩⟩] (by decide +kernel) (.int .int8)
    Ex21.oneClass _ (.head _)

/-- With an `int16` key before an `int8` key, the partition that was written is discovered under
another key: the first field comes back as an `int8`, even with a value that an `int8` cannot
have.  With a date and an integer key, discovery fails. -/
theorem C22_violated_by_mixed_classes :
    (∃ kt : KeyTypes, ∃ path : Str, ∃ pk pk' : PKey, ∃ p : FilePartition,
      genFile ⟨path, some kt⟩ none pk = .ok p ∧
      discoverFile (fun n : Nat => (n : Int)) [(p.path, 1)] ⟨path, some kt⟩ [] =
        .ok [⟨1, ⟨none, pk', p.path⟩⟩] ∧
      get? kt "a".toList = some (.int .int16) ∧ get? pk' "a".toList = some (.int .int8 300) ∧
      fdEq pk pk' = false) ∧
    (∃ kt : KeyTypes, ∃ path : Str, ∃ pk : PKey, ∃ p : FilePartition,
      genFile ⟨path, some kt⟩ none pk = .ok p ∧
      discoverFile (fun n : Nat => (n : Int)) [(p.path, 1)] ⟨path, some kt⟩ [] =
        .error .notImplemented) := by
  constructor
  · refine ⟨[(['a'], .int .int16), (['b'], .int .int8)], "{a.value}/{b.value}".toList,
      [(['a'], .int .int16 300), (['b'], .int .int8 5)],
      [(['a'], .int .int8 300), (['b'], .int .int8 5)],
      ⟨none, [(['a'], .int .int16 300), (['b'], .int .int8 5)], "300/5".toList⟩, ?_, ?_, ?_, ?_, ?_⟩
    all_goals decide +kernel
  · refine ⟨[(['d'], .date), (['i'], .int .int8)], "{d.iso}/{i.value}".toList,
      [(['d'], .date 2024 2 29), (['i'], .int .int8 5)],
      ⟨none, [(['d'], .date 2024 2 29), (['i'], .int .int8 5)], "2024-02-29/5".toList⟩, ?_, ?_⟩
    all_goals decide +kernel

end Arti.Props
