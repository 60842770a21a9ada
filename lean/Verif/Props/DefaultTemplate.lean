import Verif.Lemmas.DefaultTemplate

/-!
# Discovering with the default template (C23)
-/

namespace Arti.Props
open Arti PyDict Spec Fmt Stg Part

/-- The values that a storage is resolved with, in the order of the code: type and format when the
artifact is created (`artifacts/__init__.py:64-73`), graph and names when it is added to a graph
(`graphs/__init__.py:63`), and no fingerprint if it has no producer (`graphs/__init__.py:72`). -/
def resolutions (kt : KeyTypes) (extension graphName : Str) (pathTags : PyDict Str Str)
    (names : List Str) (raw : Bool) : List (PyDict Str Str) :=
  [typeValues kt, formatValues extension, graphValues graphName pathTags, namesValues names] ++
    if raw then [ifpValues none] else []

/-- The texts that storages are resolved with. -/
structure TextsOk (kt : KeyTypes) (extension graphName : Str) (pathTags : PyDict Str Str)
    (names : List Str) : Prop where
  names : ∀ n ∈ names, segOk n = true
  graph : textOk graphName = true
  tags : ∀ p ∈ pathTags, segOk p.1 = true ∧ segOk p.2 = true
  ext : textOk extension = true
  keyNames : ∀ n ∈ keys kt, keyNameOk n = true
  nodup : (keys kt).Nodup

theorem resolutions_toks {kt : KeyTypes} {extension graphName : Str} {pathTags : PyDict Str Str}
    {names : List Str} (h : TextsOk kt extension graphName pathTags names) (raw : Bool) :
    ∃ vs : List (PyDict Str (List Tok)),
      resolutions kt extension graphName pathTags names raw = vs.map texts ∧
      (keys vs.flatten).Nodup ∧ (∀ n ∈ keys vs.flatten, n ∈ placeholderNames) ∧
      (∀ p ∈ vs.flatten, valueOk placeholderNames p.2 = true) ∧
      ("partition_key_spec".toList, joinToks (specToks kt)) ∈ vs.flatten := by
  obtain ⟨vs, h1, h2, h3⟩ := values_toks names graphName pathTags extension kt none h.names h.graph
    h.tags h.ext h.keyNames
  have hres : ∃ vs' : List (PyDict Str (List Tok)), vs'.flatten.Sublist vs.flatten ∧
      resolutions kt extension graphName pathTags names raw = vs'.map texts := by
    cases raw with
    | true => exact ⟨vs, List.Sublist.refl _, h1⟩
    | false =>
      refine ⟨vs.take 4, ?_, ?_⟩
      · have he : vs.flatten = (vs.take 4).flatten ++ (vs.drop 4).flatten := by
          rw [← List.flatten_append, List.take_append_drop]
        rw [he]
        exact List.sublist_append_left _ _
      rw [List.map_take, ← h1]
      rfl
  obtain ⟨vs', hs, hr⟩ := hres
  have hv : ∀ p ∈ vs'.flatten, valueOk placeholderNames p.2 = true :=
    fun p hp => h3 p (hs.subset hp)
  refine ⟨vs', hr, ?_, ?_, hv, ?_⟩
  · refine (hs.map Prod.fst).nodup ?_
    show (keys vs.flatten).Nodup
    rw [h2]
    decide +kernel
  · intro n hn
    rw [← h2]
    exact (hs.map Prod.fst).subset hn
  · exact spec_value h.nodup (R := formatValues extension :: graphValues graphName pathTags ::
      namesValues names :: if raw then [ifpValues none] else []) hr hv h.keyNames

/-- A resolved template is again a template. -/
theorem resolved {T : List Tok} (hT : resolvable placeholderNames T = true) {kt : KeyTypes}
    {extension graphName : Str} {pathTags : PyDict Str Str} {names : List Str}
    (h : TextsOk kt extension graphName pathTags names) (raw : Bool) {path : Str}
    (hr : resolveAll (print T) (resolutions kt extension graphName pathTags names raw) = .ok path) :
    ∃ V : PyDict Str (List Tok), path = print (substT (full V) (cut (empt V) T)) ∧
      tmplOk (substT (full V) (cut (empt V) T)) = true ∧ (keys V).Nodup ∧
      (∀ p ∈ V, valueOk placeholderNames p.2 = true) ∧
      V.map (fun p => (p.1, print p.2)) =
        (resolutions kt extension graphName pathTags names raw).flatten ∧
      ("partition_key_spec".toList, joinToks (specToks kt)) ∈ V := by
  obtain ⟨vs, h1, h2, h3, h4, h5⟩ := resolutions_toks h raw
  have hnames : ∀ n ∈ placeholderNames, nameOk n = true := by decide +kernel
  rw [h1, resolveAll_print vs T placeholderNames h3 (fun n hn => hnames n (h3 n hn)) h2 hT h4] at hr
  cases hs : step vs.flatten T with
  | error e => simp [hs, Except.map] at hr
  | ok U =>
    simp only [hs, Except.map, Except.ok.injEq] at hr
    have hU := (resolvable_iff.1 (step_resolvable hT h4 hs)).1
    unfold step at hs
    split at hs
    · cases hs
    · injection hs with hs
      refine ⟨vs.flatten, by rw [hs]; exact hr.symm, by rw [hs]; exact hU, h2, h4, ?_, h5⟩
      rw [h1]
      clear h1 h2 h3 h4 h5 hr hU hs
      rename_i hc
      clear hc
      induction vs with
      | nil => rfl
      | cons V vs ih =>
        rw [List.flatten_cons, List.map_append, ih, List.map_cons, List.flatten_cons]
        rfl

theorem notIn_empt {V : PyDict Str (List Tok)} (hnd : (keys V).Nodup) {n : Str} {U : List Tok}
    (h : (n, U) ∈ V) (hU : U ≠ []) : n ∉ empt V ∧ get? (full V) n = some U := by
  have hn : n ∉ empt V := by
    intro hm
    simp only [empt, keys, List.mem_map, List.mem_filter] at hm
    obtain ⟨p, ⟨hp, he⟩, rfl⟩ := hm
    have h1 := get?_of_mem hnd (k := p.1) (v := p.2) hp
    rw [get?_of_mem hnd h] at h1
    cases h1
    exact hU (List.isEmpty_iff.1 he)
  exact ⟨hn, by rw [get?_full hnd hn]; exact get?_of_mem hnd h⟩

theorem plain_of_first {N : List Str} {T : List Tok} (h : plainIn N T = true) {f : Fld}
    (hf : .fld f ∈ T) (hn : f.first ∈ N) : f = plain f.first := by
  obtain ⟨h1, h2⟩ := plainIn_mem h hf hn
  obtain ⟨a, b, c⟩ := f
  simp only at h1 h2
  simp [plain, h1, h2]

/-- Whenever a template with `{partition_key_spec}`, like the default one, is resolved for a type
that is partitioned by a date, discovering its partitions raises, whatever files there are. -/
theorem C23_violated_for_every_date_key (T : List Tok)
    (hT : resolvable placeholderNames T = true)
    (hpks : .fld (plain "partition_key_spec".toList) ∈ T) (kt : KeyTypes)
    (extension graphName : Str) (pathTags : PyDict Str Str) (names : List Str)
    (h : TextsOk kt extension graphName pathTags names) (raw : Bool) (path : Str)
    (hr : resolveAll (print T) (resolutions kt extension graphName pathTags names raw) = .ok path)
    (d : Str) (hd : (d, .date) ∈ kt) {β : Type} (hash : β → Fp) (files : PyDict Str β)
    (ifps : InputFps) : ∃ e, discoverFile hash files ⟨path, some kt⟩ ifps = .error e := by
  obtain ⟨V, rfl, hok, hnd, -, -, hm⟩ := resolved hT h raw hr
  -- the component with a format spec
  have hU : .fld ⟨d, [.attr ['m']], ['0', '2']⟩ ∈ joinToks (specToks kt) := by
    refine joinToks_mem (U := compToks d ['m'] ['m'] ['0', '2']) ?_ (by simp [compToks])
    simp only [specToks, List.mem_flatMap, List.mem_map, Prod.exists]
    exact ⟨d, .date, hd, ['m'], ['m'], ['0', '2'], by simp [defaultToks], rfl⟩
  obtain ⟨h1, h2⟩ := notIn_empt hnd hm (List.ne_nil_of_mem hU)
  have hf : .fld ⟨d, [.attr ['m']], ['0', '2']⟩ ∈ substT (full V) (cut (empt V) T) := by
    refine mem_substT.2 (.inr ⟨plain "partition_key_spec".toList, cut_mem hpks h1, ?_⟩)
    show _ ∈ (get? (full V) "partition_key_spec".toList).getD _
    rw [h2]
    exact hU
  -- it is not the fingerprint
  have hf' : .fld ⟨d, [.attr ['m']], ['0', '2']⟩ ∈ (substT (full V) (cut (empt V) T)).map starIfp :=
    List.mem_map.2 ⟨_, hf, by simp [starIfp, plain]⟩
  cases hw : specToWildcard (print (substT (full V) (cut (empt V) T))) kt with
  | error e => exact ⟨e, by simp [discoverFile, bind, Except.bind, hw]⟩
  | ok w =>
    exfalso
    unfold specToWildcard at hw
    rw [replaceAll_ifp hok, parse_print _ (tmplOk_starIfp hok)] at hw
    simp only [bind, Except.bind] at hw
    obtain ⟨t, ht⟩ := render_fld_ok hw hf'
    simp only [wildcardFld, get?_of_mem h.nodup hd] at ht
    split at ht
    · simp at ht
    · cases ht

namespace Ex23

theorem texts (kt : KeyTypes) (h : ∀ n ∈ keys kt, keyNameOk n = true) (hn : (keys kt).Nodup) :
    TextsOk kt ".json".toList "g".toList [("env".toList, "dev".toList)]
      ["a".toList, "b".toList] :=
  ⟨by decide +kernel, by decide +kernel, by decide +kernel, by decide +kernel, h, hn⟩

example : ∃ e, discoverFile (fun n : Nat => (n : Int)) [] ⟨("/tmp/g/env=dev/a/b/date_Y={date.Y}/" ++
    "date_m={date.m:02}/date_d={date.d:02}/i_value={i.value}/{input_fingerprint}/b.json").toList,
      some Ex19.kt⟩ [] = .error e :=
  C23_violated_for_every_date_key Ex19.tmpl (by decide +kernel) (by decide +kernel) Ex19.kt
    ".json".toList "g".toList [("env".toList, "dev".toList)] ["a".toList, "b".toList]
    (texts _ (by decide +kernel) (by decide +kernel)) false _ (by decide +kernel) "date".toList
    (by decide +kernel) _ _ _

example : discoverFile (fun n : Nat => (n : Int)) [] ⟨"date_m={date.m:02}".toList,
    some [("date".toList, .date)]⟩ [] = .error .typeError := by decide +kernel

end Ex23

/-! ## Types that are not partitioned by dates -/

/-- Every placeholder with one of the names is followed by a separator or the end. -/
def followed (names : List Str) : List Tok → Bool
  | [] => true
  | .ch _ :: r => followed names r
  | .fld f :: r =>
    (!names.contains f.first || r.isEmpty || r.head? == some sepTok) && followed names r

theorem followed_left {F : List Str} {A B : List Tok} (h : followed F (A ++ B) = true) :
    followed F A = true := by
  induction A with
  | nil => rfl
  | cons x A ih =>
    cases x with
    | ch c => exact ih h
    | fld f =>
      simp only [List.cons_append, followed, Bool.and_eq_true] at h ⊢
      refine ⟨?_, ih h.2⟩
      cases A with
      | nil => simp
      | cons y A => simpa using h.1

theorem followed_rem {F E : List Str} {b : Bool} {T : List Tok} (h : followed F T = true) :
    followed F (rem E b T) = true := by
  induction T generalizing b with
  | nil => rfl
  | cons x T ih =>
    cases x with
    | ch c =>
      simp only [rem]
      split
      · exact ih h
      · exact ih (b := false) h
    | fld f =>
      simp only [followed, Bool.and_eq_true] at h
      simp only [rem]
      split
      · exact ih h.2
      · simp only [followed, Bool.and_eq_true]
        refine ⟨?_, ih h.2⟩
        cases T with
        | nil => simp [rem]
        | cons y T =>
          have h1 := h.1
          simp only [List.isEmpty_cons, Bool.or_false, List.head?_cons, Bool.or_eq_true,
            beq_iff_eq] at h1
          rcases h1 with h1 | h1
          · simp only [Bool.or_eq_true]; exact .inl (.inl h1)
          · injection h1 with h1
            subst h1
            simp [sepTok, rem]

theorem followed_cut {F E : List Str} {T : List Tok} (h : followed F T = true) :
    followed F (cut E T) = true := by
  unfold cut
  split
  · exact h
  · obtain ⟨S, h1, -⟩ := rs_split (rem E false T)
    have := followed_rem (E := E) (b := false) h
    rw [h1] at this
    exact followed_left this

theorem delimited_no_fld {U R : List Tok} (hU : ∀ f, .fld f ∉ U) (hR : delimited R = true) :
    delimited (U ++ R) = true := by
  induction U with
  | nil => exact hR
  | cons x U ih =>
    cases x with
    | ch c => exact ih fun f hf => hU f (List.mem_cons_of_mem _ hf)
    | fld f => exact absurd (.head _) (hU f)

theorem delimited_before_sep {U R : List Tok} (hU : delimited U = true) (hR : delimited R = true)
    (h : R = [] ∨ R.head? = some sepTok) : delimited (U ++ R) = true := by
  induction U with
  | nil => exact hR
  | cons x U ih =>
    cases x with
    | ch c => exact ih hU
    | fld f =>
      simp only [List.cons_append, delimited, Bool.and_eq_true] at hU ⊢
      refine ⟨?_, ih hU.2⟩
      cases U with
      | nil =>
        rcases h with rfl | h
        · rfl
        · cases R with
          | nil => rfl
          | cons y R =>
            injection h with h
            subst h
            simp only [List.nil_append, sepTok]
            decide
      | cons y U => cases y <;> exact hU.1

theorem delimited_substT {V : PyDict Str (List Tok)} {F : List Str} {X : List Tok}
    (hX : followed F X = true)
    (hV : ∀ f, .fld f ∈ X → delimited ((get? V f.first).getD [.fld f]) = true ∧
      (f.first ∈ F ∨ ∀ g, .fld g ∉ (get? V f.first).getD [.fld f])) :
    delimited (substT V X) = true := by
  induction X with
  | nil => rfl
  | cons x X ih =>
    have hV' := fun f hf => hV f (List.mem_cons_of_mem _ hf)
    cases x with
    | ch c =>
      rw [substT_ch]
      exact ih hX hV'
    | fld f =>
      simp only [followed, Bool.and_eq_true] at hX
      rw [substT_fld]
      obtain ⟨h1, h2⟩ := hV f (.head _)
      rcases h2 with h2 | h2
      · refine delimited_before_sep h1 (ih hX.2 hV') ?_
        cases X with
        | nil => exact .inl rfl
        | cons y X =>
          have hy := hX.1
          simp [h2] at hy
          subst hy
          right
          rw [sepTok, substT_ch]
          rfl
      · exact delimited_no_fld h2 (ih hX.2 hV')

theorem ch_mem_print {c : Char} {T : List Tok} (h : .ch c ∈ T) : c ∈ print T := by
  simp only [print, List.mem_flatten, List.mem_map]
  exact ⟨[c], ⟨_, h, rfl⟩, by simp⟩

theorem fld_mem_print {f : Fld} {T : List Tok} (h : .fld f ∈ T) : '{' ∈ print T := by
  simp only [print, List.mem_flatten, List.mem_map]
  exact ⟨printFld f, ⟨_, h, rfl⟩, by simp [printFld]⟩

theorem mem_joinWith {c : Char} {xs : List Str} (h : c ∈ joinWith [sep] xs) :
    c = '/' ∨ ∃ x ∈ xs, c ∈ x := by
  induction xs with
  | nil => simp [joinWith] at h
  | cons x xs ih =>
    cases xs with
    | nil => exact .inr ⟨x, by simp, by simpa [joinWith] using h⟩
    | cons y xs =>
      simp only [joinWith, List.mem_append, List.mem_cons, List.not_mem_nil, or_false] at h
      rcases h with (h | h) | h
      · exact .inr ⟨x, by simp, h⟩
      · exact .inl h
      · rcases ih h with h | ⟨z, hz, h⟩
        · exact .inl h
        · exact .inr ⟨z, List.mem_cons_of_mem _ hz, h⟩

theorem textOk_brace {s : Str} (h : textOk s = true) : '{' ∉ s := by
  intro hm
  have := (valueOk_iff.1 h).1
  simp only [tmplOk, List.all_map, List.all_eq_true] at this
  have := this _ hm
  simp [tokOk] at this

theorem segOk_brace {s : Str} (h : segOk s = true) : '{' ∉ s := by
  intro hm
  simp only [segOk, Bool.and_eq_true, List.all_eq_true] at h
  have := h.2 _ hm
  simp at this

/-- Only the partition key spec has placeholders. -/
theorem resolutions_literal {kt : KeyTypes} {extension graphName : Str} {pathTags : PyDict Str Str}
    {names : List Str} (h : TextsOk kt extension graphName pathTags names) {raw : Bool}
    {p : Str × Str} (hp : p ∈ (resolutions kt extension graphName pathTags names raw).flatten)
    (hn : p.1 ≠ "partition_key_spec".toList) : '{' ∉ p.2 := by
  have hmem : p ∈ typeValues kt ++ formatValues extension ++ graphValues graphName pathTags ++
      namesValues names ++ ifpValues none := by
    cases raw <;> simp [resolutions] at hp ⊢ <;> grind
  simp only [typeValues, formatValues, graphValues, namesValues, ifpValues, List.mem_append,
    List.mem_cons, List.not_mem_nil, or_false] at hmem
  rcases hmem with (((rfl | rfl) | (rfl | rfl)) | (rfl | rfl)) | rfl
  · exact absurd rfl hn
  · exact textOk_brace h.ext
  · exact textOk_brace h.graph
  · intro hm
    rcases mem_joinWith hm with hm | ⟨x, hx, hm⟩
    · simp at hm
    · obtain ⟨q, hq, rfl⟩ := List.mem_map.1 hx
      obtain ⟨h1, h2⟩ := h.tags q hq
      simp only [List.mem_append, List.mem_cons] at hm
      rcases hm with hm | hm | hm
      · exact segOk_brace h1 hm
      · simp at hm
      · exact segOk_brace h2 hm
  · intro hm
    show False
    rcases List.eq_nil_or_concat names with hn' | ⟨l, x, hl⟩
    · subst hn'; simp at hm
    · subst hl
      have : (l.concat x).getLastD [] = x := by simp
      rw [this] at hm
      exact segOk_brace (h.names x (by simp)) hm
  · intro hm
    rcases mem_joinWith hm with hm | ⟨x, hx, hm⟩
    · simp at hm
    · exact segOk_brace (h.names x hx) hm
  · simp

/-- Field classes other than dates: the default component is the value. -/
theorem specToks_value {kt : KeyTypes} {cls : FieldCls} (hone : ∀ k c, (k, c) ∈ kt → c = cls)
    (hcls : cls ≠ .date) : specToks kt = (keys kt).map fun k =>
      compToks k "value".toList "value".toList [] := by
  unfold specToks
  induction kt with
  | nil => rfl
  | cons p kt ih =>
    obtain ⟨k, c⟩ := p
    have hc := hone k c (.head _)
    rw [List.flatMap_cons, ih fun k c hm => hone k c (List.mem_cons_of_mem _ hm)]
    subst hc
    cases c with
    | date => exact absurd rfl hcls
    | int w => rfl
    | null => rfl

theorem delimited_joinToks {Us : List (List Tok)} (h : ∀ U ∈ Us, delimited U = true) :
    delimited (joinToks Us) = true := by
  induction Us with
  | nil => rfl
  | cons U Us ih =>
    cases Us with
    | nil => exact h U (.head _)
    | cons W Us =>
      refine delimited_before_sep (h U (.head _)) ?_ (.inr rfl)
      exact ih fun U hU => h U (List.mem_cons_of_mem _ hU)

/-- What a template that consists of the placeholders of storages resolves to, for a type whose
partition keys have one field class that is not dates. -/
theorem resolved_discoverable (T : List Tok) (hT : resolvable placeholderNames T = true)
    (hpks : .fld (plain "partition_key_spec".toList) ∈ T)
    (hfields : ∀ f, .fld f ∈ T → f.first ∈ placeholderNames)
    (hfol : followed ["partition_key_spec".toList, ifpName] T = true)
    (hTglob : ∀ c, .ch c ∈ T → c ∉ ['*', '?', '['])
    (kt : KeyTypes) (extension graphName : Str) (pathTags : PyDict Str Str) (names : List Str)
    (h : TextsOk kt extension graphName pathTags names) (raw : Bool)
    (hglob : ∀ v ∈ resolutions kt extension graphName pathTags names raw, ∀ p ∈ v, ∀ c ∈ p.2,
      c ∉ ['*', '?', '['])
    (cls : FieldCls) (hone : ∀ k c, (k, c) ∈ kt → c = cls) (hcls : cls ≠ .date) (path : Str)
    (hr : resolveAll (print T) (resolutions kt extension graphName pathTags names raw) = .ok path) :
    ∃ T', path = print T' ∧ Discoverable cls kt T' := by
  obtain ⟨V, rfl, hok, hnd, hval, htext, hm⟩ := resolved hT h raw hr
  refine ⟨_, rfl, ?_⟩
  have hplain := (resolvable_iff.1 hT).2.2.1
  have hspec := specToks_value hone hcls
  -- the values
  have hlit : ∀ p ∈ V, p.1 ≠ "partition_key_spec".toList → ∀ f, .fld f ∉ p.2 := by
    intro p hp hn f hf
    have hmem : (p.1, print p.2) ∈ (resolutions kt extension graphName pathTags names raw).flatten := by
      rw [← htext]; exact List.mem_map.2 ⟨p, hp, rfl⟩
    exact resolutions_literal h hmem hn (fld_mem_print hf)
  have hvglob : ∀ p ∈ V, ∀ c, .ch c ∈ p.2 → c ∉ ['*', '?', '['] := by
    intro p hp c hc
    have hmem : (p.1, print p.2) ∈ (resolutions kt extension graphName pathTags names raw).flatten := by
      rw [← htext]; exact List.mem_map.2 ⟨p, hp, rfl⟩
    obtain ⟨v, hv, hpv⟩ := List.mem_flatten.1 hmem
    exact hglob v hv _ hpv c (ch_mem_print hc)
  have hkeysV : ∀ n ∈ placeholderNames, n ≠ ifpName → n ∈ keys V := by
    have hk : keys V = ((resolutions kt extension graphName pathTags names raw).flatten).map (·.1) := by
      rw [← htext]; simp [keys]
    rw [hk]
    cases raw
    · show ∀ n ∈ placeholderNames, n ≠ ifpName → n ∈ ["partition_key_spec".toList,
        "extension".toList, "graph_name".toList, "path_tags".toList, "name".toList,
        "names".toList]
      decide +kernel
    · show ∀ n ∈ placeholderNames, n ≠ ifpName → n ∈ ["partition_key_spec".toList,
        "extension".toList, "graph_name".toList, "path_tags".toList, "name".toList,
        "names".toList, ifpName]
      decide +kernel
  -- the value of the partition key spec
  have hpksval : ∀ U, ("partition_key_spec".toList, U) ∈ V → U = joinToks (specToks kt) := by
    intro U hU
    have h1 := get?_of_mem hnd hU
    rw [get?_of_mem hnd hm] at h1
    exact (Option.some.inj h1).symm
  have hpksfld : ∀ f, .fld f ∈ joinToks (specToks kt) →
      ∃ k ∈ keys kt, f = ⟨k, [.attr "value".toList], []⟩ := by
    intro f hf
    rcases mem_joinToks hf with hf | ⟨U, hU, hf⟩
    · cases hf
    · rw [hspec] at hU
      obtain ⟨k, hk, rfl⟩ := List.mem_map.1 hU
      simp only [compToks, lit, List.mem_append, List.mem_map, reduceCtorEq, and_false,
        exists_false, false_or, List.mem_singleton, Tok.fld.injEq] at hf
      exact ⟨k, hk, hf⟩
  -- the fields of the resolved template
  have hfld : ∀ f, .fld f ∈ substT (full V) (cut (empt V) T) → f = plain ifpName ∨
      ∃ k ∈ keys kt, f = ⟨k, [.attr "value".toList], []⟩ := by
    intro f hf
    rcases mem_substT.1 hf with ⟨c, hc, -⟩ | ⟨g, hg, hf⟩
    · cases hc
    · have hgT := mem_cut hg
      have hgN := hfields g hgT
      cases hv : get? (full V) g.first with
      | some U =>
        rw [hv] at hf
        have hmem := get?_mem hv
        simp only [full, List.mem_filter] at hmem
        by_cases hpk : g.first = "partition_key_spec".toList
        · have := hmem.1
          rw [hpk] at this
          rw [hpksval U this] at hf
          exact .inr (hpksfld f hf)
        · exact absurd hf (hlit _ hmem.1 hpk f)
      | none =>
        rw [hv] at hf
        simp only [Option.getD_none, List.mem_singleton, Tok.fld.injEq] at hf
        subst hf
        left
        have hge : f.first ∉ empt V := by
          have := avoids_cut (empt V) T
          simp only [avoids, List.all_eq_true] at this
          simpa using this _ hg
        rw [get?_full hnd hge] at hv
        by_cases hi : f.first = ifpName
        · rw [plain_of_first hplain hgT hgN, hi]
        · exact absurd (hkeysV _ hgN hi) ((get?_eq_none_iff _ _).1 hv)
  have hment : ∀ k ∈ keys kt, ∀ c, mentions (substT (full V) (cut (empt V) T)) k c = true ↔
      c = "value".toList := by
    intro k hk c
    constructor
    · intro hc
      simp only [mentions, List.any_eq_true] at hc
      obtain ⟨x, hx, hc⟩ := hc
      cases x with
      | ch c => cases hc
      | fld f =>
        simp only [Bool.and_eq_true, beq_iff_eq] at hc
        rcases hfld f hx with rfl | ⟨k', -, rfl⟩
        · simp [plain] at hc
        · have := hc.2
          simpa using this.symm
    · rintro rfl
      have hU : .fld ⟨k, [.attr "value".toList], []⟩ ∈ joinToks (specToks kt) := by
        rw [hspec]
        exact joinToks_mem (U := compToks k "value".toList "value".toList [])
          (List.mem_map.2 ⟨k, hk, rfl⟩) (by simp [compToks])
      obtain ⟨h1, h2⟩ := notIn_empt hnd hm (List.ne_nil_of_mem hU)
      simp only [mentions, List.any_eq_true]
      refine ⟨.fld ⟨k, [.attr "value".toList], []⟩, ?_, by simp⟩
      refine mem_substT.2 (.inr ⟨plain "partition_key_spec".toList, cut_mem hpks h1, ?_⟩)
      show _ ∈ (get? (full V) "partition_key_spec".toList).getD _
      rw [h2]
      exact hU
  refine ⟨hok, ?_, ?_, hone, ?_, ?_, ?_⟩
  · -- delimited
    refine delimited_substT (followed_cut hfol) ?_
    intro f hf
    have hfN := hfields f (mem_cut hf)
    cases hv : get? (full V) f.first with
    | some U =>
      have hmem := get?_mem hv
      simp only [full, List.mem_filter] at hmem
      by_cases hpk : f.first = "partition_key_spec".toList
      · have := hmem.1
        rw [hpk] at this
        rw [hpksval U this]
        refine ⟨?_, .inl (by simp [hpk])⟩
        rw [hspec]
        refine delimited_joinToks ?_
        intro W hW
        obtain ⟨k, -, rfl⟩ := List.mem_map.1 hW
        refine delimited_no_fld ?_ rfl
        intro f hf
        simp [lit] at hf
      · have hno := hlit _ hmem.1 hpk
        refine ⟨?_, .inr hno⟩
        have := delimited_no_fld (R := []) hno rfl
        simpa using this
    | none =>
      refine ⟨rfl, .inl ?_⟩
      by_cases hi : f.first = ifpName
      · simp [hi]
      · have hge : f.first ∉ empt V := by
          have := avoids_cut (empt V) T
          simp only [avoids, List.all_eq_true] at this
          simpa using this _ hf
        rw [get?_full hnd hge] at hv
        exact absurd (hkeysV _ hfN hi) ((get?_eq_none_iff _ _).1 hv)
  · -- no glob characters
    intro c hc
    rcases mem_substT.1 hc with ⟨c', hc', hm'⟩ | ⟨g, hg, hc'⟩
    · cases hc'
      exact hTglob c (mem_cut hm')
    · cases hv : get? (full V) g.first with
      | some U =>
        rw [hv] at hc'
        have hmem := get?_mem hv
        simp only [full, List.mem_filter] at hmem
        exact hvglob _ hmem.1 c hc'
      | none =>
        rw [hv] at hc'
        simp at hc'
  · intro hi
    have := h.keyNames _ hi
    revert this
    decide +kernel
  · intro f hf
    rcases hfld f hf with rfl | ⟨k, hk, rfl⟩
    · exact .inl rfl
    · exact .inr ⟨k, hk, _, rfl⟩
  · intro k hk
    refine ⟨["value"], ?_, ?_⟩
    · cases cls with
      | date => exact absurd rfl hcls
      | int w => simp [identifying]
      | null => simp [identifying]
    · intro c
      rw [hment k hk c]
      simp

/-- `LocalFile`'s default template below a directory (`storage/local.py:34-43`). -/
def defaultTmpl (dir : Str) : List Tok :=
  lit (dir ++ ['/']) ++ [.fld (plain "graph_name".toList), .ch '/',
    .fld (plain "path_tags".toList), .ch '/', .fld (plain "names".toList), .ch '/',
    .fld (plain "partition_key_spec".toList), .ch '/', .fld (plain "input_fingerprint".toList),
    .ch '/', .fld (plain "name".toList), .fld (plain "extension".toList)]

theorem defaultTmpl_print (dir : Str) : print (defaultTmpl dir) = dir ++
    ("/{graph_name}/{path_tags}/{names}/{partition_key_spec}/{input_fingerprint}/" ++
      "{name}{extension}").toList := by
  rw [defaultTmpl, print_append, print_lit, List.append_assoc]
  rfl

/-- With `LocalFile`'s default template, and partition keys of one field class that is not dates:
whatever the names, the graph, the tags and the format, the template that the storage resolves to
is one whose partitions `C21_discovers_what_was_written` says are discovered, and discovering does
not raise.

Missing: dates (violated, see above), and several field classes in one key (`C22` is violated for
them, with an error for some). -/
theorem C23_one_class_partial (dir : Str) (hdir : resolvable placeholderNames (defaultTmpl dir) = true)
    (hdirglob : ∀ c ∈ dir, c ∉ ['*', '?', '[']) (kt : KeyTypes) (extension graphName : Str)
    (pathTags : PyDict Str Str) (names : List Str)
    (h : TextsOk kt extension graphName pathTags names) (raw : Bool)
    (hglob : ∀ v ∈ resolutions kt extension graphName pathTags names raw, ∀ p ∈ v, ∀ c ∈ p.2,
      c ∉ ['*', '?', '['])
    (cls : FieldCls) (hone : ∀ k c, (k, c) ∈ kt → c = cls) (hcls : cls ≠ .date) (path : Str)
    (hr : resolveAll (dir ++ ("/{graph_name}/{path_tags}/{names}/{partition_key_spec}/{input_fingerprint}/"
      ++ "{name}{extension}").toList)
        (resolutions kt extension graphName pathTags names raw) = .ok path) :
    ∃ T', path = print T' ∧ Discoverable cls kt T' ∧
      ∀ {β : Type} (hash : β → Fp) (files : PyDict Str β) (ifps : InputFps), (keys files).Nodup →
        FpsOk ifps → (∀ p ∈ keys files, Fits T' p → ∃ fp pk, PartitionAt kt T' fp pk p) →
        ∃ snaps, discoverFile hash files ⟨path, some kt⟩ ifps = .ok snaps := by
  rw [← defaultTmpl_print] at hr
  obtain ⟨T', rfl, hD⟩ := resolved_discoverable (defaultTmpl dir) hdir
    (by simp [defaultTmpl]) (by
      intro f hf
      simp only [defaultTmpl, lit, List.mem_append, List.mem_map, reduceCtorEq, and_false,
        exists_false, false_or, List.mem_cons, Tok.fld.injEq, List.not_mem_nil, or_false] at hf
      rcases hf with rfl | rfl | rfl | rfl | rfl | rfl | rfl <;> (simp only [plain]; decide +kernel))
    (by
      have : ∀ s : Str, ∀ R, followed ["partition_key_spec".toList, ifpName] (lit s ++ R) =
          followed ["partition_key_spec".toList, ifpName] R := by
        intro s R
        induction s with
        | nil => rfl
        | cons c s ih => exact ih
      rw [defaultTmpl, this]
      decide +kernel)
    (by
      intro c hc
      simp only [defaultTmpl, lit, List.mem_append, List.mem_map, Tok.ch.injEq, exists_eq_right,
        List.mem_cons, reduceCtorEq, false_or, List.not_mem_nil, or_false] at hc
      rcases hc with (hc | rfl) | hc
      · exact hdirglob c hc
      · decide
      · have : c = '/' := by simpa using hc
        subst this
        decide)
    kt extension graphName pathTags names h raw hglob cls hone hcls path hr
  refine ⟨T', rfl, hD, ?_⟩
  intro β hash files ifps hf hi hclean
  obtain ⟨snaps, h1, -⟩ := C21_discovers_what_was_written hash files hf cls kt T' hD ifps hi hclean
  exact ⟨snaps, h1⟩

namespace Ex23

def kt : KeyTypes := [("i".toList, .int .int8), ("j".toList, .int .int8)]

example : ∃ T', ("/tmp/g/env=dev/a/b/i_value={i.value}/j_value={j.value}/{input_fingerprint}" ++
    "/b.json").toList = print T' ∧ Discoverable (.int .int8) kt T' ∧
      ∀ {β : Type} (hash : β → Fp) (files : PyDict Str β) (ifps : InputFps), (keys files).Nodup →
        FpsOk ifps → (∀ p ∈ keys files, Fits T' p → ∃ fp pk, PartitionAt kt T' fp pk p) →
        ∃ snaps, discoverFile hash files ⟨("/tmp/g/env=dev/a/b/i_value={i.value}/" ++
          "j_value={j.value}/{input_fingerprint}/b.json").toList, some kt⟩ ifps = .ok snaps :=
  C23_one_class_partial "/tmp".toList (by decide +kernel) (by decide +kernel) kt ".json".toList
    "g".toList [("env".toList, "dev".toList)] ["a".toList, "b".toList]
    (texts _ (by decide +kernel) (by decide +kernel)) false (by decide +kernel) _
    (by simp only [kt]; rintro k c hm; simp at hm; grind) (by decide) _ (by decide +kernel)

end Ex23

end Arti.Props
