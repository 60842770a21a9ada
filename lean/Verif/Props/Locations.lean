import Verif.Lemmas.Locate

/-!
# Locations of partitions (C20, C25)
-/

namespace Arti.Props
open Arti PyDict Spec Fmt Stg Part

/-! ## C20 -/

/-- The component texts of one key in the rendered template. -/
theorem fieldText_component {fp : Option Fp} {pk : PKey} {k c spec : Str} {v : FieldVal} {t : Str}
    (hk : k ≠ ifpName ∨ fp = none) (hv : get? pk k = some v)
    (h : fieldText fp pk ⟨k, [.attr c], spec⟩ = .ok t) :
    ∃ cv, component v c = some cv ∧ formatComp cv spec = .ok t := by
  have ha : argOf fp pk k = some (.field v) := by
    unfold argOf
    rcases hk with hk | rfl
    · cases fp <;> simp [hk, hv]
    · simp [hv]
  simp only [fieldText, ha] at h
  cases hc : component v c with
  | none => simp [hc] at h
  | some cv => exact ⟨cv, rfl, by simpa [hc] using h⟩

theorem fieldText_ifp {fp : Fp} {pk : PKey} {c spec : Str} {t : Str}
    (h : fieldText (some fp) pk ⟨ifpName, [.attr c], spec⟩ = .ok t) : False := by
  simp [fieldText, argOf] at h

theorem locations_differ {T : List Tok} {kt : KeyTypes} (hd : delimited T = true)
    (hid : Identified kt T) {fp fp' : Option Fp} {pk pk' : PKey} (hc : Conforms kt pk)
    (hc' : Conforms kt pk') {s : Str}
    (hi : fp.isSome = true ↔ .fld (plain ifpName) ∈ T)
    (hi' : fp'.isSome = true ↔ .fld (plain ifpName) ∈ T)
    (h : render (fieldText fp pk) (T.map stripTok) = .ok s)
    (h' : render (fieldText fp' pk') (T.map stripTok) = .ok s) :
    fdEq pk pk' = true ∧ fp = fp' := by
  have hsame : ∀ f, .fld f ∈ T.map stripTok → fieldText fp pk f = fieldText fp' pk' f :=
    fun f hf => render_inj (by rw [delimited_strip]; exact hd)
      (fun f t ht => (fieldText_chars ht).2) (fun f t ht => (fieldText_chars ht).2) h h' hf
  constructor
  · rw [fdEq_iff hc.nodup hc'.nodup]
    intro k
    cases hv : get? pk k with
    | none =>
      symm
      rw [get?_eq_none_iff] at hv ⊢
      rw [hc'.same, ← hc.same]
      exact hv
    | some v =>
      have hm := get?_mem hv
      have hkt := hc.cls k v hm
      have hk' : k ∈ keys pk' := by
        rw [hc'.same, ← hc.same]; exact List.mem_map.2 ⟨_, hm, rfl⟩
      obtain ⟨v', hv'⟩ : ∃ v', get? pk' k = some v' := by
        cases hg : get? pk' k with
        | none => exact absurd hk' ((get?_eq_none_iff _ _).1 hg)
        | some v' => exact ⟨v', rfl⟩
      have hm' := get?_mem hv'
      have hcls : v'.cls = v.cls := by
        have := hc'.cls k v' hm'
        rw [hkt] at this
        exact (Option.some.inj this).symm
      obtain ⟨names, hn, hment⟩ := hid k v.cls (get?_mem hkt)
      -- the texts of the identifying components
      have htext : ∀ c ∈ names, ∃ spec t cv cv', component v c.toList = some cv ∧
          formatComp cv spec = .ok t ∧ component v' c.toList = some cv' ∧
          formatComp cv' spec = .ok t := by
        intro c hcn
        obtain ⟨spec, hf⟩ := mentions_mem (hment c hcn)
        obtain ⟨t, ht⟩ := render_fld_ok h hf
        have ht' := hsame _ hf
        rw [ht] at ht'
        have hk : k ≠ ifpName ∨ fp = none := by
          by_cases hk : k = ifpName
          · cases fp with
            | none => exact .inr rfl
            | some w => subst hk; exact (fieldText_ifp ht).elim
          · exact .inl hk
        have hk2 : k ≠ ifpName ∨ fp' = none := by
          by_cases hk : k = ifpName
          · cases fp' with
            | none => exact .inr rfl
            | some w => subst hk; exact (fieldText_ifp ht'.symm).elim
          · exact .inl hk
        obtain ⟨cv, h1, h2⟩ := fieldText_component hk hv ht
        obtain ⟨cv', h3, h4⟩ := fieldText_component hk2 hv' ht'.symm
        exact ⟨spec, t, cv, cv', h1, h2, h3, h4⟩
      obtain ⟨cs, hn1, hr1, hr2⟩ : ∃ cs : List (Str × Str), HasNames cs names ∧
          RenderedFrom v cs ∧ RenderedFrom v' cs := by
        clear hn hment
        induction names with
        | nil => exact ⟨[], by simp [HasNames, keys], by simp [RenderedFrom], by simp [RenderedFrom]⟩
        | cons c names ih =>
          obtain ⟨cs, g1, g2, g3⟩ := ih fun c hc => htext c (by simp [hc])
          obtain ⟨spec, t, cv, cv', e1, e2, e3, e4⟩ := htext c (by simp)
          refine ⟨(c.toList, t) :: cs, ?_, ?_, ?_⟩
          · intro n
            have := g1 n
            simp only [keys, List.map_cons, List.mem_cons] at this ⊢
            rw [this]
          · intro c' t' hm
            rcases List.mem_cons.1 hm with he | hm
            · cases he; exact ⟨cv, spec, e1, e2⟩
            · exact g2 c' t' hm
          · intro c' t' hm
            rcases List.mem_cons.1 hm with he | hm
            · cases he; exact ⟨cv', spec, e3, e4⟩
            · exact g3 c' t' hm
      have r1 := C24_components_roundtrip v (hc.valid k v hm) names hn cs hn1 hr1
      have r2 := C24_components_roundtrip v' (hc'.valid k v' hm') names (by rw [hcls]; exact hn) cs
        hn1 hr2
      rw [hcls, r1] at r2
      rw [hv', Except.ok.inj r2]
  · cases fp with
    | none =>
      cases fp' with
      | none => rfl
      | some w' => exact absurd (hi.2 (hi'.1 rfl)) (by simp)
    | some w =>
      have hm := hi.1 rfl
      cases fp' with
      | none => exact absurd (hi'.2 hm) (by simp)
      | some w' =>
        have := hsame (plain ifpName) (List.mem_map.2 ⟨_, hm, rfl⟩)
        simp only [fieldText, argOf, plain, ↓reduceIte, List.isEmpty_nil, Bool.and_self,
          Except.ok.injEq] at this
        rw [intToStr_inj this]

/-- Two partitions of a file storage at the same path have the same key and the same input
fingerprint. -/
theorem C20_distinct_partitions_have_distinct_paths (T : List Tok) (hT : tmplOk T = true)
    (hd : delimited T = true) (kt : KeyTypes) (hid : Identified kt T)
    (fp fp' : Option Fp) (pk pk' : PKey) (hc : Conforms kt pk) (hc' : Conforms kt pk')
    (p p' : FilePartition) (h : genFile ⟨print T, some kt⟩ fp pk = .ok p)
    (h' : genFile ⟨print T, some kt⟩ fp' pk' = .ok p') (hpath : p.path = p'.path) :
    fdEq pk pk' = true ∧ fp = fp' := by
  obtain ⟨-, -, -, h1, h2⟩ := genFile_ok hT h
  obtain ⟨-, -, -, h1', h2'⟩ := genFile_ok hT h'
  rw [← hpath] at h2'
  exact locations_differ hd hid hc hc' h1 h1' h2 h2'

/-- The same for the ids of string literals that are written by producers. -/
theorem C20_distinct_partitions_have_distinct_ids (T : List Tok) (hT : tmplOk T = true)
    (hd : delimited T = true) (kt : KeyTypes) (hid : Identified kt T)
    (fp fp' : Option Fp) (pk pk' : PKey) (hc : Conforms kt pk) (hc' : Conforms kt pk')
    (p p' : LitPartition) (h : genLit ⟨print T, none, some kt⟩ fp pk = .ok p)
    (h' : genLit ⟨print T, none, some kt⟩ fp' pk' = .ok p') (hpath : p.id = p'.id) :
    fdEq pk pk' = true ∧ fp = fp' := by
  have key : ∀ {fp pk p}, genLit ⟨print T, none, some kt⟩ fp pk = .ok p →
      (fp.isSome = true ↔ .fld (plain ifpName) ∈ T) ∧
        render (fieldText fp pk) (T.map stripTok) = .ok p.id := by
    intro fp pk p h
    unfold genLit at h
    simp only [bind, Except.bind, Option.toList_none] at h
    cases hk : genKwargs (some kt) [print T] fp pk with
    | error e => simp [hk] at h
    | ok kw =>
      obtain ⟨h1, h2, h3⟩ := genKwargs_ok hk
      simp only [hk] at h
      rw [genField_print h3 hT] at h
      cases hr : render (fieldText fp pk) (T.map stripTok) with
      | error e => simp [hr] at h
      | ok s =>
        simp only [hr, Except.ok.injEq] at h
        subst h
        refine ⟨?_, rfl⟩
        rw [h2, ← isInfix_ifp hT]
        simp
  obtain ⟨h1, h2⟩ := key h
  obtain ⟨h1', h2'⟩ := key h'
  rw [← hpath] at h2'
  exact locations_differ hd hid hc hc' h1 h1' h2 h2'

namespace Ex20

/-- `/d/{date.Y}-{date.m:02}-…` would not be delimited; this one is. -/
def tmpl : List Tok :=
  ("/d/".toList.map .ch) ++ [.fld ⟨"date".toList, [.attr ['Y']], []⟩, .ch '/',
    .fld ⟨"date".toList, [.attr ['m']], ['0', '2']⟩, .ch '/',
    .fld ⟨"date".toList, [.attr ['d']], ['0', '2']⟩, .ch '/',
    .fld ⟨"i".toList, [.attr "hex".toList, .idx "3".toList], []⟩, .ch '/',
    .fld (plain ifpName)] ++ (".json".toList.map .ch)

example : print tmpl =
    "/d/{date.Y}/{date.m:02}/{date.d:02}/{i.hex[3]}/{input_fingerprint}.json".toList := by
  decide +kernel

def kt : KeyTypes := [("date".toList, .date), ("i".toList, .int .int8)]
def pk : PKey := [("date".toList, .date 2024 2 29), ("i".toList, .int .int8 (-31))]

theorem conforms : Conforms kt pk := by
  refine ⟨by decide +kernel, ?_, ?_, ?_⟩
  · intro k
    have : keys pk = keys kt := by decide +kernel
    rw [this]
  · intro k v h
    simp only [pk, List.mem_cons, Prod.mk.injEq, List.not_mem_nil, or_false] at h
    rcases h with ⟨rfl, rfl⟩ | ⟨rfl, rfl⟩ <;> decide +kernel
  · intro k v h
    simp only [pk, List.mem_cons, Prod.mk.injEq, List.not_mem_nil, or_false] at h
    rcases h with ⟨rfl, rfl⟩ | ⟨rfl, rfl⟩
    · show validDate 2024 2 29 = true; decide +kernel
    · trivial

theorem identified : Identified kt tmpl := by
  intro k cls h
  simp only [kt, List.mem_cons, Prod.mk.injEq, List.not_mem_nil, or_false] at h
  rcases h with ⟨rfl, rfl⟩ | ⟨rfl, rfl⟩
  · exact ⟨["Y", "m", "d"], by decide +kernel, by decide +kernel⟩
  · exact ⟨["hex"], by decide +kernel, by decide +kernel⟩

theorem gen_ok : genFile ⟨print tmpl, some kt⟩ (some 7) pk =
    .ok ⟨some 7, pk, "/d/2024/02/29/-0x1f/7.json".toList⟩ := by decide +kernel

/-- No other partition is at this path. -/
example (fp : Option Fp) (pk' : PKey) (hc : Conforms kt pk') (p : FilePartition)
    (h : genFile ⟨print tmpl, some kt⟩ fp pk' = .ok p)
    (hp : p.path = "/d/2024/02/29/-0x1f/7.json".toList) : fdEq pk pk' = true ∧ some 7 = fp :=
  C20_distinct_partitions_have_distinct_paths tmpl (by decide +kernel) (by decide +kernel) kt
    identified (some 7) fp pk pk' conforms hc _ p gen_ok h hp.symm

theorem gen_lit_ok : genLit ⟨print tmpl, none, some kt⟩ (some 7) pk =
    .ok ⟨some 7, pk, "/d/2024/02/29/-0x1f/7.json".toList, none⟩ := by decide +kernel

example (fp : Option Fp) (pk' : PKey) (hc : Conforms kt pk') (p : LitPartition)
    (h : genLit ⟨print tmpl, none, some kt⟩ fp pk' = .ok p)
    (hp : p.id = "/d/2024/02/29/-0x1f/7.json".toList) : fdEq pk pk' = true ∧ some 7 = fp :=
  C20_distinct_partitions_have_distinct_ids tmpl (by decide +kernel) (by decide +kernel) kt
    identified (some 7) fp pk pk' conforms hc _ p gen_lit_ok h hp.symm

end Ex20

/-- Why placeholders have to be delimited: `{a.value}{b.value}` gives one path for two keys. -/
theorem C20_needs_delimiters :
    ∃ T : List Tok, ∃ kt : KeyTypes, ∃ pk pk' : PKey, tmplOk T = true ∧
      delimited T = false ∧ fdEq pk pk' = false ∧
      (genFile ⟨print T, some kt⟩ none pk).map (·.path) = .ok "123".toList ∧
      (genFile ⟨print T, some kt⟩ none pk').map (·.path) = .ok "123".toList := by
  refine ⟨[.fld ⟨['a'], [.attr "value".toList], []⟩, .fld ⟨['b'], [.attr "value".toList], []⟩],
    [(['a'], .int .int8), (['b'], .int .int8)], [(['a'], .int .int8 1), (['b'], .int .int8 23)],
    [(['a'], .int .int8 12), (['b'], .int .int8 3)], ?_⟩
  decide +kernel

/-! ## C25 -/

/-- The text contains `{input_fingerprint}`. -/
def HasFingerprint (s : Str) : Prop := ∃ a b, s = a ++ "{input_fingerprint}".toList ++ b

/-- A file partition is only generated with a fingerprint if the path has the placeholder for it,
and only without one if it has not. -/
theorem C25_fingerprint_iff_placeholder (st : FileStorage) (fp : Option Fp) (pk : PKey)
    (p : FilePartition) (h : genFile st fp pk = .ok p) :
    fp.isSome = true ↔ HasFingerprint st.path := by
  unfold genFile at h
  simp only [bind, Except.bind] at h
  cases hk : genKwargs st.keyTypes [st.path] fp pk with
  | error e => simp [hk] at h
  | ok kw =>
    cases hkt : st.keyTypes with
    | none => simp [hkt, genKwargs] at hk
    | some kt =>
      rw [hkt] at hk
      rw [(genKwargs_ok hk).2.1]
      simp only [List.any_cons, List.any_nil, Bool.or_false]
      exact isInfix_iff _ _

/-- The same for literals: one of the two texts has the placeholder. -/
theorem C25_fingerprint_iff_placeholder_literal (st : LitStorage) (fp : Option Fp) (pk : PKey)
    (p : LitPartition) (h : genLit st fp pk = .ok p) :
    fp.isSome = true ↔ HasFingerprint st.id ∨ ∃ v, st.value = some v ∧ HasFingerprint v := by
  unfold genLit at h
  simp only [bind, Except.bind] at h
  cases hk : genKwargs st.keyTypes (st.id :: st.value.toList) fp pk with
  | error e => simp [hk] at h
  | ok kw =>
    cases hkt : st.keyTypes with
    | none => simp [hkt, genKwargs] at hk
    | some kt =>
      rw [hkt] at hk
      rw [(genKwargs_ok hk).2.1]
      simp only [List.any_cons, Bool.or_eq_true]
      refine or_congr (isInfix_iff _ _) ?_
      cases st.value with
      | none => simp
      | some v =>
        simp only [Option.toList_some, List.any_cons, List.any_nil, Bool.or_false,
          Option.some.injEq, exists_eq_left']
        exact isInfix_iff _ _

/-- Whether there is a key at all is checked, and the keys and components that the path mentions
have to exist. -/
theorem C25_keys_partial (T : List Tok) (hT : tmplOk T = true) (kt : KeyTypes) (fp : Option Fp)
    (pk : PKey) (p : FilePartition) (h : genFile ⟨print T, some kt⟩ fp pk = .ok p) :
    (kt = [] ↔ pk = []) ∧ ∀ k c, mentions T k c = true →
      ∃ v, get? pk k = some v ∧ (component v c).isSome = true := by
  obtain ⟨-, -, h1, -, h2⟩ := genFile_ok hT h
  refine ⟨h1, fun k c hm => ?_⟩
  obtain ⟨spec, hf⟩ := mentions_mem hm
  obtain ⟨t, ht⟩ := render_fld_ok h2 hf
  have ha : ∃ v, argOf fp pk k = some (.field v) ∧ get? pk k = some v := by
    simp only [fieldText] at ht
    unfold argOf at ht ⊢
    cases fp with
    | none =>
      cases hg : get? pk k with
      | none => simp [hg] at ht
      | some v => exact ⟨v, by simp, rfl⟩
    | some w =>
      by_cases hk : k = ifpName
      · simp [hk] at ht
      · cases hg : get? pk k with
        | none => simp [hk, hg] at ht
        | some v => exact ⟨v, by simp [hk], rfl⟩
  obtain ⟨v, h3, h4⟩ := ha
  refine ⟨v, h4, ?_⟩
  simp only [fieldText, h3] at ht
  cases hc : component v c with
  | none => simp [hc] at ht
  | some cv => rfl

example : ∃ v, get? Ex20.pk "i".toList = some v ∧ (component v "hex".toList).isSome = true :=
  (C25_keys_partial Ex20.tmpl (by decide +kernel) Ex20.kt (some 7) Ex20.pk _ Ex20.gen_ok).2
    "i".toList "hex".toList (by decide +kernel)

example : (some 7 : Option Fp).isSome = true ↔ HasFingerprint (print Ex20.tmpl) :=
  C25_fingerprint_iff_placeholder _ _ _ _ Ex20.gen_ok

example : (some 7 : Option Fp).isSome = true ↔ HasFingerprint (print Ex20.tmpl) ∨
    ∃ v, (none : Option Str) = some v ∧ HasFingerprint v :=
  C25_fingerprint_iff_placeholder_literal _ _ _ _ Ex20.gen_lit_ok

/-- A component that is a number, so that a width can be given for it. -/
def numeric : FieldCls → Str → Bool
  | .date, c => c == ['Y'] || c == ['m'] || c == ['d']
  | .int _, c => c == "value".toList
  | .null, _ => false

/-- A placeholder that can be filled for keys of these types: the fingerprint, or a component of a
key, with or without a width. -/
def usable (kt : KeyTypes) (f : Fld) : Prop :=
  f = plain ifpName ∨ ∃ cls c, get? kt f.first = some cls ∧ f.accs.filter
      (fun | .attr _ => true | .idx _ => false) = [.attr c] ∧ c ∈ components cls ∧
    (f.spec = [] ∨ numeric cls c = true ∧ ∃ w, f.spec = '0' :: w ∧ ∀ d ∈ w, d ∈ "0123456789".toList)

theorem digitsVal_isSome {w : Str} (h : ∀ d ∈ w, d ∈ "0123456789".toList) (acc : Nat) :
    ∃ n, digitsVal 10 acc w = some n := by
  induction w generalizing acc with
  | nil => exact ⟨acc, rfl⟩
  | cons d w ih =>
    have hd : ∃ n, digitVal d = some n ∧ n < 10 := by
      have := h d (by simp)
      have h10 : d ∈ ['0', '1', '2', '3', '4', '5', '6', '7', '8', '9'] := by
        rwa [show "0123456789".toList = ['0', '1', '2', '3', '4', '5', '6', '7', '8', '9'] from
          rfl] at this
      simp only [List.mem_cons, List.not_mem_nil, or_false] at h10
      rcases h10 with rfl | rfl | rfl | rfl | rfl | rfl | rfl | rfl | rfl | rfl <;>
        exact ⟨_, rfl, by decide⟩
    obtain ⟨n, h1, h2⟩ := hd
    obtain ⟨m, hm⟩ := ih (fun e he => h e (by simp [he])) (acc * 10 + n)
    exact ⟨m, by simp [digitsVal, h1, h2, hm]⟩

theorem usable_text {kt : KeyTypes} {f : Fld} (hu : usable kt f) {fp : Option Fp} {pk : PKey}
    (hc : Conforms kt pk) (hk : ifpName ∉ keys kt) (hfp : f = plain ifpName → fp.isSome = true) :
    ∃ t, fieldText fp pk (strip f) = .ok t := by
  rcases hu with rfl | ⟨cls, c, h1, h2, h3, h4⟩
  · obtain ⟨w, rfl⟩ := Option.isSome_iff_exists.1 (hfp rfl)
    exact ⟨intToStr w, by simp [strip, plain, fieldText, argOf]⟩
  · have hkt : f.first ∈ keys kt := List.mem_map.2 ⟨_, get?_mem h1, rfl⟩
    have hne : f.first ≠ ifpName := fun he => hk (he ▸ hkt)
    obtain ⟨v, hv⟩ : ∃ v, get? pk f.first = some v := by
      cases hg : get? pk f.first with
      | none => exact absurd ((hc.same _).2 hkt) ((get?_eq_none_iff _ _).1 hg)
      | some v => exact ⟨v, rfl⟩
    have hcls : v.cls = cls := by
      have := hc.cls _ _ (get?_mem hv)
      rw [h1] at this
      exact (Option.some.inj this).symm
    have ha : argOf fp pk f.first = some (.field v) := by
      unfold argOf
      cases fp <;> simp [hne, hv]
    have hst : strip f = ⟨f.first, [.attr c], f.spec⟩ := by
      unfold strip
      exact congrArg (fun a => Fld.mk f.first a f.spec) h2
    rw [hst]
    simp only [fieldText, ha]
    have hcomp : ∃ cv, component v c = some cv ∧ (numeric cls c = true → ∃ i, cv = .int i) := by
      subst hcls
      cases v <;> simp only [FieldVal.cls, components, List.mem_cons, List.not_mem_nil, or_false]
        at h3
      · rcases h3 with rfl | rfl | rfl | rfl | rfl <;>
          exact ⟨_, rfl, fun h => by first | exact ⟨_, rfl⟩ | exact nomatch (h : false = true)⟩
      · rcases h3 with rfl | rfl <;>
          exact ⟨_, rfl, fun h => by first | exact ⟨_, rfl⟩ | exact nomatch (h : false = true)⟩
      · subst h3
        exact ⟨_, rfl, fun h => by exact nomatch (h : false = true)⟩
    obtain ⟨cv, h5, h6⟩ := hcomp
    rw [h5]
    simp only
    rcases h4 with h4 | ⟨h4, w, h7, h8⟩
    · rw [h4]
      cases cv <;> exact ⟨_, rfl⟩
    · obtain ⟨i, rfl⟩ := h6 h4
      obtain ⟨n, hn⟩ := digitsVal_isSome h8 0
      rw [h7]
      simp [formatComp, hn]

theorem render_exists {get : Fld → Except Err Str} {T : List Tok} (hT : tmplOk T = true)
    (h : ∀ f, .fld f ∈ T → ∃ t, get f = .ok t) : ∃ s, render get T = .ok s := by
  refine ⟨_, render_ok get (fun f => ((get f).toOption).getD []) T hT fun f hf => ?_⟩
  obtain ⟨t, ht⟩ := h f hf
  simp [ht, Except.toOption]

/-- Matching keys and fingerprints are accepted. -/
theorem C25_matching_is_accepted (T : List Tok) (hT : tmplOk T = true) (kt : KeyTypes)
    (hu : ∀ f, .fld f ∈ T → usable kt f) (hk : ifpName ∉ keys kt) (fp : Option Fp) (pk : PKey)
    (hc : Conforms kt pk) (hfp : fp.isSome = true ↔ .fld (plain ifpName) ∈ T) :
    ∃ path, genFile ⟨print T, some kt⟩ fp pk = .ok ⟨fp, pk, path⟩ := by
  obtain ⟨s, hs⟩ := render_exists (get := fieldText fp pk) (tmplOk_strip hT) fun f hf => by
    obtain ⟨x, hx, he⟩ := List.mem_map.1 hf
    cases x with
    | ch c => simp [stripTok] at he
    | fld g =>
      simp only [stripTok, Tok.fld.injEq] at he
      subst he
      exact usable_text (hu g hx) hc hk fun hg => hfp.2 (hg ▸ hx)
  refine ⟨s, genFile_of hT ?_ hfp hs⟩
  constructor
  · intro h
    have : ∀ k, k ∉ keys pk := fun k hm => by
      have := (hc.same k).1 hm; rw [h] at this; simp [keys] at this
    cases pk with
    | nil => rfl
    | cons p pk => exact absurd (by simp [keys]) (this p.1)
  · intro h
    have : ∀ k, k ∉ keys kt := fun k hm => by
      have := (hc.same k).2 hm; rw [h] at this; simp [keys] at this
    cases kt with
    | nil => rfl
    | cons p kt => exact absurd (by simp [keys]) (this p.1)

example : ∃ path, genFile ⟨print Ex20.tmpl, some Ex20.kt⟩ (some 7) Ex20.pk =
    .ok ⟨some 7, Ex20.pk, path⟩ := by
  refine C25_matching_is_accepted Ex20.tmpl (by decide +kernel) Ex20.kt ?_ (by decide +kernel)
    (some 7) Ex20.pk Ex20.conforms (by decide +kernel)
  intro f hf
  simp only [Ex20.tmpl, List.map_cons, List.map_nil, String.toList, List.cons_append,
    List.nil_append, List.mem_append, List.mem_cons, List.mem_map, reduceCtorEq, and_false,
    exists_false, or_false, false_or, List.not_mem_nil, Tok.fld.injEq] at hf
  rcases hf with rfl | rfl | rfl | rfl | rfl
  · exact .inr ⟨.date, ['Y'], by decide +kernel, by decide +kernel, by decide +kernel, .inl rfl⟩
  · exact .inr ⟨.date, ['m'], by decide +kernel, by decide +kernel, by decide +kernel,
      .inr ⟨by decide +kernel, ['2'], rfl, by decide +kernel⟩⟩
  · exact .inr ⟨.date, ['d'], by decide +kernel, by decide +kernel, by decide +kernel,
      .inr ⟨by decide +kernel, ['2'], rfl, by decide +kernel⟩⟩
  · exact .inr ⟨.int .int8, "hex".toList, by decide +kernel, by decide +kernel, by decide +kernel,
      .inl rfl⟩
  · exact .inl rfl

/-- Surplus names and wrong field classes are accepted. -/
theorem C25_violated_by_surplus_names :
    ∃ T : List Tok, ∃ kt : KeyTypes, ∃ pk : PKey, ∃ p, tmplOk T = true ∧
      sameSet (keys pk) (keys kt) = false ∧ genFile ⟨print T, some kt⟩ none pk = .ok p := by
  refine ⟨[.ch 'i', .ch '=', .fld ⟨['i'], [.attr "value".toList], []⟩], [(['i'], .int .int8)],
    [(['i'], .int .int8 5), (['j'], .null)], ⟨none, [(['i'], .int .int8 5), (['j'], .null)],
    "i=5".toList⟩, ?_, ?_, ?_⟩
  · decide +kernel
  · decide +kernel
  · decide +kernel

theorem C25_violated_by_wrong_class :
    ∃ T : List Tok, ∃ kt : KeyTypes, ∃ pk : PKey, ∃ p, tmplOk T = true ∧
      sameSet (keys pk) (keys kt) = true ∧ pk.map (fun q => (q.1, q.2.cls)) ≠ kt ∧
      genFile ⟨print T, some kt⟩ none pk = .ok p := by
  refine ⟨[.ch 'i', .ch '=', .fld ⟨['i'], [.attr "value".toList], []⟩], [(['i'], .int .int8)],
    [(['i'], .date 2024 2 29)], ⟨none, [(['i'], .date 2024 2 29)], "i=2024-02-29".toList⟩, ?_, ?_, ?_, ?_⟩
  · decide +kernel
  · decide +kernel
  · decide +kernel
  · decide +kernel

/-! ## C26 -/

/-- Nothing has been written to a literal without a value. -/
theorem C26_no_value (hash : Str → Fp) (st : LitStorage) (kt : KeyTypes) (ifps : InputFps)
    (hkt : st.keyTypes = some kt) (hv : st.value = none) (h : kt = [] ∨ ifps ≠ []) :
    discoverLit hash st ifps = .ok [] := by
  unfold discoverLit
  rw [hkt, hv]
  cases kt <;> cases ifps <;> simp_all

/-- Input fingerprints are refused for a literal with a value. -/
theorem C26_refuses_fingerprints (hash : Str → Fp) (st : LitStorage) (ifps : InputFps) (v : Str)
    (hv : st.value = some v) (h : ifps ≠ []) : discoverLit hash st ifps = .error .valueError := by
  unfold discoverLit
  cases ifps <;> simp_all

/-- Partitioned literals are refused without input fingerprints. -/
theorem C26_refuses_partitioned (hash : Str → Fp) (st : LitStorage) (kt : KeyTypes)
    (hkt : st.keyTypes = some kt) (h : kt ≠ []) : discoverLit hash st [] = .error .valueError := by
  unfold discoverLit
  rw [hkt]
  cases kt <;> simp_all

theorem genField_lit {kw : PyDict Str FVal} {s : Str} (h : ∀ c ∈ s, c ≠ '{' ∧ c ≠ '}') :
    genField kw s = .ok s := by
  have hp : ∀ s : Str, (∀ c ∈ s, c ≠ '{' ∧ c ≠ '}') → parse s = .ok (s.map .ch) := by
    intro s h
    unfold parse
    induction s with
    | nil => rfl
    | cons c s ih =>
      rw [parseGo_ch c (h c (by simp)).1 (h c (by simp)).2, ih fun d hd => h d (by simp [hd])]
      rfl
  have hr : ∀ (get : Fld → Except Err Str) (s : Str), render get (s.map .ch) = .ok s := by
    intro get s
    induction s with
    | nil => rfl
    | cons c s ih => simp [render, ih, Except.map]
  unfold genField stripPartitionIndexes strFormat
  simp only [bind, Except.bind, hp s h, hr]

theorem isInfix_no_brace {s : Str} (h : ∀ c ∈ s, c ≠ '{' ∧ c ≠ '}') :
    isInfix ifpTmpl s = false := by
  rw [Bool.eq_false_iff]
  intro hi
  obtain ⟨a, b, rfl⟩ := (isInfix_iff _ _).1 hi
  have hm : '{' ∈ ifpTmpl := by decide +kernel
  exact (h '{' (List.mem_append_left _ (List.mem_append_right _ hm))).1 rfl

/-- A literal with a value has one partition without a key: the value. -/
theorem C26_value_partial (hash : Str → Fp) (id v : Str)
    (hid : ∀ c ∈ id, c ≠ '{' ∧ c ≠ '}') (hv : ∀ c ∈ v, c ≠ '{' ∧ c ≠ '}') :
    discoverLit hash ⟨id, some v, some []⟩ [] = .ok [⟨hash v, ⟨none, [], id, some v⟩⟩] := by
  have hk : genKwargs (some []) [id, v] none [] = .ok [] := by
    simp [genKwargs, checkKey, isInfix_no_brace hid, isInfix_no_brace hv]
  have hg : genLit ⟨id, some v, some []⟩ none [] = .ok ⟨none, [], id, some v⟩ := by
    unfold genLit
    simp only [Option.toList_some, bind, Except.bind, hk, genField_lit hid, genField_lit hv]
  simp [discoverLit, snapAllLit, hg, snapLit, bind, Except.bind]

example : discoverLit (fun _ => 3) ⟨"g/x".toList, some "[1, 2]".toList, some []⟩ [] =
    .ok [⟨3, ⟨none, [], "g/x".toList, some "[1, 2]".toList⟩⟩] :=
  C26_value_partial _ _ _ (by decide +kernel) (by decide +kernel)
example : discoverLit (fun _ => 3) ⟨"g/x".toList, none, some [(['i'], .null)]⟩ [([], none)] =
    .ok [] := C26_no_value _ _ [(['i'], .null)] _ rfl rfl (.inr (by decide))
example : discoverLit (fun _ => 3) ⟨"g/x".toList, some [], some []⟩ [([], some 4)] =
    .error .valueError := C26_refuses_fingerprints _ _ _ [] rfl (by decide)
example : discoverLit (fun _ => 3) ⟨"g/x".toList, some [], some [(['i'], .null)]⟩ [] =
    .error .valueError := C26_refuses_partitioned _ _ [(['i'], .null)] rfl (by decide)

/-- A value with braces is taken for a template: literals holding `{"a": 1}` or `{{}}` cannot be
discovered. -/
theorem C26_violated_by_braces (hash : Str → Fp) :
    discoverLit hash ⟨['x'], some "{\"a\": 1}".toList, some []⟩ [] = .error .keyError ∧
    discoverLit hash ⟨['x'], some "{{}}".toList, some []⟩ [] = .error .indexError := by
  have h1 : genLit ⟨['x'], some "{\"a\": 1}".toList, some []⟩ none [] = .error .keyError := by
    decide +kernel
  have h2 : genLit ⟨['x'], some "{{}}".toList, some []⟩ none [] = .error .indexError := by
    decide +kernel
  constructor
  · simp only [discoverLit, snapAllLit, h1, bind, Except.bind]
    rfl
  · simp only [discoverLit, snapAllLit, h2, bind, Except.bind]
    rfl

end Arti.Props
