import Verif.Lemmas.Layout

/-!
# Where the files of a partition are by default (C59)
-/

namespace Arti.Props
open Arti PyDict Spec Fmt Stg Part

theorem value_of {V : PyDict Str (List Tok)} {F : PyDict Str Str}
    (hV : V.map (fun p => (p.1, print p.2)) = F) {n t : Str} (h : (n, t) ∈ F) :
    ∃ U, (n, U) ∈ V ∧ print U = t := by
  rw [← hV] at h
  obtain ⟨⟨n', U⟩, hm, he⟩ := List.mem_map.1 h
  cases he
  exact ⟨U, hm, rfl⟩

theorem value_lit {V : PyDict Str (List Tok)} {F : PyDict Str Str}
    (hV : V.map (fun p => (p.1, print p.2)) = F) {n t : Str} (h : (n, t) ∈ F) (hb : '{' ∉ t) :
    (n, lit t) ∈ V := by
  obtain ⟨U, hU, rfl⟩ := value_of hV h
  rwa [lit, ← eq_chars_of_print hb]

theorem last_mem {names : List Str} (h : names ≠ []) : names.getLastD [] ∈ names := by
  rw [List.getLastD_eq_getLast?, List.getLast?_eq_some_getLast h]
  exact List.getLast_mem _

theorem segOk_ne {s : Str} (h : segOk s = true) : s ≠ [] := by
  rintro rfl
  exact absurd h (by decide)

theorem name_notEmpty {V : PyDict Str (List Tok)} {F : PyDict Str Str} (hnd : (keys V).Nodup)
    (hV : V.map (fun p => (p.1, print p.2)) = F) {n t : Str} (h : (n, t) ∈ F) (ht : t ≠ []) :
    n ∉ empt V := by
  obtain ⟨U, hU, rfl⟩ := value_of hV h
  exact (notIn_empt hnd hU fun he => ht (by rw [he]; rfl)).1

/-- The default template always resolves. -/
theorem default_resolves (dir : Str) (hdir : resolvable placeholderNames (defaultTmpl dir) = true)
    (kt : KeyTypes) (extension graphName : Str) (pathTags : PyDict Str Str) (names : List Str)
    (h : TextsOk kt extension graphName pathTags names) (hn : names ≠ []) (raw : Bool) :
    ∃ path, resolveAll (print (defaultTmpl dir))
      (resolutions kt extension graphName pathTags names raw) = .ok path := by
  obtain ⟨vs, h1, h2, h3, h4, -⟩ := resolutions_toks h raw
  have hnames : ∀ n ∈ placeholderNames, nameOk n = true := by decide +kernel
  have hF : vs.flatten.map (fun p => (p.1, print p.2)) =
      (resolutions kt extension graphName pathTags names raw).flatten := by
    rw [h1, List.map_flatten]
    rfl
  have hm : ("name".toList, names.getLastD []) ∈
      (resolutions kt extension graphName pathTags names raw).flatten := by
    simp only [resolutions, List.flatten_append, List.flatten_cons, List.mem_append, namesValues,
      List.mem_cons, true_or, or_true]
  have hne := name_notEmpty h2 hF hm (segOk_ne (h.names _ (last_mem hn)))
  rw [h1, resolveAll_print vs _ placeholderNames h3 (fun n hn => hnames n (h3 n hn)) h2 hdir h4]
  have hs : ∃ U, step vs.flatten (defaultTmpl dir) = .ok U := by
    unfold step
    rw [if_neg]
    · exact ⟨_, rfl⟩
    · rintro ⟨-, hc⟩
      rw [cut_default _ _ hne] at hc
      have h1 := (List.append_eq_nil_iff.1 hc).1
      rw [lit, List.map_append] at h1
      exact absurd (List.append_eq_nil_iff.1 h1).2 (by simp)
  obtain ⟨U, hU⟩ := hs
  exact ⟨print U, by rw [hU]; rfl⟩

theorem conforms_nil {kt : KeyTypes} {pk : PKey} (hc : Conforms kt pk) : kt = [] ↔ pk = [] := by
  constructor
  · rintro rfl
    cases pk with
    | nil => rfl
    | cons p pk => exact absurd ((hc.same p.1).1 (by simp [keys])) (by simp [keys])
  · rintro rfl
    cases kt with
    | nil => rfl
    | cons p kt => exact absurd ((hc.same p.1).2 (by simp [keys])) (by simp [keys])

theorem key_nil {kt : KeyTypes} {pk : PKey} (hc : Conforms kt pk) (hnd : (keys kt).Nodup) :
    joinWith ['/'] (keySegments kt pk) = [] ↔ joinToks (specToks kt) = [] := by
  cases kt with
  | nil => simp [keySegments, keys, specToks, joinToks, joinWith]
  | cons p kt =>
    obtain ⟨k, c⟩ := p
    obtain ⟨v, hv, rfl⟩ := get_of_conforms hc hnd List.mem_cons_self
    constructor
    · intro he
      have hs : keySegments ((k, v.cls) :: kt) pk ≠ [] := by
        simp only [keySegments, keys, List.map_cons, List.flatMap_cons, hv]
        exact fun h => (fieldSegments_ne k v).1 (List.append_eq_nil_iff.1 h).1
      have := join_below hs
      rw [he] at this
      cases hk : keySegments ((k, v.cls) :: kt) pk with
      | nil => exact absurd hk hs
      | cons x xs =>
        have hx := keySegments_ne ((k, v.cls) :: kt) pk x (by rw [hk]; simp)
        rw [hk] at he
        cases xs <;> simp [joinWith, hx] at he
    · intro he
      exfalso
      have : ∃ f, Tok.fld f ∈ joinToks (specToks ((k, v.cls) :: kt)) := by
        cases v with
        | date y m d =>
          exact ⟨⟨k, [.attr ['Y']], []⟩, joinToks_mem (U := compToks k ['Y'] ['Y'] []) (by
            simp [specToks, FieldVal.cls, defaultToks]) (by simp [compToks])⟩
        | int i v =>
          exact ⟨⟨k, [.attr ['v', 'a', 'l', 'u', 'e']], []⟩,
            joinToks_mem (U := compToks k ['v', 'a', 'l', 'u', 'e'] ['v', 'a', 'l', 'u', 'e'] [])
            (by simp [specToks, FieldVal.cls, defaultToks]) (by simp [compToks])⟩
        | null =>
          exact ⟨⟨k, [.attr ['v', 'a', 'l', 'u', 'e']], []⟩,
            joinToks_mem (U := compToks k ['v', 'a', 'l', 'u', 'e'] ['v', 'a', 'l', 'u', 'e'] [])
            (by simp [specToks, FieldVal.cls, defaultToks]) (by simp [compToks])⟩
      obtain ⟨f, hf⟩ := this
      rw [he] at hf
      simp at hf

theorem substT_lit (V : PyDict Str (List Tok)) (s : Str) : substT V (lit s) = lit s := by
  induction s with
  | nil => rfl
  | cons c s ih =>
    simp only [lit, List.map_cons] at ih ⊢
    rw [substT_ch, ih]

/-- With `LocalFile`'s default template, the file of every partition of every artifact of every
graph is where the specification says: in directories for the graph, the tags, the keys of the
artifact, the fields of the partition key and the input fingerprint. -/
theorem C59_default_location (dir : Str)
    (hdir : resolvable placeholderNames (defaultTmpl dir) = true) (kt : KeyTypes)
    (extension graphName : Str) (pathTags : PyDict Str Str) (names : List Str)
    (h : TextsOk kt extension graphName pathTags names) (hg : graphName ≠ []) (hn : names ≠ [])
    (fp : Option Fp) (pk : PKey) (hc : Conforms kt pk) :
    ∃ path, resolveAll (dir ++ ("/{graph_name}/{path_tags}/{names}/{partition_key_spec}/" ++
        "{input_fingerprint}/{name}{extension}").toList)
      (resolutions kt extension graphName pathTags names (raw := fp.isNone)) = .ok path ∧
      genFile ⟨path, some kt⟩ fp pk = .ok ⟨fp, pk,
        below dir (segments graphName pathTags names kt pk fp extension)⟩ := by
  obtain ⟨path, hr⟩ := default_resolves dir hdir kt extension graphName pathTags names h hn fp.isNone
  have hp := defaultTmpl_print dir
  refine ⟨path, ?_, ?_⟩
  · rw [hp] at hr
    exact hr
  obtain ⟨V, rfl, hok, hnd, -, hF, hspec⟩ := resolved hdir h fp.isNone hr
  -- the values
  have mem : ∀ p, p ∈ [("graph_name".toList, graphName),
      ("path_tags".toList, joinWith ['/'] (tagSegments pathTags)),
      ("names".toList, joinWith ['/'] names), ("name".toList, names.getLastD []),
      ("extension".toList, extension)] →
      p ∈ (resolutions kt extension graphName pathTags names fp.isNone).flatten := by
    intro p hp
    simp only [List.mem_cons, List.not_mem_nil, or_false] at hp
    simp only [resolutions, List.flatten_append, List.flatten_cons, List.mem_append, namesValues,
      graphValues, formatValues, List.mem_cons]
    rcases hp with rfl | rfl | rfl | rfl | rfl <;> simp [tagSegments, sep]
  have hlast := last_mem hn
  have bname : '{' ∉ names.getLastD [] := brace_of_segOk (h.names _ hlast)
  have bnames : '{' ∉ joinWith ['/'] names := brace_joinWith fun s hs => brace_of_segOk (h.names s hs)
  have btags : '{' ∉ joinWith ['/'] (tagSegments pathTags) := by
    refine brace_joinWith fun s hs => ?_
    obtain ⟨⟨t, v⟩, hp, rfl⟩ := List.mem_map.1 hs
    have h1 := brace_of_segOk (h.tags _ hp).1
    have h2 := brace_of_segOk (h.tags _ hp).2
    simp only [List.mem_append, List.mem_cons, not_or]
    exact ⟨h1, by decide, h2⟩
  have vgraph := value_lit hF (mem ("graph_name".toList, graphName) (by simp only [List.mem_cons, true_or, or_true]))
    (brace_of_textOk h.graph)
  have vtags := value_lit hF (mem ("path_tags".toList, joinWith ['/'] (tagSegments pathTags)) (by simp only [List.mem_cons, true_or, or_true])) btags
  have vnames := value_lit hF (mem ("names".toList, joinWith ['/'] names) (by simp only [List.mem_cons, true_or, or_true])) bnames
  have vname := value_lit hF (mem ("name".toList, names.getLastD []) (by simp only [List.mem_cons, true_or, or_true])) bname
  have vext := value_lit hF (mem ("extension".toList, extension) (by simp only [List.mem_cons, true_or, or_true])) (brace_of_textOk h.ext)
  have lit_nil : ∀ s : Str, s = [] ↔ lit s = [] := fun s => by simp [lit]
  have rlit : ∀ s : Str, render (fieldText fp pk) ((lit s).map stripTok) = .ok s := fun s => by
    rw [strip_lit, render_lit]
  have nname := (notIn_empt hnd vname (fun he => segOk_ne (h.names _ hlast) ((lit_nil _).2 he)))
  -- the segments
  have rgraph := render_seg hnd vgraph (rlit _) (lit_nil _)
  have rtags := render_seg hnd vtags (rlit _) (lit_nil _)
  have rnames := render_seg hnd vnames (rlit _) (lit_nil _)
  have rkey := render_seg hnd hspec (render_spec (fp := fp) hc h.nodup h.keyNames) (key_nil hc h.nodup)
  have nofp : ∀ v, fp = some v → ifpName ∉ empt V ∧ get? (full V) ifpName = none := by
    intro v hfp
    rw [hfp] at hF
    have hk : ifpName ∉ keys V := by
      have : keys V = ((resolutions kt extension graphName pathTags names false).flatten).map
          Prod.fst := by
        rw [← Option.isNone_some, ← hF, List.map_map]
        rfl
      rw [this]
      simp only [resolutions, typeValues, formatValues, graphValues, namesValues, List.flatten_cons,
        List.flatten_append, List.map_append, List.map_cons, List.map_nil, List.flatten_nil]
      decide +kernel
    have hE : ifpName ∉ empt V := fun hm => hk (by
      simp only [empt, keys, List.mem_map, List.mem_filter] at hm ⊢
      obtain ⟨p, ⟨hp, -⟩, he⟩ := hm
      exact ⟨p, hp, he⟩)
    have hG : get? (full V) ifpName = none := by
      rw [get?_full hnd hE]
      exact (get?_eq_none_iff _ _).2 hk
    exact ⟨hE, hG⟩
  have rfp : render (fieldText fp pk) ((substT (full V) (optSeg (empt V) ifpName)).map stripTok) =
      .ok (if joinWith ['/'] (fp.toList.map intToStr) = [] then [] else
        joinWith ['/'] (fp.toList.map intToStr) ++ ['/']) := by
    cases hfp : fp with
    | none =>
      rw [hfp] at hF
      have hm : (ifpName, lit []) ∈ V := value_lit hF (by
        simp only [resolutions, ifpValues, Option.isNone_none, if_true, List.flatten_append,
          List.mem_append, List.flatten_cons, List.mem_singleton]
        exact .inr (.inl trivial)) (by simp)
      exact render_seg hnd hm (by rw [strip_lit, render_lit]; rfl) (by simp [lit, joinWith])
    | some v =>
      obtain ⟨hE, hG⟩ := nofp v hfp
      simp only [optSeg, hE, if_false, substT_fld, plain, hG, Option.getD_none, List.map_append]
      have hs : joinWith ['/'] ((some v).toList.map intToStr) = intToStr v := rfl
      rw [hs, if_neg (intToStr_ne v)]
      refine render_append ?_ (by simp [substT, stripTok, render, Except.map])
      exact render_one (f := plain ifpName) (by decide +kernel) (by simp [fieldText, argOf, plain])
  have rext : render (fieldText fp pk) ((substT (full V) (.fld (plain "name".toList) ::
      if "extension".toList ∈ empt V then [] else [.fld (plain "extension".toList)])).map stripTok) =
      .ok (names.getLastD [] ++ extension) := by
    rw [substT_fld, List.map_append]
    refine render_append ?_ ?_
    · rw [show (plain "name".toList).first = "name".toList from rfl, nname.2]
      exact rlit _
    · by_cases he : extension = []
      · have hm : "extension".toList ∈ empt V := by
          simp only [empt, keys, List.mem_map, List.mem_filter]
          exact ⟨_, ⟨vext, by simp [he, lit]⟩, rfl⟩
        rw [if_pos hm, he]
        rfl
      · obtain ⟨h1, h2⟩ := notIn_empt hnd vext (fun hl => he ((lit_nil _).2 hl))
        rw [if_neg h1, substT_fld, show (plain "extension".toList).first = "extension".toList from rfl,
          h2, List.map_append]
        have := render_append (rlit extension) (B := (substT (full V) []).map stripTok) rfl
        rwa [List.append_nil] at this
  have hcut := cut_default (empt V) dir nname.1
  have hrender : render (fieldText fp pk) ((substT (full V) (cut (empt V) (defaultTmpl dir))).map
      stripTok) = .ok (below dir (segments graphName pathTags names kt pk fp extension)) := by
    rw [hcut]
    simp only [substT_append, List.map_append]
    have hd : substT (full V) (lit (dir ++ ['/'])) = lit (dir ++ ['/']) :=
      substT_lit _ _
    rw [hd]
    have := render_append (rlit (dir ++ ['/'])) (render_append rgraph (render_append rtags
      (render_append rnames (render_append rkey (render_append rfp rext)))))
    rw [this]
    congr 1
    have ntags : ∀ s ∈ tagSegments pathTags, s ≠ [] := by
      intro s hs
      obtain ⟨⟨t, v⟩, -, rfl⟩ := List.mem_map.1 hs
      simp
    have nfp : ∀ s ∈ fp.toList.map intToStr, s ≠ [] := by
      intro s hs
      obtain ⟨v, -, rfl⟩ := List.mem_map.1 hs
      exact intToStr_ne v
    rw [if_neg hg]
    have e1 := join_below_opt nfp (names.getLastD [] ++ extension)
    simp only [below, segments, List.flatMap_cons, List.flatMap_append, List.append_assoc,
      List.cons_append, List.nil_append, List.flatMap_nil, List.append_nil]
    congr 2
    congr 1
    rw [join_below_opt ntags, join_below_opt (fun s hs => segOk_ne (h.names s hs)),
      join_below_opt (keySegments_ne kt pk), join_below_opt nfp]
  refine genFile_of hok ?_ ?_ hrender
  · exact conforms_nil hc
  · constructor
    · intro hs
      obtain ⟨v, hv⟩ := Option.isSome_iff_exists.1 hs
      have hk : ifpName ∉ empt V ∧ get? (full V) ifpName = none := nofp v hv
      rw [hcut]
      simp only [substT_append, List.mem_append]
      refine .inr (.inr (.inr (.inr (.inr (.inl ?_)))))
      simp [optSeg, hk.1, substT_fld, plain, hk.2]
    · intro hm
      by_contra hs
      have hfp : fp = none := by simpa using hs
      obtain ⟨t, ht⟩ := render_fld_ok hrender (f := plain ifpName)
        (List.mem_map.2 ⟨_, hm, by simp [stripTok, strip, plain]⟩)
      have hk : ifpName ∉ keys pk := fun hk => by
        have := h.keyNames _ ((hc.same _).1 hk)
        exact absurd this (by decide +kernel)
      rw [hfp] at ht
      simp [fieldText, argOf, plain, (get?_eq_none_iff _ _).2 hk] at ht

/-! ## No two artifacts share a location -/

theorem split_sep {a b r r' : Str} (ha : '/' ∉ a) (hb : '/' ∉ b)
    (hr : r = [] ∨ r.head? = some '/') (hr' : r' = [] ∨ r'.head? = some '/') (h : a ++ r = b ++ r') :
    a = b ∧ r = r' := by
  induction a generalizing b with
  | nil =>
    cases b with
    | nil => exact ⟨rfl, h⟩
    | cons c b =>
      simp only [List.nil_append] at h
      subst h
      rcases hr with hr | hr
      · simp at hr
      · simp only [List.cons_append, List.head?_cons, Option.some.injEq] at hr
        exact absurd (by simp [hr]) hb
  | cons c a ih =>
    cases b with
    | nil =>
      simp only [List.nil_append] at h
      subst h
      rcases hr' with hr | hr
      · simp at hr
      · simp only [List.cons_append, List.head?_cons, Option.some.injEq] at hr
        exact absurd (by simp [hr]) ha
    | cons d b =>
      simp only [List.cons_append, List.cons.injEq] at h
      obtain ⟨h1, h2⟩ := ih (fun hm => ha (by simp [hm])) (fun hm => hb (by simp [hm])) h.2
      exact ⟨by rw [h.1, h1], h2⟩

theorem below_inj {dir : Str} {xs ys : List Str} (hx : ∀ s ∈ xs, '/' ∉ s) (hy : ∀ s ∈ ys, '/' ∉ s)
    (h : below dir xs = below dir ys) : xs = ys := by
  have h' := List.append_cancel_left h
  clear h
  have hd : ∀ zs : List Str, (zs.flatMap fun s => '/' :: s) = [] ∨
      (zs.flatMap fun s => '/' :: s).head? = some '/' := by
    intro zs
    cases zs with
    | nil => exact .inl rfl
    | cons z zs => exact .inr (by simp)
  induction xs generalizing ys with
  | nil =>
    cases ys with
    | nil => rfl
    | cons y ys => simp at h'
  | cons x xs ih =>
    cases ys with
    | nil => simp at h'
    | cons y ys =>
      simp only [List.flatMap_cons, List.cons_append, List.cons.injEq, true_and] at h'
      obtain ⟨h1, h2⟩ := split_sep (hx x (by simp)) (hy y (by simp)) (hd xs) (hd ys) h'
      rw [h1, ih (fun s hs => hx s (by simp [hs])) (fun s hs => hy s (by simp [hs])) h2]

/-- Two lists are split at the first element without the property. -/
theorem split_first {α : Type} {P : α → Prop} {A A' B B' : List α} (hA : ∀ x ∈ A, P x)
    (hA' : ∀ x ∈ A', P x) (hB : ∀ x, B.head? = some x → ¬ P x) (hB' : ∀ x, B'.head? = some x → ¬ P x)
    (h : A ++ B = A' ++ B') : A = A' ∧ B = B' := by
  induction A generalizing A' with
  | nil =>
    cases A' with
    | nil => exact ⟨rfl, h⟩
    | cons a A' =>
      simp only [List.nil_append] at h
      exact absurd (hA' a (by simp)) (hB a (by rw [h]; rfl))
  | cons a A ih =>
    cases A' with
    | nil =>
      simp only [List.nil_append] at h
      exact absurd (hA a (by simp)) (hB' a (by rw [← h]; rfl))
    | cons a' A' =>
      simp only [List.cons_append, List.cons.injEq] at h
      obtain ⟨h1, h2⟩ := ih (fun x hx => hA x (by simp [hx])) (fun x hx => hA' x (by simp [hx])) h.2
      exact ⟨by rw [h.1, h1], h2⟩

theorem split_char {x : Char} {a a' b b' : Str} (ha : x ∉ a) (ha' : x ∉ a')
    (h : a ++ x :: b = a' ++ x :: b') : a = a' ∧ b = b' := by
  obtain ⟨h1, h2⟩ := split_first (P := fun c => c ≠ x) (fun c hc he => ha (he ▸ hc))
    (fun c hc he => ha' (he ▸ hc)) (by simp) (by simp) h
  exact ⟨h1, (List.cons.inj h2).2⟩

theorem noSep_of_segOk {s : Str} (h : segOk s = true) : '/' ∉ s := fun hm => by
  simp only [segOk, Bool.and_eq_true, List.all_eq_true] at h
  simpa using h.2 _ hm

theorem noSep_intToStr (i : Int) : '/' ∉ intToStr i := fun h =>
  sep_not_component (intToStr_mem h)

theorem noEq_intToStr (i : Int) : '=' ∉ intToStr i := fun h =>
  absurd (intToStr_mem h) (by decide +kernel)

theorem keySegments_chars {kt : KeyTypes} {pk : PKey} (hk : ∀ n ∈ keys kt, keyNameOk n = true) :
    ∀ s ∈ keySegments kt pk, '/' ∉ s ∧ '=' ∈ s := by
  intro s hs
  simp only [keySegments, List.mem_flatMap] at hs
  obtain ⟨n, hn, hs⟩ := hs
  have hsep : '/' ∉ n := by
    have := hk n hn
    simp only [keyNameOk, Bool.and_eq_true, Bool.not_eq_true'] at this
    simpa using this.1.2
  have hpad : ∀ w m, '/' ∉ padNat w m := fun w m h =>
    sep_not_component (digit10_mem (padNat_chars _ _ _ h))
  have hnat : ∀ m, '/' ∉ natToStr 10 m := fun m => noSep_intToStr (.ofNat m)
  cases hg : get? pk n with
  | none => simp [hg] at hs
  | some v =>
    rw [hg] at hs
    cases v with
    | date y m d =>
      simp only [fieldSegments, List.mem_cons, List.not_mem_nil, or_false] at hs
      rcases hs with rfl | rfl | rfl <;> simp [hsep, hpad, hnat]
    | int i v =>
      simp only [fieldSegments, List.mem_cons, List.not_mem_nil, or_false] at hs
      subst hs
      simp [hsep, noSep_intToStr]
    | null =>
      simp only [fieldSegments, List.mem_cons, List.not_mem_nil, or_false] at hs
      subst hs
      simp [hsep]

theorem segments_noSep {kt : KeyTypes} {extension graphName : Str} {pathTags : PyDict Str Str}
    {names : List Str} (h : TextsOk kt extension graphName pathTags names) (hn : names ≠ [])
    (hd : Distinguishable graphName pathTags names extension) (fp : Option Fp) (pk : PKey) :
    ∀ s ∈ segments graphName pathTags names kt pk fp extension, '/' ∉ s := by
  intro s hs
  simp only [segments, List.mem_cons, List.mem_append, List.not_mem_nil, or_false] at hs
  rcases hs with rfl | (((hs | hs) | hs) | hs) | rfl
  · exact hd.graph
  · obtain ⟨⟨t, v⟩, hp, rfl⟩ := List.mem_map.1 hs
    have h1 := noSep_of_segOk (h.tags _ hp).1
    have h2 := noSep_of_segOk (h.tags _ hp).2
    simp only [List.mem_append, List.mem_cons, not_or]
    exact ⟨h1, by decide, h2⟩
  · exact noSep_of_segOk (h.names s hs)
  · exact (keySegments_chars h.keyNames s hs).1
  · obtain ⟨v, -, rfl⟩ := List.mem_map.1 hs
    exact noSep_intToStr v
  · simp only [List.mem_append, not_or]
    exact ⟨noSep_of_segOk (h.names _ (last_mem hn)), hd.extension⟩

theorem padNat_inj {w m n : Nat} (h : padNat w m = padNat w n) : m = n := by
  have h1 := digitsVal_padNat w m
  rw [h, digitsVal_padNat] at h1
  exact (Option.some.inj h1).symm

theorem fieldSegments_inj {n : Str} {v w : FieldVal} (hc : v.cls = w.cls)
    (h : fieldSegments n v = fieldSegments n w) : v = w := by
  cases v with
  | date y m d =>
    cases w with
    | date y' m' d' =>
      simp only [fieldSegments, List.cons.injEq, List.append_cancel_left_eq, and_true] at h
      rw [natToStr_inj (by decide) (by decide) h.1, padNat_inj h.2.1, padNat_inj h.2.2]
    | int i v => cases hc
    | null => cases hc
  | int i v =>
    cases w with
    | date y' m' d' => cases hc
    | int i' v' =>
      simp only [FieldVal.cls, FieldCls.int.injEq] at hc
      simp only [fieldSegments, List.cons.injEq, List.append_cancel_left_eq, and_true] at h
      rw [hc, intToStr_inj h]
    | null => cases hc
  | null =>
    cases w with
    | date y' m' d' => cases hc
    | int i v => cases hc
    | null => rfl

theorem fieldSegments_length {n : Str} {v w : FieldVal} (hc : v.cls = w.cls) :
    (fieldSegments n v).length = (fieldSegments n w).length := by
  cases v <;> cases w <;> first | rfl | cases hc

theorem keySegments_inj {kt : KeyTypes} {pk pk' : PKey} (hnd : (keys kt).Nodup)
    (hc : Conforms kt pk) (hc' : Conforms kt pk') (h : keySegments kt pk = keySegments kt pk') :
    fdEq pk pk' = true := by
  have key : ∀ l : KeyTypes, (∀ p ∈ l, p ∈ kt) → keySegments l pk = keySegments l pk' →
      ∀ k ∈ keys l, get? pk k = get? pk' k := by
    intro l hl h
    induction l with
    | nil => simp [keys]
    | cons p l ih =>
      obtain ⟨k, c⟩ := p
      obtain ⟨v, hv, rfl⟩ := get_of_conforms hc hnd (hl _ List.mem_cons_self)
      obtain ⟨w, hw, hcw⟩ := get_of_conforms hc' hnd (hl _ List.mem_cons_self)
      simp only [keySegments, keys, List.map_cons, List.flatMap_cons, hv, hw] at h
      obtain ⟨h1, h2⟩ := List.append_inj h (fieldSegments_length hcw.symm)
      intro k' hk'
      simp only [keys, List.map_cons, List.mem_cons] at hk'
      rcases hk' with rfl | hk'
      · rw [hv, hw, fieldSegments_inj hcw.symm h1]
      · exact ih (fun p hp => hl p (List.mem_cons_of_mem _ hp)) h2 k' hk'
  rw [fdEq_iff hc.nodup hc'.nodup]
  intro k
  by_cases hk : k ∈ keys kt
  · exact key kt (fun _ h => h) h k hk
  · rw [(get?_eq_none_iff _ _).2 (fun h => hk ((hc.same k).1 h)),
      (get?_eq_none_iff _ _).2 (fun h => hk ((hc'.same k).1 h))]

theorem tagSegments_inj {tags tags' : PyDict Str Str} (h1 : ∀ t ∈ keys tags, '=' ∉ t)
    (h2 : ∀ t ∈ keys tags', '=' ∉ t) (h : tagSegments tags = tagSegments tags') : tags = tags' := by
  induction tags generalizing tags' with
  | nil => cases tags' with
    | nil => rfl
    | cons p tags' => simp [tagSegments] at h
  | cons p tags ih => cases tags' with
    | nil => simp [tagSegments] at h
    | cons p' tags' =>
      simp only [tagSegments, List.map_cons, List.cons.injEq] at h
      obtain ⟨e1, e2⟩ := split_char (h1 p.1 (by simp [keys])) (h2 p'.1 (by simp [keys])) h.1
      rw [ih (fun t ht => h1 t (by simp only [keys, List.map_cons, List.mem_cons]; exact .inr ht))
        (fun t ht => h2 t (by simp only [keys, List.map_cons, List.mem_cons]; exact .inr ht)) h.2,
        Prod.ext e1 e2]

theorem segments_inj {graph graph' : Str} {tags tags' : PyDict Str Str} {names names' : List Str}
    {kt kt' : KeyTypes} {pk pk' : PKey} {fp fp' : Option Fp} {ext ext' : Str}
    (hd : Distinguishable graph tags names ext) (hd' : Distinguishable graph' tags' names' ext')
    (hn : names ≠ []) (hn' : names' ≠ []) (hk : ∀ n ∈ keys kt, keyNameOk n = true)
    (hk' : ∀ n ∈ keys kt', keyNameOk n = true)
    (h : segments graph tags names kt pk fp ext = segments graph' tags' names' kt' pk' fp' ext') :
    graph = graph' ∧ tags = tags' ∧ names = names' ∧ keySegments kt pk = keySegments kt' pk' ∧
      fp = fp' ∧ ext = ext' := by
  simp only [segments, List.cons.injEq] at h
  obtain ⟨hg, h⟩ := h
  obtain ⟨h, hlast⟩ := List.append_inj' h rfl
  simp only [List.append_assoc] at h
  have htag : ∀ {tags : PyDict Str Str}, ∀ s ∈ tagSegments tags, '=' ∈ s := by
    intro tags s hs
    obtain ⟨⟨t, v⟩, -, rfl⟩ := List.mem_map.1 hs
    simp
  have hhead : ∀ {names : List Str} {R : List Str}, names ≠ [] → (∀ n ∈ names, '=' ∉ n) →
      ∀ x, (names ++ R).head? = some x → ¬ '=' ∈ x := by
    intro names R h0 h1 x hx
    cases names with
    | nil => exact absurd rfl h0
    | cons n ns =>
      simp only [List.cons_append, List.head?_cons, Option.some.injEq] at hx
      subst hx
      exact h1 n (by simp)
  obtain ⟨h1, h2⟩ := split_first (P := fun s : Str => '=' ∈ s) htag htag
    (hhead hn fun n hm => (hd.names n hm).1) (hhead hn' fun n hm => (hd'.names n hm).1) h
  have hrest : ∀ {kt : KeyTypes} {pk : PKey} {fp : Option Fp}, (∀ n ∈ keys kt, keyNameOk n = true) →
      ∀ x, (keySegments kt pk ++ fp.toList.map intToStr).head? = some x →
        ¬ ('=' ∉ x ∧ ∀ i : Int, x ≠ intToStr i) := by
    intro kt pk fp hk x hx hcon
    have hm : x ∈ keySegments kt pk ++ fp.toList.map intToStr := List.mem_of_mem_head? (by simp [hx])
    rcases List.mem_append.1 hm with hm | hm
    · exact hcon.1 (keySegments_chars hk x hm).2
    · obtain ⟨v, -, rfl⟩ := List.mem_map.1 hm
      exact hcon.2 v rfl
  obtain ⟨h3, h4⟩ := split_first (P := fun s : Str => '=' ∉ s ∧ ∀ i : Int, s ≠ intToStr i)
    hd.names hd'.names (hrest hk) (hrest hk') h2
  have hfps : ∀ {fp : Option Fp}, ∀ x, (fp.toList.map intToStr).head? = some x → ¬ '=' ∈ x := by
    intro fp x hx
    have hm : x ∈ fp.toList.map intToStr := List.mem_of_mem_head? (by simp [hx])
    obtain ⟨v, -, rfl⟩ := List.mem_map.1 hm
    exact noEq_intToStr v
  obtain ⟨h5, h6⟩ := split_first (P := fun s : Str => '=' ∈ s)
    (fun s hs => (keySegments_chars hk s hs).2) (fun s hs => (keySegments_chars hk' s hs).2)
    hfps hfps h4
  refine ⟨hg, tagSegments_inj hd.tags hd'.tags h1, h3, h5, ?_, ?_⟩
  · cases fp <;> cases fp' <;> simp at h6 ⊢
    exact intToStr_inj h6
  · simp only [List.cons.injEq, and_true] at hlast
    rw [h3] at hlast
    exact List.append_cancel_left hlast

/-- With `LocalFile`'s default template: if the files of two partitions, of whatever artifacts of
whatever graphs, are the same file, then the graphs have the same name, the tags are the same, the
artifacts are stored under the same keys and have the same extension, the input fingerprints are
the same and, if the partition keys have the same type, the partition keys are the same.

Missing: names that can be taken for something else in a path; for those it does not hold, see
below. -/
theorem C59_same_file_same_artifact_partial (dir : Str)
    (hdir : resolvable placeholderNames (defaultTmpl dir) = true)
    (kt kt' : KeyTypes) (ext ext' graph graph' : Str) (tags tags' : PyDict Str Str)
    (names names' : List Str) (h : TextsOk kt ext graph tags names)
    (h' : TextsOk kt' ext' graph' tags' names') (hg : graph ≠ []) (hg' : graph' ≠ [])
    (hn : names ≠ []) (hn' : names' ≠ []) (hd : Distinguishable graph tags names ext)
    (hd' : Distinguishable graph' tags' names' ext') (fp fp' : Option Fp) (pk pk' : PKey)
    (hc : Conforms kt pk) (hc' : Conforms kt' pk') (path path' : Str)
    (hr : resolveAll (dir ++ ("/{graph_name}/{path_tags}/{names}/{partition_key_spec}/" ++
      "{input_fingerprint}/{name}{extension}").toList)
        (resolutions kt ext graph tags names (raw := fp.isNone)) = .ok path)
    (hr' : resolveAll (dir ++ ("/{graph_name}/{path_tags}/{names}/{partition_key_spec}/" ++
      "{input_fingerprint}/{name}{extension}").toList)
        (resolutions kt' ext' graph' tags' names' (raw := fp'.isNone)) = .ok path')
    (p p' : FilePartition) (hp : genFile ⟨path, some kt⟩ fp pk = .ok p)
    (hp' : genFile ⟨path', some kt'⟩ fp' pk' = .ok p') (hsame : p.path = p'.path) :
    graph = graph' ∧ tags = tags' ∧ names = names' ∧ ext = ext' ∧ fp = fp' ∧
      (kt = kt' → fdEq pk pk' = true) := by
  have key : ∀ {kt : KeyTypes} {ext graph : Str} {tags : PyDict Str Str} {names : List Str}
      {fp : Option Fp} {pk : PKey} {path : Str} {p : FilePartition}, TextsOk kt ext graph tags names →
      graph ≠ [] → names ≠ [] → Conforms kt pk →
      resolveAll (dir ++ ("/{graph_name}/{path_tags}/{names}/{partition_key_spec}/" ++
        "{input_fingerprint}/{name}{extension}").toList)
          (resolutions kt ext graph tags names (raw := fp.isNone)) = .ok path →
      genFile ⟨path, some kt⟩ fp pk = .ok p → p.path = below dir (segments graph tags names kt pk fp ext) := by
    intro kt ext graph tags names fp pk path p h hg hn hc hr hp
    obtain ⟨path₀, h1, h2⟩ := C59_default_location dir hdir kt ext graph tags names h hg hn fp pk hc
    rw [hr] at h1
    cases h1
    rw [hp] at h2
    cases h2
    rfl
  rw [key h hg hn hc hr hp, key h' hg' hn' hc' hr' hp'] at hsame
  have hs := below_inj (segments_noSep h hn hd fp pk) (segments_noSep h' hn' hd' fp' pk') hsame
  obtain ⟨e1, e2, e3, e4, e5, e6⟩ := segments_inj hd hd' hn hn' h.keyNames h'.keyNames hs
  refine ⟨e1, e2, e3, e6, e5, ?_⟩
  rintro rfl
  exact keySegments_inj h.nodup hc hc' e4

/-! ## Where it fails -/

/-- The file of a partition, from the text of the template on. -/
def fileOf (spec : Str) (kt : KeyTypes) (ext graph : Str) (tags : PyDict Str Str) (names : List Str)
    (fp : Option Fp) (pk : PKey) : Except Err Str := do
  let path ← resolveAll spec (resolutions kt ext graph tags names (raw := fp.isNone))
  let p ← genFile ⟨path, some kt⟩ fp pk
  return p.path

def localDefault : Str := ("/tmp/{graph_name}/{path_tags}/{names}/{partition_key_spec}/" ++
  "{input_fingerprint}/{name}{extension}").toList

/-- The artifact `c` of the graph `g/h` and the artifact `h.c` of the graph `g` have the same file. -/
theorem C59_violated_by_graph_names :
    fileOf localDefault [] ".json".toList "g/h".toList [] ["c".toList] none [] =
      .ok "/tmp/g/h/c/c.json".toList ∧
    fileOf localDefault [] ".json".toList "g".toList [] ["h".toList, "c".toList] none [] =
      .ok "/tmp/g/h/c/c.json".toList := by
  decide +kernel

/-- In one graph, the artifact with the key `a/a` and the artifact `a.a.a` have the same file. -/
theorem C59_violated_by_keys_with_separators :
    fileOf localDefault [] ".json".toList "g".toList [] ["a/a".toList] none [] =
      .ok "/tmp/g/a/a/a/a.json".toList ∧
    fileOf localDefault [] ".json".toList "g".toList [] ["a".toList, "a".toList, "a".toList] none [] =
      .ok "/tmp/g/a/a/a/a.json".toList := by
  decide +kernel

/-- A tag of one graph can be taken for the key of an artifact of another with the same name. -/
theorem C59_violated_by_tags :
    fileOf localDefault [] ".json".toList "g".toList [("a".toList, "b".toList)] ["c".toList] none [] =
      .ok "/tmp/g/a=b/c/c.json".toList ∧
    fileOf localDefault [] ".json".toList "g".toList [] ["a=b".toList, "c".toList] none [] =
      .ok "/tmp/g/a=b/c/c.json".toList := by
  decide +kernel

/-- In one graph, a partition of the artifact `i_value=1` and the artifact without partitions that
is stored below it have the same file. -/
theorem C59_violated_by_partition_keys :
    fileOf localDefault [("i".toList, .int .int8)] ".json".toList "g".toList []
        ["i_value=1".toList] none [("i".toList, .int .int8 1)] =
      .ok "/tmp/g/i_value=1/i_value=1/i_value=1.json".toList ∧
    fileOf localDefault [] ".json".toList "g".toList [] ["i_value=1".toList, "i_value=1".toList]
        none [] =
      .ok "/tmp/g/i_value=1/i_value=1/i_value=1.json".toList := by
  decide +kernel

/-- In one graph, a produced artifact `5` and the artifact without a producer `5.5` can have the
same file. -/
theorem C59_violated_by_fingerprints :
    fileOf localDefault [] ".json".toList "g".toList [] ["5".toList] (some 5) [] =
      .ok "/tmp/g/5/5/5.json".toList ∧
    fileOf localDefault [] ".json".toList "g".toList [] ["5".toList, "5".toList] none [] =
      .ok "/tmp/g/5/5/5.json".toList := by
  decide +kernel

namespace Ex59

def kt : KeyTypes := [("date".toList, .date), ("i".toList, .int .int8)]
def pk : PKey := [("i".toList, .int .int8 (-3)), ("date".toList, .date 2021 1 9)]

theorem ok : TextsOk kt ".json".toList "g".toList [("env".toList, "dev".toList)]
    ["a".toList, "b".toList] :=
  ⟨by decide +kernel, by decide +kernel, by decide +kernel, by decide +kernel, by decide +kernel,
    by decide +kernel⟩

theorem conf : Conforms kt pk where
  nodup := by decide +kernel
  same := by intro k; simp [kt, pk, keys]; tauto
  cls := by
    intro k v h
    simp only [pk, List.mem_cons, Prod.mk.injEq, List.not_mem_nil, or_false] at h
    rcases h with ⟨rfl, rfl⟩ | ⟨rfl, rfl⟩ <;> decide +kernel
  valid := by
    intro k v h
    simp only [pk, List.mem_cons, Prod.mk.injEq, List.not_mem_nil, or_false] at h
    rcases h with ⟨rfl, rfl⟩ | ⟨rfl, rfl⟩
    · exact trivial
    · show validDate 2021 1 9 = true
      decide

theorem not_int {n : Str} (c : Char) (h : c ∈ n) (hc : c ∉ componentChars) (i : Int) :
    n ≠ intToStr i := by
  rintro rfl
  exact hc (intToStr_mem h)

theorem dist (names : List Str) (h : ∀ n ∈ names, n = "y".toList ∨ n = "z".toList) :
    Distinguishable "g".toList [] names ".json".toList where
  graph := by decide +kernel
  tags := by simp [keys]
  names := by
    intro n hn
    rcases h n hn with rfl | rfl
    · exact ⟨by decide +kernel, not_int 'y' (by decide) (by decide +kernel)⟩
    · exact ⟨by decide +kernel, not_int 'z' (by decide) (by decide +kernel)⟩
  extension := by decide +kernel

theorem ok2 (kt : KeyTypes) (hk : ∀ n ∈ keys kt, keyNameOk n = true) (hn : (keys kt).Nodup)
    (names : List Str) (h : ∀ n ∈ names, n = "y".toList ∨ n = "z".toList) :
    TextsOk kt ".json".toList "g".toList [] names :=
  ⟨fun n hn => by rcases h n hn with rfl | rfl <;> decide +kernel, by decide +kernel, by simp,
    by decide +kernel, hk, hn⟩

/-- The partitions of the artifacts `y` and `y.z` never share a file. -/
example (fp fp' : Option Fp) (pk' : PKey) (hc' : Conforms kt pk') (path path' : Str)
    (hr : resolveAll ("/tmp".toList ++ ("/{graph_name}/{path_tags}/{names}/{partition_key_spec}/" ++
      "{input_fingerprint}/{name}{extension}").toList)
        (resolutions kt ".json".toList "g".toList [] ["y".toList] fp.isNone) = .ok path)
    (hr' : resolveAll ("/tmp".toList ++ ("/{graph_name}/{path_tags}/{names}/{partition_key_spec}/" ++
      "{input_fingerprint}/{name}{extension}").toList)
        (resolutions kt ".json".toList "g".toList [] ["y".toList, "z".toList] fp'.isNone) = .ok path')
    (p p' : FilePartition) (hp : genFile ⟨path, some kt⟩ fp pk = .ok p)
    (hp' : genFile ⟨path', some kt⟩ fp' pk' = .ok p') : p.path ≠ p'.path := fun he => by
  have := (C59_same_file_same_artifact_partial "/tmp".toList (by decide +kernel) kt kt _ _ _ _ _ _ _ _
    (ok2 kt ok.keyNames ok.nodup _ (by simp)) (ok2 kt ok.keyNames ok.nodup _ (by simp)) (by decide)
    (by decide) (by decide) (by decide) (dist _ (by simp)) (dist _ (by simp)) fp fp' pk pk' conf hc'
    path path' hr hr' p p' hp hp' he).2.2.1
  simp at this

example : below "/tmp".toList (segments "g".toList [("env".toList, "dev".toList)]
    ["a".toList, "b".toList] kt pk (some 42) ".json".toList) =
      "/tmp/g/env=dev/a/b/date_Y=2021/date_m=01/date_d=09/i_value=-3/42/b.json".toList := by
  decide +kernel

example : ∃ path, resolveAll ("/tmp".toList ++ ("/{graph_name}/{path_tags}/{names}/" ++
    "{partition_key_spec}/" ++ "{input_fingerprint}/{name}{extension}").toList)
      (resolutions kt ".json".toList "g".toList [("env".toList, "dev".toList)]
        ["a".toList, "b".toList] false) = .ok path ∧
      genFile ⟨path, some kt⟩ (some 42) pk = .ok ⟨some 42, pk,
        "/tmp/g/env=dev/a/b/date_Y=2021/date_m=01/date_d=09/i_value=-3/42/b.json".toList⟩ :=
  C59_default_location "/tmp".toList (by decide +kernel) kt ".json".toList "g".toList
    [("env".toList, "dev".toList)] ["a".toList, "b".toList] ok (by decide) (by decide) (some 42) pk conf

end Ex59

end Arti.Props
