import Verif.Spec.Gcs
import Verif.Props.Discovery
import Verif.Lemmas.Layout

/-!
# C64: files in Google Cloud Storage; directories (C21)
-/

namespace Arti.Props
open Arti PyDict Spec Fmt Stg Part

/-! ## Paths above paths of the form of a template -/

theorem fits_seps {T : List Tok} {s : Str} (h : Fits T s) :
    s.count '/' = T.countP (· == .ch '/') := by
  induction h with
  | nil => rfl
  | ch c _ ih =>
    rw [List.count_cons, List.countP_cons, ih]
    by_cases hc : c = '/' <;> simp [hc]
  | fld f t ht _ ih =>
    rw [List.count_append, List.countP_cons, ih, List.count_eq_zero.2 ht]
    simp

/-- C21: nothing above a path of the form of a template has the form of the template. -/
theorem C21_directories_of_partitions_do_not_fit {T : List Tok} {d path : Str} (h : Fits T path)
    (ha : Above d path) : ¬ Fits T d := by
  intro hd
  obtain ⟨r, rfl⟩ := ha
  have h1 := fits_seps h
  have h2 := fits_seps hd
  rw [List.count_append, List.count_cons] at h1
  simp at h1
  omega

theorem snapEntries_eq {β : Type} {hash : β → Fp} {files : PyDict Str β} {dirs : List Str}
    {st : FileStorage} : ∀ {ms : List (Option Fp × PKey)},
    (∀ m ∈ ms, ∀ p, genFile st m.1 m.2 = .ok p → p.path ∉ dirs) →
    snapEntries hash files dirs st ms = snapAll hash files st ms
  | [], _ => rfl
  | (fp, pk) :: ms, h => by
    have ih := snapEntries_eq (hash := hash) (files := files) (dirs := dirs) (st := st) (ms := ms)
      fun m hm => h m (List.mem_cons_of_mem _ hm)
    rw [snapEntries, snapAll, ih]
    cases hg : genFile st fp pk with
    | error e => rfl
    | ok p =>
      have := h (fp, pk) List.mem_cons_self p hg
      simp only [bind, Except.bind, snapEntry, if_neg this]

theorem snapAll_paths {β : Type} {hash : β → Fp} {files : PyDict Str β} {st : FileStorage} :
    ∀ {ms : List (Option Fp × PKey)} {snaps}, snapAll hash files st ms = .ok snaps →
      ∀ m ∈ ms, ∀ p, genFile st m.1 m.2 = .ok p → p.path ∈ snaps.map (·.partition.path)
  | [], _, _ => by simp
  | (fp, pk) :: ms, snaps, h => by
    rw [snapAll] at h
    cases hg : genFile st fp pk with
    | error e => simp [hg, bind, Except.bind] at h
    | ok p =>
      cases hs : snapFile hash files p with
      | error e => simp [hg, hs, bind, Except.bind] at h
      | ok s =>
        cases hr : snapAll hash files st ms with
        | error e => simp [hg, hs, hr, bind, Except.bind] at h
        | ok ss =>
          simp only [hg, hs, hr, bind, Except.bind, Except.ok.injEq] at h
          subst h
          have hp : s.partition = p := by
            unfold snapFile at hs
            split at hs
            · injection hs with hs; rw [← hs]
            · cases hs
          intro m hm q hq
          rcases List.mem_cons.1 hm with rfl | hm
          · rw [hg] at hq
            injection hq with hq
            simp [hp, hq]
          · exact List.mem_cons_of_mem _ (snapAll_paths hr m hm q hq)

/-- C21: where there are directories, none of which has the form of the template, discovery is as
without directories. -/
theorem C21_other_directories_do_not_matter {β : Type} (hash : β → Fp) (files : PyDict Str β)
    (dirs : List Str) (cls : FieldCls) (kt : KeyTypes) (T : List Tok) (hD : Discoverable cls kt T)
    (ifps : InputFps) (hi : FpsOk ifps)
    (hclean : ∀ path ∈ keys files, Fits T path → ∃ fp pk, PartitionAt kt T fp pk path)
    (hdirs : ∀ d ∈ dirs, ¬ Fits T d) :
    discoverTree hash files dirs ⟨print T, some kt⟩ ifps =
      discoverFile hash files ⟨print T, some kt⟩ ifps := by
  have hn : dirs.filter (globMatch true (wild T)) = [] := by
    rw [List.filter_eq_nil_iff]
    exact fun d hd hg => hdirs d hd (fits_of_glob hD.noGlob hg)
  obtain ⟨ms, snaps, h1, h2, h3, h4, -⟩ := parse_and_snap hash files hD hi
    ((keys files).filter (globMatch true (wild T))) (fun p hm => (List.mem_filter.1 hm).1)
    (fun p hm => hclean p (List.mem_filter.1 hm).1
      (fits_of_glob hD.noGlob (List.mem_filter.1 hm).2))
  have hno : ∀ m ∈ ms, ∀ p, genFile ⟨print T, some kt⟩ m.1 m.2 = .ok p → p.path ∉ dirs := by
    intro m hm p hp hd
    have := h3.subset (snapAll_paths h2 m hm p hp)
    exact hdirs _ hd (fits_of_glob hD.noGlob (List.mem_filter.1 this).2)
  simp only [discoverTree, discoverFile, bind, Except.bind, specToWildcard_ok hD,
    parse_print T hD.ok, List.filter_append, hn, List.append_nil, h1, snapEntries_eq hno]

/-- The directories of the files of the example of C21 do not have the form of the template. -/
example : discoverTree (fun n : Nat => (n : Int)) Ex21.files
    ["/d".toList, "/d/i=-3".toList, "/d/i=-3/0x1a".toList, "/d/i=7".toList] ⟨print Ex21.tmpl, some Ex21.kt⟩
    Ex21.ifps = discoverFile (fun n : Nat => (n : Int)) Ex21.files ⟨print Ex21.tmpl, some Ex21.kt⟩
    Ex21.ifps := by
  refine C21_other_directories_do_not_matter _ _ _ _ _ _ Ex21.discoverable _ Ex21.ifpsOk Ex21.clean ?_
  intro d hd hf
  have := fits_seps hf
  simp only [List.mem_cons, List.not_mem_nil, or_false] at hd
  rcases hd with rfl | rfl | rfl | rfl <;> · revert this; decide +kernel

/-- C21: a directory of the form of the template makes discovery fail, although no file has the form
of the template. -/
theorem C21_needs_no_directories_of_its_form : ∃ (T : List Tok) (kt : KeyTypes) (files : PyDict Str Nat)
    (dirs : List Str), Discoverable (.int .int8) kt T ∧
      (∀ path ∈ keys files, ¬ Fits T path) ∧ (∀ d ∈ dirs, ∃ path ∈ keys files, Above d path) ∧
      discoverTree (fun n : Nat => (n : Int)) files dirs ⟨print T, some kt⟩ [] =
        .error .isADirectory := by
  let T : List Tok := [.ch 'd', .ch '/', .fld ⟨"i".toList, [.attr "value".toList], []⟩]
  have hT : T = [.ch 'd', .ch '/', .fld ⟨"i".toList, [.attr "value".toList], []⟩] := rfl
  refine ⟨T, [("i".toList, .int .int8)], [("d/5/notes.txt".toList, 1)], ["d".toList, "d/5".toList],
    ?_, ?_, ?_, by decide +kernel⟩
  · refine ⟨by decide +kernel, by decide +kernel, ?_, ?_, by decide +kernel, ?_, ?_⟩
    · intro c hc
      simp only [hT, List.mem_cons, List.not_mem_nil, or_false, Tok.ch.injEq, reduceCtorEq] at hc
      rcases hc with rfl | rfl <;> decide
    · intro k c h
      simp only [List.mem_cons, List.not_mem_nil, or_false, Prod.mk.injEq] at h
      exact h.2
    · intro f hf
      simp only [hT, List.mem_cons, List.not_mem_nil, or_false, Tok.fld.injEq, reduceCtorEq,
        false_or] at hf
      exact .inr ⟨"i".toList, by decide, _, hf⟩
    · intro k hk
      simp only [keys, List.map_cons, List.map_nil, List.mem_cons, List.not_mem_nil, or_false] at hk
      subst hk
      refine ⟨["value"], by decide +kernel, fun c => ?_⟩
      simp only [mentions, hT]
      simp
      constructor <;> exact Eq.symm
  · intro path hp hf
    simp only [keys, List.map_cons, List.map_nil, List.mem_cons, List.not_mem_nil, or_false] at hp
    subst hp
    have := fits_seps hf
    rw [hT] at this
    revert this
    decide
  · intro d hd
    refine ⟨_, List.mem_cons_self, ?_⟩
    simp only [List.mem_cons, List.not_mem_nil, or_false] at hd
    rcases hd with rfl | rfl
    · exact ⟨"5/notes.txt".toList, by decide +kernel⟩
    · exact ⟨"notes.txt".toList, by decide +kernel⟩

/-! ## Buckets -/

section
variable {b : Str} (hb : PlainBucket b)
include hb

theorem bucket_tmplOk : tmplOk (b.map Tok.ch) = true := by
  simp only [tmplOk, List.all_map, List.all_eq_true]
  intro c hc
  have := hb.chars c hc
  simp only [List.mem_cons, List.not_mem_nil, or_false, not_or] at this
  simp [tokOk, this]

theorem inBucket_tmplOk {T : List Tok} (hT : tmplOk T = true) : tmplOk (inBucket b T) = true := by
  have h1 := bucket_tmplOk hb
  simp only [tmplOk, inBucket, List.all_append, List.all_cons, Bool.and_eq_true] at *
  exact ⟨h1, by decide, hT⟩

omit hb in
theorem print_bucket : print (b.map Tok.ch) = b := by
  simp only [print, List.map_map]
  induction b with
  | nil => rfl
  | cons c b ih => simpa [printTok] using ih

omit hb in
theorem print_inBucket (T : List Tok) : print (inBucket b T) = b ++ '/' :: print T := by
  have := print_bucket (b := b)
  simp only [print] at this
  simp only [print, inBucket, List.map_append, List.flatten_append, this]
  simp [sepTok, printTok]

omit hb in
theorem mem_inBucket {T : List Tok} {f : Fld} : .fld f ∈ inBucket b T ↔ .fld f ∈ T := by
  simp [inBucket, sepTok]

theorem discoverable_inBucket {cls : FieldCls} {kt : KeyTypes} {T : List Tok}
    (hD : Discoverable cls kt T) : Discoverable cls kt (inBucket b T) := by
  refine ⟨inBucket_tmplOk hb hD.ok, ?_, ?_, hD.oneClass, hD.noIfp, ?_, ?_⟩
  · have h : ∀ b : Str, delimited (b.map Tok.ch ++ sepTok :: T) = true := by
      intro b
      induction b with
      | nil => simpa [sepTok, delimited] using hD.delimited
      | cons c b ih => simpa [delimited] using ih
    exact h b
  · intro c hc
    simp only [inBucket, List.mem_append, List.mem_map, Tok.ch.injEq, exists_eq_right, List.mem_cons,
      sepTok] at hc
    rcases hc with hc | rfl | hc
    · have := hb.chars c hc
      simp_all
    · decide
    · exact hD.noGlob c hc
  · exact fun f hf => hD.fields f (mem_inBucket.1 hf)
  · intro k hk
    obtain ⟨names, h1, h2⟩ := hD.identified k hk
    refine ⟨names, h1, fun c => ?_⟩
    rw [← h2]
    have : mentions (inBucket b T) k c = mentions T k c := by
      simp only [mentions, inBucket, List.any_append, List.any_cons, sepTok, List.any_map]
      have : (b.any ((fun x => match x with
          | .ch _ => false
          | .fld f => f.first == k &&
              f.accs.filter (fun | .attr _ => true | .idx _ => false) == [.attr c]) ∘ Tok.ch)) = false := by
        rw [List.any_eq_false]; intro x _; simp
      simp [this]
    rw [this]

omit hb in
theorem render_chars (get : Fld → Except Err Str) (b : Str) : render get (b.map Tok.ch) = .ok b := by
  induction b with
  | nil => rfl
  | cons c b ih => simp [render, ih, Except.map]

omit hb in
theorem strip_bucket (T : List Tok) :
    (inBucket b T).map stripTok = inBucket b (T.map stripTok) := by
  simp [inBucket, sepTok, stripTok, Function.comp_def]

omit hb in
theorem render_inBucket {get : Fld → Except Err Str} {T : List Tok} {s : Str} :
    render get (inBucket b T) = .ok s ↔ ∃ p, render get T = .ok p ∧ s = b ++ '/' :: p := by
  have h : ∀ (b s : Str), render get (b.map Tok.ch ++ sepTok :: T) = .ok s ↔
      ∃ p, render get T = .ok p ∧ s = b ++ '/' :: p := by
    intro b
    induction b with
    | nil =>
      intro s
      simp only [List.map_nil, List.nil_append, sepTok, render]
      cases render get T <;> simp [Except.map, eq_comm]
    | cons c b ih =>
      intro s
      simp only [List.map_cons, List.cons_append, render]
      constructor
      · intro h
        cases hr : render get (b.map Tok.ch ++ sepTok :: T) with
        | error e => simp [hr, Except.map] at h
        | ok s' =>
          obtain ⟨p, h1, h2⟩ := (ih s').1 hr
          simp only [hr, Except.map, Except.ok.injEq] at h
          exact ⟨p, h1, by rw [← h, h2]⟩
      · rintro ⟨p, h1, h2⟩
        rw [(ih (b ++ '/' :: p)).2 ⟨p, h1, rfl⟩, h2]
        rfl
  exact h b s

/-- The partition in the bucket is the one of the path, and the one of the qualified path. -/
theorem genGcs_eq {T : List Tok} (hT : tmplOk T = true) (kt : KeyTypes) (fp : Option Fp) (pk : PKey) :
    genGcs ⟨b, print T, some kt⟩ fp pk =
      (genFile ⟨print T, some kt⟩ fp pk).map fun p => ⟨fp, pk, b, p.path⟩ := by
  have hib : isInfix ifpTmpl b = false := by
    have := isInfix_ifp (bucket_tmplOk hb)
    rw [print_bucket] at this
    rw [Bool.eq_false_iff]
    intro h
    have := this.1 h
    simp at this
  have hk : genKwargs (some kt) [b, print T] fp pk = genKwargs (some kt) [print T] fp pk := by
    simp [genKwargs, hib]
  unfold genGcs genFile
  simp only [bind, Except.bind, hk]
  cases h : genKwargs (some kt) [print T] fp pk with
  | error e => rfl
  | ok kw =>
    obtain ⟨-, -, h3⟩ := genKwargs_ok h
    have h1 : genField kw b = .ok b := by
      have := genField_print h3 (bucket_tmplOk hb)
      rw [print_bucket] at this
      rw [this]
      have h2 : (b.map Tok.ch).map stripTok = b.map Tok.ch := by simp [stripTok, Function.comp_def]
      rw [h2, render_chars]
    simp only [h1]
    cases genField kw (print T) <;> rfl

theorem gcsPartitionAt_iff {kt : KeyTypes} {T : List Tok} (hT : tmplOk T = true) {fp : Option Fp}
    {pk : PKey} {path : Str} : GcsPartitionAt kt b T fp pk path ↔
      PartitionAt kt (inBucket b T) fp pk (b ++ '/' :: path) := by
  have key : genGcs ⟨b, print T, some kt⟩ fp pk = .ok ⟨fp, pk, b, path⟩ ↔
      genFile ⟨print (inBucket b T), some kt⟩ fp pk = .ok ⟨fp, pk, b ++ '/' :: path⟩ := by
    rw [genGcs_eq hb hT]
    constructor
    · intro h
      cases hg : genFile ⟨print T, some kt⟩ fp pk with
      | error e => simp [hg, Except.map] at h
      | ok p =>
        simp only [hg, Except.map, Except.ok.injEq, GcsPartition.mk.injEq, true_and] at h
        obtain ⟨-, -, h1, h2, h3⟩ := genFile_ok hT hg
        refine genFile_of (inBucket_tmplOk hb hT) h1 (by rw [h2, mem_inBucket]) ?_
        rw [strip_bucket, render_inBucket]
        exact ⟨p.path, h3, by rw [h]⟩
    · intro h
      obtain ⟨-, -, h1, h2, h3⟩ := genFile_ok (inBucket_tmplOk hb hT) h
      rw [strip_bucket, render_inBucket] at h3
      obtain ⟨p, h3, h4⟩ := h3
      simp only [List.append_cancel_left_eq, List.cons.injEq, true_and] at h4
      rw [genFile_of hT h1 (by rw [h2, mem_inBucket]) h3, h4]
      rfl
  exact ⟨fun h => ⟨h.conforms, h.range, key.1 h.path⟩, fun h => ⟨h.conforms, h.range, key.2 h.path⟩⟩

/-! ## Discovery -/

omit hb in
theorem mem_parents {d : Str} : ∀ {s pre : Str}, d ∈ parents pre s ↔
    ∃ a r, s = a ++ '/' :: r ∧ d = pre ++ a
  | [], pre => by simp [parents]
  | c :: s, pre => by
    have ih := mem_parents (d := d) (s := s) (pre := pre ++ [c])
    have hsep : (sep : Char) = '/' := rfl
    have hcons : (∃ a r, c :: s = a ++ '/' :: r ∧ d = pre ++ a) ↔
        (c = '/' ∧ d = pre) ∨ ∃ a r, s = a ++ '/' :: r ∧ d = pre ++ [c] ++ a := by
      constructor
      · rintro ⟨a, r, h1, h2⟩
        cases a with
        | nil =>
          simp only [List.nil_append, List.cons.injEq] at h1
          exact .inl ⟨h1.1, by simpa using h2⟩
        | cons x a =>
          simp only [List.cons_append, List.cons.injEq] at h1
          exact .inr ⟨a, r, h1.2, by rw [h2, h1.1]; simp⟩
      · rintro (⟨h1, h2⟩ | ⟨a, r, h1, h2⟩)
        · exact ⟨[], s, by simp [h1], by simp [h2]⟩
        · exact ⟨c :: a, r, by simp [h1], by rw [h2]; simp⟩
    rw [parents, hcons, ← ih]
    by_cases hc : c = sep
    · simp [hc, hsep]
    · simp only [if_neg hc]
      simp only [hsep] at hc
      simp [hc]

omit hb in
theorem mem_gcsDirs {objects : PyDict Str GcsInfo} {d : Str} :
    d ∈ gcsDirs objects ↔ ∃ path ∈ keys objects, Above d path := by
  simp only [gcsDirs, List.mem_flatMap, mem_parents, List.nil_append, Above]
  constructor
  · rintro ⟨p, hp, a, r, h1, rfl⟩
    exact ⟨p, hp, r, h1⟩
  · rintro ⟨p, hp, r, h1⟩
    exact ⟨p, hp, d, r, h1, rfl⟩

omit hb in
theorem gcsMatch_ch {p c : Char} (hp : p ≠ '*') (b : Bool) (ps cs : Str) :
    gcsMatch b (p :: ps) (c :: cs) = (p == c && gcsMatch (p == sep) ps cs) := by
  rw [gcsMatch.eq_4]
  exact hp

omit hb in
theorem gcsMatch_ch_nil {p : Char} (hp : p ≠ '*') (b : Bool) (ps : Str) :
    gcsMatch b (p :: ps) [] = false := by
  rw [gcsMatch.eq_3]
  exact hp

omit hb in
theorem fits_of_gcsMatch {T : List Tok} (hg : ∀ c, .ch c ∈ T → c ∉ ['*', '?', '[']) {b : Bool}
    {s : Str} (h : gcsMatch b (wild T) s = true) : Fits T s := by
  induction T generalizing b s with
  | nil =>
    cases s with
    | nil => exact .nil
    | cons c s => simp [wild, gcsMatch] at h
  | cons x T ih =>
    have hg' : ∀ c, .ch c ∈ T → c ∉ ['*', '?', '['] := fun c hc => hg c (List.mem_cons_of_mem _ hc)
    cases x with
    | ch c =>
      have hc : c ≠ '*' := by
        have := hg c List.mem_cons_self
        simp only [List.mem_cons, not_or] at this
        exact this.1
      have hw : wild (.ch c :: T) = c :: wild T := rfl
      rw [hw] at h
      cases s with
      | nil => rw [gcsMatch_ch_nil hc] at h; cases h
      | cons d s =>
        rw [gcsMatch_ch hc, Bool.and_eq_true, beq_iff_eq] at h
        rw [← h.1]
        exact .ch c (ih hg' h.2)
    | fld f =>
      have hw : wild (.fld f :: T) = '*' :: wild T := rfl
      rw [hw, gcsMatch.eq_2, Bool.and_eq_true] at h
      obtain ⟨t, r, rfl, ht, hr⟩ := starMatch_split h.2
      exact .fld f t ht (ih hg' hr)

omit hb in
theorem gcsMatch_of_render {T : List Tok} (hg : ∀ c, .ch c ∈ T → c ∉ ['*', '?', '['])
    {get : Fld → Except Err Str}
    (hc : ∀ f t, get f = .ok t → t ≠ [] ∧ ∀ c ∈ t, c ∈ componentChars) {b : Bool} {s : Str}
    (h : render get T = .ok s) : gcsMatch b (wild T) s = true := by
  induction T generalizing b s with
  | nil =>
    simp only [render, Except.ok.injEq] at h
    subst h
    rfl
  | cons x T ih =>
    have hg' : ∀ c, .ch c ∈ T → c ∉ ['*', '?', '['] := fun c hc => hg c (List.mem_cons_of_mem _ hc)
    cases x with
    | ch c =>
      have hcs : c ≠ '*' := by
        have := hg c List.mem_cons_self
        simp only [List.mem_cons, not_or] at this
        exact this.1
      have hw : wild (.ch c :: T) = c :: wild T := rfl
      simp only [render] at h
      cases hr : render get T with
      | error e => simp [hr, Except.map] at h
      | ok r =>
        simp only [hr, Except.map, Except.ok.injEq] at h
        subst h
        rw [hw, gcsMatch_ch hcs]
        simp [ih hg' hr]
    | fld f =>
      have hw : wild (.fld f :: T) = '*' :: wild T := rfl
      simp only [render] at h
      split at h
      · cases h
      · cases hf : get f with
        | error e => simp [hf] at h
        | ok t =>
          cases hr : render get T with
          | error e => simp [hf, hr, Except.map] at h
          | ok r =>
            simp only [hf, hr, Except.map, Except.ok.injEq] at h
            subst h
            obtain ⟨hne, hch⟩ := hc f t hf
            have hsep : sep ∉ t := fun hm => sep_not_component (hch _ hm)
            rw [hw, gcsMatch.eq_2, starMatch_of hsep (ih hg' hr), Bool.and_true]
            cases t with
            | nil => exact absurd rfl hne
            | cons c t =>
              have : c ≠ sep := fun he => hsep (by simp [he])
              simp [this]

omit hb in
theorem wild_no_double {T : List Tok} (hd : delimited T = true)
    (hg : ∀ c, .ch c ∈ T → c ∉ ['*', '?', '[']) : isInfix ['*', '*'] (wild T) = false := by
  induction T with
  | nil => rfl
  | cons x T ih =>
    have hg' : ∀ c, .ch c ∈ T → c ∉ ['*', '?', '['] := fun c hc => hg c (List.mem_cons_of_mem _ hc)
    cases x with
    | ch c =>
      have hcs : c ≠ '*' := by
        have := hg c List.mem_cons_self
        simp only [List.mem_cons, not_or] at this
        exact this.1
      have hw : wild (.ch c :: T) = c :: wild T := rfl
      have := ih (by simpa [delimited] using hd) hg'
      rw [hw]
      simp [isInfix, this, hcs.symm, dropPrefix?]
    | fld f =>
      have hw : wild (.fld f :: T) = '*' :: wild T := rfl
      have hd2 : delimited T = true := by
        rw [delimited.eq_def] at hd
        simp only [Bool.and_eq_true] at hd
        exact hd.2
      have := ih hd2 hg'
      rw [hw]
      cases T with
      | nil => decide
      | cons y T =>
        cases y with
        | fld g => rw [delimited.eq_def] at hd; simp at hd
        | ch c =>
          have hcs : c ≠ '*' := by
            have := hg' c List.mem_cons_self
            simp only [List.mem_cons, not_or] at this
            exact this.1
          have hw : wild (.ch c :: T) = c :: wild T := rfl
          rw [hw] at this ⊢
          simp [isInfix, dropPrefix?, hcs.symm] at this ⊢
          exact this

theorem snapAllGcs_of {T : List Tok} (hT : tmplOk T = true) {kt : KeyTypes} {hash : Str → Fp}
    {objects : PyDict Str GcsInfo} : ∀ {ms : List (Option Fp × PKey)} {snaps},
    snapAll (fun i : GcsInfo => hash (i.md5.getD i.crc32c)) objects
      ⟨print (inBucket b T), some kt⟩ ms = .ok snaps →
    ∃ gs, snapAllGcs hash objects ⟨b, print T, some kt⟩ ms = .ok gs ∧
      gs.map (fun s => (⟨s.contentFp, ⟨s.partition.inputFp, s.partition.key, s.partition.qualified⟩⟩ :
        Snap FilePartition)) = snaps ∧ ∀ s ∈ gs, s.partition.bucket = b
  | [], snaps, h => by
    simp only [snapAll, Except.ok.injEq] at h
    subst h
    exact ⟨[], rfl, rfl, by simp⟩
  | (fp, pk) :: ms, snaps, h => by
    rw [snapAll] at h
    cases hg : genFile ⟨print (inBucket b T), some kt⟩ fp pk with
    | error e => simp [hg, bind, Except.bind] at h
    | ok p =>
      cases hs : snapFile (fun i : GcsInfo => hash (i.md5.getD i.crc32c)) objects p with
      | error e => simp [hg, hs, bind, Except.bind] at h
      | ok s =>
        cases hr : snapAll (fun i : GcsInfo => hash (i.md5.getD i.crc32c)) objects
            ⟨print (inBucket b T), some kt⟩ ms with
        | error e => simp [hg, hs, hr, bind, Except.bind] at h
        | ok ss =>
          simp only [hg, hs, hr, bind, Except.bind, Except.ok.injEq] at h
          obtain ⟨gs, h1, h2, h3⟩ := snapAllGcs_of hT hr
          obtain ⟨f1, f2, g1, g2, g3⟩ := genFile_ok (inBucket_tmplOk hb hT) hg
          rw [strip_bucket, render_inBucket] at g3
          obtain ⟨q, g3, g4⟩ := g3
          have hgen : genGcs ⟨b, print T, some kt⟩ fp pk = .ok ⟨fp, pk, b, q⟩ := by
            rw [genGcs_eq hb hT, genFile_of hT g1 (by rw [g2, mem_inBucket]) g3]
            rfl
          have hp : p = ⟨fp, pk, b ++ '/' :: q⟩ := by
            cases p; simp_all
          subst hp
          unfold snapFile at hs
          cases ho : get? objects (b ++ '/' :: q) with
          | none => simp [ho] at hs
          | some i =>
            simp only [ho, Except.ok.injEq] at hs
            subst hs
            refine ⟨⟨hash (i.md5.getD i.crc32c), ⟨fp, pk, b, q⟩⟩ :: gs, ?_, ?_, ?_⟩
            · have hq : (⟨fp, pk, b, q⟩ : GcsPartition).qualified = b ++ '/' :: q := rfl
              simp only [snapAllGcs, hgen, bind, Except.bind, snapGcs, hq, ho, h1]
            · rw [← h, List.map_cons, h2]
              rfl
            · intro s hs
              rcases List.mem_cons.1 hs with rfl | hs
              · rfl
              · exact h3 s hs

/-- C64: if every object of the form of the template is the object of a partition, and no object is
below a path of that form, then discovery finds exactly the existing partitions that are wanted: it
does not raise, everything that it returns is at the bucket and path that its key and fingerprint
generate and has the fingerprint of the checksum, every existing wanted partition is returned with an
equal key, and nothing is returned twice. -/
theorem C64_discovers_what_was_written_partial (hash : Str → Fp) (objects : PyDict Str GcsInfo)
    (ho : (keys objects).Nodup) (cls : FieldCls) (kt : KeyTypes) (T : List Tok)
    (hD : Discoverable cls kt T) (ifps : InputFps) (hi : FpsOk ifps)
    (hclean : ∀ path, b ++ '/' :: path ∈ keys objects → Fits T path →
      ∃ fp pk, GcsPartitionAt kt b T fp pk path)
    (hdirs : ∀ path ∈ keys objects, ∀ d, Above (b ++ '/' :: d) path → ¬ Fits T d) :
    ∃ snaps, discoverGcs hash objects ⟨b, print T, some kt⟩ ifps = .ok snaps ∧
      (snaps.map (·.partition.path)).Nodup ∧
      (∀ s ∈ snaps, s.partition.bucket = b ∧
        GcsPartitionAt kt b T s.partition.inputFp s.partition.key s.partition.path ∧
        FpWanted ifps s.partition.key s.partition.inputFp ∧
        ∃ info c, get? objects (b ++ '/' :: s.partition.path) = some info ∧ Checksum info c ∧
          s.contentFp = hash c) ∧
      (∀ fp pk path, GcsPartitionAt kt b T fp pk path → b ++ '/' :: path ∈ keys objects →
        FpWanted ifps pk fp →
        ∃ s ∈ snaps, s.partition.path = path ∧ s.partition.inputFp = fp ∧
          fdEq s.partition.key pk = true) := by
  have hDb := discoverable_inBucket hb hD
  have hfits : ∀ {p : Str}, Fits (inBucket b T) p → ∃ q, p = b ++ '/' :: q ∧ Fits T q := by
    have h : ∀ (b p : Str), Fits (b.map Tok.ch ++ sepTok :: T) p → ∃ q, p = b ++ '/' :: q ∧ Fits T q := by
      intro b
      induction b with
      | nil =>
        intro p hp
        simp only [List.map_nil, List.nil_append, sepTok] at hp
        cases hp with
        | ch _ hp => exact ⟨_, rfl, hp⟩
      | cons c b ih =>
        intro p hp
        simp only [List.map_cons, List.cons_append] at hp
        cases hp with
        | ch _ hp =>
          obtain ⟨q, rfl, hq⟩ := ih _ hp
          exact ⟨q, rfl, hq⟩
    exact fun {p} hp => h b p hp
  let W := wild (inBucket b T)
  let paths := (keys objects ++ ((gcsDirs objects).filter fun d => d ∉ keys objects).eraseDups).filter
    (gcsMatch true W)
  have hpaths : paths = (keys objects).filter (gcsMatch true W) := by
    simp only [paths, List.filter_append]
    have : List.filter (gcsMatch true W)
        ((gcsDirs objects).filter fun d => d ∉ keys objects).eraseDups = [] := by
      rw [List.filter_eq_nil_iff]
      intro d hd hg
      rw [List.mem_eraseDups, List.mem_filter, mem_gcsDirs] at hd
      obtain ⟨⟨path, hp, ha⟩, -⟩ := hd
      obtain ⟨q, rfl, hq⟩ := hfits (fits_of_gcsMatch hDb.noGlob hg)
      exact hdirs path hp q ha hq
    rw [this, List.append_nil]
  obtain ⟨ms, snaps, h1, h2, h3, h4, h5⟩ := parse_and_snap
    (fun i : GcsInfo => hash (i.md5.getD i.crc32c)) objects hDb hi
    ((keys objects).filter (gcsMatch true W)) (fun p hm => (List.mem_filter.1 hm).1)
    (fun p hm => by
      obtain ⟨q, rfl, hq⟩ := hfits (fits_of_gcsMatch hDb.noGlob (List.mem_filter.1 hm).2)
      obtain ⟨fp, pk, h⟩ := hclean q (List.mem_filter.1 hm).1 hq
      exact ⟨fp, pk, (gcsPartitionAt_iff hb hD.ok).1 h⟩)
  obtain ⟨gs, g1, g2, g3⟩ := snapAllGcs_of hb hD.ok h2
  have hglob : gcsGlob W objects = .ok paths := by
    have hw1 : ('*' ∈ W.takeWhile (· ≠ sep)) = False := by
      have hW : W = b ++ '/' :: wild T := by
        have h : ∀ b : Str, wild (b.map Tok.ch ++ sepTok :: T) = b ++ '/' :: wild T := by
          intro b
          induction b with
          | nil => rfl
          | cons c b ih => simp only [List.map_cons, List.cons_append, wild, ih]
        exact h b
      rw [hW]
      have : (b ++ '/' :: wild T).takeWhile (· ≠ sep) = b := by
        apply takeWhile_stop
        · intro x hx
          have := hb.chars x hx
          simp only [List.mem_cons, not_or] at this
          exact decide_eq_true this.1
        · simp [sep]
      rw [this, eq_iff_iff, iff_false]
      intro hm
      exact absurd (hb.chars _ hm) (by simp)
    simp only [gcsGlob, hw1, decide_false, Bool.false_or]
    rw [wild_no_double hDb.delimited hDb.noGlob]
    rfl
  have hmap : snaps.map (·.partition.path) = (gs.map (·.partition.path)).map (b ++ '/' :: ·) := by
    rw [← g2]
    simp only [List.map_map]
    refine List.map_congr_left fun s hs => ?_
    show s.partition.qualified = _
    simp [GcsPartition.qualified, g3 s hs, sep]
  refine ⟨gs, ?_, ?_, ?_, ?_⟩
  · have hspec : b ++ sep :: print T = print (inBucket b T) := (print_inBucket T).symm
    simp only [discoverGcs, bind, Except.bind, hspec, specToWildcard_ok hDb, parse_print _ hDb.ok]
    rw [show wild (inBucket b T) = W from rfl, hglob]
    simp only [hpaths, h1, g1]
  · have := (ho.filter _).sublist h3
    rw [hmap] at this
    exact List.Nodup.of_map _ this
  · intro s hs
    have hm : (⟨s.contentFp, ⟨s.partition.inputFp, s.partition.key, s.partition.qualified⟩⟩ :
        Snap FilePartition) ∈ snaps := by
      rw [← g2]; exact List.mem_map.2 ⟨s, hs, rfl⟩
    obtain ⟨a1, a2, info, a3, a4⟩ := h4 _ hm
    have hq : s.partition.qualified = b ++ '/' :: s.partition.path := by
      simp [GcsPartition.qualified, g3 s hs, sep]
    simp only [hq] at a1 a3 a4
    refine ⟨g3 s hs, (gcsPartitionAt_iff hb hD.ok).2 a1, a2, info, _, a3, ?_, a4⟩
    cases hmd : info.md5 with
    | none => exact .inr ⟨hmd, rfl⟩
    | some c => exact .inl hmd
  · intro fp pk path hp hm hw
    have hp' := (gcsPartitionAt_iff hb hD.ok).1 hp
    obtain ⟨s, hs, e1, e2, e3⟩ := h5 fp pk _ hp' (List.mem_filter.2 ⟨hm, by
      obtain ⟨-, -, -, -, hr⟩ := genFile_ok hDb.ok hp'.path
      rw [disc_strip hDb] at hr
      exact gcsMatch_of_render hDb.noGlob (fun f t h => fieldText_chars h) hr⟩) hw
    rw [← g2] at hs
    obtain ⟨g, hg, rfl⟩ := List.mem_map.1 hs
    refine ⟨g, hg, ?_, e2, e3⟩
    simp only [GcsPartition.qualified, g3 g hg, sep] at e1
    simpa using e1

/-- C64: a partition is in the storage's bucket, at the path that a `LocalFile` of the same template has
for it; and it exists exactly if that of the `LocalFile` does. -/
theorem C64_location {T : List Tok} (hT : tmplOk T = true) (kt : KeyTypes) (fp : Option Fp) (pk : PKey)
    (p : GcsPartition) : genGcs ⟨b, print T, some kt⟩ fp pk = .ok p ↔
      p.bucket = b ∧ genFile ⟨print T, some kt⟩ fp pk = .ok ⟨p.inputFp, p.key, p.path⟩ := by
  rw [genGcs_eq hb hT]
  cases hg : genFile ⟨print T, some kt⟩ fp pk with
  | error e => simp [Except.map]
  | ok q =>
    obtain ⟨h1, h2, -⟩ := genFile_ok hT hg
    obtain ⟨a1, a2, a3⟩ := q
    obtain ⟨b1, b2, b3, b4⟩ := p
    simp only at h1 h2
    subst h1 h2
    simp only [Except.map, Except.ok.injEq, GcsPartition.mk.injEq, FilePartition.mk.injEq]
    constructor
    · rintro ⟨rfl, rfl, rfl, rfl⟩; exact ⟨rfl, rfl, rfl, rfl⟩
    · rintro ⟨rfl, rfl, rfl, rfl⟩; exact ⟨rfl, rfl, rfl, rfl⟩

/-- C64: two partitions of a storage at the same place have the same key and the same input
fingerprint. -/
theorem C64_distinct_partitions_have_distinct_paths {T : List Tok} (hT : tmplOk T = true)
    (hd : delimited T = true) (kt : KeyTypes) (hid : Identified kt T)
    (fp fp' : Option Fp) (pk pk' : PKey) (hc : Conforms kt pk) (hc' : Conforms kt pk')
    (p p' : GcsPartition) (h : genGcs ⟨b, print T, some kt⟩ fp pk = .ok p)
    (h' : genGcs ⟨b, print T, some kt⟩ fp' pk' = .ok p') (hpath : p.qualified = p'.qualified) :
    fdEq pk pk' = true ∧ fp = fp' := by
  rw [C64_location hb hT] at h h'
  refine C20_distinct_partitions_have_distinct_paths T hT hd kt hid fp fp' pk pk' hc hc' _ _ h.2 h'.2 ?_
  simp only [GcsPartition.qualified, h.1, h'.1, List.append_cancel_left_eq, List.cons.injEq,
    true_and] at hpath
  exact hpath

end

namespace Ex64

theorem bucket : PlainBucket "data".toList := ⟨by decide, by decide⟩

/-- Two partitions and other objects. -/
def objects : PyDict Str GcsInfo :=
  [("data//d/i=-3/0x1a/5.json".toList, ⟨some "abc".toList, "x".toList⟩),
   ("other//d/i=-3/0x1a/5.json".toList, ⟨none, "y".toList⟩),
   ("data//d/i=7/0x0/-9.json".toList, ⟨none, "def".toList⟩)]

theorem at1 : GcsPartitionAt Ex21.kt "data".toList Ex21.tmpl (some 5) Ex21.pk1
    "/d/i=-3/0x1a/5.json".toList :=
  ⟨Ex21.partition1.conforms, Ex21.partition1.range,
    (C64_location bucket Ex21.discoverable.ok _ _ _ _).2 ⟨rfl, Ex21.partition1.path⟩⟩

theorem at2 : GcsPartitionAt Ex21.kt "data".toList Ex21.tmpl (some (-9)) Ex21.pk2
    "/d/i=7/0x0/-9.json".toList :=
  ⟨Ex21.partition2.conforms, Ex21.partition2.range,
    (C64_location bucket Ex21.discoverable.ok _ _ _ _).2 ⟨rfl, Ex21.partition2.path⟩⟩

theorem dataPaths {path : Str} (h : "data".toList ++ '/' :: path ∈ keys objects) :
    path = "/d/i=-3/0x1a/5.json".toList ∨ path = "/d/i=7/0x0/-9.json".toList := by
  simp only [objects, keys, List.map_cons, List.map_nil, List.mem_cons, List.not_mem_nil, or_false,
    String.reduceToList, List.cons_append, List.nil_append, List.cons.injEq, Char.reduceEq, true_and,
    false_and, false_or] at h ⊢
  exact h

example : ∃ snaps, discoverGcs (fun s => (s.length : Int)) objects
    ⟨"data".toList, print Ex21.tmpl, some Ex21.kt⟩ Ex21.ifps = .ok snaps ∧
    ∃ s ∈ snaps, s.partition.path = "/d/i=-3/0x1a/5.json".toList ∧ s.partition.inputFp = some 5 := by
  obtain ⟨snaps, h, -, -, hc⟩ := C64_discovers_what_was_written_partial bucket
    (fun s => (s.length : Int)) objects (by decide +kernel) _ Ex21.kt Ex21.tmpl Ex21.discoverable
    Ex21.ifps Ex21.ifpsOk
    (fun path hp _ => by
      rcases dataPaths hp with rfl | rfl
      · exact ⟨_, _, at1⟩
      · exact ⟨_, _, at2⟩)
    (by
      rintro path hp d ⟨r, rfl⟩ hf
      have h := dataPaths (path := d ++ '/' :: r) (by simpa using hp)
      have h1 := fits_seps hf
      have h2 : (d ++ '/' :: r).count '/' = 4 := by rcases h with h | h <;> rw [h] <;> decide
      have h3 : Ex21.tmpl.countP (· == .ch '/') = 4 := by decide +kernel
      rw [List.count_append, List.count_cons] at h2
      simp at h2
      omega)
  obtain ⟨s, hs, h1, h2, -⟩ := hc _ _ _ at1 (by decide +kernel)
    ⟨(Ex21.pk1, some 5), .head _, by decide +kernel, rfl⟩
  exact ⟨snaps, h, s, hs, h1, h2⟩

/-- `{i.value}`. -/
def short : List Tok := [.fld ⟨"i".toList, [.attr "value".toList], []⟩]
def shortKt : KeyTypes := [("i".toList, .int .int8)]

theorem short_discoverable : Discoverable (.int .int8) shortKt short := by
  refine ⟨by decide +kernel, by decide +kernel, ?_, ?_, by decide +kernel, ?_, ?_⟩
  · intro c hc
    simp [short] at hc
  · intro k c h
    simp only [shortKt, List.mem_cons, List.not_mem_nil, or_false, Prod.mk.injEq] at h
    exact h.2
  · intro f hf
    simp only [short, List.mem_cons, List.not_mem_nil, or_false, Tok.fld.injEq] at hf
    exact .inr ⟨"i".toList, by decide, _, hf⟩
  · intro k hk
    simp only [shortKt, keys, List.map_cons, List.map_nil, List.mem_cons, List.not_mem_nil,
      or_false] at hk
    subst hk
    refine ⟨["value"], by decide +kernel, fun c => ?_⟩
    simp only [mentions, short]
    simp
    constructor <;> exact Eq.symm

end Ex64

/-- C64: an object below a path of the form of the template makes discovery fail, although all objects
of that form belong to partitions. -/
theorem C64_violated_by_objects_below : ∃ (T : List Tok) (kt : KeyTypes) (b : Str)
    (objects : PyDict Str GcsInfo), PlainBucket b ∧ Discoverable (.int .int8) kt T ∧
      (∀ path, b ++ '/' :: path ∈ keys objects → Fits T path →
        ∃ fp pk, GcsPartitionAt kt b T fp pk path) ∧
      discoverGcs (fun s => (s.length : Int)) objects ⟨b, print T, some kt⟩ [] = .error .keyError := by
  refine ⟨Ex64.short, Ex64.shortKt, "data".toList, [("data/5/notes.txt".toList, ⟨none, []⟩)],
    Ex64.bucket, Ex64.short_discoverable, ?_, by decide +kernel⟩
  intro path hp hf
  have : path = "5/notes.txt".toList := by
    simp only [keys, List.map_cons, List.map_nil, List.mem_cons, List.not_mem_nil, or_false,
      String.reduceToList, List.cons_append, List.nil_append, List.cons.injEq, true_and] at hp
    simpa using hp
  subst this
  exact absurd (fits_seps hf) (by decide +kernel)

/-- C64: with the default path, the dot of the format's extension comes after another one, and where the
format has no extension a dot is left at the end. -/
theorem C64_violated_by_default_path :
    resolveField (formatValues ".json".toList) gcsDefaultPath =
      .ok "{graph_name}/{path_tags}/{names}/{partition_key_spec}/{input_fingerprint}/{name}..json".toList ∧
    resolveField (formatValues []) gcsDefaultPath =
      .ok "{graph_name}/{path_tags}/{names}/{partition_key_spec}/{input_fingerprint}/{name}.".toList := by
  decide +kernel

end Arti.Props
