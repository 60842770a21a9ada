import Verif.Lemmas.Resolve
import Verif.Lemmas.Digits

/-!
# Formatting (C18) and resolving (C19) storage templates
-/

namespace Arti.Props
open Arti PyDict Spec Fmt Stg

/-! ## C18 -/

/-- `partial_format` puts in the given values and leaves every other placeholder as it is
written. -/
theorem C18_partial_format_partial (values : PyDict Str Str) (T : List Tok)
    (hT : tmplOk T = true) (hp : plainIn (keys values) T = true) :
    partialFormat values (print T) = .ok (fillText values T) :=
  partialFormat_print values T hT hp

example : partialFormat [("names".toList, "a/b".toList)]
    "x/{names}/{date.m[5]:02}/{input_fingerprint}".toList =
    .ok "x/a/b/{date.m[5]:02}/{input_fingerprint}".toList :=
  C18_partial_format_partial _
    ("x/".toList.map .ch ++ [.fld (plain "names".toList), .ch '/',
      .fld ⟨"date".toList, [.attr "m".toList, .idx "5".toList], "02".toList⟩, .ch '/',
      .fld (plain "input_fingerprint".toList)]) (by decide +kernel) (by decide +kernel)

theorem fillText_ch (values : PyDict Str Str) (c : Char) (T : List Tok) :
    fillText values (.ch c :: T) = c :: fillText values T := rfl

theorem fillText_fld (values : PyDict Str Str) (f : Fld) (T : List Tok) :
    fillText values (.fld f :: T) =
      (get? values f.first).getD (printFld f) ++ fillText values T := rfl

theorem fillText_append (values : PyDict Str Str) (A B : List Tok) :
    fillText values (A ++ B) = fillText values A ++ fillText values B := by
  simp [fillText]

theorem fillText_avoids {values : PyDict Str Str} {T : List Tok}
    (h : avoids (keys values) T = true) : fillText values T = print T := by
  induction T with
  | nil => rfl
  | cons x T ih =>
    simp only [avoids, List.all_cons, Bool.and_eq_true] at h
    have ih := ih h.2
    rw [print_cons, ← ih]
    cases x with
    | ch c => rw [fillText_ch]; rfl
    | fld f =>
      have : f.first ∉ keys values := by simpa using h.1
      rw [fillText_fld, (get?_eq_none_iff _ _).2 this]
      rfl

/-- Formatting twice is formatting once with the values of both, if the values that are put in
first do not mention the names of the second. -/
theorem C18_formatting_twice_partial (first : PyDict Str (List Tok)) (second : PyDict Str Str)
    (T : List Tok) (hT : tmplOk T = true)
    (hp : plainIn (keys first ++ keys second) T = true)
    (hv : ∀ p ∈ first, tmplOk p.2 = true ∧ avoids (keys second) p.2 = true) :
    (partialFormat (texts first) (print T) >>= partialFormat second) =
      partialFormat (texts first ++ second) (print T) := by
  have hp1 : plainIn (keys (texts first)) T = true ∧ plainIn (keys second) T = true ∧
      plainIn (keys (texts first ++ second)) T = true := by
    have hk : keys (texts first ++ second) = keys first ++ keys second := by
      rw [← keys_texts first]; simp [keys]
    rw [keys_texts, hk]
    refine ⟨?_, ?_, hp⟩ <;> simp only [plainIn, List.all_eq_true] at hp ⊢ <;> intro x hx <;>
      have := hp x hx <;> cases x <;> simp_all
    all_goals rcases this with h | h <;> simp_all
  rw [partialFormat_print _ _ hT hp1.1, partialFormat_print _ _ hT hp1.2.2, fillText_texts]
  simp only [bind, Except.bind]
  have h1 : tmplOk (substT first T) = true := by
    simp only [substT, tmplOk, List.all_flatMap, List.all_eq_true]
    intro x hx
    have hx' := List.all_eq_true.1 hT x hx
    cases x with
    | ch c => simpa using hx'
    | fld f =>
      cases hf : get? first f.first with
      | none => simpa [hf] using hx'
      | some U =>
        have := (hv _ (get?_mem hf)).1
        simpa [hf, tmplOk] using this
  have h2 : plainIn (keys second) (substT first T) = true := by
    simp only [substT, plainIn, List.all_flatMap]
    rw [List.all_eq_true]
    intro x hx
    have hx' := List.all_eq_true.1 hp1.2.1 x hx
    cases x with
    | ch c => rfl
    | fld f =>
      cases hf : get? first f.first with
      | none => simpa [hf] using hx'
      | some U =>
        have := (hv _ (get?_mem hf)).2
        simp only [avoids, List.all_eq_true] at this
        simp only [hf, Option.getD_some, List.all_eq_true]
        intro y hy
        have := this y hy
        cases y with
        | ch c => rfl
        | fld g => simp only [Bool.or_eq_true]; exact .inl this
  rw [partialFormat_print _ _ h1 h2]
  congr 1
  clear hT hp hp1 h1 h2
  induction T with
  | nil => rfl
  | cons x T ih =>
    cases x with
    | ch c => rw [substT_ch, fillText_ch, fillText_ch, ih]
    | fld f =>
      rw [substT_fld, fillText_append, fillText_fld, ih, get?_append, get?_texts]
      cases hf : get? first f.first with
      | none => simp [fillText]
      | some U => simp [fillText_avoids (hv _ (get?_mem hf)).2]

example : (partialFormat [("extension".toList, ".json".toList),
      ("partition_key_spec".toList, "i={i.hex}".toList)]
      "{graph_name}/{partition_key_spec}/{name}{extension}".toList >>=
    partialFormat [("name".toList, "{odd".toList)]) =
    partialFormat [("extension".toList, ".json".toList),
      ("partition_key_spec".toList, "i={i.hex}".toList), ("name".toList, "{odd".toList)]
      "{graph_name}/{partition_key_spec}/{name}{extension}".toList :=
  C18_formatting_twice_partial
    [("extension".toList, ".json".toList.map .ch),
      ("partition_key_spec".toList, [.ch 'i', .ch '=', .fld ⟨['i'], [.attr "hex".toList], []⟩])]
    [("name".toList, "{odd".toList)]
    [.fld (plain "graph_name".toList), .ch '/', .fld (plain "partition_key_spec".toList), .ch '/',
      .fld (plain "name".toList), .fld (plain "extension".toList)]
    (by decide +kernel) (by decide +kernel) (by decide +kernel)

/-- Other placeholders are not kept literally when an index has leading zeros or a format spec is
empty: these are why the theorems above are about templates as `print` writes them. -/
theorem C18_violated_by_leading_zeros :
    partialFormat [] "{date.m[05]}".toList = .ok "{date.m[5]}".toList ∧
    partialFormat [] "{date.m:}".toList = .ok "{date.m}".toList := by decide +kernel

/-! ## C19 -/

/-- The result of resolving a template does not depend on the order in which the dictionaries of
values are resolved. -/
theorem C19_resolution_order_partial (T : List Tok) (vs vs' : List (PyDict Str (List Tok)))
    (hperm : vs.Perm vs') (hn : ∀ n ∈ keys vs.flatten, nameOk n = true)
    (hnd : (keys vs.flatten).Nodup) (hT : resolvable (keys vs.flatten) T = true)
    (hv : ∀ p ∈ vs.flatten, valueOk (keys vs.flatten) p.2 = true) :
    resolveAll (print T) (vs.map texts) = resolveAll (print T) (vs'.map texts) := by
  have hp : vs.flatten.Perm vs'.flatten := hperm.flatten
  have hk : (keys vs.flatten).Perm (keys vs'.flatten) := hp.map _
  rw [resolveAll_print vs T _ (fun _ h => h) hn hnd hT hv,
    resolveAll_print vs' T (keys vs.flatten) (fun n h => hk.mem_iff.2 h)
      (fun n h => hn n (hk.mem_iff.2 h)) (hk.nodup_iff.1 hnd) hT
      (fun p h => hv p (hp.mem_iff.2 h)),
    step_perm hp hnd]

theorem rem_dropPlaceholders (E : List Str) (b : Bool) (T : List Tok) :
    rem E b T = dropPlaceholders E b T := by
  induction T generalizing b with
  | nil => rfl
  | cons x T ih => cases x <;> simp only [rem, dropPlaceholders, ih]

theorem step_resolved (V : PyDict Str (List Tok)) (T : List Tok) : step V T = resolved V T := by
  unfold step resolved cut
  rw [rem_dropPlaceholders]
  rfl

/-- What resolving a template gives: all dictionaries of values are put in, empty ones disappear with
the separator that follows them, and what has no value stays. -/
theorem C19_resolved_text_partial (T : List Tok) (vs : List (PyDict Str (List Tok)))
    (hn : ∀ n ∈ keys vs.flatten, nameOk n = true)
    (hnd : (keys vs.flatten).Nodup) (hT : resolvable (keys vs.flatten) T = true)
    (hv : ∀ p ∈ vs.flatten, valueOk (keys vs.flatten) p.2 = true) :
    resolveAll (print T) (vs.map texts) = (resolved vs.flatten T).map print := by
  rw [resolveAll_print vs T _ (fun _ h => h) hn hnd hT hv, step_resolved]

/-! ### The values that storages resolve -/

/-- Path segments as templates, joined by separators. -/
def joinToks : List (List Tok) → List Tok
  | [] => []
  | [U] => U
  | U :: Us => U ++ sepTok :: joinToks Us

theorem joinToks_print (Us : List (List Tok)) :
    joinWith [sep] (Us.map print) = print (joinToks Us) := by
  induction Us with
  | nil => rfl
  | cons U Us ih =>
    cases Us with
    | nil => rfl
    | cons W Us =>
      simp only [List.map_cons, joinWith, joinToks, print_append] at ih ⊢
      rw [ih, print_cons]
      simp [printTok, sepTok, sep]

/-- A non-empty template without separators that avoids the names. -/
def SegTok (N : List Str) (U : List Tok) : Prop :=
  U ≠ [] ∧ tmplOk U = true ∧ sepTok ∉ U ∧ avoids N U = true

theorem noDoubleSep_of_not_mem {U : List Tok} (h : sepTok ∉ U) : noDoubleSep U = true := by
  induction U with
  | nil => rfl
  | cons x U ih =>
    simp only [List.mem_cons, not_or] at h
    exact noDoubleSep_cons' (ih h.2) fun hx => absurd hx.symm h.1

theorem SegTok.valueOk {N : List Str} {U : List Tok} (h : SegTok N U) : valueOk N U = true := by
  obtain ⟨-, h2, h3, h4⟩ := h
  simp only [Spec.valueOk, h2, h4, noDoubleSep_of_not_mem h3, Bool.and_true, Bool.true_and,
    Bool.and_eq_true, bne_iff_ne]
  exact ⟨fun hh => h3 (List.mem_of_mem_head? hh), fun hl => h3 (List.mem_of_mem_getLast? hl)⟩

theorem valueOk_iff {N : List Str} {U : List Tok} : valueOk N U = true ↔ tmplOk U = true ∧
    noDoubleSep U = true ∧ U.head? ≠ some sepTok ∧ U.getLast? ≠ some sepTok ∧
      avoids N U = true := by
  simp [Spec.valueOk, and_assoc]

theorem joinToks_valueOk {N : List Str} (Us : List (List Tok)) (h : ∀ U ∈ Us, SegTok N U) :
    valueOk N (joinToks Us) = true ∧ (Us ≠ [] → joinToks Us ≠ []) := by
  induction Us with
  | nil => exact ⟨rfl, fun h => absurd rfl h⟩
  | cons U Us ih =>
    have hU := h U (by simp)
    cases Us with
    | nil => exact ⟨hU.valueOk, fun _ => hU.1⟩
    | cons W Us =>
      obtain ⟨ih1, ih2⟩ := ih fun U hU => h U (by simp [hU])
      have ih2 := ih2 (by simp)
      have e : joinToks (U :: W :: Us) = U ++ sepTok :: joinToks (W :: Us) := rfl
      obtain ⟨a1, a2, a3, a4, a5⟩ := valueOk_iff.1 hU.valueOk
      obtain ⟨b1, b2, b3, b4, b5⟩ := valueOk_iff.1 ih1
      rw [e]
      generalize joinToks (W :: Us) = J at *
      refine ⟨valueOk_iff.2 ⟨?_, ?_, ?_, ?_, ?_⟩, by simp⟩
      · exact tmplOk_append.2 ⟨a1, tmplOk_cons.2 ⟨by decide, b1⟩⟩
      · exact noDoubleSep_append a2 (noDoubleSep_cons' b2 fun _ => b3) fun hl => absurd hl a4
      · cases U with
        | nil => exact absurd rfl hU.1
        | cons x U => simpa using a3
      · cases J with
        | nil => exact absurd rfl ih2
        | cons y J => simpa [List.getLast?_append, List.getLast?_cons] using b4
      · simp only [avoids, List.all_append, List.all_cons, Bool.and_eq_true] at a5 b5 ⊢
        exact ⟨a5, by rfl, b5⟩

/-- Literal text as a template. -/
def lit (s : Str) : List Tok := s.map .ch

theorem print_lit (s : Str) : print (lit s) = s := by
  induction s with
  | nil => rfl
  | cons c s ih => rw [lit, List.map_cons, print_cons]; simp only [lit] at ih; rw [ih]; rfl

theorem avoids_lit (N : List Str) (s : Str) : avoids N (lit s) = true := by
  simp [avoids, lit]

theorem segOk_chars {s : Str} (h : segOk s = true) :
    s ≠ [] ∧ ∀ c ∈ s, c ≠ '/' ∧ c ≠ '{' ∧ c ≠ '}' := by
  simp only [segOk, Bool.and_eq_true, Bool.not_eq_true', List.all_eq_true] at h
  refine ⟨by rintro rfl; simp at h, fun c hc => ?_⟩
  simpa using h.2 c hc

theorem segTok_lit (N : List Str) {s : Str} (h0 : s ≠ []) (h : ∀ c ∈ s, c ≠ '/' ∧ c ≠ '{' ∧ c ≠ '}') :
    SegTok N (lit s) := by
  refine ⟨by simpa [lit] using h0, ?_, ?_, avoids_lit N s⟩
  · simp only [tmplOk, lit, List.all_map, List.all_eq_true]
    intro c hc
    simpa [tokOk] using (h c hc).2
  · simp only [lit, List.mem_map, sepTok, not_exists, not_and, Tok.ch.injEq]
    intro c hc
    exact (h c hc).1

theorem textOk_lit (N : List Str) {s : Str} (h : textOk s = true) : valueOk N (lit s) = true := by
  obtain ⟨h1, h2, h3, h4, -⟩ := valueOk_iff.1 h
  exact valueOk_iff.2 ⟨h1, h2, h3, h4, avoids_lit N s⟩

/-- Each entry of the partition key spec, as a template. -/
def compToks (name comp attr spec : Str) : List Tok :=
  lit (name ++ '_' :: comp ++ ['=']) ++ [.fld ⟨name, [.attr attr], spec⟩]

theorem mem_ofItems {κ ν : Type} [DecidableEq κ] {items : List (κ × ν)} {p : κ × ν}
    (h : p ∈ ofItems items) : p ∈ items := by
  have := get?_of_mem (nodup_keys_ofItems items) (k := p.1) (v := p.2) h
  rw [get?_ofItems] at this
  simpa using get?_mem this

theorem compToks_seg {name comp attr spec : Str} (hn : keyNameOk name = true)
    (hc : segOk comp = true) (ha : Spec.accOk (.attr attr) = true)
    (hs : spec.all (fun c => !(['{', '}'].contains c)) = true) :
    SegTok placeholderNames (compToks name comp attr spec) := by
  simp only [keyNameOk, Bool.and_eq_true, Bool.not_eq_true'] at hn
  obtain ⟨⟨h1, h2⟩, h3⟩ := hn
  have hchars : ∀ c ∈ name ++ '_' :: comp ++ ['='], c ≠ '/' ∧ c ≠ '{' ∧ c ≠ '}' := by
    intro c hm
    simp only [List.mem_append, List.mem_cons, List.not_mem_nil, or_false] at hm
    rcases hm with (hm | rfl | hm) | rfl
    · have := nameOk_chars h1 c hm
      refine ⟨?_, this.2.2.1, this.2.2.2.1⟩
      rintro rfl
      simp [hm] at h2
    · decide
    · exact (segOk_chars hc).2 c hm
    · decide
  obtain ⟨g1, g2, g3, g4⟩ := segTok_lit placeholderNames (by simp) hchars
  refine ⟨by simp [compToks], ?_, ?_, ?_⟩
  · refine tmplOk_append.2 ⟨g2, tmplOk_cons.2 ⟨?_, rfl⟩⟩
    simp [tokOk, fldOk, h1, ha]
    simpa using hs
  · simpa [compToks, sepTok] using g3
  · simp only [avoids, compToks, List.all_append, List.all_cons, Bool.and_eq_true] at g4 ⊢
    exact ⟨g4, by rw [h3]; rfl, rfl⟩

theorem partitionKeySpec_toks (kt : KeyTypes) (h : ∀ n ∈ keys kt, keyNameOk n = true) :
    ∃ U, partitionKeySpec kt = print U ∧ valueOk placeholderNames U = true := by
  have hall : ∀ p ∈ ofItems (kt.flatMap fun (name, cls) =>
      (Part.defaultComponents cls).map fun (cn, cs) =>
        (name ++ '_' :: cn, '{' :: name ++ '.' :: cs ++ ['}'])),
      ∃ U, p.1 ++ '=' :: p.2 = print U ∧ SegTok placeholderNames U := by
    intro p hp
    have := mem_ofItems hp
    simp only [List.mem_flatMap, List.mem_map, Prod.exists] at this
    obtain ⟨name, cls, hk, cn, cs, hc, rfl⟩ := this
    have hn := h name (List.mem_map.2 ⟨_, hk, rfl⟩)
    have key : ∀ attr spec, cs = attr ++ (if spec = [] then [] else ':' :: spec) →
        segOk cn = true → Spec.accOk (.attr attr) = true →
        spec.all (fun c => !(['{', '}'].contains c)) = true →
        ∃ U, (name ++ '_' :: cn) ++ '=' :: ('{' :: name ++ '.' :: cs ++ ['}']) = print U ∧
          SegTok placeholderNames U := by
      intro attr spec he h1 h2 h3
      refine ⟨compToks name cn attr spec, ?_, compToks_seg hn h1 h2 h3⟩
      rw [compToks, print_append, print_lit]
      simp [print, printTok, printFld, printBody, Spec.printAcc, he]
    cases cls <;> simp only [Part.defaultComponents, List.mem_cons, List.not_mem_nil, or_false,
      Prod.mk.injEq] at hc
    · rcases hc with ⟨rfl, rfl⟩ | ⟨rfl, rfl⟩ | ⟨rfl, rfl⟩
      · exact key ['Y'] [] rfl rfl rfl rfl
      · exact key ['m'] ['0', '2'] rfl rfl rfl rfl
      · exact key ['d'] ['0', '2'] rfl rfl rfl rfl
    · obtain ⟨rfl, rfl⟩ := hc
      exact key ['v', 'a', 'l', 'u', 'e'] [] rfl rfl rfl rfl
    · obtain ⟨rfl, rfl⟩ := hc
      exact key ['v', 'a', 'l', 'u', 'e'] [] rfl rfl rfl rfl
  unfold partitionKeySpec
  generalize (ofItems (kt.flatMap fun (name, cls) =>
      (Part.defaultComponents cls).map fun (cn, cs) =>
        (name ++ '_' :: cn, '{' :: name ++ '.' :: cs ++ ['}'])) : PyDict Str Str) = d at hall ⊢
  have : ∃ Us : List (List Tok), (d.map fun (name, spec) => name ++ '=' :: spec) = Us.map print ∧
      ∀ U ∈ Us, SegTok placeholderNames U := by
    induction d with
    | nil => exact ⟨[], rfl, by simp⟩
    | cons p d ih =>
      obtain ⟨Us, h1, h2⟩ := ih fun q hq => hall q (by simp [hq])
      obtain ⟨U, h3, h4⟩ := hall p (by simp)
      refine ⟨U :: Us, ?_, ?_⟩
      · simp only [List.map_cons, h1, ← h3]
      · intro W hW
        rcases List.mem_cons.1 hW with rfl | hW
        · exact h4
        · exact h2 W hW
  obtain ⟨Us, h1, h2⟩ := this
  simp only [h1]
  exact ⟨joinToks Us, joinToks_print Us, (joinToks_valueOk Us h2).1⟩

theorem join_lit (ss : List Str) (h : ∀ s ∈ ss, s ≠ [] ∧ ∀ c ∈ s, c ≠ '/' ∧ c ≠ '{' ∧ c ≠ '}') :
    ∃ U, joinWith [sep] ss = print U ∧ valueOk placeholderNames U = true := by
  refine ⟨joinToks (ss.map lit), ?_, (joinToks_valueOk _ ?_).1⟩
  · rw [← joinToks_print, List.map_map]
    congr 1
    rw [List.map_congr_left (g := id)]
    · simp
    · intro s _; exact print_lit s
  · intro U hU
    obtain ⟨s, hs, rfl⟩ := List.mem_map.1 hU
    exact segTok_lit _ (h s hs).1 (h s hs).2

theorem intToStr_chars {i : Int} {c : Char} (h : c ∈ intToStr i) :
    isDigitOf 10 c = true ∨ c = '-' := by
  cases i with
  | ofNat n => exact .inl (natToStr_chars (by decide) (by decide) n c h)
  | negSucc n =>
    rcases List.mem_cons.1 h with h | h
    · exact .inr h
    · exact .inl (natToStr_chars (by decide) (by decide) _ c h)

theorem perm_of_map {α β : Type} (f : α → β) {l : List β} {m : List β} (h : l.Perm m)
    (xs : List α) (hm : m = xs.map f) : ∃ ys, xs.Perm ys ∧ l = ys.map f := by
  induction h generalizing xs with
  | nil => exact ⟨[], by rw [List.map_eq_nil_iff.1 hm.symm], rfl⟩
  | cons x _ ih =>
    obtain ⟨a, as, rfl, rfl, h2⟩ := List.map_eq_cons_iff.1 hm.symm
    obtain ⟨ys, h3, h4⟩ := ih as h2.symm
    exact ⟨a :: ys, h3.cons a, by simp [h4]⟩
  | swap x y l =>
    obtain ⟨a, as, rfl, rfl, h2⟩ := List.map_eq_cons_iff.1 hm.symm
    obtain ⟨b, bs, rfl, rfl, h3⟩ := List.map_eq_cons_iff.1 h2
    exact ⟨b :: a :: bs, .swap _ _ _, by simp [h3]⟩
  | trans _ _ ih1 ih2 =>
    obtain ⟨ys, h1, h2⟩ := ih2 xs hm
    obtain ⟨zs, h3, h4⟩ := ih1 ys h2
    exact ⟨zs, h1.trans h3, h4⟩

/-- The values of the placeholders as templates. -/
theorem values_toks (names : List Str) (graphName : Str)
    (pathTags : PyDict Str Str) (extension : Str) (kt : KeyTypes) (fp : Option Fp)
    (hnames : ∀ n ∈ names, segOk n = true) (hgraph : textOk graphName = true)
    (htags : ∀ p ∈ pathTags, segOk p.1 = true ∧ segOk p.2 = true)
    (hext : textOk extension = true) (hkt : ∀ n ∈ keys kt, keyNameOk n = true) :
    ∃ vs : List (PyDict Str (List Tok)), [typeValues kt, formatValues extension,
        graphValues graphName pathTags, namesValues names, ifpValues fp] = vs.map texts ∧
      keys vs.flatten = placeholderNames ∧
      ∀ p ∈ vs.flatten, valueOk placeholderNames p.2 = true := by
  obtain ⟨U1, h1, v1⟩ := partitionKeySpec_toks kt hkt
  obtain ⟨U2, h2, v2⟩ := join_lit names fun n hn => segOk_chars (hnames n hn)
  obtain ⟨U3, h3, v3⟩ := join_lit (pathTags.map fun (t, v) => t ++ '=' :: v) fun s hs => by
    obtain ⟨⟨t, v⟩, hp, rfl⟩ := List.mem_map.1 hs
    obtain ⟨ht, hv⟩ := htags _ hp
    refine ⟨by simp, fun c hc => ?_⟩
    simp only [List.mem_append, List.mem_cons] at hc
    rcases hc with hc | rfl | hc
    · exact (segOk_chars ht).2 c hc
    · decide
    · exact (segOk_chars hv).2 c hc
  obtain ⟨U4, h4, v4⟩ : ∃ U, names.getLastD [] = print U ∧ valueOk placeholderNames U = true := by
    cases names with
    | nil => exact ⟨[], rfl, rfl⟩
    | cons n ns =>
      have hm : (n :: ns).getLastD [] ∈ n :: ns := by
        rw [List.getLastD_eq_getLast?, List.getLast?_eq_some_getLast (by simp)]
        exact List.getLast_mem _
      have := segOk_chars (hnames _ hm)
      exact ⟨lit _, (print_lit _).symm, (segTok_lit _ this.1 this.2).valueOk⟩
  obtain ⟨U5, h5, v5⟩ : ∃ U, ifpValues fp = texts [("input_fingerprint".toList, U)] ∧
      valueOk placeholderNames U = true := by
    cases fp with
    | none => exact ⟨[], rfl, rfl⟩
    | some f =>
      refine ⟨lit (intToStr f), ?_, (segTok_lit _ ?_ ?_).valueOk⟩
      · simp only [texts, List.map_cons, List.map_nil, print_lit]; rfl
      · cases f <;> simp [intToStr, natToStr_ne_nil]
      · intro c hc
        rcases intToStr_chars hc with h | rfl
        · refine ⟨?_, ?_, ?_⟩ <;> rintro rfl <;> revert h <;> decide
        · decide
  let vs : List (PyDict Str (List Tok)) := [
    [("partition_key_spec".toList, U1)],
    [("extension".toList, lit extension)],
    [("graph_name".toList, lit graphName), ("path_tags".toList, U3)],
    [("name".toList, U4), ("names".toList, U2)],
    [("input_fingerprint".toList, U5)]]
  have hvs : [typeValues kt, formatValues extension, graphValues graphName pathTags,
      namesValues names, ifpValues fp] = vs.map texts := by
    have e1 : typeValues kt = texts [("partition_key_spec".toList, U1)] := by
      rw [typeValues, h1]; rfl
    have e2 : formatValues extension = texts [("extension".toList, lit extension)] := by
      simp only [texts, List.map_cons, List.map_nil, print_lit]; rfl
    have e3 : graphValues graphName pathTags =
        texts [("graph_name".toList, lit graphName), ("path_tags".toList, U3)] := by
      simp only [texts, List.map_cons, List.map_nil, print_lit]; rw [graphValues, h3]
    have e4 : namesValues names = texts [("name".toList, U4), ("names".toList, U2)] := by
      rw [namesValues, h2, h4]; rfl
    rw [e1, e2, e3, e4, h5]
    rfl
  refine ⟨vs, hvs, rfl, ?_⟩
  simp only [vs, List.flatten_cons, List.flatten_nil, List.append_nil, List.cons_append,
    List.nil_append, List.mem_cons, List.not_mem_nil, or_false]
  rintro p (rfl | rfl | rfl | rfl | rfl | rfl | rfl)
  · exact v1
  · exact textOk_lit _ hext
  · exact textOk_lit _ hgraph
  · exact v3
  · exact v4
  · exact v2
  · exact v5

/-- Resolving names, graph, format, type and input fingerprint gives the same template (or the same
error) in every order. -/
theorem C19_names_graph_format_type_partial (T : List Tok) (names : List Str) (graphName : Str)
    (pathTags : PyDict Str Str) (extension : Str) (kt : KeyTypes) (fp : Option Fp)
    (hT : resolvable placeholderNames T = true)
    (hnames : ∀ n ∈ names, segOk n = true) (hgraph : textOk graphName = true)
    (htags : ∀ p ∈ pathTags, segOk p.1 = true ∧ segOk p.2 = true)
    (hext : textOk extension = true) (hkt : ∀ n ∈ keys kt, keyNameOk n = true)
    (order : List (PyDict Str Str))
    (ho : order.Perm [typeValues kt, formatValues extension, graphValues graphName pathTags,
      namesValues names, ifpValues fp]) :
    resolveAll (print T) order = resolveAll (print T) [typeValues kt, formatValues extension,
      graphValues graphName pathTags, namesValues names, ifpValues fp] := by
  obtain ⟨vs, hvs, hk, hv⟩ := values_toks names graphName pathTags extension kt fp hnames hgraph
    htags hext hkt
  rw [hvs] at ho ⊢
  obtain ⟨vs', hp, rfl⟩ : ∃ vs' : List (PyDict Str (List Tok)), vs.Perm vs' ∧
      order = vs'.map texts := perm_of_map texts ho vs rfl
  symm
  refine C19_resolution_order_partial T vs vs' hp ?_ ?_ ?_ ?_
  · rw [hk]; decide +kernel
  · rw [hk]; decide +kernel
  · rw [hk]; exact hT
  · rw [hk]; exact hv

namespace Ex19

/-- `LocalFile`'s default template in `/tmp`. -/
def tmpl : List Tok :=
  lit "/tmp/".toList ++ [.fld (plain "graph_name".toList), .ch '/', .fld (plain "path_tags".toList),
    .ch '/', .fld (plain "names".toList), .ch '/', .fld (plain "partition_key_spec".toList), .ch '/',
    .fld (plain "input_fingerprint".toList), .ch '/', .fld (plain "name".toList),
    .fld (plain "extension".toList)]

example : print tmpl = ("/tmp/{graph_name}/{path_tags}/{names}/{partition_key_spec}/" ++
    "{input_fingerprint}/{name}{extension}").toList := by decide +kernel

def kt : KeyTypes := [("date".toList, .date), ("i".toList, .int .int8)]
def vtype := typeValues kt
def vformat := formatValues ".json".toList
def vgraph := graphValues "g".toList [("env".toList, "dev".toList)]
def vnames := namesValues ["a".toList, "b".toList]
def vifp := ifpValues none

example : resolveAll (print tmpl) [vifp, vnames, vgraph, vtype, vformat] =
    resolveAll (print tmpl) [vtype, vformat, vgraph, vnames, vifp] :=
  C19_names_graph_format_type_partial tmpl ["a".toList, "b".toList] "g".toList
    [("env".toList, "dev".toList)] ".json".toList kt none (by decide +kernel) (by decide +kernel)
    (by decide +kernel) (by decide +kernel) (by decide +kernel) (by decide +kernel) _
    (by decide +kernel)

example : resolveAll (print tmpl) [vtype, vformat, vgraph, vnames, vifp] =
    .ok ("/tmp/g/env=dev/a/b/date_Y={date.Y}/date_m={date.m:02}/date_d={date.d:02}/" ++
      "i_value={i.value}/b.json").toList := by decide +kernel

example : resolveAll (print tmpl) ([[("names".toList, lit "a/b".toList)],
      [("extension".toList, []), ("name".toList, lit "b".toList)]].map texts) =
    resolveAll (print tmpl) ([[("extension".toList, []), ("name".toList, lit "b".toList)],
      [("names".toList, lit "a/b".toList)]].map texts) :=
  C19_resolution_order_partial tmpl _ _ (.swap _ _ _) (by decide +kernel) (by decide +kernel)
    (by decide +kernel) (by decide +kernel)

example : resolveAll (print tmpl) ([[("names".toList, lit "a/b".toList)],
      [("extension".toList, []), ("name".toList, lit "b".toList)]].map texts) =
    .ok ("/tmp/{graph_name}/{path_tags}/a/b/{partition_key_spec}/" ++
      "{input_fingerprint}/b").toList :=
  (C19_resolved_text_partial tmpl _ (by decide +kernel) (by decide +kernel)
    (by decide +kernel) (by decide +kernel)).trans (by decide +kernel)

end Ex19

/-- The order matters when a partition key has the name of a placeholder: resolving the type before
the names (as artifacts do) then fails. -/
theorem C19_violated_by_key_names :
    ∃ kt : KeyTypes, ∃ names : List Str, ∃ T : List Tok,
      resolvable placeholderNames T = true ∧ (∀ n ∈ names, segOk n = true) ∧
      resolveAll (print T) [typeValues kt, namesValues names] = .error .attributeError ∧
      resolveAll (print T) [namesValues names, typeValues kt] =
        .ok "name_value={name.value}/a".toList := by
  refine ⟨[("name".toList, .int .int64)], ["a".toList],
    [.fld (plain "partition_key_spec".toList), .ch '/', .fld (plain "name".toList)], ?_⟩
  decide +kernel

/-- The order matters when a placeholder occurs twice. -/
theorem C19_violated_by_repetition :
    ∃ T : List Tok, tmplOk T = true ∧
      resolveAll (print T) [graphValues "g".toList [], formatValues []] = .ok "x".toList ∧
      resolveAll (print T) [formatValues [], graphValues "g".toList []] = .ok "x/".toList := by
  refine ⟨[.fld (plain "path_tags".toList), .ch '/', .ch 'x', .ch '/',
    .fld (plain "path_tags".toList), .fld (plain "extension".toList)], ?_⟩
  decide +kernel

/-- The order matters when a value starts with a separator. -/
theorem C19_violated_by_separators :
    ∃ T : List Tok, resolvable placeholderNames T = true ∧
      resolveAll (print T) [graphValues "g".toList [], formatValues "/x".toList] =
        .ok "g//x".toList ∧
      resolveAll (print T) [formatValues "/x".toList, graphValues "g".toList []] =
        .ok "g/x".toList := by
  refine ⟨[.fld (plain "graph_name".toList), .ch '/', .fld (plain "path_tags".toList),
    .fld (plain "extension".toList)], ?_⟩
  decide +kernel

end Arti.Props
