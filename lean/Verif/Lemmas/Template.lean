import Verif.Spec.Template
import Verif.Lemmas.Dict

/-! Parsing and formatting templates. -/

namespace Arti.Fmt
open PyDict Spec

theorem breakOn_append (p : Char → Bool) : ∀ (s t : Str), (∀ c ∈ s, p c = false) →
    (t = [] ∨ ∃ c r, t = c :: r ∧ p c = true) → breakOn p (s ++ t) = (s, t)
  | [], t, _, ht => by
    rcases ht with rfl | ⟨c, r, rfl, hc⟩
    · rfl
    · simp [breakOn, hc]
  | c :: s, t, hs, ht => by
    simp [breakOn, hs c (by simp), breakOn_append p s t (fun d hd => hs d (by simp [hd])) ht]

/-! ## Accesses -/

theorem parseAccs_attr (u : Str) (hu : ∀ c ∈ u, c ≠ '.' ∧ c ≠ '[') (acc rest : Str) :
    parseAccs (.attr acc) (u ++ rest) = parseAccs (.attr (acc ++ u)) rest := by
  induction u generalizing acc with
  | nil => simp
  | cons c u ih =>
    obtain ⟨h1, h2⟩ := hu c (by simp)
    rw [List.cons_append, parseAccs, if_neg h1, if_neg h2, ih (fun d hd => hu d (by simp [hd]))]
    simp

theorem parseAccs_idx (u : Str) (hu : ∀ c ∈ u, c ≠ ']') (acc rest : Str) :
    parseAccs (.idx acc) (u ++ rest) = parseAccs (.idx (acc ++ u)) rest := by
  induction u generalizing acc with
  | nil => simp
  | cons c u ih =>
    rw [List.cons_append, parseAccs, if_neg (hu c (by simp)), ih (fun d hd => hu d (by simp [hd]))]
    simp

theorem parseAccs_attr_end (acc : Str) (ha : acc ≠ []) (accs : List Acc) :
    parseAccs (.attr acc) (accs.map Spec.printAcc).flatten =
      (parseAccs .start (accs.map Spec.printAcc).flatten).map (.attr acc :: ·) := by
  have he : acc.isEmpty = false := by cases acc <;> simp_all
  cases accs with
  | nil => simp [parseAccs, he, Except.map]
  | cons x accs =>
    cases x with
    | attr a => simp [Spec.printAcc, parseAccs, he]
    | idx k => simp [Spec.printAcc, parseAccs, he]

theorem parseAccs_print (accs : List Acc) (h : accs.all Spec.accOk = true) :
    parseAccs .start (accs.map Spec.printAcc).flatten = .ok accs := by
  induction accs with
  | nil => rfl
  | cons x accs ih =>
    simp only [List.all_cons, Bool.and_eq_true] at h
    obtain ⟨hx, hr⟩ := h
    cases x with
    | attr a =>
      simp only [Spec.accOk, Bool.and_eq_true, Bool.not_eq_true', List.all_eq_true] at hx
      obtain ⟨⟨h1, -⟩, h3⟩ := hx
      have ha : a ≠ [] := by rintro rfl; simp at h1
      simp only [List.map_cons, Spec.printAcc, List.flatten_cons, List.cons_append, parseAccs,
        ↓reduceIte]
      rw [parseAccs_attr a (fun c hc => by
        have := h3 c hc; simp at this; exact ⟨this.1, this.2.1⟩), List.nil_append,
        parseAccs_attr_end a ha, ih hr]
      rfl
    | idx k =>
      simp only [Spec.accOk, Bool.and_eq_true, Bool.not_eq_true', List.all_eq_true] at hx
      obtain ⟨⟨h1, -⟩, h3⟩ := hx
      simp only [List.map_cons, Spec.printAcc, List.flatten_cons, List.cons_append, parseAccs,
        ↓reduceIte, List.append_assoc, show ('[' = '.') = False from by simp]
      rw [parseAccs_idx k (fun c hc => by have := h3 c hc; simp at this; exact this.1),
        List.nil_append]
      simp only [List.nil_append, parseAccs, ↓reduceIte, h1, ih hr, Bool.false_eq_true]
      rfl

/-! ## Fields -/

theorem printAcc_chars (x : Acc) (h : Spec.accOk x = true) (c : Char)
    (hc : c ∈ Spec.printAcc x) : c ≠ '{' ∧ c ≠ '}' ∧ c ≠ ':' ∧ c ≠ '!' := by
  cases x with
  | attr a =>
    simp only [Spec.accOk, Bool.and_eq_true, Bool.not_eq_true', List.all_eq_true] at h
    simp only [Spec.printAcc, List.mem_cons] at hc
    rcases hc with rfl | hc
    · simp
    · have := h.2 c hc; simp at this; simp [this]
  | idx k =>
    simp only [Spec.accOk, Bool.and_eq_true, Bool.not_eq_true', List.all_eq_true] at h
    simp only [Spec.printAcc, List.mem_cons, List.cons_append, List.mem_append, List.not_mem_nil,
      or_false] at hc
    rcases hc with rfl | hc | rfl
    · simp
    · have := h.2 c hc; simp at this; simp [this]
    · simp

theorem printAccs_chars (accs : List Acc) (h : accs.all Spec.accOk = true) (c : Char)
    (hc : c ∈ (accs.map Spec.printAcc).flatten) : c ≠ '{' ∧ c ≠ '}' ∧ c ≠ ':' ∧ c ≠ '!' := by
  simp only [List.mem_flatten, List.mem_map] at hc
  obtain ⟨_, ⟨x, hx, rfl⟩, hc⟩ := hc
  exact printAcc_chars x (List.all_eq_true.1 h x hx) c hc

theorem nameOk_chars {s : Str} (h : nameOk s = true) (c : Char) (hc : c ∈ s) :
    c ≠ '.' ∧ c ≠ '[' ∧ c ≠ '{' ∧ c ≠ '}' ∧ c ≠ ':' ∧ c ≠ '!' := by
  simp only [nameOk, Bool.and_eq_true, Bool.not_eq_true', List.all_eq_true] at h
  have := h.2 c hc
  simp at this
  simp [this]

theorem nameOk_ne {s : Str} (h : nameOk s = true) : s ≠ [] ∧ isDigits s = false := by
  simp only [nameOk, Bool.and_eq_true, Bool.not_eq_true', List.all_eq_true] at h
  exact ⟨by rintro rfl; simp at h, h.1.2⟩

theorem fldOk_iff {f : Fld} : fldOk f = true ↔
    nameOk f.first = true ∧ f.accs.all Spec.accOk = true ∧ ∀ c ∈ f.spec, c ≠ '{' ∧ c ≠ '}' := by
  simp only [fldOk, Bool.and_eq_true, List.all_eq_true, Bool.not_eq_true', and_assoc]
  simp

theorem printBody_chars {f : Fld} (h : fldOk f = true) (c : Char) (hc : c ∈ printBody f) :
    c ≠ '{' ∧ c ≠ '}' := by
  obtain ⟨h1, h2, h3⟩ := fldOk_iff.1 h
  simp only [printBody, List.mem_append] at hc
  rcases hc with (hc | hc) | hc
  · have := nameOk_chars h1 c hc; exact ⟨this.2.2.1, this.2.2.2.1⟩
  · have := printAccs_chars _ h2 c hc; exact ⟨this.1, this.2.1⟩
  · split at hc
    · simp at hc
    · rcases List.mem_cons.1 hc with rfl | hc
      · simp
      · exact h3 c hc

theorem parseField_print (f : Fld) (h : fldOk f = true) : parseField (printBody f) = .ok f := by
  obtain ⟨h1, h2, h3⟩ := fldOk_iff.1 h
  have hb : breakOn (· = ':') (printBody f) =
      (f.first ++ (f.accs.map Spec.printAcc).flatten, if f.spec = [] then [] else ':' :: f.spec) := by
    apply breakOn_append
    · intro c hc
      rcases List.mem_append.1 hc with hc | hc
      · have := nameOk_chars h1 c hc; simp [this]
      · have := printAccs_chars _ h2 c hc; simp [this]
    · split
      · exact .inl rfl
      · exact .inr ⟨_, _, rfl, by simp⟩
  unfold parseField
  rw [hb]
  have hbang : (f.first ++ (f.accs.map Spec.printAcc).flatten).contains '!' = false := by
    rw [Bool.eq_false_iff]
    intro hc
    simp only [List.contains_iff_mem, List.mem_append] at hc
    rcases hc with hc | hc
    · exact (nameOk_chars h1 _ hc).2.2.2.2.2 rfl
    · exact (printAccs_chars _ h2 _ hc).2.2.2 rfl
  have hn : breakOn (fun c => c = '.' || c = '[') (f.first ++ (f.accs.map Spec.printAcc).flatten) =
      (f.first, (f.accs.map Spec.printAcc).flatten) := by
    apply breakOn_append
    · intro c hc; have := nameOk_chars h1 c hc; simp [this]
    · cases f.accs with
      | nil => exact .inl rfl
      | cons x r =>
        right
        cases x <;> simp [Spec.printAcc]
  simp only [hbang, Bool.false_eq_true, ↓reduceIte, hn, parseAccs_print _ h2, Except.map]
  have : (if f.spec = [] then [] else ':' :: f.spec).drop 1 = f.spec := by
    split
    · rename_i h; simp [h]
    · simp
  rw [this]

/-! ## Templates -/

theorem parseGo_field (u : Str) (hu : ∀ c ∈ u, c ≠ '{' ∧ c ≠ '}') (acc rest : Str) :
    parseGo (some acc) (u ++ rest) = parseGo (some (acc ++ u)) rest := by
  induction u generalizing acc with
  | nil => simp
  | cons c u ih =>
    obtain ⟨h1, h2⟩ := hu c (by simp)
    rw [List.cons_append, parseGo, if_neg h2, if_neg h1, ih (fun d hd => hu d (by simp [hd]))]
    simp

theorem parseGo_ch (c : Char) (h1 : c ≠ '{') (h2 : c ≠ '}') (r : Str) :
    parseGo none (c :: r) = (parseGo none r).map (.ch c :: ·) := by
  rw [parseGo.eq_def]
  split <;> simp_all

theorem parseGo_open (c : Char) (h : c ≠ '{') (r : Str) :
    parseGo none ('{' :: c :: r) = parseGo (some []) (c :: r) := by
  rw [parseGo.eq_def]
  split
  · simp_all
  · simp_all
  · simp_all
  · rename_i heq
    injection heq with h1 h2
    subst h1 h2
    simp
  all_goals simp_all

theorem print_cons (t : Tok) (T : List Tok) : print (t :: T) = printTok t ++ print T := by
  simp [print]

theorem print_append (T U : List Tok) : print (T ++ U) = print T ++ print U := by
  simp [print]

theorem printBody_ne {f : Fld} (h : fldOk f = true) : printBody f ≠ [] := by
  obtain ⟨h1, -, -⟩ := fldOk_iff.1 h
  have := (nameOk_ne h1).1
  simp [printBody, this]

theorem tmplOk_cons {t : Tok} {T : List Tok} :
    tmplOk (t :: T) = true ↔ tokOk t = true ∧ tmplOk T = true := by
  simp [tmplOk]

theorem tmplOk_append {T U : List Tok} :
    tmplOk (T ++ U) = true ↔ tmplOk T = true ∧ tmplOk U = true := by
  simp [tmplOk]

theorem parse_print (T : List Tok) (h : tmplOk T = true) : parse (print T) = .ok T := by
  unfold parse
  induction T with
  | nil => simp [print, parseGo]
  | cons t T ih =>
    obtain ⟨ht, hT⟩ := tmplOk_cons.1 h
    rw [print_cons]
    cases t with
    | ch c =>
      simp only [tokOk, Bool.and_eq_true, bne_iff_ne] at ht
      simp only [printTok, List.cons_append, List.nil_append]
      rw [parseGo_ch c ht.1 ht.2, ih hT]
      rfl
    | fld f =>
      simp only [tokOk] at ht
      have hb := printBody_chars ht
      have hp := parseField_print f ht
      simp only [printTok, printFld, List.cons_append, List.append_assoc, List.nil_append]
      cases hf : printBody f with
      | nil => exact absurd hf (printBody_ne ht)
      | cons c u =>
        rw [hf] at hb hp
        rw [List.cons_append, parseGo_open c (hb c (by simp)).1, ← List.cons_append,
          parseGo_field _ hb, List.nil_append]
        simp only [parseGo, ↓reduceIte, hp, ih hT]
        rfl

theorem print_inj {T U : List Tok} (hT : tmplOk T = true) (hU : tmplOk U = true)
    (h : print T = print U) : T = U := by
  have := parse_print T hT
  rw [h, parse_print U hU] at this
  exact (Except.ok.inj this).symm

/-! ## Formatting -/

theorem printAcc_eq {x : Acc} (h : Spec.accOk x = true) :
    printAcc x = Spec.printAcc x ∧ accOk x = true := by
  cases x with
  | attr a =>
    refine ⟨rfl, ?_⟩
    simp only [Spec.accOk, Bool.and_eq_true, bne_iff_ne] at h
    cases a with
    | nil => simp at h
    | cons c a =>
      unfold accOk
      split
      · rename_i heq
        simp only [Acc.attr.injEq, List.cons.injEq] at heq
        obtain ⟨rfl, -⟩ := heq
        simp at h
      · rfl
  | idx k =>
    simp only [Spec.accOk, Bool.and_eq_true, beq_iff_eq] at h
    exact ⟨by simp [printAcc, Spec.printAcc, h.1.2], rfl⟩

theorem placeholderText_eq {f : Fld} (h : fldOk f = true) : placeholderText f = .ok (printFld f) := by
  obtain ⟨h1, h2, h3⟩ := fldOk_iff.1 h
  have ha : f.accs.all accOk = true := List.all_eq_true.2 fun x hx =>
    (printAcc_eq (List.all_eq_true.1 h2 x hx)).2
  have hp : f.accs.map printAcc = f.accs.map Spec.printAcc := List.map_congr_left fun x hx =>
    (printAcc_eq (List.all_eq_true.1 h2 x hx)).1
  simp only [placeholderText, ha, ↓reduceIte, hp, printFld, printBody]
  cases hs : f.spec <;> simp

theorem render_ok (get : Fld → Except Err Str) (val : Fld → Str) (T : List Tok)
    (hT : tmplOk T = true) (h : ∀ f, .fld f ∈ T → get f = .ok (val f)) :
    render get T = .ok (T.map fun
      | .ch c => [c]
      | .fld f => val f).flatten := by
  induction T with
  | nil => rfl
  | cons t T ih =>
    obtain ⟨ht, hT⟩ := tmplOk_cons.1 hT
    have ih := ih hT fun f hf => h f (by simp [hf])
    cases t with
    | ch c => simp [render, ih, Except.map]
    | fld f =>
      obtain ⟨h1, -, -⟩ := fldOk_iff.1 ht
      obtain ⟨h2, h3⟩ := nameOk_ne h1
      have he : f.first.isEmpty = false := by cases hf : f.first <;> simp_all
      simp [render, he, h3, h f (by simp), ih, Except.map]

theorem plainIn_mem {names : List Str} {T : List Tok} (h : plainIn names T = true) {f : Fld}
    (hf : .fld f ∈ T) (hn : f.first ∈ names) : f.accs = [] ∧ f.spec = [] := by
  have := List.all_eq_true.1 h _ hf
  simpa [hn] using this

theorem partialFormat_print (values : PyDict Str Str) (T : List Tok) (hT : tmplOk T = true)
    (hp : plainIn (keys values) T = true) :
    partialFormat values (print T) = .ok (fillText values T) := by
  unfold partialFormat
  rw [parse_print T hT]
  simp only [bind, Except.bind]
  rw [render_ok _ (fun f => (get? values f.first).getD (printFld f)) T hT]
  · rfl
  · intro f hf
    cases hv : get? values f.first with
    | none => simp [placeholderText_eq (List.all_eq_true.1 hT _ hf)]
    | some v =>
      have hk : f.first ∈ keys values := by
        apply Classical.byContradiction
        intro hn
        rw [(get?_eq_none_iff _ _).2 hn] at hv
        simp at hv
      obtain ⟨h1, h2⟩ := plainIn_mem hp hf hk
      simp [h1, h2]

end Arti.Fmt
