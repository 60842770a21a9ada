import Verif.Lemmas.Resolve
import Verif.Lemmas.Digits
import Verif.Props.FrozenDict
import Verif.Spec.Location

/-! Generating the location of a partition. -/

namespace Arti.Fmt
open PyDict Spec Stg Part Props

/-! ## Stripping indexes -/

/-- A field without its indexes. -/
def strip (f : Fld) : Fld :=
  { f with accs := f.accs.filter (fun | .attr _ => true | .idx _ => false) }

def stripTok : Tok → Tok
  | .ch c => .ch c
  | .fld f => .fld (strip f)

theorem fldOk_strip {f : Fld} (h : fldOk f = true) : fldOk (strip f) = true := by
  obtain ⟨h1, h2, h3⟩ := fldOk_iff.1 h
  refine fldOk_iff.2 ⟨h1, ?_, h3⟩
  simp only [List.all_eq_true] at h2 ⊢
  intro x hx
  exact h2 x (List.mem_of_mem_filter hx)

theorem tmplOk_strip {T : List Tok} (h : tmplOk T = true) : tmplOk (T.map stripTok) = true := by
  simp only [tmplOk, List.all_map, List.all_eq_true] at h ⊢
  intro x hx
  have := h x hx
  cases x with
  | ch c => exact this
  | fld f => exact fldOk_strip this

theorem stripPartitionIndexes_print {T : List Tok} (h : tmplOk T = true) :
    stripPartitionIndexes (print T) = .ok (print (T.map stripTok)) := by
  unfold stripPartitionIndexes
  rw [parse_print T h]
  simp only [bind, Except.bind]
  rw [render_ok _ (fun f => printFld (strip f)) T h]
  · congr 1
    clear h
    induction T with
    | nil => rfl
    | cons x T ih =>
      rw [List.map_cons, List.map_cons, print_cons, List.flatten_cons, ih]
      cases x <;> rfl
  · intro f hf
    exact placeholderText_eq (fldOk_strip (List.all_eq_true.1 h _ hf))

theorem delimited_strip (T : List Tok) : delimited (T.map stripTok) = delimited T := by
  induction T with
  | nil => rfl
  | cons x T ih =>
    cases x with
    | ch c => exact ih
    | fld f =>
      simp only [List.map_cons, stripTok, delimited, ih]
      cases T with
      | nil => rfl
      | cons y T => cases y <;> rfl

/-! ## The fingerprint placeholder -/

theorem ifpTmpl_eq : ifpTmpl = pat ifpName [] := by decide +kernel

theorem nameOk_ifp : nameOk ifpName = true := by decide +kernel

theorem mem_split_first {α : Type} [DecidableEq α] {x : α} {l : List α} (h : x ∈ l) :
    ∃ A B, l = A ++ x :: B ∧ x ∉ A := by
  induction l with
  | nil => simp at h
  | cons y l ih =>
    by_cases hy : x = y
    · exact ⟨[], l, by rw [hy]; rfl, by simp⟩
    · obtain ⟨A, B, rfl, hA⟩ := ih (by simpa [hy] using h)
      exact ⟨y :: A, B, rfl, by simp [hy, hA]⟩

theorem isInfix_ifp {T : List Tok} (h : tmplOk T = true) :
    isInfix ifpTmpl (print T) = true ↔ .fld (plain ifpName) ∈ T := by
  rw [ifpTmpl_eq]
  constructor
  · intro hi
    apply Classical.byContradiction
    intro hn
    rw [isInfix_tmpl_nil nameOk_ifp T h hn] at hi
    simp at hi
  · intro hm
    obtain ⟨A, B, rfl, hA⟩ := mem_split_first hm
    have hpr : print (A ++ .fld (plain ifpName) :: B) = print A ++ (pat ifpName [] ++ print B) := by
      simp [print, printTok, printFld, pat, printBody_plain]
    rw [hpr, isInfix_tmpl nameOk_ifp A _ (tmplOk_append.1 h).1 hA]
    have hd := dropPrefix?_append (pat ifpName []) (print B)
    cases hq : pat ifpName [] ++ print B with
    | nil => simp [pat] at hq
    | cons c s =>
      rw [hq] at hd
      simp [isInfix, hd]

theorem isInfix_iff (p s : Str) : isInfix p s = true ↔ ∃ a b, s = a ++ p ++ b := by
  induction s with
  | nil =>
    constructor
    · intro h
      simp only [isInfix, List.isEmpty_iff] at h
      exact ⟨[], [], by simp [h]⟩
    · rintro ⟨a, b, h⟩
      simp only [isInfix, List.isEmpty_iff]
      have := congrArg List.length h
      simp only [List.length_append, List.length_nil] at this
      exact List.length_eq_zero_iff.1 (by omega)
  | cons c s ih =>
    simp only [isInfix, Bool.or_eq_true, ih]
    constructor
    · rintro (h | ⟨a, b, rfl⟩)
      · obtain ⟨r, hr⟩ := Option.isSome_iff_exists.1 h
        exact ⟨[], r, dropPrefix?_some hr⟩
      · exact ⟨c :: a, b, by simp⟩
    · rintro ⟨a, b, h⟩
      cases a with
      | nil =>
        left
        rw [h, List.nil_append, dropPrefix?_append]
        rfl
      | cons d a =>
        right
        simp only [List.cons_append, List.cons.injEq] at h
        exact ⟨a, b, h.2⟩

/-! ## Arguments -/

theorem get?_fields (pk : PKey) (k : Str) :
    get? (pk.map fun (k, v) => (k, FVal.field v)) k = (get? pk k).map .field :=
  get?_map pk FVal.field k

/-- What the placeholders stand for. -/
def argOf (fp : Option Fp) (pk : PKey) (k : Str) : Option FVal :=
  match fp with
  | some v => if k = ifpName then some (.str (intToStr v)) else (get? pk k).map .field
  | none => (get? pk k).map .field

theorem genKwargs_ok {kt : KeyTypes} {fields : List Str} {fp : Option Fp} {pk : PKey}
    {kw : PyDict Str FVal} (h : genKwargs (some kt) fields fp pk = .ok kw) :
    (kt = [] ↔ pk = []) ∧ fp.isSome = fields.any (isInfix ifpTmpl) ∧
      ∀ k, get? kw k = argOf fp pk k := by
  unfold genKwargs at h
  simp only at h
  cases hc : checkKey kt pk with
  | error e => simp [hc] at h
  | ok u =>
    have hk : kt = [] ↔ pk = [] := by
      unfold checkKey at hc
      cases kt <;> cases pk <;> simp_all
    refine ⟨hk, ?_⟩
    rw [hc] at h
    simp only at h
    cases fp with
    | none =>
      simp only at h
      cases hi : fields.any (isInfix ifpTmpl) with
      | true => simp [hi] at h
      | false =>
        simp only [hi, Bool.false_eq_true, ↓reduceIte, Except.ok.injEq] at h
        refine ⟨rfl, fun k => ?_⟩
        rw [← h, get?_fields]; rfl
    | some v =>
      simp only at h
      cases hi : fields.any (isInfix ifpTmpl) with
      | false => simp [hi] at h
      | true =>
        simp only [hi, ↓reduceIte, Except.ok.injEq] at h
        refine ⟨rfl, fun k => ?_⟩
        rw [← h, get?_set, get?_fields]
        simp [argOf, eq_comm]

/-- The text of a field. -/
def fieldText (fp : Option Fp) (pk : PKey) (f : Fld) : Except Err Str :=
  match argOf fp pk f.first with
  | none => .error .keyError
  | some (.str s) => if f.accs.isEmpty && f.spec.isEmpty then .ok s else .error .unsupported
  | some (.field v) =>
    match f.accs with
    | [.attr c] =>
      match component v c with
      | some cv => formatComp cv f.spec
      | none => .error .attributeError
    | _ => .error .unsupported

theorem formatFld_eq {kw : PyDict Str FVal} {fp : Option Fp} {pk : PKey}
    (h : ∀ k, get? kw k = argOf fp pk k) : formatFld kw = fieldText fp pk := by
  funext f
  unfold formatFld fieldText
  rw [h]
  cases argOf fp pk f.first with
  | none => rfl
  | some a => cases a <;> rfl

/-- The location of a partition. -/
theorem genField_print {kw : PyDict Str FVal} {fp : Option Fp} {pk : PKey}
    (h : ∀ k, get? kw k = argOf fp pk k) {T : List Tok} (hT : tmplOk T = true) :
    genField kw (print T) = render (fieldText fp pk) (T.map stripTok) := by
  unfold genField
  rw [stripPartitionIndexes_print hT]
  simp only [bind, Except.bind, strFormat, parse_print _ (tmplOk_strip hT), formatFld_eq h]

theorem genFile_ok {T : List Tok} (hT : tmplOk T = true) {kt : KeyTypes} {fp : Option Fp}
    {pk : PKey} {p : FilePartition} (h : genFile ⟨print T, some kt⟩ fp pk = .ok p) :
    p.inputFp = fp ∧ p.key = pk ∧ (kt = [] ↔ pk = []) ∧
      (fp.isSome = true ↔ .fld (plain ifpName) ∈ T) ∧
      render (fieldText fp pk) (T.map stripTok) = .ok p.path := by
  unfold genFile at h
  simp only [bind, Except.bind] at h
  cases hk : genKwargs (some kt) [print T] fp pk with
  | error e => simp [hk] at h
  | ok kw =>
    obtain ⟨h1, h2, h3⟩ := genKwargs_ok hk
    simp only [hk] at h
    rw [genField_print h3 hT] at h
    cases hr : render (fieldText fp pk) (T.map stripTok) with
    | error e => simp [hr] at h
    | ok s =>
      simp only [hr, Except.ok.injEq] at h
      subst h
      refine ⟨rfl, rfl, h1, ?_, rfl⟩
      rw [h2, ← isInfix_ifp hT]
      simp

theorem genFile_of {T : List Tok} (hT : tmplOk T = true) {kt : KeyTypes} {fp : Option Fp}
    {pk : PKey} {path : Str} (h1 : kt = [] ↔ pk = [])
    (h2 : fp.isSome = true ↔ .fld (plain ifpName) ∈ T)
    (h3 : render (fieldText fp pk) (T.map stripTok) = .ok path) :
    genFile ⟨print T, some kt⟩ fp pk = .ok ⟨fp, pk, path⟩ := by
  have hi : isInfix ifpTmpl (print T) = fp.isSome := by
    rw [Bool.eq_iff_iff, isInfix_ifp hT, h2]
  have hk : ∃ kw, genKwargs (some kt) [print T] fp pk = .ok kw := by
    unfold genKwargs checkKey
    cases fp with
    | none => cases kt <;> cases pk <;> simp_all
    | some v => cases kt <;> cases pk <;> simp_all
  obtain ⟨kw, hk⟩ := hk
  unfold genFile
  simp only [bind, Except.bind, hk]
  rw [genField_print (genKwargs_ok hk).2.2 hT, h3]

/-! ## The characters of a rendered field -/

theorem digit16_mem {c : Char} (h : isDigitOf 16 c = true) : c ∈ componentChars := by
  have hc : c = Char.ofNat c.toNat := (Char.ofNat_toNat c).symm
  have hu : c.isUpper = false := by
    unfold isDigitOf at h
    cases hd : digitVal c with
    | none => simp [hd] at h
    | some d => simp [hd] at h; simpa using h.2
  have hr : (48 ≤ c.toNat ∧ c.toNat ≤ 57) ∨ (97 ≤ c.toNat ∧ c.toNat ≤ 102) := by
    unfold isDigitOf digitVal at h
    by_cases h1 : 48 ≤ c.toNat ∧ c.toNat ≤ 57
    · exact .inl h1
    · by_cases h2 : 97 ≤ c.toNat ∧ c.toNat ≤ 102
      · exact .inr h2
      · exfalso
        by_cases h3 : 65 ≤ c.toNat ∧ c.toNat ≤ 70
        · have : c.isUpper = true := by
            simp only [Char.isUpper, ge_iff_le, decide_eq_true_eq,
              UInt32.le_iff_toNat_le]
            simp only [Char.toNat] at h3
            constructor
            · show 65 ≤ c.val.toNat; omega
            · show c.val.toNat ≤ 90; omega
          rw [this] at hu
          simp at hu
        · simp [h1, h2, h3] at h
  generalize c.toNat = n at hc hr
  subst hc
  have hn : n = 48 ∨ n = 49 ∨ n = 50 ∨ n = 51 ∨ n = 52 ∨ n = 53 ∨ n = 54 ∨ n = 55 ∨ n = 56 ∨
      n = 57 ∨ n = 97 ∨ n = 98 ∨ n = 99 ∨ n = 100 ∨ n = 101 ∨ n = 102 := by omega
  rcases hn with rfl | rfl | rfl | rfl | rfl | rfl | rfl | rfl | rfl | rfl | rfl | rfl | rfl |
    rfl | rfl | rfl <;> decide

theorem isDigitOf_mono {b : Nat} (hb : b ≤ 16) {c : Char} (h : isDigitOf b c = true) :
    isDigitOf 16 c = true := by
  unfold isDigitOf at h ⊢
  cases hd : digitVal c with
  | none => simp [hd] at h
  | some d =>
    simp only [hd, Bool.and_eq_true, decide_eq_true_eq] at h ⊢
    exact ⟨by omega, h.2⟩

theorem digit10_mem {c : Char} (h : isDigitOf 10 c = true) : c ∈ componentChars :=
  digit16_mem (isDigitOf_mono (by decide) h)

theorem intToStr_mem {i : Int} {c : Char} (h : c ∈ intToStr i) : c ∈ componentChars := by
  cases i with
  | ofNat n => exact digit10_mem (natToStr_chars (by decide) (by decide) n c h)
  | negSucc n =>
    rcases List.mem_cons.1 h with rfl | h
    · decide
    · exact digit10_mem (natToStr_chars (by decide) (by decide) _ c h)

theorem intToStr_ne (i : Int) : intToStr i ≠ [] := by
  cases i <;> simp [intToStr, natToStr_ne_nil]

theorem padNat_ne (w n : Nat) : padNat w n ≠ [] := by
  intro h
  unfold padNat at h
  exact natToStr_ne_nil 10 n (List.append_eq_nil_iff.1 h).2

theorem formatInt_chars {i : Int} {spec t : Str} (h : formatComp (.int i) spec = .ok t) :
    t ≠ [] ∧ ∀ c ∈ t, c ∈ componentChars := by
  unfold formatComp at h
  split at h
  · rename_i h'; cases h'; cases h; exact ⟨intToStr_ne i, fun c hc => intToStr_mem hc⟩
  · rename_i h'; cases h'
  · rename_i h'
    cases h'
    split at h
    · injection h with h
      cases i with
      | ofNat n => subst h; exact ⟨padNat_ne _ _, fun c hc => digit10_mem (padNat_chars _ _ c hc)⟩
      | negSucc n =>
        subst h
        refine ⟨by simp, fun c hc => ?_⟩
        rcases List.mem_cons.1 hc with rfl | hc
        · decide
        · exact digit10_mem (padNat_chars _ _ c hc)
    · cases h
  · cases h

theorem isoFormat_chars (y m d : Nat) (c : Char) (h : c ∈ isoFormat y m d) :
    c ∈ componentChars := by
  simp only [isoFormat, List.cons_append, List.append_assoc, List.mem_append, List.mem_cons] at h
  rcases h with h | rfl | h | rfl | h
  · exact digit10_mem (padNat_chars _ _ c h)
  · decide
  · exact digit10_mem (padNat_chars _ _ c h)
  · decide
  · exact digit10_mem (padNat_chars _ _ c h)

theorem pyHex_chars (i : Int) (c : Char) (h : c ∈ pyHex i) : c ∈ componentChars := by
  cases i with
  | ofNat n =>
    simp only [pyHex, List.mem_cons] at h
    rcases h with rfl | rfl | h
    · decide
    · decide
    · exact digit16_mem (natToStr_chars (by decide) (by decide) n c h)
  | negSucc n =>
    simp only [pyHex, List.mem_cons] at h
    rcases h with rfl | rfl | rfl | h
    · decide
    · decide
    · decide
    · exact digit16_mem (natToStr_chars (by decide) (by decide) _ c h)

theorem component_chars {v : FieldVal} {c spec t : Str} {cv : CompVal}
    (h1 : component v c = some cv) (h2 : formatComp cv spec = .ok t) :
    t ≠ [] ∧ ∀ ch ∈ t, ch ∈ componentChars := by
  cases cv with
  | int i => exact formatInt_chars h2
  | text s =>
    rw [formatComp_text _ _ _ h2]
    cases v with
    | date y m d =>
      have : s = isoFormat y m d := by
        simp only [component] at h1
        repeat' split at h1
        all_goals first | (cases h1; rfl) | cases h1
      rw [this]
      refine ⟨?_, isoFormat_chars y m d⟩
      unfold isoFormat
      simp
    | int k i =>
      have : s = pyHex i := by
        simp only [component] at h1
        repeat' split at h1
        all_goals first | (cases h1; rfl) | cases h1
      rw [this]
      refine ⟨?_, pyHex_chars i⟩
      cases i <;> simp [pyHex]
    | null =>
      have : s = ['N', 'o', 'n', 'e'] := by
        simp only [component] at h1
        repeat' split at h1
        all_goals first | (cases h1; rfl) | cases h1
      rw [this]
      exact ⟨by simp, by decide⟩

theorem fieldText_chars {fp : Option Fp} {pk : PKey} {f : Fld} {t : Str}
    (h : fieldText fp pk f = .ok t) : t ≠ [] ∧ ∀ c ∈ t, c ∈ componentChars := by
  unfold fieldText at h
  cases ha : argOf fp pk f.first with
  | none => simp [ha] at h
  | some a =>
    rw [ha] at h
    cases a with
    | str s =>
      simp only at h
      have hs : ∃ v, s = intToStr v := by
        unfold argOf at ha
        cases fp with
        | none => simp only at ha; cases hg : get? pk f.first <;> simp [hg] at ha
        | some v =>
          simp only at ha
          split at ha
          · cases ha; exact ⟨v, rfl⟩
          · cases hg : get? pk f.first <;> simp [hg] at ha
      obtain ⟨v, rfl⟩ := hs
      split at h
      · cases h; exact ⟨intToStr_ne v, fun c hc => intToStr_mem hc⟩
      · cases h
    | field v =>
      simp only at h
      split at h
      · split at h
        · rename_i h1; exact component_chars h1 h
        · cases h
      · cases h

/-! ## Telling the placeholders apart -/

theorem render_cons_fld {get : Fld → Except Err Str} {f : Fld} {T : List Tok} {s : Str}
    (h : render get (.fld f :: T) = .ok s) :
    ∃ t r, get f = .ok t ∧ render get T = .ok r ∧ s = t ++ r := by
  unfold render at h
  split at h
  · cases h
  · cases hg : get f with
    | error e => simp [hg] at h
    | ok t =>
      cases hr : render get T with
      | error e => simp [hg, hr, Except.map] at h
      | ok r =>
        simp only [hg, hr, Except.map, Except.ok.injEq] at h
        exact ⟨t, r, rfl, rfl, h.symm⟩

theorem render_cons_ch {get : Fld → Except Err Str} {c : Char} {T : List Tok} {s : Str}
    (h : render get (.ch c :: T) = .ok s) : ∃ r, render get T = .ok r ∧ s = c :: r := by
  unfold render at h
  cases hr : render get T with
  | error e => simp [hr, Except.map] at h
  | ok r =>
    simp only [hr, Except.map, Except.ok.injEq] at h
    exact ⟨r, rfl, h.symm⟩

theorem render_fld_ok {get : Fld → Except Err Str} {T : List Tok} {s : Str}
    (h : render get T = .ok s) {f : Fld} (hf : .fld f ∈ T) : ∃ t, get f = .ok t := by
  induction T generalizing s with
  | nil => simp at hf
  | cons x T ih =>
    cases x with
    | ch c =>
      obtain ⟨r, hr, -⟩ := render_cons_ch h
      exact ih hr (by simpa using hf)
    | fld g =>
      obtain ⟨t, r, hg, hr, -⟩ := render_cons_fld h
      rcases List.mem_cons.1 hf with hf | hf
      · injection hf with hf; rw [hf]; exact ⟨t, hg⟩
      · exact ih hr hf

theorem delimited_tail {f : Fld} {T : List Tok} (h : delimited (.fld f :: T) = true) :
    delimited T = true ∧ (T = [] ∨ ∃ c U, T = .ch c :: U ∧ c ∉ componentChars) := by
  simp only [delimited, Bool.and_eq_true] at h
  refine ⟨h.2, ?_⟩
  cases T with
  | nil => exact .inl rfl
  | cons x T =>
    cases x with
    | ch c => exact .inr ⟨c, T, rfl, by simpa using h.1⟩
    | fld g => simp at h

theorem render_inj {get get' : Fld → Except Err Str} {T : List Tok} (hd : delimited T = true)
    (hc : ∀ f t, get f = .ok t → ∀ c ∈ t, c ∈ componentChars)
    (hc' : ∀ f t, get' f = .ok t → ∀ c ∈ t, c ∈ componentChars) {s : Str}
    (h : render get T = .ok s) (h' : render get' T = .ok s) {f : Fld} (hf : .fld f ∈ T) :
    get f = get' f := by
  induction T generalizing s with
  | nil => simp at hf
  | cons x T ih =>
    cases x with
    | ch c =>
      obtain ⟨r, hr, rfl⟩ := render_cons_ch h
      obtain ⟨r', hr', he⟩ := render_cons_ch h'
      injection he with _ he
      subst he
      exact ih hd hr hr' (by simpa using hf)
    | fld g =>
      obtain ⟨t, r, hg, hr, rfl⟩ := render_cons_fld h
      obtain ⟨t', r', hg', hr', he⟩ := render_cons_fld h'
      obtain ⟨hd1, hd2⟩ := delimited_tail hd
      have : t = t' ∧ r = r' := by
        rcases hd2 with rfl | ⟨c, U, rfl, hcn⟩
        · simp only [render, Except.ok.injEq] at hr hr'
          subst hr hr'
          simpa using he
        · obtain ⟨u, -, rfl⟩ := render_cons_ch hr
          obtain ⟨u', -, rfl⟩ := render_cons_ch hr'
          obtain ⟨h1, h2⟩ := append_cons_inj (fun hm => hcn (hc g t hg c hm))
            (fun hm => hcn (hc' g t' hg' c hm)) he
          exact ⟨h1, by rw [h2]⟩
      obtain ⟨rfl, rfl⟩ := this
      rcases List.mem_cons.1 hf with hf | hf
      · injection hf with hf; rw [hf, hg, hg']
      · exact ih hd1 hr hr' hf

theorem mentions_mem {T : List Tok} {k c : Str} (h : mentions T k c = true) :
    ∃ spec, .fld ⟨k, [.attr c], spec⟩ ∈ T.map stripTok := by
  simp only [mentions, List.any_eq_true] at h
  obtain ⟨x, hx, h⟩ := h
  cases x with
  | ch c => simp at h
  | fld f =>
    simp only [Bool.and_eq_true, beq_iff_eq] at h
    refine ⟨f.spec, List.mem_map.2 ⟨_, hx, ?_⟩⟩
    simp only [stripTok, strip, h.1]
    exact congrArg (fun a => Tok.fld ⟨k, a, f.spec⟩) h.2

end Arti.Fmt
