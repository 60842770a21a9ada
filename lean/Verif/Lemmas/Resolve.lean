import Verif.Lemmas.Template
import Verif.Model.Storage

/-! Resolving storage templates. -/

namespace Arti.Fmt
open PyDict Spec Stg

/-! ## Replacing text in a printed template -/

theorem dropPrefix?_append (p s : Str) : dropPrefix? p (p ++ s) = some s := by
  induction p with
  | nil => rfl
  | cons c p ih => simp [dropPrefix?, ih]

theorem dropPrefix?_some {p s r : Str} (h : dropPrefix? p s = some r) : s = p ++ r := by
  induction p generalizing s with
  | nil => simp only [dropPrefix?, Option.some.injEq] at h; simp [h]
  | cons c p ih =>
    cases s with
    | nil => simp [dropPrefix?] at h
    | cons d s =>
      simp only [dropPrefix?] at h
      split at h
      · rename_i hc; rw [ih h, hc]; rfl
      · simp at h

/-- The text of a placeholder, possibly with what follows. -/
def pat (a t : Str) : Str := '{' :: a ++ '}' :: t

theorem append_cons_inj {c : Char} {a b s t : Str} (ha : c ∉ a) (hb : c ∉ b)
    (h : a ++ c :: s = b ++ c :: t) : a = b ∧ s = t := by
  induction a generalizing b with
  | nil =>
    cases b with
    | nil => simpa using h
    | cons d b => simp at h; simp [h.1] at hb
  | cons x a ih =>
    cases b with
    | nil => simp at h; simp [h.1] at ha
    | cons d b =>
      simp only [List.cons_append, List.cons.injEq] at h
      simp only [List.mem_cons, not_or] at ha hb
      obtain ⟨rfl, h⟩ := h
      obtain ⟨rfl, rfl⟩ := ih ha.2 hb.2 h
      exact ⟨rfl, rfl⟩

theorem printBody_plain (a : Str) : printBody (plain a) = a := by simp [printBody, plain]

theorem fldOk_plain {a : Str} (h : nameOk a = true) : fldOk (plain a) = true := by
  simp [fldOk, plain, h]

theorem printBody_inj {f g : Fld} (hf : fldOk f = true) (hg : fldOk g = true)
    (h : printBody f = printBody g) : f = g := by
  have := parseField_print f hf
  rw [h, parseField_print g hg] at this
  exact (Except.ok.inj this).symm

theorem pat_fld {a t s r : Str} {f : Fld} (ha : nameOk a = true) (hf : fldOk f = true)
    (h : printFld f ++ s = pat a t ++ r) : f = plain a ∧ s = t ++ r := by
  simp only [printFld, pat, List.cons_append, List.append_assoc, List.cons.injEq, true_and,
    List.nil_append] at h
  obtain ⟨h1, h2⟩ := append_cons_inj (fun hc => (printBody_chars hf _ hc).2 rfl)
    (fun hc => (nameOk_chars ha _ hc).2.2.2.1 rfl) h
  refine ⟨printBody_inj hf (fldOk_plain ha) ?_, h2⟩
  rw [h1, printBody_plain]

theorem dropPrefix_pat_ch {a t s : Str} {c : Char} (hc : c ≠ '{') :
    dropPrefix? (pat a t) (c :: s) = none := by
  simp [pat, dropPrefix?, Ne.symm hc]

theorem dropPrefix_pat_fld {a t s : Str} {f : Fld} (ha : nameOk a = true) (hf : fldOk f = true)
    (hn : f ≠ plain a) : dropPrefix? (pat a t) (printFld f ++ s) = none := by
  cases h : dropPrefix? (pat a t) (printFld f ++ s) with
  | none => rfl
  | some r => exact absurd (pat_fld ha hf (dropPrefix?_some h)).1 hn

theorem replaceGo_run {a t new : Str} (u s : Str) (hu : ∀ c ∈ u, c ≠ '{') :
    replaceGo (pat a t) new 0 (u ++ s) = u ++ replaceGo (pat a t) new 0 s := by
  induction u with
  | nil => rfl
  | cons c u ih =>
    simp only [List.cons_append, replaceGo, dropPrefix_pat_ch (hu c (by simp)), Option.isSome_none,
      Bool.false_eq_true, ↓reduceIte, ih (fun d hd => hu d (by simp [hd]))]

theorem isInfix_run {a t : Str} (u s : Str) (hu : ∀ c ∈ u, c ≠ '{') :
    isInfix (pat a t) (u ++ s) = isInfix (pat a t) s := by
  induction u with
  | nil => rfl
  | cons c u ih =>
    simp only [List.cons_append, isInfix, dropPrefix_pat_ch (hu c (by simp)), Option.isSome_none,
      Bool.false_or, ih (fun d hd => hu d (by simp [hd]))]

theorem fld_tail_chars {f : Fld} (hf : fldOk f = true) : ∀ c ∈ printBody f ++ ['}'], c ≠ '{' := by
  intro c hc
  rcases List.mem_append.1 hc with hc | hc
  · exact (printBody_chars hf c hc).1
  · simp at hc; simp [hc]

theorem replaceGo_skip (p new u s : Str) : replaceGo p new u.length (u ++ s) = replaceGo p new 0 s := by
  induction u with
  | nil => rfl
  | cons c u ih => simp [replaceGo, ih]

theorem replaceGo_hit {a t new s : Str} :
    replaceGo (pat a t) new 0 (pat a t ++ s) = new ++ replaceGo (pat a t) new 0 s := by
  have h := dropPrefix?_append (pat a t) s
  have hl : (pat a t).length - 1 = (a ++ '}' :: t).length := by simp [pat]
  have he : pat a t ++ s = '{' :: ((a ++ '}' :: t) ++ s) := by simp [pat]
  rw [he] at h ⊢
  rw [replaceGo, h, hl]
  simp only [Option.isSome_some, ↓reduceIte, replaceGo_skip]

theorem replaceGo_tmpl {a t new : Str} (ha : nameOk a = true) (A : List Tok) (s : Str)
    (hA : tmplOk A = true) (hn : .fld (plain a) ∉ A) :
    replaceGo (pat a t) new 0 (print A ++ s) = print A ++ replaceGo (pat a t) new 0 s := by
  induction A with
  | nil => rfl
  | cons x A ih =>
    obtain ⟨hx, hA⟩ := tmplOk_cons.1 hA
    simp only [List.mem_cons, not_or] at hn
    rw [print_cons, List.append_assoc, List.append_assoc, ← ih hA hn.2]
    cases x with
    | ch c =>
      simp only [tokOk, Bool.and_eq_true, bne_iff_ne] at hx
      exact replaceGo_run [c] _ (by simp [hx.1])
    | fld f =>
      have hf : fldOk f = true := hx
      have hd := dropPrefix_pat_fld (t := t) (s := print A ++ s) ha hf
        (fun h => hn.1 (by rw [h]))
      have he : printFld f = '{' :: (printBody f ++ ['}']) := by simp [printFld]
      simp only [printTok]
      rw [he, List.cons_append] at hd ⊢
      rw [replaceGo, hd, Option.isSome_none, if_neg (by simp),
        replaceGo_run _ _ (fld_tail_chars hf)]
      rfl

theorem isInfix_tmpl {a t : Str} (ha : nameOk a = true) (A : List Tok) (s : Str)
    (hA : tmplOk A = true) (hn : .fld (plain a) ∉ A) :
    isInfix (pat a t) (print A ++ s) = isInfix (pat a t) s := by
  induction A with
  | nil => rfl
  | cons x A ih =>
    obtain ⟨hx, hA⟩ := tmplOk_cons.1 hA
    simp only [List.mem_cons, not_or] at hn
    rw [print_cons, List.append_assoc, ← ih hA hn.2]
    cases x with
    | ch c =>
      simp only [tokOk, Bool.and_eq_true, bne_iff_ne] at hx
      exact isInfix_run [c] _ (by simp [hx.1])
    | fld f =>
      have hf : fldOk f = true := hx
      have hd := dropPrefix_pat_fld (t := t) (s := print A ++ s) ha hf
        (fun h => hn.1 (by rw [h]))
      have he : printFld f = '{' :: (printBody f ++ ['}']) := by simp [printFld]
      simp only [printTok]
      rw [he, List.cons_append] at hd ⊢
      rw [isInfix, hd, Option.isSome_none, Bool.false_or, isInfix_run _ _ (fld_tail_chars hf)]

theorem replaceAll_tmpl {a t new : Str} (ha : nameOk a = true) (A : List Tok)
    (hA : tmplOk A = true) (hn : .fld (plain a) ∉ A) :
    replaceAll (pat a t) new (print A) = print A := by
  have := replaceGo_tmpl (t := t) (new := new) ha A [] hA hn
  simpa [replaceAll, replaceGo] using this

theorem isInfix_tmpl_nil {a t : Str} (ha : nameOk a = true) (A : List Tok)
    (hA : tmplOk A = true) (hn : .fld (plain a) ∉ A) : isInfix (pat a t) (print A) = false := by
  have := isInfix_tmpl (t := t) ha A [] hA hn
  rw [List.append_nil] at this
  rw [this]
  simp [isInfix, pat]

/-! ## Trailing separators -/

/-- Drop the separators at the end. -/
def rs (T : List Tok) : List Tok := (T.reverse.dropWhile (· = sepTok)).reverse

theorem rs_append_sep (T : List Tok) : rs (T ++ [sepTok]) = rs T := by
  simp [rs]

theorem rs_append_ne (T : List Tok) {x : Tok} (hx : x ≠ sepTok) : rs (T ++ [x]) = T ++ [x] := by
  simp [rs, hx]

theorem rstrip_append_sep (s : Str) : rstrip sep (s ++ [sep]) = rstrip sep s := by
  simp [rstrip]

theorem rstrip_append_ne (s : Str) {c : Char} (hc : c ≠ sep) :
    rstrip sep (s ++ [c]) = s ++ [c] := by
  simp [rstrip, hc]

theorem list_snoc {α : Type} (P : List α → Prop) (h0 : P []) (h1 : ∀ l x, P l → P (l ++ [x]))
    (l : List α) : P l := by
  have : ∀ n, ∀ l : List α, l.length = n → P l := by
    intro n
    induction n with
    | zero => intro l hl; rw [List.length_eq_zero_iff.1 hl]; exact h0
    | succ n ih =>
      intro l hl
      have hne : l ≠ [] := by rintro rfl; simp at hl
      rw [← List.dropLast_concat_getLast hne]
      exact h1 _ _ (ih _ (by simp [hl]))
  exact this _ l rfl

theorem rstrip_print (T : List Tok) : rstrip sep (print T) = print (rs T) := by
  induction T using list_snoc with
  | h0 => rfl
  | h1 T x ih =>
    by_cases hx : x = sepTok
    · subst hx
      rw [rs_append_sep, ← ih, print_append]
      exact rstrip_append_sep _
    · rw [rs_append_ne _ hx, print_append]
      cases x with
      | ch c =>
        have : c ≠ sep := fun h => hx (by rw [h]; rfl)
        exact rstrip_append_ne _ this
      | fld f =>
        have : print [.fld f] = ('{' :: printBody f) ++ ['}'] := by
          simp [print, printTok, printFld]
        rw [this, ← List.append_assoc]
        exact rstrip_append_ne _ (by decide)

theorem rs_append_seps (T S : List Tok) (h : ∀ x ∈ S, x = sepTok) : rs (T ++ S) = rs T := by
  induction S using list_snoc with
  | h0 => simp
  | h1 S x ih =>
    rw [h x (by simp), ← List.append_assoc, rs_append_sep]
    exact ih fun y hy => h y (by simp [hy])

theorem rs_split (T : List Tok) : ∃ S, T = rs T ++ S ∧ ∀ x ∈ S, x = sepTok := by
  induction T using list_snoc with
  | h0 => exact ⟨[], by simp [rs], by simp⟩
  | h1 T x ih =>
    by_cases hx : x = sepTok
    · obtain ⟨S, hS, hs⟩ := ih
      refine ⟨S ++ [sepTok], ?_, ?_⟩
      · rw [hx, rs_append_sep, ← List.append_assoc, ← hS]
      · intro y hy
        rcases List.mem_append.1 hy with hy | hy
        · exact hs y hy
        · simpa using hy
    · exact ⟨[], by rw [rs_append_ne _ hx]; simp, by simp⟩

theorem print_eq_nil {T : List Tok} : print T = [] ↔ T = [] := by
  cases T with
  | nil => simp [print]
  | cons x T => cases x <;> simp [print, printTok, printFld]

/-! ## Dropping placeholders -/

/-- Drop the placeholders with the given names, each with the separator that follows it; the flag
tells that a placeholder was just dropped. -/
def rem (E : List Str) : Bool → List Tok → List Tok
  | _, [] => []
  | b, .ch c :: r => if b = true ∧ c = '/' then rem E false r else .ch c :: rem E false r
  | _, .fld f :: r => if f.first ∈ E then rem E true r else .fld f :: rem E false r

theorem rem_congr {E E' : List Str} (h : ∀ n, n ∈ E ↔ n ∈ E') (b : Bool) (T : List Tok) :
    rem E b T = rem E' b T := by
  induction T generalizing b with
  | nil => rfl
  | cons x T ih => cases x <;> simp [rem, ih, h]

theorem rem_avoids {E : List Str} {T : List Tok} (h : avoids E T = true) : rem E false T = T := by
  induction T with
  | nil => rfl
  | cons x T ih =>
    simp only [avoids, List.all_cons, Bool.and_eq_true] at h
    have ih := ih h.2
    cases x with
    | ch c => simp [rem, ih]
    | fld f =>
      have : f.first ∉ E := by simpa using h.1
      simp [rem, ih, this]

theorem rem_nil (T : List Tok) : rem [] false T = T := by
  apply rem_avoids
  simp only [avoids, List.all_eq_true]
  intro x _
  cases x <;> simp

theorem rem_true {E : List Str} {T : List Tok} (h : T.head? ≠ some sepTok) :
    rem E true T = rem E false T := by
  cases T with
  | nil => rfl
  | cons x T =>
    cases x with
    | ch c =>
      have : c ≠ '/' := fun hc => h (by rw [hc]; rfl)
      simp [rem, this]
    | fld f => simp [rem]

theorem noDoubleSep_cons {x : Tok} {T : List Tok} (h : noDoubleSep (x :: T) = true) :
    noDoubleSep T = true ∧ (x = sepTok → T.head? ≠ some sepTok) := by
  cases T with
  | nil => simp [noDoubleSep]
  | cons y T =>
    simp only [noDoubleSep, Bool.and_eq_true, Bool.not_eq_true', Bool.and_eq_false_iff,
      beq_eq_false_iff_ne] at h
    refine ⟨h.2, fun hx => ?_⟩
    rcases h.1 with h1 | h1
    · exact absurd hx h1
    · simpa using h1

theorem rem_rem (E E' : List Str) (T : List Tok) (h : noDoubleSep T = true) (b b' : Bool) :
    rem E b (rem E' b' T) = rem (E ++ E') (b || b') T := by
  induction T generalizing b b' with
  | nil => rfl
  | cons x T ih =>
    obtain ⟨h1, h2⟩ := noDoubleSep_cons h
    have ih := ih h1
    cases x with
    | ch c =>
      by_cases hc : c = '/'
      · subst hc
        have ht := h2 rfl
        cases b <;> cases b' <;> simp [rem, ih]
        exact rem_true ht
      · simp [rem, hc, ih]
    | fld f =>
      by_cases h1 : f.first ∈ E' <;> by_cases h2 : f.first ∈ E <;> simp [rem, h1, h2, ih]

theorem rem_app (E : List Str) (A B : List Tok) (b : Bool) : ∃ b',
    rem E b (A ++ B) = rem E b A ++ rem E b' B ∧ (A = [] → b' = b) := by
  induction A generalizing b with
  | nil => exact ⟨b, rfl, fun _ => rfl⟩
  | cons x A ih =>
    refine (?_ : ∃ b', rem E b (x :: A ++ B) = rem E b (x :: A) ++ rem E b' B).imp
      fun b' h => ⟨h, by simp⟩
    cases x with
    | ch c =>
      obtain ⟨b', hb, -⟩ := ih false
      refine ⟨b', ?_⟩
      by_cases hc : b = true ∧ c = '/' <;> simp [rem, hc, hb]
    | fld f =>
      by_cases hf : f.first ∈ E
      · obtain ⟨b', hb, -⟩ := ih true
        exact ⟨b', by simp [rem, hf, hb]⟩
      · obtain ⟨b', hb, -⟩ := ih false
        exact ⟨b', by simp [rem, hf, hb]⟩

theorem rem_seps (E : List Str) (b : Bool) (S : List Tok) (h : ∀ x ∈ S, x = sepTok) :
    ∀ x ∈ rem E b S, x = sepTok := by
  induction S generalizing b with
  | nil => simp [rem]
  | cons y S ih =>
    have hy := h y (by simp)
    subst hy
    have ih := ih false fun x hx => h x (by simp [hx])
    simp only [sepTok, rem]
    split
    · exact ih
    · intro x hx
      rcases List.mem_cons.1 hx with rfl | hx
      · rfl
      · exact ih x hx

theorem rs_rem_rs (E : List Str) (T : List Tok) : rs (rem E false (rs T)) = rs (rem E false T) := by
  obtain ⟨S, hS, hs⟩ := rs_split T
  obtain ⟨b', hb, -⟩ := rem_app E (rs T) S false
  rw [← hS] at hb
  rw [hb, rs_append_seps _ _ (rem_seps E b' S hs)]

theorem rs_rs (T : List Tok) : rs (rs T) = rs T := by
  obtain ⟨S, hS, hs⟩ := rs_split T
  rw [← rs_append_seps (rs T) S hs, ← hS]

theorem rem_sublist (E : List Str) (b : Bool) (T : List Tok) : List.Sublist (rem E b T) T := by
  induction T generalizing b with
  | nil => exact List.Sublist.slnil
  | cons x T ih =>
    cases x with
    | ch c =>
      simp only [rem]
      split
      · exact (ih _).cons _
      · exact (ih _).cons_cons _
    | fld f =>
      simp only [rem]
      split
      · exact (ih _).cons _
      · exact (ih _).cons_cons _

theorem rs_sublist (T : List Tok) : List.Sublist (rs T) T := by
  obtain ⟨S, hS, -⟩ := rs_split T
  have : List.Sublist (rs T) (rs T ++ S) := List.sublist_append_left _ _
  rwa [← hS] at this

theorem rem_head (E : List Str) (T : List Tok) (h : noDoubleSep T = true) :
    (rem E true T).head? ≠ some sepTok ∧
    (T.head? ≠ some sepTok → (rem E false T).head? ≠ some sepTok) := by
  induction T with
  | nil => simp [rem]
  | cons x T ih =>
    obtain ⟨h1, h2⟩ := noDoubleSep_cons h
    have ih := ih h1
    cases x with
    | ch c =>
      by_cases hc : c = '/'
      · subst hc
        refine ⟨?_, fun h => absurd rfl h⟩
        simp only [rem, and_self, ↓reduceIte]
        exact ih.2 (h2 rfl)
      · simp [rem, hc, sepTok]
    | fld f =>
      by_cases hf : f.first ∈ E
      · simp only [rem, hf, ↓reduceIte]
        exact ⟨ih.1, fun _ => ih.1⟩
      · simp [rem, hf, sepTok]

theorem noDoubleSep_cons' {x : Tok} {T : List Tok} (h : noDoubleSep T = true)
    (h' : x = sepTok → T.head? ≠ some sepTok) : noDoubleSep (x :: T) = true := by
  cases T with
  | nil => rfl
  | cons y T =>
    simp only [noDoubleSep, h, Bool.and_true, Bool.not_eq_true', Bool.and_eq_false_iff,
      beq_eq_false_iff_ne]
    by_cases hx : x = sepTok
    · exact .inr (by simpa using h' hx)
    · exact .inl hx

theorem noDoubleSep_rem (E : List Str) (b : Bool) (T : List Tok) (h : noDoubleSep T = true) :
    noDoubleSep (rem E b T) = true := by
  induction T generalizing b with
  | nil => rfl
  | cons x T ih =>
    obtain ⟨h1, h2⟩ := noDoubleSep_cons h
    cases x with
    | ch c =>
      simp only [rem]
      split
      · exact ih _ h1
      · exact noDoubleSep_cons' (ih _ h1) fun hx => (rem_head E T h1).2 (h2 hx)
    | fld f =>
      simp only [rem]
      split
      · exact ih _ h1
      · exact noDoubleSep_cons' (ih _ h1) (by simp [sepTok])

theorem noDoubleSep_append {A B : List Tok} (hA : noDoubleSep A = true)
    (hB : noDoubleSep B = true) (h : A.getLast? = some sepTok → B.head? ≠ some sepTok) :
    noDoubleSep (A ++ B) = true := by
  induction A with
  | nil => exact hB
  | cons x A ih =>
    obtain ⟨h1, h2⟩ := noDoubleSep_cons hA
    cases A with
    | nil => exact noDoubleSep_cons' hB fun hx => h (by simp [hx])
    | cons y A =>
      refine noDoubleSep_cons' (ih h1 ?_) h2
      simpa [List.getLast?_cons] using h

theorem noDoubleSep_left {A B : List Tok} (h : noDoubleSep (A ++ B) = true) :
    noDoubleSep A = true := by
  induction A with
  | nil => rfl
  | cons x A ih =>
    obtain ⟨h1, h2⟩ := noDoubleSep_cons h
    refine noDoubleSep_cons' (ih h1) fun hx hA => h2 hx ?_
    cases A with
    | nil => simp at hA
    | cons y A => simpa using hA

theorem noDoubleSep_rs (T : List Tok) (h : noDoubleSep T = true) : noDoubleSep (rs T) = true := by
  obtain ⟨S, hS, -⟩ := rs_split T
  rw [hS] at h
  exact noDoubleSep_left h

/-! ## Filling in values -/

/-- Fill in values, as templates. -/
def substT (V : PyDict Str (List Tok)) (T : List Tok) : List Tok :=
  T.flatMap fun
    | .ch c => [.ch c]
    | .fld f => (get? V f.first).getD [.fld f]

theorem substT_ch (V : PyDict Str (List Tok)) (c : Char) (T : List Tok) :
    substT V (.ch c :: T) = .ch c :: substT V T := rfl

theorem substT_fld (V : PyDict Str (List Tok)) (f : Fld) (T : List Tok) :
    substT V (.fld f :: T) = (get? V f.first).getD [.fld f] ++ substT V T := rfl

theorem substT_append (V : PyDict Str (List Tok)) (A B : List Tok) :
    substT V (A ++ B) = substT V A ++ substT V B := by
  simp [substT]

theorem get?_map {κ ν μ : Type} [DecidableEq κ] (d : PyDict κ ν) (g : ν → μ) (k : κ) :
    get? (d.map fun (n, v) => (n, g v)) k = (get? d k).map g := by
  induction d with
  | nil => rfl
  | cons p d ih =>
    obtain ⟨k', v⟩ := p
    simp only [List.map_cons, get?]
    split
    · rfl
    · exact ih

theorem get?_texts (V : PyDict Str (List Tok)) (k : Str) :
    get? (texts V) k = (get? V k).map print := get?_map V print k

theorem keys_texts (V : PyDict Str (List Tok)) : keys (texts V) = keys V := by
  simp [texts, keys, List.map_map, Function.comp_def]

theorem fillText_texts (V : PyDict Str (List Tok)) (T : List Tok) :
    fillText (texts V) T = print (substT V T) := by
  induction T with
  | nil => rfl
  | cons x T ih =>
    have h : fillText (texts V) (x :: T) =
      (match x with
        | .ch c => [c]
        | .fld f => (get? (texts V) f.first).getD (printFld f)) ++ fillText (texts V) T := rfl
    rw [h, ih]
    cases x with
    | ch c => rw [substT_ch, print_cons]; rfl
    | fld f =>
      simp only
      rw [substT_fld, print_append, get?_texts]
      cases get? V f.first with
      | none => simp [print, printTok]
      | some U => rfl

theorem substT_avoids {V : PyDict Str (List Tok)} {T : List Tok} (h : avoids (keys V) T = true) :
    substT V T = T := by
  induction T with
  | nil => rfl
  | cons x T ih =>
    simp only [avoids, List.all_cons, Bool.and_eq_true] at h
    have ih := ih h.2
    cases x with
    | ch c => rw [substT_ch, ih]
    | fld f =>
      have : f.first ∉ keys V := by simpa using h.1
      rw [substT_fld, ih, (get?_eq_none_iff _ _).2 this]
      rfl

theorem substT_substT {V W : PyDict Str (List Tok)}
    (hv : ∀ p ∈ V, avoids (keys W) p.2 = true) (T : List Tok) :
    substT W (substT V T) = substT (V ++ W) T := by
  induction T with
  | nil => rfl
  | cons x T ih =>
    cases x with
    | ch c => rw [substT_ch, substT_ch, substT_ch, ih]
    | fld f =>
      rw [substT_fld, substT_fld, substT_append, ih, get?_append]
      cases h : get? V f.first with
      | none => simp [substT]
      | some U => simp [substT_avoids (hv _ (get?_mem h))]

theorem substT_congr {V W : PyDict Str (List Tok)} (h : ∀ k, get? V k = get? W k) (T : List Tok) :
    substT V T = substT W T := by
  simp [substT, h]

/-- Values that are not empty and do not start or end with a separator. -/
def Vals (N : List Str) (V : PyDict Str (List Tok)) : Prop :=
  ∀ p ∈ V, p.2 ≠ [] ∧ tmplOk p.2 = true ∧ noDoubleSep p.2 = true ∧ p.2.head? ≠ some sepTok ∧
    p.2.getLast? ≠ some sepTok ∧ avoids N p.2 = true

theorem avoids_mono {N M : List Str} {T : List Tok} (h : avoids N T = true)
    (hs : ∀ n ∈ M, n ∈ N) : avoids M T = true := by
  simp only [avoids, List.all_eq_true] at h ⊢
  intro x hx
  have := h x hx
  cases x with
  | ch c => rfl
  | fld f =>
    simp only [Bool.not_eq_true', List.contains_eq_mem, decide_eq_false_iff_not] at this ⊢
    exact fun hm => this (hs _ hm)

theorem rem_value {E : List Str} {U : List Tok} (hU : avoids E U = true) (h0 : U ≠ [])
    (hh : U.head? ≠ some sepTok) (b : Bool) (T : List Tok) :
    rem E b (U ++ T) = U ++ rem E false T := by
  have key : ∀ U : List Tok, avoids E U = true → rem E false (U ++ T) = U ++ rem E false T := by
    intro U hU
    induction U with
    | nil => rfl
    | cons x U ih =>
      simp only [avoids, List.all_cons, Bool.and_eq_true] at hU
      have ih := ih hU.2
      cases x with
      | ch c => simp [rem, ih]
      | fld f =>
        have : f.first ∉ E := by simpa using hU.1
        simp [rem, ih, this]
  rw [← key U hU]
  cases b with
  | false => rfl
  | true =>
    apply rem_true
    cases U with
    | nil => exact absurd rfl h0
    | cons x U => simpa using hh

theorem rem_substT {N E : List Str} {V : PyDict Str (List Tok)} (hV : Vals N V)
    (hE : ∀ n ∈ E, n ∈ N) (hd : ∀ k ∈ keys V, k ∉ E) (b : Bool) (T : List Tok) :
    rem E b (substT V T) = substT V (rem E b T) := by
  induction T generalizing b with
  | nil => rfl
  | cons x T ih =>
    cases x with
    | ch c =>
      rw [substT_ch]
      simp only [rem]
      split
      · exact ih _
      · rw [substT_ch, ih]
    | fld f =>
      rw [substT_fld]
      cases h : get? V f.first with
      | none =>
        simp only [Option.getD_none, List.cons_append, List.nil_append, rem]
        split
        · exact ih _
        · rw [substT_fld, h, ih]; rfl
      | some U =>
        obtain ⟨h1, -, -, h4, -, h6⟩ := hV _ (get?_mem h)
        have hk : f.first ∈ keys V := List.mem_map.2 ⟨_, get?_mem h, rfl⟩
        simp only [Option.getD_some]
        rw [rem_value (avoids_mono h6 hE) h1 h4, ih]
        simp only [rem, hd _ hk, ↓reduceIte]
        rw [substT_fld, h]
        rfl

theorem substT_snoc_head {N : List Str} {V : PyDict Str (List Tok)} (hV : Vals N V) (x : Tok) :
    substT V [x] ≠ [] ∧ (x ≠ sepTok → (substT V [x]).head? ≠ some sepTok ∧
      (substT V [x]).getLast? ≠ some sepTok) ∧ (x = sepTok → substT V [x] = [sepTok]) := by
  cases x with
  | ch c =>
    refine ⟨by simp [substT], fun h => ?_, fun h => ?_⟩
    · simpa [substT] using h
    · simp only [sepTok, Tok.ch.injEq] at h; subst h; rfl
  | fld f =>
    refine ⟨?_, fun _ => ?_, by simp [sepTok]⟩
    · cases h : get? V f.first with
      | none => simp [substT, h]
      | some U => simpa [substT, h] using (hV _ (get?_mem h)).1
    · cases h : get? V f.first with
      | none => simp [substT, h, sepTok]
      | some U =>
        obtain ⟨-, -, -, h4, h5, -⟩ := hV _ (get?_mem h)
        simpa [substT, h] using ⟨h4, h5⟩

theorem rs_append_last {A B : List Tok} (h0 : B ≠ []) (h : B.getLast? ≠ some sepTok) :
    rs (A ++ B) = A ++ B := by
  have hl := List.dropLast_concat_getLast h0
  rw [← hl, ← List.append_assoc]
  apply rs_append_ne
  intro hx
  exact h (by rw [List.getLast?_eq_some_getLast h0, hx])

theorem rs_substT {N : List Str} {V : PyDict Str (List Tok)} (hV : Vals N V) (T : List Tok) :
    rs (substT V T) = substT V (rs T) := by
  induction T using list_snoc with
  | h0 => rfl
  | h1 T x ih =>
    obtain ⟨h1, h2, h3⟩ := substT_snoc_head hV x
    by_cases hx : x = sepTok
    · rw [substT_append, h3 hx, hx, rs_append_sep, rs_append_sep, ih]
    · rw [rs_append_ne _ hx, substT_append, rs_append_last h1 (h2 hx).2]

theorem substT_eq_nil {N : List Str} {V : PyDict Str (List Tok)} (hV : Vals N V) {T : List Tok} :
    substT V T = [] ↔ T = [] := by
  cases T with
  | nil => simp [substT]
  | cons x T =>
    have := (substT_snoc_head hV x).1
    rw [show x :: T = [x] ++ T from rfl, substT_append]
    simp [this]

theorem noDoubleSep_substT {N : List Str} {V : PyDict Str (List Tok)} (hV : Vals N V)
    {T : List Tok} (h : noDoubleSep T = true) : noDoubleSep (substT V T) = true := by
  induction T with
  | nil => rfl
  | cons x T ih =>
    obtain ⟨h1, h2⟩ := noDoubleSep_cons h
    have hs := substT_snoc_head hV x
    rw [show x :: T = [x] ++ T from rfl, substT_append]
    refine noDoubleSep_append ?_ (ih h1) fun hl => ?_
    · cases x with
      | ch c => rfl
      | fld f =>
        cases hf : get? V f.first with
        | none => simp [substT, hf, noDoubleSep]
        | some U => simpa [substT, hf] using (hV _ (get?_mem hf)).2.2.1
    · have hx : x = sepTok := Classical.byContradiction fun hn => (hs.2.1 hn).2 hl
      have hT := h2 hx
      cases T with
      | nil => simp [substT]
      | cons y T =>
        have hy : y ≠ sepTok := by simpa using hT
        obtain ⟨g1, g2, -⟩ := substT_snoc_head hV y
        rw [show y :: T = [y] ++ T from rfl, substT_append]
        cases hg : substT V [y] with
        | nil => exact absurd hg g1
        | cons z Z =>
          have := (g2 hy).1
          rw [hg] at this
          simpa using this

/-! ## Classes of templates -/

theorem resolvable_iff {N : List Str} {T : List Tok} : resolvable N T = true ↔
    tmplOk T = true ∧ noDoubleSep T = true ∧ plainIn N T = true ∧
      ∀ n ∈ N, occurrences n T ≤ 1 := by
  simp [resolvable, and_assoc]

theorem tmplOk_sublist {T U : List Tok} (h : List.Sublist T U) (hU : tmplOk U = true) :
    tmplOk T = true := by
  simp only [tmplOk, List.all_eq_true] at hU ⊢
  exact fun x hx => hU x (h.subset hx)

theorem plainIn_sublist {N : List Str} {T U : List Tok} (h : List.Sublist T U)
    (hU : plainIn N U = true) : plainIn N T = true := by
  simp only [plainIn, List.all_eq_true] at hU ⊢
  exact fun x hx => hU x (h.subset hx)

theorem occurrences_sublist {n : Str} {T U : List Tok} (h : List.Sublist T U) :
    occurrences n T ≤ occurrences n U := (h.filter _).length_le

theorem resolvable_rs_rem {N E : List Str} {T : List Tok} (h : resolvable N T = true) :
    resolvable N (rs (rem E false T)) = true := by
  rw [resolvable_iff] at h ⊢
  obtain ⟨h1, h2, h3, h4⟩ := h
  have hs := (rs_sublist (rem E false T)).trans (rem_sublist E false T)
  exact ⟨tmplOk_sublist hs h1, noDoubleSep_rs _ (noDoubleSep_rem _ _ _ h2), plainIn_sublist hs h3,
    fun n hn => Nat.le_trans (occurrences_sublist hs) (h4 n hn)⟩

theorem resolvable_mono {N M : List Str} {T : List Tok} (h : resolvable N T = true)
    (hs : ∀ n ∈ M, n ∈ N) : resolvable M T = true := by
  rw [resolvable_iff] at h ⊢
  obtain ⟨h1, h2, h3, h4⟩ := h
  refine ⟨h1, h2, ?_, fun n hn => h4 n (hs n hn)⟩
  simp only [plainIn, List.all_eq_true] at h3 ⊢
  intro x hx
  have := h3 x hx
  cases x with
  | ch c => rfl
  | fld f =>
    simp only [Bool.or_eq_true, Bool.not_eq_true', List.contains_eq_mem, decide_eq_false_iff_not]
      at this ⊢
    exact this.imp (fun h hm => h (hs _ hm)) id

theorem occurrences_append (n : Str) (A B : List Tok) :
    occurrences n (A ++ B) = occurrences n A + occurrences n B := by
  simp [occurrences]

theorem occurrences_avoids {N : List Str} {T : List Tok} (h : avoids N T = true) {n : Str}
    (hn : n ∈ N) : occurrences n T = 0 := by
  simp only [occurrences, List.length_eq_zero_iff, List.filter_eq_nil_iff]
  intro x hx
  have := List.all_eq_true.1 h x hx
  cases x with
  | ch c => simp
  | fld f =>
    simp only [Bool.not_eq_true', List.contains_eq_mem, decide_eq_false_iff_not] at this
    simp only [beq_iff_eq]
    exact fun he => this (he ▸ hn)

theorem avoids_of_occurrences {n : Str} {T : List Tok} (h : occurrences n T = 0) :
    avoids [n] T = true := by
  simp only [occurrences, List.length_eq_zero_iff, List.filter_eq_nil_iff] at h
  simp only [avoids, List.all_eq_true]
  intro x hx
  have := h x hx
  cases x with
  | ch c => rfl
  | fld f => simpa using this

theorem resolvable_substT {N : List Str} {V : PyDict Str (List Tok)} (hV : Vals N V)
    {T : List Tok} (h : resolvable N T = true) : resolvable N (substT V T) = true := by
  rw [resolvable_iff] at h ⊢
  obtain ⟨h1, h2, h3, h4⟩ := h
  refine ⟨?_, noDoubleSep_substT hV h2, ?_, fun n hn => Nat.le_trans ?_ (h4 n hn)⟩
  · clear h2 h3 h4
    induction T with
    | nil => rfl
    | cons x T ih =>
      obtain ⟨hx, hT⟩ := tmplOk_cons.1 h1
      cases x with
      | ch c => rw [substT_ch]; exact tmplOk_cons.2 ⟨hx, ih hT⟩
      | fld f =>
        rw [substT_fld]
        refine tmplOk_append.2 ⟨?_, ih hT⟩
        cases hf : get? V f.first with
        | none => exact tmplOk_cons.2 ⟨hx, rfl⟩
        | some U => exact (hV _ (get?_mem hf)).2.1
  · clear h1 h2 h4
    induction T with
    | nil => rfl
    | cons x T ih =>
      simp only [plainIn, List.all_cons, Bool.and_eq_true] at h3
      have ih : plainIn N (substT V T) = true := ih h3.2
      cases x with
      | ch c => rw [substT_ch]; simpa [plainIn] using ih
      | fld f =>
        rw [substT_fld]
        simp only [plainIn, List.all_append, Bool.and_eq_true]
        refine ⟨?_, ih⟩
        cases hf : get? V f.first with
        | none => simpa using h3.1
        | some U =>
          have := (hV _ (get?_mem hf)).2.2.2.2.2
          simp only [avoids, List.all_eq_true] at this
          simp only [Option.getD_some, List.all_eq_true]
          intro y hy
          have := this y hy
          cases y with
          | ch c => rfl
          | fld g =>
            simp only [Bool.or_eq_true]
            exact .inl this
  · clear h1 h2 h3 h4
    induction T with
    | nil => exact Nat.le_refl _
    | cons x T ih =>
      rw [show x :: T = [x] ++ T from rfl, substT_append, occurrences_append, occurrences_append]
      refine Nat.add_le_add ?_ ih
      cases x with
      | ch c => exact Nat.le_refl _
      | fld f =>
        cases hf : get? V f.first with
        | none => simp [substT, hf]
        | some U =>
          have := occurrences_avoids (hV _ (get?_mem hf)).2.2.2.2.2 hn
          simp [substT, hf, this]

/-! ## The loop over the empty values -/

theorem split_of_occurrences {n : Str} {T : List Tok} (h : occurrences n T ≤ 1) :
    avoids [n] T = true ∨ ∃ A f B, T = A ++ .fld f :: B ∧ f.first = n ∧ avoids [n] A = true ∧
      avoids [n] B = true := by
  induction T with
  | nil => exact .inl rfl
  | cons x T ih =>
    have ho : occurrences n (x :: T) = occurrences n [x] + occurrences n T :=
      occurrences_append n [x] T
    cases x with
    | ch c =>
      rcases ih (by omega) with h | ⟨A, f, B, rfl, hf, hA, hB⟩
      · exact .inl (by simpa [avoids] using h)
      · exact .inr ⟨.ch c :: A, f, B, rfl, hf, by simpa [avoids] using hA, hB⟩
    | fld f =>
      by_cases hf : f.first = n
      · have : occurrences n [.fld f] = 1 := by simp [occurrences, hf]
        exact .inr ⟨[], f, T, rfl, hf, rfl, avoids_of_occurrences (by omega)⟩
      · rcases ih (by omega) with h | ⟨A, g, B, rfl, hg, hA, hB⟩
        · exact .inl (by simpa [avoids, hf] using h)
        · exact .inr ⟨.fld f :: A, g, B, rfl, hg, by simpa [avoids, hf] using hA, hB⟩

theorem not_mem_of_avoids {n : Str} {T : List Tok} (h : avoids [n] T = true) :
    .fld (plain n) ∉ T := by
  intro hm
  have := List.all_eq_true.1 h _ hm
  simp [plain] at this

theorem rem_of_avoids_left {n : Str} {A : List Tok} (h : avoids [n] A = true) (B : List Tok) :
    rem [n] false (A ++ B) = A ++ rem [n] false B := by
  induction A with
  | nil => rfl
  | cons x A ih =>
    simp only [avoids, List.all_cons, Bool.and_eq_true] at h
    have ih := ih h.2
    cases x with
    | ch c => simp [rem, ih]
    | fld f =>
      have : f.first ∉ [n] := by simpa using h.1
      simp [rem, ih, this]

/-- One round of the loop. -/
theorem trim_print {n : Str} (hn : nameOk n = true) {T : List Tok} (hT : tmplOk T = true)
    (hp : plainIn [n] T = true) (ho : occurrences n T ≤ 1) :
    replaceAll (if isInfix (('{' :: n ++ ['}']) ++ [sep]) (print T) then
      ('{' :: n ++ ['}']) ++ [sep] else '{' :: n ++ ['}']) [] (print T) =
    print (rem [n] false T) := by
  have e1 : ('{' :: n ++ ['}']) ++ [sep] = pat n [sep] := by simp [pat]
  have e2 : '{' :: n ++ ['}'] = pat n [] := by simp [pat]
  rw [e1, e2]
  rcases split_of_occurrences ho with h | ⟨A, f, B, rfl, hf, hA, hB⟩
  · have hm := not_mem_of_avoids h
    rw [isInfix_tmpl_nil hn T hT hm, if_neg (by simp), replaceAll_tmpl hn T hT hm, rem_avoids h]
  · obtain ⟨h1, h2⟩ := tmplOk_append.1 hT
    obtain ⟨h3, h4⟩ := tmplOk_cons.1 h2
    obtain ⟨g1, g2⟩ := plainIn_mem hp (f := f) (by simp) (by simp [hf])
    have hfp : f = plain n := by
      cases f; simp only at g1 g2 hf; subst g1 g2 hf; rfl
    subst hfp
    have hmA := not_mem_of_avoids hA
    have hmB := not_mem_of_avoids hB
    have hpr : print (A ++ .fld (plain n) :: B) = print A ++ (pat n [] ++ print B) := by
      simp [print, printTok, printFld, pat, printBody_plain]
    have hrem : rem [n] false (A ++ .fld (plain n) :: B) = A ++ rem [n] true B := by
      rw [rem_of_avoids_left hA]
      simp [rem, plain]
    rw [hpr, hrem, isInfix_tmpl hn A _ h1 hmA]
    by_cases hs : B.head? = some sepTok
    · obtain ⟨B', rfl⟩ : ∃ B', B = sepTok :: B' := by
        cases B with
        | nil => simp at hs
        | cons x B => simp at hs; exact ⟨B, by rw [hs]⟩
      have hB' : avoids [n] B' = true := by simpa [avoids, sepTok] using hB
      have hpr' : pat n [] ++ print (sepTok :: B') = pat n [sep] ++ print B' := by
        simp [pat, print, printTok, sepTok, sep]
      have hi : isInfix (pat n [sep]) (pat n [sep] ++ print B') = true := by
        have hd := dropPrefix?_append (pat n [sep]) (print B')
        cases hq : pat n [sep] ++ print B' with
        | nil => simp [pat] at hq
        | cons c s =>
          rw [hq] at hd
          simp [isInfix, hd]
      rw [hpr', hi, if_pos rfl, replaceAll, replaceGo_tmpl hn A _ h1 hmA, replaceGo_hit]
      have := replaceAll_tmpl (t := [sep]) (new := []) hn B' (tmplOk_cons.1 h4).2
        (not_mem_of_avoids hB')
      rw [replaceAll] at this
      rw [this]
      simp [rem, sepTok, rem_avoids hB', print_append]
    · have hi : isInfix (pat n [sep]) (pat n [] ++ print B) = false := by
        have e3 : pat n [] ++ print B = '{' :: ((n ++ ['}']) ++ print B) := by simp [pat]
        have hd : dropPrefix? (pat n [sep]) (pat n [] ++ print B) = none := by
          cases h : dropPrefix? (pat n [sep]) (pat n [] ++ print B) with
          | none => rfl
          | some r =>
            exfalso
            have := dropPrefix?_some h
            simp only [pat, List.cons_append, List.append_assoc, List.cons.injEq, true_and,
              List.nil_append, List.append_cancel_left_eq] at this
            cases B with
            | nil => simp [print] at this
            | cons x B =>
              rw [print_cons] at this
              cases x with
              | ch c =>
                simp only [printTok, List.cons_append, List.nil_append, List.cons.injEq] at this
                exact hs (by simp [sepTok, this.1, sep])
              | fld g =>
                simp [printTok, printFld, sep] at this
        rw [e3] at hd ⊢
        rw [isInfix, hd, isInfix_run, isInfix_tmpl_nil hn B h4 hmB]
        · rfl
        · intro c hc
          rcases List.mem_append.1 hc with hc | hc
          · exact (nameOk_chars hn c hc).2.2.1
          · simp at hc; simp [hc]
      rw [hi, if_neg (by simp), replaceAll, replaceGo_tmpl hn A _ h1 hmA, replaceGo_hit]
      have := replaceAll_tmpl (t := []) (new := []) hn B h4 hmB
      rw [replaceAll] at this
      rw [this, rem_true hs, rem_avoids hB]
      simp [print_append]

/-- The names with an empty value, and the other values. -/
def empt (V : PyDict Str (List Tok)) : List Str := keys (V.filter fun p => p.2.isEmpty)
def full (V : PyDict Str (List Tok)) : PyDict Str (List Tok) := V.filter fun p => !p.2.isEmpty

/-- Dropping the empty placeholders, as the loop does. -/
def cut (E : List Str) (T : List Tok) : List Tok := if E = [] then T else rs (rem E false T)

theorem cut_cut (E F : List Str) (T : List Tok) (h : noDoubleSep T = true) :
    cut F (cut E T) = cut (E ++ F) T := by
  unfold cut
  by_cases hE : E = []
  · simp [hE]
  · by_cases hF : F = []
    · simp [hE, hF]
    · simp only [hE, hF, List.append_eq_nil_iff, and_self, ↓reduceIte]
      rw [rs_rem_rs, rem_rem _ _ _ h, Bool.or_self, rem_congr (E' := E ++ F)]
      intro n
      simp [or_comm]

theorem mem_empt {V : PyDict Str (List Tok)} {n : Str} (h : n ∈ empt V) : n ∈ keys V := by
  simp only [empt, keys, List.mem_map, List.mem_filter] at h ⊢
  obtain ⟨p, ⟨hp, -⟩, rfl⟩ := h
  exact ⟨p, hp, rfl⟩

theorem trimEmpty_print (V : PyDict Str (List Tok)) (T : List Tok)
    (hn : ∀ n ∈ keys V, nameOk n = true) (hT : resolvable (keys V) T = true) :
    trimEmpty (print T) (texts V) =
      if empt V ≠ [] ∧ cut (empt V) T = [] then .error .valueError
      else .ok (print (cut (empt V) T)) := by
  induction V generalizing T with
  | nil => simp [texts, trimEmpty, empt, keys, cut]
  | cons p V ih =>
    obtain ⟨n, U⟩ := p
    have hn' : ∀ m ∈ keys V, nameOk m = true := fun m hm => hn m (by
      simp only [keys, List.map_cons, List.mem_cons] at hm ⊢; exact .inr hm)
    have hmono : ∀ {T}, resolvable (keys ((n, U) :: V)) T = true → resolvable (keys V) T = true :=
      fun h => resolvable_mono h fun m hm => by
        simp only [keys, List.map_cons, List.mem_cons] at hm ⊢; exact .inr hm
    cases U with
    | cons x U =>
      have h1 : (print (x :: U)).isEmpty = false := by
        have := mt print_eq_nil.1 (List.cons_ne_nil x U)
        cases hp : print (x :: U) with
        | nil => exact absurd hp this
        | cons _ _ => rfl
      have h2 : empt ((n, x :: U) :: V) = empt V := by simp [empt]
      rw [h2, ← ih T hn' (hmono hT)]
      simp [texts, trimEmpty, h1]
    | nil =>
      have h2 : empt ((n, []) :: V) = [n] ++ empt V := by simp [empt, keys]
      obtain ⟨g1, g2, g3, g4⟩ := resolvable_iff.1 hT
      have hnn : nameOk n = true := hn n (by simp [keys])
      have hp : plainIn [n] T = true := (resolvable_iff.1 (resolvable_mono hT (M := [n])
        (by simp [keys]))).2.2.1
      have hr := trim_print hnn g1 hp (g4 n (by simp [keys]))
      have hc : cut [n] T = rs (rem [n] false T) := by simp [cut]
      rw [h2, ← cut_cut [n] _ T g2, hc]
      have ih := ih (rs (rem [n] false T)) hn' (hmono (resolvable_rs_rem hT))
      simp only [texts, List.map_cons] at ih ⊢
      simp only [trimEmpty]
      rw [hr, rstrip_print]
      simp only [show (print ([] : List Tok)).isEmpty = true from rfl, ↓reduceIte]
      by_cases he : rs (rem [n] false T) = []
      · rw [he]
        have hcn : cut (empt V) [] = [] := by simp [cut, rem, rs]
        simp [print, hcn]
      · have h1 : (print (rs (rem [n] false T))).isEmpty = false := by
          cases hp : print (rs (rem [n] false T)) with
          | nil => exact absurd (print_eq_nil.1 hp) he
          | cons _ _ => rfl
        rw [h1, if_neg (by simp), ih]
        by_cases hV : empt V = []
        · simp [hV, cut, he]
        · simp [hV]

/-- Resolving, as a function on templates. -/
def step (V : PyDict Str (List Tok)) (T : List Tok) : Except Err (List Tok) :=
  if empt V ≠ [] ∧ cut (empt V) T = [] then .error .valueError
  else .ok (substT (full V) (cut (empt V) T))

theorem avoids_rem (E : List Str) (b : Bool) (T : List Tok) : avoids E (rem E b T) = true := by
  induction T generalizing b with
  | nil => rfl
  | cons x T ih =>
    cases x with
    | ch c =>
      simp only [rem]
      split
      · exact ih _
      · simpa [avoids] using ih false
    | fld f =>
      simp only [rem]
      split
      · exact ih _
      · rename_i h
        simpa [avoids, h] using ih false

theorem avoids_sublist {N : List Str} {T U : List Tok} (h : List.Sublist T U)
    (hU : avoids N U = true) : avoids N T = true := by
  simp only [avoids, List.all_eq_true] at hU ⊢
  exact fun x hx => hU x (h.subset hx)

theorem avoids_cut (E : List Str) (T : List Tok) : avoids E (cut E T) = true := by
  unfold cut
  split
  · rename_i h
    simp only [h, avoids, List.all_eq_true]
    intro x _
    cases x <;> simp
  · exact avoids_sublist (rs_sublist _) (avoids_rem _ _ _)

theorem resolvable_cut {N E : List Str} {T : List Tok} (h : resolvable N T = true) :
    resolvable N (cut E T) = true := by
  unfold cut
  split
  · exact h
  · exact resolvable_rs_rem h

theorem get?_full {V : PyDict Str (List Tok)} (hnd : (keys V).Nodup) {n : Str}
    (h : n ∉ empt V) : get? (full V) n = get? V n := by
  induction V with
  | nil => rfl
  | cons p V ih =>
    obtain ⟨m, U⟩ := p
    simp only [keys, List.map_cons, List.nodup_cons] at hnd
    cases U with
    | nil =>
      have h1 : full ((m, []) :: V) = full V := by simp [full]
      simp only [empt, List.filter_cons, List.isEmpty_nil, ↓reduceIte, keys, List.map_cons,
        List.mem_cons, not_or] at h
      rw [h1, ih hnd.2 h.2, get?]
      simp [Ne.symm h.1]
    | cons x U =>
      have h1 : full ((m, x :: U) :: V) = (m, x :: U) :: full V := by simp [full]
      have h2 : n ∉ empt V := by simpa [empt] using h
      rw [h1, get?, get?, ih hnd.2 h2]

theorem resolveField_print (V : PyDict Str (List Tok)) (T : List Tok)
    (hn : ∀ n ∈ keys V, nameOk n = true) (hnd : (keys V).Nodup)
    (hT : resolvable (keys V) T = true) :
    resolveField (texts V) (print T) = (step V T).map print := by
  unfold resolveField step
  rw [trimEmpty_print V T hn hT]
  split
  · rfl
  · obtain ⟨g1, -, g3, -⟩ := resolvable_iff.1 (resolvable_cut (E := empt V) hT)
    simp only [bind, Except.bind, Except.map]
    rw [partialFormat_print _ _ g1 (by rw [keys_texts]; exact g3), fillText_texts]
    congr 2
    have ha := avoids_cut (empt V) T
    generalize cut (empt V) T = X at ha
    induction X with
    | nil => rfl
    | cons x X ih =>
      simp only [avoids, List.all_cons, Bool.and_eq_true] at ha
      have ih := ih ha.2
      cases x with
      | ch c => rw [substT_ch, substT_ch, ih]
      | fld f =>
        have : f.first ∉ empt V := by simpa using ha.1
        rw [substT_fld, substT_fld, ih, get?_full hnd this]

theorem empt_append (V W : PyDict Str (List Tok)) : empt (V ++ W) = empt V ++ empt W := by
  simp [empt, keys]

theorem full_append (V W : PyDict Str (List Tok)) : full (V ++ W) = full V ++ full W := by
  simp [full]

theorem vals_full {N : List Str} {V : PyDict Str (List Tok)}
    (h : ∀ p ∈ V, valueOk N p.2 = true) : Vals N (full V) := by
  intro p hp
  simp only [full, List.mem_filter] at hp
  have := h p hp.1
  simp only [valueOk, Bool.and_eq_true, bne_iff_ne] at this
  refine ⟨?_, this.1.1.1.1, this.1.1.1.2, this.1.1.2, this.1.2, this.2⟩
  intro h
  simp [h] at hp

theorem mem_keys_full {V : PyDict Str (List Tok)} {n : Str} (h : n ∈ keys (full V)) :
    n ∈ keys V := by
  simp only [full, keys, List.mem_map, List.mem_filter] at h ⊢
  obtain ⟨p, ⟨hp, -⟩, rfl⟩ := h
  exact ⟨p, hp, rfl⟩

theorem step_append {V W : PyDict Str (List Tok)} {T : List Tok}
    (hnd : (keys (V ++ W)).Nodup) (hT : resolvable (keys (V ++ W)) T = true)
    (hv : ∀ p ∈ V ++ W, valueOk (keys (V ++ W)) p.2 = true) :
    step (V ++ W) T = step V T >>= step W := by
  have hV : Vals (keys (V ++ W)) (full V) := vals_full fun p hp => hv p (by simp [hp])
  have hdis : ∀ k ∈ keys V, k ∉ keys W := by
    simp only [keys, List.map_append, List.nodup_append] at hnd
    intro k h1 h2
    exact hnd.2.2 k h1 k h2 rfl
  have hsub : ∀ n ∈ keys W, n ∈ keys (V ++ W) := by
    intro n hn
    simp only [keys, List.map_append, List.mem_append] at hn ⊢
    exact .inr hn
  have hcut : cut (empt W) (substT (full V) (cut (empt V) T)) =
      substT (full V) (cut (empt V ++ empt W) T) := by
    rw [← cut_cut _ _ _ (resolvable_iff.1 hT).2.1]
    generalize cut (empt V) T = X
    unfold cut
    split
    · rfl
    · rw [rem_substT hV (fun n hn => hsub n (mem_empt hn))
        (fun k hk he => hdis k (mem_keys_full hk) (mem_empt he)), rs_substT hV]
  have hle : cut (empt V) T = [] → cut (empt V ++ empt W) T = [] := by
    intro h
    rw [← cut_cut _ _ _ (resolvable_iff.1 hT).2.1, h]
    simp [cut, rem, rs]
  unfold step
  rw [empt_append, full_append]
  by_cases h1 : empt V ≠ [] ∧ cut (empt V) T = []
  · rw [if_pos h1, if_pos ⟨by simp [h1.1], hle h1.2⟩]
    rfl
  · rw [if_neg h1]
    simp only [bind, Except.bind]
    rw [hcut]
    simp only [substT_eq_nil hV]
    by_cases h2 : empt W ≠ [] ∧ cut (empt V ++ empt W) T = []
    · rw [if_pos h2, if_pos ⟨by simp [h2.1], h2.2⟩]
    · rw [if_neg h2, if_neg, substT_substT]
      · intro p hp
        exact avoids_mono (hV p hp).2.2.2.2.2 fun n hn => hsub n (mem_keys_full hn)
      · rintro ⟨h3, h4⟩
        by_cases hW : empt W = []
        · rw [hW, List.append_nil] at h3 h4
          exact h1 ⟨h3, h4⟩
        · exact h2 ⟨hW, h4⟩

theorem step_resolvable {V : PyDict Str (List Tok)} {N : List Str} {T U : List Tok}
    (hT : resolvable N T = true) (hv : ∀ p ∈ V, valueOk N p.2 = true) (h : step V T = .ok U) :
    resolvable N U = true := by
  unfold step at h
  split at h
  · cases h
  · injection h with h
    rw [← h]
    exact resolvable_substT (vals_full hv) (resolvable_cut hT)

theorem step_perm {V W : PyDict Str (List Tok)} (h : V.Perm W) (hnd : (keys V).Nodup)
    (T : List Tok) : step V T = step W T := by
  have he : ∀ n, n ∈ empt V ↔ n ∈ empt W := fun n => ((h.filter _).map _).mem_iff
  have h0 : empt V = [] ↔ empt W = [] := by
    constructor <;> intro h0 <;> apply List.eq_nil_iff_forall_not_mem.2 <;> intro n hn
    · have := (he n).2 hn; rw [h0] at this; simp at this
    · have := (he n).1 hn; rw [h0] at this; simp at this
  have hc : cut (empt V) T = cut (empt W) T := by
    unfold cut
    rw [rem_congr he]
    simp [h0]
  have hfn : (keys (full V)).Nodup := (List.filter_sublist.map _).nodup hnd
  have hs : substT (full V) (cut (empt W) T) = substT (full W) (cut (empt W) T) := by
    apply substT_congr
    intro k
    have hp : (full V).Perm (full W) := h.filter _
    have hfn' : (keys (full W)).Nodup := (hp.map _).nodup_iff.1 hfn
    cases hk : get? (full V) k with
    | none =>
      symm
      rw [get?_eq_none_iff] at hk ⊢
      exact fun hm => hk ((hp.map _).mem_iff.2 hm)
    | some v => exact (get?_of_mem hfn' (hp.mem_iff.1 (get?_mem hk))).symm
  unfold step
  rw [hc, hs]
  simp [h0]

theorem resolveAll_print (vs : List (PyDict Str (List Tok))) (T : List Tok) (N : List Str)
    (hN : ∀ n ∈ keys vs.flatten, n ∈ N)
    (hn : ∀ n ∈ keys vs.flatten, nameOk n = true) (hnd : (keys vs.flatten).Nodup)
    (hT : resolvable N T = true)
    (hv : ∀ p ∈ vs.flatten, valueOk N p.2 = true) :
    resolveAll (print T) (vs.map texts) = (step vs.flatten T).map print := by
  induction vs generalizing T with
  | nil =>
    have : substT [] T = T := substT_avoids (by
      simp only [avoids, List.all_eq_true]; intro x _; cases x <;> simp [keys])
    simp [resolveAll, step, empt, keys, cut, full, Except.map, this]
  | cons V vs ih =>
    simp only [List.flatten_cons] at hN hn hnd hv ⊢
    have hsub : ∀ n, n ∈ keys V → n ∈ keys (V ++ vs.flatten) := by
      intro n hm; simp only [keys, List.map_append, List.mem_append] at hm ⊢; exact .inl hm
    have hsub' : ∀ n, n ∈ keys vs.flatten → n ∈ keys (V ++ vs.flatten) := by
      intro n hm; simp only [keys, List.map_append, List.mem_append] at hm ⊢; exact .inr hm
    have hnd' : (keys V).Nodup ∧ (keys vs.flatten).Nodup := by
      simp only [keys, List.map_append, List.nodup_append] at hnd ⊢
      exact ⟨hnd.1, hnd.2.1⟩
    rw [step_append hnd (resolvable_mono hT hN)]
    · simp only [List.map_cons, resolveAll]
      rw [resolveField_print V T (fun n hm => hn n (hsub n hm)) hnd'.1
        (resolvable_mono hT fun n hm => hN n (hsub n hm))]
      cases hs : step V T with
      | error e => rfl
      | ok U =>
        have hU := step_resolvable hT (fun p hp => hv p (by simp [hp])) hs
        exact ih U (fun n hm => hN n (hsub' n hm)) (fun n hm => hn n (hsub' n hm)) hnd'.2 hU
          (fun p hp => hv p (by simp only [List.mem_append]; exact .inr hp))
    · intro p hp
      have := hv p hp
      simp only [valueOk, Bool.and_eq_true] at this ⊢
      exact ⟨this.1, avoids_mono this.2 hN⟩

end Arti.Fmt
