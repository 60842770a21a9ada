import Verif.Spec.Literals
import Verif.Lemmas.Resolve
import Verif.Lemmas.PythonTypes

/-!
# Lemmas: the text of literals, and what formatting does to texts
-/

namespace Arti
namespace Lit
open Fmt Stg Spec TH Typ

/-! ## Texts without braces -/

instance (s : Str) : Decidable (NoBraces s) := by unfold NoBraces; infer_instance

theorem parse_noBraces {s : Str} (h : NoBraces s) : parse s = .ok (s.map .ch) := by
  unfold parse
  induction s with
  | nil => rfl
  | cons c s ih =>
    rw [parseGo_ch c (h c (by simp)).1 (h c (by simp)).2, ih fun d hd => h d (by simp [hd])]
    rfl

theorem render_chars (get : Fld → Except Err Str) (s : Str) : render get (s.map .ch) = .ok s := by
  induction s with
  | nil => rfl
  | cons c s ih => simp [render, ih, Except.map]

theorem dropPrefix?_brace {p s : Str} (h : NoBraces s) : dropPrefix? ('{' :: p) s = none := by
  cases s with
  | nil => rfl
  | cons c s =>
    have := (h c (by simp)).1
    simp [dropPrefix?, this.symm]

theorem noBraces_tail {c : Char} {s : Str} (h : NoBraces (c :: s)) : NoBraces s :=
  fun d hd => h d (by simp [hd])

theorem replaceAll_noBraces {p new s : Str} (h : NoBraces s) : replaceAll ('{' :: p) new s = s := by
  unfold replaceAll
  induction s with
  | nil => rfl
  | cons c s ih =>
    rw [replaceGo, dropPrefix?_brace h]
    simp [ih (noBraces_tail h)]

theorem isInfix_noBraces {p s : Str} (h : NoBraces s) : isInfix ('{' :: p) s = false := by
  induction s with
  | nil => rfl
  | cons c s ih =>
    rw [isInfix, dropPrefix?_brace h, ih (noBraces_tail h)]
    rfl

/-- The text does not end in a separator. -/
def Closed (s : Str) : Prop := ∃ u c, s = u ++ [c] ∧ c ≠ sep

theorem rstrip_closed {s : Str} (h : Closed s) : rstrip sep s = s := by
  obtain ⟨u, c, rfl, hc⟩ := h
  exact rstrip_append_ne u hc

theorem trimEmpty_noBraces {s : Str} (h : NoBraces s) (hc : Closed s) (vals : List (Str × Str)) :
    trimEmpty s vals = .ok s := by
  induction vals with
  | nil => rfl
  | cons p vals ih =>
    obtain ⟨n, v⟩ := p
    have hne : s ≠ [] := by obtain ⟨u, c, rfl, -⟩ := hc; simp
    rw [trimEmpty]
    split
    · have h1 : isInfix (('{' :: n ++ ['}']) ++ [sep]) s = false := isInfix_noBraces h
      have h2 : replaceAll ('{' :: n ++ ['}']) [] s = s := replaceAll_noBraces h
      simp only [h1, Bool.false_eq_true, if_false, h2, rstrip_closed hc]
      rw [if_neg (by simpa using hne), ih]
    · exact ih

theorem resolveField_noBraces {s : Str} (h : NoBraces s) (hc : Closed s) (vals : List (Str × Str)) :
    resolveField vals s = .ok s := by
  rw [resolveField, trimEmpty_noBraces h hc]
  show partialFormat vals s = _
  rw [partialFormat, parse_noBraces h]
  exact render_chars _ s

theorem genField_noBraces {kw : PyDict Str FVal} {s : Str} (h : NoBraces s) :
    genField kw s = .ok s := by
  unfold genField stripPartitionIndexes strFormat
  simp only [bind, Except.bind, parse_noBraces h, render_chars]

/-! ## The text of JSON documents -/

theorem noBraces_append {s t : Str} (hs : NoBraces s) (ht : NoBraces t) : NoBraces (s ++ t) := by
  intro c hc
  rcases List.mem_append.1 hc with h | h
  · exact hs c h
  · exact ht c h

theorem noBraces_cons {c : Char} {s : Str} (hc : c ≠ '{' ∧ c ≠ '}') (hs : NoBraces s) :
    NoBraces (c :: s) := by
  intro d hd
  rcases List.mem_cons.1 hd with h | h
  · subst h; exact hc
  · exact hs d h

theorem noBraces_digitChar (n : Nat) : digitChar (n % 16) ≠ '{' ∧ digitChar (n % 16) ≠ '}' := by
  have : ∀ k < 16, digitChar k ≠ '{' ∧ digitChar k ≠ '}' := by decide +kernel
  exact this _ (Nat.mod_lt _ (by omega))

theorem noBraces_hex4 (n : Nat) : NoBraces (Json.hex4 n) := by
  intro c hc
  simp only [Json.hex4, List.mem_cons, List.not_mem_nil, or_false] at hc
  rcases hc with h | h | h | h <;> (subst h; exact noBraces_digitChar _)

theorem noBraces_escShort {c : Char} {s : Str} (h : Json.escShort c = some s) : NoBraces s := by
  have key : s ∈ ([['\\', '"'], ['\\', '\\'], ['\\', 'n'], ['\\', 'r'], ['\\', 't'],
      ['\\', 'b'], ['\\', 'f']] : List Str) := by
    unfold Json.escShort at h
    repeat' split at h
    all_goals first
      | (injection h with h; subst h; simp)
      | cases h
  revert s
  unfold NoBraces
  intro s _ hs
  revert s
  intro s _ hs
  simp only [List.mem_cons, List.not_mem_nil, or_false] at hs
  rcases hs with rfl | rfl | rfl | rfl | rfl | rfl | rfl <;> decide +kernel

theorem noBraces_escAscii {c : Char} (hc : c ≠ '{' ∧ c ≠ '}') : NoBraces (Json.escAscii c) := by
  have hu : ∀ n, NoBraces ('\\' :: 'u' :: Json.hex4 n) := fun n =>
    noBraces_cons (by decide) (noBraces_cons (by decide) (noBraces_hex4 n))
  unfold Json.escAscii
  split
  · rename_i s h; exact noBraces_escShort h
  · split
    · exact noBraces_cons hc (by intro d hd; simp at hd)
    · split
      · exact hu _
      · exact noBraces_append (hu _) (hu _)

theorem noBraces_writeStr {s : Str} (h : NoBraces s) : NoBraces (Json.writeStr Json.python s) := by
  refine noBraces_append (noBraces_cons (by decide) ?_) (noBraces_cons (by decide) (by intro d hd; simp at hd))
  intro c hc
  obtain ⟨d, hd, hc⟩ := List.mem_flatMap.1 hc
  exact noBraces_escAscii (h d hd) c hc

theorem noBraces_intToStr (i : Int) : NoBraces (intToStr i) := by
  have hd : ∀ n, NoBraces (natToStr 10 n) := by
    intro n c hc
    have h1 := natToStr_chars (by omega) (by omega) n c hc
    constructor <;> (rintro rfl; revert h1; decide +kernel)
  cases i with
  | ofNat n => exact hd n
  | negSucc n => exact noBraces_cons (by decide) (hd _)

theorem noBraces_flt {t : Str} (h : Json.FltOk t) : NoBraces t := by
  rcases h with rfl | rfl | rfl | ⟨c, ds, rfl, h, -⟩
  · decide +kernel
  · decide +kernel
  · decide +kernel
  · intro d hd
    have := h d hd
    constructor <;> (rintro rfl; revert this; decide +kernel)

/-- No object in a document, and no string with braces. -/
def flatNoBraces : Json → Prop
  | .str s => NoBraces s
  | .flt t => Json.FltOk t
  | .arr _ => False
  | .obj _ => False
  | _ => True

theorem noBraces_flat {j : Json} (h : flatNoBraces j) : NoBraces (Json.write Json.python j) := by
  cases j with
  | null => decide +kernel
  | bool b => cases b <;> decide +kernel
  | int i => exact noBraces_intToStr i
  | flt t => exact noBraces_flt h
  | str s => exact noBraces_writeStr h
  | arr _ => exact h.elim
  | obj _ => exact h.elim

theorem noBraces_items {js : List Json} (h : ∀ j ∈ js, flatNoBraces j) (b : Bool) :
    NoBraces (Json.writeItems Json.python b js) := by
  induction js generalizing b with
  | nil => unfold Json.writeItems; intro c hc; simp at hc; subst hc; decide
  | cons j js ih =>
    unfold Json.writeItems
    refine noBraces_append ?_ (noBraces_append (noBraces_flat (h j (by simp)))
      (ih (fun j hj => h j (by simp [hj])) _))
    cases b <;> decide +kernel

/-! ## The ends of texts -/

theorem closed_append {s t : Str} (h : Closed t) : Closed (s ++ t) := by
  obtain ⟨u, c, rfl, hc⟩ := h
  exact ⟨s ++ u, c, by simp, hc⟩

theorem closed_cons {c : Char} {t : Str} (h : Closed t) : Closed (c :: t) := closed_append (s := [c]) h

theorem closed_of {s : Str} (h0 : s ≠ []) (h : ∀ c ∈ s, c ≠ sep) : Closed s := by
  rw [← List.dropLast_append_getLast h0]
  exact ⟨_, _, rfl, h _ (List.getLast_mem h0)⟩

theorem closed_intToStr (i : Int) : Closed (intToStr i) := by
  refine closed_of (Json.intToStr_ne_nil i) ?_
  have hd : ∀ n, ∀ c ∈ natToStr 10 n, c ≠ sep := by
    intro n c hc
    have h1 := natToStr_chars (by omega) (by omega) n c hc
    rintro rfl; revert h1; decide +kernel
  cases i with
  | ofNat n => exact hd n
  | negSucc n =>
    intro c hc
    rcases List.mem_cons.1 hc with h | h
    · subst h; decide
    · exact hd _ c h

theorem closed_flt {t : Str} (h : Json.FltOk t) : Closed t := by
  refine closed_of (Json.fltOk_ne_nil h) ?_
  rcases h with rfl | rfl | rfl | ⟨c, ds, rfl, h, -⟩
  · decide +kernel
  · decide +kernel
  · decide +kernel
  · intro d hd
    have := h d hd
    rintro rfl; revert this; decide +kernel

theorem closed_writeItems (js : List Json) (b : Bool) :
    Closed (Json.writeItems Json.python b js) := by
  induction js generalizing b with
  | nil => unfold Json.writeItems; exact ⟨[], _, rfl, by decide⟩
  | cons j js ih => unfold Json.writeItems; exact closed_append (closed_append (ih _))

theorem closed_writeFields (js : List (Str × Json)) (b : Bool) :
    Closed (Json.writeFields Json.python b js) := by
  induction js generalizing b with
  | nil => unfold Json.writeFields; exact ⟨[], _, rfl, by decide⟩
  | cons j js ih =>
    obtain ⟨k, j⟩ := j
    unfold Json.writeFields
    exact closed_append (closed_append (closed_cons (closed_append (closed_append (ih _)))))

theorem closed_write {j : Json} (h : Json.Ok j) : Closed (Json.write Json.python j) := by
  cases j with
  | null => exact closed_of (by decide) (by decide)
  | bool b => cases b <;> exact closed_of (by decide) (by decide)
  | int i => exact closed_intToStr i
  | flt t => exact closed_flt h
  | str s => exact ⟨_, '"', rfl, by decide⟩
  | arr js => unfold Json.write; exact closed_cons (closed_writeItems js _)
  | obj js => unfold Json.write; exact closed_cons (closed_writeFields js _)

end Lit
end Arti
