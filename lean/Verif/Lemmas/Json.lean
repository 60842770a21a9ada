import Verif.Model.Json
import Verif.Lemmas.Digits

/-!
# Reading what was written
-/

namespace Arti.Json
open Part

set_option linter.unusedSimpArgs false

/-! ## Characters -/

theorem readHex4_hex4 {n : Nat} (h : n < 65536) (r : Str) : readHex4 (hex4 n ++ r) = some (n, r) := by
  have h1 := digitVal_digitChar (n / 4096 % 16) (Nat.mod_lt _ (by omega))
  have h2 := digitVal_digitChar (n / 256 % 16) (Nat.mod_lt _ (by omega))
  have h3 := digitVal_digitChar (n / 16 % 16) (Nat.mod_lt _ (by omega))
  have h4 := digitVal_digitChar (n % 16) (Nat.mod_lt _ (by omega))
  simp only [hex4, List.cons_append, List.nil_append, readHex4, h1, h2, h3, h4, Option.bind_eq_bind,
    Option.bind_some, Option.some.injEq, Prod.mk.injEq, and_true]
  omega

theorem toNat_valid (c : Char) : c.toNat < 55296 ∨ (57343 < c.toNat ∧ c.toNat < 1114112) := c.valid

theorem ofNat_toNat (c : Char) : Char.ofNat c.toNat = c := by
  simp

theorem readU_bmp (c : Char) (h : c.toNat < 65536) (r : Str) :
    readU (hex4 c.toNat ++ r) = some (c, r) := by
  have hv := toNat_valid c
  simp only [readU, readHex4_hex4 h]
  rw [if_neg (by omega), if_neg (by omega), ofNat_toNat]

theorem readU_two {n m : Nat} (hn : 55296 ≤ n ∧ n < 56320) (hm : 56320 ≤ m ∧ m < 57344) (r : Str) :
    readU (hex4 n ++ '\\' :: 'u' :: (hex4 m ++ r)) =
      some (Char.ofNat (65536 + (n - 55296) * 1024 + (m - 56320)), r) := by
  simp only [readU]
  rw [readHex4_hex4 (by omega)]
  simp only
  rw [if_pos hn, readHex4_hex4 (by omega)]
  simp only
  rw [if_pos hm]

theorem readU_pair {c : Char} (h : 65536 ≤ c.toNat) {n m : Nat}
    (hn : n = 55296 + (c.toNat - 65536) / 1024) (hm : m = 56320 + (c.toNat - 65536) % 1024) (r : Str) :
    readU (hex4 n ++ '\\' :: 'u' :: (hex4 m ++ r)) = some (c, r) := by
  have hv := toNat_valid c
  rw [readU_two (by omega) (by omega)]
  have : 65536 + (n - 55296) * 1024 + (m - 56320) = c.toNat := by omega
  rw [this, ofNat_toNat]

theorem readChar_plain (c : Char) (h : c ≠ '\\') (h' : c ≠ '"') (h'' : ¬ c.toNat < 32) (r : Str) :
    readChar (c :: r) = some (c, r) := by
  unfold readChar
  split
  all_goals first
    | (rename_i he; simp only [List.cons.injEq] at he; exact absurd he.1 h)
    | skip
  · rename_i he
    simp only [List.cons.injEq] at he
    obtain ⟨rfl, rfl⟩ := he
    simp [h, h', h'']
  · rename_i he; simp at he

/-- What `readChar` has to do with an escape function. -/
structure EscOk (esc : Char → Str) : Prop where
  read : ∀ c r, readChar (esc c ++ r) = some (c, r)
  head : ∀ c, ∃ x xs, esc c = x :: xs ∧ x ≠ '"'

theorem escShort_read {c : Char} {s : Str} (h : escShort c = some s) (r : Str) :
    readChar (s ++ r) = some (c, r) ∧ ∃ x xs, s = x :: xs ∧ x ≠ '"' := by
  unfold escShort at h
  split at h
  · rename_i hc; subst hc; cases h; exact ⟨rfl, _, _, rfl, by decide⟩
  split at h
  · rename_i hc; subst hc; cases h; exact ⟨rfl, _, _, rfl, by decide⟩
  split at h
  · rename_i hc; subst hc; cases h; exact ⟨rfl, _, _, rfl, by decide⟩
  split at h
  · rename_i hc; subst hc; cases h; exact ⟨rfl, _, _, rfl, by decide⟩
  split at h
  · rename_i hc; subst hc; cases h; exact ⟨rfl, _, _, rfl, by decide⟩
  split at h
  · rename_i hc; subst hc; cases h; exact ⟨rfl, _, _, rfl, by decide⟩
  split at h
  · rename_i hc; subst hc; cases h; exact ⟨rfl, _, _, rfl, by decide⟩
  · simp at h

theorem escShort_none {c : Char} (h : escShort c = none) : c ≠ '"' ∧ c ≠ '\\' := by
  constructor <;> (rintro rfl; simp [escShort] at h)

theorem readChar_u (s : Str) : readChar ('\\' :: 'u' :: s) = readU s := rfl

theorem escCtrl_ok : EscOk escCtrl := by
  have key : ∀ c r, readChar (escCtrl c ++ r) = some (c, r) ∧ ∃ x xs, escCtrl c = x :: xs ∧ x ≠ '"' := by
    intro c r
    unfold escCtrl
    cases hs : escShort c with
    | some s => exact escShort_read hs r
    | none =>
      obtain ⟨h1, h2⟩ := escShort_none hs
      simp only
      split
      · rename_i hlt
        refine ⟨?_, _, _, rfl, by decide⟩
        simp only [List.cons_append, readChar_u]
        exact readU_bmp c (by omega) r
      · rename_i hlt
        exact ⟨readChar_plain c h2 h1 hlt r, c, [], rfl, h1⟩
  exact ⟨fun c r => (key c r).1, fun c => (key c []).2⟩

theorem escAscii_low {c : Char} (hs : escShort c = none) (h : 32 ≤ c.toNat ∧ c.toNat ≤ 126) :
    escAscii c = [c] := by
  simp only [escAscii, hs]; rw [if_pos h]

theorem escAscii_mid {c : Char} (hs : escShort c = none) (h : ¬ (32 ≤ c.toNat ∧ c.toNat ≤ 126))
    (h' : c.toNat < 65536) : escAscii c = '\\' :: 'u' :: hex4 c.toNat := by
  simp only [escAscii, hs]; rw [if_neg h, if_pos h']

theorem escAscii_high {c : Char} (hs : escShort c = none) (h : ¬ (32 ≤ c.toNat ∧ c.toNat ≤ 126))
    (h' : ¬ c.toNat < 65536) :
    escAscii c = '\\' :: 'u' :: (hex4 (hiSur c) ++ '\\' :: 'u' :: hex4 (loSur c)) := by
  simp only [escAscii, hs]; rw [if_neg h, if_neg h']; rfl

theorem escAscii_ok : EscOk escAscii := by
  have key : ∀ c r, readChar (escAscii c ++ r) = some (c, r) ∧
      ∃ x xs, escAscii c = x :: xs ∧ x ≠ '"' := by
    intro c r
    cases hs : escShort c with
    | some s =>
      have := escShort_read hs r
      simpa only [escAscii, hs] using this
    | none =>
      obtain ⟨h1, h2⟩ := escShort_none hs
      by_cases hl : 32 ≤ c.toNat ∧ c.toNat ≤ 126
      · rw [escAscii_low hs hl]
        exact ⟨readChar_plain c h2 h1 (by omega) r, c, [], rfl, h1⟩
      · by_cases hm : c.toNat < 65536
        · rw [escAscii_mid hs hl hm]
          refine ⟨?_, _, _, rfl, by decide⟩
          rw [List.cons_append, List.cons_append, readChar_u]
          exact readU_bmp c hm r
        · rw [escAscii_high hs hl hm]
          refine ⟨?_, _, _, rfl, by decide⟩
          rw [List.cons_append, List.cons_append, readChar_u, List.append_assoc, List.cons_append,
            List.cons_append]
          exact readU_pair (Nat.le_of_not_lt hm) rfl rfl r
  exact ⟨fun c r => (key c r).1, fun c => (key c []).2⟩

/-- The layouts of both writers. -/
structure StyleOk (st : Style) : Prop where
  esc : EscOk st.esc
  pad : ∀ s, skipWs (st.pad ++ s) = skipWs s

theorem python_ok : StyleOk python := ⟨escAscii_ok, fun _ => rfl⟩
theorem compact_ok : StyleOk compact := ⟨escCtrl_ok, fun _ => rfl⟩

/-! ## Strings -/

theorem readStr_write {st : Style} (h : StyleOk st) : ∀ (s : Str) (fuel : Nat) (r : Str),
    s.length < fuel → readStr fuel (s.flatMap st.esc ++ '"' :: r) = some (s, r)
  | [], fuel, r, hf => by
    cases fuel with
    | zero => simp at hf
    | succ fuel => simp [readStr]
  | c :: s, fuel, r, hf => by
    cases fuel with
    | zero => simp at hf
    | succ fuel =>
      have ih := readStr_write h s fuel r (by simpa using hf)
      obtain ⟨x, xs, hx, hne⟩ := h.esc.head c
      have hr := h.esc.read c (s.flatMap st.esc ++ '"' :: r)
      simp only [List.flatMap_cons, List.append_assoc] at hr ⊢
      rw [hx] at hr ⊢
      simp only [List.cons_append] at hr ⊢
      unfold readStr
      split
      · rename_i he
        simp only [List.cons.injEq] at he
        exact absurd he.1 hne
      · rw [hr]
        simp only [ih]

theorem flatMap_length {st : Style} (h : StyleOk st) (s : Str) :
    s.length ≤ (s.flatMap st.esc).length := by
  induction s with
  | nil => simp
  | cons c s ih =>
    obtain ⟨x, xs, hx, _⟩ := h.esc.head c
    simp only [List.flatMap_cons, hx, List.length_append, List.length_cons]
    omega

theorem readStr_quoted {st : Style} (h : StyleOk st) (s r : Str) :
    readStr ((s.flatMap st.esc ++ '"' :: r).length + 1) (s.flatMap st.esc ++ '"' :: r) =
      some (s, r) := by
  apply readStr_write h
  have := flatMap_length h s
  simp only [List.length_append, List.length_cons]
  omega

/-! ## Numbers -/

/-- The text of a float: a special value, or number characters that are not an int. -/
def FltOk (t : Str) : Prop :=
  t = "NaN".toList ∨ t = "Infinity".toList ∨ t = "-Infinity".toList ∨
  (∃ c ds, t = c :: ds ∧ (∀ x ∈ t, isNumChar x = true) ∧
    (if c = '-' then ds else t) ≠ [] ∧ digitsVal 10 0 (if c = '-' then ds else t) = none)

/-- What follows a number does not continue it. -/
def RestOk (r : Str) : Prop := ∀ c, r.head? = some c → isNumChar c = false

theorem takeWhile_rest {t r : Str} (ht : ∀ x ∈ t, isNumChar x = true) (hr : RestOk r) :
    (t ++ r).takeWhile isNumChar = t ∧ (t ++ r).dropWhile isNumChar = r := by
  induction t with
  | nil =>
    cases r with
    | nil => simp
    | cons c r => simp [hr c rfl]
  | cons c t ih =>
    have hc := ht c (by simp)
    obtain ⟨h1, h2⟩ := ih fun x hx => ht x (List.mem_cons_of_mem _ hx)
    simp [hc, h1, h2]

theorem readNum_eq {c : Char} {ds r : Str} (ht : ∀ x ∈ c :: ds, isNumChar x = true) (hr : RestOk r)
    (hne : (if c = '-' then ds else c :: ds) ≠ []) :
    readNum (c :: ds ++ r) = match digitsVal 10 0 (if c = '-' then ds else c :: ds) with
      | some n => some (.int (if c = '-' then -(n : Int) else n), r)
      | none => some (.flt (c :: ds), r) := by
  obtain ⟨h1, h2⟩ := takeWhile_rest ht hr
  simp only [readNum, h1, h2, hne, if_false]
  cases digitsVal 10 0 (if c = '-' then ds else c :: ds) <;> rfl

theorem read_num {c : Char} {s : Str} (fuel : Nat) (hc : isNumChar c = true)
    (hm : c = '-' → s.head? ≠ some 'I') : read (fuel + 1) (c :: s) = readNum (c :: s) := by
  have hsp : skipWs (c :: s) = c :: s := by
    unfold skipWs
    split
    · rename_i he
      simp only [List.cons.injEq] at he
      rw [he.1] at hc
      exact absurd hc (by decide)
    · rfl
  unfold read
  rw [hsp]
  split
  all_goals first
    | (rename_i he; simp only [List.cons.injEq] at he; rw [he.1] at hc; exact absurd hc (by decide))
    | skip
  · rename_i he
    simp only [List.cons.injEq] at he
    obtain ⟨rfl, rfl⟩ := he
    exact absurd rfl (hm rfl)
  · rfl

theorem isNumChar_digit {c : Char} (h : isDigitOf 10 c = true) : isNumChar c = true := by
  unfold isDigitOf at h
  cases hd : digitVal c with
  | none => simp [hd] at h
  | some d =>
    simp only [hd, Bool.and_eq_true, decide_eq_true_eq] at h
    unfold digitVal at hd
    have : 48 ≤ c.toNat ∧ c.toNat ≤ 57 := by
      split at hd
      · assumption
      · split at hd
        · simp only [Option.some.injEq] at hd; omega
        · split at hd
          · simp only [Option.some.injEq] at hd; omega
          · simp at hd
    have hdig : c.isDigit = true := by
      simp only [Char.isDigit, Bool.and_eq_true, decide_eq_true_eq, ge_iff_le, UInt32.le_iff_toNat_le]
      exact this
    simp [isNumChar, hdig]

theorem digit_ne_minus {c : Char} (h : isDigitOf 10 c = true) : c ≠ '-' := by
  rintro rfl; revert h; decide

theorem read_int (fuel : Nat) (i : Int) {r : Str} (hr : RestOk r) :
    read (fuel + 1) (intToStr i ++ r) = some (.int i, r) := by
  have hcs : ∀ n, ∃ c ds, natToStr 10 n = c :: ds ∧ (∀ x ∈ c :: ds, isNumChar x = true) ∧ c ≠ '-' ∧
      c ≠ 'I' := by
    intro n
    cases hn : natToStr 10 n with
    | nil => exact absurd hn (natToStr_ne_nil 10 n)
    | cons c ds =>
      have hall : ∀ x ∈ c :: ds, isDigitOf 10 x = true := by
        intro x hx; exact natToStr_chars (by omega) (by omega) n x (hn ▸ hx)
      refine ⟨c, ds, rfl, fun x hx => isNumChar_digit (hall x hx), digit_ne_minus (hall c (by simp)), ?_⟩
      rintro rfl
      have := hall 'I' (by simp)
      revert this; decide
  cases i with
  | ofNat n =>
    obtain ⟨c, ds, hn, hnum, hne, _⟩ := hcs n
    simp only [intToStr, hn]
    rw [List.cons_append, read_num fuel (hnum c (by simp)) (fun h => absurd h hne),
      ← List.cons_append, readNum_eq hnum hr (by simp [hne])]
    simp only [hne, if_false]
    rw [← hn, digitsVal_natToStr (by omega) (by omega)]
    rfl
  | negSucc n =>
    obtain ⟨c, ds, hn, hnum, hne, hI⟩ := hcs (n + 1)
    simp only [intToStr, hn]
    have hnum' : ∀ x ∈ '-' :: c :: ds, isNumChar x = true := by
      intro x hx
      rcases List.mem_cons.1 hx with rfl | hx
      · decide
      · exact hnum x hx
    rw [List.cons_append, read_num fuel (by decide) (by simp [hI]),
      ← List.cons_append, readNum_eq hnum' hr (by simp)]
    simp only [if_true]
    rw [← hn, digitsVal_natToStr (by omega) (by omega)]
    rfl

theorem read_flt (fuel : Nat) {t r : Str} (ht : FltOk t) (hr : RestOk r) :
    read (fuel + 1) (t ++ r) = some (.flt t, r) := by
  rcases ht with rfl | rfl | rfl | ⟨c, ds, rfl, hnum, hne, hd⟩
  · rfl
  · rfl
  · rfl
  · have hI : c = '-' → (ds ++ r).head? ≠ some 'I' := by
      intro hc
      simp only [hc, if_true] at hne
      cases ds with
      | nil => exact absurd rfl hne
      | cons d ds =>
        simp only [List.cons_append, List.head?_cons, ne_eq, Option.some.injEq]
        rintro rfl
        have := hnum 'I' (by simp)
        revert this; decide
    rw [List.cons_append, read_num fuel (hnum c (by simp)) hI, ← List.cons_append,
      readNum_eq hnum hr hne, hd]

theorem fltOk_ne_nil {t : Str} (h : FltOk t) : t ≠ [] := by
  rcases h with rfl | rfl | rfl | ⟨c, ds, rfl, _⟩ <;> simp

theorem intToStr_ne_nil (i : Int) : intToStr i ≠ [] := by
  cases i with
  | ofNat n => simpa [intToStr] using natToStr_ne_nil 10 n
  | negSucc n => simp [intToStr]

/-! ## Values -/

mutual
/-- The texts of all floats are floats. -/
def Ok : Json → Prop
  | .flt t => FltOk t
  | .arr items => OkItems items
  | .obj items => OkFields items
  | _ => True
def OkItems : List Json → Prop
  | [] => True
  | j :: js => Ok j ∧ OkItems js
def OkFields : List (Str × Json) → Prop
  | [] => True
  | (_, j) :: js => Ok j ∧ OkFields js
end

mutual
/-- The fuel that reading needs. -/
def need : Json → Nat
  | .arr items => 1 + needItems items
  | .obj items => 1 + needFields items
  | _ => 1
def needItems : List Json → Nat
  | [] => 0
  | j :: js => 1 + need j + needItems js
def needFields : List (Str × Json) → Nat
  | [] => 0
  | (_, j) :: js => 1 + need j + needFields js
end

theorem len_pos {s : Str} (h : s ≠ []) : 1 ≤ s.length := by
  cases s with
  | nil => exact absurd rfl h
  | cons c s => simp

mutual
theorem need_le (st : Style) : ∀ j, Ok j → need j ≤ (write st j).length
  | .null, _ => by simp [need, write]
  | .bool true, _ => by simp [need, write]
  | .bool false, _ => by simp [need, write]
  | .int i, _ => len_pos (intToStr_ne_nil i)
  | .flt t, h => len_pos (fltOk_ne_nil h)
  | .str s, _ => by simp [need, write, writeStr]
  | .arr items, h => by
    have := (needItems_le st items h).1
    simp only [need, write, List.length_cons]; omega
  | .obj items, h => by
    have := (needFields_le st items h).1
    simp only [need, write, List.length_cons]; omega
theorem needItems_le (st : Style) : ∀ js, OkItems js →
    needItems js ≤ (writeItems st true js).length ∧ needItems js + 1 ≤ (writeItems st false js).length
  | [], _ => by simp [needItems, writeItems]
  | j :: js, h => by
    have h1 := need_le st j h.1
    have h2 := (needItems_le st js h.2).2
    simp only [needItems, writeItems, if_true, Bool.false_eq_true, if_false, List.nil_append,
      List.length_append, List.length_cons]
    omega
theorem needFields_le (st : Style) : ∀ js, OkFields js →
    needFields js ≤ (writeFields st true js).length ∧
    needFields js + 1 ≤ (writeFields st false js).length
  | [], _ => by simp [needFields, writeFields]
  | (k, j) :: js, h => by
    have h1 := need_le st j h.1
    have h2 := (needFields_le st js h.2).2
    simp only [needFields, writeFields, if_true, Bool.false_eq_true, if_false, List.nil_append,
      List.length_append, List.length_cons]
    omega
end

theorem skipWs_cons {c : Char} (h : c ≠ ' ') (s : Str) : skipWs (c :: s) = c :: s := by
  unfold skipWs
  split
  · rename_i he; simp only [List.cons.injEq] at he; exact absurd he.1 h
  · rfl

theorem skipWs_idem (s : Str) : skipWs (skipWs s) = skipWs s := by
  induction s with
  | nil => rfl
  | cons c s ih =>
    by_cases h : c = ' '
    · subst h; simpa [skipWs] using ih
    · rw [skipWs_cons h, skipWs_cons h]

theorem read_skip (fuel : Nat) {s t : Str} (h : skipWs s = skipWs t) : read fuel s = read fuel t := by
  cases fuel with
  | zero => rfl
  | succ fuel => simp only [read, h]

theorem readFields_skip (fuel : Nat) {s t : Str} (h : skipWs s = skipWs t) :
    readFields fuel s = readFields fuel t := by
  cases fuel with
  | zero => rfl
  | succ fuel => simp only [readFields, h]

theorem readItems_skip (fuel : Nat) {s t : Str} (h : skipWs s = skipWs t) :
    readItems fuel s = readItems fuel t := by
  cases fuel with
  | zero => rfl
  | succ fuel => simp only [readItems, read_skip fuel h]

/-- The first character of a written value. -/
theorem write_head (st : Style) (j : Json) (h : Ok j) :
    ∃ c s, write st j = c :: s ∧ c ≠ ' ' ∧ c ≠ ']' ∧ c ≠ '}' := by
  have num : ∀ c, isNumChar c = true → c ≠ ' ' ∧ c ≠ ']' ∧ c ≠ '}' := by
    intro c hc
    refine ⟨?_, ?_, ?_⟩ <;> (rintro rfl; revert hc; decide)
  cases j with
  | null => exact ⟨_, _, rfl, by decide, by decide, by decide⟩
  | bool b => cases b <;> exact ⟨_, _, rfl, by decide, by decide, by decide⟩
  | str s => exact ⟨_, _, rfl, by decide, by decide, by decide⟩
  | arr l => exact ⟨_, _, rfl, by decide, by decide, by decide⟩
  | obj l => exact ⟨_, _, rfl, by decide, by decide, by decide⟩
  | flt t =>
    rcases h with rfl | rfl | rfl | ⟨c, ds, rfl, hn, _⟩
    · exact ⟨_, _, rfl, by decide, by decide, by decide⟩
    · exact ⟨_, _, rfl, by decide, by decide, by decide⟩
    · exact ⟨_, _, rfl, by decide, by decide, by decide⟩
    · exact ⟨c, ds, rfl, num c (hn c (by simp))⟩
  | int i =>
    cases i with
    | ofNat n =>
      cases hn : natToStr 10 n with
      | nil => exact absurd hn (natToStr_ne_nil 10 n)
      | cons c ds =>
        refine ⟨c, ds, by simp [write, intToStr, hn], num c (isNumChar_digit ?_)⟩
        exact natToStr_chars (by omega) (by omega) n c (by simp [hn])
    | negSucc n => exact ⟨_, _, rfl, by decide, by decide, by decide⟩

theorem restOk_items (st : Style) (js : List Json) (r : Str) :
    RestOk (writeItems st false js ++ r) := by
  intro c hc
  cases js with
  | nil => simp [writeItems] at hc; subst hc; decide
  | cons j js => simp [writeItems] at hc; subst hc; decide

theorem restOk_fields (st : Style) (js : List (Str × Json)) (r : Str) :
    RestOk (writeFields st false js ++ r) := by
  intro c hc
  cases js with
  | nil => simp [writeFields] at hc; subst hc; decide
  | cons j js => obtain ⟨k, j⟩ := j; simp [writeFields] at hc; subst hc; decide

theorem skipWs_quote (s : Str) : skipWs ('"' :: s) = '"' :: s := rfl
theorem skipWs_bracket (s : Str) : skipWs ('[' :: s) = '[' :: s := rfl
theorem skipWs_brace (s : Str) : skipWs ('{' :: s) = '{' :: s := rfl
theorem skipWs_comma (s : Str) : skipWs (',' :: s) = ',' :: s := rfl
theorem skipWs_colon (s : Str) : skipWs (':' :: s) = ':' :: s := rfl

theorem read_str_lit {st : Style} (h : StyleOk st) (fuel : Nat) (s r : Str) :
    read (fuel + 1) (writeStr st s ++ r) = some (.str s, r) := by
  simp only [writeStr, List.cons_append, List.append_assoc, List.nil_append, read, skipWs_quote, skipWs_bracket, skipWs_brace,
      skipWs_comma, skipWs_colon]
  rw [readStr_quoted h]
  rfl

mutual
theorem read_write {st : Style} (h : StyleOk st) : ∀ (j : Json) (fuel : Nat) (r : Str), Ok j →
    need j ≤ fuel → RestOk r → read fuel (write st j ++ r) = some (j, r)
  | .null, fuel + 1, r, _, _, _ => rfl
  | .bool true, fuel + 1, r, _, _, _ => rfl
  | .bool false, fuel + 1, r, _, _, _ => rfl
  | .int i, fuel + 1, r, _, _, hr => read_int fuel i hr
  | .flt t, fuel + 1, r, hj, _, hr => read_flt fuel hj hr
  | .str s, fuel + 1, r, _, _, _ => read_str_lit h fuel s r
  | .arr [], fuel + 1, r, _, _, _ => rfl
  | .arr (j :: js), fuel + 1, r, hj, hf, _ => by
    have hi := readItems_write h j js fuel r hj.1 hj.2 (by simp only [need, needItems] at hf; omega)
    obtain ⟨c, s, hw, h1, h2, h3⟩ := write_head st j hj.1
    simp only [write, writeItems, if_true, List.nil_append, List.cons_append, List.append_assoc] at hi ⊢
    rw [hw] at hi ⊢
    simp only [List.cons_append] at hi ⊢
    simp only [read, skipWs_quote, skipWs_bracket, skipWs_brace,
      skipWs_comma, skipWs_colon]
    rw [skipWs_cons h1]
    split
    · rename_i he; simp only [List.cons.injEq] at he; exact absurd he.1 h2
    · rw [hi]; rfl
  | .obj [], fuel + 1, r, _, _, _ => rfl
  | .obj ((k, j) :: js), fuel + 1, r, hj, hf, _ => by
    have hi := readFields_write h k j js fuel r hj.1 hj.2
      (by simp only [need, needFields] at hf; omega)
    simp only [write, writeFields, if_true, List.nil_append, List.cons_append, List.append_assoc,
      writeStr] at hi ⊢
    simp only [read, skipWs_quote, skipWs_bracket, skipWs_brace,
      skipWs_comma, skipWs_colon]
    rw [hi]
    rfl
  | .null, 0, _, _, hf, _ => by simp [need] at hf
  | .bool true, 0, _, _, hf, _ => by simp [need] at hf
  | .bool false, 0, _, _, hf, _ => by simp [need] at hf
  | .int _, 0, _, _, hf, _ => by simp [need] at hf
  | .flt _, 0, _, _, hf, _ => by simp [need] at hf
  | .str _, 0, _, _, hf, _ => by simp [need] at hf
  | .arr [], 0, _, _, hf, _ => by simp [need] at hf
  | .arr (_ :: _), 0, _, _, hf, _ => by simp [need] at hf
  | .obj [], 0, _, _, hf, _ => by simp [need] at hf
  | .obj (_ :: _), 0, _, _, hf, _ => by simp [need] at hf
theorem readItems_write {st : Style} (h : StyleOk st) : ∀ (j : Json) (js : List Json) (fuel : Nat)
    (r : Str), Ok j → OkItems js → 1 + need j + needItems js ≤ fuel →
    readItems fuel (write st j ++ (writeItems st false js ++ r)) = some (j :: js, r)
  | _, _, 0, _, _, _, hf => by omega
  | j, [], fuel + 1, r, hj, _, hf => by
    have h1 := read_write h j fuel (writeItems st false [] ++ r) hj (by omega) (restOk_items st [] r)
    simp only [readItems, h1]
    rfl
  | j, j' :: js, fuel + 1, r, hj, hjs, hf => by
    have h1 := read_write h j fuel (writeItems st false (j' :: js) ++ r) hj (by omega)
      (restOk_items st _ r)
    have h2 := readItems_write h j' js fuel r hjs.1 hjs.2 (by simp only [needItems] at hf; omega)
    simp only [readItems, h1]
    simp only [writeItems, Bool.false_eq_true, if_false, List.cons_append, List.append_assoc, skipWs_quote, skipWs_bracket, skipWs_brace,
      skipWs_comma, skipWs_colon]
    rw [readItems_skip fuel (h.pad _), h2]
    rfl
theorem readFields_write {st : Style} (h : StyleOk st) : ∀ (k : Str) (j : Json)
    (js : List (Str × Json)) (fuel : Nat) (r : Str), Ok j → OkFields js →
    1 + need j + needFields js ≤ fuel →
    readFields fuel (writeStr st k ++ (':' :: st.pad ++ (write st j ++
      (writeFields st false js ++ r)))) = some ((k, j) :: js, r)
  | _, _, _, 0, _, _, _, hf => by omega
  | k, j, [], fuel + 1, r, hj, _, hf => by
    have h1 := read_write h j fuel (writeFields st false [] ++ r) hj (by omega) (restOk_fields st [] r)
    simp only [writeStr, List.cons_append, List.append_assoc, List.nil_append, readFields, skipWs_quote, skipWs_bracket, skipWs_brace,
      skipWs_comma, skipWs_colon]
    rw [readStr_quoted h]
    simp only [skipWs_quote, skipWs_bracket, skipWs_brace,
      skipWs_comma, skipWs_colon]
    rw [read_skip fuel (h.pad _), h1]
    rfl
  | k, j, (k', j') :: js, fuel + 1, r, hj, hjs, hf => by
    have h1 := read_write h j fuel (writeFields st false ((k', j') :: js) ++ r) hj (by omega)
      (restOk_fields st _ r)
    have h2 := readFields_write h k' j' js fuel r hjs.1 hjs.2
      (by simp only [needFields] at hf; omega)
    simp only [writeStr, List.cons_append, List.append_assoc, List.nil_append, readFields, skipWs_quote, skipWs_bracket, skipWs_brace,
      skipWs_comma, skipWs_colon] at h2 ⊢
    rw [readStr_quoted h]
    simp only [skipWs_quote, skipWs_bracket, skipWs_brace,
      skipWs_comma, skipWs_colon]
    rw [read_skip fuel (h.pad _), h1]
    simp only [writeFields, Bool.false_eq_true, if_false, List.cons_append, List.append_assoc, skipWs_quote, skipWs_bracket, skipWs_brace,
      skipWs_comma, skipWs_colon,
      writeStr, List.nil_append]
    rw [readFields_skip fuel (h.pad _), h2]
    rfl
end

/-- Reading a written document gives it back. -/
theorem loads_write {st : Style} (h : StyleOk st) {j : Json} (hj : Ok j) :
    loads (write st j) = some j := by
  have := read_write h j ((write st j).length + 1) [] hj
    (Nat.le_succ_of_le (need_le st j hj)) (by intro c hc; simp at hc)
  rw [List.append_nil] at this
  simp only [loads, this]
  rfl

/-- Different documents have different texts. -/
theorem write_inj {st : Style} (h : StyleOk st) {j j' : Json} (hj : Ok j) (hj' : Ok j')
    (he : write st j = write st j') : j = j' := by
  have h1 := loads_write h hj
  rw [he, loads_write h hj'] at h1
  exact (Option.some.inj h1).symm

end Arti.Json
