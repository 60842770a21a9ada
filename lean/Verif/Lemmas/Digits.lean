import Verif.Model.Partitions

/-!
# Printing and parsing numbers
-/

namespace Arti
open Part

theorem forall_lt_16 {P : Nat → Prop} (h : ∀ i : Fin 16, P i) : ∀ d : Nat, d < 16 → P d :=
  fun d hd => h ⟨d, hd⟩

theorem digitVal_digitChar : ∀ d : Nat, d < 16 → digitVal (digitChar d) = some d :=
  forall_lt_16 (by decide)

theorem isUpper_digitChar : ∀ d : Nat, d < 16 → (digitChar d).isUpper = false :=
  forall_lt_16 (by decide)

theorem digitsVal_append (b acc : Nat) (s t : Str) :
    digitsVal b acc (s ++ t) = (digitsVal b acc s).bind (fun a => digitsVal b a t) := by
  induction s generalizing acc with
  | nil => rfl
  | cons c s ih =>
    simp only [List.cons_append, digitsVal]
    cases digitVal c with
    | none => rfl
    | some d =>
      simp only
      split
      · exact ih _
      · rfl

theorem digitsVal_aux {b : Nat} (hb : 2 ≤ b) (hb' : b ≤ 16) : ∀ (fuel n : Nat), n ≤ fuel →
    digitsVal b 0 (natDigitsAux b fuel n) = some n
  | 0, n, h => by
    have : n = 0 := by omega
    subst this; rfl
  | fuel + 1, n, h => by
    simp only [natDigitsAux]
    split
    · rename_i h0; subst h0; rfl
    · rename_i h0
      have hlt : n / b < n := Nat.div_lt_self (by omega) (by omega)
      rw [digitsVal_append, digitsVal_aux hb hb' fuel (n / b) (by omega)]
      have hm : n % b < b := Nat.mod_lt _ (by omega)
      simp only [Option.bind_some, digitsVal, digitVal_digitChar _ (Nat.lt_of_lt_of_le hm hb')]
      rw [if_pos hm]
      congr 1
      rw [Nat.mul_comm]; exact Nat.div_add_mod n b

theorem digitsVal_natToStr {b : Nat} (hb : 2 ≤ b) (hb' : b ≤ 16) (n : Nat) :
    digitsVal b 0 (natToStr b n) = some n := by
  unfold natToStr
  split
  · rename_i h; subst h
    have : digitVal '0' = some 0 := by decide
    simp [digitsVal, this]
    omega
  · exact digitsVal_aux hb hb' n n (Nat.le_refl _)

/-- The characters of a base-`b` numeral. -/
def isDigitOf (b : Nat) (c : Char) : Bool :=
  match digitVal c with
  | some d => d < b && !c.isUpper
  | none => false

theorem isDigitOf_digitChar {b d : Nat} (hd : d < b) (hb : b ≤ 16) :
    isDigitOf b (digitChar d) = true := by
  unfold isDigitOf
  rw [digitVal_digitChar d (by omega)]
  have := isUpper_digitChar d (by omega)
  simp [hd, this]

theorem natDigitsAux_chars {b : Nat} (hb : 1 ≤ b) (hb' : b ≤ 16) : ∀ (fuel n : Nat) (c : Char),
    c ∈ natDigitsAux b fuel n → isDigitOf b c = true
  | 0, n, c, h => by simp [natDigitsAux] at h
  | fuel + 1, n, c, h => by
    simp only [natDigitsAux] at h
    split at h
    · simp at h
    · rcases List.mem_append.1 h with h | h
      · exact natDigitsAux_chars hb hb' fuel _ c h
      · simp at h; subst h
        exact isDigitOf_digitChar (Nat.mod_lt _ (by omega)) hb'

theorem natToStr_chars {b : Nat} (hb : 1 ≤ b) (hb' : b ≤ 16) (n : Nat) (c : Char)
    (h : c ∈ natToStr b n) : isDigitOf b c = true := by
  unfold natToStr at h
  split at h
  · simp at h; subst h; exact isDigitOf_digitChar (d := 0) (by omega) hb'
  · exact natDigitsAux_chars hb hb' n n c h

theorem natToStr_ne_nil (b n : Nat) : natToStr b n ≠ [] := by
  unfold natToStr
  split
  · simp
  · rename_i h
    cases n with
    | zero => exact absurd rfl h
    | succ n => simp [natDigitsAux]

theorem natToStr_inj {b : Nat} (hb : 2 ≤ b) (hb' : b ≤ 16) {m n : Nat}
    (h : natToStr b m = natToStr b n) : m = n := by
  have := digitsVal_natToStr hb hb' m
  rw [h, digitsVal_natToStr hb hb' n] at this
  exact (Option.some.inj this).symm

theorem digitVal_special : digitVal '-' = none ∧ digitVal '+' = none ∧ digitVal '_' = none ∧
    digitVal 'x' = none ∧ digitVal '/' = none := by decide

/-- Facts about the characters of decimal numerals. -/
theorem isDigitOf_le {b : Nat} {c : Char} (h : isDigitOf b c = true) :
    c ≠ '_' ∧ c ≠ '-' ∧ c ≠ '+' ∧ c ≠ 'x' ∧ c ≠ 'X' ∧ c.isWhitespace = false ∧ c.toNat ≤ 127 := by
  unfold isDigitOf at h
  have hne : ∀ d : Char, digitVal d = none → c ≠ d := by
    rintro d hd rfl; rw [hd] at h; simp at h
  refine ⟨hne _ (by decide), hne _ (by decide), hne _ (by decide), hne _ (by decide),
    hne _ (by decide), ?_, ?_⟩
  · have h1 := hne ' ' (by decide)
    have h2 := hne '\t' (by decide)
    have h3 := hne '\r' (by decide)
    have h4 := hne '\n' (by decide)
    simp [Char.isWhitespace, h1, h2, h3, h4]
  · cases hd : digitVal c with
    | none => rw [hd] at h; simp at h
    | some d =>
      unfold digitVal at hd
      split at hd
      · omega
      · split at hd
        · omega
        · split at hd
          · omega
          · simp at hd

theorem oddChar_digit {b : Nat} {c : Char} (h : isDigitOf b c = true) : oddChar c = false := by
  have := isDigitOf_le h
  simp only [oddChar, Bool.or_eq_false_iff, decide_eq_false_iff_not]
  exact ⟨⟨this.1, this.2.2.2.2.2.1⟩, by omega⟩

theorem any_odd_natToStr {b : Nat} (hb : 1 ≤ b) (hb' : b ≤ 16) (n : Nat) :
    (natToStr b n).any oddChar = false := by
  rw [List.any_eq_false]
  intro c hc
  simp [oddChar_digit (natToStr_chars hb hb' n c hc)]

theorem splitSign_natToStr {b : Nat} (hb : 1 ≤ b) (hb' : b ≤ 16) (n : Nat) :
    splitSign (natToStr b n) = (false, natToStr b n) := by
  cases hs : natToStr b n with
  | nil => rfl
  | cons c r =>
    have hc := isDigitOf_le (natToStr_chars hb hb' n c (by rw [hs]; simp))
    simp [splitSign, hc.2.1, hc.2.2.1]

/-- `int(str(i)) == i`. -/
theorem pyInt_intToStr (i : Int) : pyInt 10 (intToStr i) = .ok i := by
  cases i with
  | ofNat n =>
    have hne := natToStr_ne_nil 10 n
    simp [intToStr, pyInt, any_odd_natToStr (b := 10) (by decide) (by decide) n,
      splitSign_natToStr (b := 10) (by decide) (by decide) n, hne,
      digitsVal_natToStr (b := 10) (by decide) (by decide) n]
  | negSucc n =>
    have hne := natToStr_ne_nil 10 (n + 1)
    have hodd : oddChar '-' = false := by decide
    simp [intToStr, pyInt, any_odd_natToStr (b := 10) (by decide) (by decide), hodd,
      splitSign, hne, digitsVal_natToStr (b := 10) (by decide) (by decide)]
    omega

theorem intToStr_inj {i j : Int} (h : intToStr i = intToStr j) : i = j := by
  have := pyInt_intToStr i
  rw [h, pyInt_intToStr j] at this
  exact (Except.ok.inj this).symm

/-- `int(hex(i), 16) == i`. -/
theorem pyInt_pyHex (i : Int) : pyInt 16 (pyHex i) = .ok i := by
  have h1 : oddChar '-' = false := by decide
  have h2 : oddChar '0' = false := by decide
  have h3 : oddChar 'x' = false := by decide
  cases i with
  | ofNat n =>
    have hne := natToStr_ne_nil 16 n
    simp [pyHex, pyInt, any_odd_natToStr (b := 16) (by decide) (by decide) n, h2, h3,
      splitSign, dropHexPrefix, hne, digitsVal_natToStr (b := 16) (by decide) (by decide) n]
  | negSucc n =>
    have hne := natToStr_ne_nil 16 (n + 1)
    simp [pyHex, pyInt, any_odd_natToStr (b := 16) (by decide) (by decide), h1, h2, h3,
      splitSign, dropHexPrefix, hne, digitsVal_natToStr (b := 16) (by decide) (by decide)]
    omega

theorem digitsVal_zeros (b acc k : Nat) (hb : 1 ≤ b) (s : Str) :
    digitsVal b 0 (List.replicate k '0' ++ s) = digitsVal b 0 s := by
  have _ := acc
  induction k with
  | zero => rfl
  | succ k ih =>
    have h0 : digitVal '0' = some 0 := by decide
    simp only [List.replicate_succ, List.cons_append, digitsVal, h0]
    rw [if_pos (by omega)]
    simpa using ih

theorem digitsVal_padNat (w n : Nat) : digitsVal 10 0 (padNat w n) = some n := by
  unfold padNat
  rw [digitsVal_zeros 10 0 _ (by decide)]
  exact digitsVal_natToStr (by decide) (by decide) n

theorem natDigitsAux_length (n k : Nat) : ∀ fuel, n ≤ fuel → n < 10 ^ k →
    (natDigitsAux 10 fuel n).length ≤ k := by
  induction k generalizing n with
  | zero =>
    intro fuel _ h
    have : n = 0 := by simpa using h
    subst this
    cases fuel <;> simp [natDigitsAux]
  | succ k ih =>
    intro fuel hf h
    cases fuel with
    | zero => simp [natDigitsAux]
    | succ fuel =>
      simp only [natDigitsAux]
      split
      · simp
      · rename_i h0
        have hlt : n / 10 < n := Nat.div_lt_self (by omega) (by omega)
        have := ih (n / 10) fuel (by omega) (by
          rw [Nat.div_lt_iff_lt_mul (by decide)]
          rwa [Nat.pow_succ] at h)
        simp; omega

theorem padNat_length {w n : Nat} (hw : 1 ≤ w) (h : n < 10 ^ w) : (padNat w n).length = w := by
  have : (natToStr 10 n).length ≤ w := by
    unfold natToStr
    split
    · simpa using hw
    · exact natDigitsAux_length n w n (Nat.le_refl _) h
  unfold padNat
  simp
  omega

theorem padNat_chars (w n : Nat) (c : Char) (h : c ∈ padNat w n) : isDigitOf 10 c = true := by
  unfold padNat at h
  rcases List.mem_append.1 h with h | h
  · rw [List.mem_replicate] at h; rw [h.2]; decide
  · exact natToStr_chars (by decide) (by decide) n c h

theorem list_len4 {α : Type} {l : List α} (h : l.length = 4) :
    ∃ a b c d, l = [a, b, c, d] := by
  match l, h with
  | [a, b, c, d], _ => exact ⟨a, b, c, d, rfl⟩

theorem list_len2 {α : Type} {l : List α} (h : l.length = 2) : ∃ a b, l = [a, b] := by
  match l, h with
  | [a, b], _ => exact ⟨a, b, rfl⟩

theorem daysIn_le (y m : Nat) : daysIn y m ≤ 31 := by
  unfold daysIn; split
  · split <;> omega
  · split <;> omega

theorem validDate_bounds {y m d : Nat} (h : validDate y m d = true) :
    1 ≤ y ∧ y ≤ 9999 ∧ 1 ≤ m ∧ m ≤ 12 ∧ 1 ≤ d ∧ d ≤ 31 := by
  simp only [validDate, Bool.and_eq_true, decide_eq_true_eq] at h
  have := daysIn_le y m
  omega

theorem mkDate_valid {y m d : Nat} (h : validDate y m d = true) :
    mkDate y m d = .ok (.date y m d) := by
  simp [mkDate, h]

/-- `date.fromisoformat(d.isoformat()) == d`. -/
theorem dateFromIso_isoFormat {y m d : Nat} (h : validDate y m d = true) :
    dateFromIso (isoFormat y m d) = .ok (.date y m d) := by
  have hb := validDate_bounds h
  obtain ⟨y1, y2, y3, y4, hy⟩ := list_len4 (padNat_length (w := 4) (n := y) (by decide) (by omega))
  obtain ⟨m1, m2, hm⟩ := list_len2 (padNat_length (w := 2) (n := m) (by decide) (by omega))
  obtain ⟨d1, d2, hd⟩ := list_len2 (padNat_length (w := 2) (n := d) (by decide) (by omega))
  have ey := digitsVal_padNat 4 y
  have em := digitsVal_padNat 2 m
  have ed := digitsVal_padNat 2 d
  rw [hy] at ey; rw [hm] at em; rw [hd] at ed
  unfold isoFormat
  rw [hy, hm, hd]
  simp only [List.cons_append, List.nil_append, dateFromIso, ey, em, ed, true_and, if_true]
  exact mkDate_valid h

end Arti
