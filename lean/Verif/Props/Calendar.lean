import Verif.Spec.Calendar
import Verif.Props.Partitions

/-!
# C24: which dates there are, and how numbers are padded
-/

namespace Arti.Props
open Arti Part Stg PyDict Spec

theorem isLeap_iff (y : Nat) : isLeap y = true ↔ Leap y := by
  simp only [isLeap, Leap, Bool.or_eq_true, Bool.and_eq_true, beq_iff_eq, bne_iff_ne, ne_eq]
  omega

theorem validDate_iff (y m d : Nat) : validDate y m d = true ↔ IsDate y m d := by
  have hl := isLeap_iff y
  simp only [validDate, Bool.and_eq_true, decide_eq_true_eq]
  simp only [daysIn, IsDate, months]
  by_cases hy : Leap y
  · rw [hl.2 hy]
    simp only [if_pos hy, if_true]
    match m with
    | 0 => simp
    | 1 | 2 | 3 | 4 | 5 | 6 | 7 | 8 | 9 | 10 | 11 | 12 => simp; omega
    | m + 13 => simp
  · rw [Bool.eq_false_iff.2 fun h => hy (hl.1 h)]
    simp only [if_neg hy, Bool.false_eq_true, if_false]
    match m with
    | 0 => simp
    | 1 | 2 | 3 | 4 | 5 | 6 | 7 | 8 | 9 | 10 | 11 | 12 => simp; omega
    | m + 13 => simp

/-- **C24** A date field can be read from a year, a month and a day exactly if there is such a
date. -/
theorem C24_dates_exist (y m d : Int) (v : FieldVal) :
    fromComponents .date [("Y".toList, intToStr y), ("m".toList, intToStr m),
      ("d".toList, intToStr d)] = .ok v ↔
    ∃ y' m' d' : Nat, y = y' ∧ m = m' ∧ d = d' ∧ IsDate y' m' d' ∧ v = .date y' m' d' := by
  have h0 : ∀ a b c : Str, fromComponents .date [("Y".toList, a), ("m".toList, b), ("d".toList, c)] =
      (do let y ← pyInt 10 a
          let m ← pyInt 10 b
          let d ← pyInt 10 c
          mkDate y m d) := fun _ _ _ => rfl
  rw [h0, pyInt_intToStr, pyInt_intToStr, pyInt_intToStr]
  simp only [bind, Except.bind, mkDate]
  constructor
  · intro h
    split at h
    · rename_i hc
      cases h
      exact ⟨_, _, _, (Int.toNat_of_nonneg hc.1).symm, (Int.toNat_of_nonneg hc.2.1).symm,
        (Int.toNat_of_nonneg hc.2.2.1).symm, (validDate_iff _ _ _).1 hc.2.2.2, rfl⟩
    · cases h
  · rintro ⟨y, m, d, rfl, rfl, rfl, hd, rfl⟩
    simp [(validDate_iff _ _ _).2 hd]

/-- **C24** Whatever date field is read, from whatever components, is a date of the calendar, and
every date of the calendar is read from its ISO form. -/
theorem C24_all_and_only_dates :
    (∀ cs y m d, fromComponents .date cs = .ok (.date y m d) → IsDate y m d) ∧
    ∀ y m d, IsDate y m d → ∃ t, component (.date y m d) "iso".toList = some (.text t) ∧
      fromComponents .date [("iso".toList, t)] = .ok (.date y m d) ∧
      fromComponents .date [("value".toList, t)] = .ok (.date y m d) := by
  refine ⟨fun cs y m d h => ?_, fun y m d h => ⟨_, rfl, ?_, ?_⟩⟩
  · exact (validDate_iff _ _ _).1 (C24_class_and_validity _ _ _ h).2
  · exact dateFromIso_isoFormat ((validDate_iff _ _ _).2 h)
  · exact dateFromIso_isoFormat ((validDate_iff _ _ _).2 h)

/-- **C24** A number that is rendered with a width has that width, if it does not need more, the
sign included; it is filled up with zeros after the sign. -/
theorem C24_padding (i : Int) (w : Nat) (t : Str)
    (h : formatComp (.int i) ('0' :: natToStr 10 w) = .ok t) :
    t.length = max w (intToStr i).length ∧
    ∃ k, t = (if i < 0 then ['-'] else []) ++ List.replicate k '0' ++ natToStr 10 i.natAbs := by
  have hw : digitsVal 10 0 (natToStr 10 w) = some w := by
    have := digitsVal_padNat 0 w
    simpa [padNat] using this
  simp only [formatComp, hw, Except.ok.injEq] at h
  subst h
  cases i with
  | ofNat n =>
    refine ⟨?_, w - (natToStr 10 n).length, ?_⟩
    · simp [padNat, intToStr]; omega
    · simp [padNat]
  | negSucc n =>
    refine ⟨?_, w - 1 - (natToStr 10 (n + 1)).length, ?_⟩
    · simp [padNat, intToStr]; omega
    · simp [padNat]

example : formatComp (.int (-7)) ['0', '5'] = .ok ['-', '0', '0', '0', '7'] := by decide
/-- The hypothesis of `C24_padding` is met. -/
example : formatComp (.int 12345) ('0' :: natToStr 10 3) = .ok ['1', '2', '3', '4', '5'] := by
  decide +kernel
example : IsDate 2000 2 29 := ⟨by decide, by decide, 29, by decide, by decide, by decide, by decide⟩
example : ¬ IsDate 1900 2 29 := by
  rintro ⟨-, -, n, h, -, -, hn⟩
  have : (months 1900)[2 - 1]? = some 28 := by decide
  rw [this] at h
  cases h
  omega

end Arti.Props
