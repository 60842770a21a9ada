import Verif.Model.Ints
import Verif.Spec.Ints

/-! Helper lemmas for `int64`/`uint64`/`Fingerprint`. -/

namespace Arti
open Spec

theorem ofInt_pyXor (a b : Int) :
    BitVec.ofInt 64 (pyXor a b) = BitVec.ofInt 64 a ^^^ BitVec.ofInt 64 b := by
  cases a <;> cases b <;>
    simp only [pyXor, BitVec.ofInt_negSucc_eq_not_ofNat, Int.ofNat_eq_natCast,
      BitVec.ofInt_natCast, BitVec.ofNat_xor] <;> ext i hi <;> simp <;>
    cases Nat.testBit _ i <;> cases Nat.testBit _ i <;> rfl

theorem toInt_ofInt_range {a : Int} (h : Int64Range a) : (BitVec.ofInt 64 a).toInt = a := by
  unfold Int64Range at h
  apply BitVec.toInt_ofInt_eq_self (by decide) <;> simp <;> omega

theorem range_toInt (w : BitVec 64) : Int64Range w.toInt := by
  have h1 := BitVec.le_toInt w
  have h2 := BitVec.toInt_lt (x := w)
  simp at h1 h2
  constructor <;> omega

theorem pyXor_range {a b : Int} (ha : Int64Range a) (hb : Int64Range b) :
    Int64Range (pyXor a b) := by
  unfold Int64Range at *
  cases a with
  | ofNat m =>
    simp only [Int.ofNat_eq_natCast] at ha
    cases b with
    | ofNat n =>
      simp only [Int.ofNat_eq_natCast] at hb
      have := @Nat.xor_lt_two_pow m n 63 (by omega) (by omega)
      simp only [pyXor, Int.ofNat_eq_natCast]; omega
    | negSucc n =>
      have := @Nat.xor_lt_two_pow m n 63 (by omega) (by omega)
      simp only [pyXor, Int.ofNat_eq_natCast]; omega
  | negSucc m =>
    cases b with
    | ofNat n =>
      simp only [Int.ofNat_eq_natCast] at hb
      have := @Nat.xor_lt_two_pow m n 63 (by omega) (by omega)
      simp only [pyXor, Int.ofNat_eq_natCast]; omega
    | negSucc n =>
      have := @Nat.xor_lt_two_pow m n 63 (by omega) (by omega)
      simp only [pyXor, Int.ofNat_eq_natCast]; omega

theorem int64New_plain_ok {a : Int} (h : Int64Range a) :
    int64New ⟨.plain, a⟩ = .ok ⟨.i64, a⟩ := by
  unfold Int64Range at h
  have h1 : ¬ a > i64Max := by unfold i64Max; omega
  have h2 : ¬ a < i64Min := by unfold i64Min; omega
  simp [int64New, h1, h2]

theorem fpXor_ok {a b : Int} (ha : Int64Range a) (hb : Int64Range b) :
    fpXor a b = .ok (pyXor a b) := by
  simp [fpXor, intBin, plainBin, newOf, bind, Except.bind, int64New_plain_ok (pyXor_range ha hb)]

theorem pyXor_eq_signed {a b : Int} (ha : Int64Range a) (hb : Int64Range b) :
    pyXor a b = (BitVec.ofInt 64 a ^^^ BitVec.ofInt 64 b).toInt := by
  rw [← ofInt_pyXor, toInt_ofInt_range (pyXor_range ha hb)]

theorem xorAll_cons (w : BitVec 64) (ws) : xorAll (w :: ws) = w ^^^ xorAll ws := rfl

theorem fpCombine_eq : ∀ (os : List Int) (a : Int), Int64Range a → (∀ o ∈ os, Int64Range o) →
    fpCombine a os = .ok (signedXor (a :: os))
  | [], a, ha, _ => by
    simp [fpCombine, signedXor, xorAll, toInt_ofInt_range ha]
  | o :: os, a, ha, hos => by
    have ho : Int64Range o := hos o (by simp)
    have hos' : ∀ x ∈ os, Int64Range x := fun x hx => hos x (by simp [hx])
    simp only [fpCombine, fpXor_ok ha ho, bind, Except.bind]
    rw [fpCombine_eq os _ (pyXor_range ha ho) hos']
    simp [signedXor, xorAll, ofInt_pyXor, BitVec.xor_assoc]

theorem xorAll_perm {l l' : List (BitVec 64)} (h : l.Perm l') : xorAll l = xorAll l' := by
  induction h with
  | nil => rfl
  | cons x _ ih => simp [xorAll, ih]
  | swap x y l =>
    simp only [xorAll]
    rw [← BitVec.xor_assoc, ← BitVec.xor_assoc, BitVec.xor_comm y x]
  | trans _ _ ih1 ih2 => exact ih1.trans ih2

theorem xorAll_append (l l' : List (BitVec 64)) : xorAll (l ++ l') = xorAll l ^^^ xorAll l' := by
  induction l with
  | nil => simp [xorAll]
  | cons x l ih => simp [xorAll, ih, BitVec.xor_assoc]

theorem signedXor_perm {l l' : List Int} (h : l.Perm l') : signedXor l = signedXor l' := by
  unfold signedXor; rw [xorAll_perm (h.map _)]

theorem signedXor_range (l : List Int) : Int64Range (signedXor l) := range_toInt _

theorem bv_xor_left_cancel (x y z : BitVec 64) (h : x ^^^ y = x ^^^ z) : y = z := by
  have := congrArg (x ^^^ ·) h
  simpa [← BitVec.xor_assoc] using this

/-- Changing exactly one member of the list changes the XOR. -/
theorem signedXor_change_one (l r : List Int) {x y : Int} (hx : Int64Range x)
    (hy : Int64Range y) (h : signedXor (l ++ x :: r) = signedXor (l ++ y :: r)) : x = y := by
  have h' := BitVec.eq_of_toInt_eq h
  simp only [List.map_append, List.map_cons, xorAll_append, xorAll_cons] at h'
  have h2 := bv_xor_left_cancel _ _ _ h'
  rw [BitVec.xor_comm, BitVec.xor_comm (BitVec.ofInt 64 y)] at h2
  have h3 := bv_xor_left_cancel _ _ _ h2
  have := congrArg BitVec.toInt h3
  rwa [toInt_ofInt_range hx, toInt_ofInt_range hy] at this

end Arti
