import Verif.Lemmas.Ints

/-!
# C01, C02, C03: fingerprints and 64-bit integers
-/

namespace Arti.Props
open Arti Spec

/-! ## C01 -/

/-- C01: `Fingerprint.combine` never raises on fingerprints and is the signed 64-bit XOR of
all the keys (hence again a fingerprint). -/
theorem C01_combine_is_xor (self : Fp) (others : List Fp) (hs : Int64Range self)
    (ho : ∀ o ∈ others, Int64Range o) :
    fpCombine self others = .ok (signedXor (self :: others)) ∧
      Int64Range (signedXor (self :: others)) :=
  ⟨fpCombine_eq others self hs ho, signedXor_range _⟩

/-- C01: the result does not depend on the order of the fingerprints, nor on which of them
is the receiver. -/
theorem C01_combine_order_free (a b : Fp) (as bs : List Fp) (h : (a :: as).Perm (b :: bs))
    (hr : ∀ x ∈ a :: as, Int64Range x) :
    fpCombine a as = fpCombine b bs := by
  have hb : ∀ x ∈ b :: bs, Int64Range x := fun x hx => hr x (h.mem_iff.mpr hx)
  rw [fpCombine_eq as a (hr a (by simp)) (fun o ho => hr o (by simp [ho])),
    fpCombine_eq bs b (hb b (by simp)) (fun o ho => hb o (by simp [ho])), signedXor_perm h]

/-- C01: grouping does not matter: combining in two steps is combining at once. -/
theorem C01_combine_grouping (a : Fp) (xs ys : List Fp) :
    fpCombine a (xs ++ ys) = (fpCombine a xs).bind (fun r => fpCombine r ys) := by
  induction xs generalizing a with
  | nil => rfl
  | cons x xs ih =>
    simp only [List.cons_append, fpCombine]
    cases fpXor a x with
    | error e => rfl
    | ok r => exact ih r

/-- C01: the identity fingerprint is neutral, on either side. -/
theorem C01_combine_identity (a : Fp) (h : Int64Range a) :
    fpCombine a [fpIdentity] = .ok a ∧ fpCombine fpIdentity [a] = .ok a := by
  have h0 : Int64Range fpIdentity := by decide
  rw [fpCombine_eq _ _ h (by simpa using h0), fpCombine_eq _ _ h0 (by simpa using h)]
  simp [signedXor, xorAll, fpIdentity, toInt_ofInt_range h]

/-- C01: a fingerprint combined with itself cancels; consequently only the parity of the
number of occurrences matters. -/
theorem C01_combine_cancels (a b : Fp) (ha : Int64Range a) (hb : Int64Range b) :
    fpCombine a [b, b] = .ok a := by
  rw [fpCombine_eq _ _ ha (by simpa using hb)]
  simp [signedXor, xorAll, toInt_ofInt_range ha]

example : Int64Range (-9223372036854775808) ∧
    fpCombine (-9223372036854775808) [9223372036854775807, 5] = .ok (-6) := by decide

example : (([3, -7, 3] : List Int)).Perm [3, 3, -7] ∧
    ∀ x ∈ ([3, -7, 3] : List Int), Int64Range x := by decide

/-! ## C02 -/

/-- C02: `int64(x)` of a plain `int` succeeds exactly on the signed 64-bit range and keeps
the value. -/
theorem C02_int64_of_plain (x : Int) :
    (Int64Range x → int64New ⟨.plain, x⟩ = .ok ⟨.i64, x⟩) ∧
    (¬ Int64Range x → int64New ⟨.plain, x⟩ = .error .valueError) := by
  refine ⟨int64New_plain_ok, fun h => ?_⟩
  unfold Int64Range at h
  unfold int64New i64Max i64Min
  simp only [reduceCtorEq, if_false]
  split
  · rfl
  · rw [if_pos (by omega)]

/-- C02: `uint64(x)` of a plain `int` succeeds exactly on the unsigned 64-bit range. -/
theorem C02_uint64_of_plain (x : Int) :
    (UInt64Range x → uint64New ⟨.plain, x⟩ = .ok ⟨.u64, x⟩) ∧
    (¬ UInt64Range x → uint64New ⟨.plain, x⟩ = .error .valueError) := by
  unfold UInt64Range uint64New u64Max u64Min
  simp only [reduceCtorEq, if_false]
  constructor
  · intro h
    rw [if_neg (by omega), if_neg (by omega)]
  · intro h
    split
    · rfl
    · rw [if_pos (by omega)]

/-- C02: `int64(u)` of any `uint64` succeeds; the result is the signed value congruent to
`u` modulo 2^64, and converting back gives `u`. -/
theorem C02_int64_of_uint64 (u : Int) (h : UInt64Range u) :
    ∃ r, int64New ⟨.u64, u⟩ = .ok ⟨.i64, r⟩ ∧ Int64Range r ∧
      (r - u) % 18446744073709551616 = 0 ∧ uint64New ⟨.i64, r⟩ = .ok ⟨.u64, u⟩ := by
  unfold UInt64Range at h
  unfold int64New uint64New i64Max i64Min u64Max u64Min Int64Range
  by_cases h1 : u > 2 ^ 63 - 1
  · refine ⟨u - 18446744073709551616, ?_, by omega, by omega, ?_⟩
    · simp only [if_pos h1, if_true]
      rw [if_neg (by omega)]
      congr 2; omega
    · simp only [if_true]
      rw [if_neg (by omega), if_pos (by omega)]
      congr 2; omega
  · refine ⟨u, ?_, by omega, by omega, ?_⟩
    · simp only [if_neg h1]; rw [if_neg (by omega)]
    · dsimp only; rw [if_neg (by omega), if_neg (by omega)]

/-- C02: `uint64(i)` of any `int64` succeeds; the result is the unsigned value congruent to
`i` modulo 2^64, and converting back gives `i`. -/
theorem C02_uint64_of_int64 (i : Int) (h : Int64Range i) :
    ∃ r, uint64New ⟨.i64, i⟩ = .ok ⟨.u64, r⟩ ∧ UInt64Range r ∧
      (r - i) % 18446744073709551616 = 0 ∧ int64New ⟨.u64, r⟩ = .ok ⟨.i64, i⟩ := by
  unfold Int64Range at h
  unfold int64New uint64New i64Max i64Min u64Max u64Min UInt64Range
  by_cases h1 : i < 0
  · refine ⟨i + 18446744073709551616, ?_, by omega, by omega, ?_⟩
    · simp only [if_true]
      rw [if_neg (by omega), if_pos (by omega)]
      congr 2; omega
    · simp only [if_true]
      rw [if_pos (by omega), if_neg (by omega)]
      congr 2; omega
  · refine ⟨i, ?_, by omega, by omega, ?_⟩
    · dsimp only; rw [if_neg (by omega), if_neg (by omega)]
    · dsimp only; rw [if_neg (by omega), if_neg (by omega)]

/-- C02: `Fingerprint.from_string` is total and injective in the 64-bit hash value, and
`Fingerprint.from_int` accepts exactly the signed range. -/
theorem C02_from_hash_total_injective (h : Int) (hr : UInt64Range h) :
    (∃ r, fpFromUint64 h = .ok r ∧ Int64Range r) ∧
    (∀ h', UInt64Range h' → fpFromUint64 h = fpFromUint64 h' → h = h') := by
  have key : ∀ h, UInt64Range h → ∃ r, fpFromUint64 h = .ok r ∧ Int64Range r ∧
      uint64New ⟨.i64, r⟩ = .ok ⟨.u64, h⟩ := by
    intro h hr
    obtain ⟨r, h1, h2, _, h4⟩ := C02_int64_of_uint64 h hr
    refine ⟨r, ?_, h2, h4⟩
    simp [fpFromUint64, bind, Except.bind, (C02_uint64_of_plain h).1 hr, h1]
  obtain ⟨r, e, hrr, back⟩ := key h hr
  refine ⟨⟨r, e, hrr⟩, fun h' hr' heq => ?_⟩
  obtain ⟨r', e', _, back'⟩ := key h' hr'
  rw [e, e'] at heq
  cases heq
  rw [back] at back'
  cases back'; rfl

theorem C02_from_int_exact (x : Int) :
    (Int64Range x → fpFromInt x = .ok x) ∧
    (¬ Int64Range x → fpFromInt x = .error .valueError) := by
  constructor <;> intro h
  · simp [fpFromInt, (C02_int64_of_plain x).1 h, bind, Except.bind]
  · simp [fpFromInt, (C02_int64_of_plain x).2 h, bind, Except.bind]

example : UInt64Range 18446744073709551615 ∧
    int64New ⟨.u64, 18446744073709551615⟩ = .ok ⟨.i64, -1⟩ := by decide
example : int64New ⟨.plain, 9223372036854775808⟩ = .error .valueError := by decide
example : Int64Range (-9223372036854775808) ∧
    uint64New ⟨.i64, -9223372036854775808⟩ = .ok ⟨.u64, 9223372036854775808⟩ := by decide

/-! ## C03 -/

/-- The range of the class of `self`. -/
def RangeOf : IntKind → Int → Prop
  | .i64, x => Int64Range x
  | .u64, x => UInt64Range x
  | .plain, _ => True

/-- Constructing a value of a fixed-width class from a plain `int` keeps the value if it is in
range and raises otherwise. -/
theorem newOf_plain (cls : IntKind) (x : Int) :
    (RangeOf cls x → newOf cls ⟨.plain, x⟩ = .ok ⟨cls, x⟩) ∧
    (¬ RangeOf cls x → newOf cls ⟨.plain, x⟩ = .error .valueError) := by
  cases cls with
  | plain => simp [newOf, RangeOf]
  | i64 => exact C02_int64_of_plain x
  | u64 => exact C02_uint64_of_plain x

/-- C03: a binary operator on `int64`/`uint64` that returns, returns the exact integer result,
of the receiver's class and in its range; if the exact result exists but is out of range, or
`int` itself raises, it raises. -/
theorem C03_binary_exact (op : BinOp) (self x : PyNum) :
    (∀ r, intBin op self x = .ok r →
      plainBin op self.val x.val = .ok r.val ∧ r.kind = self.kind ∧ RangeOf self.kind r.val) ∧
    (∀ z, plainBin op self.val x.val = .ok z → ¬ RangeOf self.kind z →
      intBin op self x = .error .valueError) ∧
    (∀ z, plainBin op self.val x.val = .ok z → RangeOf self.kind z →
      intBin op self x = .ok ⟨self.kind, z⟩) ∧
    (∀ e, plainBin op self.val x.val = .error e → intBin op self x = .error e) := by
  unfold intBin
  cases hp : plainBin op self.val x.val with
  | error e =>
    simp [bind, Except.bind]
  | ok z =>
    have hn := newOf_plain self.kind z
    simp only [bind, Except.bind]
    refine ⟨fun r hr => ?_, fun z' hz hr => ?_, fun z' hz hr => ?_, fun e he => by cases he⟩
    · by_cases hz : RangeOf self.kind z
      · rw [hn.1 hz] at hr; cases hr; exact ⟨rfl, rfl, hz⟩
      · rw [hn.2 hz] at hr; cases hr
    · cases hz; exact hn.2 hr
    · cases hz; exact hn.1 hr

/-- C03: the same for the unary operators. -/
theorem C03_unary_exact (op : UnOp) (self : PyNum) :
    (RangeOf self.kind (plainUn op self.val) →
      intUn op self = .ok ⟨self.kind, plainUn op self.val⟩) ∧
    (¬ RangeOf self.kind (plainUn op self.val) → intUn op self = .error .valueError) :=
  newOf_plain _ _

private theorem natBound {n : Nat} : (n : Int) ≤ 9223372036854775807 ↔ n < 2 ^ 63 := by omega

/-- C03: `&`, `|`, `^` of two `int64`, `~` of an `int64`, and `>>` of an `int64` by a
non-negative count never raise. -/
theorem C03_bitwise_closed (a b : Int) (ha : Int64Range a) (hb : Int64Range b) :
    (∀ op ∈ [BinOp.and, .or, .xor], ∃ r, intBin op ⟨.i64, a⟩ ⟨.i64, b⟩ = .ok ⟨.i64, r⟩) ∧
    (∃ r, intUn .invert ⟨.i64, a⟩ = .ok ⟨.i64, r⟩) ∧
    (0 ≤ b → ∃ r, intBin .rshift ⟨.i64, a⟩ ⟨.i64, b⟩ = .ok ⟨.i64, r⟩) := by
  have mk : ∀ op, (∃ z, plainBin op a b = .ok z ∧ Int64Range z) →
      ∃ r, intBin op ⟨.i64, a⟩ ⟨.i64, b⟩ = .ok ⟨.i64, r⟩ := by
    rintro op ⟨z, hz, hr⟩
    exact ⟨z, (C03_binary_exact op ⟨.i64, a⟩ ⟨.i64, b⟩).2.2.1 z hz hr⟩
  have bnd : ∀ m n : Nat, m < 2 ^ 63 → n < 2 ^ 63 →
      (m &&& n) < 2 ^ 63 ∧ (m ||| n) < 2 ^ 63 ∧ natAndNot m n < 2 ^ 63 := by
    intro m n hm hn
    have h1 : (m &&& n) < 2 ^ 63 := Nat.and_lt_two_pow _ hn
    exact ⟨h1, Nat.or_lt_two_pow hm hn, Nat.xor_lt_two_pow hm h1⟩
  refine ⟨?_, ?_, ?_⟩
  · intro op hop
    simp only [List.mem_cons, List.not_mem_nil, or_false] at hop
    rcases hop with rfl | rfl | rfl
    · refine mk _ ⟨pyAnd a b, rfl, ?_⟩
      unfold Int64Range at *
      cases a with
      | ofNat m =>
        simp only [Int.ofNat_eq_natCast] at ha
        cases b with
        | ofNat n =>
          simp only [Int.ofNat_eq_natCast] at hb
          have := bnd m n (by omega) (by omega)
          simp only [pyAnd, Int.ofNat_eq_natCast]; omega
        | negSucc n =>
          have := bnd m n (by omega) (by omega)
          simp only [pyAnd, Int.ofNat_eq_natCast]; omega
      | negSucc m =>
        cases b with
        | ofNat n =>
          simp only [Int.ofNat_eq_natCast] at hb
          have := bnd n m (by omega) (by omega)
          simp only [pyAnd, Int.ofNat_eq_natCast]; omega
        | negSucc n =>
          have := bnd m n (by omega) (by omega)
          simp only [pyAnd]; omega
    · refine mk _ ⟨pyOr a b, rfl, ?_⟩
      unfold Int64Range at *
      cases a with
      | ofNat m =>
        simp only [Int.ofNat_eq_natCast] at ha
        cases b with
        | ofNat n =>
          simp only [Int.ofNat_eq_natCast] at hb
          have := bnd m n (by omega) (by omega)
          simp only [pyOr, Int.ofNat_eq_natCast]; omega
        | negSucc n =>
          have := bnd n m (by omega) (by omega)
          simp only [pyOr]; omega
      | negSucc m =>
        cases b with
        | ofNat n =>
          simp only [Int.ofNat_eq_natCast] at hb
          have := bnd m n (by omega) (by omega)
          simp only [pyOr]; omega
        | negSucc n =>
          have := bnd m n (by omega) (by omega)
          simp only [pyOr]; omega
    · exact mk _ ⟨pyXor a b, rfl, pyXor_range ha hb⟩
  · refine ⟨_, (C03_unary_exact .invert ⟨.i64, a⟩).1 ?_⟩
    show Int64Range (-a - 1)
    unfold Int64Range at *; omega
  · intro h0
    refine mk _ ⟨Int.fdiv a (2 ^ b.toNat), by simp [plainBin, Int.not_lt.mpr h0], ?_⟩
    have hp : (1 : Int) ≤ 2 ^ b.toNat := by exact_mod_cast Nat.one_le_two_pow
    unfold Int64Range at *
    generalize (2 : Int) ^ b.toNat = p at hp
    rw [Int.fdiv_eq_ediv_of_nonneg _ (by omega)]
    constructor
    · apply Int.le_ediv_of_mul_le (by omega)
      calc -9223372036854775808 * p ≤ -9223372036854775808 * 1 := by
            apply Int.mul_le_mul_of_nonpos_left <;> omega
        _ ≤ a := by omega
    · by_cases ha0 : 0 ≤ a
      · exact Int.le_trans (Int.ediv_le_self _ ha0) ha.2
      · have := Int.ediv_neg_of_neg_of_pos (by omega : a < 0) (by omega : 0 < p)
        omega

/-- C03: on `uint64`, `~` always raises (the exact result is negative), it does not wrap. -/
theorem C03_uint64_invert_raises (a : Int) (ha : UInt64Range a) :
    intUn .invert ⟨.u64, a⟩ = .error .valueError := by
  refine (C03_unary_exact .invert ⟨.u64, a⟩).2 ?_
  show ¬ UInt64Range (-a - 1)
  unfold UInt64Range at *; omega

example : intBin .add ⟨.i64, 9223372036854775807⟩ ⟨.plain, 1⟩ = .error .valueError := by decide
example : intBin .sub ⟨.i64, -5⟩ ⟨.u64, 7⟩ = .ok ⟨.i64, -12⟩ := by decide
example : intBin .floordiv ⟨.i64, -7⟩ ⟨.plain, 2⟩ = .ok ⟨.i64, -4⟩ := by decide
example : intUn .neg ⟨.i64, -9223372036854775808⟩ = .error .valueError := by decide

end Arti.Props
