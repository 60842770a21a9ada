import Verif.Spec.Arith
import Verif.Props.Ints
import Mathlib.Data.Int.Bitwise
import Mathlib.Tactic.LinearCombination
import Mathlib.Tactic.Linarith
import Mathlib.Tactic.Ring

/-!
# C03: the operators compute what integer arithmetic says
-/

namespace Arti.Props
open Spec

theorem bit_iff (x : Int) (i : Nat) : Bit x i ↔ x.testBit i = true := by
  have hp : (0 : Int) < 2 ^ i := by positivity
  have hq : Bit x i ↔ x / 2 ^ i % 2 = 1 := by
    constructor
    · rintro ⟨q, r, rfl, h0, h1, h2⟩
      rw [Int.add_comm, Int.add_mul_ediv_right _ _ (by omega), Int.ediv_eq_zero_of_lt h0 h1]
      omega
    · intro h
      exact ⟨x / 2 ^ i, x % 2 ^ i, by rw [Int.mul_comm]; exact (Int.mul_ediv_add_emod x _).symm,
        Int.emod_nonneg _ (by omega), Int.emod_lt_of_pos _ hp, h⟩
  rw [hq]
  cases x with
  | ofNat m =>
    simp only [Int.testBit, Int.ofNat_eq_natCast, Nat.testBit_eq_decide_div_mod_eq, decide_eq_true_eq]
    norm_cast
  | negSucc m =>
    simp only [Int.testBit, Nat.testBit_eq_decide_div_mod_eq, Bool.not_eq_true', decide_eq_false_iff_not]
    have : Int.negSucc m / 2 ^ i = Int.negSucc (m / 2 ^ i) := by
      have := Int.negSucc_ediv m hp
      rw [this]
      norm_cast
    rw [this]
    omega

theorem natAndNot_eq (a b : Nat) : natAndNot a b = Nat.ldiff a b := by
  apply Nat.eq_of_testBit_eq
  intro i
  simp only [natAndNot, Nat.testBit_xor, Nat.testBit_and, Nat.testBit_ldiff]
  cases a.testBit i <;> cases b.testBit i <;> rfl

theorem pyAnd_eq (a b : Int) : pyAnd a b = Int.land a b := by
  cases a <;> cases b <;> simp [pyAnd, Int.land, natAndNot_eq]

theorem pyOr_eq (a b : Int) : pyOr a b = Int.lor a b := by
  cases a <;> cases b <;> simp [pyOr, Int.lor, natAndNot_eq]

theorem pyXor_eq (a b : Int) : pyXor a b = Int.xor a b := by
  cases a <;> cases b <;> simp [pyXor, Int.xor]

theorem floorQuotient_fdiv {a b : Int} (hb : b ≠ 0) : FloorQuotient a b (Int.fdiv a b) := by
  have h := Int.mul_fdiv_add_fmod a b
  refine ⟨fun h0 => ?_, fun h0 => ?_⟩
  · have h1 := Int.fmod_nonneg_of_pos a h0
    have h2 := Int.fmod_lt_of_pos a h0
    constructor <;> nlinarith
  · have h1 : Int.fmod a b ≤ 0 ∧ b < Int.fmod a b := by
      have e : Int.fmod a b = - Int.fmod (-a) (-b) := by
        rw [Int.neg_fmod_neg]; omega
      have := Int.fmod_nonneg_of_pos (-a) (by omega : 0 < -b)
      have := Int.fmod_lt_of_pos (-a) (by omega : 0 < -b)
      omega
    constructor <;> nlinarith

/-- There is at most one floor quotient. -/
theorem floorQuotient_unique {a b q q' : Int} (hb : b ≠ 0) (h : FloorQuotient a b q)
    (h' : FloorQuotient a b q') : q = q' := by
  rcases Int.lt_or_gt_of_ne hb with h0 | h0
  · obtain ⟨h1, h2⟩ := h.2 h0
    obtain ⟨h3, h4⟩ := h'.2 h0
    have : q < q' + 1 := by nlinarith
    have : q' < q + 1 := by nlinarith
    omega
  · obtain ⟨h1, h2⟩ := h.1 h0
    obtain ⟨h3, h4⟩ := h'.1 h0
    have : q < q' + 1 := by nlinarith
    have : q' < q + 1 := by nlinarith
    omega

/-- Integers with the same bits are equal. -/
theorem eq_of_bits {a b : Int} (h : ∀ i, Bit a i ↔ Bit b i) : a = b := by
  have h' : ∀ i, a.testBit i = b.testBit i := fun i => by
    have := h i
    rw [bit_iff, bit_iff] at this
    exact Bool.eq_iff_iff.2 this
  have big : ∀ m n : Nat, ∃ i, m.testBit i = false ∧ n.testBit i = false := fun m n =>
    ⟨m + n, Nat.testBit_eq_false_of_lt (lt_of_lt_of_le Nat.lt_two_pow_self
        (Nat.pow_le_pow_right (by omega) (by omega))),
      Nat.testBit_eq_false_of_lt (lt_of_lt_of_le Nat.lt_two_pow_self
        (Nat.pow_le_pow_right (by omega) (by omega)))⟩
  cases a with
  | ofNat m =>
    cases b with
    | ofNat n => exact congrArg _ (Nat.eq_of_testBit_eq h')
    | negSucc n =>
      obtain ⟨i, h1, h2⟩ := big m n
      have := h' i
      simp only [Int.testBit, h1, h2] at this
      cases this
  | negSucc m =>
    cases b with
    | ofNat n =>
      obtain ⟨i, h1, h2⟩ := big m n
      have := h' i
      simp only [Int.testBit, h1, h2] at this
      cases this
    | negSucc n =>
      exact congrArg _ (Nat.eq_of_testBit_eq fun i => by simpa [Int.testBit] using h' i)

/-- Each operator has at most one result. -/
theorem computes_unique {op : BinOp} {a b r r' : Int} (hn : ¬ NoResult b op)
    (h : Computes a b r op) (h' : Computes a b r' op) : r = r' := by
  cases op with
  | add | sub | mul | lshift => exact h.trans h'.symm
  | floordiv => exact floorQuotient_unique hn h h'
  | rshift => exact floorQuotient_unique (by positivity) h h'
  | mod =>
    obtain ⟨⟨q, h1⟩, h2, h3⟩ := h
    obtain ⟨⟨q', h1'⟩, h2', h3'⟩ := h'
    have hq : q = q' := by
      apply floorQuotient_unique (a := a) (b := b) hn
      · refine ⟨fun h0 => ?_, fun h0 => ?_⟩
        · have := h2 h0; constructor <;> nlinarith
        · have := h3 h0; constructor <;> nlinarith
      · refine ⟨fun h0 => ?_, fun h0 => ?_⟩
        · have := h2' h0; constructor <;> nlinarith
        · have := h3' h0; constructor <;> nlinarith
    subst hq
    omega
  | and | or | xor => exact eq_of_bits fun i => (h i).trans (h' i).symm

/-- What the plain operator returns. -/
theorem plainBin_spec (op : BinOp) (a b : Int) :
    (NoResult b op → ∃ e, plainBin op a b = .error e) ∧
    (¬ NoResult b op → ∃ r, plainBin op a b = .ok r ∧ Computes a b r op) := by
  cases op with
  | add | sub | mul => exact ⟨fun h => h.elim, fun _ => ⟨_, rfl, rfl⟩⟩
  | floordiv =>
    refine ⟨fun h => ⟨.zeroDivision, by simp only [NoResult] at h; simp [plainBin, h]⟩, fun h => ?_⟩
    exact ⟨_, by simp only [NoResult] at h; simp only [plainBin, h, if_false], floorQuotient_fdiv h⟩
  | mod =>
    refine ⟨fun h => ⟨.zeroDivision, by simp only [NoResult] at h; simp [plainBin, h]⟩, fun h => ?_⟩
    refine ⟨Int.fmod a b, by simp only [NoResult] at h; simp only [plainBin, h, if_false], ?_⟩
    have hf := floorQuotient_fdiv (a := a) h
    have hm := Int.mul_fdiv_add_fmod a b
    refine ⟨⟨Int.fdiv a b, by rw [Int.mul_comm]; exact hm.symm⟩, fun h0 => ?_, fun h0 => ?_⟩
    · have := hf.1 h0; constructor <;> nlinarith
    · have := hf.2 h0; constructor <;> nlinarith
  | lshift =>
    exact ⟨fun h => ⟨.valueError, by simp only [NoResult] at h; simp [plainBin, h]⟩,
      fun h => ⟨_, by simp only [NoResult] at h; simp only [plainBin, h, if_false], rfl⟩⟩
  | rshift =>
    exact ⟨fun h => ⟨.valueError, by simp only [NoResult] at h; simp [plainBin, h]⟩,
      fun h => ⟨_, by simp only [NoResult] at h; simp only [plainBin, h, if_false],
        floorQuotient_fdiv (by positivity)⟩⟩
  | and =>
    refine ⟨fun h => h.elim, fun _ => ⟨_, rfl, fun i => ?_⟩⟩
    simp only [bit_iff, pyAnd_eq, Int.testBit_land, Bool.and_eq_true]
  | or =>
    refine ⟨fun h => h.elim, fun _ => ⟨_, rfl, fun i => ?_⟩⟩
    simp only [bit_iff, pyOr_eq, Int.testBit_lor, Bool.or_eq_true]
  | xor =>
    refine ⟨fun h => h.elim, fun _ => ⟨_, rfl, fun i => ?_⟩⟩
    simp only [bit_iff, pyXor_eq, Int.testBit_lxor]
    cases a.testBit i <;> cases b.testBit i <;> simp

theorem newOf_iff (cls : IntKind) (z : Int) (r : PyNum) :
    newOf cls ⟨.plain, z⟩ = .ok r ↔ r.val = z ∧ r.kind = cls ∧ RangeOf cls r.val := by
  obtain ⟨h1, h2⟩ := newOf_plain cls z
  constructor
  · intro h
    by_cases hr : RangeOf cls z
    · rw [h1 hr] at h
      injection h with h
      subst h
      exact ⟨rfl, rfl, hr⟩
    · rw [h2 hr] at h; cases h
  · rintro ⟨rfl, rfl, hr⟩
    exact h1 hr

/-- The class of the result of `a op b`: that of the first operand that is not a plain `int`. -/
def ResultClass (a b : PyNum) : IntKind := if a.kind = .plain then b.kind else a.kind

theorem binary_eq (op : BinOp) (a b : PyNum) :
    binary op a b =
      (plainBin op a.val b.val).bind fun z => newOf (ResultClass a b) ⟨.plain, z⟩ := by
  unfold binary ResultClass intBinR intBin
  by_cases ha : a.kind = .plain
  · by_cases hb : b.kind = .plain
    · rw [if_neg (by simp [hb]), if_pos ha, ha, hb]; rfl
    · rw [if_pos ⟨ha, hb⟩, if_pos ha]; rfl
  · rw [if_neg (by simp [ha]), if_neg ha]; rfl

/-- C03: a binary operator with an `int64` or `uint64` operand, on either side, returns exactly the
mathematical result, as a value of the class of the first such operand, when there is one and it is
in the range of the class; in every other case it raises. -/
theorem C03_operators_are_exact (op : BinOp) (a b r : PyNum) :
    binary op a b = .ok r ↔
      ¬ NoResult b.val op ∧ Computes a.val b.val r.val op ∧ r.kind = ResultClass a b ∧
        RangeOf (ResultClass a b) r.val := by
  obtain ⟨s1, s2⟩ := plainBin_spec op a.val b.val
  rw [binary_eq]
  by_cases hn : NoResult b.val op
  · obtain ⟨e, he⟩ := s1 hn
    rw [he]
    exact ⟨fun h => (by cases h), fun h => absurd hn h.1⟩
  · obtain ⟨z, hz, hc⟩ := s2 hn
    rw [hz]
    show newOf _ _ = _ ↔ _
    rw [newOf_iff]
    constructor
    · rintro ⟨rfl, hk, hr⟩
      exact ⟨hn, hc, hk, hr⟩
    · rintro ⟨-, hc', hk, hr⟩
      exact ⟨computes_unique hn hc' hc, hk, hr⟩

/-- C03: the unary operators return exactly the negation, the value itself and the
complement (the integer with all bits exchanged), if in range. -/
theorem C03_unary_operators_are_exact (self r : PyNum) :
    (intUn .neg self = .ok r ↔
      r.val = -self.val ∧ r.kind = self.kind ∧ RangeOf self.kind r.val) ∧
    (∀ op ∈ [UnOp.pos, .ceil, .floor, .trunc], (intUn op self = .ok r ↔
      r.val = self.val ∧ r.kind = self.kind ∧ RangeOf self.kind r.val)) ∧
    (intUn .invert self = .ok r ↔
      (∀ i, Bit r.val i ↔ ¬ Bit self.val i) ∧ r.kind = self.kind ∧ RangeOf self.kind r.val) := by
  have key : ∀ op (P : Int → Prop), P (plainUn op self.val) → (∀ z, P z → z = plainUn op self.val) →
      (intUn op self = .ok r ↔ P r.val ∧ r.kind = self.kind ∧ RangeOf self.kind r.val) := by
    intro op P hP hu
    unfold intUn
    rw [newOf_iff]
    constructor
    · rintro ⟨h, hk, hr⟩
      exact ⟨h ▸ hP, hk, hr⟩
    · rintro ⟨hp, hk, hr⟩
      exact ⟨hu _ hp, hk, hr⟩
  refine ⟨key .neg (· = -self.val) rfl fun z h => h, fun op hop => ?_,
    key .invert (fun z => ∀ i, Bit z i ↔ ¬ Bit self.val i) (fun i => ?_) fun z h => ?_⟩
  · simp only [List.mem_cons, List.not_mem_nil, or_false] at hop
    rcases hop with rfl | rfl | rfl | rfl <;>
      exact key _ (· = self.val) rfl fun z h => h
  · simp only [bit_iff]
    have : plainUn .invert self.val = Int.lnot self.val := by
      show -self.val - 1 = _
      cases self.val <;> simp [Int.lnot] <;> omega
    rw [this, Int.testBit_lnot]
    simp
  · refine eq_of_bits fun i => (h i).trans ?_
    simp only [bit_iff]
    have : plainUn .invert self.val = Int.lnot self.val := by
      show -self.val - 1 = _
      cases self.val <;> simp [Int.lnot] <;> omega
    rw [this, Int.testBit_lnot]
    simp

theorem nearest10_unique {a : Int} {n : Nat} {r r' : Int} (h : Nearest10 a n r)
    (h' : Nearest10 a n r') : r = r' := by
  obtain ⟨q, rfl, h1, h2⟩ := h
  obtain ⟨q', rfl, h1', h2'⟩ := h'
  have hp : (0 : Int) < 10 ^ n := by positivity
  generalize (10 : Int) ^ n = p at *
  have e1 := abs_le.1 (show |a - q * p| ≤ |a - q * p| from le_refl _)
  have e2 := abs_le.1 (show |a - q' * p| ≤ |a - q' * p| from le_refl _)
  by_cases hq : q = q'
  · rw [hq]
  · exfalso
    rcases Int.lt_or_gt_of_ne hq with hlt | hlt
    · have : q' = q + 1 := by
        have : q' < q + 2 := by nlinarith
        omega
      subst this
      have := h2 (by nlinarith)
      have := h2' (by nlinarith)
      omega
    · have : q = q' + 1 := by
        have : q < q' + 2 := by nlinarith
        omega
      subst this
      have := h2 (by nlinarith)
      have := h2' (by nlinarith)
      omega

theorem plainRound_spec (a : Int) (n : Nat) (hn : 0 < n) :
    Nearest10 a n (plainRound a (-(n : Int))) := by
  have h0 : ¬ (0 : Int) ≤ -(n : Int) := by omega
  have ht : (-(-(n : Int))).toNat = n := by omega
  have hev : ∃ m, (10 : Int) ^ n = 2 * m := ⟨5 * 10 ^ (n - 1), by
    obtain ⟨k, rfl⟩ : ∃ k, n = k + 1 := ⟨n - 1, by omega⟩
    simp only [Nat.add_sub_cancel, pow_succ]; ring⟩
  unfold plainRound
  simp only [h0, if_false, ht]
  have hp : (0 : Int) < 10 ^ n := by positivity
  unfold Nearest10
  generalize (10 : Int) ^ n = p at *
  have hd := Int.mul_ediv_add_emod a p
  have hr0 := Int.emod_nonneg a (by omega : p ≠ 0)
  have hr1 := Int.emod_lt_of_pos a hp
  generalize a / p = q at *
  generalize a % p = r at *
  subst hd
  have e1 : p * q + r - q * p = r := by ring
  have e2 : p * q + r - (q + 1) * p = r - p := by ring
  split_ifs with c1 c2 c3
  · refine ⟨q, rfl, ?_⟩
    rw [e1, abs_of_nonneg hr0]
    exact ⟨by omega, fun h => by omega⟩
  · refine ⟨q + 1, rfl, ?_⟩
    rw [e2, abs_of_nonpos (by omega)]
    exact ⟨by omega, fun h => by omega⟩
  · refine ⟨q, rfl, ?_⟩
    rw [e1, abs_of_nonneg hr0]
    exact ⟨by omega, fun h => c3⟩
  · refine ⟨q + 1, rfl, ?_⟩
    rw [e2, abs_of_nonpos (by omega)]
    exact ⟨by omega, fun h => by omega⟩

/-- C03: `round(x)` and `round(x, n)` are `x` itself, and `round(x, -n)` is the multiple of `10 ** n`
nearest to `x`, of the class of `x`, when that is in range; otherwise it raises. -/
theorem C03_round_is_exact (self r : PyNum) (n : Nat) :
    (intRound self n = .ok r ↔ r.val = self.val ∧ r.kind = self.kind ∧ RangeOf self.kind r.val) ∧
    (0 < n → (intRound self (-(n : Int)) = .ok r ↔
      Nearest10 self.val n r.val ∧ r.kind = self.kind ∧ RangeOf self.kind r.val)) := by
  refine ⟨?_, fun hn => ?_⟩
  · unfold intRound plainRound
    rw [if_pos (by omega), newOf_iff]
  · unfold intRound
    rw [newOf_iff]
    have := plainRound_spec self.val n hn
    constructor
    · rintro ⟨h, hk, hr⟩
      exact ⟨h ▸ this, hk, hr⟩
    · rintro ⟨h, hk, hr⟩
      exact ⟨nearest10_unique h this, hk, hr⟩

/-- C03 fails for the operators that `int64` and `uint64` inherit from `int`: `**`, `abs` and
`divmod` return plain integers, also when the result is not in the range of the class. -/
theorem C03_violated_by_inherited_operators :
    (¬ Int64Range (power ⟨.i64, 2⟩ 64).val) ∧
    (∀ a b, (power a b).kind = .plain) ∧
    (∃ a : PyNum, a.kind = .i64 ∧ Int64Range a.val ∧ (absolute a).kind = .plain ∧
      ¬ Int64Range (absolute a).val) ∧
    (∃ a b p : PyNum, ∃ q : PyNum, a.kind = .i64 ∧ b.kind = .i64 ∧ Int64Range a.val ∧
      Int64Range b.val ∧ divMod a b = .ok (q, p) ∧ q.kind = .plain ∧ ¬ Int64Range q.val) :=
  ⟨by decide +kernel, fun _ _ => rfl,
    ⟨⟨.i64, -9223372036854775808⟩, rfl, by decide, rfl, by decide +kernel⟩,
    ⟨⟨.i64, -9223372036854775808⟩, ⟨.i64, -1⟩, ⟨.plain, 0⟩, ⟨.plain, 9223372036854775808⟩, rfl, rfl,
      by decide, by decide, by decide +kernel, rfl, by decide⟩⟩

/-- C03: the inherited operators do not wrap either: they return the exact results. -/
theorem C03_inherited_operators_are_exact (a b : PyNum) (n : Nat) :
    (power a n).val = a.val ^ n ∧
    ((absolute a).val = a.val ∨ (absolute a).val = -a.val) ∧ 0 ≤ (absolute a).val ∧
    (∀ q p, divMod a b = .ok (q, p) →
      Computes a.val b.val q.val .floordiv ∧ Computes a.val b.val p.val .mod) ∧
    ((∃ e, divMod a b = .error e) ↔ b.val = 0) := by
  refine ⟨rfl, abs_choice _, abs_nonneg _, fun q p h => ?_, ?_⟩
  · unfold divMod at h
    split_ifs at h with h0
    injection h with h
    injection h with h1 h2
    subst h1 h2
    constructor
    · exact floorQuotient_fdiv h0
    · obtain ⟨r, hr, hc⟩ := (plainBin_spec .mod a.val b.val).2 h0
      simp only [plainBin, h0, if_false] at hr
      injection hr with hr
      exact hr ▸ hc
  · unfold divMod
    split_ifs with h0
    · exact ⟨fun _ => h0, fun _ => ⟨_, rfl⟩⟩
    · exact ⟨fun ⟨_, h⟩ => (by cases h), fun h => absurd h h0⟩

example : binary .sub ⟨.plain, 5⟩ ⟨.u64, 7⟩ = .error .valueError := by decide
example : binary .sub ⟨.plain, 9⟩ ⟨.u64, 7⟩ = .ok ⟨.u64, 2⟩ := by decide
example : intRound ⟨.i64, 25⟩ (-1) = .ok ⟨.i64, 20⟩ := by decide
example : intRound ⟨.i64, -35⟩ (-1) = .ok ⟨.i64, -40⟩ := by decide
example : intBin .mod ⟨.i64, 7⟩ ⟨.plain, -2⟩ = .ok ⟨.i64, -1⟩ := by decide
example : intBin .and ⟨.i64, -4⟩ ⟨.i64, 7⟩ = .ok ⟨.i64, 4⟩ := by decide
example : ¬ NoResult (-2) .mod ∧ Computes 7 (-2) (-1) .mod :=
  ⟨by simp [NoResult], ⟨-4, by decide⟩, by decide, by decide⟩

end Arti.Props
