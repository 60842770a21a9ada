import Verif.Model.FrozenDict
import Verif.Lemmas.Dict
import Mathlib.Data.List.Perm.Subperm

/-!
# C10, C11: frozendict
-/

namespace Arti.Props
open Arti PyDict
variable {κ ν : Type} [DecidableEq κ] [DecidableEq ν]

/-- Specification: the value that a sequence of `(key, value)` pairs assigns to a key, the last
one counting. -/
def LastValue (pairs : List (κ × ν)) (k : κ) (r : Option ν) : Prop :=
  (r = none ∧ ∀ v, (k, v) ∉ pairs) ∨
  ∃ v pre post, r = some v ∧ pairs = pre ++ (k, v) :: post ∧ ∀ w, (k, w) ∉ post

/-- C10: a frozendict maps each key to the last value it was given. -/
theorem C10_lookup_last (arg kwargs : List (κ × ν)) (k : κ) :
    LastValue (arg ++ kwargs) k (get? (fdInit arg kwargs) k) := by
  unfold fdInit
  rw [get?_ofItems]
  generalize arg ++ kwargs = l
  suffices h : ∀ l : List (κ × ν), LastValue l.reverse k (get? l k) by
    simpa using h l.reverse
  intro l
  induction l with
  | nil => left; simp
  | cons kv l ih =>
    obtain ⟨k0, v0⟩ := kv
    simp only [get?, List.reverse_cons]
    by_cases h : k0 = k
    · subst h
      right
      exact ⟨v0, l.reverse, [], by simp⟩
    · simp only [h, if_false]
      rcases ih with ⟨h1, h2⟩ | ⟨v, pre, post, h1, h2, h3⟩
      · left
        refine ⟨h1, fun v hm => ?_⟩
        rcases List.mem_append.1 hm with hm | hm
        · exact h2 v hm
        · simp at hm; exact h hm.1.symm
      · right
        refine ⟨v, pre, post ++ [(k0, v0)], h1, by simp [h2], fun w hm => ?_⟩
        rcases List.mem_append.1 hm with hm | hm
        · exact h3 w hm
        · simp at hm; exact h hm.1.symm

theorem fdEq_iff {a b : PyDict κ ν} (ha : (keys a).Nodup) (hb : (keys b).Nodup) :
    fdEq a b = true ↔ ∀ k, get? a k = get? b k := by
  simp only [fdEq, Bool.and_eq_true, beq_iff_eq, List.all_eq_true]
  constructor
  · rintro ⟨hl, h⟩ k
    cases hk : get? a k with
    | some v => exact (h (k, v) (get?_mem hk)).symm
    | none =>
      -- `a`'s keys are among `b`'s and equally many, so they are the same
      have hsub : keys a ⊆ keys b := by
        intro x hx
        obtain ⟨kv, hkv, rfl⟩ := List.mem_map.1 hx
        have := h kv hkv
        exact List.mem_map.2 ⟨(kv.1, kv.2), get?_mem this, rfl⟩
      have hlen : (keys a).length = (keys b).length := by simpa [keys] using hl
      have hperm : (keys a).Perm (keys b) := by
        have hs := List.subperm_of_subset ha hsub
        exact hs.perm_of_length_le (by omega)
      symm
      rw [get?_eq_none_iff] at hk ⊢
      exact fun hm => hk (hperm.mem_iff.2 hm)
  · intro h
    have hp := perm_of_get?_eq ha hb h
    refine ⟨hp.length_eq, fun kv hkv => ?_⟩
    obtain ⟨k, v⟩ := kv
    rw [← h]; exact get?_of_mem ha hkv

/-- C10: two frozendicts are equal iff they have the same keys with equal values, whatever
order the items were given in. -/
theorem C10_eq_iff_same_lookups (a a' b b' : List (κ × ν)) :
    fdEq (fdInit a a') (fdInit b b') = true ↔
      ∀ k, get? (fdInit a a') k = get? (fdInit b b') k :=
  fdEq_iff (nodup_keys_ofItems _) (nodup_keys_ofItems _)

private theorem foldl_xor_perm {l l' : List Nat} (h : l.Perm l') :
    ∀ a, l.foldl (· ^^^ ·) a = l'.foldl (· ^^^ ·) a := by
  induction h with
  | nil => intro a; rfl
  | cons x _ ih => intro a; exact ih _
  | swap x y l => intro a; simp only [List.foldl_cons]; congr 1; rw [Nat.xor_assoc, Nat.xor_comm y x, ← Nat.xor_assoc]
  | trans _ _ h1 h2 => intro a; rw [h1, h2]

/-- C10: equal frozendicts have equal hashes, for every element hash. -/
theorem C10_eq_hash (h : κ × ν → Nat) (mix : Nat → Nat → Nat) (a a' b b' : List (κ × ν))
    (heq : fdEq (fdInit a a') (fdInit b b') = true) :
    fdHash h mix (fdInit a a') = fdHash h mix (fdInit b b') := by
  have hp := perm_of_get?_eq (nodup_keys_ofItems _) (nodup_keys_ofItems _)
    ((C10_eq_iff_same_lookups a a' b b').1 heq)
  show fdHash h mix (ofItems _) = fdHash h mix (ofItems _)
  unfold fdHash
  rw [hp.length_eq, foldl_xor_perm (hp.map h)]

example : fdEq (fdInit [("a", 1), ("b", 2)] [("a", 3)]) (fdInit [("b", 2)] [("a", 3)]) = true := by
  decide
example : fdEq (fdInit [("a", 1), ("b", 2)] []) (fdInit [("b", 2)] [("a", 3)]) = false := by
  decide

/-- Specification: the union of two mappings in which the right operand wins. -/
def RightBiased (a b r : PyDict κ ν) : Prop :=
  ∀ k, get? r k = match get? b k with
    | some v => some v
    | none => get? a k

/-- Specification: the union of two mappings in which the left operand wins. -/
def LeftBiased (a b r : PyDict κ ν) : Prop := RightBiased b a r

omit [DecidableEq ν] in
private theorem fdOr_right {a b : PyDict κ ν} (ha : (keys a).Nodup) (hb : (keys b).Nodup) :
    RightBiased a b (fdOr a b) := by
  intro k
  unfold fdOr fdInit
  rw [List.append_nil, get?_ofItems_nodup (nodup_keys_merge a b), get?_merge ha hb]
  cases get? b k <;> rfl

/-- C11 (what holds): `frozendict | mapping` is the union in which the right operand wins. -/
theorem C11_or_right_wins_partial (a b : PyDict κ ν) (kb : MapKind) (ha : (keys a).Nodup)
    (hb : (keys b).Nodup) : RightBiased a b (pyOrExpr (.frozen, a) (kb, b)) :=
  fdOr_right ha hb

/-- C11 (what holds): `dict | frozendict` is the union in which the *left* operand wins; it is
the expected union if the operands agree on their shared keys. -/
theorem C11_ror_left_wins (a b : PyDict κ ν) (ha : (keys a).Nodup) (hb : (keys b).Nodup) :
    LeftBiased a b (pyOrExpr (.plain, a) (.frozen, b)) ∧
    ((∀ k v w, get? a k = some v → get? b k = some w → v = w) →
      RightBiased a b (pyOrExpr (.plain, a) (.frozen, b))) := by
  have h : LeftBiased a b (pyOrExpr (.plain, a) (.frozen, b)) := fdOr_right hb ha
  refine ⟨h, fun hag k => ?_⟩
  rw [h k]
  cases h1 : get? a k <;> cases h2 : get? b k <;> simp
  exact hag k _ _ h1 h2

/-- C11 (violated): it is not the case that the right operand always wins;
`{"a": 5} | frozendict(a=10)` is `{"a": 5}`. -/
theorem C11_right_wins_violated :
    ¬ ∀ (a b : PyDict String Nat), (keys a).Nodup → (keys b).Nodup →
      RightBiased a b (pyOrExpr (.plain, a) (.frozen, b)) := by
  intro h
  have := h [("a", 5)] [("a", 10)] (by decide) (by decide) "a"
  revert this
  decide

example : (keys [("a", 5), ("b", 1)]).Nodup ∧
    pyOrExpr (.frozen, [("a", 5), ("b", 1)]) (.plain, [("c", 2), ("a", 10)]) =
      [("a", 10), ("b", 1), ("c", 2)] := by decide

end Arti.Props
