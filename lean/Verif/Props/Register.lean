import Verif.Model.Utils
import Verif.Lemmas.Dict

/-!
# C51: registries with priorities
-/

namespace Arti.Props
open Arti PyDict
variable {κ ν : Type} [DecidableEq κ]

/-- Specification: `v` occurs at some position of `l`, and every other position holds a value of
strictly lower priority. -/
def StrictMax (prio : ν → Int) (v : ν) (l : List ν) : Prop :=
  ∃ pre post, l = pre ++ v :: post ∧ (∀ w ∈ pre, prio w < prio v) ∧ ∀ w ∈ post, prio w < prio v

/-- The values registered under `k`, in order. -/
def valuesFor (k : κ) (regs : List (κ × ν)) : List ν :=
  (regs.filter (fun kv => kv.1 == k)).map Prod.snd

private theorem registerAll_append (reg : PyDict κ ν) (p : Option (ν → Int)) (xs ys : List (κ × ν)) :
    registerAll reg p (xs ++ ys) = (registerAll reg p xs).bind (fun r => registerAll r p ys) := by
  induction xs generalizing reg with
  | nil => rfl
  | cons x xs ih =>
    obtain ⟨k, v⟩ := x
    simp only [List.cons_append, registerAll, bind, Except.bind]
    cases register reg k v p with
    | error e => rfl
    | ok r => exact ih r

/-- C51: with priorities, after any sequence of registrations that raises no error, a key holds
the registered value whose priority is strictly the highest among all values registered under
it, and a key without registrations is absent. -/
theorem C51_highest_priority_wins (prio : ν → Int) (regs : List (κ × ν)) (r : PyDict κ ν)
    (h : registerAll [] (some prio) regs = .ok r) (k : κ) :
    match get? r k with
    | some v => StrictMax prio v (valuesFor k regs)
    | none => valuesFor k regs = [] := by
  induction hrev : regs.reverse generalizing regs r with
  | nil =>
    have : regs = [] := by simpa using hrev
    subst this
    simp only [registerAll] at h
    cases h
    simp [valuesFor]
  | cons kv rest ih =>
    have hregs : regs = rest.reverse ++ [kv] := by
      have := congrArg List.reverse hrev; simpa using this
    subst hregs
    obtain ⟨k0, v0⟩ := kv
    rw [registerAll_append] at h
    cases hr : registerAll ([] : PyDict κ ν) (some prio) rest.reverse with
    | error e => rw [hr] at h; simp [Except.bind] at h
    | ok r0 =>
      rw [hr] at h
      have ih0 := ih rest.reverse r0 hr (by simp)
      simp only [Except.bind, registerAll, bind] at h
      have hvals : valuesFor k (rest.reverse ++ [(k0, v0)]) =
          valuesFor k rest.reverse ++ (if k0 = k then [v0] else []) := by
        unfold valuesFor
        rw [List.filter_append, List.map_append]
        congr 1
        by_cases hk : k0 = k <;> simp [hk]
      rw [hvals]
      cases hreg : register r0 k0 v0 (some prio) with
      | error e => rw [hreg] at h; simp at h
      | ok r1 =>
        rw [hreg] at h
        simp only [Except.ok.injEq] at h
        subst h
        by_cases hk : k0 = k
        · subst hk
          simp only [if_true]
          unfold register at hreg
          cases hg : get? r0 k0 with
          | none =>
            rw [hg] at hreg ih0
            simp only [Except.ok.injEq] at hreg
            subst hreg
            rw [get?_set]
            simp only [if_true]
            rw [ih0]
            exact ⟨[], [], rfl, by simp, by simp⟩
          | some ex =>
            rw [hg] at hreg ih0
            simp only at hreg
            obtain ⟨pre, post, hl, hpre, hpost⟩ := ih0
            split at hreg
            · rename_i hgt
              simp only [Except.ok.injEq] at hreg
              subst hreg
              rw [hg]
              refine ⟨pre, post ++ [v0], by simp [hl], hpre, ?_⟩
              intro w hw
              rcases List.mem_append.1 hw with hw | hw
              · exact hpost w hw
              · simp at hw; subst hw; exact hgt
            · split at hreg
              · simp at hreg
              · rename_i hngt hne
                simp only [Except.ok.injEq] at hreg
                subst hreg
                rw [get?_set]
                simp only [if_true]
                have hlt : prio ex < prio v0 := by omega
                refine ⟨pre ++ ex :: post, [], by simp [hl], ?_, by simp⟩
                intro w hw
                rcases List.mem_append.1 hw with hw | hw
                · exact Int.lt_trans (hpre w hw) hlt
                · rcases List.mem_cons.1 hw with rfl | hw
                  · exact hlt
                  · exact Int.lt_trans (hpost w hw) hlt
        · have hsame : get? r1 k = get? r0 k := by
            unfold register at hreg
            cases hg : get? r0 k0 with
            | none =>
              rw [hg] at hreg
              simp only [Except.ok.injEq] at hreg
              subst hreg
              rw [get?_set, if_neg hk]
            | some ex =>
              rw [hg] at hreg
              simp only at hreg
              split at hreg
              · simp only [Except.ok.injEq] at hreg; subst hreg; rfl
              · split at hreg
                · simp at hreg
                · simp only [Except.ok.injEq] at hreg
                  subst hreg
                  rw [get?_set, if_neg hk]
          rw [hsame]
          simpa [hk] using ih0

/-- A strict maximum is determined by the values, not by their order. -/
theorem StrictMax.unique {prio : ν → Int} {v w : ν} {l l' : List ν} (hp : l.Perm l')
    (hv : StrictMax prio v l) (hw : StrictMax prio w l') : v = w := by
  obtain ⟨pre, post, hl, h1, h2⟩ := hv
  obtain ⟨pre', post', hl', h1', h2'⟩ := hw
  have hwl : w ∈ l := hp.mem_iff.2 (by simp [hl'])
  have hvl : v ∈ l' := hp.mem_iff.1 (by simp [hl])
  rw [hl] at hwl
  rw [hl'] at hvl
  have c1 : w = v ∨ prio w < prio v := by
    rcases List.mem_append.1 hwl with h | h
    · exact Or.inr (h1 w h)
    · rcases List.mem_cons.1 h with h | h
      · exact Or.inl h
      · exact Or.inr (h2 w h)
  have c2 : v = w ∨ prio v < prio w := by
    rcases List.mem_append.1 hvl with h | h
    · exact Or.inr (h1' v h)
    · rcases List.mem_cons.1 h with h | h
      · exact Or.inl h
      · exact Or.inr (h2' v h)
  rcases c1 with h | h
  · exact h.symm
  · rcases c2 with h' | h'
    · exact h'
    · omega

/-- C51: two orders of the same registrations that both raise no error give every key the same
value. -/
theorem C51_order_independent (prio : ν → Int) (regs regs' : List (κ × ν)) (hp : regs.Perm regs')
    (r r' : PyDict κ ν) (h : registerAll [] (some prio) regs = .ok r)
    (h' : registerAll [] (some prio) regs' = .ok r') (k : κ) : get? r k = get? r' k := by
  have a := C51_highest_priority_wins prio regs r h k
  have b := C51_highest_priority_wins prio regs' r' h' k
  have hpv : (valuesFor k regs).Perm (valuesFor k regs') := (hp.filter _).map _
  cases h1 : get? r k <;> cases h2 : get? r' k <;> rw [h1] at a <;> rw [h2] at b <;> simp only at a b
  · obtain ⟨pre, post, hl, _⟩ := b
    rw [a, hl] at hpv
    simp at hpv
  · obtain ⟨pre, post, hl, _⟩ := a
    rw [b, hl] at hpv
    simp at hpv
  · rw [StrictMax.unique hpv a b]

/-- C51: without priorities a second registration under the same key is refused, and a first one
stores the value and leaves every other key alone. -/
theorem C51_no_priority (reg : PyDict κ ν) (k : κ) (v : ν) :
    (∀ w, get? reg k = some w → register reg k v none = .error .valueError) ∧
    (get? reg k = none → ∃ r, register reg k v none = .ok r ∧ get? r k = some v ∧
      ∀ k', k' ≠ k → get? r k' = get? reg k') := by
  constructor
  · intro w hw; simp [register, hw]
  · intro hn
    refine ⟨set reg k v, by simp [register, hn], by simp [get?_set], fun k' hk => ?_⟩
    rw [get?_set, if_neg (Ne.symm hk)]

example : registerAll (κ := String) (ν := Int) [] (some id) [("a", 1), ("b", 7), ("a", 3), ("a", 2)] =
    .ok [("a", 3), ("b", 7)] := by decide
example : registerAll (κ := String) (ν := Int) [] (some id) [("a", 1), ("a", 1)] =
    .error .valueError := by decide
example : ([("a", 1), ("a", 3)] : List (String × Int)).Perm [("a", 3), ("a", 1)] := by decide

/-- The ordinal suffix rule: "th" for 11, 12 and 13 modulo 100, otherwise by the last digit. -/
theorem C51_ordinal_suffix (n : Nat) :
    ordinal n = natToStr 10 n ++
      (if n % 100 = 11 ∨ n % 100 = 12 ∨ n % 100 = 13 then ['t', 'h']
       else if n % 10 = 1 then ['s', 't']
       else if n % 10 = 2 then ['n', 'd']
       else if n % 10 = 3 then ['r', 'd']
       else ['t', 'h']) := by
  have e1 : (Int.fmod (n : Int) 10).toNat = n % 10 := by
    rw [Int.fmod_eq_emod_of_nonneg _ (by decide)]; omega
  have e2 : Int.fmod (n : Int) 100 = ((n % 100 : Nat) : Int) := by
    rw [Int.fmod_eq_emod_of_nonneg _ (by decide)]; omega
  have e3 : intToStr (n : Int) = natToStr 10 n := rfl
  unfold ordinal
  simp only [e1, e2, e3]
  congr 1
  by_cases h : n % 100 = 11 ∨ n % 100 = 12 ∨ n % 100 = 13
  · rw [if_pos h, if_pos (by omega)]; rfl
  · rw [if_neg h, if_neg (by omega)]
    have : n % 10 < 10 := Nat.mod_lt _ (by decide)
    generalize n % 10 = m at *
    match m, this with
    | 0, _ => rfl
    | 1, _ => rfl
    | 2, _ => rfl
    | 3, _ => rfl
    | 4, _ => rfl
    | 5, _ => rfl
    | 6, _ => rfl
    | 7, _ => rfl
    | 8, _ => rfl
    | 9, _ => rfl

end Arti.Props
