import Verif.Model.Topo
import Verif.Lemmas.Dict
import Mathlib.Data.Fintype.Card
import Mathlib.Logic.Relation
import Mathlib.Data.Set.Finite.List

/-! Lemmas about the topological sorter. -/

namespace Arti
namespace Topo
variable {α : Type} [DecidableEq α]

/-- `x` depends directly on `y`. -/
def Edge (deps : List (α × List α)) (x y : α) : Prop := ∃ ps, (x, ps) ∈ deps ∧ y ∈ ps

theorem mem_preds (deps : List (α × List α)) (x y : α) : y ∈ preds deps x ↔ Edge deps x y := by
  simp only [preds, List.mem_flatMap, List.mem_filter, decide_eq_true_eq, Edge]
  constructor
  · rintro ⟨⟨m, ps⟩, ⟨h1, h2⟩, h3⟩
    simp only at h2 h3
    subst h2
    exact ⟨ps, h1, h3⟩
  · rintro ⟨ps, h1, h2⟩
    exact ⟨(x, ps), ⟨h1, rfl⟩, h2⟩

theorem mem_nodes (deps : List (α × List α)) (x : α) :
    x ∈ nodes deps ↔ ∃ n ps, (n, ps) ∈ deps ∧ (x = n ∨ x ∈ ps) := by
  simp only [nodes, mem_setUpdate, List.not_mem_nil, false_or, List.mem_flatMap]
  constructor
  · rintro ⟨⟨n, ps⟩, h, hx⟩; exact ⟨n, ps, h, by simpa using hx⟩
  · rintro ⟨n, ps, h, hx⟩; exact ⟨(n, ps), h, by simpa using hx⟩

theorem nodup_nodes (deps : List (α × List α)) : (nodes deps).Nodup :=
  nodup_setUpdate _ _ List.nodup_nil

/-- The loop invariant. -/
structure Good (deps : List (α × List α)) (done rem : List α) : Prop where
  nodup : (done ++ rem).Nodup
  mem : ∀ x, x ∈ done ++ rem ↔ x ∈ nodes deps
  ordered : ∀ l x r, done = l ++ x :: r → ∀ y, Edge deps x y → y ∈ l

theorem append_cons_cases {l1 l2 l r : List α} {x : α} (h : l1 ++ l2 = l ++ x :: r) :
    (∃ r', l1 = l ++ x :: r') ∨ (∃ l', l = l1 ++ l' ∧ l2 = l' ++ x :: r) := by
  induction l1 generalizing l with
  | nil => right; exact ⟨l, by simp, by simpa using h⟩
  | cons a l1 ih =>
    cases l with
    | nil =>
      simp only [List.cons_append, List.nil_append, List.cons.injEq] at h
      left; exact ⟨l1, by rw [h.1]; simp⟩
    | cons b l =>
      simp only [List.cons_append, List.cons.injEq] at h
      obtain ⟨h1, h2⟩ := h
      subst h1
      rcases ih h2 with ⟨r', hr⟩ | ⟨l', h3, h4⟩
      · left; exact ⟨r', by rw [hr]; simp⟩
      · right; exact ⟨l', by rw [h3]; simp, h4⟩

theorem filter_partition_mem (rem : List α) (p : α → Bool) (x : α) :
    (x ∈ rem.filter p ∨ x ∈ rem.filter (fun n => n ∉ rem.filter p)) ↔ x ∈ rem := by
  simp only [List.mem_filter, decide_eq_true_eq, not_and]
  constructor
  · rintro (h | h) <;> exact h.1
  · intro h
    by_cases hp : p x = true
    · exact .inl ⟨h, hp⟩
    · exact .inr ⟨h, fun _ => hp⟩

theorem Good.step {deps : List (α × List α)} {done rem : List α} (h : Good deps done rem) :
    Good deps (done ++ rem.filter fun n => (preds deps n).all (· ∈ done))
      (rem.filter fun n => n ∉ rem.filter fun n => (preds deps n).all (· ∈ done)) := by
  have hnd := List.nodup_append.1 h.nodup
  refine ⟨?_, ?_, ?_⟩
  · rw [List.append_assoc, List.nodup_append]
    refine ⟨hnd.1, ?_, ?_⟩
    · rw [List.nodup_append]
      refine ⟨hnd.2.1.filter _, hnd.2.1.filter _, ?_⟩
      intro a ha b hb hab
      subst hab
      have hb' := (List.mem_filter.1 hb).2
      simp only [decide_eq_true_eq] at hb'
      exact hb' ha
    · intro a ha b hb
      refine hnd.2.2 a ha b ?_
      rw [← filter_partition_mem rem (fun n => (preds deps n).all (· ∈ done)) b]
      exact List.mem_append.1 hb
  · intro x
    rw [← h.mem, List.append_assoc, List.mem_append, List.mem_append, List.mem_append,
      filter_partition_mem]
  · intro l x r heq y hy
    rcases append_cons_cases heq with ⟨r', h1⟩ | ⟨l', h1, h2⟩
    · exact h.ordered l x r' h1 y hy
    · have hx : x ∈ rem.filter fun n => (preds deps n).all (· ∈ done) := by rw [h2]; simp
      have := (List.mem_filter.1 hx).2
      rw [List.all_eq_true] at this
      have := this y ((mem_preds deps x y).2 hy)
      rw [h1]
      exact List.mem_append.2 (.inl (by simpa using this))

/-- A finite non-empty set in which everything depends on something contains a cycle. -/
theorem cycle_of_closed {deps : List (α × List α)} {rem : List α} (hne : rem ≠ [])
    (h : ∀ x ∈ rem, ∃ y ∈ rem, Edge deps x y) : ∃ x, Relation.TransGen (Edge deps) x x := by
  by_contra hno
  let β := {x // x ∈ rem}
  have : Finite β := List.finite_toSet rem
  let r : β → β → Prop := fun a b => Relation.TransGen (Edge deps) b.1 a.1
  have : IsTrans β r := ⟨fun a b c hab hbc => Relation.TransGen.trans hbc hab⟩
  have : Std.Irrefl r := ⟨fun a ha => hno ⟨a.1, ha⟩⟩
  have wf := Finite.wellFounded_of_trans_of_irrefl r
  have key : ∀ a : β, False := fun a => wf.induction (C := fun _ => False) a (by
    intro a ih
    obtain ⟨y, hy, he⟩ := h a.1 a.2
    exact ih ⟨y, hy⟩ (Relation.TransGen.single he))
  cases rem with
  | nil => exact hne rfl
  | cons x _ => exact key ⟨x, by simp⟩

theorem loop_spec (deps : List (α × List α)) : ∀ (fuel : Nat) (done rem : List α),
    rem.length ≤ fuel → Good deps done rem →
    (∃ order, loop deps fuel done rem = .ok order ∧ Good deps order []) ∨
    (loop deps fuel done rem = .error .cycleError ∧ ∃ x, Relation.TransGen (Edge deps) x x) := by
  intro fuel
  induction fuel with
  | zero =>
    intro done rem hl hg
    cases rem with
    | nil => exact .inl ⟨done, by simp [loop], hg⟩
    | cons a rem => simp at hl
  | succ fuel ih =>
    intro done rem hl hg
    cases rem with
    | nil => exact .inl ⟨done, by simp [loop], hg⟩
    | cons a rem =>
      simp only [loop]
      cases hr : ((a :: rem).filter fun n => (preds deps n).all (· ∈ done)) with
      | nil =>
        right
        refine ⟨by simp, cycle_of_closed (rem := a :: rem) (by simp) ?_⟩
        intro x hx
        rw [List.filter_eq_nil_iff] at hr
        have := hr x hx
        simp only [List.all_eq_true, not_forall, decide_eq_true_eq] at this
        obtain ⟨y, hy, hnd⟩ := this
        rw [mem_preds] at hy
        refine ⟨y, ?_, hy⟩
        have : y ∈ done ++ a :: rem := by
          rw [hg.mem, mem_nodes]
          obtain ⟨ps, h1, h2⟩ := hy
          exact ⟨x, ps, h1, .inr h2⟩
        rcases List.mem_append.1 this with h | h
        · exact absurd h hnd
        · exact h
      | cons b bs =>
        have hs := hg.step
        have hl' : ((a :: rem).filter fun n =>
            n ∉ (a :: rem).filter fun n => (preds deps n).all (· ∈ done)).length ≤ fuel := by
          have hb : b ∈ (a :: rem).filter fun n => (preds deps n).all (· ∈ done) := by
            rw [hr]; simp
          have hlt : ((a :: rem).filter fun n =>
              n ∉ (a :: rem).filter fun n => (preds deps n).all (· ∈ done)).length
                < (a :: rem).length := by
            rw [List.length_filter_lt_length_iff_exists]
            exact ⟨b, (List.mem_filter.1 hb).1, by simpa only [decide_eq_true_eq, not_not] using hb⟩
          omega
        rw [hr] at hs hl'
        simp only [List.isEmpty_cons, Bool.false_eq_true, if_false]
        exact ih _ _ hl' hs

theorem good_init (deps : List (α × List α)) : Good deps [] (nodes deps) :=
  ⟨by simpa using nodup_nodes deps, by simp, by intro l x r h; simp at h⟩

theorem idx_lt_of_good {deps : List (α × List α)} {order : List α} (h : Good deps order [])
    {x y : α} (he : Edge deps x y) : order.idxOf y < order.idxOf x := by
  have hx : x ∈ order := by
    have := (h.mem x).2 ((mem_nodes deps x).2 (by obtain ⟨ps, h1, _⟩ := he; exact ⟨x, ps, h1, .inl rfl⟩))
    simpa using this
  obtain ⟨l, r, hlr⟩ := List.append_of_mem hx
  have hy := h.ordered l x r hlr y he
  have hnd : order.Nodup := by simpa using h.nodup
  rw [hlr] at hnd ⊢
  have hxl : x ∉ l := by
    intro hxl
    exact (List.nodup_append.1 hnd).2.2 x hxl x (by simp) rfl
  rw [List.idxOf_append_of_mem hy, List.idxOf_append_of_notMem hxl]
  simp only [List.idxOf_cons_self]
  have := List.idxOf_lt_length_of_mem hy
  omega

end Topo
end Arti
