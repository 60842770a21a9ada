import Verif.Lemmas.Topo
import Verif.Lemmas.Graph

/-!
# C27, C28: execution order and acyclicity
-/

namespace Arti.Props
open Arti Topo

variable {α : Type} [DecidableEq α]

/-- C27: when the sorter succeeds, its order lists every node exactly once, and each node comes
after everything it directly depends on. -/
theorem C27_order_respects_dependencies (deps : List (α × List α)) (order : List α)
    (h : staticOrder deps = .ok order) :
    order.Nodup ∧
    (∀ x, x ∈ order ↔ ∃ n ps, (n, ps) ∈ deps ∧ (x = n ∨ x ∈ ps)) ∧
    (∀ x ps y, (x, ps) ∈ deps → y ∈ ps → ∀ l r, order = l ++ x :: r → y ∈ l) := by
  rcases loop_spec deps _ [] _ (Nat.le_refl _) (good_init deps) with ⟨o, h1, hg⟩ | ⟨h1, _⟩
  · have : o = order := by
      have := h1.symm.trans h
      simpa using this
    subst this
    refine ⟨by simpa using hg.nodup, fun x => ?_, ?_⟩
    · have := hg.mem x
      rw [List.append_nil] at this
      rw [this, mem_nodes]
    · intro x ps y hx hy l r heq
      exact hg.ordered l x r heq y ⟨ps, hx, hy⟩
  · have := h1.symm.trans h
    simp at this

/-- C27: the sorter succeeds exactly on acyclic dependencies, and otherwise reports a cycle. -/
theorem C27_succeeds_iff_acyclic (deps : List (α × List α)) :
    ((∃ order, staticOrder deps = .ok order) ↔
      ∀ x, ¬ Relation.TransGen (fun x y => ∃ ps, (x, ps) ∈ deps ∧ y ∈ ps) x x) ∧
    (∀ e, staticOrder deps = .error e → e = .cycleError) := by
  rcases loop_spec deps _ [] _ (Nat.le_refl _) (good_init deps) with ⟨o, h1, hg⟩ | ⟨h1, hc⟩
  · refine ⟨⟨fun _ x hx => ?_, fun _ => ⟨o, h1⟩⟩, fun e he => by
      have := h1.symm.trans he; simp at this⟩
    have : ∀ a b, Relation.TransGen (Edge deps) a b → o.idxOf b < o.idxOf a := by
      intro a b hab
      induction hab with
      | single h => exact idx_lt_of_good hg h
      | tail _ h ih => exact lt_trans (idx_lt_of_good hg h) ih
    exact absurd (this x x hx) (Nat.lt_irrefl _)
  · refine ⟨⟨fun ⟨o, ho⟩ => ?_, fun h => ?_⟩, fun e he => by
      have := h1.symm.trans he; simpa using this.symm⟩
    · have := h1.symm.trans ho
      simp at this
    · obtain ⟨x, hx⟩ := hc
      exact absurd hx (h x)

example : staticOrder [(3, [1, 2]), (2, [1]), (1, ([] : List Nat))] = .ok [1, 2, 3] := by decide
example : staticOrder [(1, [2]), (2, [1])] = .error .cycleError := by decide

/-! ## C28 -/

mutual
private def artSize : Art → Nat
  | .raw _ => 1
  | .made _ p _ => pdrSize p + 1
private def pdrSize : Pdr → Nat
  | .mk _ _ i => insSize i + 1
private def insSize : Ins → Nat
  | .nil => 0
  | .cons _ a r => artSize a + insSize r
end

private def ndSize : Nd → Nat
  | .art a => artSize a
  | .pdr p => pdrSize p

private theorem size_input : ∀ (i : Ins) (n : Str) (a : Art), (n, a) ∈ i.toList →
    artSize a ≤ insSize i
  | .nil, _, _, h => by simp [Ins.toList] at h
  | .cons m b r, n, a, h => by
    simp only [Ins.toList, List.mem_cons, Prod.mk.injEq] at h
    rcases h with ⟨_, rfl⟩ | h
    · simp [insSize]
    · have := size_input r n a h
      simp only [insSize]
      omega

private theorem edge_size {g : Graph} {x y : Nd} {ps : List Nd} (h : (x, ps) ∈ g.dependencies)
    (hy : y ∈ ps) : ndSize y < ndSize x := by
  rw [Graph.mem_dependencies] at h
  rcases h with ⟨k, a, _, rfl, rfl⟩ | ⟨k, i, p, pos, _, rfl, rfl⟩
  · cases a with
    | raw i => simp [Graph.artPreds, Art.out] at hy
    | made i p pos =>
      simp only [Graph.artPreds, Art.out, List.mem_singleton] at hy
      subst hy
      simp [ndSize, artSize]
  · obtain ⟨⟨n, a⟩, ha, rfl⟩ := List.mem_map.1 hy
    obtain ⟨c, v, i⟩ := p
    have := size_input i n a ha
    simp only [ndSize, pdrSize]
    omega

/-- C28: whatever artifacts and producers are put into a graph, its dependencies are acyclic, so
the check made when the definition is closed and the sort made by a build always succeed. -/
theorem C28_graphs_are_acyclic (g : Graph) :
    (∀ x, ¬ Relation.TransGen (fun x y => ∃ ps, (x, ps) ∈ g.dependencies ∧ y ∈ ps) x x) ∧
    ∃ order, staticOrder g.dependencies = .ok order := by
  have hac : ∀ x, ¬ Relation.TransGen (fun x y => ∃ ps, (x, ps) ∈ g.dependencies ∧ y ∈ ps) x x := by
    have : ∀ a b, Relation.TransGen (fun x y => ∃ ps, (x, ps) ∈ g.dependencies ∧ y ∈ ps) a b →
        ndSize b < ndSize a := by
      intro a b hab
      induction hab with
      | single h => obtain ⟨ps, h1, h2⟩ := h; exact edge_size h1 h2
      | tail _ h ih => obtain ⟨ps, h1, h2⟩ := h; exact lt_trans (edge_size h1 h2) ih
    intro x hx
    exact absurd (this x x hx) (Nat.lt_irrefl _)
  exact ⟨hac, (C27_succeeds_iff_acyclic g.dependencies).1.2 hac⟩

/-- C27 for graphs: in the order of a build, a producer runs after the producers of all its
inputs that are in the graph. -/
theorem C27_producer_after_input_producers (g : Graph) (order : List Nd)
    (h : staticOrder g.dependencies = .ok order) (k : Str) (i : ArtInfo) (p : Pdr) (pos : Nat)
    (hk : (k, Art.made i p pos) ∈ g.arts) (n : Str) (j : ArtInfo) (q : Pdr) (qpos : Nat)
    (hin : (n, Art.made j q qpos) ∈ p.inputs) (k' : Str)
    (hk' : (k', Art.made j q qpos) ∈ g.arts) :
    ∀ l r, order = l ++ Nd.pdr p :: r → Nd.pdr q ∈ l := by
  obtain ⟨hnd, hmem, hord⟩ := C27_order_respects_dependencies _ order h
  have hp : (Nd.pdr p, Graph.pdrPreds p) ∈ g.dependencies :=
    (Graph.mem_dependencies g _ _).2 (.inr ⟨k, i, p, pos, hk, rfl, rfl⟩)
  have hq : (Nd.art (.made j q qpos), [Nd.pdr q]) ∈ g.dependencies :=
    (Graph.mem_dependencies g _ _).2 (.inl ⟨k', .made j q qpos, hk', rfl, rfl⟩)
  intro l r hlr
  have h1 := hord _ _ _ hp (List.mem_map.2 ⟨(n, _), hin, rfl⟩) l r hlr
  obtain ⟨l1, l2, hl⟩ := List.append_of_mem h1
  have h2 := hord _ _ (Nd.pdr q) hq (by simp) l1 (l2 ++ Nd.pdr p :: r) (by rw [hlr, hl]; simp)
  rw [hl]
  exact List.mem_append.2 (.inl h2)

/-- A graph with a raw artifact `a`, a producer of `b` from `a` and a producer of `c` from `b`. -/
private def exInfo (n : Nat) : ArtInfo := ⟨n, false, .file ⟨[], false⟩⟩
private def exA : Art := .raw (exInfo 0)
private def exP : Pdr := .mk ['P'] ['1'] (.cons ['x'] exA .nil)
private def exB : Art := .made (exInfo 1) exP 0
private def exQ : Pdr := .mk ['Q'] ['1'] (.cons ['x'] exB (.cons ['y'] exA .nil))
private def exC : Art := .made (exInfo 2) exQ 0
private def exG : Graph := ⟨['g'], [(['c'], exC), (['b'], exB), (['a'], exA)], []⟩

example : staticOrder exG.dependencies =
    .ok [.art exA, .pdr exP, .art exB, .pdr exQ, .art exC] := by decide

end Arti.Props
