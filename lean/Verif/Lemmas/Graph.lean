import Verif.Model.Graph
import Verif.Lemmas.Dict

/-! Lemmas about graphs. -/

namespace Arti
open PyDict

namespace PyDict
variable {κ ν : Type} [DecidableEq κ]

theorem mem_of_mem_ofItems {items : List (κ × ν)} {k : κ} {v : ν}
    (h : (k, v) ∈ (ofItems items : List (κ × ν))) : (k, v) ∈ items := by
  have hn := nodup_keys_ofItems items
  have := (mem_iff_get? hn).1 h
  rw [get?_ofItems] at this
  exact List.mem_reverse.1 (get?_mem this)

/-- An item whose key determines its value survives in a dict. -/
theorem mem_ofItems_of_unique {items : List (κ × ν)} {k : κ} {v : ν} (h : (k, v) ∈ items)
    (hu : ∀ v', (k, v') ∈ items → v' = v) : (k, v) ∈ (ofItems items : List (κ × ν)) := by
  have hn := nodup_keys_ofItems items
  refine (mem_iff_get? hn).2 ?_
  rw [get?_ofItems]
  cases hg : get? items.reverse k with
  | none =>
    rw [get?_eq_none_iff] at hg
    exact absurd (List.mem_map.2 ⟨(k, v), List.mem_reverse.2 h, rfl⟩) hg
  | some v' => rw [hu v' (List.mem_reverse.1 (get?_mem hg))]

theorem mem_keys_ofItems (items : List (κ × ν)) (k : κ) :
    k ∈ keys (ofItems items) ↔ k ∈ items.map Prod.fst := by
  constructor
  · intro h
    obtain ⟨⟨k', v⟩, h', rfl⟩ := List.mem_map.1 h
    exact List.mem_map.2 ⟨(k', v), mem_of_mem_ofItems h', rfl⟩
  · intro h
    refine Classical.byContradiction fun hc => ?_
    have := (get?_eq_none_iff _ _).2 hc
    rw [get?_ofItems, get?_eq_none_iff] at this
    apply this
    obtain ⟨⟨k', v⟩, h', rfl⟩ := List.mem_map.1 h
    exact List.mem_map.2 ⟨(k', v), List.mem_reverse.2 h', rfl⟩

end PyDict

namespace Graph

/-- The direct predecessors of an artifact. -/
def artPreds (a : Art) : List Nd := match a.out with | some (p, _) => [Nd.pdr p] | none => []

/-- The direct predecessors of a producer. -/
def pdrPreds (p : Pdr) : List Nd := p.inputs.map fun (_, i) => Nd.art i

theorem mem_dependencies (g : Graph) (x : Nd) (ps : List Nd) :
    (x, ps) ∈ g.dependencies ↔
      (∃ k a, (k, a) ∈ g.arts ∧ x = .art a ∧ ps = artPreds a) ∨
      (∃ k i p pos, (k, Art.made i p pos) ∈ g.arts ∧ x = .pdr p ∧ ps = pdrPreds p) := by
  have raw : ∀ (x : Nd) (ps : List Nd), (x, ps) ∈ ((g.arts.map fun (_, a) =>
      (Nd.art a, match a.out with | some (p, _) => [Nd.pdr p] | none => []))
        ++ (g.arts.filterMap fun (_, a) => a.out.map fun (p, _) =>
      (Nd.pdr p, p.inputs.map fun (_, i) => Nd.art i))) ↔
      (∃ k a, (k, a) ∈ g.arts ∧ x = .art a ∧ ps = artPreds a) ∨
      (∃ k i p pos, (k, Art.made i p pos) ∈ g.arts ∧ x = .pdr p ∧ ps = pdrPreds p) := by
    intro x ps
    rw [List.mem_append]
    refine or_congr ?_ ?_
    · rw [List.mem_map]
      constructor
      · rintro ⟨⟨k, a⟩, h, heq⟩
        simp only [Prod.mk.injEq] at heq
        exact ⟨k, a, h, heq.1.symm, heq.2.symm⟩
      · rintro ⟨k, a, h, rfl, rfl⟩
        exact ⟨(k, a), h, rfl⟩
    · rw [List.mem_filterMap]
      constructor
      · rintro ⟨⟨k, a⟩, h, heq⟩
        cases a with
        | raw i => simp [Art.out] at heq
        | made i p pos =>
          simp only [Art.out, Option.map_some, Option.some.injEq, Prod.mk.injEq] at heq
          exact ⟨k, i, p, pos, h, heq.1.symm, heq.2.symm⟩
      · rintro ⟨k, i, p, pos, h, rfl, rfl⟩
        exact ⟨(k, .made i p pos), h, rfl⟩
  constructor
  · intro h
    exact (raw x ps).1 (mem_of_mem_ofItems h)
  · intro h
    refine mem_ofItems_of_unique ((raw x ps).2 h) ?_
    intro ps' h'
    have h' := (raw x ps').1 h'
    rcases h with ⟨_, a, _, rfl, rfl⟩ | ⟨_, _, p, _, _, rfl, rfl⟩ <;>
      rcases h' with ⟨_, a', _, h1, rfl⟩ | ⟨_, _, p', _, _, h1, rfl⟩
    · cases h1; rfl
    · cases h1
    · cases h1
    · cases h1; rfl

end Graph
end Arti
