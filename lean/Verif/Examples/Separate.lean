import Verif.Examples.Apart
import Verif.Spec.Order

/-! Deciding that the outputs of producers are kept apart, in the concrete world. -/

namespace Arti.Ex
open PyDict World Spec

theorem pathOf_pre {sto : Sto} {path : Str} (h : PathOf env sto path) :
    ∃ r, path = pre sto.tmpl.text ++ r := by
  obtain ⟨fp, pk, part, h1, h2⟩ := h
  obtain ⟨_, _, _, _, h4⟩ := generate_ok h1
  rcases h4 with ⟨t, path', h5, h6⟩ | ⟨t, v, lid, v', h5, h6, _⟩
  · unfold generate at h1
    simp only [bind, Except.bind] at h1
    split at h1
    · simp at h1
    · rw [h5] at h1
      simp only at h1
      split at h1
      · simp at h1
      · split at h1
        · simp at h1
        · simp only [env, Except.ok.injEq] at h1
          rw [← h1] at h2
          simp only [Loc.file.injEq] at h2
          rw [← h2, h5]
          simp only [render, Sto.tmpl, List.append_assoc]
          exact ⟨_, rfl⟩
  · rw [h6] at h2; simp at h2

/-- Neither text is a prefix of the other. -/
def incompat (a b : Str) : Bool := (Fmt.dropPrefix? a b).isNone && (Fmt.dropPrefix? b a).isNone

theorem incompat_spec : ∀ (a b r : Str), incompat a b = true → Fmt.dropPrefix? a (b ++ r) = none
  | [], _, _, h => by simp [incompat, Fmt.dropPrefix?] at h
  | _ :: _, [], _, h => by simp [incompat, Fmt.dropPrefix?] at h
  | c :: a, d :: b, r, h => by
    simp only [List.cons_append, Fmt.dropPrefix?]
    split
    · rename_i he
      subst he
      refine incompat_spec a b r ?_
      simpa [incompat, Fmt.dropPrefix?] using h
    · rfl

def separateB (g : Graph) : Bool :=
  (madeOf g).all fun (i, q, _) => g.arts.all fun (_, a) =>
    (match a with | .made _ p _ => p = q | .raw _ => false) ||
    incompat (pre a.info.sto.tmpl.text) (pre i.sto.tmpl.text)

theorem separate (g : Graph) (h : separateB g = true) : Separate env g := by
  have key : ∀ k i q pos k' a, (k, Art.made i q pos) ∈ g.arts → (k', a) ∈ g.arts →
      (∀ pos', a.out ≠ some (q, pos')) →
      incompat (pre a.info.sto.tmpl.text) (pre i.sto.tmpl.text) = true := by
    intro k i q pos k' a h1 h2 h3
    have h4 := List.all_eq_true.1 (List.all_eq_true.1 h _ (mem_madeOf.2 ⟨k, h1⟩)) _ h2
    simp only [Bool.or_eq_true] at h4
    rcases h4 with h4 | h4
    · cases a with
      | raw i => simp at h4
      | made i' p pos' =>
        simp only [decide_eq_true_eq] at h4
        exact absurd (by simp [Art.out, h4]) (h3 pos')
    · exact h4
  refine ⟨?_, ?_, ?_⟩
  · intro k i p pos k' i' p' pos' h1 h2 hs
    by_contra hne
    have := key k i p pos k' _ h1 h2 (by
      intro pos'' he
      simp only [Art.out, Option.some.injEq, Prod.mk.injEq] at he
      exact hne he.1.symm)
    simp only [Art.info, hs] at this
    have h3 := incompat_spec _ _ [] this
    rw [dropPrefix_append] at h3
    simp at h3
  · intro k i q pos k' a h1 h2 h3 path hp hp'
    obtain ⟨r, rfl⟩ := pathOf_pre hp
    obtain ⟨r', hr⟩ := pathOf_pre hp'
    have := incompat_spec _ _ r (key k i q pos k' a h1 h2 h3)
    rw [hr, dropPrefix_append] at this
    simp at this
  · intro k i q pos k' i' p pos' t h1 h2 hne ht path hp names
    obtain ⟨r, rfl⟩ := pathOf_pre hp
    have := incompat_spec _ _ r (key k i q pos k' _ h1 h2 (by
      intro pos'' he
      simp only [Art.out, Option.some.injEq, Prod.mk.injEq] at he
      exact hne he.1))
    simp only [Art.info, ht, Sto.tmpl] at this
    simp only [env, scan, List.filterMap_append, List.filterMap_cons, List.filterMap_nil]
    have h5 : Fmt.dropPrefix? (pre t.text) (pre i.sto.tmpl.text ++ r) = none := this
    rw [h5]
    simp

theorem selects (g : Graph) : Selects env g :=
  fun _ _ _ _ _ _ _ hmap => (impl_selects _ _ _ _ hmap).1

end Arti.Ex
