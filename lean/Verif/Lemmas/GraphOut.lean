import Verif.Lemmas.Graph

/-! Keys and producer outputs of a graph. -/

namespace Arti.Graph
open PyDict

theorem keyOf_mem {g : Graph} {a : Art} {k : Str} (h : g.keyOf a = some k) : (k, a) ∈ g.arts := by
  unfold keyOf at h
  have := mem_of_mem_ofItems (get?_mem h)
  obtain ⟨⟨k', a'⟩, h1, h2⟩ := List.mem_map.1 this
  simp only [Prod.mk.injEq] at h2
  obtain ⟨rfl, rfl⟩ := h2
  exact h1

theorem keyOf_inj {g : Graph} (hn : (keys g.arts).Nodup) {a b : Art} {k : Str}
    (h : g.keyOf a = some k) (h' : g.keyOf b = some k) : a = b := by
  have h1 := (mem_iff_get? hn).1 (keyOf_mem h)
  have h2 := (mem_iff_get? hn).1 (keyOf_mem h')
  rw [h1] at h2
  exact Option.some.inj h2

theorem keyOf_of_mem {g : Graph} {a : Art} {k : Str} (h : (k, a) ∈ g.arts) :
    ∃ k', g.keyOf a = some k' := by
  cases hk : g.keyOf a with
  | some k' => exact ⟨k', rfl⟩
  | none =>
    unfold keyOf at hk
    rw [get?_eq_none_iff] at hk
    exact absurd ((mem_keys_ofItems _ _).2
      (List.mem_map.2 ⟨(a, k), List.mem_map.2 ⟨(k, a), h, rfl⟩, rfl⟩)) hk

theorem artAt_of_keyOf {g : Graph} (hn : (keys g.arts).Nodup) {a : Art} {k : Str}
    (h : g.keyOf a = some k) : g.artAt k = some a := (mem_iff_get? hn).1 (keyOf_mem h)

theorem mem_outputsByPos {g : Graph} {p : Pdr} {pos : Nat} {a : Art}
    (h : (pos, a) ∈ (g.outputsByPos p : List (Nat × Art))) :
    ∃ k i, a = .made i p pos ∧ (k, a) ∈ g.arts := by
  have := mem_of_mem_ofItems h
  obtain ⟨⟨k, a'⟩, h1, h2⟩ := List.mem_filterMap.1 this
  cases a' with
  | raw i => simp [Art.out] at h2
  | made i q pos' =>
    simp only [Art.out] at h2
    split at h2
    · rename_i hq
      simp only [Option.some.injEq, Prod.mk.injEq] at h2
      obtain ⟨rfl, rfl⟩ := h2
      subst hq
      exact ⟨k, i, rfl, h1⟩
    · simp at h2

theorem mem_keys_outputsByPos {g : Graph} {k : Str} {i : ArtInfo} {p : Pdr} {pos : Nat}
    (h : (k, Art.made i p pos) ∈ g.arts) : pos ∈ keys (g.outputsByPos p) := by
  refine (mem_keys_ofItems _ _).2 (List.mem_map.2 ⟨(pos, .made i p pos), ?_, rfl⟩)
  exact List.mem_filterMap.2 ⟨_, h, by simp [Art.out]⟩

theorem insertPos_perm (x : Nat × Art) (l : List (Nat × Art)) : (insertPos x l).Perm (x :: l) := by
  induction l with
  | nil => exact List.Perm.refl _
  | cons y l ih =>
    unfold insertPos
    split
    · exact List.Perm.refl _
    · exact (ih.cons y).trans (List.Perm.swap ..)

theorem sortPos_perm (l : List (Nat × Art)) : (sortPos l).Perm l := by
  induction l with
  | nil => exact List.Perm.refl _
  | cons x l ih => exact (insertPos_perm x _).trans (ih.cons x)

theorem insertPos_sorted (x : Nat × Art) (l : List (Nat × Art))
    (h : l.Pairwise fun a b => a.1 ≤ b.1) : (insertPos x l).Pairwise fun a b => a.1 ≤ b.1 := by
  induction l with
  | nil => simp [insertPos]
  | cons y l ih =>
    rw [List.pairwise_cons] at h
    unfold insertPos
    split
    · rename_i hxy
      refine List.pairwise_cons.2 ⟨?_, List.pairwise_cons.2 h⟩
      intro b hb
      rcases List.mem_cons.1 hb with rfl | hb
      · exact hxy
      · exact Nat.le_trans hxy (h.1 b hb)
    · rename_i hxy
      refine List.pairwise_cons.2 ⟨?_, ih h.2⟩
      intro b hb
      rcases List.mem_cons.1 ((insertPos_perm x l).mem_iff.1 hb) with rfl | hb
      · omega
      · exact h.1 b hb

theorem sortPos_sorted (l : List (Nat × Art)) :
    (sortPos l).Pairwise fun a b => a.1 ≤ b.1 := by
  induction l with
  | nil => exact List.Pairwise.nil
  | cons x l ih => exact insertPos_sorted x _ ih

/-- A strictly increasing list of numbers without gaps lists its own indices. -/
theorem getElem_of_noGap : ∀ (l : List Nat) (n : Nat), l.Pairwise (· < ·) →
    (∀ x ∈ l, n ≤ x) → (∀ x ∈ l, ∀ y, n ≤ y → y ≤ x → y ∈ l) →
    ∀ j x, l[j]? = some x → x = n + j
  | [], _, _, _, _, j, x, h => by simp at h
  | a :: l, n, hp, hge, hg, j, x, h => by
    rw [List.pairwise_cons] at hp
    have hmem : n ∈ a :: l := hg a (by simp) n (Nat.le_refl _) (hge a (by simp))
    have han : a = n := by
      rcases List.mem_cons.1 hmem with h1 | h1
      · exact h1.symm
      · have := hp.1 n h1
        have := hge a (by simp)
        omega
    cases j with
    | zero => simp only [List.getElem?_cons_zero, Option.some.injEq] at h; omega
    | succ j =>
      simp only [List.getElem?_cons_succ] at h
      have := getElem_of_noGap l (n + 1) hp.2 (fun x hx => by have := hp.1 x hx; omega)
        (fun x hx y hy hyx => by
          have := hg x (List.mem_cons_of_mem _ hx) y (by omega) hyx
          rcases List.mem_cons.1 this with h1 | h1
          · omega
          · exact h1) j x h
      omega

theorem mem_producerOutputs {g : Graph} {p : Pdr} {outs : List Art}
    (h : g.producerOutputs p = .ok outs) {a : Art} (ha : a ∈ outs) :
    ∃ k i pos, a = .made i p pos ∧ (k, a) ∈ g.arts := by
  unfold producerOutputs at h
  split at h
  · simp at h
  · simp only [Except.ok.injEq] at h
    subst h
    obtain ⟨⟨pos, a'⟩, h1, rfl⟩ := List.mem_map.1 ha
    obtain ⟨k, i, h2, h3⟩ := mem_outputsByPos ((sortPos_perm _).mem_iff.1 h1)
    exact ⟨k, i, pos, h2, h3⟩

/-- Without gaps the outputs are listed by position. -/
theorem producerOutputs_pos {g : Graph} {p : Pdr} {outs : List Art}
    (hg : ∀ k i pos, (k, Art.made i p pos) ∈ g.arts →
      ∀ j, j ≤ pos → ∃ k' i', (k', Art.made i' p j) ∈ g.arts)
    (h : g.producerOutputs p = .ok outs) {j : Nat} {a : Art} (ha : outs[j]? = some a) :
    ∃ k i, a = .made i p j ∧ (k, a) ∈ g.arts := by
  unfold producerOutputs at h
  split at h
  · simp at h
  · simp only [Except.ok.injEq] at h
    subst h
    rw [List.getElem?_map] at ha
    cases hx : (sortPos (g.outputsByPos p))[j]? with
    | none => rw [hx] at ha; simp at ha
    | some x =>
      rw [hx] at ha
      simp only [Option.map_some, Option.some.injEq] at ha
      obtain ⟨pos, a'⟩ := x
      simp only at ha
      subst ha
      have hmem := (sortPos_perm _).mem_iff.1 (List.mem_of_getElem? hx)
      obtain ⟨k, i, h2, h3⟩ := mem_outputsByPos hmem
      have hperm : ((sortPos (g.outputsByPos p)).map Prod.fst).Perm (keys (g.outputsByPos p)) :=
        (sortPos_perm _).map _
      have hnd : ((sortPos (g.outputsByPos p)).map Prod.fst).Nodup :=
        hperm.nodup_iff.2 (nodup_keys_ofItems _)
      have hstrict : ((sortPos (g.outputsByPos p)).map Prod.fst).Pairwise (· < ·) := by
        have h1 : ((sortPos (g.outputsByPos p)).map Prod.fst).Pairwise (· ≤ ·) :=
          List.pairwise_map.2 (sortPos_sorted _)
        exact (h1.and hnd).imp fun h => Nat.lt_of_le_of_ne h.1 h.2
      have hpos : pos = j := by
        have := getElem_of_noGap _ 0 hstrict (fun _ _ => Nat.zero_le _) ?_ j pos
          (by rw [List.getElem?_map, hx]; rfl)
        · omega
        · intro x hx y _ hy
          have hx := hperm.mem_iff.1 hx
          obtain ⟨⟨x', b⟩, hb, rfl⟩ := List.mem_map.1 hx
          obtain ⟨k1, i1, rfl, h4⟩ := mem_outputsByPos hb
          obtain ⟨k2, i2, h5⟩ := hg k1 i1 _ h4 y hy
          exact hperm.mem_iff.2 (mem_keys_outputsByPos h5)
      subst hpos
      exact ⟨k, i, h2, h3⟩

/-- The artifacts of a producer of which the graph holds one output per position are all
listed. -/
theorem mem_producerOutputs_of {g : Graph} {p : Pdr} {outs : List Art}
    (h : g.producerOutputs p = .ok outs) {k : Str} {i : ArtInfo} {pos : Nat}
    (hm : (k, Art.made i p pos) ∈ g.arts)
    (hu : ∀ k' i', (k', Art.made i' p pos) ∈ g.arts → i' = i) : Art.made i p pos ∈ outs := by
  unfold producerOutputs at h
  split at h
  · simp at h
  · simp only [Except.ok.injEq] at h
    subst h
    obtain ⟨⟨pos', a⟩, hb, rfl⟩ := List.mem_map.1 (mem_keys_outputsByPos hm)
    obtain ⟨k1, i1, rfl, h4⟩ := mem_outputsByPos hb
    obtain rfl := hu _ _ h4
    exact List.mem_map.2 ⟨_, (sortPos_perm _).mem_iff.2 hb, rfl⟩

end Arti.Graph
