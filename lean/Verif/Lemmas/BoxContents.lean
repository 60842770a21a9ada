import Verif.Props.TypedBox
import Verif.Spec.Placement

/-! Where the values of a box come from. -/

namespace Arti.Box
open PyDict Spec
variable {α V ρ : Type}

/-- Every value of the second box is in the first one, or satisfies the predicate. -/
def Grow (Q : List Str → V → Prop) (d d' : BoxData V) : Prop :=
  ∀ p v, nodeAt (.box d') p = some (.leaf v) → nodeAt (.box d) p = some (.leaf v) ∨ Q p v

theorem Grow.refl (Q : List Str → V → Prop) (d : BoxData V) : Grow Q d d := fun _ _ h => .inl h

theorem Grow.mono {Q Q' : List Str → V → Prop} {d d' : BoxData V} (h : Grow Q d d')
    (hQ : ∀ p v, Q p v → Q' p v) : Grow Q' d d' := fun p v hp => (h p v hp).imp id (hQ p v)

theorem Grow.trans {Q : List Str → V → Prop} {a b c : BoxData V} (h : Grow Q a b) (h' : Grow Q b c) :
    Grow Q a c := fun p v hp => (h' p v hp).elim (h p v) .inr

theorem Grow.set {Q : List Str → V → Prop} {d c c' : BoxData V} {k : Str}
    (hg : get? d k = some (.box c) ∨ (get? d k = none ∧ c = [])) (h : Grow Q c c') :
    Grow (fun p v => ∃ q, p = k :: q ∧ Q q v) d (PyDict.set d k (.box c')) := by
  intro p v hp
  cases p with
  | nil => simp [nodeAt] at hp
  | cons k' q =>
    rw [nodeAt_box_cons, get?_set] at hp
    by_cases hk : k = k'
    · subst hk
      simp only [if_true] at hp
      rcases h q v hp with h1 | h1
      · left
        rw [nodeAt_box_cons]
        rcases hg with hg | ⟨_, rfl⟩
        · rw [hg]; exact h1
        · cases q <;> simp [nodeAt, get?] at h1
      · exact .inr ⟨q, rfl, h1⟩
    · simp only [hk, if_false] at hp
      left
      rw [nodeAt_box_cons]
      exact hp

theorem Grow.set_leaf {d : BoxData V} {k : Str} (v : V) :
    Grow (fun p w => p = [k] ∧ w = v) d (PyDict.set d k (.leaf v)) := by
  intro p w hp
  cases p with
  | nil => simp [nodeAt] at hp
  | cons k' q =>
    rw [nodeAt_box_cons, get?_set] at hp
    by_cases hk : k = k'
    · subst hk
      simp only [if_true] at hp
      cases q with
      | nil => simp only [nodeAt, Option.some.injEq, Node.leaf.injEq] at hp; exact .inr ⟨rfl, hp.symm⟩
      | cons _ _ => simp [nodeAt] at hp
    · simp only [hk, if_false] at hp
      left
      rw [nodeAt_box_cons]
      exact hp

theorem atPath_grow {opn short : Bool}
    {f : List Str → BoxData V → Str → BoxData V × Except Err ρ}
    {Q : List Str → Str → List Str → V → Prop}
    (hf : ∀ ns d k, Grow (Q ns k) d (f ns d k).1) :
    ∀ (parts : List Str) (ns : List Str) (d : BoxData V),
      Grow (fun p v => ∃ ini last q, (short = false → parts = ini ++ [last]) ∧ p = ini ++ q ∧
        Q (ns ++ ini) last q v) d (atPath opn short f ns d parts).1
  | [], _, d => by simpa [atPath] using Grow.refl _ d
  | [tail], ns, d => by
    simp only [atPath]
    split
    · exact Grow.refl _ d
    · exact (hf ns d tail).mono fun p v h => ⟨[], tail, p, by simp, by simp, by simpa using h⟩
  | part :: t :: rest, ns, d => by
    have ih := atPath_grow (opn := opn) (short := short) hf (t :: rest) (ns ++ [part])
    simp only [atPath]
    split
    · exact Grow.refl _ d
    · split
      · rename_i hg
        split
        · rename_i hs
          exact (hf ns d part).mono fun p v h =>
            ⟨[], part, p, by simp [hs], by simp, by simpa using h⟩
        · split
          · refine (Grow.set (.inr ⟨hg, rfl⟩) (ih [])).mono ?_
            rintro p v ⟨q, rfl, ini, last, q', h1, rfl, h2⟩
            exact ⟨part :: ini, last, q', fun hs => by simp [h1 hs], by simp, by simpa using h2⟩
          · exact Grow.refl _ d
      · rename_i c hg
        refine (Grow.set (.inl hg) (ih c)).mono ?_
        rintro p v ⟨q, rfl, ini, last, q', h1, rfl, h2⟩
        exact ⟨part :: ini, last, q', fun hs => by simp [h1 hs], by simp, by simpa using h2⟩
      · split <;> exact Grow.refl _ d

/-- `_cast_value` for a path. -/
def castAt (castV : List Str → Str → α → Except Err V) (path : List Str) (a : α) : Except Err V :=
  castV path.dropLast (path.getLastD []) a

mutual
theorem assign_grow (castV : List Str → Str → α → Except Err V) (opn : Bool) :
    ∀ (v : Inp α) (ns : List Str) (d : BoxData V) (k : Str),
      Grow (fun p w => ∃ q a, p = k :: q ∧ Inp.Has v q a ∧ castAt castV (ns ++ p) a = .ok w) d
        (assign castV opn v ns d k).1
  | .raw a, ns, d, k => by
    simp only [assign]
    split
    · split
      · exact Grow.refl _ d
      · split
        · rename_i w hc
          refine (Grow.set_leaf w).mono ?_
          rintro p w' ⟨rfl, rfl⟩
          exact ⟨[], a, rfl, .raw a, by simpa [castAt] using hc⟩
        · exact Grow.refl _ d
    · exact Grow.refl _ d
  | .map items, ns, d, k => by
    have ih := assignAll_grow castV opn items (ns ++ [k])
    simp only [assign]
    split
    · split
      · rename_i c hg
        refine (Grow.set (.inl hg) (ih c)).mono ?_
        rintro p w ⟨q, rfl, a, h1, h2⟩
        exact ⟨q, a, rfl, .map h1, by simpa using h2⟩
      · exact Grow.refl _ d
      · rename_i hg
        split
        · rename_i c he
          have := ih []
          rw [he] at this
          refine (Grow.set (.inr ⟨hg, rfl⟩) this).mono ?_
          rintro p w ⟨q, rfl, a, h1, h2⟩
          exact ⟨q, a, rfl, .map h1, by simpa using h2⟩
        · exact Grow.refl _ d
    · exact Grow.refl _ d
theorem assignAll_grow (castV : List Str → Str → α → Except Err V) (opn : Bool) :
    ∀ (items : InpItems α) (ns : List Str) (d : BoxData V),
      Grow (fun p w => ∃ a, InpItems.Has items p a ∧ castAt castV (ns ++ p) a = .ok w) d
        (assignAll castV opn items ns d).1
  | .nil, _, d => by simpa [assignAll] using Grow.refl _ d
  | .cons k v rest, ns, d => by
    have h1 : Grow (fun p w => ∃ a, InpItems.Has (.cons k v rest) p a ∧
        castAt castV (ns ++ p) a = .ok w) d
        (atPath opn false (fun ns d key => assign castV opn v ns d key) ns d (splitOn '.' k)).1 := by
      refine (atPath_grow (fun ns d key => assign_grow castV opn v ns d key) _ ns d).mono ?_
      rintro p w ⟨ini, last, q, hp, rfl, q', a, rfl, h2, h3⟩
      refine ⟨a, ?_, by simpa using h3⟩
      have := InpItems.Has.here (k := k) (rest := rest) h2
      rwa [hp rfl, List.append_assoc] at this
    simp only [assignAll]
    split
    · rename_i d' _ he
      rw [he] at h1
      refine h1.trans ((assignAll_grow castV opn rest ns d').mono ?_)
      rintro p w ⟨a, h2, h3⟩
      exact ⟨a, .there h2, h3⟩
    · rename_i d' _ he
      rw [he] at h1
      exact h1
end

theorem setItem_grow (castV : List Str → Str → α → Except Err V) (opn : Bool) (d : BoxData V)
    (key : Str) (v : Inp α) :
    Grow (fun p w => ∃ a, Assigns (.setItem key v) p a ∧ castAt castV p a = .ok w) d
      (setItem castV opn d key v).1 := by
  refine (atPath_grow (fun ns d key => assign_grow castV opn v ns d key) _ [] d).mono ?_
  rintro p w ⟨ini, last, q, hp, rfl, q', a, rfl, h2, h3⟩
  exact ⟨a, ⟨q', by rw [hp rfl]; simp, h2⟩, by simpa using h3⟩

theorem step_grow (castV : List Str → Str → α → Except Err V) (opn : Bool) (d : BoxData V)
    (op : Op α) :
    Grow (fun p w => ∃ a, Assigns op p a ∧ castAt castV p a = .ok w) d (step castV opn d op).1 := by
  have hget : ∀ key, Grow (fun p w => ∃ a, Assigns op p a ∧ castAt castV p a = .ok w) d
      (getItem opn d key).1 := fun key => by
    refine (atPath_grow (Q := fun _ _ _ _ => False) (fun ns d k => ?_) _ [] d).mono ?_
    · unfold getLast
      split
      · exact Grow.refl _ d
      · rename_i hg
        split
        · refine (Grow.set (Q := fun _ _ => False) (.inr ⟨hg, rfl⟩) (Grow.refl _ _)).mono ?_
          rintro p v ⟨q, _, h⟩
          exact h
        · exact Grow.refl _ d
    · rintro p v ⟨_, _, _, _, _, h⟩
      exact h.elim
  rw [Props.box_step_fst]
  cases op with
  | getItem key => exact hget key
  | getAttr key => simp only [Props.box_getAttr_fst]; split; exacts [Grow.refl _ d, hget key]
  | contains key =>
    unfold containsKey
    refine (atPath_grow (Q := fun _ _ _ _ => False) (fun ns d k => Grow.refl _ d) _ [] d).mono ?_
    rintro p v ⟨_, _, _, _, _, h⟩
    exact h.elim
  | walk => exact Grow.refl _ d
  | setItem key v => exact setItem_grow castV opn d key v
  | setAttr key v =>
    simp only [setAttr]
    split
    · exact Grow.refl _ d
    · exact setItem_grow castV opn d key v

theorem construct_grow (castV : List Str → Str → α → Except Err V) {items : InpItems α}
    {d : BoxData V} (h : construct castV items = .ok d) {p : List Str} {v : V}
    (hp : nodeAt (.box d) p = some (.leaf v)) :
    ∃ a, InpItems.Has items p a ∧ castAt castV p a = .ok v := by
  have hg := assignAll_grow castV true items [] []
  unfold construct at h
  split at h
  · rename_i he
    rw [he] at hg
    cases h
    rcases hg p v hp with h1 | h1
    · cases p <;> simp [nodeAt, get?] at h1
    · simpa using h1
  · cases h

theorem construct_wf (castV : List Str → Str → α → Except Err V) {items : InpItems α}
    {d : BoxData V} (h : construct castV items = .ok d) : Wf (.box d) := by
  have := assignAll_wf castV true items [] [] Wf.nil
  unfold construct at h
  split at h
  · rename_i he; rw [he] at this; cases h; exact this
  · cases h

end Arti.Box
