import Verif.Spec.Torn
import Verif.Lemmas.World

/-!
# Runs in which no file is torn are runs with files written at once

`Sim f m` relates code that writes files piece by piece to code that writes them in one effect.
-/

namespace Arti

namespace PyDict
variable {κ ν : Type} [DecidableEq κ]

theorem set_set (d : PyDict κ ν) (k : κ) (v v' : ν) : set (set d k v) k v' = set d k v' := by
  induction d with
  | nil => simp [set]
  | cons x d ih =>
    obtain ⟨k', w⟩ := x
    by_cases h : k' = k
    · simp [set, h]
    · simp [set, h, ih]

end PyDict

namespace St
variable {κ D : Type}

/-- The world with another budget. -/
abbrev bud (s : St κ D) (b : Option Nat) : St κ D := { s with budget := b }

end St

namespace FM
open PyDict M
variable {κ D α β : Type}

theorem run_bind (m : FM κ D α) (f : α → FM κ D β) (s : FSt κ D) :
    (m >>= f) s = match m s with
      | (.ok a, s') => f a s'
      | (.error e, s') => (.error e, s') := rfl

theorem run_pure (a : α) (s : FSt κ D) : (pure a : FM κ D α) s = (.ok a, s) := rfl

theorem run_up (m : M κ D α) (s : FSt κ D) : up m s = ((m s.w).1, ⟨(m s.w).2, s.torn⟩) := rfl

/-- The runs of `f` in which no file is torn are runs of `m`; the number of effects may differ. -/
structure Sim (f : FM κ D α) (m : M κ D α) : Prop where
  /-- a run that tears a file raises, and it is a run of `m` that is interrupted before it writes
  this file -/
  torn : ∀ s r s', f s = (r, s') → s'.torn ≠ s.torn → (∃ x, r = .error x) ∧
    ∃ path content, s'.torn = s.torn ++ [path] ∧ ∃ c y w',
      m (s.w.bud (some c)) = (.error y, w') ∧
      ∀ b, s'.w.bud b = { w' with files := PyDict.set w'.files path content, budget := b }
  /-- a run that returns a value and tears no file -/
  ok : ∀ s a s', f s = (.ok a, s') → s'.torn = s.torn →
    ∃ c, (∀ e, m (s.w.bud (some (c + e))) = (.ok a, s'.w.bud (some e))) ∧
      m (s.w.bud none) = (.ok a, s'.w.bud none)
  /-- a run that raises or is interrupted and tears no file -/
  err : ∀ s x s', f s = (.error x, s') → s'.torn = s.torn →
    ∃ c y e, m (s.w.bud (some c)) = (.error y, s'.w.bud (some e))
  /-- a run that is not interrupted -/
  none : ∀ w t r s', w.budget = none → f ⟨w, t⟩ = (r, s') →
    ∃ r' w', m w = (r', w') ∧ w'.invs = s'.w.invs ∧ w'.raws = s'.w.raws ∧ w'.budget = none ∧
      (∀ a, r = .ok a → r' = .ok a ∧ s' = ⟨w', t⟩) ∧
      (∀ x, r = .error x → ∃ y, r' = .error y) ∧
      (s'.torn = t → r' = r ∧ s'.w = w')

theorem Sim.mono {f : FM κ D α} {m : M κ D α} (h : Sim f m) (s : FSt κ D) :
    s.torn <+: (f s).2.torn := by
  by_cases ht : (f s).2.torn = s.torn
  · rw [ht]; exact List.prefix_rfl
  · obtain ⟨-, path, x, h1, -⟩ := h.torn s _ _ rfl ht
    rw [h1]
    exact List.prefix_append _ _

theorem Sim.bind {f : FM κ D α} {m : M κ D α} {g : α → FM κ D β} {n : α → M κ D β}
    (h : Sim f m) (hg : ∀ a, Sim (g a) (n a)) : Sim (f >>= g) (m >>= n) := by
  refine ⟨fun s r s' hr ht => ?_, fun s a s' hr ht => ?_, fun s x s' hr ht => ?_,
    fun w t r s' hb hr => ?_⟩
  · rw [run_bind] at hr
    cases hf : f s with
    | mk r1 s1 =>
      rw [hf] at hr
      cases r1 with
      | error e =>
        simp only [Prod.mk.injEq] at hr
        obtain ⟨rfl, rfl⟩ := hr
        obtain ⟨-, path, x, h1, c, y, w', h2, h3⟩ := h.torn s _ s1 hf ht
        exact ⟨⟨e, rfl⟩, path, x, h1, c, y, w', by rw [M.run_bind, h2], h3⟩
      | ok a =>
        have e1 : s1.torn = s.torn := by
          apply Classical.byContradiction
          intro hne
          obtain ⟨⟨x, hx⟩, -⟩ := h.torn s _ s1 hf hne
          cases hx
        simp only at hr
        obtain ⟨hx, path, x, h1, c, y, w', h2, h3⟩ :=
          (hg a).torn s1 r s' hr (by rw [e1]; exact ht)
        obtain ⟨c1, a1, -⟩ := h.ok s a s1 hf e1
        refine ⟨hx, path, x, by rw [h1, e1], c1 + c, y, w', ?_, h3⟩
        rw [M.run_bind, a1 c]
        exact h2
  · rw [run_bind] at hr
    have h1 := h.mono s
    cases hf : f s with
    | mk r s1 =>
      rw [hf] at h1 hr
      cases r with
      | error e => simp at hr
      | ok b =>
        have h2 := (hg b).mono s1
        simp only at hr
        rw [hr] at h2
        have e1 : s1.torn = s.torn :=
          (h1.eq_of_length (Nat.le_antisymm h1.length_le (by rw [← ht]; exact h2.length_le))).symm
        obtain ⟨c1, a1, a2⟩ := h.ok s b s1 hf e1
        obtain ⟨c2, b1, b2⟩ := (hg b).ok s1 a s' hr (ht.trans e1.symm)
        refine ⟨c1 + c2, fun e => ?_, ?_⟩
        · rw [M.run_bind, Nat.add_assoc, a1 (c2 + e)]
          exact b1 e
        · rw [M.run_bind, a2]
          exact b2
  · rw [run_bind] at hr
    have h1 := h.mono s
    cases hf : f s with
    | mk r s1 =>
      rw [hf] at h1 hr
      cases r with
      | error e =>
        simp only [Prod.mk.injEq, Except.error.injEq] at hr
        obtain ⟨rfl, rfl⟩ := hr
        obtain ⟨c, y, e', hc⟩ := h.err s _ s1 hf ht
        exact ⟨c, y, e', by rw [M.run_bind, hc]⟩
      | ok b =>
        have h2 := (hg b).mono s1
        simp only at hr
        rw [hr] at h2
        have e1 : s1.torn = s.torn :=
          (h1.eq_of_length (Nat.le_antisymm h1.length_le (by rw [← ht]; exact h2.length_le))).symm
        obtain ⟨c1, a1, a2⟩ := h.ok s b s1 hf e1
        obtain ⟨c2, y, e', hc⟩ := (hg b).err s1 x s' hr (ht.trans e1.symm)
        refine ⟨c1 + c2, y, e', ?_⟩
        rw [M.run_bind, a1 c2]
        exact hc
  · rw [run_bind] at hr
    cases hf : f ⟨w, t⟩ with
    | mk r1 s1 =>
      obtain ⟨r', w', q1, q2, q3, q4, q5, q6, q7⟩ := h.none w t r1 s1 hb hf
      rw [hf] at hr
      rw [M.run_bind, q1]
      cases r1 with
      | error e =>
        simp only [Prod.mk.injEq] at hr
        obtain ⟨rfl, rfl⟩ := hr
        obtain ⟨y, rfl⟩ := q6 e rfl
        refine ⟨.error y, w', rfl, q2, q3, q4, by simp, fun _ _ => ⟨y, rfl⟩, fun ht => ?_⟩
        have := q7 ht
        exact ⟨by rw [Except.error.inj this.1], this.2⟩
      | ok b =>
        obtain ⟨rfl, rfl⟩ := q5 b rfl
        exact (hg b).none w' t r s' q4 hr

theorem Sim.pure (a : α) : Sim (pure a : FM κ D α) (Pure.pure a) := by
  refine ⟨fun s r s' hr ht => ?_, fun s b s' hr ht => ?_, fun s x s' hr ht => ?_,
    fun w t r s' hb hr => ?_⟩
  · simp only [run_pure, Prod.mk.injEq] at hr
    rw [← hr.2] at ht
    exact absurd rfl ht
  · simp only [run_pure, Prod.mk.injEq, Except.ok.injEq] at hr
    obtain ⟨rfl, rfl⟩ := hr
    exact ⟨0, fun e => by simp [M.run_pure], by simp [M.run_pure]⟩
  · simp [run_pure] at hr
  · simp only [run_pure, Prod.mk.injEq] at hr
    obtain ⟨rfl, rfl⟩ := hr
    exact ⟨_, _, rfl, rfl, rfl, hb, by simp, by simp, by simp⟩

/-- Code that depends on the budget only through interruptions. -/
def Tame (m : M κ D α) : Prop := Sim (up m) m

theorem up_bind (m : M κ D α) (n : α → M κ D β) :
    up (m >>= n) = up m >>= fun a => up (n a) := by
  funext s
  rw [run_up, run_bind, M.run_bind, run_up]
  cases h : m s.w with
  | mk r w => cases r <;> rfl

theorem Tame.bind {m : M κ D α} {n : α → M κ D β} (h : Tame m) (hn : ∀ a, Tame (n a)) :
    Tame (m >>= n) := by
  unfold Tame
  rw [up_bind]
  exact Sim.bind h hn

theorem Tame.pure (a : α) : Tame (Pure.pure a : M κ D α) := Sim.pure a

theorem up_torn (m : M κ D α) (s : FSt κ D) (r : Except Err α) (s' : FSt κ D)
    (h : up m s = (r, s')) (ht : s'.torn ≠ s.torn) {P : Prop} : P := by
  rw [run_up, Prod.mk.injEq] at h
  rw [← h.2] at ht
  exact absurd rfl ht

/-- Code without interruptions. -/
theorem Tame.of_run {m : M κ D α} (r : St κ D → Except Err α) (f : St κ D → St κ D)
    (hm : ∀ s, m s = (r s, f s)) (hr : ∀ s b, r (s.bud b) = r s)
    (hf : ∀ s b, f (s.bud b) = (f s).bud b) : Tame m := by
  refine ⟨fun s r s' h ht => up_torn m s r s' h ht, fun s b s' h ht => ?_, fun s x s' h ht => ?_,
    fun w t r' s' hb h => ?_⟩
  · simp only [run_up, hm, Prod.mk.injEq] at h
    obtain ⟨h1, rfl⟩ := h
    refine ⟨0, fun e => ?_, ?_⟩
    · rw [hm, hr, hf, h1]; simp
    · rw [hm, hr, hf, h1]
  · simp only [run_up, hm, Prod.mk.injEq] at h
    obtain ⟨h1, rfl⟩ := h
    exact ⟨0, x, 0, by rw [hm, hr, hf, h1]⟩
  · simp only [run_up, hm, Prod.mk.injEq] at h
    obtain ⟨rfl, rfl⟩ := h
    refine ⟨_, _, hm w, rfl, rfl, ?_, fun a h => ⟨h, rfl⟩, fun x h => ⟨x, h⟩, fun _ => ⟨rfl, rfl⟩⟩
    have := hf w none
    have hw : w.bud none = w := by rw [← hb]
    rw [hw] at this
    rw [this]

theorem Tame.lift (x : Except Err α) : Tame (M.lift x : M κ D α) :=
  .of_run (fun _ => x) id (fun _ => rfl) (fun _ _ => rfl) fun _ _ => rfl

theorem Tame.need (x : Option α) (e : Err) : Tame (M.need x e : M κ D α) := by
  cases x with
  | some a => exact .of_run (fun _ => .ok a) id (fun _ => rfl) (fun _ _ => rfl) fun _ _ => rfl
  | none => exact .of_run (fun _ => .error e) id (fun _ => rfl) (fun _ _ => rfl) fun _ _ => rfl

theorem Tame.raiseIf (b : Bool) (e : Err) : Tame (M.raiseIf b e : M κ D Unit) := by
  cases b with
  | true => exact .of_run (fun _ => .error e) id (fun _ => rfl) (fun _ _ => rfl) fun _ _ => rfl
  | false => exact .of_run (fun _ => .ok ()) id (fun _ => rfl) (fun _ _ => rfl) fun _ _ => rfl

theorem Tame.gets {f : St κ D → α} (hf : ∀ s b, f (s.bud b) = f s) : Tame (M.gets f) :=
  .of_run (fun s => .ok (f s)) id (fun _ => rfl) (fun s b => by rw [hf]) fun _ _ => rfl

theorem Tame.ghost {f : St κ D → St κ D} (hf : ∀ s b, f (s.bud b) = (f s).bud b) :
    Tame (M.ghost f) :=
  .of_run (fun _ => .ok ()) f (fun _ => rfl) (fun _ _ => rfl) hf

theorem Tame.effect {f : St κ D → St κ D} (hf : ∀ s b, f (s.bud b) = (f s).bud b) :
    Tame (M.effect f) := by
  have hnone : ∀ w : St κ D, w.budget = none → M.effect f w = (.ok (), f w) := by
    intro w hw; unfold M.effect; rw [hw]
  refine ⟨fun s r s' h ht => up_torn _ s r s' h ht, fun s b s' h ht => ?_, fun s x s' h ht => ?_,
    fun w t r' s' hb h => ?_⟩
  · refine ⟨1, fun e => ?_, ?_⟩
    · have : M.effect f (s.w.bud (some (1 + e))) = (.ok (), (f s.w).bud (some e)) := by
        rw [Nat.add_comm]
        show (Except.ok (), ({ f (s.w.bud (some (e + 1))) with budget := some e } : St κ D)) = _
        rw [hf]
      rw [this]
      simp only [run_up, Prod.mk.injEq] at h
      obtain ⟨h1, rfl⟩ := h
      congr 1
      unfold M.effect
      split
      · rfl
      · rename_i h0; simp [M.effect, h0] at h1
      · rfl
    · rw [hnone _ rfl, hf]
      simp only [run_up, Prod.mk.injEq] at h
      obtain ⟨h1, rfl⟩ := h
      congr 1
      unfold M.effect
      split
      · rfl
      · rename_i h0; simp [M.effect, h0] at h1
      · rfl
  · simp only [run_up, Prod.mk.injEq] at h
    obtain ⟨h1, rfl⟩ := h
    refine ⟨0, .crash, 0, ?_⟩
    have h0 : M.effect f (s.w.bud (some 0)) = (.error .crash, s.w.bud (some 0)) := rfl
    rw [h0]
    congr 1
    unfold M.effect at h1 ⊢
    cases hb : s.w.budget with
    | none => simp [hb] at h1
    | some n =>
      cases n with
      | zero => simp
      | succ n => simp [hb] at h1
  · simp only [run_up, hnone w hb, Prod.mk.injEq] at h
    obtain ⟨rfl, rfl⟩ := h
    refine ⟨_, _, hnone w hb, rfl, rfl, ?_, fun a h => ⟨h, rfl⟩, by simp, fun _ => ⟨rfl, rfl⟩⟩
    have := hf w none
    have hw : w.bud none = w := by rw [← hb]
    rw [hw] at this
    rw [this]

end FM

namespace Torn
open PyDict M FM World Spec
variable {κ D : Type} [DecidableEq κ] {env : Env κ D} {ser : Serial D}

/-! ## Writing a file -/

private theorem set_same {d : PyDict Str Str} {k : Str} {v : Str} (h : get? d k = some v) :
    PyDict.set d k v = d := by
  induction d with
  | nil => simp [get?] at h
  | cons x d ih =>
    obtain ⟨k', w⟩ := x
    by_cases hk : k' = k
    · simp only [get?, hk, ↓reduceIte, Option.some.injEq] at h
      simp [PyDict.set, hk, h]
    · simp only [get?, hk, ↓reduceIte] at h
      simp [PyDict.set, hk, ih h]

theorem appendAll_torn (path : Str) (ps : List Str) (s : FSt κ D) :
    (appendAll path ps s).2.torn = s.torn := by
  induction ps generalizing s with
  | nil => rfl
  | cons c cs ih =>
    rw [appendAll, FM.run_bind, run_up]
    split
    · rename_i h
      rw [ih]
      simp only [Prod.mk.injEq] at h
      rw [← h.2]
    · rename_i h
      simp only [Prod.mk.injEq] at h
      rw [← h.2]

theorem appendAll_ok {path : Str} {ps : List Str} {s s' : FSt κ D} {x : Str}
    (hx : get? s.w.files path = some x) (h : appendAll path ps s = (.ok (), s')) :
    ∃ b, s'.w = { s.w with files := PyDict.set s.w.files path (x ++ ps.flatten), budget := b } := by
  induction ps generalizing s x with
  | nil =>
    simp only [appendAll, FM.run_pure, Prod.mk.injEq, true_and] at h
    subst h
    exact ⟨s.w.budget, by simp [set_same hx]⟩
  | cons c cs ih =>
    rw [appendAll, FM.run_bind, run_up] at h
    have key : ∀ b, appendAll path cs ⟨{ s.w with
        files := PyDict.set s.w.files path ((get? s.w.files path).getD [] ++ c), budget := b },
        s.torn⟩ = (.ok (), s') →
        ∃ b, s'.w = { s.w with
          files := PyDict.set s.w.files path (x ++ (c :: cs).flatten), budget := b } := by
      intro b hb
      obtain ⟨b', h'⟩ := ih (x := x ++ c) (by simp [get?_set, hx]) hb
      refine ⟨b', ?_⟩
      rw [h']
      simp [set_set]
    cases hbud : s.w.budget with
    | none =>
      simp only [effect, hbud] at h
      refine key none ?_
      rw [← h, ← hbud]
    | some n =>
      cases n with
      | zero => simp [effect, hbud] at h
      | succ n =>
        simp only [effect, hbud] at h
        exact key (some n) h

theorem appendAll_any {path : Str} {ps : List Str} {s s' : FSt κ D} {r : Except Err Unit} {x : Str}
    (hx : get? s.w.files path = some x) (h : appendAll path ps s = (r, s')) :
    ∃ x', ∀ b, s'.w.bud b = { s.w with files := PyDict.set s.w.files path x', budget := b } := by
  induction ps generalizing s x with
  | nil =>
    simp only [appendAll, FM.run_pure, Prod.mk.injEq] at h
    obtain ⟨-, rfl⟩ := h
    exact ⟨x, by simp [set_same hx]⟩
  | cons c cs ih =>
    rw [appendAll, FM.run_bind, run_up] at h
    have key : ∀ b, appendAll path cs ⟨{ s.w with
        files := PyDict.set s.w.files path ((get? s.w.files path).getD [] ++ c), budget := b },
        s.torn⟩ = (r, s') →
        ∃ x', ∀ b, s'.w.bud b = { s.w with
          files := PyDict.set s.w.files path x', budget := b } := by
      intro b hb
      obtain ⟨x', h'⟩ := ih (x := x ++ c) (by simp [get?_set, hx]) hb
      refine ⟨x', fun b' => ?_⟩
      rw [h']
      simp [set_set]
    cases hbud : s.w.budget with
    | none =>
      simp only [effect, hbud] at h
      refine key none ?_
      rw [← h, ← hbud]
    | some n =>
      cases n with
      | zero =>
        simp only [effect, hbud, Prod.mk.injEq] at h
        obtain ⟨-, rfl⟩ := h
        exact ⟨x, by simp [set_same hx]⟩
      | succ n =>
        simp only [effect, hbud] at h
        exact key (some n) h

theorem appendAll_none {path : Str} {ps : List Str} {s : FSt κ D} {x : Str}
    (hb : s.w.budget = none) (hx : get? s.w.files path = some x) :
    appendAll path ps s =
      (.ok (), ⟨{ s.w with files := PyDict.set s.w.files path (x ++ ps.flatten) }, s.torn⟩) := by
  induction ps generalizing s x with
  | nil =>
    simp [appendAll, FM.run_pure, set_same hx]
  | cons c cs ih =>
    rw [appendAll, FM.run_bind, run_up]
    simp only [effect, hb]
    refine (ih (x := x ++ c) rfl (by simp [get?_set, hx])).trans ?_
    simp [set_set]

/-- Writing a file in one effect. -/
def writeWhole (env : Env κ D) (i : ArtInfo) (view : Nat) (d : D) (path : Str) : M κ D Unit := do
  let c ← lift (env.enc i view d)
  effect fun s => { s with files := PyDict.set s.files path c }

theorem sim_writeFile (hs : SerOk env ser) (i : ArtInfo) (view : Nat) (d : D) (path : Str) :
    Sim (writeFile (κ := κ) ser i view d path) (writeWhole env i view d path) := by
  cases hser : ser i view d with
  | error e =>
    have henc : env.enc i view d = .error e := by rw [hs i view d, hser]
    have h1 : writeFile (κ := κ) ser i view d path = up (lift (.error e)) := by
      funext s
      unfold writeFile
      rw [hser]
      rfl
    have h2 : writeWhole env i view d path = lift (.error e) := by
      funext s
      unfold writeWhole
      rw [henc]
      rfl
    rw [h1, h2]
    exact Tame.lift _
  | ok pe =>
    obtain ⟨ps, oe⟩ := pe
    have henc : env.enc i view d = (finish oe).map fun _ => ps.flatten := by
      have := hs i view d
      rw [hser] at this
      rw [this]
      cases oe <;> rfl
    unfold writeWhole
    -- the run of the writer
    have hrun : ∀ s : FSt κ D, writeFile ser i view d path s =
        match s.w.budget with
        | some 0 => (.error .crash, s)
        | _ => marking path (do appendAll path ps; up (lift (finish oe)))
          ⟨{ s.w with files := PyDict.set s.w.files path [], budget := s.w.budget.map (· - 1) },
            s.torn⟩ := by
      intro s
      unfold writeFile
      rw [FM.run_bind, run_up, hser]
      simp only [M.run_lift]
      rw [FM.run_bind, run_up]
      cases hb : s.w.budget with
      | none => simp only [effect, hb]; congr 3 <;> simp [hb]
      | some n => cases n with
        | zero => simp [effect, hb]
        | succ n => simp [effect, hb]
    have hmark : ∀ s s' : FSt κ D, ∀ r, marking path (do appendAll path ps; up (lift (finish oe))) s =
        (r, s') → get? s.w.files path = some [] →
        (∃ x', ∀ b, s'.w.bud b = { s.w with
          files := PyDict.set s.w.files path x', budget := b }) ∧
        (∀ a, r = .ok a → oe = none ∧ s'.torn = s.torn ∧ ∃ b, s'.w = { s.w with
          files := PyDict.set s.w.files path ps.flatten, budget := b }) ∧
        (∀ x, r = .error x → s'.torn = s.torn ++ [path]) := by
      intro s s' r h hx
      unfold marking at h
      rw [FM.run_bind] at h
      have htorn := appendAll_torn (κ := κ) (D := D) path ps s
      cases ha : appendAll path ps s with
      | mk r1 s1 =>
        have hany := appendAll_any hx ha
        rw [ha] at h htorn
        cases r1 with
        | error e =>
          simp only [Prod.mk.injEq] at h
          obtain ⟨rfl, rfl⟩ := h
          simp only at htorn
          exact ⟨hany, by simp, by simp [htorn]⟩
        | ok u =>
          simp only [run_up, M.run_lift] at h
          simp only at htorn
          cases oe with
          | some e =>
            simp only [finish, Prod.mk.injEq] at h
            obtain ⟨rfl, rfl⟩ := h
            exact ⟨hany, by simp, by simp [htorn]⟩
          | none =>
            simp only [finish, Prod.mk.injEq] at h
            obtain ⟨rfl, rfl⟩ := h
            refine ⟨hany, fun _ _ => ⟨rfl, htorn, ?_⟩, by simp⟩
            simpa using appendAll_ok hx ha
    have hget : ∀ d : PyDict Str Str, get? (PyDict.set d path []) path = some [] := by
      intro d; simp [get?_set]
    have hstart : ∀ s : FSt κ D, get? (FSt.mk { s.w with
        files := PyDict.set s.w.files path [], budget := s.w.budget.map (· - 1) } s.torn).w.files
          path = some [] := fun s => hget _
    refine ⟨fun s r s' h ht => ?_, fun s a s' h ht => ?_, fun s x s' h ht => ?_,
      fun w t r s' hb h => ?_⟩
    · rw [hrun] at h
      split at h
      · simp only [Prod.mk.injEq] at h
        rw [← h.2] at ht
        exact absurd rfl ht
      · obtain ⟨⟨x', h1⟩, h2, h3⟩ := hmark _ _ _ h (hstart s)
        cases r with
        | ok a => exact absurd (h2 a rfl).2.1 ht
        | error x =>
          have hcoarse : ∃ y, writeWhole env i view d path (s.w.bud (some 0)) =
              (.error y, s.w.bud (some 0)) := by
            unfold writeWhole
            rw [henc]
            cases oe with
            | none => exact ⟨.crash, rfl⟩
            | some e => exact ⟨e, rfl⟩
          obtain ⟨y, hy⟩ := hcoarse
          refine ⟨⟨x, rfl⟩, path, x', h3 x rfl, 0, y, _, hy, fun b => ?_⟩
          rw [h1]
          simp [set_set]
    · rw [hrun] at h
      split at h
      · simp at h
      · obtain ⟨-, h2, -⟩ := hmark _ _ _ h (hstart s)
        obtain ⟨rfl, -, b, hw⟩ := h2 a rfl
        rw [henc]
        have e : ∀ b', s'.w.bud b' = { s.w with
            files := PyDict.set s.w.files path ps.flatten, budget := b' } := by
          intro b'
          rw [hw]
          simp [set_set]
        exact ⟨1, fun e' => by
          rw [M.run_bind, M.run_lift]
          simp only [finish, Except.map, effect, Nat.add_comm 1 e', e], by
          rw [M.run_bind, M.run_lift]
          simp only [finish, Except.map, effect, e]⟩
    · rw [hrun] at h
      split at h
      · simp only [Prod.mk.injEq, Except.error.injEq] at h
        obtain ⟨rfl, rfl⟩ := h
        rw [henc]
        cases oe with
        | none => exact ⟨0, .crash, 0, rfl⟩
        | some e => exact ⟨0, e, 0, rfl⟩
      · obtain ⟨-, -, h3⟩ := hmark _ _ _ h (hstart s)
        have := h3 x rfl
        rw [ht] at this
        simp at this
    · rw [hrun] at h
      have hm : marking path (do appendAll path ps; up (lift (finish oe)))
          (⟨{ w with files := PyDict.set w.files path [] }, t⟩ : FSt κ D) = (r, s') := by
        rw [← h]
        simp only [hb]
        congr 2
      unfold marking at hm
      rw [FM.run_bind, appendAll_none hb (hget _)] at hm
      simp only [run_up, M.run_lift, List.nil_append, set_set] at hm
      rw [M.run_bind, M.run_lift, henc]
      cases oe with
      | none =>
        simp only [finish, Prod.mk.injEq] at hm
        obtain ⟨rfl, rfl⟩ := hm
        refine ⟨.ok (), { w with files := PyDict.set w.files path ps.flatten }, ?_, rfl, rfl, hb,
          by simp, by simp, by simp⟩
        simp only [finish, Except.map, effect, hb]
      | some e =>
        simp only [finish, Prod.mk.injEq] at hm
        obtain ⟨rfl, rfl⟩ := hm
        exact ⟨.error e, w, rfl, rfl, rfl, hb, by simp, fun _ _ => ⟨e, rfl⟩, by simp⟩

/-! ## The code that writes files -/

theorem tame_linkWritten (σ : Option Snapshot) (key : Str) (sn : PSnap κ) :
    Tame (linkWritten (D := D) σ key sn) := by
  cases σ with
  | none => exact .pure _
  | some σ => exact .effect fun _ _ => rfl

theorem sim_ioWrite (hs : SerOk env ser) (i : ArtInfo) (view : Nat) (d : D) (p : Prt κ) :
    Sim (Torn.ioWrite env ser i view d p) (World.ioWrite env i view d p) := by
  cases hl : p.loc with
  | file path =>
    have e : World.ioWrite env i view d p = (do
        writeWhole env i view d path
        let files ← gets fun s => s.files
        lift (snap env files p)) := by
      unfold World.ioWrite writeWhole
      rw [hl]
      funext s
      simp only [M.run_bind, M.run_lift]
      cases env.enc i view d <;> rfl
    rw [e]
    unfold Torn.ioWrite
    rw [hl]
    exact (sim_writeFile hs i view d path).bind fun _ => Sim.bind (Tame.gets fun _ _ => rfl)
      fun _ => Tame.lift _
  | lit id v =>
    unfold Torn.ioWrite World.ioWrite
    rw [hl]
    exact Tame.bind (.raiseIf _ _) fun _ => .bind (.lift _) fun _ => .lift _

theorem sim_write (hs : SerOk env ser) (g : Graph) (σ : Option Snapshot) (d : D) (a : Art)
    (fp : Option Fp) (pk : κ) (view : Nat) :
    Sim (Torn.write env ser g σ d a fp pk view) (World.write env g σ d a fp pk view) :=
  .bind (Tame.need _ _) fun _ => .bind (Tame.raiseIf _ _) fun _ => .bind (Tame.lift _) fun _ =>
    .bind (sim_ioWrite hs _ _ _ _) fun _ => .bind (Tame.effect fun _ _ => rfl) fun _ =>
    .bind (tame_linkWritten _ _ _) fun _ => .pure _

theorem sim_writeOutputs (hs : SerOk env ser) (σ : Snapshot) (p : Pdr) (fp : Fp) (pk : κ)
    (i : Nat) (ds : List D) :
    Sim (Torn.writeOutputs env ser σ p fp pk i ds) (World.writeOutputs env σ p fp pk i ds) := by
  induction ds generalizing i with
  | nil => exact .pure _
  | cons d ds ih =>
    exact .bind (Tame.lift _) fun _ => .bind (Tame.need _ _) fun _ => .bind (Tame.need _ _) fun _ =>
      .bind (sim_write hs _ _ _ _ _ _ _) fun _ => ih _

theorem sim_buildPartition (hs : SerOk env ser) (σ : Snapshot) (p : Pdr) (existing : List κ)
    (fp : Fp) (deps : List (Str × List (PSnap κ))) (pk : κ) :
    Sim (Torn.buildPartition env ser σ p existing fp deps pk)
      (World.buildPartition env σ p existing fp deps pk) := by
  unfold Torn.buildPartition World.buildPartition
  split
  · exact .pure _
  · exact .bind (Tame.gets fun _ _ => rfl) fun _ => .bind (Tame.lift _) fun _ =>
      .bind (Tame.ghost fun _ _ => rfl) fun _ => .bind (Tame.lift _) fun _ =>
      .bind (Tame.lift _) fun _ => .bind (Tame.raiseIf _ _) fun _ => sim_writeOutputs hs _ _ _ _ _ _

theorem sim_buildPartitions (hs : SerOk env ser) (σ : Snapshot) (p : Pdr) (existing : List κ)
    (ifps : PyDict κ Fp) (deps : List (κ × List (Str × List (PSnap κ)))) :
    Sim (Torn.buildPartitions env ser σ p existing ifps deps)
      (World.buildPartitions env σ p existing ifps deps) := by
  induction deps with
  | nil => exact .pure _
  | cons x deps ih =>
    exact .bind (Tame.need _ _) fun _ => .bind (sim_buildPartition hs _ _ _ _ _ _) fun _ => ih

theorem tame_getInputs (σ : Snapshot) (ins : List (Str × Art)) :
    Tame (World.getInputs env σ ins) := by
  induction ins with
  | nil => exact .pure _
  | cons x ins ih =>
    exact .bind (.need _ _) fun _ => .bind (.gets fun _ _ => rfl) fun _ => .bind ih fun _ => .pure _

theorem tame_readArtifactPartitions (a : Art) (ifps : PyDict κ Fp) :
    Tame (World.readArtifactPartitions env a ifps) := by
  refine .bind ?_ fun _ => .bind (.gets fun _ _ => rfl) fun _ => .pure _
  refine .bind (.gets fun _ _ => rfl) fun known => ?_
  split
  · exact .pure _
  · exact .bind (.gets fun _ _ => rfl) fun _ => .bind (.lift _) fun _ => .effect fun _ _ => rfl

theorem tame_readOutputs (ifps : PyDict κ Fp) (outs : List Art) :
    Tame (World.readOutputs env ifps outs) := by
  induction outs with
  | nil => exact .pure _
  | cons a outs ih =>
    exact .bind (tame_readArtifactPartitions a ifps) fun _ => .bind ih fun _ => .pure _

theorem tame_linkOutputs (σ : Snapshot) (found : List (Art × List (PSnap κ))) :
    Tame (World.linkOutputs (D := D) σ found) := by
  induction found with
  | nil => exact .pure _
  | cons x found ih =>
    exact .bind (.need _ _) fun _ => .bind (.effect fun _ _ => rfl) fun _ => ih

theorem tame_discover (σ : Snapshot) (p : Pdr) (ifps : PyDict κ Fp) :
    Tame (World.discoverProducerPartitions env σ p ifps) :=
  .bind (.lift _) fun _ => .bind (tame_readOutputs _ _) fun _ => .bind (tame_linkOutputs _ _)
    fun _ => .pure _

theorem sim_buildProducer (hs : SerOk env ser) (σ : Snapshot) (p : Pdr) :
    Sim (Torn.buildProducer env ser σ p) (World.buildProducer env σ p) :=
  .bind (tame_getInputs _ _) fun _ => .bind (Tame.lift _) fun _ =>
    .bind (Tame.ghost fun _ _ => rfl) fun _ => .bind (tame_discover _ _ _) fun _ =>
    sim_buildPartitions hs _ _ _ _ _

theorem sim_buildOrder (hs : SerOk env ser) (σ : Snapshot) (order : List Nd) :
    Sim (Torn.buildOrder env ser σ order) (World.buildOrder env σ order) := by
  induction order with
  | nil => exact .pure _
  | cons n order ih =>
    cases n with
    | art a => exact ih
    | pdr p => exact .bind (sim_buildProducer hs σ p) fun _ => ih

theorem sim_build (hs : SerOk env ser) (σ : Snapshot) :
    Sim (Torn.build env ser σ) (World.build env σ) :=
  .bind (Tame.lift _) fun _ => sim_buildOrder hs σ _

theorem tame_linkAll (σ : Snapshot) (known : PyDict Str (List (PSnap κ))) :
    Tame (World.linkAll (D := D) σ known) := by
  induction known with
  | nil => exact .pure _
  | cons x known ih =>
    exact .bind (.need _ _) fun _ => .bind (.bind (.effect fun _ _ => rfl) fun _ =>
      .effect fun _ _ => rfl) fun _ => ih

theorem tame_fromGraph (g : Graph) : Tame (World.fromGraph env g) :=
  .bind (.gets fun _ _ => rfl) fun _ => .bind (.lift _) fun _ => .bind (.ghost fun _ _ => rfl)
    fun _ => .bind (.effect fun _ _ => rfl) fun _ => .bind (.effect fun _ _ => rfl) fun _ =>
    .bind (tame_linkAll _ _) fun _ => .pure _

theorem sim_graphBuild (hs : SerOk env ser) (g : Graph) :
    Sim (Torn.graphBuild env ser g) (World.graphBuild env g) :=
  .bind (tame_fromGraph g) fun _ => .bind (sim_build hs _) fun _ => .pure _

end Torn
end Arti
