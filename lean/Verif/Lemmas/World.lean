import Verif.Model.World
import Verif.Lemmas.Dict

/-! Lemmas about the world: running stateful code, Hoare triples. -/

namespace Arti

namespace M
variable {κ D α β : Type}

theorem run_bind (m : M κ D α) (f : α → M κ D β) (s : St κ D) :
    (m >>= f) s = match m s with
      | (.ok a, s') => f a s'
      | (.error e, s') => (.error e, s') := rfl

theorem run_pure (a : α) (s : St κ D) : (pure a : M κ D α) s = (.ok a, s) := rfl

theorem run_lift (x : Except Err α) (s : St κ D) : lift x s = (x, s) := rfl

theorem run_gets (f : St κ D → α) (s : St κ D) : gets f s = (.ok (f s), s) := rfl

theorem run_ghost (f : St κ D → St κ D) (s : St κ D) : ghost f s = (.ok (), f s) := rfl

/-- If `m` starts in a state with `P` and returns a value, then `Q` holds of it and the final
state; if it raises, `E` holds of the final state. -/
def Tri (P : St κ D → Prop) (m : M κ D α) (Q : α → St κ D → Prop) (E : St κ D → Prop) : Prop :=
  ∀ s, P s → match m s with
    | (.ok a, s') => Q a s'
    | (.error _, s') => E s'

variable {P P' : St κ D → Prop} {Q Q' : α → St κ D → Prop} {E E' : St κ D → Prop}

theorem Tri.ok {m : M κ D α} (h : Tri P m Q E) {s s' : St κ D} {a : α} (hp : P s)
    (hm : m s = (.ok a, s')) : Q a s' := by
  have := h s hp; rw [hm] at this; exact this

theorem Tri.err {m : M κ D α} (h : Tri P m Q E) {s s' : St κ D} {e : Err} (hp : P s)
    (hm : m s = (.error e, s')) : E s' := by
  have := h s hp; rw [hm] at this; exact this

theorem Tri.conseq {m : M κ D α} (h : Tri P m Q E) (hp : ∀ s, P' s → P s)
    (hq : ∀ a s, Q a s → Q' a s) (he : ∀ s, E s → E' s) : Tri P' m Q' E' := by
  intro s hs
  have := h s (hp s hs)
  revert this
  cases hm : m s with
  | mk r s' =>
    cases r with
    | ok a => exact hq a s'
    | error e => exact he s'

theorem Tri.bind {m : M κ D α} {f : α → M κ D β} {R : β → St κ D → Prop} (h : Tri P m Q E)
    (hf : ∀ a, Tri (Q a) (f a) R E) : Tri P (m >>= f) R E := by
  intro s hs
  rw [run_bind]
  have := h s hs
  revert this
  cases hm : m s with
  | mk r s' =>
    cases r with
    | ok a => intro hq; exact hf a s' hq
    | error e => exact id

theorem Tri.pure {a : α} (h : ∀ s, P s → Q a s) : Tri P (pure a) Q E := fun s hs => h s hs

theorem Tri.lift {x : Except Err α} (h : ∀ a s, x = .ok a → P s → Q a s)
    (he : ∀ s, P s → E s) : Tri P (lift x) Q E := by
  intro s hs
  rw [run_lift]
  cases x with
  | ok a => exact h a s rfl hs
  | error e => exact he s hs

theorem Tri.gets {f : St κ D → α} (h : ∀ s, P s → Q (f s) s) : Tri P (gets f) Q E :=
  fun s hs => h s hs

theorem Tri.ghost {f : St κ D → St κ D} {Q : Unit → St κ D → Prop}
    (h : ∀ s, P s → Q () (f s)) : Tri P (ghost f) Q E := fun s hs => h s hs

theorem Tri.need {x : Option α} {e : Err} (h : ∀ a s, x = some a → P s → Q a s)
    (he : ∀ s, P s → E s) : Tri P (need x e) Q E := by
  intro s hs
  unfold M.need
  cases x with
  | some a => exact h a s rfl hs
  | none => exact he s hs

theorem Tri.raiseIf {b : Bool} {e : Err} {Q : Unit → St κ D → Prop}
    (h : ∀ s, b = false → P s → Q () s) (he : ∀ s, P s → E s) : Tri P (raiseIf b e) Q E := by
  intro s hs
  unfold M.raiseIf
  cases b with
  | true => exact he s hs
  | false => exact h s rfl hs

theorem Tri.effect {f : St κ D → St κ D} {Q : Unit → St κ D → Prop}
    (h : ∀ s, P s → Q () (f s)) (hb : ∀ s n, Q () s → Q () { s with budget := n })
    (he : ∀ s, P s → E s) : Tri P (effect f) Q E := by
  intro s hs
  unfold M.effect
  cases s.budget with
  | none => exact h s hs
  | some n =>
    cases n with
    | zero => exact he s hs
    | succ n => exact hb _ _ (h s hs)

/-- Triples for the pieces of a bind that leave the state alone. -/
theorem Tri.lift_bind {x : Except Err α} {f : α → M κ D β} {R : β → St κ D → Prop}
    (h : ∀ a, x = .ok a → Tri P (f a) R E) (he : ∀ s, P s → E s) :
    Tri P (M.lift x >>= f) R E := by
  intro s hs
  rw [run_bind, run_lift]
  cases x with
  | ok a => exact h a rfl s hs
  | error e => exact he s hs

theorem Tri.need_bind {x : Option α} {e : Err} {f : α → M κ D β} {R : β → St κ D → Prop}
    (h : ∀ a, x = some a → Tri P (f a) R E) (he : ∀ s, P s → E s) :
    Tri P (M.need x e >>= f) R E := by
  intro s hs
  rw [run_bind]
  cases x with
  | some a => exact h a rfl s hs
  | none => exact he s hs

theorem Tri.raiseIf_bind {b : Bool} {e : Err} {f : Unit → M κ D β} {R : β → St κ D → Prop}
    (h : b = false → Tri P (f ()) R E) (he : ∀ s, P s → E s) :
    Tri P (M.raiseIf b e >>= f) R E := by
  intro s hs
  rw [run_bind]
  cases b with
  | true => exact he s hs
  | false => exact h rfl s hs

theorem Tri.gets_bind {g : St κ D → α} {f : α → M κ D β} {R : β → St κ D → Prop}
    (h : ∀ s, P s → Tri (· = s) (f (g s)) R E) : Tri P (M.gets g >>= f) R E := by
  intro s hs
  rw [run_bind, run_gets]
  exact h s hs s rfl

theorem Tri.of_state {m : M κ D α} (h : ∀ s, P s → Tri (· = s) m Q E) : Tri P m Q E :=
  fun s hs => h s hs s rfl

end M

namespace World
variable {κ D : Type} [DecidableEq κ] {env : Env κ D}

/-- What a generated partition looks like. -/
theorem generate_ok {sto : Sto} {fp : Option Fp} {pk : κ} {p : Prt κ}
    (h : generate env sto fp pk = .ok p) :
    p.sto = sto ∧ p.inputFp = fp ∧ p.key = pk ∧ fp.isSome = sto.hasFp ∧
      ((∃ t path, sto = .file t ∧ p.loc = .file path) ∨
       (∃ t v id v', sto = .lit t v ∧ p.loc = .lit id v' ∧ v'.isSome = v.isSome)) := by
  unfold generate at h
  cases hk : checkKey env sto.tmpl.keyed pk with
  | error e => rw [hk] at h; exact absurd h (by rintro ⟨⟩)
  | ok u =>
    rw [hk] at h
    simp only [Except.bind, bind] at h
    split at h
    · simp at h
    · split at h
      · simp at h
      · rename_i h1 h2
        have hfp : fp.isSome = sto.hasFp := by
          cases fp <;> cases hs : sto.hasFp <;> simp_all
        cases sto with
        | file t =>
          simp only at h
          cases hr : env.render t.text fp pk with
          | error e => rw [hr] at h; simp at h
          | ok path =>
            rw [hr] at h
            simp only [Except.ok.injEq] at h
            subst h
            exact ⟨rfl, rfl, rfl, hfp, .inl ⟨t, path, rfl, rfl⟩⟩
        | lit t v =>
          simp only at h
          cases hr : env.render t.text fp pk with
          | error e => rw [hr] at h; simp at h
          | ok id =>
            rw [hr] at h
            cases v with
            | none =>
              simp only [Except.ok.injEq] at h
              subst h
              exact ⟨rfl, rfl, rfl, hfp, .inr ⟨t, none, id, none, rfl, rfl, rfl⟩⟩
            | some v =>
              simp only at h
              cases hv : env.render v fp pk with
              | error e => rw [hv] at h; simp at h
              | ok v' =>
                rw [hv] at h
                simp only [Except.ok.injEq] at h
                subst h
                exact ⟨rfl, rfl, rfl, hfp, .inr ⟨t, some v, id, some v', rfl, rfl, rfl⟩⟩

/-- Every snapshot made by `snapAll` is of a generated partition whose data exists. -/
theorem mem_snapAll {files : PyDict Str Str} {sto : Sto} {l : List (Option Fp × κ)}
    {ss : List (PSnap κ)} (h : snapAll env files sto l = .ok ss) {sn : PSnap κ} (hs : sn ∈ ss) :
    ∃ fp pk c, (fp, pk) ∈ l ∧ generate env sto fp pk = .ok sn.part ∧
      content files sn.part.loc = some c ∧ sn.contentFp = contentFp env sn.part.loc c := by
  induction l generalizing ss with
  | nil => simp [snapAll] at h; subst h; simp at hs
  | cons x l ih =>
    obtain ⟨fp, pk⟩ := x
    unfold snapAll at h
    cases hg : generate env sto fp pk with
    | error e => rw [hg] at h; simp [bind, Except.bind] at h
    | ok p =>
      rw [hg] at h
      simp only [bind, Except.bind] at h
      cases hsn : snap env files p with
      | error e => rw [hsn] at h; simp at h
      | ok sn' =>
        rw [hsn] at h
        simp only at h
        cases hr : snapAll env files sto l with
        | error e => rw [hr] at h; simp at h
        | ok ss' =>
          rw [hr] at h
          simp only [Except.ok.injEq] at h
          subst h
          rcases List.mem_cons.1 hs with rfl | hs
          · unfold snap at hsn
            cases hc : content files p.loc with
            | none => rw [hc] at hsn; simp at hsn
            | some c =>
              rw [hc] at hsn
              simp only [Except.ok.injEq] at hsn
              subst hsn
              exact ⟨fp, pk, c, by simp, hg, hc, rfl⟩
          · obtain ⟨fp', pk', c, h1, h2⟩ := ih hr hs
            exact ⟨fp', pk', c, List.mem_cons_of_mem _ h1, h2⟩

end World
end Arti
