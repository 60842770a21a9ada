import Verif.Lemmas.Torn
import Verif.Spec.Resume

/-!
# Histories in which no file is torn
-/

namespace Arti.Torn
open PyDict M FM World Spec
variable {κ D : Type} [DecidableEq κ] {env : Env κ D} {gs : Graph → Prop} {ser : Serial D}

/-- The event with another budget. -/
def setBudget (b : Option Nat) : HOp κ D → HOp κ D
  | .writeRaw g i d pk view _ => .writeRaw g i d pk view b
  | .snapshot g _ => .snapshot g b
  | .build g _ => .build g b
  | .rebuild σ _ => .rebuild σ b
  | op => op

theorem valid_setBudget {op : HOp κ D} {s : St κ D} {b b' : Option Nat}
    (h : op.Valid env gs s) : (setBudget b op).Valid env gs (s.bud b') := by
  cases op <;> exact h

theorem quiet_setBudget {op : HOp κ D} {b : Option Nat} (h : op.Quiet) :
    (setBudget b op).Quiet := by
  cases op <;> exact h

/-- A run of code that tears no file, as a state. -/
theorem _root_.Arti.FM.Sim.run {α : Type} {f : FM κ D α} {m : M κ D α} (h : Sim f m)
    {s : FSt κ D} (ht : (f s).2.torn = s.torn) :
    ∃ b b', (m (s.w.bud b)).2 = (f s).2.w.bud b' := by
  cases hf : f s with
  | mk r s' =>
    rw [hf] at ht
    cases r with
    | ok a =>
      obtain ⟨c, -, h2⟩ := h.ok s a s' hf ht
      exact ⟨none, none, by rw [h2]⟩
    | error x =>
      obtain ⟨c, y, e, h2⟩ := h.err s x s' hf ht
      exact ⟨some c, some e, by rw [h2]⟩

/-- A run of code that may tear a file, as a state. -/
theorem _root_.Arti.FM.Sim.cut {α : Type} {f : FM κ D α} {m : M κ D α} (h : Sim f m)
    (s : FSt κ D) : ∃ b, ∃ w', (m (s.w.bud b)).2 = w' ∧ ((∃ b', w' = (f s).2.w.bud b') ∨
      ∃ path x, path ∈ (f s).2.torn ∧
        ∀ b', (f s).2.w.bud b' = { w' with files := PyDict.set w'.files path x, budget := b' }) := by
  by_cases ht : (f s).2.torn = s.torn
  · obtain ⟨b, b', hb⟩ := h.run ht
    exact ⟨b, _, rfl, .inl ⟨b', hb⟩⟩
  · obtain ⟨-, path, x, h1, c, y, w', h2, h3⟩ := h.torn s _ _ rfl ht
    exact ⟨some c, w', by rw [h2], .inr ⟨path, x, by rw [h1]; simp, h3⟩⟩

theorem tornRun_mono (hs : SerOk env ser) (op : HOp κ D) (s : FSt κ D) :
    s.torn <+: (op.tornRun env ser s).torn := by
  cases op with
  | writeRaw g i d pk view b => exact (sim_write hs g none d (.raw i) none pk view).mono ⟨s.w.bud b, s.torn⟩
  | build g b => exact (sim_graphBuild hs g).mono ⟨s.w.bud b, s.torn⟩
  | rebuild σ b => exact (sim_build hs σ).mono ⟨s.w.bud b, s.torn⟩
  | _ => exact List.prefix_rfl

theorem tornRun_run (hs : SerOk env ser) (op : HOp κ D) (s : FSt κ D)
    (ht : (op.tornRun env ser s).torn = s.torn) (b0 : Option Nat) :
    ∃ b b', (setBudget b op).run env (s.w.bud b0) = (op.tornRun env ser s).w.bud b' := by
  cases op with
  | writeRaw g i d pk view b => exact (sim_write hs g none d (.raw i) none pk view).run ht
  | build g b => exact (sim_graphBuild hs g).run ht
  | rebuild σ b => exact (sim_build hs σ).run ht
  | put path c => exact ⟨none, b0, rfl⟩
  | del path => exact ⟨none, b0, rfl⟩
  | lookup a ifps => exact ⟨none, _, rfl⟩
  | snapshot g b => exact ⟨b, _, rfl⟩
  | tag σ n o => exact ⟨none, _, rfl⟩
  | restart keep => exact ⟨none, b0, rfl⟩

theorem filter_set {d : PyDict Str Str} {path x : Str} {keep : Str → Bool}
    (hk : keep path = false) :
    (PyDict.set d path x).filter (fun y => keep y.1) = d.filter fun y => keep y.1 := by
  induction d with
  | nil => simp [PyDict.set, hk]
  | cons y d ih =>
    obtain ⟨k, v⟩ := y
    by_cases h : k = path
    · subst h
      simp [PyDict.set, hk]
    · simp [PyDict.set, h, List.filter_cons, ih]

/-- After an event and a restart that deletes the torn files. -/
theorem tornRun_clean (hs : SerOk env ser) (op : HOp κ D) (s : St κ D) (keep : Str → Bool)
    (hk : ∀ path ∈ (op.tornRun env ser ⟨s, []⟩).torn, keep path = false) (b0 : Option Nat) :
    ∃ b b', (HOp.restart keep).run env ((setBudget b op).run env (s.bud b0)) =
      ((HOp.restart keep).run env (op.tornRun env ser ⟨s, []⟩).w).bud b' := by
  have key : ∀ {α : Type} {f : FM κ D α} {m : M κ D α} (_ : Sim f m) (s : FSt κ D)
      (_ : ∀ path ∈ (f s).2.torn, keep path = false),
      ∃ b b', (HOp.restart keep).run env (m (s.w.bud b)).2 =
        ((HOp.restart keep).run env (f s).2.w).bud b' := by
    intro α f m h s hk
    obtain ⟨b, w', h1, h2⟩ := h.cut s
    refine ⟨b, w'.budget, ?_⟩
    rw [h1]
    rcases h2 with ⟨b', rfl⟩ | ⟨path, x, h3, h4⟩
    · rfl
    · have h5 := h4 w'.budget
      have h6 : ((HOp.restart keep).run env ((f s).2.w.bud w'.budget)) =
          ((HOp.restart keep).run env (f s).2.w).bud w'.budget := rfl
      rw [← h6, h5]
      simp only [HOp.run, filter_set (hk path h3)]
  cases op with
  | writeRaw g i d pk view b =>
    exact key (sim_write hs g none d (.raw i) none pk view) ⟨s.bud b, []⟩ hk
  | build g b => exact key (sim_graphBuild hs g) ⟨s.bud b, []⟩ hk
  | rebuild σ b => exact key (sim_build hs σ) ⟨s.bud b, []⟩ hk
  | put path c => exact ⟨none, b0, rfl⟩
  | del path => exact ⟨none, b0, rfl⟩
  | lookup a ifps => exact ⟨none, _, rfl⟩
  | snapshot g b => exact ⟨b, _, rfl⟩
  | tag σ n o => exact ⟨none, _, rfl⟩
  | restart keep => exact ⟨none, b0, rfl⟩

/-- States of histories in which no file was torn. -/
theorem torn_reach (hs : SerOk env ser) {s : FSt κ D} (h : TornReach env gs ser s)
    (ht : s.torn = []) : ∃ b, Reach env gs (s.w.bud b) := by
  induction h with
  | init files b hf => exact ⟨b, .init files b hf⟩
  | @step s op _ hv ih =>
    have h0 : s.torn = [] := by
      have := tornRun_mono hs op s
      rw [ht] at this
      simpa using this
    obtain ⟨b0, hr⟩ := ih h0
    obtain ⟨b, b', hb⟩ := tornRun_run hs op s (by rw [ht, h0]) b0
    refine ⟨b', ?_⟩
    rw [← hb]
    exact .step _ hr (valid_setBudget hv)

/-- States of histories in which torn files are deleted. -/
theorem clean_reach (hs : SerOk env ser) {s : St κ D} (h : CleanReach env gs ser s) :
    ∃ b, Reach env gs (s.bud b) := by
  induction h with
  | init files b hf => exact ⟨b, .init files b hf⟩
  | @step s op _ hv ht ih =>
    obtain ⟨b0, hr⟩ := ih
    obtain ⟨b, b', hb⟩ := tornRun_run hs op ⟨s, []⟩ ht b0
    exact ⟨b', by rw [← hb]; exact .step _ hr (valid_setBudget hv)⟩
  | @clean s op keep _ hv hk ih =>
    obtain ⟨b0, hr⟩ := ih
    obtain ⟨b, b', hb⟩ := tornRun_clean hs op s keep hk b0
    refine ⟨b', ?_⟩
    rw [← hb]
    exact .step _ (.step _ hr (valid_setBudget hv)) trivial

theorem tornOps_mono (hs : SerOk env ser) (ops : List (HOp κ D)) (s : FSt κ D) :
    s.torn <+: (tornOps env ser s ops).torn := by
  induction ops generalizing s with
  | nil => exact List.prefix_rfl
  | cons op ops ih => exact (tornRun_mono hs op s).trans (ih _)

/-- A sequence of events in which no file is torn. -/
theorem tornOps_run (hs : SerOk env ser) (ops : List (HOp κ D)) (s : FSt κ D)
    (ht : (tornOps env ser s ops).torn = s.torn) (hv : ValidTornOps env gs ser s ops)
    (b0 : Option Nat) :
    ∃ ops' b', runOps env (s.w.bud b0) ops' = (tornOps env ser s ops).w.bud b' ∧
      ValidOps env gs (s.w.bud b0) ops' ∧ ((∀ op ∈ ops, op.Quiet) → ∀ op ∈ ops', op.Quiet) := by
  induction ops generalizing s b0 with
  | nil => exact ⟨[], b0, rfl, trivial, fun h => h⟩
  | cons op ops ih =>
    have h1 := tornRun_mono hs op s
    have h2 := tornOps_mono hs ops (op.tornRun env ser s)
    have e1 : (op.tornRun env ser s).torn = s.torn :=
      (h1.eq_of_length (Nat.le_antisymm h1.length_le
        (Nat.le_trans h2.length_le (Nat.le_of_eq (congrArg List.length ht))))).symm
    obtain ⟨b, b1, hb⟩ := tornRun_run hs op s e1 b0
    obtain ⟨ops', b', h3, h4, h5⟩ := ih (op.tornRun env ser s) (ht.trans e1.symm) hv.2 b1
    refine ⟨setBudget b op :: ops', b', ?_, ⟨valid_setBudget hv.1, ?_⟩, fun hq => ?_⟩
    · rw [runOps, hb]
      exact h3
    · rw [hb]
      exact h4
    · intro o ho
      rcases List.mem_cons.1 ho with rfl | ho
      · exact quiet_setBudget (hq op (by simp))
      · exact h5 (fun o ho => hq o (by simp [ho])) o ho

end Arti.Torn
