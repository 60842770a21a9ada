import Verif.Lemmas.ParOrder
import Verif.Lemmas.Paths
import Verif.Spec.Par

/-! Several processes. -/

namespace Arti.Par
open PyDict Spec Prog
variable {κ D α : Type} [DecidableEq κ] {env : Env κ D} {gs : Graph → Prop}
  {L : List (Inv κ D)} {I : PyDict Str Str → Prop}

/-- A process is safe, on the given files. -/
def PSafe (env : Env κ D) (gs : Graph → Prop) (L : List (Inv κ D)) (I : PyDict Str Str → Prop)
    (F : PyDict Str Str) (p : Proc κ D) : Prop :=
  ∃ g, gs g ∧ Safe env gs L I (Done env gs L I g) p.prog { p.st with files := F } ∧
    (SingleOutput env g → Safe env gs L I (DoneFull env gs I g) p.prog { p.st with files := F })

theorem PSafe.rely {F F' : PyDict Str Str} {p : Proc κ D} (h : PSafe env gs L I F p)
    (hF : Rely env gs L I F F') : PSafe env gs L I F' p := by
  obtain ⟨g, h1, h2, h3⟩ := h
  exact ⟨g, h1, Safe.rely (s := { p.st with files := F }) h2 hF,
    fun h => Safe.rely (s := { p.st with files := F }) (h3 h) hF⟩

/-- A safe process makes a step. -/
theorem PSafe.step {F : PyDict Str Str} {p : Proc κ D} (h : PSafe env gs L I F p)
    (hok : FilesOk env gs L F) (hi : I F) (hl : ∀ e ∈ (p.step F).st.invs, e ∈ L) :
    Guar env gs L F (p.step F).st.files ∧ PSafe env gs L I (p.step F).st.files (p.step F) := by
  obtain ⟨st, prog⟩ := p
  have hr : Rely env gs L I F F := ⟨fun _ _ => id, hok, hi⟩
  obtain ⟨g, h1, h2, h3⟩ := h
  cases prog with
  | ret r => exact ⟨⟨⟨fun _ _ => id, fun _ => .inl⟩, hok⟩, g, h1, h2, h3⟩
  | act f k =>
    obtain ⟨h4, h5⟩ := h2 F hr hl
    exact ⟨h4, g, h1, h5, fun h => (h3 h F hr hl).2⟩

/-- A new process is safe. -/
theorem psafe_start (hI : ∀ F F', I F → Adds env gs F F' → I F') (hd : Disciplined env gs)
    (hn : NoClash env gs L) {g : Graph} (hg : gs g) (b : Option Nat) {F : PyDict Str Str}
    (hok : FilesOk env gs L F) (hi : I F) : PSafe env gs L I F (Proc.start env .whole g b) := by
  have hw : WInv env gs (vw L ⟨F, [], [], [], [], [], b, [], [], []⟩ : St κ D) :=
    ⟨hok, fun sto _ ss h => by simp [vw, get?] at h⟩
  refine ⟨g, hg, ptri_graphBuild hI hd hn hg _ ⟨by simp [Proc.start], hok, hi⟩ ⟨hw, ⟨?_, ?_⟩, rfl⟩,
    fun hso => ptri_graphBuild_full hI hd hn hg hso _ ⟨by simp [Proc.start], hok, hi⟩ ⟨hw, ⟨?_, ?_⟩, rfl⟩⟩
  all_goals simp [vw, get?, Proc.start]

/-- All processes are safe, and the files are right. -/
structure SysOk (env : Env κ D) (gs : Graph → Prop) (L : List (Inv κ D)) (S : Sys κ D) : Prop where
  files : FilesOk env gs L S.files
  procs : ∀ p ∈ S.procs, PSafe env gs L (fun _ => True) S.files p

theorem Sys.step_log {S : Sys κ D} (n : Nat) (e : Inv κ D) (he : e ∈ S.log) : e ∈ (S.step n).log := by
  unfold Sys.step
  split
  · exact he
  · exact List.mem_append.2 (.inl he)

theorem SysOk.step {S : Sys κ D} {n : Nat} (h : SysOk env gs L S)
    (hl : ∀ e ∈ (S.step n).log, e ∈ L) :
    Guar env gs L S.files (S.step n).files ∧ SysOk env gs L (S.step n) := by
  unfold Sys.step at hl ⊢
  cases hp : S.procs[n]? with
  | none => exact ⟨⟨⟨fun _ _ => id, fun _ => .inl⟩, h.files⟩, h⟩
  | some p =>
    rw [hp] at hl
    simp only at hl ⊢
    obtain ⟨h1, h2⟩ := (h.procs p (List.mem_of_getElem? hp)).step h.files trivial
      fun e he => hl e (List.mem_append.2 (.inr he))
    refine ⟨h1, h1.ok, fun q hq => ?_⟩
    rcases List.mem_or_eq_of_mem_set hq with hq | rfl
    · exact (h.procs q hq).rely ⟨h1.adds.old, h1.ok, trivial⟩
    · exact h2

/-- The states of histories are right. -/
theorem _root_.Arti.Spec.ParReach.sysOk (hd : Disciplined env gs) (hn : NoClash env gs L)
    {S : Sys κ D} (h : ParReach env gs .whole S) (hl : ∀ e ∈ S.log, e ∈ L) :
    SysOk env gs L S := by
  induction h with
  | init hs hu =>
    refine ⟨?_, by simp⟩
    obtain ⟨hw, -⟩ := hs.sound hd (hn.mono hl) hu (log := L) hl
    intro sto hm f pk part path b h1 h2 h3
    exact (hw.files sto hm f pk part path b h1 h2 h3).mono hl
  | step n hS ih => exact ((ih fun e he => hl e (Sys.step_log n e he)).step hl).2
  | spawn g b hg hS ih =>
    have := ih hl
    refine ⟨this.files, fun p hp => ?_⟩
    rcases List.mem_append.1 hp with hp | hp
    · exact this.procs p hp
    · rw [List.mem_singleton] at hp
      subst hp
      exact psafe_start (fun _ _ _ _ => trivial) hd hn hg b this.files trivial
  | @arrive S path c hnp hno hS ih =>
    have := ih hl
    have hok : FilesOk env gs L (PyDict.set S.files path c) := by
      intro sto hm f pk part path' b h1 h2 h3
      rw [get?_set] at h3
      split at h3
      · rename_i he
        subst he
        obtain ⟨i, p, pos, hm, rfl⟩ := hm
        exact absurd ⟨i, p, pos, f, pk, part, hm, h1, h2⟩ hnp
      · exact this.files sto hm f pk part path' b h1 h2 h3
    refine ⟨hok, fun p hp => (this.procs p hp).rely ⟨?_, hok, trivial⟩⟩
    intro q d hq
    rw [get?_set]
    split
    · rename_i he
      subst he
      rw [hno] at hq
      simp at hq
    · exact hq
  | pause files hf hS ih =>
    have := ih hl
    refine ⟨?_, by simp⟩
    intro sto hm f pk part path b h1 h2 h3
    refine this.files sto hm f pk part path b h1 h2 (hf path b h3 ?_)
    obtain ⟨i, p, pos, hm, rfl⟩ := hm
    exact ⟨i, p, pos, f, pk, part, hm, h1, h2⟩

theorem _root_.Arti.Spec.Later.reach {mode : WriteMode} {S T : Sys κ D}
    (hS : ParReach env gs mode S) (h : Later env gs mode S T) : ParReach env gs mode T := by
  induction h with
  | refl => exact hS
  | step n _ ih => exact .step n ih
  | spawn g b hg _ ih => exact .spawn g b hg ih

theorem _root_.Arti.Spec.Later.log {mode : WriteMode} {S T : Sys κ D}
    (h : Later env gs mode S T) : ∀ e ∈ S.log, e ∈ T.log := by
  induction h with
  | refl => exact fun _ => id
  | step n _ ih => exact fun e he => Sys.step_log n e (ih e he)
  | spawn g b _ _ ih => exact ih

/-- Processes that started later. -/
theorem _root_.Arti.Spec.Later.safe (hd : Disciplined env gs) (hn : NoClash env gs L)
    {S T : Sys κ D} (hS : ParReach env gs .whole S) (h : Later env gs .whole S T)
    (hl : ∀ e ∈ T.log, e ∈ L) :
    Adds env gs S.files T.files ∧ S.procs.length ≤ T.procs.length ∧
    ∀ n p, S.procs.length ≤ n → T.procs[n]? = some p →
      PSafe env gs L (Adds env gs S.files) T.files p := by
  have htr : ∀ F F', Adds env gs S.files F → Adds env gs F F' → Adds env gs S.files F' :=
    fun F F' h1 h2 => ⟨fun p c h => h2.old p c (h1.old p c h), fun p h => by
      rcases h2.new p h with h | h
      · exact h1.new p h
      · exact .inr h⟩
  induction h with
  | refl =>
    refine ⟨⟨fun _ _ => id, fun _ => .inl⟩, Nat.le_refl _, fun n p h1 h2 => ?_⟩
    have := (List.getElem?_eq_some_iff.1 h2).1
    omega
  | @step T m hT ih =>
    have hl' : ∀ e ∈ T.log, e ∈ L := fun e he => hl e (Sys.step_log m e he)
    obtain ⟨i1, i2, i3⟩ := ih hl'
    have hsys := (hT.reach hS).sysOk hd hn hl'
    obtain ⟨g1, -⟩ := hsys.step hl
    have ha := htr _ _ i1 g1.adds
    refine ⟨ha, ?_, ?_⟩
    · unfold Sys.step
      split
      · exact i2
      · simpa using i2
    · intro n p hnn hp
      unfold Sys.step at hp hl g1 ha ⊢
      cases hm : T.procs[m]? with
      | none =>
        rw [hm] at hp
        exact i3 n p hnn hp
      | some q =>
        rw [hm] at hp hl g1 ha
        simp only at hp hl g1 ha ⊢
        rw [List.getElem?_set] at hp
        split at hp
        · rename_i hmn
          subst hmn
          split at hp
          · simp only [Option.some.injEq] at hp
            subst hp
            exact ((i3 m q hnn hm).step hsys.files i1
              fun e he => hl e (List.mem_append.2 (.inr he))).2
          · simp at hp
        · exact (i3 n p hnn hp).rely ⟨g1.adds.old, g1.ok, ha⟩
  | @spawn T g b hg hT ih =>
    obtain ⟨i1, i2, i3⟩ := ih hl
    refine ⟨i1, by simp; omega, fun n p hnn hp => ?_⟩
    simp only at hp ⊢
    rw [List.getElem?_append] at hp
    split at hp
    · exact i3 n p hnn hp
    · have := List.mem_of_getElem? hp
      rw [List.mem_singleton] at this
      subst this
      exact psafe_start htr hd hn hg b ((hT.reach hS).sysOk hd hn hl).files i1

end Arti.Par
