import Verif.Props.Build
import Verif.Lemmas.Sound

/-!
# C37: nothing is written for outputs that fail validation
-/

namespace Arti.Props
open Arti PyDict World Spec
variable {κ D : Type} [DecidableEq κ] {env : Env κ D} {gs : Graph → Prop}

/-- C37, one partition: if reading the arguments, `build` or `validate_outputs` raises, or
`validate_outputs` rejects, then building the partition raises, and neither files nor backend
change. -/
theorem C37_rejected_outputs_change_nothing {σ : Snapshot} {p : Pdr} {existing : List κ}
    {fp : Fp} {deps : List (Str × List (PSnap κ))} {pk : κ} {s : St κ D} (hpk : pk ∉ existing)
    {e : Err} (hrej : runBuild (cls env p)
      (readArgs env s.files p.inputs deps (cls env p).buildInputs) = .error e) :
    ∃ calls, buildPartition env σ p existing fp deps pk s = (.error e, { s with calls := calls }) := by
  unfold buildPartition
  rw [if_neg (by simpa using hpk)]
  simp only [M.run_bind, M.run_gets, M.run_lift]
  simp only [runBuild, bind, Except.bind] at hrej
  cases hr : readArgs env s.files p.inputs deps (cls env p).buildInputs with
  | error e' =>
    rw [hr] at hrej
    simp only [Except.error.injEq] at hrej
    exact ⟨s.calls, by rw [hrej]⟩
  | ok args =>
    rw [hr] at hrej
    refine ⟨s.calls ++ [(p, pk)], ?_⟩
    simp only [M.run_ghost] at hrej ⊢
    cases hb : (cls env p).build args with
    | error e' =>
      rw [hb] at hrej
      simp only [Except.error.injEq] at hrej
      simp only [M.run_bind, M.run_lift, hrej]
    | ok outs =>
      rw [hb] at hrej
      simp only [M.run_bind, M.run_lift] at hrej ⊢
      cases hv : (cls env p).validate outs with
      | error e' =>
        rw [hv] at hrej
        simp only [Except.error.injEq] at hrej
        simp only [hrej]
      | ok passed =>
        rw [hv] at hrej
        cases passed with
        | true => simp at hrej
        | false =>
          simp only [Bool.false_eq_true, ↓reduceIte, Except.error.injEq] at hrej
          simp [M.raiseIf, hrej]

/-- C37, in histories: if the outputs for a partition dependency that was ever computed are
rejected, or cannot be computed, then there is never a file for any of them, and the backend never
knows or links a partition for any of them.  Producers may have any number of outputs. -/
theorem C37_rejected_outputs_are_never_stored (hd : Disciplined env gs) {s : St κ D} (hs : Reach env gs s)
    (hn : NoClash env gs s.invs) (hu : SnapUnique s.raws) {e : Inv κ D} (he : e ∈ s.invs) {err : Err}
    (hrej : runBuild (cls env e.pdr) e.args = .error err) {i : ArtInfo} {pos : Nat}
    (hm : Made gs i e.pdr pos) :
    (∀ part path, generate env i.sto (some e.fp) e.key = .ok part → part.loc = .file path →
      get? s.files path = none) ∧
    (∀ ps, get? s.storage i.sto = some ps → ∀ sn ∈ ps,
      ¬ (sn.part.key = e.key ∧ sn.part.inputFp = some e.fp)) ∧
    (∀ σ k, σ.graph.keyOf (.made i e.pdr pos) = some k → ∀ sn ∈ linksOf s σ k,
      ¬ (sn.part.key = e.key ∧ sn.part.inputFp = some e.fp)) := by
  obtain ⟨hw, hl⟩ := hs.sound hd hn hu fun _ => id
  have hbad : ∀ b, ¬ Correct env gs s.invs i.sto e.fp e.key b := by
    intro b hc
    have := hc.eq hn he hm
    simp [bytes, hrej, outBytes, bind, Except.bind] at this
  have hknown : ∀ ps, get? s.storage i.sto = some ps → ∀ sn ∈ ps,
      ¬ (sn.part.key = e.key ∧ sn.part.inputFp = some e.fp) := by
    rintro ps hps sn hsn ⟨h1, h2⟩
    obtain ⟨f, part, b, g1, g2, _, g4⟩ := hw.store i.sto ⟨i, e.pdr, pos, hm, rfl⟩ ps hps sn hsn
    have hf : sn.part.inputFp = some f := by
      have hpf := (generate_ok g1).2.1
      unfold stored at g2
      split at g2
      · simp only [Except.ok.injEq, Prod.mk.injEq, and_true] at g2; rw [← g2]; exact hpf
      · simp only [Except.ok.injEq, Prod.mk.injEq, and_true] at g2; rw [← g2]; exact hpf
      · simp at g2
    rw [h2] at hf
    obtain rfl := Option.some.inj hf
    rw [h1] at g4
    exact hbad b g4
  refine ⟨fun part path h1 h2 => ?_, hknown, fun σ k hk sn hsn => ?_⟩
  · cases hf : get? s.files path with
    | none => rfl
    | some b =>
      exact absurd (hw.files i.sto ⟨i, e.pdr, pos, hm, rfl⟩ e.fp e.key part path b h1 h2 hf)
        (hbad b)
  · unfold linksOf at hsn
    cases hg : get? s.links (σ, k) with
    | none => rw [hg] at hsn; simp at hsn
    | some ss =>
      rw [hg] at hsn
      obtain ⟨⟨ps, h1, h2⟩, _⟩ := hl.ok σ k ss hg _ hk sn hsn
      exact hknown ps h1 sn h2

/-- C37: if a build succeeds, then all outputs that evaluation gives passed validation. -/
theorem C37_success_means_validated_partial (hd : Disciplined env gs)
    (hso : ∀ g, gs g → SingleOutput env g) {s s' : St κ D} (hs : Reach env gs s) {g : Graph}
    (hg : gs g) {b : Option Nat} {σ : Snapshot}
    (hrun : graphBuild env g { s with budget := b } = (.ok σ, s'))
    (hn : NoClash env gs s'.invs) (hu : SnapUnique s'.raws) {k : Str} {i : ArtInfo} {p : Pdr}
    {pos : Nat} (hp : (k, Art.made i p pos) ∈ g.arts) :
    ∃ rs, evalPdr env (rawNow env g s.files) p = .ok rs ∧ ∀ r ∈ rs, ∃ outs, r.outs = .ok outs := by
  obtain ⟨_, h⟩ := C42_incremental_build_is_evaluation_partial hd hso hs hg hrun hn hu
  obtain ⟨_, ℓ, _, h2, -⟩ := h k _ hp
  simp only [evalArt, bind, Except.bind] at h2
  cases hr : evalPdr env (rawNow env g s.files) p with
  | error e => rw [hr] at h2; simp at h2
  | ok rs =>
    rw [hr] at h2
    refine ⟨rs, rfl, ?_⟩
    simp only at h2
    clear hr
    induction rs generalizing ℓ with
    | nil => simp
    | cons r rs ih =>
      simp only [placeAll, bind, Except.bind] at h2
      split at h2
      · simp at h2
      · rename_i x hx
        split at h2
        · simp at h2
        · rename_i xs hxs
          intro r' hr'
          rcases List.mem_cons.1 hr' with rfl | hr'
          · simp only [place, outBytes, bind, Except.bind] at hx
            cases ho : r'.outs with
            | error e => rw [ho] at hx; simp at hx
            | ok outs => exact ⟨outs, rfl⟩
          · exact ih xs hxs r' hr'

namespace Ex37
open Ex

def a : Art := .raw ⟨0, true, .file ⟨"a".toList, true⟩⟩
def p : Pdr := .mk ['V'] ['1'] (.cons ['x'] a .nil)
def ib : ArtInfo := ⟨0, false, .file ⟨"b{input_fingerprint}".toList, false⟩⟩
def b : Art := .made ib p 0
def g : Graph := ⟨['g'], [(['a'], a), (['b'], b)], []⟩

/-- Build, then replace the raw data by the empty string, for which the outputs are rejected. -/
def ops : List (HOp Nat Str) := [.build g none, .put "a~1".toList [], .build g none]
def files : PyDict Str Str := [("a~1".toList, ['u'])]
def s0 : St Nat Str := ⟨files, [], [], [], [], [], none, [], [], []⟩
def s : St Nat Str := runOps Ex.env s0 ops

theorem reach : Reach Ex.env (· ∈ [g]) s := by
  have h0 : Reach Ex.env (· ∈ [g]) s0 := .init files none fun path hp => by
    have : path ∈ keys files := by
      apply Classical.byContradiction
      intro h; exact hp ((get?_eq_none_iff _ _).2 h)
    simp only [files, keys, List.map_cons, List.map_nil, List.mem_cons, List.not_mem_nil,
      or_false] at this
    subst this
    exact not_produced _ _ (by decide +kernel)
  exact Reach.ops _ _ h0 ⟨List.mem_singleton.2 rfl, not_produced _ _ (by decide +kernel),
    List.mem_singleton.2 rfl, trivial⟩

theorem disc : Disciplined Ex.env (· ∈ [g]) := disciplined [g] (by decide +kernel)

theorem single : ∀ g', g' ∈ [g] → SingleOutput Ex.env g' := by
  intro g' hg
  rw [List.mem_singleton.1 hg]
  exact singleOutput g (by decide +kernel)

theorem clash : NoClash Ex.env (· ∈ [g]) s.invs := noClash _ _ (by decide +kernel)
theorem unique : SnapUnique s.raws := snapUnique _ (by decide +kernel)

theorem rejected : ∃ e ∈ s.invs, e.pdr = p ∧ runBuild (cls Ex.env e.pdr) e.args =
    .error .valueError := by
  have : s.invs.any (fun e => decide (e.pdr = p ∧ runBuild (cls Ex.env e.pdr) e.args =
    .error .valueError)) = true := by decide +kernel
  obtain ⟨e, h1, h2⟩ := List.any_eq_true.1 this
  exact ⟨e, h1, (of_decide_eq_true h2).1, (of_decide_eq_true h2).2⟩

/-- In this history one dependency is rejected and one is not; there is one produced file. -/
example : (∃ e ∈ s.invs, e.pdr = p ∧ ∀ ps, get? s.storage ib.sto = some ps → ∀ sn ∈ ps,
      ¬ (sn.part.key = e.key ∧ sn.part.inputFp = some e.fp)) ∧ s.invs.length = 2 ∧
    s.files.length = 2 := by
  obtain ⟨e, h1, h2, h3⟩ := rejected
  refine ⟨⟨e, h1, h2, (C37_rejected_outputs_are_never_stored disc reach clash unique
    h1 h3 (i := ib) (pos := 0) ?_).2.1⟩, by decide +kernel, by decide +kernel⟩
  rw [h2]
  exact ⟨g, List.mem_singleton.2 rfl, ['b'], by decide⟩

end Ex37

namespace ExW
open Ex

def a : Art := .raw ⟨0, true, .file ⟨"a".toList, true⟩⟩
def p : Pdr := .mk ['W'] ['1'] (.cons ['x'] a .nil)
def b : Art := .made ⟨0, false, .file ⟨"b{input_fingerprint}".toList, false⟩⟩ p 0
def c : Art := .made ⟨0, false, .file ⟨"c{input_fingerprint}".toList, false⟩⟩ p 1
def g : Graph := ⟨['g'], [(['a'], a), (['b'], b), (['c'], c)], []⟩
def s1 : St Nat Str := ⟨[("a~1".toList, [])], [], [], [], [], [], none, [], [], []⟩
def s3 : St Nat Str := ⟨[("a~1".toList, ['u'])], [], [], [], [], [], none, [], [], []⟩

end ExW

/-- C37 fails for a wrong number of outputs.  With two declared outputs: if `build` returns one,
then it is stored, the build succeeds, and the second output has no partition; if `build` returns
three, then two of them are stored before the build raises `IndexError`. -/
theorem C37_violated_by_wrong_number_of_outputs :
    (cls Ex.env ExW.p).outputs.length = 2 ∧
    (∃ σ s', graphBuild Ex.env ExW.g ExW.s1 = (.ok σ, s') ∧ linksOf s' σ ['b'] ≠ [] ∧
      linksOf s' σ ['c'] = [] ∧ s'.files.length = 2) ∧
    (∃ s', graphBuild Ex.env ExW.g ExW.s3 = (.error .indexError, s') ∧ s'.files.length = 3) := by
  refine ⟨rfl, ?_, ?_⟩
  · have h : (match graphBuild Ex.env ExW.g ExW.s1 with
      | (.ok σ, s') => decide (linksOf s' σ ['b'] ≠ [] ∧ linksOf s' σ ['c'] = [] ∧
          s'.files.length = 2)
      | _ => false) = true := by decide +kernel
    cases hb : graphBuild Ex.env ExW.g ExW.s1 with
    | mk r s' =>
      rw [hb] at h
      cases r with
      | error e => simp at h
      | ok σ => exact ⟨σ, s', rfl, of_decide_eq_true h⟩
  · have h : (match graphBuild Ex.env ExW.g ExW.s3 with
      | (.error .indexError, s') => decide (s'.files.length = 3)
      | _ => false) = true := by decide +kernel
    cases hb : graphBuild Ex.env ExW.g ExW.s3 with
    | mk r s' =>
      rw [hb] at h
      cases r with
      | error e => cases e <;> first | exact ⟨s', rfl, of_decide_eq_true h⟩ | simp at h
      | ok σ => simp at h

end Arti.Props
