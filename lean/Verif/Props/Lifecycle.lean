import Verif.Lemmas.Lifecycle
import Verif.Lemmas.GraphOut
import Verif.Examples.World

/-!
# C31, C32: defining, sealing and re-opening graphs

`(Proc.init.run es).1` is the state after the program `es`, and `(Proc.init.run es).2` its history.
-/

namespace Arti.Props
open Arti PyDict Spec Life

theorem status_of {t : Trace} {s : Proc} (hI : LInv t s) {i : Nat} {g : GObj}
    (hg : get? s.objs i = some g) : g.status = some .closed ↔ beingDefined i t = some false := by
  rw [(hI.status i g hg).1]
  cases beingDefined i t with
  | none => simp
  | some b => cases b <;> simp

/-- Reading, writing, building and snapshotting a graph, and reading and writing through a snapshot
of it, raise and have no effect unless the graph has been entered and left, and not been entered
again since. -/
theorem C31_unsealed_graphs_cannot_be_used (es : List Ev) (u : Ev) (hu : needsSealed u = true)
    (h : beingDefined u.id (Proc.init.run es).2 ≠ some false) :
    ∃ e, (Proc.init.run es).1.step u = ((Proc.init.run es).1, some e) ∧
      (e = .valueError ∨ e = .unsupported) := by
  have hI := linv_run es
  revert h hI
  generalize (Proc.init.run es).1 = s
  generalize (Proc.init.run es).2 = t
  intro h hI
  have hst : s.step u = match get? s.objs u.id with
      | none => (s, some .unsupported)
      | some g => s.onGraph g u := by
    cases u with
    | new id name tags items => cases hu
    | _ => rfl
  rw [hst]
  cases hg : get? s.objs u.id with
  | none => exact ⟨_, rfl, .inr rfl⟩
  | some g =>
    have hs : g.sealed = .error .valueError := by
      unfold GObj.sealed
      rw [if_neg]
      rw [status_of hI hg]
      exact h
    cases u <;> cases hu
    case some.read.refl id rest => exact ⟨.valueError, by simp [Proc.onGraph, Proc.guarded, hs], .inl rfl⟩
    case some.write.refl id rest => exact ⟨.valueError, by simp [Proc.onGraph, Proc.guarded, hs], .inl rfl⟩
    case some.build.refl id rest => exact ⟨.valueError, by simp [Proc.onGraph, hs], .inl rfl⟩
    case some.snapshot.refl id rest => exact ⟨.valueError, by simp [Proc.onGraph, hs], .inl rfl⟩
    case some.snapRead.refl id rest =>
      by_cases hm : id ∈ s.snaps
      · exact ⟨.valueError, by simp [Proc.onGraph, Proc.guarded, hs, hm], .inl rfl⟩
      · exact ⟨.unsupported, by simp [Proc.onGraph, hm], .inr rfl⟩
    case some.snapWrite.refl id rest =>
      by_cases hm : id ∈ s.snaps
      · exact ⟨.valueError, by simp [Proc.onGraph, Proc.guarded, hs, hm], .inl rfl⟩
      · exact ⟨.unsupported, by simp [Proc.onGraph, hm], .inr rfl⟩

/-- Once the graph has been left, these uses are not refused: they have the outcome of the rest of
the call. -/
theorem C31_sealed_graphs_can_be_used (es : List Ev) (i : Nat)
    (h : beingDefined i (Proc.init.run es).2 = some false) (rest : Option Err) :
    ((Proc.init.run es).1.step (.read i rest)).2 = rest ∧
    ((Proc.init.run es).1.step (.write i rest)).2 = rest ∧
    ((Proc.init.run es).1.step (.build i rest)).2 = rest ∧
    ((Proc.init.run es).1.step (.snapshot i rest)).2 = rest := by
  have hI := linv_run es
  revert h hI
  generalize (Proc.init.run es).1 = s
  generalize (Proc.init.run es).2 = t
  intro h hI
  obtain ⟨g, hg⟩ := hI.existing i (by rw [h]; simp)
  have hst := (status_of hI hg).2 h
  have hs : g.sealed = .ok () := by simp [GObj.sealed, hst]
  obtain ⟨d, hd⟩ : ∃ d, g.dependencies.2 = .ok d := by
    rcases dependencies_cases g with ⟨d, -, h2⟩ | ⟨-, -, h3⟩ | ⟨-, h2, -⟩
    · exact ⟨d, by rw [h2]⟩
    · exact ⟨_, by rw [h3]⟩
    · exact absurd hst h2
  refine ⟨?_, ?_, ?_, ?_⟩
  · simp [Proc.step, Ev.id, hg, Proc.onGraph, Proc.guarded, hs]
  · simp [Proc.step, Ev.id, hg, Proc.onGraph, Proc.guarded, hs]
  · simp only [Proc.step, Ev.id, hg, Proc.onGraph, hs, Proc.fromGraph]
    obtain ⟨h1, -, h3⟩ := small_deps g
    cases hdg : g.dependencies with
    | mk g' r =>
      rw [hdg] at hd h1 h3
      cases hd
      cases rest with
      | some x => rfl
      | none =>
        have hget : get? (s.put i g').objs i = some g' := set_get
        simp only [hget]
        have hs' : g'.sealed = .ok () := by
          have := h1.status
          simp only at this
          simp [GObj.sealed, this, hst]
        have hd' : g'.dependencies = (g', .ok d) := by
          have := h3 d rfl
          simp only at this
          simp only [GObj.dependencies, this]
        simp only [Proc.runBuild, hd']
        split
        · cases ho : g'.outs <;> simp [GObj.producerOutputs, hs', ho]
        · rfl
  · simp only [Proc.step, Ev.id, hg, Proc.onGraph, hs, Proc.fromGraph]
    cases hdg : g.dependencies with
    | mk g' r =>
      rw [hdg] at hd
      cases hd
      cases rest <;> rfl

/-- Whatever goes through a snapshot (building, tagging, reading, writing), and taking a snapshot
by any means, raises unless the graph has been left at some time before. -/
theorem C31_no_snapshots_of_graphs_never_closed (es : List Ev) (u : Ev)
    (hu : usesSnapshot u = true) (h : ((Proc.init.run es).1.step u).2 = none) :
    (.leave u.id, none) ∈ (Proc.init.run es).2 := by
  have hI := linv_run es
  revert h hI
  generalize (Proc.init.run es).1 = s
  generalize (Proc.init.run es).2 = t
  intro h hI
  have hst : s.step u = match get? s.objs u.id with
      | none => (s, some .unsupported)
      | some g => s.onGraph g u := by
    cases u with
    | new id name tags items => cases hu
    | _ => rfl
  rw [hst] at h
  cases hg : get? s.objs u.id with
  | none => rw [hg] at h; cases h
  | some g =>
    rw [hg] at h
    have hfrom : ∀ id rest, (s.fromGraph id g rest).2 = none → get? s.objs id = some g →
        (.leave id, none) ∈ t := by
      intro id rest h hg
      unfold Proc.fromGraph at h
      rcases dependencies_cases g with ⟨d, h1, h2⟩ | ⟨-, h2, -⟩ | ⟨-, -, h3⟩
      · exact (hI.deps id g d hg h1).2
      · exact left_of_closed ((status_of hI hg).1 h2)
      · rw [h3] at h; cases h
    have hsnap : ∀ id (x : Proc × Option Err),
        (if id ∈ s.snaps then x else (s, some .unsupported)).2 = none → (.leave id, none) ∈ t := by
      intro id x h
      split at h
      · rename_i hm; exact hI.snaps id hm
      · cases h
    cases u <;> cases hu
    case some.snapshot.refl id rest =>
      simp only [Proc.onGraph] at h
      cases hs : g.sealed with
      | error e => rw [hs] at h; cases h
      | ok _ => rw [hs] at h; exact hfrom id rest h hg
    case some.fromGraph.refl id rest => exact hfrom id rest h hg
    case some.snapBuild.refl id rest => exact hsnap id _ h
    case some.snapTag.refl id rest => exact hsnap id _ h
    case some.snapRead.refl id rest => exact hsnap id _ h
    case some.snapWrite.refl id rest => exact hsnap id _ h

/-- While a graph is being defined, entering any graph raises and changes nothing: the open one
stays open. -/
theorem C31_one_graph_at_a_time (es : List Ev) (hw : WithBlocks (Proc.init.run es).2) (i j : Nat)
    (h : beingDefined i (Proc.init.run es).2 = some true) :
    ∃ e, (Proc.init.run es).1.step (.enter j) = ((Proc.init.run es).1, some e) ∧
      (e = .valueError ∨ e = .unsupported) := by
  have hctx := ((winv_run es hw).ctx i).2 h
  simp only [Proc.step, Ev.id]
  cases hg : get? (Proc.init.run es).1.objs j with
  | none => exact ⟨_, rfl, .inr rfl⟩
  | some g => exact ⟨.valueError, by simp [Proc.onGraph, hctx], .inl rfl⟩

/-- At most one graph is being defined. -/
theorem C31_at_most_one_open (es : List Ev) (hw : WithBlocks (Proc.init.run es).2) (i j : Nat)
    (hi : beingDefined i (Proc.init.run es).2 = some true)
    (hj : beingDefined j (Proc.init.run es).2 = some true) : i = j := by
  have h1 := ((winv_run es hw).ctx i).2 hi
  rw [((winv_run es hw).ctx j).2 hj] at h1
  exact (Option.some.inj h1).symm

/-- Leaving a graph, whatever happened before, does not raise, clears the context (any graph can be
entered) and closes the artifact box (every assignment raises and changes nothing). -/
theorem C31_leaving_closes (es : List Ev) (i : Nat) (g : GObj)
    (hg : get? (Proc.init.run es).1.objs i = some g) :
    ((Proc.init.run es).1.step (.leave i)).2 = none ∧
    (∀ j, (∃ g, get? (Proc.init.run es).1.objs j = some g) →
      (((Proc.init.run es).1.step (.leave i)).1.step (.enter j)).2 = none) ∧
    ∀ op : Box.Op Art, op.isAssign = true → ∃ e,
      ((Proc.init.run es).1.step (.leave i)).1.step (.box i op) =
        (((Proc.init.run es).1.step (.leave i)).1, some e) := by
  have hI := linv_run es
  revert hg hI
  generalize (Proc.init.run es).1 = s
  generalize (Proc.init.run es).2 = t
  intro hg hI
  have hk := step_kind s (.leave i)
  have hr := (linv_step hI hk).2 i rfl ⟨g, hg⟩
  refine ⟨hr, ?_⟩
  have hstep : ∃ g', (s.step (.leave i)).1 = { s.put i g' with ctx := none } ∧ g'.boxOpen = false := by
    rw [hr] at hk
    generalize (s.step (.leave i)).1 = s' at hk
    cases hk with
    | leave _ g r d hg' hd hr => exact ⟨_, rfl, rfl⟩
    | small _ g g' sn r hg' hs hc hsn => exact absurd (hc none) fun h => h
  obtain ⟨g', hs', hb⟩ := hstep
  rw [hs']
  constructor
  · rintro j ⟨gj, hj⟩
    simp only [Proc.step, Ev.id]
    have : ∃ x, get? (s.put i g').objs j = some x := by
      by_cases h : i = j
      · subst h; exact ⟨_, get_put_self⟩
      · exact ⟨gj, (get_put h).trans hj⟩
    obtain ⟨x, hx⟩ := this
    rw [hx]
    simp [Proc.onGraph]
  · intro op hop
    have hget : get? (s.put i g').objs i = some g' := get_put_self
    simp only [Proc.step, Ev.id, hget, Proc.onGraph, hb]
    obtain ⟨h1, h2⟩ := C12_closed_never_changes
      (castValue ({ s.put i g' with ctx := none } : Proc).ctxGraph) g'.data [op]
    obtain ⟨e, he⟩ := h2 0 op rfl hop
    simp only [List.map_cons, List.map_nil, Box.run, List.getElem?_cons_zero, Option.some.injEq]
      at h1 he
    refine ⟨e, ?_⟩
    rw [h1, he]
    simp only [Proc.put, Prod.mk.injEq, Proc.mk.injEq, and_true, true_and]
    have := put_self (s.put i g') (i := i) (g := g') hget
    have hg' : { g' with boxOpen := false } = g' := by rw [← hb]
    rw [hg']
    exact congrArg Proc.objs this

namespace Ex31

def info (n : Nat) : ArtInfo := ⟨n, false, .file ⟨"/d/{graph_name}/{names}/x".toList, false⟩⟩
def prodInfo : ArtInfo := ⟨2, false, .file ⟨"/d/{names}/{input_fingerprint}/x".toList, false⟩⟩
def artA : Art := .raw (info 0)
def artB : Art := .made prodInfo (.mk ['P'] ['1'] (.cons ['i'] artA .nil)) 0

/-- Graph 0 is defined, with a failed attempt to enter graph 1 in between, snapshotted, and entered
again to add an artifact. -/
def prog : List Ev :=
  [.new 0 ['g'] [] .nil, .new 1 ['h'] [] .nil, .read 0 none, .enter 0, .box 0 (.setItem ['a'] (.raw artA)),
    .enter 1, .snapshot 0 none, .leave 0, .box 0 (.setItem ['c'] (.raw artA)), .snapshot 0 none,
    .enter 0, .box 0 (.setItem ['b'] (.raw artB))]

example : (Proc.init.run prog).2.map Prod.snd = [none, none, some .valueError, none, none,
    some .valueError, some .valueError, none, some .valueError, none, none, none] := by
  decide +kernel

/-- Checking `WithBlocks`. -/
def blocksGo (pre : Trace) : Trace → Bool
  | [] => true
  | x :: t => (match x.1 with
    | .leave i => beingDefined i pre == some true
    | _ => true) && blocksGo (pre ++ [x]) t

theorem blocks_of_go {t : Trace} (h : blocksGo [] t = true) : WithBlocks t := by
  have key : ∀ (t pre : Trace), blocksGo pre t = true → ∀ l i r rest,
      t = l ++ (Ev.leave i, r) :: rest → beingDefined i (pre ++ l) = some true := by
    intro t
    induction t with
    | nil => intro pre _ l i r rest he; simp at he
    | cons x t ih =>
      intro pre h l i r rest he
      simp only [blocksGo, Bool.and_eq_true] at h
      cases l with
      | nil =>
        simp only [List.nil_append, List.cons.injEq] at he
        obtain ⟨rfl, rfl⟩ := he
        simpa using h.1
      | cons y l =>
        simp only [List.cons_append, List.cons.injEq] at he
        obtain ⟨rfl, rfl⟩ := he
        have := ih _ h.2 l i r rest rfl
        simpa using this
  intro l i r rest he
  simpa using key t [] h l i r rest he

theorem blocks : WithBlocks (Proc.init.run prog).2 := blocks_of_go (by decide +kernel)

example : ∃ e, (Proc.init.run (prog.take 5)).1.step (.write 0 none) =
    ((Proc.init.run (prog.take 5)).1, some e) ∧ (e = .valueError ∨ e = .unsupported) :=
  C31_unsealed_graphs_cannot_be_used (prog.take 5) _ rfl (by decide +kernel)

example : ((Proc.init.run (prog.take 8)).1.step (.build 0 none)).2 = none :=
  (C31_sealed_graphs_can_be_used (prog.take 8) 0 (by decide +kernel) none).2.2.1

example : (.leave 0, none) ∈ (Proc.init.run prog).2 :=
  C31_no_snapshots_of_graphs_never_closed prog (.snapTag 0 none) rfl (by decide +kernel)

example : ∃ e, (Proc.init.run prog).1.step (.enter 1) = ((Proc.init.run prog).1, some e) ∧
    (e = .valueError ∨ e = .unsupported) :=
  C31_one_graph_at_a_time prog blocks 0 1 (by decide +kernel)

example : 0 = 0 := C31_at_most_one_open prog blocks 0 0 (by decide +kernel) (by decide +kernel)

example : ∃ g, get? (Proc.init.run prog).1.objs 0 = some g ∧
    ((Proc.init.run prog).1.step (.leave 0)).2 = none := by
  cases hg : get? (Proc.init.run prog).1.objs 0 with
  | none =>
    have : (get? (Proc.init.run prog).1.objs 0).isSome = true := by decide +kernel
    rw [hg] at this; cases this
  | some g => exact ⟨g, rfl, (C31_leaving_closes prog 0 g hg).1⟩

end Ex31

/-- The checks do not cover snapshots: while a graph that was left before is being defined again,
its snapshots can be tagged and new ones can be taken with `GraphSnapshot.from_graph`, although
`Graph.snapshot` raises. -/
theorem C31_reopened_graphs_can_be_tagged : ∃ es : List Ev,
    WithBlocks (Proc.init.run es).2 ∧ beingDefined 0 (Proc.init.run es).2 = some true ∧
    ((Proc.init.run es).1.step (.snapTag 0 none)).2 = none ∧
    ((Proc.init.run es).1.step (.fromGraph 0 none)).2 = none ∧
    ((Proc.init.run es).1.step (.snapshot 0 none)).2 = some .valueError :=
  ⟨Ex31.prog, Ex31.blocks, by decide +kernel, by decide +kernel, by decide +kernel,
    by decide +kernel⟩

/-! ## C32 -/

/-- The dependencies mention every artifact with its producer, and every producer with its
inputs. -/
def Covers (d : List (Nd × List Nd)) (arts : List (Str × Art)) : Prop :=
  ∀ k a, (k, a) ∈ arts →
    (∃ ps, (Nd.art a, ps) ∈ d ∧ ∀ p pos, a.out = some (p, pos) → Nd.pdr p ∈ ps) ∧
    ∀ p pos, a.out = some (p, pos) →
      ∃ ps, (Nd.pdr p, ps) ∈ d ∧ ∀ n x, (n, x) ∈ p.inputs → Nd.art x ∈ ps

theorem covers_dependencies (g : Graph) : Covers g.dependencies g.arts := by
  intro k a hk
  refine ⟨⟨Graph.artPreds a, (Graph.mem_dependencies g _ _).2 (.inl ⟨k, a, hk, rfl, rfl⟩), ?_⟩, ?_⟩
  · intro p pos ho
    simp [Graph.artPreds, ho]
  · intro p pos ho
    cases a with
    | raw i => cases ho
    | made i q pos' =>
      cases ho
      refine ⟨Graph.pdrPreds p, (Graph.mem_dependencies g _ _).2 (.inr ⟨k, i, p, pos, hk, rfl, rfl⟩),
        ?_⟩
      intro n x hx
      exact List.mem_map.2 ⟨(n, x), hx, rfl⟩

/-- If the graph was entered once and has been left, its dependencies cover every artifact that it
holds.  Missing: graphs that were entered several times, for which it does not hold. -/
theorem C32_entered_once_partial (es : List Ev) (hw : WithBlocks (Proc.init.run es).2) (i : Nat)
    (h : beingDefined i (Proc.init.run es).2 = some false)
    (hone : timesEntered i (Proc.init.run es).2 ≤ 1) :
    ∃ g d, get? (Proc.init.run es).1.objs i = some g ∧ g.dependencies.2 = .ok d ∧
      Covers d (Box.walk g.data) := by
  have hI := linv_run es
  obtain ⟨g, d, hg, hd⟩ := hI.left i (left_of_closed h)
  have := ((winv_run es hw).once i g d hg hd hone).2
  refine ⟨g, d, hg, by simp [GObj.dependencies, hd], ?_⟩
  rw [this]
  exact covers_dependencies g.graph

example : ∃ g d, get? (Proc.init.run (Ex31.prog.take 10)).1.objs 0 = some g ∧
    g.dependencies.2 = .ok d ∧ Covers d (Box.walk g.data) :=
  C32_entered_once_partial (Ex31.prog.take 10) (Ex31.blocks_of_go (by decide +kernel)) 0
    (by decide +kernel) (by decide +kernel)

theorem deps_kept {s s' : Proc} {e : Ev} {r : Option Err} (hk : Kind s e s' r) {i : Nat} {g : GObj}
    {d} (hg : get? s.objs i = some g) (hd : g.deps = some d) :
    ∃ g', get? s'.objs i = some g' ∧ g'.deps = some d := by
  cases hk with
  | none => exact ⟨g, hg, hd⟩
  | new id name tags items d' hn =>
    have h : id ≠ i := by rintro rfl; rw [hn] at hg; cases hg
    exact ⟨g, (get_put h).trans hg, hd⟩
  | enter id g1 hg1 hctx =>
    by_cases h : id = i
    · subst h
      rw [hg] at hg1
      cases hg1
      exact ⟨_, get_put_self, hd⟩
    · exact ⟨g, (get_put h).trans hg, hd⟩
  | leave id g1 r d' hg1 hd' hr =>
    by_cases h : id = i
    · subst h
      rw [hg] at hg1
      cases hg1
      refine ⟨_, get_put_self, ?_⟩
      rcases hd' with hd' | ⟨hd', -⟩
      · rw [← hd, hd']
      · rw [hd] at hd'; cases hd'
    · exact ⟨g, (get_put h).trans hg, hd⟩
  | small e g1 g' sn r hg1 hs hc hsn =>
    by_cases h : e.id = i
    · subst h
      rw [hg] at hg1
      cases hg1
      refine ⟨g', get_put_self, ?_⟩
      rcases hs.deps with h1 | ⟨h1, -⟩
      · rw [h1, hd]
      · rw [hd] at h1; cases h1
    · exact ⟨g, (get_put h).trans hg, hd⟩

/-- Once the graph has been left, its dependencies never change, whatever is added to the graph
later. -/
theorem C32_violated_dependencies_never_change (es fs : List Ev) (i : Nat)
    (h : (.leave i, none) ∈ (Proc.init.run es).2) :
    ∃ g g' d, get? (Proc.init.run es).1.objs i = some g ∧
      get? (Proc.init.run (es ++ fs)).1.objs i = some g' ∧
      g.dependencies.2 = .ok d ∧ g'.dependencies.2 = .ok d := by
  obtain ⟨g, d, hg, hd⟩ := (linv_run es).left i h
  have key : ∀ fs, ∃ g', get? (Proc.init.run (es ++ fs)).1.objs i = some g' ∧ g'.deps = some d := by
    intro fs
    induction fs using snoc_cases with
    | h0 => exact ⟨g, by simpa using hg, hd⟩
    | h1 fs e ih =>
      obtain ⟨g', h1, h2⟩ := ih
      rw [← List.append_assoc, run_snoc]
      exact deps_kept (step_kind _ e) h1 h2
  obtain ⟨g', h1, h2⟩ := key fs
  exact ⟨g, g', d, hg, h1, by simp [GObj.dependencies, hd], by simp [GObj.dependencies, h2]⟩

/-- The dependencies of a graph object, for `decide`. -/
def depsAt (s : Proc) (i : Nat) : Option (List (Nd × List Nd)) := (get? s.objs i).bind (·.deps)

/-- Whether a graph object holds an artifact under a key, for `decide`. -/
def holdsAt (s : Proc) (i : Nat) (k : Str) (a : Art) : Option Bool :=
  (get? s.objs i).map fun g => decide ((k, a) ∈ Box.walk g.data)

namespace Ex31

def prog' : List Ev := prog ++ [.leave 0]

/-- The artifacts as the graph holds them. -/
def heldA : Art := .raw { info 0 with sto := .file ⟨"/d/g/a/x".toList, false⟩ }
def heldB : Art := .made { prodInfo with sto := .file ⟨"/d/b/{input_fingerprint}/x".toList, false⟩ }
  (.mk ['P'] ['1'] (.cons ['i'] artA .nil)) 0

end Ex31

/-- A produced artifact that is added to a graph that is entered a second time is in the graph
after it is left, but not in its dependencies, so it is never built. -/
theorem C32_violated_by_reentering : ∃ es : List Ev, ∃ g d a,
    WithBlocks (Proc.init.run es).2 ∧ beingDefined 0 (Proc.init.run es).2 = some false ∧
    get? (Proc.init.run es).1.objs 0 = some g ∧ g.dependencies.2 = .ok d ∧
    (['b'], a) ∈ Box.walk g.data ∧ a.out ≠ none ∧ (∀ x ∈ d, x.1 ≠ .art a) ∧
    ¬ Covers d (Box.walk g.data) := by
  have h1 : depsAt (Proc.init.run Ex31.prog').1 0 = some [(.art Ex31.heldA, [])] := by decide +kernel
  have h2 : holdsAt (Proc.init.run Ex31.prog').1 0 ['b'] Ex31.heldB = some true := by decide +kernel
  have h3 : WithBlocks (Proc.init.run Ex31.prog').2 := Ex31.blocks_of_go (by decide +kernel)
  have h4 : beingDefined 0 (Proc.init.run Ex31.prog').2 = some false := by decide +kernel
  have hne : Nd.art Ex31.heldB ≠ Nd.art Ex31.heldA := by decide +kernel
  refine ⟨Ex31.prog', ?_⟩
  revert h1 h2 h3 h4
  generalize (Proc.init.run Ex31.prog').1 = s
  generalize (Proc.init.run Ex31.prog').2 = t
  intro h1 h2 h3 h4
  cases hg : get? s.objs 0 with
  | none => simp [depsAt, hg] at h1
  | some g =>
    simp only [depsAt, hg, Option.bind_some] at h1
    simp only [holdsAt, hg, Option.map_some, Option.some.injEq, decide_eq_true_eq] at h2
    refine ⟨g, _, Ex31.heldB, h3, h4, rfl, by simp only [GObj.dependencies, h1]; rfl, h2,
      by simp [Ex31.heldB, Art.out], ?_, ?_⟩
    · intro x hx
      rw [List.mem_singleton.1 hx]
      exact hne.symm
    · intro hc
      obtain ⟨⟨ps, h5, -⟩, -⟩ := hc _ _ h2
      exact hne (congrArg Prod.fst (List.mem_singleton.1 h5))

/-- **C45**, the outputs that `graph.producer_outputs` lists: for each producer of an artifact in the
graph, artifacts of the graph that this producer makes, one for each of its positions that are in the
graph, in the order of positions. -/
theorem C45_outputs_are_listed_by_position {g : GObj} (h0 : g.outs = none)
    {o : PyDict Pdr (List Art)} (ho : g.producerOutputs.2 = .ok o) :
    (∀ p, p ∈ keys o ↔ ∃ k i pos, (k, Art.made i p pos) ∈ g.graph.arts) ∧
    ∀ p as, (p, as) ∈ o → ∃ positions : List Nat,
      positions.length = as.length ∧ positions.Pairwise (· < ·) ∧
      (∀ pos, pos ∈ positions ↔ ∃ k i, (k, Art.made i p pos) ∈ g.graph.arts) ∧
      ∀ (n : Nat) pos a, positions[n]? = some pos → as[n]? = some a →
        ∃ k i, a = .made i p pos ∧ (k, a) ∈ g.graph.arts := by
  have ho : o = allOutputs g.graph := by
    unfold GObj.producerOutputs at ho
    rw [h0] at ho
    cases hs : g.sealed with
    | error e => rw [hs] at ho; cases ho
    | ok _ => rw [hs] at ho; cases ho; rfl
  subst ho
  refine ⟨fun p => ?_, fun p as hp => ?_⟩
  · have : keys (allOutputs g.graph) =
        keys (ofItems (g.graph.arts.filterMap fun (_, a) => a.out.map fun (p, _) => (p, ()))) := by
      simp [allOutputs, keys]
    rw [this, mem_keys_ofItems]
    constructor
    · intro h
      obtain ⟨⟨q, u⟩, h1, rfl⟩ := List.mem_map.1 h
      obtain ⟨⟨k, a⟩, h2, h3⟩ := List.mem_filterMap.1 h1
      cases a with
      | raw i => cases h3
      | made i q' pos => cases h3; exact ⟨k, i, pos, h2⟩
    · rintro ⟨k, i, pos, h⟩
      exact List.mem_map.2 ⟨(p, ()), List.mem_filterMap.2 ⟨_, h, rfl⟩, rfl⟩
  · obtain ⟨⟨q, u⟩, -, h1⟩ := List.mem_map.1 hp
    cases h1
    have hperm : ((Graph.sortPos (g.graph.outputsByPos p)).map Prod.fst).Perm
        (keys (g.graph.outputsByPos p)) := (Graph.sortPos_perm _).map _
    refine ⟨(Graph.sortPos (g.graph.outputsByPos p)).map Prod.fst, by simp, ?_, ?_, ?_⟩
    · have h1 : ((Graph.sortPos (g.graph.outputsByPos p)).map Prod.fst).Pairwise (· ≤ ·) :=
        List.pairwise_map.2 (Graph.sortPos_sorted _)
      exact (h1.and (hperm.nodup_iff.2 (nodup_keys_ofItems _))).imp
        fun h => Nat.lt_of_le_of_ne h.1 h.2
    · intro pos
      rw [hperm.mem_iff]
      constructor
      · intro h
        obtain ⟨⟨pos', a⟩, h2, rfl⟩ := List.mem_map.1 h
        obtain ⟨k, i, rfl, h3⟩ := Graph.mem_outputsByPos h2
        exact ⟨k, i, h3⟩
      · rintro ⟨k, i, h⟩
        exact Graph.mem_keys_outputsByPos h
    · intro n pos a hn ha
      rw [List.getElem?_map] at hn ha
      cases hx : (Graph.sortPos (g.graph.outputsByPos p))[n]? with
      | none => rw [hx] at hn; cases hn
      | some x =>
        rw [hx] at hn ha
        cases hn
        cases ha
        exact Graph.mem_outputsByPos ((Graph.sortPos_perm _).mem_iff.1 (List.mem_of_getElem? hx))

/-- The second output of a producer is assigned before the first one; both are listed by position. -/
example :
    let p : Pdr := .mk ['P'] ['1'] (.cons ['i'] Ex31.artA .nil)
    let y : Art := .made Ex31.prodInfo p 0
    let z : Art := .made Ex31.prodInfo p 1
    (GObj.producerOutputs ⟨['g'], [], some .closed, [(['z'], .leaf z), (['y'], .leaf y)], false, [],
      none, none⟩).2 = .ok [(p, [y, z])] := by
  decide +kernel

end Arti.Props
