import Verif.Props.Resume
import Verif.Lemmas.Footprint
import Verif.Examples.Separate

/-!
# The order of a build does not matter, for any number of outputs (C43)
-/

namespace Arti.Props
open Arti PyDict World Spec M
variable {κ D : Type} [DecidableEq κ] {env : Env κ D} {gs : Graph → Prop}

/-- The order that the executor uses lists every node once. -/
theorem C43_executor_lists_nodes_once {g : Graph} {order : List Nd}
    (h : Topo.staticOrder g.dependencies = .ok order) : order.Nodup :=
  (C27_order_respects_dependencies _ _ h).1

private theorem order_same {σ : Snapshot} (hk : (keys σ.graph.arts).Nodup) (hi : IterOk env)
    (hsep : Separate env σ.graph) (hsel : Selects env σ.graph) {s : St κ D} (hb : s.budget = none)
    (hin : InPlace env (fun g => g = σ.graph) s) {o1 o2 : List Nd}
    (ho1 : IsSchedule σ.graph o1) (ho2 : IsSchedule σ.graph o2) (hn1 : o1.Nodup) (hn2 : o2.Nodup)
    {s1 : St κ D} (h1 : buildOrder env σ o1 s = (.ok (), s1)) :
    ∃ s2, buildOrder env σ o2 s = (.ok (), s2) ∧
      (∀ path, get? s1.files path = get? s2.files path) ∧
      (∀ sto, get? s1.storage sto = get? s2.storage sto) ∧
      (∀ x, get? s1.links x = get? s2.links x) ∧
      (∀ p, (s1.calls.filter fun c => c.1 = p) = s2.calls.filter fun c => c.1 = p) ∧
      s1.graphs = s2.graphs ∧ s1.snapshots = s2.snapshots ∧ s1.tags = s2.tags := by
  obtain ⟨v, e1, e2, e3⟩ := mid_run hsep hk hi hsel hb hin ho1 hn1 h1 o1 [] (by simp)
  rw [h1] at e1
  simp only [Prod.mk.injEq, true_and] at e1
  subst e1
  obtain ⟨s2, d1, d2⟩ := mid_other hsep hk hi hsel hb hin ho1 hn1 h1 ho2 hn2 o2 [] (by simp)
  exact ⟨s2, d1, e3.ends ho1 ho2 d2⟩

/-- **C43**: whatever happened before, and for producers with any number of outputs, two orders of
the producers of a graph that respect the dependencies give the same result, if nothing interrupts
the executor and the outputs of different producers are kept apart.  If one succeeds then so does the
other one, the same files with the same contents exist, the backend knows the same partitions of all
storages and has the same links for all snapshots, every read gives the same value, and the calls of
`build` of each producer are the same and come in the same order. -/
theorem C43_result_does_not_depend_on_order {σ : Snapshot} (hk : (keys σ.graph.arts).Nodup)
    (hi : IterOk env) (hsep : Separate env σ.graph) (hsel : Selects env σ.graph) {s : St κ D}
    (hin : InPlace env (fun g => g = σ.graph) s) {o1 o2 : List Nd}
    (ho1 : IsSchedule σ.graph o1) (ho2 : IsSchedule σ.graph o2) (hn1 : o1.Nodup) (hn2 : o2.Nodup)
    {r1 r2 : Except Err Unit} {s1 s2 : St κ D}
    (h1 : buildOrder env σ o1 { s with budget := none } = (r1, s1))
    (h2 : buildOrder env σ o2 { s with budget := none } = (r2, s2)) :
    (r1 = .ok () ↔ r2 = .ok ()) ∧
    (r1 = .ok () →
      (∀ path, get? s1.files path = get? s2.files path) ∧
      (∀ sto, get? s1.storage sto = get? s2.storage sto) ∧
      (∀ τ k, get? s1.links (τ, k) = get? s2.links (τ, k)) ∧
      (∀ τ a view, (readSnapshotData env τ a view s1).1 = (readSnapshotData env τ a view s2).1) ∧
      (∀ p, (s1.calls.filter fun c => c.1 = p) = s2.calls.filter fun c => c.1 = p) ∧
      s1.graphs = s2.graphs ∧ s1.snapshots = s2.snapshots ∧ s1.tags = s2.tags) := by
  have hin' : InPlace env (fun g => g = σ.graph) ({ s with budget := none } : St κ D) :=
    ⟨hin.known, hin.linked⟩
  constructor
  · constructor
    · rintro rfl
      obtain ⟨s3, h3, -⟩ := order_same hk hi hsep hsel rfl hin' ho1 ho2 hn1 hn2 h1
      rw [h2] at h3
      exact (Prod.mk.inj h3).1
    · rintro rfl
      obtain ⟨s3, h3, -⟩ := order_same hk hi hsep hsel rfl hin' ho2 ho1 hn2 hn1 h2
      rw [h1] at h3
      exact (Prod.mk.inj h3).1
  · rintro rfl
    obtain ⟨s3, h3, e1, e2, e3, e4, e5⟩ := order_same hk hi hsep hsel rfl hin' ho1 ho2 hn1 hn2 h1
    rw [h2] at h3
    obtain rfl := (Prod.mk.inj h3).2
    refine ⟨e1, e2, fun τ k => e3 _, fun τ a view => ?_, e4, e5⟩
    simp only [readSnapshotData, run_bind, M.need]
    cases τ.graph.keyOf a with
    | none => rfl
    | some k =>
      simp only [readSnapshotPartitions, run_gets, run_lift, e3 (τ, k), ioRead]
      rw [contents_agree fun sn _ path _ => e1 path]

/-- The condition on the state holds in every history: files are written and deleted by others,
processes are interrupted and restarted, snapshots are taken, built, built again and tagged, and
other code reads through the backend. -/
theorem C43_condition_holds_in_every_history (hk : ∀ g, gs g → (keys g.arts).Nodup)
    (hi : IterOk env) {s : St κ D} (hs : Reach env gs s) {g : Graph} (hg : gs g) :
    InPlace env (fun g' => g' = g) s :=
  (hs.inPlace hk hi).mono (by rintro _ rfl; exact hg)

/-- **C43** for the executor: building a snapshot gives the same as building its producers in any
other order that respects the dependencies. -/
theorem C43_executor_gives_the_same_as_any_order (hk : ∀ g, gs g → (keys g.arts).Nodup)
    (hi : IterOk env) {s : St κ D} (hs : Reach env gs s) {σ : Snapshot} (hg : gs σ.graph)
    (hsep : Separate env σ.graph) (hsel : Selects env σ.graph) {s1 : St κ D}
    (h1 : World.build env σ { s with budget := none } = (.ok (), s1)) {o : List Nd}
    (ho : IsSchedule σ.graph o) (hn : o.Nodup) :
    ∃ s2, buildOrder env σ o { s with budget := none } = (.ok (), s2) ∧
      (∀ path, get? s1.files path = get? s2.files path) ∧
      (∀ τ k, get? s1.links (τ, k) = get? s2.links (τ, k)) ∧
      ∀ τ a view, (readSnapshotData env τ a view s1).1 = (readSnapshotData env τ a view s2).1 := by
  simp only [World.build, run_bind, run_lift] at h1
  cases hord : Topo.staticOrder σ.graph.dependencies with
  | error e => rw [hord] at h1; simp at h1
  | ok order =>
    rw [hord] at h1
    simp only at h1
    cases h2 : buildOrder env σ o { s with budget := none } with
    | mk r2 s2 =>
      obtain ⟨e1, e2⟩ := C43_result_does_not_depend_on_order (hk _ hg) hi hsep hsel
        (C43_condition_holds_in_every_history hk hi hs hg) (C43_executor_uses_a_schedule hord) ho
        (C43_executor_lists_nodes_once hord) hn h1 h2
      obtain ⟨e3, -, e4, e5, -⟩ := e2 rfl
      have := e1.1 rfl
      subst this
      exact ⟨s2, rfl, e3, e4, e5⟩

/-! ### A case that meets the hypotheses: two producers with two outputs each, and one that reads
outputs of both -/

namespace Ex43b
open Ex

def x : Art := .raw ⟨0, false, .file ⟨"a".toList, false⟩⟩
def p : Pdr := .mk ['T'] ['1'] (.cons ['x'] x .nil)
def y : Art := .made ⟨0, false, .file ⟨"b{input_fingerprint}".toList, false⟩⟩ p 0
def z : Art := .made ⟨0, false, .file ⟨"c{input_fingerprint}".toList, false⟩⟩ p 1
def q : Pdr := .mk ['T'] ['2'] (.cons ['x'] x .nil)
def v : Art := .made ⟨0, false, .file ⟨"d{input_fingerprint}".toList, false⟩⟩ q 0
def w : Art := .made ⟨0, false, .file ⟨"e{input_fingerprint}".toList, false⟩⟩ q 1
def r : Pdr := .mk ['A'] ['1'] (.cons ['x'] w .nil)
def o : Art := .made ⟨0, false, .file ⟨"f{input_fingerprint}".toList, false⟩⟩ r 0
def g : Graph :=
  ⟨['g'], [(['x'], x), (['y'], y), (['z'], z), (['v'], v), (['w'], w), (['o'], o)], []⟩
def s0 : St Nat Str := ⟨[(['a'], ['u'])], [], [], [], [], [], none, [], [], []⟩
def s : St Nat Str := (fromGraph Ex.env g s0).2
def σ : Snapshot := ((fromGraph Ex.env g s0).1.toOption).getD ⟨0, g⟩
def o1 : List Nd := [.pdr p, .pdr q, .pdr r]
def o2 : List Nd := [.art x, .pdr q, .pdr r, .art o, .pdr p]
def s1 : St Nat Str := (buildOrder Ex.env σ o1 { s with budget := none }).2
def s2 : St Nat Str := (buildOrder Ex.env σ o2 { s with budget := none }).2

theorem graph_eq : σ.graph = g := by decide +kernel

theorem run1 : buildOrder Ex.env σ o1 { s with budget := none } = (.ok (), s1) := by
  have : (buildOrder Ex.env σ o1 { s with budget := none }).1 = .ok () := by decide +kernel
  exact Prod.ext this (by rw [s1])

def res2 : Except Err Unit := (buildOrder Ex.env σ o2 { s with budget := none }).1

theorem run2 : buildOrder Ex.env σ o2 { s with budget := none } = (res2, s2) :=
  Prod.ext (by rw [res2]) (by rw [s2])

theorem reach : Reach Ex.env (· ∈ [g]) s := by
  refine .step (HOp.snapshot g none) (.init [(['a'], ['u'])] none fun path hp => ?_)
    (List.mem_singleton.2 rfl)
  have : path = ['a'] := by
    by_contra h
    refine hp ?_
    simp only [get?]
    rw [if_neg (fun e => h e.symm)]
  subst this
  exact not_produced _ _ (by decide +kernel)

/-- The files were written in different orders, but the results are the same. -/
example : (∀ path, get? s1.files path = get? s2.files path) ∧ keys s1.files ≠ keys s2.files ∧
    (readSnapshotData Ex.env σ o 0 s2).1 = .ok "ut1".toList := by
  have hk : ∀ g', g' ∈ [g] → (keys g'.arts).Nodup := by
    intro g' h; rw [List.mem_singleton.1 h]; decide +kernel
  have h := (C43_result_does_not_depend_on_order (σ := σ) (by rw [graph_eq]; decide +kernel) iterOk
    (by rw [graph_eq]; exact separate g (by decide +kernel)) (selects _)
    (C43_condition_holds_in_every_history hk iterOk reach
      (by rw [graph_eq]; exact List.mem_singleton.2 rfl))
    (schedule _ o1 (by decide +kernel)) (schedule _ o2 (by decide +kernel)) (by decide +kernel)
    (by decide +kernel) run1 run2).2 rfl
  exact ⟨h.1, by decide +kernel, by decide +kernel⟩

end Ex43b

/-! ### Why outputs must be kept apart -/

namespace Ex43c
open Ex

def x : Art := .raw ⟨0, false, .file ⟨"a".toList, false⟩⟩
def p : Pdr := .mk ['A'] ['1'] (.cons ['x'] x .nil)
def q : Pdr := .mk ['A'] ['2'] (.cons ['x'] x .nil)
def sto : Sto := .file ⟨"b{input_fingerprint}".toList, false⟩
def y : Art := .made ⟨0, false, sto⟩ p 0
def z : Art := .made ⟨0, false, sto⟩ q 0
def g : Graph := ⟨['g'], [(['x'], x), (['y'], y), (['z'], z)], []⟩
def s0 : St Nat Str := ⟨[(['a'], ['u'])], [], [], [], [], [], none, [], [], []⟩

/-- The graph has been built, the process is restarted, and a snapshot is taken. -/
def again : St Nat Str :=
  (fromGraph Ex.env g ((HOp.restart fun _ => true).run Ex.env (graphBuild Ex.env g s0).2)).2

def σ : Snapshot := ((graphBuild Ex.env g s0).1.toOption).getD ⟨0, g⟩

def callsOf (o : List Nd) : Except Err Unit × List (Pdr × Nat) :=
  let r := buildOrder Ex.env σ o { again with calls := [] }
  (r.1, r.2.calls)

end Ex43c

/-- **C43** needs the outputs of different producers to be kept apart: if two producers share a
storage, then which of them is run again in a new process depends on the order, although the outputs
of both exist. -/
theorem C43_violated_by_shared_storages :
    Ex43c.callsOf [.pdr Ex43c.p, .pdr Ex43c.q] = (.ok (), [(Ex43c.q, 0)]) ∧
    Ex43c.callsOf [.pdr Ex43c.q, .pdr Ex43c.p] = (.ok (), [(Ex43c.p, 0)]) := by
  refine ⟨?_, ?_⟩ <;> decide +kernel

end Arti.Props
