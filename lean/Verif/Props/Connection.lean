import Verif.Model.Connection
import Verif.Props.Read
import Verif.Props.Build

/-!
# C78: explicit connections

A call with a connection works on the backend of that connection, and on no other.
-/

namespace Arti

/-- Calls that use only the connection they are given: not `build`, which takes none, and not
`graph.read` of a produced artifact without a snapshot. -/
def Call.Explicit {κ D : Type} : Call κ D → Prop
  | .build _ => False
  | .readGraph _ (.made _ _ _) _ => False
  | _ => True

namespace Props
open PyDict World M Spec

variable {κ D : Type} [DecidableEq κ] {env : Env κ D}

omit [DecidableEq κ] in
@[simp] theorem St.withBk_bk (s : St κ D) : s.withBk s.bk = s := rfl
omit [DecidableEq κ] in
@[simp] theorem St.bk_withBk (s : St κ D) (b : Bk κ) : (s.withBk b).bk = b := rfl
omit [DecidableEq κ] in
@[simp] theorem St.withBk_withBk (s : St κ D) (b c : Bk κ) :
    (s.withBk b).withBk c = s.withBk c := rfl

omit [DecidableEq κ] in
private theorem map_via {α β : Type} (m : M κ D α) (f : α → β) (t : Two κ D) :
    Two.andThen (Two.via true m) (fun a t => (Except.ok (f a), t)) t =
      (let x := (do return f (← m) : M κ D β) (t.st.withBk t.other)
       (x.1, (⟨x.2.withBk t.st.bk, x.2.bk⟩ : Two κ D))) := by
  simp only [Two.andThen, Two.via, if_true, Two.onOther, M.run_bind]
  cases m (t.st.withBk t.other) with
  | mk r s => cases r <;> rfl

omit [DecidableEq κ] in
private theorem map_own {α β : Type} (m : M κ D α) (f : α → β) (t : Two κ D) :
    Two.andThen (Two.via false m) (fun a t => (Except.ok (f a), t)) t =
      (let x := (do return f (← m) : M κ D β) t.st
       (x.1, (⟨x.2, t.other⟩ : Two κ D))) := by
  simp only [Two.andThen, Two.via, Bool.false_eq_true, if_false, Two.onOwn, M.run_bind]
  cases m t.st with
  | mk r s => cases r <;> rfl

/-- One call with a connection. -/
theorem run_explicit {c : Call κ D} (h : c.Explicit) (t : Two κ D) :
    c.run env true t =
      ((c.alone env (t.st.withBk t.other)).1,
        ⟨(c.alone env (t.st.withBk t.other)).2.withBk t.st.bk,
          (c.alone env (t.st.withBk t.other)).2.bk⟩) := by
  cases c with
  | snapshot g => exact map_via _ _ _
  | tag σ tg ov => exact map_via _ (fun _ => Ret.none) _
  | fromTag n tg => exact map_via _ _ _
  | write g σ d a fp pk view => exact map_via _ _ _
  | read σ a view => exact map_via _ _ _
  | build σ => exact absurd h (by simp [Call.Explicit])
  | readGraph g a view =>
    cases a with
    | made i p pos => exact absurd h (by simp [Call.Explicit])
    | raw i =>
      simp only [Call.run, Call.alone, Two.andThen, Call.readGraphVia, graphRead, M.run_bind, M.need]
      cases g.keyOf (.raw i) with
      | none => rfl
      | some k =>
        simp only [Two.onOwn, M.run_bind, M.run_gets, M.run_lift, St.withBk]
        cases discover env t.st.files i.sto [] with
        | error e => rfl
        | ok ps =>
          simp only
          cases ioRead env t.st.files i view ps <;> rfl

/-- **C78.** Any sequence of calls with an explicit connection (and explicit snapshots) returns and
raises what it would on a graph that has the backend of the connection as its own, has the same
effect on the files and on that backend, and leaves the backend of the graph as it is.  Partial: not
for `build`, which ignores the connection, nor for `graph.read` of produced artifacts without a
snapshot, which takes one in the backend of the graph. -/
theorem C78_calls_use_their_connection_partial (cs : List (Call κ D))
    (h : ∀ c ∈ cs, c.Explicit) (t : Two κ D) :
    let here := Call.runAll env (cs.map fun c => (true, c)) t
    let there := Call.aloneAll env cs (t.st.withBk t.other)
    here.1 = there.1 ∧ here.2.other = there.2.bk ∧ here.2.st.bk = t.st.bk ∧
      here.2.st.files = there.2.files := by
  suffices H : ∀ t : Two κ D, Call.runAll env (cs.map fun c => (true, c)) t =
      ((Call.aloneAll env cs (t.st.withBk t.other)).1,
        ⟨(Call.aloneAll env cs (t.st.withBk t.other)).2.withBk t.st.bk,
          (Call.aloneAll env cs (t.st.withBk t.other)).2.bk⟩) by
    simp only [H]
    exact ⟨trivial, trivial, rfl, rfl⟩
  induction cs with
  | nil => intro t; rfl
  | cons c cs ih =>
    intro t
    simp only [List.map_cons, Call.runAll, Call.aloneAll]
    rw [run_explicit (h c (by simp)) t]
    simp only
    rw [ih (fun c hc => h c (List.mem_cons_of_mem _ hc))]
    rfl

/-- **C78.** Any sequence of calls without a connection returns, raises and does what it would if
there were no other backend, and leaves other backends as they are. -/
theorem C78_no_connection_is_the_own_backend (cs : List (Call κ D)) (t : Two κ D) :
    Call.runAll env (cs.map fun c => (false, c)) t =
      ((Call.aloneAll env cs t.st).1, ⟨(Call.aloneAll env cs t.st).2, t.other⟩) := by
  have one : ∀ (c : Call κ D) (t : Two κ D), c.run env false t =
      ((c.alone env t.st).1, ⟨(c.alone env t.st).2, t.other⟩) := by
    intro c t
    cases c with
    | snapshot g => exact map_own _ _ _
    | tag σ tg ov => exact map_own _ (fun _ => Ret.none) _
    | fromTag n tg => exact map_own _ _ _
    | write g σ d a fp pk view => exact map_own _ _ _
    | read σ a view => exact map_own _ _ _
    | build σ => exact map_own (World.build env σ) (fun _ => Ret.none) t
    | readGraph g a view =>
      simp only [Call.run, Call.alone, Two.andThen, Call.readGraphVia, graphRead, M.run_bind, M.need]
      cases g.keyOf a with
      | none => rfl
      | some k =>
        cases a with
        | raw i =>
          simp only [Two.onOwn, M.run_bind, M.run_gets, M.run_lift]
          cases discover env t.st.files i.sto [] with
          | error e => rfl
          | ok ps =>
            simp only
            cases ioRead env t.st.files i view ps <;> rfl
        | made i p pos =>
          simp only [Two.onOwn, Two.via, Bool.false_eq_true, if_false]
          rw [M.run_bind]
          cases fromGraph env g t.st with
          | mk r s =>
            cases r with
            | error e => rfl
            | ok σ =>
              simp only
              cases readSnapshotData env σ (.made i p pos) view s with
              | mk r s => cases r <;> rfl
  induction cs generalizing t with
  | nil => rfl
  | cons c cs ih =>
    simp only [List.map_cons, Call.runAll, Call.aloneAll, one, ih]

/-! ## Reading without a snapshot -/

omit [DecidableEq κ] in
private theorem effect_links {f : St κ D → St κ D} {P : St κ D → Prop} (h0 : ∀ s b, P s → P { s with budget := b })
    (hf : ∀ s, P s → P (f s)) {s : St κ D} (hs : P s) : P (M.effect f s).2 := by
  unfold M.effect
  split
  · exact hf _ hs
  · exact hs
  · exact h0 _ _ (hf _ hs)

private theorem linkAll_frame {σ τ : Snapshot} {key : Str} {o : Option (List (PSnap κ))} :
    ∀ (known : PyDict Str (List (PSnap κ))), key ∉ keys known → ∀ s : St κ D,
      get? s.links (τ, key) = o → get? (linkAll σ known s).2.links (τ, key) = o
  | [], _, s, h => h
  | (k, ps) :: known, hk, s, h => by
    simp only [keys, List.map_cons, List.mem_cons, not_or] at hk
    unfold linkAll
    simp only [M.run_bind, writeArtifactAndGraphPartitions]
    cases σ.graph.artAt k with
    | none => exact h
    | some a =>
      simp only [M.need]
      have h1 : get? (writeArtifactPartitions (D := D) a ps s).2.links (τ, key) = o := by
        unfold writeArtifactPartitions
        exact effect_links (P := fun s : St κ D => get? s.links (τ, key) = o)
          (fun _ _ h => h) (fun _ h => by exact h) h
      cases hw : writeArtifactPartitions (D := D) a ps s with
      | mk r s1 =>
        rw [hw] at h1
        cases r with
        | error e => exact h1
        | ok u =>
          simp only
          have h2 : get? (writeSnapshotPartitions (D := D) σ k ps s1).2.links (τ, key) = o :=
            effect_links (P := fun s : St κ D => get? s.links (τ, key) = o)
              (fun _ _ h => h) (fun s h => by
                simp only [get?_set, Prod.mk.injEq]
                rw [if_neg (fun h => hk.1 h.2.symm)]
                exact h) h1
          cases hw2 : writeSnapshotPartitions (D := D) σ k ps s1 with
          | mk r s2 =>
            rw [hw2] at h2
            cases r with
            | error e => exact h2
            | ok u => exact linkAll_frame known hk.2 s2 h2

/-- Taking a snapshot does not link partitions of produced artifacts. -/
private theorem fromGraph_frame {g : Graph} (hn : (keys g.arts).Nodup) {i : ArtInfo} {p : Pdr}
    {pos : Nat} {k : Str} (hk : g.keyOf (.made i p pos) = some k) (τ : Snapshot) (s : St κ D) :
    get? (fromGraph env g s).2.links (τ, k) = get? s.links (τ, k) := by
  unfold fromGraph
  simp only [M.run_bind, M.run_gets, M.run_lift]
  cases hsc : scanNodes env s.files g (keys g.dependencies) (env.graphFp g) [] with
  | error e => rfl
  | ok out =>
    obtain ⟨id, known⟩ := out
    obtain ⟨k1, -, k3, -⟩ := scanNodes_spec _ _ _ _ _ hsc (by simp [get?])
    have hnk : k ∉ keys known := by
      intro hm
      obtain ⟨⟨k', ps⟩, h1, h2⟩ := List.mem_map.1 hm
      simp only at h2
      subst h2
      obtain ⟨j, hj, -⟩ := k1 _ ps (get?_of_mem (k3 (by simp [keys])) h1)
      exact absurd (Graph.keyOf_inj hn hj hk) (by simp)
    simp only [M.run_ghost]
    generalize hs0 : St.mk (κ := κ) (D := D) _ _ _ _ _ _ _ _ _ _ = s0
    have h0 : get? s0.links (τ, k) = get? s.links (τ, k) := by rw [← hs0]
    have h1 : get? (writeGraph env g s0).2.links (τ, k) = get? s.links (τ, k) := by
      unfold writeGraph
      exact effect_links (P := fun s' : St κ D => get? s'.links (τ, k) = get? s.links (τ, k))
        (fun _ _ h => h) (fun _ h => by exact h) h0
    cases hw : writeGraph env g s0 with
    | mk r s1 =>
      rw [hw] at h1
      cases r with
      | error e => exact h1
      | ok u =>
        simp only
        have h2 : get? (writeSnapshot env ⟨id, g⟩ s1).2.links (τ, k) = get? s.links (τ, k) := by
          unfold writeSnapshot
          exact effect_links (P := fun s' : St κ D => get? s'.links (τ, k) = get? s.links (τ, k))
            (fun _ _ h => h) (fun _ h => by exact h) h1
        cases hw2 : writeSnapshot env ⟨id, g⟩ s1 with
        | mk r s2 =>
          rw [hw2] at h2
          cases r with
          | error e => exact h2
          | ok u =>
            simp only
            have h3 := linkAll_frame (σ := ⟨id, g⟩) (τ := τ) known hnk s2 h2
            cases hl : linkAll ⟨id, g⟩ known s2 with
            | mk r s3 =>
              rw [hl] at h3
              cases r <;> exact h3

/-- **C78.** `graph.read` of a produced artifact with a connection and without a snapshot returns
what it would on a graph that has the backend of the connection as its own, and raises if that
raises; the files and the backend of the connection are as before.  Partial: the snapshot is stored
in the backend of the graph instead (`C78_reads_leave_snapshots_in_the_own_backend`). -/
theorem C78_reads_use_their_connection_partial {g : Graph} (hn : (keys g.arts).Nodup)
    (a : Art) (view : Nat) (t : Two κ D) (hb : t.st.budget = none) :
    ((Call.readGraph g a view).run env true t).1 =
      ((Call.readGraph g a view).alone env (t.st.withBk t.other)).1 ∧
    ((Call.readGraph g a view).run env true t).2.other = t.other ∧
    ((Call.readGraph g a view).run env true t).2.st.files = t.st.files := by
  cases a with
  | raw i =>
    rw [run_explicit (by simp [Call.Explicit])]
    refine ⟨rfl, ?_, ?_⟩ <;>
    · simp only [Call.alone, graphRead, M.run_bind, M.need]
      cases g.keyOf (.raw i) with
      | none => rfl
      | some k =>
        simp only [M.run_gets, M.run_lift, St.withBk]
        cases discover env t.st.files i.sto [] with
        | error e => rfl
        | ok ps =>
          simp only
          cases ioRead env t.st.files i view ps <;> rfl
  | made i p pos =>
    simp only [Call.run, Call.alone, Two.andThen, Call.readGraphVia, graphRead, M.run_bind, M.need]
    cases hk : g.keyOf (.made i p pos) with
    | none => exact ⟨rfl, rfl, rfl⟩
    | some k =>
      simp only [Two.onOwn, Two.via, if_true, Two.onOther]
      have hfr := fun τ => fromGraph_frame (env := env) hn hk τ (t.st.withBk t.other)
      have hb' : (t.st.withBk t.other).budget = none := hb
      rcases fromGraph_run (env := env) hn hb with ⟨e, hs, h⟩ | ⟨id, known, s', hs, h, hfl, -⟩
      · rcases fromGraph_run (env := env) hn hb' with ⟨e', hs', h'⟩ | ⟨id', known', s'', hs', h', -⟩
        · have he : e' = e := by
            have : Except.error e = Except.error e' := hs.symm.trans hs'
            simpa using this.symm
          subst he
          rw [h, h']
          exact ⟨rfl, rfl, rfl⟩
        · have : Except.error e = Except.ok (id', known') := hs.symm.trans hs'
          simp at this
      · rcases fromGraph_run (env := env) hn hb' with ⟨e', hs', h'⟩ |
          ⟨id', known', s'', hs', h', hfl', -⟩
        · have : Except.ok (id, known) = Except.error e' := hs.symm.trans hs'
          simp at this
        · have heq : Except.ok (id, known) = Except.ok (id', known') := hs.symm.trans hs'
          simp only [Except.ok.injEq, Prod.mk.injEq] at heq
          obtain ⟨rfl, rfl⟩ := heq
          rw [h, h']
          rw [h'] at hfr
          simp only [readSnapshotData, M.run_bind, M.need, hk, readSnapshotPartitions, M.run_gets,
            M.run_lift]
          rw [hfr, show s''.files = s'.files from hfl'.trans hfl.symm]
          simp only [St.withBk, hfl]
          cases ioRead env t.st.files (Art.made i p pos).info view
            (env.iter ((get? t.other.links (⟨id, g⟩, k)).getD [])) <;> exact ⟨rfl, rfl, by first | rfl | exact hfl⟩

/-- **C78**, what `graph.read` with a connection does instead: if the raw data exists, a snapshot of
the graph is in the backend of the graph afterwards, and none was put in that of the connection. -/
theorem C78_reads_leave_snapshots_in_the_own_backend {g : Graph} (hn : (keys g.arts).Nodup)
    {k : Str} {i : ArtInfo} {p : Pdr} {pos : Nat} (hm : (k, Art.made i p pos) ∈ g.arts) (view : Nat)
    (t : Two κ D) (hb : t.st.budget = none) {σ : Snapshot}
    (hσ : (fromGraph env g t.st).1 = .ok σ) :
    get? ((Call.readGraph g (.made i p pos) view).run env true t).2.st.snapshots
      (g.name, env.snapshotFp σ) = some σ ∧
    ((Call.readGraph g (.made i p pos) view).run env true t).2.other.snapshots =
      t.other.snapshots := by
  refine ⟨?_, by rw [(C78_reads_use_their_connection_partial hn _ view t hb).2.1]⟩
  obtain ⟨k', hk⟩ := Graph.keyOf_of_mem hm
  rcases fromGraph_run (env := env) hn hb with ⟨e, -, h⟩ | ⟨id, known, s', -, h, -, -, hsn, -⟩
  · rw [h] at hσ; simp at hσ
  · rw [h] at hσ
    simp only [Except.ok.injEq] at hσ
    subst hσ
    simp only [Call.run, Two.andThen, Call.readGraphVia, hk, Two.onOwn, Two.via, if_true,
      Two.onOther, h, readSnapshotData, M.run_bind, M.need, readSnapshotPartitions, M.run_gets,
      M.run_lift]
    have h1 := hsn (g.name, env.snapshotFp ⟨id, g⟩)
    rw [if_pos rfl] at h1
    cases ioRead env _ _ _ _ <;> exact h1

/-! ## Cases -/

namespace Ex78
open Ex

def p : Pdr := .mk ['A'] ['1'] (.cons ['x'] Ex42.a .nil)
def d : Art := .made ⟨0, false, .file ⟨"d{input_fingerprint}".toList, false⟩⟩ p 0
def g : Graph := ⟨['g'], [(['d'], d), (['a'], Ex42.a)], []⟩
def σ : Snapshot := ⟨971127, g⟩

/-- Two empty backends. -/
def t0 : Two Nat Str := ⟨Ex42.s0, ⟨[], [], [], [], []⟩⟩

/-- A snapshot is taken in the other backend, tagged there, fetched by its tag, and an output is
written and read. -/
def calls : List (Call Nat Str) :=
  [.snapshot g, .tag σ ['t'] false, .tag σ ['t'] false, .fromTag ['g'] ['t'],
    .write g (some σ) "out".toList d (some 5) 0 0, .read σ d 0, .readGraph g Ex42.a 0]

/-- What `C78_calls_use_their_connection_partial` is about: the second tag is rejected, the rest
succeeds, in the other backend only. -/
example : (Call.runAll Ex.env (calls.map fun c => (true, c)) t0).1.map
      (fun r => match r with | .ok (.data d) => some d | .ok _ => some [] | .error _ => none) =
        [some [], some [], none, some [], some [], some "out".toList, some "uv".toList] ∧
    (Call.runAll Ex.env (calls.map fun c => (true, c)) t0).2.st.bk = t0.st.bk ∧
    get? (Call.runAll Ex.env (calls.map fun c => (true, c)) t0).2.other.tags (['g'], ['t']) =
      some σ :=
  ⟨by decide +kernel,
    (C78_calls_use_their_connection_partial calls (by simp [calls, Call.Explicit, Ex42.a]) t0).2.2.1,
    by decide +kernel⟩

/-- After the calls, the output is read through the connection without a snapshot. -/
def t1 : Two Nat Str := (Call.runAll Ex.env (calls.map fun c => (true, c)) t0).2

example : ((Call.readGraph g d 0).run Ex.env true t1).1 = .ok (.data "out".toList) ∧
    ((Call.readGraph g d 0).run Ex.env false t1).1 = .error .fileNotFound ∧
    get? ((Call.readGraph g d 0).run Ex.env true t1).2.st.snapshots (['g'], 971127) = some σ ∧
    ((Call.readGraph g d 0).run Ex.env true t1).2.other = t1.other :=
  ⟨by decide +kernel, by decide +kernel,
    (C78_reads_leave_snapshots_in_the_own_backend (env := Ex.env) (g := g) (by decide +kernel)
      (k := ['d']) (by decide +kernel) 0 t1 (by decide +kernel) (σ := σ) (by decide +kernel)).1,
    (C78_reads_use_their_connection_partial (by decide +kernel) d 0 t1 (by decide +kernel)).2.1⟩

end Ex78

/-- **C78** is violated by `graph.read`: with a connection to another backend it changes the backend
of the graph. -/
theorem C78_violated_by_reads : ∃ (t : Two Nat Str) (g : Graph) (a : Art),
    ((Call.readGraph g a 0).run Ex.env true t).1 = .ok (.data "out".toList) ∧
    get? t.st.snapshots (['g'], 971127) = none ∧
    get? ((Call.readGraph g a 0).run Ex.env true t).2.st.snapshots (['g'], 971127) ≠ none :=
  ⟨Ex78.t1, Ex78.g, Ex78.d, by decide +kernel, by decide +kernel, by decide +kernel⟩

/-- **C78** is violated by `build`: a snapshot that was taken with a connection cannot be built,
though it could if the graph had the backend of the connection as its own. -/
theorem C78_violated_by_builds : ∃ (t : Two Nat Str) (g : Graph) (σ : Snapshot),
    ((Call.snapshot g).run Ex.env true t).1 = .ok (.snapshot σ) ∧
    ((Call.build σ).run Ex.env true ((Call.snapshot g).run Ex.env true t).2).1 =
      .error .fileNotFound ∧
    (Call.aloneAll Ex.env [.snapshot g, .build σ, .read σ Ex78.d 0] (t.st.withBk t.other)).1 =
      [.ok (.snapshot σ), .ok .none, .ok (.data "uv1".toList)] :=
  ⟨Ex78.t0, Ex78.g, Ex78.σ, by decide +kernel, by decide +kernel, by decide +kernel⟩

end Props
end Arti
