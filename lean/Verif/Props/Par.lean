import Verif.Lemmas.Par
import Verif.Lemmas.ParSys
import Verif.Props.Resume

/-!
# Builds at the same time (C68)

Processes that share only the local files build graphs at the same time; their accesses to files
are interleaved in any way.
-/

namespace Arti.Props
open Arti PyDict Spec Par Prog
variable {κ D : Type} [DecidableEq κ] {env : Env κ D} {gs : Graph → Prop}

/-- What is known about a process that finished. -/
theorem psafe_done {S : Sys κ D} {I : PyDict Str Str → Prop} {L : List (Inv κ D)} {p : Proc κ D}
    (h : PSafe env gs L I S.files p) (hf : FilesOk env gs L S.files) (hi : I S.files) {σ : Snapshot}
    (hp : p.prog = .ret (.ok σ)) : gs σ.graph ∧
    Done env gs L I σ.graph σ (vw L (Proc.now S p)) ∧
    (SingleOutput env σ.graph → DoneFull env gs I σ.graph σ (vw L (Proc.now S p))) := by
  obtain ⟨g, h1, h2, h3⟩ := h
  rw [hp] at h2 h3
  have hr : Rely env gs L I S.files S.files := ⟨fun _ _ => id, hf, hi⟩
  have h4 : Done env gs L I g σ (vw L (Proc.now S p)) := h2 σ rfl S.files hr
  obtain rfl : σ.graph = g := h4.2.2.1
  exact ⟨h1, h4, fun h => h3 h σ rfl S.files hr⟩

/-- **C68**, producers with any number of outputs, if files appear with their content.  Processes
build at the same time, any number of them, interrupted at any effect or not.  Each partition that
the snapshot of a successful build links to a produced artifact belongs to a dependency that some
process computed, has the key and the input fingerprint of that dependency, and its file holds the
encoded value that `build` returns at the position of the artifact for the arguments of that
dependency.

Missing: files that are written in place, as the code does, for which this fails
(`C68_violated_by_files_written_in_place`). -/
theorem C68_linked_partitions_hold_outputs_partial (hd : Disciplined env gs) {S : Sys κ D}
    (hS : ParReach env gs .whole S) (hn : NoClash env gs S.log) {q : Proc κ D} (hq : q ∈ S.procs)
    {σ : Snapshot} (hdone : q.prog = .ret (.ok σ)) {i : ArtInfo} {p : Pdr} {pos : Nat} {k : Str}
    (hk : σ.graph.keyOf (.made i p pos) = some k) {sn : PSnap κ}
    (hsn : sn ∈ linksOf (Proc.now S q) σ k) :
    ∃ e ∈ S.log, e.pdr = p ∧ e.key = sn.part.key ∧ sn.part.inputFp = some e.fp ∧
      ∃ outs d view c, runBuild (World.cls env p) e.args = .ok outs ∧ outs[pos]? = some d ∧
        (World.cls env p).outputs[pos]? = some view ∧ env.enc i view d = .ok c ∧
        World.content S.files sn.part.loc = some c := by
  have hsys := hS.sysOk hd hn fun _ => id
  obtain ⟨hg, ⟨hw, hl, -, -⟩, -⟩ := psafe_done (hsys.procs q hq) hsys.files trivial hdone
  have hm : Made gs i p pos := ⟨_, hg, k, Graph.keyOf_mem hk⟩
  have hsn' : sn ∈ linksOf (vw S.log (Proc.now S q)) σ k := hsn
  unfold linksOf at hsn'
  cases hgl : get? (vw S.log (Proc.now S q)).links (σ, k) with
  | none => rw [hgl] at hsn'; simp at hsn'
  | some ss =>
    rw [hgl] at hsn'
    obtain ⟨⟨ps, h1, h2⟩, r, _, e, he, e1, e2, e3⟩ := hl.ok σ k ss hgl _ hk sn hsn'
    obtain ⟨f, part, b, g1, g2, g3, g4⟩ := hw.store i.sto ⟨i, p, pos, hm, rfl⟩ ps h1 sn h2
    have hf : some e.fp = some f :=
      e3.symm.trans ((stored_ok g2).2.2.1.trans (World.generate_ok g1).2.1)
    obtain rfl := Option.some.inj hf
    rw [← e2] at g4
    subst e1
    have hb := Correct.eq hn he hm g4
    refine ⟨e, he, rfl, e2, e3, ?_⟩
    unfold bytes outBytes at hb
    cases ho : runBuild (World.cls env e.pdr) e.args with
    | error err => rw [ho] at hb; simp [bind, Except.bind] at hb
    | ok outs =>
      rw [ho] at hb
      simp only [bind, Except.bind] at hb
      cases hd' : outs[pos]? with
      | none => simp only [hd', orElse] at hb; simp at hb
      | some d =>
        simp only [hd', orElse] at hb
        cases hv : (World.cls env e.pdr).outputs[pos]? with
        | none => simp only [hv] at hb; simp at hb
        | some view =>
          simp only [hv] at hb
          exact ⟨outs, d, view, b, rfl, hd', rfl, hb, g3⟩

/-- **C68**, producers with one output, if files appear with their content: there is raw data such
that everything the snapshot of a successful build holds is what the producers make of it, and the
snapshot holds everything they make, whatever other processes did in the meantime.

Missing: producers with several outputs, and files that are written in place. -/
theorem C68_concurrent_build_is_an_evaluation_partial (hd : Disciplined env gs) {S : Sys κ D}
    (hS : ParReach env gs .whole S) (hn : NoClash env gs S.log) {q : Proc κ D} (hq : q ∈ S.procs)
    {σ : Snapshot} (hdone : q.prog = .ret (.ok σ)) (hso : SingleOutput env σ.graph) :
    ∃ ρ, ∀ k a, (k, a) ∈ σ.graph.arts → Full env (Proc.now S q) σ ρ a := by
  have hsys := hS.sysOk hd hn fun _ => id
  obtain ⟨hg, -, h⟩ := psafe_done (hsys.procs q hq) hsys.files trivial hdone
  obtain ⟨-, -, -, r, -, -, h1⟩ := h hso
  exact ⟨rawOf σ r, h1⟩

/-- Holding an artifact only depends on the raw data as sets. -/
theorem full_congr (hi : IterOk env) {s : St κ D} {σ : Snapshot} {ρ ρ' : ArtInfo → Data κ} {a : Art}
    (h : Full env s σ ρ a) (hr : RawEq ρ ρ') : Full env s σ ρ' a := by
  obtain ⟨k, ℓ, h1, h2, h3, h4, h5⟩ := h
  have := evalArt_congr hi hr a
  rw [h2] at this
  cases he : evalArt env ρ' a with
  | error e => rw [he] at this; exact this.elim
  | ok ℓ' =>
    rw [he] at this
    have heq : DEq ℓ ℓ' := this
    exact ⟨k, ℓ', h1, he, heq.2.1, fun sn => (h4 sn).trans (heq.mem_keys sn),
      fun x hx => h5 x ((heq.2.2 x).2 hx)⟩

/-- **C68**, producers with one output, if files appear with their content.  From some moment on,
processes start and build at the same time, and raw data does not change.  Then the snapshot of each
of these builds that succeeds holds exactly what the producers make of the raw data of that moment.

Missing: producers with several outputs, and files that are written in place. -/
theorem C68_concurrent_build_is_evaluation_partial (hd : Disciplined env gs) {S T : Sys κ D}
    (hS : ParReach env gs .whole S) (hT : Later env gs .whole S T) (hn : NoClash env gs T.log)
    {n : Nat} (hnew : S.procs.length ≤ n) {q : Proc κ D} (hq : T.procs[n]? = some q) {σ : Snapshot}
    (hdone : q.prog = .ret (.ok σ)) (hso : SingleOutput env σ.graph)
    (ha : Apart env gs σ.graph S.files) (hraw : RawThere env σ.graph S.files) :
    (∀ k a, (k, a) ∈ σ.graph.arts →
      Full env (Proc.now T q) σ (rawNow env σ.graph S.files) a) ∧
    ∀ k, (linksOf (Proc.now T q) σ k).Nodup := by
  have hsys := (hT.reach hS).sysOk hd hn fun _ => id
  obtain ⟨hadds, -, hsafe⟩ := hT.safe hd hn hS fun _ => id
  obtain ⟨hg, -, h⟩ := psafe_done (hsafe n q hnew hq) hsys.files hadds hdone
  obtain ⟨-, hl, -, r, hr, hseen, hfull⟩ := h hso
  refine ⟨fun k a hka => full_congr hd.iter (hfull k a hka) ?_, fun k => hl.linksOf_nodup σ k⟩
  intro i
  cases hk : σ.graph.keyOf (.raw i) with
  | none =>
    have h1 : rawOf σ r i = [] := by unfold rawOf; rw [hk]
    have h2 : rawNow env σ.graph S.files i = [] := by
      unfold rawNow
      rw [if_neg]
      intro hany
      obtain ⟨⟨k, a⟩, hm, ha⟩ := List.any_eq_true.1 hany
      simp only [decide_eq_true_eq] at ha
      subst ha
      obtain ⟨k', hk'⟩ := Graph.keyOf_of_mem hm
      simp [hk'] at hk
    rw [h1, h2]
    exact ⟨List.nodup_nil, List.nodup_nil, fun _ => Iff.rfl⟩
  | some k' =>
    have hm := Graph.keyOf_mem hk
    obtain ⟨ps, ⟨F, hF1, hF2, hF3⟩, hps⟩ := hseen k' i hm
    have hre := ha.raw F hF1
    obtain ⟨ps', hp1, -⟩ := raw_stays hm hre (hraw k' i hm)
    have hp2 : discoverFrom env (keys F) F i.sto [] = .ok ps' := by
      rw [discoverFrom_keys]; exact hp1
    have : ps' = ps := by
      have := discoverFrom_mono hF2 hp2
      rw [hF3] at this
      exact (Except.ok.inj this).symm
    subst this
    have heq : rawOf σ r i = rawNow env σ.graph F i := by
      rw [hps]
      unfold rawNow
      rw [if_pos (List.any_eq_true.2 ⟨_, hm, by simp⟩), hp1]
      simp only
      congr 1
      refine List.filterMap_congr fun sn hsn => ?_
      obtain ⟨_, c, hc⟩ := discoverFrom_raw hp2 hsn
      rw [hc, hF2.content hc]
    rw [heq]
    obtain ⟨d1, d2, d3⟩ := hre i
    exact ⟨d2, d1, fun x => (d3 x).symm⟩

/-- **C68**, producers with one output, if files appear with their content: two builds of a graph
that ran at the same time and succeeded link the same partitions with the same contents and read the
same values.

Missing: producers with several outputs, and files that are written in place. -/
theorem C68_concurrent_builds_agree_partial (hd : Disciplined env gs) {S T : Sys κ D}
    (hS : ParReach env gs .whole S) (hT : Later env gs .whole S T) (hn : NoClash env gs T.log)
    {n n' : Nat} (hnew : S.procs.length ≤ n) (hnew' : S.procs.length ≤ n') {q q' : Proc κ D}
    (hq : T.procs[n]? = some q) (hq' : T.procs[n']? = some q') {σ σ' : Snapshot}
    (hdone : q.prog = .ret (.ok σ)) (hdone' : q'.prog = .ret (.ok σ'))
    (hgr : σ'.graph = σ.graph) (hso : SingleOutput env σ.graph)
    (ha : Apart env gs σ.graph S.files) (hraw : RawThere env σ.graph S.files) :
    ∀ k a, (k, a) ∈ σ.graph.arts → ∃ key, σ.graph.keyOf a = some key ∧
      (∀ sn, sn ∈ linksOf (Proc.now T q) σ key ↔ sn ∈ linksOf (Proc.now T q') σ' key) ∧
      (∀ sn ∈ linksOf (Proc.now T q) σ key, ∃ c, World.content T.files sn.part.loc = some c) ∧
      ∀ view, (World.readSnapshotData env σ a view (Proc.now T q)).1 =
        (World.readSnapshotData env σ' a view (Proc.now T q')).1 := by
  intro k a hka
  obtain ⟨h1, h2⟩ := C68_concurrent_build_is_evaluation_partial hd hS hT hn hnew hq hdone hso ha hraw
  obtain ⟨h3, h4⟩ := C68_concurrent_build_is_evaluation_partial hd hS hT hn hnew' hq' hdone'
    (hgr ▸ hso) (hgr ▸ ha) (hgr ▸ hraw)
  obtain ⟨key, e1, e2, e3, e4⟩ := full_agree hd.iter rfl hgr (h1 k a hka) (h3 k a (hgr ▸ hka)) h2 h4
    (by rw [hgr]; exact ha.raw _ ⟨fun _ _ => id, fun _ => .inl⟩)
  exact ⟨key, e1, e2, fun sn hsn => (e3 sn hsn).imp fun c h => h.1, e4⟩

/-- **C68**, producers with one output, if files appear with their content: a build that ran at the
same time as others gives what it gives alone.  If both succeed then they link the same partitions
with the same contents and read the same values.

Missing: producers with several outputs, and files that are written in place. -/
theorem C68_concurrent_build_equals_build_alone_partial (hd : Disciplined env gs) {S T : Sys κ D}
    (hS : ParReach env gs .whole S) (hT : Later env gs .whole S T) (hn : NoClash env gs T.log)
    {n : Nat} (hnew : S.procs.length ≤ n) {q : Proc κ D} (hq : T.procs[n]? = some q) {σ : Snapshot}
    (hdone : q.prog = .ret (.ok σ)) (hso : SingleOutput env σ.graph)
    (ha : Apart env gs σ.graph S.files) (hraw : RawThere env σ.graph S.files) {τ : Snapshot}
    {t : St κ D} (halone : World.graphBuild env σ.graph
      ⟨S.files, [], [], [], [], [], none, [], S.log, []⟩ = (.ok τ, t)) (hnt : NoClash env gs t.invs)
    (hut : SnapUnique t.raws) :
    ∀ k a, (k, a) ∈ σ.graph.arts → ∃ key, σ.graph.keyOf a = some key ∧
      (∀ sn, sn ∈ linksOf (Proc.now T q) σ key ↔ sn ∈ linksOf t τ key) ∧
      (∀ sn ∈ linksOf (Proc.now T q) σ key, ∃ c, World.content T.files sn.part.loc = some c ∧
        World.content t.files sn.part.loc = some c) ∧
      ∀ view, (World.readSnapshotData env σ a view (Proc.now T q)).1 =
        (World.readSnapshotData env τ a view t).1 := by
  intro k a hka
  obtain ⟨h1, h2⟩ := C68_concurrent_build_is_evaluation_partial hd hS hT hn hnew hq hdone hso ha hraw
  have hl := hT.log
  have hsys := hS.sysOk hd (hn.mono hl) fun _ => id
  have hg : gs σ.graph := by
    have hsT := (hT.reach hS).sysOk hd hn fun _ => id
    exact (psafe_done (hsT.procs q (List.mem_of_getElem? hq)) hsT.files trivial hdone).1
  obtain ⟨-, hlt, -, h3⟩ := graphBuild_spec hd hg hso (s := ⟨S.files, [], [], [], [], [], none, [],
    S.log, []⟩) ⟨hsys.files, fun sto _ ss h => by simp [get?] at h⟩ ⟨by simp [get?], by simp [get?]⟩
    halone hnt hut
  obtain ⟨hτ, r, -, hr, hf⟩ := h3 τ rfl
  refine full_agree hd.iter rfl hτ (h1 k a hka) (hf k a hka) h2 (fun k => hlt.linksOf_nodup τ k) ?_
  rw [show rawOf τ r = rawNow env σ.graph S.files from funext hr]
  exact ha.raw _ ⟨fun _ _ => id, fun _ => .inl⟩

/-- **C68**: if files appear with their content then a file that is there keeps its content, and only
files of produced artifacts are added. -/
theorem C68_files_stay_partial (hd : Disciplined env gs) {S T : Sys κ D}
    (hS : ParReach env gs .whole S) (hT : Later env gs .whole S T) (hn : NoClash env gs T.log) :
    (∀ path c, get? S.files path = some c → get? T.files path = some c) ∧
    ∀ path, get? T.files path ≠ none → get? S.files path ≠ none ∨ ProducedPath env gs path :=
  have h := (hT.safe hd hn hS fun _ => id).1
  ⟨h.old, h.new⟩

/-- A process that is alone does what the sequential model says. -/
theorem C68_process_alone_is_sequential (files : PyDict Str Str) (g : Graph) (b : Option Nat)
    (log : List (Inv κ D)) : ∃ n log', Sys.steps ⟨files, [Proc.start env .whole g b], log⟩
        (List.replicate n 0) =
      ⟨(World.graphBuild env g ⟨files, [], [], [], [], [], b, [], [], []⟩).2.files,
        [⟨(World.graphBuild env g ⟨files, [], [], [], [], [], b, [], [], []⟩).2,
          .ret (World.graphBuild env g ⟨files, [], [], [], [], [], b, [], [], []⟩).1⟩], log'⟩ := by
  have key : ∀ (p : Prog κ D Snapshot) (st : St κ D) (files : PyDict Str Str)
      (log : List (Inv κ D)), ∃ n log',
      Sys.steps ⟨files, [⟨st, p⟩], log⟩ (List.replicate n 0) =
        ⟨(p.run { st with files := files }).2.files, [⟨(p.run { st with files := files }).2,
          .ret (p.run { st with files := files }).1⟩], log'⟩ := by
    intro p
    induction p with
    | ret r => exact fun st files log => ⟨1, _, rfl⟩
    | act f k ih =>
      intro st files log
      obtain ⟨n, log', h⟩ := ih { st with files := files } (f { st with files := files })
        (f { st with files := files }).files (log ++ (f { st with files := files }).invs)
      exact ⟨n + 1, log', h⟩
  obtain ⟨n, log', h⟩ := key (graphBuild env .whole g)
    ⟨[], [], [], [], [], [], b, [], [], []⟩ files log
  rw [run_graphBuild] at h
  exact ⟨n, log', h⟩

/-- The states of a run in which the processes take turns as given. -/
def runSched (S : Sys κ D) (turn : Nat → Nat) : Nat → Sys κ D
  | 0 => S
  | N + 1 => (runSched S turn N).step (turn N)

theorem runSched_add (S : Sys κ D) (turn : Nat → Nat) (m N : Nat) :
    runSched S turn (m + N) = runSched (runSched S turn m) (fun j => turn (m + j)) N := by
  induction N with
  | zero => rfl
  | succ N ih => rw [← Nat.add_assoc]; simp only [runSched, ih]

theorem step_other {S : Sys κ D} {n m : Nat} (h : m ≠ n) : (S.step m).procs[n]? = S.procs[n]? := by
  unfold Sys.step
  split
  · rfl
  · rw [List.getElem?_set_ne h]

/-- Every process finishes, however its steps are interleaved with those of others and whatever they
do: the number of its own steps is finite.  This holds for both ways to write files. -/
theorem C68_processes_finish {S : Sys κ D} {turn : Nat → Nat} {n : Nat} {p : Proc κ D}
    (hp : S.procs[n]? = some p) (hfair : ∀ N, ∃ m, N ≤ m ∧ turn m = n) :
    ∃ N q r, (runSched S turn N).procs[n]? = some q ∧ q.prog = .ret r := by
  obtain ⟨st, prog⟩ := p
  induction prog generalizing S turn st with
  | ret r => exact ⟨0, _, r, hp, rfl⟩
  | act f k ih =>
    have hstay : ∀ N, (∀ j < N, turn j ≠ n) →
        (runSched S turn N).procs[n]? = some ⟨st, .act f k⟩ := by
      intro N
      induction N with
      | zero => exact fun _ => hp
      | succ N ih =>
        intro h
        simp only [runSched]
        rw [step_other (h N (Nat.lt_succ_self N))]
        exact ih fun j hj => h j (Nat.lt_succ_of_lt hj)
    have hex : ∃ m, turn m = n := (hfair 0).imp fun m h => h.2
    have hm := Nat.find_spec hex
    have hlt := hstay (Nat.find hex) fun j hj => Nat.find_min hex hj
    generalize Nat.find hex = m at hm hlt
    have hnext : (runSched S turn (m + 1)).procs[n]? =
        some ⟨f { st with files := (runSched S turn m).files },
          k { st with files := (runSched S turn m).files }⟩ := by
      simp only [runSched, Sys.step, hm, hlt]
      rw [List.getElem?_set_self (List.getElem?_eq_some_iff.1 hlt).1]
      rfl
    have hfair' : ∀ N, ∃ j, N ≤ j ∧ turn (m + 1 + j) = n := by
      intro N
      obtain ⟨j, h1, h2⟩ := hfair (m + 1 + N)
      exact ⟨j - (m + 1), by omega, by rw [← h2]; congr 1; omega⟩
    obtain ⟨N, q, r, h1, h2⟩ := ih _ (turn := fun j => turn (m + 1 + j)) hfair' _ hnext
    exact ⟨m + 1 + N, q, r, by rw [runSched_add]; exact h1, h2⟩

/-! ### A case that meets the hypotheses

The graph of C42.  Two processes build it, taking turns; a third is interrupted after 9 effects. -/

namespace Ex68
open Ex

def S : Sys Nat Str := ⟨Ex42.files, [], []⟩

def start (mode : WriteMode) (g : Graph) (b : Option Nat) (S : Sys Nat Str) : Sys Nat Str :=
  { S with procs := S.procs ++ [Proc.start Ex.env mode g b] }

/-- Each of the first `n` processes makes `m` steps, in turns. -/
def turns (n m : Nat) : List Nat := (List.range m).flatMap fun _ => List.range n

def T0 : Sys Nat Str :=
  start .whole Ex42.g none (start .whole Ex42.g (some 9) (start .whole Ex42.g none S))
def T : Sys Nat Str := T0.steps (turns 3 40)

/-- What a process returned. -/
def result (S : Sys Nat Str) (n : Nat) : Option (Except Err Snapshot) :=
  match S.procs[n]? with
  | some ⟨_, .ret r⟩ => some r
  | _ => none

theorem of_result {S : Sys Nat Str} {n : Nat} {r : Except Err Snapshot}
    (h : result S n = some r) : ∃ q, S.procs[n]? = some q ∧ q.prog = .ret r := by
  unfold result at h
  split at h
  · rename_i st r' hq
    exact ⟨_, hq, by rw [Option.some.inj h]⟩
  · simp at h

theorem reach : ParReach Ex.env (· ∈ [Ex42.g]) .whole S :=
  .init (s := Ex42.s0) Ex40.reach fun _ _ _ h => by simp [Ex42.s0] at h

theorem later_steps {gs : Graph → Prop} {mode : WriteMode} {S T : Sys Nat Str} (order : List Nat)
    (h : Later Ex.env gs mode S T) : Later Ex.env gs mode S (T.steps order) := by
  induction order generalizing T with
  | nil => exact h
  | cons n order ih => exact ih (.step n h)

theorem later : Later Ex.env (· ∈ [Ex42.g]) .whole S T :=
  later_steps _ (.spawn _ _ (List.mem_singleton.2 rfl) (.spawn _ _ (List.mem_singleton.2 rfl)
    (.spawn _ _ (List.mem_singleton.2 rfl) .refl)))

def σ : Snapshot := ⟨979615, Ex42.g⟩

/-- Two of the builds succeeded; both called the producers. -/
theorem results : result T 0 = some (.ok σ) ∧ result T 1 = some (.error .crash) ∧
    result T 2 = some (.ok σ) ∧ T.procs.map (fun p => p.st.calls.length) = [3, 2, 3] := by
  decide +kernel

theorem clash : NoClash Ex.env (· ∈ [Ex42.g]) T.log := noClash _ _ (by decide +kernel)

theorem raw : RawThere Ex.env Ex42.g S.files := by
  intro k i hm
  have : i = ⟨0, true, .file ⟨"a".toList, true⟩⟩ := by
    have hm' : k = ['a'] ∧ i = ⟨0, true, .file ⟨"a".toList, true⟩⟩ := by
      simpa [Ex42.g, Ex42.a, Ex42.b, Ex42.c] using hm
    exact hm'.2
  subst this
  exact ⟨_, rfl, by decide +kernel⟩

/-- The hypotheses are met. -/
example : ∃ q q', T.procs[0]? = some q ∧ T.procs[2]? = some q' ∧
    (∀ view, (World.readSnapshotData Ex.env σ Ex42.c view (Proc.now T q)).1 =
      (World.readSnapshotData Ex.env σ Ex42.c view (Proc.now T q')).1) ∧
    Full Ex.env (Proc.now T q) σ (rawNow Ex.env Ex42.g S.files) Ex42.c := by
  obtain ⟨q, h1, h2⟩ := of_result results.1
  obtain ⟨q', h3, h4⟩ := of_result results.2.2.1
  refine ⟨q, q', h1, h3, ?_, ?_⟩
  · exact (C68_concurrent_builds_agree_partial Ex42.disc reach later clash (Nat.zero_le _)
      (Nat.zero_le _) h1 h3 h2 h4 rfl (Ex42.single _ (List.mem_singleton.2 rfl))
      (apart _ _ _ (by decide +kernel)) raw ['c'] Ex42.c (by decide)).choose_spec.2.2.2
  · exact (C68_concurrent_build_is_evaluation_partial Ex42.disc reach later clash (Nat.zero_le _) h1
      h2 (Ex42.single _ (List.mem_singleton.2 rfl)) (apart _ _ _ (by decide +kernel)) raw).1 ['c']
      Ex42.c (by decide)

/-- Read an artifact in a process that finished. -/
def read (S : Sys Nat Str) (n : Nat) (a : Art) : Except Err Str :=
  match S.procs[n]? with
  | some ⟨st, .ret (.ok σ)⟩ => (World.readSnapshotData Ex.env σ a 0 { st with files := S.files }).1
  | _ => .error .keyError

example : read T 0 Ex42.c = .ok "u1v11".toList ∧ read T 2 Ex42.c = .ok "u1v11".toList := by
  decide +kernel

/-- The build alone succeeds. -/
def alone : St Nat Str :=
  (World.graphBuild Ex.env Ex42.g ⟨S.files, [], [], [], [], [], none, [], S.log, []⟩).2

theorem alone_ok : World.graphBuild Ex.env Ex42.g ⟨S.files, [], [], [], [], [], none, [], S.log, []⟩ =
    (.ok σ, alone) :=
  Prod.ext (by decide +kernel) (by rw [alone])

example : ∃ q, T.procs[0]? = some q ∧ ∀ view,
    (World.readSnapshotData Ex.env σ Ex42.c view (Proc.now T q)).1 =
      (World.readSnapshotData Ex.env σ Ex42.c view alone).1 := by
  obtain ⟨q, h1, h2⟩ := of_result results.1
  exact ⟨q, h1, (C68_concurrent_build_equals_build_alone_partial Ex42.disc reach later clash
    (Nat.zero_le _) h1 h2 (Ex42.single _ (List.mem_singleton.2 rfl)) (apart _ _ _ (by decide +kernel))
    raw alone_ok (noClash _ _ (by decide +kernel)) (snapUnique _ (by decide +kernel)) ['c'] Ex42.c
    (by decide)).choose_spec.2.2.2⟩

/-! A producer that copies and appends a `1`, twice. -/

def x : Art := .raw ⟨0, false, .file ⟨"a".toList, false⟩⟩
def p : Pdr := .mk ['A'] ['1'] (.cons ['x'] x .nil)
def y : Art := .made ⟨0, false, .file ⟨"b{input_fingerprint}".toList, false⟩⟩ p 0
def q : Pdr := .mk ['A'] ['1'] (.cons ['x'] y .nil)
def z : Art := .made ⟨0, false, .file ⟨"c{input_fingerprint}".toList, false⟩⟩ q 0
def g : Graph := ⟨['g'], [(['a'], x), (['b'], y), (['c'], z)], []⟩

def U : Sys Nat Str := ⟨[(['a'], ['u'])], [], []⟩

/-- The first process makes 16 steps, then the second builds, then the first goes on. -/
def V (mode : WriteMode) : Sys Nat Str :=
  (start mode g none (start mode g none U)).steps
    (List.replicate 16 0 ++ List.replicate 40 1 ++ List.replicate 40 0)

theorem reachU (mode : WriteMode) : ParReach Ex.env (· ∈ [g]) mode U := by
  refine .init (s := ⟨[(['a'], ['u'])], [], [], [], [], [], none, [], [], []⟩) (.init _ _ ?_)
    fun _ _ _ h => by simp at h
  intro path hp
  have : path ∈ keys [(['a'], ['u'])] := by
    apply Classical.byContradiction
    intro h; exact hp ((get?_eq_none_iff _ _).2 h)
  simp only [keys, List.map_cons, List.map_nil, List.mem_cons, List.not_mem_nil, or_false] at this
  subst this
  exact not_produced _ _ (by decide +kernel)

theorem laterV (mode : WriteMode) : Later Ex.env (· ∈ [g]) mode U (V mode) :=
  later_steps _ (.spawn _ _ (List.mem_singleton.2 rfl) (.spawn _ _ (List.mem_singleton.2 rfl) .refl))

end Ex68

/-- **C68** is violated because files are written in place.  A producer makes `u1` of `u`, and the
next one makes `u11` of that.  One process has opened the file of the first output and not yet
filled it.  Another process builds the same graph, takes the empty file for the output, and passes
it on.  Both builds succeed, and have snapshots with the same id and the same graph; when both are
finished, the one reads `u11` and the other `1`.  In the same order of steps, but with files that
appear with their content, both read `u11`. -/
theorem C68_violated_by_files_written_in_place :
    ParReach Ex.env (· ∈ [Ex68.g]) .inPlace (Ex68.V .inPlace) ∧
    (∃ σ, Ex68.result (Ex68.V .inPlace) 0 = some (.ok σ) ∧
      Ex68.result (Ex68.V .inPlace) 1 = some (.ok σ)) ∧
    Ex68.read (Ex68.V .inPlace) 0 Ex68.z = .ok "u11".toList ∧
    Ex68.read (Ex68.V .inPlace) 1 Ex68.z = .ok "1".toList ∧
    Ex68.read (Ex68.V .whole) 0 Ex68.z = .ok "u11".toList ∧
    Ex68.read (Ex68.V .whole) 1 Ex68.z = .ok "u11".toList :=
  ⟨(Ex68.laterV _).reach (Ex68.reachU _), ⟨⟨945194, Ex68.g⟩, by decide +kernel⟩, by decide +kernel,
    by decide +kernel, by decide +kernel, by decide +kernel⟩

end Arti.Props
