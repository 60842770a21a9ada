import Verif.Lemmas.TornOps
import Verif.Props.Resume
import Mathlib.Data.List.TakeWhile

/-!
# Files that are cut off while they are written (C67)
-/

namespace Arti.Props
open Arti PyDict World Spec
variable {κ D : Type} [DecidableEq κ] {env : Env κ D} {gs : Graph → Prop} {ser : Serial D}

/-- **C67**, for histories in which no file was torn: the world is, but for the number of effects
that were left, the world of a history in which each file is written at once, so that all theorems
about `Reach` hold of it.

Missing: histories in which the process was interrupted while a file was being written, or in
which data could not be serialised, for which the property fails
(`C67_violated_by_interruption`, `C67_violated_by_failed_serialisation`). -/
theorem C67_files_that_are_not_torn_partial (hs : SerOk env ser) {s : FSt κ D}
    (h : TornReach env gs ser s) (ht : s.torn = []) :
    ∃ b, Reach env gs { s.w with budget := b } :=
  Torn.torn_reach hs h ht

/-- **C67**: if, whenever a file was torn, it is deleted before anything else happens, then the
world is as if no file had been torn. -/
theorem C67_deleting_torn_files_is_enough (hs : SerOk env ser) {s : St κ D}
    (h : CleanReach env gs ser s) : ∃ b, Reach env gs { s with budget := b } :=
  Torn.clean_reach hs h

/-- **C67**, in histories in which no file was torn, for producers with one output: a build that
writes files piece by piece and succeeds links the partitions that evaluating the producers gives,
with the evaluated contents. -/
theorem C67_build_is_evaluation_partial (hs : SerOk env ser) (hd : Disciplined env gs)
    (hso : ∀ g, gs g → SingleOutput env g) {s s' : FSt κ D} (h : TornReach env gs ser s)
    (ht : s.torn = []) {g : Graph} (hg : gs g) {b : Option Nat} {σ : Snapshot}
    (hrun : Torn.graphBuild env ser g ⟨{ s.w with budget := b }, s.torn⟩ = (.ok σ, s'))
    (hn : NoClash env gs s'.w.invs) (hu : SnapUnique s'.w.raws) :
    σ.graph = g ∧ ∀ k a, (k, a) ∈ g.arts → Full env s'.w σ (rawNow env g s.w.files) a := by
  have hsim := Torn.sim_graphBuild (ser := ser) hs g
  have ht' : s'.torn = s.torn := by
    apply Classical.byContradiction
    intro hne
    obtain ⟨⟨x, hx⟩, -⟩ := hsim.torn _ _ _ hrun hne
    cases hx
  obtain ⟨c, -, h2⟩ := hsim.ok _ σ s' hrun ht'
  obtain ⟨b', hr⟩ := Torn.torn_reach hs h ht
  exact C42_incremental_build_is_evaluation_partial (s' := { s'.w with budget := none })
    hd hso hr hg (b := none) h2 hn hu

/-- **C67**, in histories in which no file was torn, for producers with one output: a build that was
interrupted anywhere else can be resumed.  Consider a build that would succeed.  Instead anything
that leaves the raw data alone happens, with any number of interruptions that do not tear a file.
Then the build succeeds, without tearing a file, and links and reads the same as it would have
done. -/
theorem C67_interrupted_build_can_be_resumed_partial (hs : SerOk env ser) (hd : Disciplined env gs)
    (hso : ∀ g, gs g → SingleOutput env g) (hr : FpRanges env) {s t : FSt κ D}
    (h : TornReach env gs ser s) {g : Graph} (hg : gs g) (ha : Apart env gs g s.w.files)
    {σ : Snapshot}
    (hrun : Torn.graphBuild env ser g ⟨{ s.w with budget := none }, s.torn⟩ = (.ok σ, t))
    (hnt : NoClash env gs t.w.invs) (hut : SnapUnique t.w.raws) {ops : List (HOp κ D)}
    (hv : ValidTornOps env gs ser s ops) (hq : ∀ op ∈ ops, op.Quiet) {u s' : FSt κ D}
    (hops : tornOps env ser s ops = u) (htorn : u.torn = []) {res : Except Err Snapshot}
    (hrun' : Torn.graphBuild env ser g ⟨{ u.w with budget := none }, []⟩ = (res, s'))
    (hn : NoClash env gs s'.w.invs) (hu : SnapUnique s'.w.raws) :
    s'.torn = [] ∧ ∃ σ', res = .ok σ' ∧ σ'.graph = g ∧
      ∀ k a, (k, a) ∈ g.arts → ∃ key, g.keyOf a = some key ∧
        (∀ sn, sn ∈ linksOf t.w σ key ↔ sn ∈ linksOf s'.w σ' key) ∧
        (∀ sn ∈ linksOf t.w σ key, ∃ c, content t.w.files sn.part.loc = some c ∧
          content s'.w.files sn.part.loc = some c) ∧
        ∀ view, (readSnapshotData env σ a view t.w).1 =
          (readSnapshotData env σ' a view s'.w).1 := by
  have hsim := Torn.sim_graphBuild (ser := ser) hs g
  have h0 : s.torn = [] := by
    have := Torn.tornOps_mono hs ops s
    rw [hops, htorn] at this
    simpa using this
  obtain ⟨b0, hreach⟩ := Torn.torn_reach hs h h0
  obtain ⟨ops', b', r1, r2, r3⟩ := Torn.tornOps_run hs ops s (by rw [hops, htorn, h0]) hv b0
  rw [hops] at r1
  obtain ⟨rc, wc, q1, -, -, -, q5, -, -⟩ := hsim.none _ _ _ _ rfl hrun
  obtain ⟨rfl, rfl⟩ := q5 σ rfl
  obtain ⟨rc', wc', p1, p2, p3, -, p5, p6, -⟩ := hsim.none _ _ _ _ rfl hrun'
  obtain ⟨σ', e1, e2, e3⟩ := C40_interrupted_build_can_be_resumed_partial (s' := wc') (ops := ops')
    hd hso hr hreach hg ha q1 hnt hut r2 (r3 hq) r1 p1 (by rw [p2]; exact hn) (by rw [p3]; exact hu)
  cases res with
  | error x =>
    obtain ⟨y, hy⟩ := p6 x rfl
    rw [hy] at e1
    cases e1
  | ok τ =>
    obtain ⟨e4, rfl⟩ := p5 τ rfl
    rw [e1, Except.ok.injEq] at e4
    subst e4
    exact ⟨rfl, σ', rfl, e2, e3⟩

/-! ### Cases that meet the hypotheses, and violations -/

namespace Ex67
open Ex

/-- Each character is a piece. -/
def pieces : Serial Str := fun _ _ d => .ok (d.map fun c => [c], none)

theorem serOk : SerOk Ex.env pieces := by
  intro i view d
  simp only [Ex.env, pieces, Except.ok.injEq]
  induction d with
  | nil => rfl
  | cons c d ih => simpa using ih

/-! A history with interruptions that do not tear files, with the graph of C42. -/

def s0 : FSt Nat Str := ⟨Ex42.s0, []⟩
def ops : List (HOp Nat Str) :=
  [.build Ex42.g (some 10), .restart fun _ => true, .build Ex42.g (some 12), .lookup Ex42.b [],
    .snapshot Ex42.g none, .restart fun _ => true]
def t : FSt Nat Str :=
  (Torn.graphBuild Ex.env pieces Ex42.g ⟨{ s0.w with budget := none }, s0.torn⟩).2
def u : FSt Nat Str := tornOps Ex.env pieces s0 ops
def s' : FSt Nat Str := (Torn.graphBuild Ex.env pieces Ex42.g ⟨{ u.w with budget := none }, []⟩).2
def res : Except Err Snapshot :=
  (Torn.graphBuild Ex.env pieces Ex42.g ⟨{ u.w with budget := none }, []⟩).1

theorem reach : TornReach Ex.env (· ∈ [Ex42.g]) pieces s0 :=
  .init Ex42.files none fun path hp => by
    have : path ∈ keys Ex42.files := by
      apply Classical.byContradiction
      intro h; exact hp ((get?_eq_none_iff _ _).2 h)
    simp only [Ex42.files, keys, List.map_cons, List.map_nil, List.mem_cons, List.not_mem_nil,
      or_false] at this
    rcases this with rfl | rfl <;> exact not_produced _ _ (by decide +kernel)

theorem run_ok : Torn.graphBuild Ex.env pieces Ex42.g ⟨{ s0.w with budget := none }, s0.torn⟩ =
    (.ok Ex40.σ, t) :=
  Prod.ext (by decide +kernel) (by rw [t])

theorem run_again : Torn.graphBuild Ex.env pieces Ex42.g ⟨{ u.w with budget := none }, []⟩ =
    (res, s') :=
  Prod.ext (by rw [res]) (by rw [s'])

example : ∃ σ', res = .ok σ' ∧
    (readSnapshotData Ex.env σ' Ex42.c 0 s'.w).1 = .ok "u1v11".toList := by
  obtain ⟨-, σ', h1, -, h2⟩ := C67_interrupted_build_can_be_resumed_partial (ops := ops) serOk
    Ex42.disc Ex42.single ExFp.ranges reach (List.mem_singleton.2 rfl)
    (apart _ _ _ (by decide +kernel)) run_ok (noClash _ _ (by decide +kernel))
    (snapUnique _ (by decide +kernel))
    ⟨List.mem_singleton.2 rfl, trivial, List.mem_singleton.2 rfl, trivial,
      List.mem_singleton.2 rfl, trivial, trivial⟩
    (by
      intro op ho
      simp only [ops, List.mem_cons, List.not_mem_nil, or_false] at ho
      rcases ho with rfl | rfl | rfl | rfl | rfl | rfl <;> simp [HOp.Quiet])
    (u := u) (by rw [u]) (by decide +kernel) run_again (noClash _ _ (by decide +kernel))
    (snapUnique _ (by decide +kernel))
  refine ⟨σ', h1, ?_⟩
  obtain ⟨_, -, -, -, h3⟩ := h2 ['c'] Ex42.c (by decide)
  rw [← h3 0]
  decide +kernel

/-- The interrupted builds left something behind. -/
example : u.w.files.length = 4 ∧ s'.w.files.length = 5 := by decide +kernel

example : Ex40.σ.graph = Ex42.g ∧ ∀ k a, (k, a) ∈ Ex42.g.arts →
    Full Ex.env t.w Ex40.σ (rawNow Ex.env Ex42.g Ex42.s0.files) a :=
  C67_build_is_evaluation_partial serOk Ex42.disc Ex42.single reach rfl (List.mem_singleton.2 rfl)
    run_ok (noClash _ _ (by decide +kernel)) (snapUnique _ (by decide +kernel))

/-! A producer of one output. -/

def x : Art := .raw ⟨0, false, .file ⟨"a".toList, false⟩⟩
def p : Pdr := .mk ['A'] ['1'] (.cons ['x'] x .nil)
def y : Art := .made ⟨0, false, .file ⟨"b{input_fingerprint}".toList, false⟩⟩ p 0
def g : Graph := ⟨['g'], [(['a'], x), (['b'], y)], []⟩

/-- The world with a file for the raw artifact. -/
def start (c : Str) : FSt Nat Str := ⟨⟨[(['a'], c)], [], [], [], [], [], none, [], [], []⟩, []⟩

/-- Build the graph and read the produced artifact. -/
def buildAndRead (env : Env Nat Str) (ser : Serial Str) : FM Nat Str Str := do
  let σ ← Torn.graphBuild env ser g
  FM.up (readSnapshotData env σ y 0)

/-- The build is interrupted after eight effects. -/
def cut : Except Err Snapshot × FSt Nat Str :=
  Torn.graphBuild Ex.env pieces g ⟨{ (start ['u']).w with budget := some 8 }, []⟩

/-- A new process, with all files. -/
def again (s : FSt Nat Str) : FSt Nat Str :=
  ⟨{ (HOp.restart fun _ => true).run Ex.env s.w with budget := none }, s.torn⟩

/-- A new process, after the torn file was deleted. -/
def cleaned : St Nat Str :=
  { (HOp.restart fun path => !cut.2.torn.contains path).run Ex.env cut.2.w with budget := none }

theorem reach_start (c : Str) : CleanReach Ex.env (· ∈ [g]) pieces (start c).w :=
  .init _ none fun path hp => by
    have : path ∈ keys [(['a'], c)] := by
      apply Classical.byContradiction
      intro h; exact hp ((get?_eq_none_iff _ _).2 h)
    simp only [keys, List.map_cons, List.map_nil, List.mem_singleton] at this
    subst this
    exact not_produced _ _ (by decide +kernel)

theorem cut_eq : (HOp.build g (some 8)).tornRun Ex.env pieces ⟨(start ['u']).w, []⟩ = cut.2 := by
  rw [cut]
  simp only [HOp.tornRun]

theorem reach_cleaned : CleanReach Ex.env (· ∈ [g]) pieces
    ((HOp.restart fun path => !cut.2.torn.contains path).run Ex.env cut.2.w) := by
  have := CleanReach.clean (.build g (some 8)) (fun path => !cut.2.torn.contains path)
    (reach_start ['u']) (List.mem_singleton.2 rfl) (by
      intro path hp
      rw [cut_eq] at hp
      simpa using hp)
  rw [cut_eq] at this
  exact this

example : ∃ b, Reach Ex.env (· ∈ [g]) { cleaned with budget := b } := by
  have h : ∀ w : St Nat Str, (∃ b, Reach Ex.env (· ∈ [g]) { w with budget := b }) →
      ∃ b, Reach Ex.env (· ∈ [g]) { { w with budget := none } with budget := b } := fun _ h => h
  rw [cleaned]
  exact h _ (C67_deleting_torn_files_is_enough serOk reach_cleaned)

/-- The file was there and is not any more, and the build gives the right value. -/
example : cut.2.w.files.length = 2 ∧ cleaned.files.length = 1 ∧
    (buildAndRead Ex.env pieces ⟨cleaned, []⟩).1 = .ok ['u', '1'] := by decide +kernel

/-- Data with `!` cannot be serialised; this is noticed when the characters before it have been
written. -/
def partly (d : Str) : List Str × Option Err :=
  ((d.takeWhile (· ≠ '!')).map fun c => [c], if d.contains '!' then some .typeError else none)

def fenv : Env Nat Str := { Ex.env with
  enc := fun _ _ d => if d.contains '!' then .error .typeError else .ok d }

theorem serOk' : SerOk fenv fun _ _ d => .ok (partly d) := by
  intro i view d
  simp only [fenv, partly]
  by_cases h : d.contains '!' = true
  · simp only [h, ↓reduceIte]
  · simp only [h, Bool.false_eq_true, ↓reduceIte, Except.ok.injEq]
    have : d.takeWhile (· ≠ '!') = d := by
      rw [List.takeWhile_eq_self_iff]
      intro c hc
      simp only [ne_eq, decide_not, Bool.not_eq_eq_eq_not, Bool.not_true, decide_eq_false_iff_not]
      rintro rfl
      exact h (List.contains_iff_mem.2 hc)
    rw [this]
    clear h this
    induction d with
    | nil => rfl
    | cons c d ih => simpa using ih

/-- The build of which the output cannot be serialised. -/
def failed : Except Err Str × FSt Nat Str :=
  buildAndRead fenv (fun _ _ d => .ok (partly d)) (start "u!".toList)

end Ex67

/-- **C67** is violated when the process is interrupted while it writes a file.  A build that is not
interrupted makes `u1`.  It is interrupted when the first character of the output has been
written.  All builds in new processes then succeed, without calling the producer, and the output is
`u`; the torn file has the name of a complete one. -/
theorem C67_violated_by_interruption :
    (Ex67.buildAndRead Ex.env Ex67.pieces (Ex67.start ['u'])).1 = .ok ['u', '1'] ∧
    Ex67.cut.1 = .error .crash ∧
    (Ex67.buildAndRead Ex.env Ex67.pieces (Ex67.again Ex67.cut.2)).1 = .ok ['u'] ∧
    (Ex67.buildAndRead Ex.env Ex67.pieces (Ex67.again Ex67.cut.2)).2.w.calls.length =
      Ex67.cut.2.w.calls.length ∧
    (Ex67.buildAndRead Ex.env Ex67.pieces (Ex67.again
      (Ex67.buildAndRead Ex.env Ex67.pieces (Ex67.again Ex67.cut.2)).2)).1 = .ok ['u'] := by
  decide +kernel

/-- **C67** is violated when the data cannot be serialised.  The output is `u!1`, of which only `u`
can be written.  The build raises, and it raises again in the same process.  But a build in a new
process succeeds, and the output is `u`. -/
theorem C67_violated_by_failed_serialisation :
    SerOk Ex67.fenv (fun _ _ d => .ok (Ex67.partly d)) ∧
    Ex67.failed.1 = .error .typeError ∧
    (Ex67.buildAndRead Ex67.fenv (fun _ _ d => .ok (Ex67.partly d)) Ex67.failed.2).1 =
      .error .typeError ∧
    (Ex67.buildAndRead Ex67.fenv (fun _ _ d => .ok (Ex67.partly d))
      (Ex67.again Ex67.failed.2)).1 = .ok ['u'] :=
  ⟨Ex67.serOk', by decide +kernel, by decide +kernel, by decide +kernel⟩

end Arti.Props
