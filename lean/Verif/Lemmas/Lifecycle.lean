import Verif.Spec.Lifecycle
import Verif.Props.Topo
import Verif.Props.TypedBox

/-! Invariants of histories of graph definitions. -/

namespace Arti.Props
open Arti PyDict Spec Life

/-! ## Runs -/

theorem snoc_cases {α : Type} {P : List α → Prop} (h0 : P []) (h1 : ∀ l x, P l → P (l ++ [x]))
    (l : List α) : P l := by
  have : ∀ l : List α, P l.reverse := by
    intro l
    induction l with
    | nil => exact h0
    | cons x l ih => rw [List.reverse_cons]; exact h1 _ _ ih
  simpa using this l.reverse

theorem run_append (s : Proc) (es fs : List Ev) :
    s.run (es ++ fs) = (((s.run es).1.run fs).1, (s.run es).2 ++ ((s.run es).1.run fs).2) := by
  induction es generalizing s with
  | nil => rfl
  | cons e es ih => simp only [List.cons_append, Proc.run, ih]

theorem run_snoc (s : Proc) (es : List Ev) (e : Ev) :
    s.run (es ++ [e]) = (((s.run es).1.step e).1, (s.run es).2 ++ [(e, ((s.run es).1.step e).2)]) := by
  rw [run_append]
  rfl

theorem beingDefined_snoc (i : Nat) (t : Trace) (x : Ev × Option Err) :
    beingDefined i (t ++ [x]) = match x with
      | (.enter j, none) => if j = i then some true else beingDefined i t
      | (.leave j, none) => if j = i then some false else beingDefined i t
      | _ => beingDefined i t := by
  simp only [beingDefined, List.foldl_append, List.foldl_cons, List.foldl_nil]
  rfl

theorem withBlocks_left {t u : Trace} (h : WithBlocks (t ++ u)) : WithBlocks t := by
  intro l i r rest he
  exact h l i r (rest ++ u) (by rw [he]; simp)

/-- What an event does to a graph object, apart from entering and leaving. -/
structure Small (g g' : GObj) : Prop where
  name : g'.name = g.name
  tags : g'.tags = g.tags
  status : g'.status = g.status
  boxOpen : g'.boxOpen = g.boxOpen
  data : g.boxOpen = false → g'.data = g.data
  deps : g'.deps = g.deps ∨ g.deps = none ∧ g.status = some .closed ∧ g'.data = g.data ∧
    g'.deps = some g.graph.dependencies

theorem Small.refl (g : GObj) : Small g g := ⟨rfl, rfl, rfl, rfl, fun _ => rfl, .inl rfl⟩

theorem dependencies_cases (g : GObj) :
    (∃ d, g.deps = some d ∧ g.dependencies = (g, .ok d)) ∨
    (g.deps = none ∧ g.status = some .closed ∧
      g.dependencies = ({ g with deps := some g.graph.dependencies }, .ok g.graph.dependencies)) ∨
    (g.deps = none ∧ g.status ≠ some .closed ∧ g.dependencies = (g, .error .valueError)) := by
  unfold GObj.dependencies GObj.sealed
  cases h : g.deps with
  | some d => exact .inl ⟨d, rfl, rfl⟩
  | none =>
    by_cases hs : g.status = some .closed
    · exact .inr (.inl ⟨rfl, hs, by simp [hs]⟩)
    · exact .inr (.inr ⟨rfl, hs, by simp [hs]⟩)

theorem producerOutputs_fst (g : GObj) : ∃ o, g.producerOutputs.1 = { g with outs := o } := by
  unfold GObj.producerOutputs
  cases h : g.outs with
  | some o => exact ⟨some o, by simp [← h]⟩
  | none =>
    cases g.sealed with
    | error e => exact ⟨none, by simp [← h]⟩
    | ok _ => exact ⟨_, rfl⟩

theorem Small.trans {g g' g'' : GObj} (h : Small g g') (hd : g'.data = g.data)
    (h' : Small g' g'') (hd' : g''.data = g'.data) : Small g g'' := by
  refine ⟨h'.name.trans h.name, h'.tags.trans h.tags, h'.status.trans h.status,
    h'.boxOpen.trans h.boxOpen, fun hb => (h'.data (h.boxOpen.trans hb)).trans hd, ?_⟩
  have hg : g'.graph = g.graph := by simp only [GObj.graph, h.name, h.tags, hd]
  rcases h'.deps with h1 | ⟨h1, h2, h3, h4⟩
  · rcases h.deps with h5 | ⟨h5, h6, h7, h8⟩
    · exact .inl (h1.trans h5)
    · exact .inr ⟨h5, h6, hd'.trans hd, h1.trans h8⟩
  · rcases h.deps with h5 | ⟨h5, h6, h7, h8⟩
    · exact .inr ⟨h5.symm.trans h1, h.status.symm.trans h2, h3.trans hd, by rw [h4, hg]⟩
    · rw [h1] at h8; cases h8

theorem small_deps (g : GObj) : Small g g.dependencies.1 ∧ g.dependencies.1.data = g.data ∧
    ∀ d, g.dependencies.2 = .ok d → g.dependencies.1.deps = some d := by
  rcases dependencies_cases g with ⟨d, h1, h2⟩ | ⟨h1, h2, h3⟩ | ⟨h1, h2, h3⟩
  · rw [h2]
    exact ⟨.refl g, rfl, fun d' hd => by cases hd; exact h1⟩
  · rw [h3]
    exact ⟨⟨rfl, rfl, rfl, rfl, fun _ => rfl, .inr ⟨h1, h2, rfl, rfl⟩⟩, rfl,
      fun d hd => by cases hd; rfl⟩
  · rw [h3]
    exact ⟨.refl g, rfl, fun d hd => by cases hd⟩

theorem small_outs {g g' : GObj} (h : Small g g') : Small g g'.producerOutputs.1 ∧
    g'.producerOutputs.1.deps = g'.deps ∧ g'.producerOutputs.1.data = g'.data := by
  obtain ⟨o, ho⟩ := producerOutputs_fst g'
  rw [ho]
  exact ⟨⟨h.name, h.tags, h.status, h.boxOpen, h.data, h.deps⟩, rfl, rfl⟩

/-- Events that neither enter nor leave a graph. -/
def Calm : Ev × Option Err → Prop
  | (.enter _, none) | (.leave _, none) => False
  | _ => True

/-- What one event can do. -/
inductive Kind (s : Proc) : Ev → Proc → Option Err → Prop
  | none (e : Ev) (x : Err) : (∀ id, e = .leave id → get? s.objs id = none) → Kind s e s (some x)
  | new (id : Nat) (name : Str) (tags : PyDict Str Str) (items : InpItems Art) (d : BoxData Art) :
      get? s.objs id = none →
      Kind s (.new id name tags items) (s.put id ⟨name, tags, none, d, false, [], none, none⟩) none
  | enter (id : Nat) (g : GObj) : get? s.objs id = some g → s.ctx = none →
      Kind s (.enter id) { s.put id (g.toggle .opn) with ctx := some id } none
  | leave (id : Nat) (g : GObj) (r : Option Err) (d : List (Nd × List Nd)) :
      get? s.objs id = some g →
      (g.deps = some d ∨ g.deps = none ∧ d = g.graph.dependencies) →
      r = (match Topo.staticOrder d with | .ok _ => none | .error e => some e) →
      Kind s (.leave id) { s.put id { g.toggle .closed with deps := some d } with ctx := none } r
  | small (e : Ev) (g g' : GObj) (sn : List Nat) (r : Option Err) : get? s.objs e.id = some g →
      Small g g' → (∀ r, Calm (e, r)) →
      (sn = s.snaps ∨ sn = e.id :: s.snaps ∧ ∃ d, g'.deps = some d) →
      Kind s e { s.put e.id g' with snaps := sn } r

theorem put_put (s : Proc) (i : Nat) (g g' : GObj) (h : ∃ x, get? s.objs i = some x) :
    (s.put i g).put i g' = s.put i g' := by
  obtain ⟨x, hx⟩ := h
  simp only [Proc.put, Proc.mk.injEq, true_and, and_true]
  have key : ∀ d : PyDict Nat GObj, PyDict.set (PyDict.set d i g) i g' = PyDict.set d i g' := by
    intro d
    induction d with
    | nil => simp [PyDict.set]
    | cons p d ih =>
      obtain ⟨k, v⟩ := p
      by_cases hk : k = i
      · simp [PyDict.set, hk]
      · simp [PyDict.set, hk, ih]
  exact key _

theorem put_self (s : Proc) {i : Nat} {g : GObj} (h : get? s.objs i = some g) : s.put i g = s := by
  have key : ∀ d : PyDict Nat GObj, get? d i = some g → PyDict.set d i g = d := by
    intro d
    induction d with
    | nil => intro h; simp [get?] at h
    | cons p d ih =>
      obtain ⟨k, v⟩ := p
      intro h
      by_cases hk : k = i
      · simp only [get?, hk, if_true, Option.some.injEq] at h
        simp [PyDict.set, hk, h]
      · simp only [get?, hk, if_false] at h
        simp [PyDict.set, hk, ih h]
  simp only [Proc.put]
  rw [key _ h]

theorem kind_small {s : Proc} {e : Ev} {g g' : GObj} {r : Option Err} (h : get? s.objs e.id = some g)
    (hs : Small g g') (hc : ∀ r, Calm (e, r)) : Kind s e (s.put e.id g') r :=
  .small e g g' s.snaps r h hs hc (.inl rfl)

theorem kind_fromGraph {s : Proc} {e : Ev} {g : GObj} {rest : Option Err}
    (h : get? s.objs e.id = some g) (hc : ∀ r, Calm (e, r)) :
    Kind s e (s.fromGraph e.id g rest).1 (s.fromGraph e.id g rest).2 := by
  obtain ⟨h1, -, h3⟩ := small_deps g
  unfold Proc.fromGraph
  cases hd : g.dependencies with
  | mk g' r =>
    rw [hd] at h1 h3
    cases r with
    | error x => exact kind_small h h1 hc
    | ok d =>
      cases rest with
      | some x => exact kind_small h h1 hc
      | none => exact .small e g g' _ none h h1 hc (.inr ⟨rfl, d, h3 d rfl⟩)

/-- Using the dependencies and then the outputs. -/
theorem runBuild_eq (s : Proc) (id : Nat) (g : GObj) (rest : Option Err) :
    ∃ g' r, s.runBuild id g rest = (s.put id g', r) ∧ Small g g' ∧
      (∀ d, g.deps = some d → g'.deps = some d) ∧ g'.data = g.data := by
  obtain ⟨h1, h2, h3⟩ := small_deps g
  have hkeep : ∀ d, g.deps = some d → g.dependencies.1.deps = some d := by
    intro d hd
    rcases h1.deps with h | ⟨h, -⟩
    · rw [h, hd]
    · rw [h] at hd; cases hd
  unfold Proc.runBuild
  cases hd : g.dependencies with
  | mk g' r =>
    rw [hd] at h1 h2 hkeep
    cases r with
    | error x => exact ⟨g', some x, rfl, h1, hkeep, h2⟩
    | ok d =>
      dsimp only
      split
      · obtain ⟨h4, h5, h6⟩ := small_outs h1
        cases ho : g'.producerOutputs with
        | mk g'' r =>
          rw [ho] at h4 h5 h6
          have hk : ∀ d, g.deps = some d → g''.deps = some d := fun d hd => by
            rw [h5]; exact hkeep d hd
          cases r with
          | error x => exact ⟨g'', some x, rfl, h4, hk, h6.trans h2⟩
          | ok o => exact ⟨g'', rest, rfl, h4, hk, h6.trans h2⟩
      · exact ⟨g', rest, rfl, h1, hkeep, h2⟩

theorem set_get {i : Nat} {g : GObj} {d : PyDict Nat GObj} :
    get? (PyDict.set d i g) i = some g := by
  simp [get?_set]

theorem step_kind (s : Proc) (e : Ev) : Kind s e (s.step e).1 (s.step e).2 := by
  by_cases hnew : ∃ id name tags items, e = .new id name tags items
  · obtain ⟨id, name, tags, items, rfl⟩ := hnew
    simp only [Proc.step]
    cases hg : get? s.objs id with
    | some g => exact .none _ _ (fun _ h => by cases h)
    | none =>
      dsimp only
      cases hc : Box.construct (castValue s.ctxGraph) items with
      | error x => exact .none _ _ (fun _ h => by cases h)
      | ok d => exact .new id name tags items d hg
  · have hst : s.step e = match get? s.objs e.id with
        | none => (s, some .unsupported)
        | some g => s.onGraph g e := by
      cases e with
      | new id name tags items => exact absurd ⟨_, _, _, _, rfl⟩ hnew
      | _ => rfl
    rw [hst]
    cases hg : get? s.objs e.id with
    | none => exact .none _ _ (fun id h => by subst h; exact hg)
    | some g =>
      dsimp only
      have hself : ∀ r, (∀ r, Calm (e, r)) → Kind s e s r := by
        intro r hc
        have := kind_small (r := r) hg (Small.refl g) hc
        rwa [put_self s hg] at this
      have hguard : ∀ rest, (∀ r, Calm (e, r)) →
          Kind s e (s.guarded g rest).1 (s.guarded g rest).2 := by
        intro rest hc
        unfold Proc.guarded
        cases g.sealed with
        | error x => exact .none _ _ (fun id h => by subst h; exact absurd (hc none) (fun h => h))
        | ok _ => exact hself _ hc
      cases e with
      | new id name tags items => exact absurd ⟨_, _, _, _, rfl⟩ hnew
      | enter id =>
        simp only [Proc.onGraph]
        cases hc : s.ctx with
        | some j => exact .none _ _ (fun _ h => by cases h)
        | none => exact .enter id g hg hc
      | leave id =>
        simp only [Proc.onGraph]
        rcases dependencies_cases (g.toggle .closed) with ⟨d, h1, h2⟩ | ⟨h1, h2, h3⟩ | ⟨h1, h2, h3⟩
        · rw [h2]
          have : (g.toggle .closed) = { g.toggle .closed with deps := some d } := by
            rw [← h1]
          dsimp only
          rw [this]
          exact .leave id g _ d hg (.inl h1) rfl
        · rw [h3]
          exact .leave id g _ _ hg (.inr ⟨h1, rfl⟩) rfl
        · exact absurd rfl h2
      | box id op =>
        simp only [Proc.onGraph]
        refine kind_small hg ⟨rfl, rfl, rfl, rfl, ?_, .inl rfl⟩ (fun _ => trivial)
        intro hb
        have := (C12_closed_never_changes (castValue s.ctxGraph) g.data [op]).1
        simpa [Box.run, hb] using this
      | read id rest => exact hguard rest fun _ => trivial
      | write id rest => exact hguard rest fun _ => trivial
      | snapshot id rest =>
        simp only [Proc.onGraph]
        cases g.sealed with
        | error x => exact .none _ _ (fun _ h => by cases h)
        | ok _ => exact kind_fromGraph hg fun _ => trivial
      | build id rest =>
        simp only [Proc.onGraph]
        cases g.sealed with
        | error x => exact .none _ _ (fun _ h => by cases h)
        | ok _ =>
          dsimp only
          obtain ⟨h1, h2, h3⟩ := small_deps g
          unfold Proc.fromGraph
          cases hd : g.dependencies with
          | mk g' r =>
            rw [hd] at h1 h2 h3
            cases r with
            | error x => exact kind_small hg h1 (fun _ => trivial)
            | ok d =>
              cases rest with
              | some x => exact kind_small hg h1 (fun _ => trivial)
              | none =>
                have hget : get? (s.put id g').objs id = some g' := set_get
                simp only [hget]
                obtain ⟨g'', r, h4, h5, h6, h7⟩ := runBuild_eq
                  { s.put id g' with snaps := id :: s.snaps } id g' none
                rw [h4]
                have := Kind.small (.build id none) g g'' (id :: s.snaps) r hg (h1.trans h2 h5 h7)
                  (fun _ => trivial) (.inr ⟨rfl, d, h6 d (h3 d rfl)⟩)
                have he := congrArg Proc.objs (put_put s id g' g'' ⟨g, hg⟩)
                simp only [Proc.put, Ev.id] at this he ⊢
                rw [he]
                exact this
      | fromGraph id rest => exact kind_fromGraph hg fun _ => trivial
      | snapBuild id rest =>
        simp only [Proc.onGraph]
        split
        · obtain ⟨g', r, h1, h2, -, -⟩ := runBuild_eq s id g rest
          rw [h1]
          exact kind_small hg h2 (fun _ => trivial)
        · exact .none _ _ (fun _ h => by cases h)
      | snapTag id rest =>
        simp only [Proc.onGraph]
        split
        · exact hself _ (fun _ => trivial)
        · exact .none _ _ (fun _ h => by cases h)
      | snapRead id rest =>
        simp only [Proc.onGraph]
        split
        · exact hguard rest fun _ => trivial
        · exact .none _ _ (fun _ h => by cases h)
      | snapWrite id rest =>
        simp only [Proc.onGraph]
        split
        · exact hguard rest fun _ => trivial
        · exact .none _ _ (fun _ h => by cases h)
      | dependencies id => exact kind_small hg (small_deps g).1 (fun _ => trivial)
      | outputs id => exact kind_small hg (small_outs (Small.refl g)).1 (fun _ => trivial)

/-! ## Invariants of histories -/

theorem beingDefined_calm {i : Nat} {t : Trace} {x : Ev × Option Err} (h : Calm x) :
    beingDefined i (t ++ [x]) = beingDefined i t := by
  obtain ⟨e, r⟩ := x
  rw [beingDefined_snoc]
  cases e <;> cases r <;> first | rfl | exact absurd h id

theorem timesEntered_snoc (i : Nat) (t : Trace) (x : Ev × Option Err) :
    timesEntered i (t ++ [x]) = timesEntered i t + timesEntered i [x] := by
  simp [timesEntered]

theorem timesEntered_calm {i : Nat} {t : Trace} {x : Ev × Option Err} (h : Calm x) :
    timesEntered i (t ++ [x]) = timesEntered i t := by
  rw [timesEntered_snoc]
  obtain ⟨e, r⟩ := x
  cases e <;> cases r <;> first | rfl | exact absurd h id

theorem mem_calm {i : Nat} {t : Trace} {x : Ev × Option Err} (h : Calm x) :
    (.leave i, none) ∈ t ++ [x] ↔ (.leave i, none) ∈ t := by
  simp only [List.mem_append, List.mem_singleton, or_iff_left_iff_imp]
  rintro rfl
  exact absurd h id

/-- What holds after every history. -/
structure LInv (t : Trace) (s : Proc) : Prop where
  existing : ∀ i, beingDefined i t ≠ none → ∃ g, get? s.objs i = some g
  status : ∀ i g, get? s.objs i = some g →
    g.status = (beingDefined i t).map (fun b => if b then .opn else .closed) ∧
      g.boxOpen = (beingDefined i t == some true)
  deps : ∀ i g d, get? s.objs i = some g → g.deps = some d →
    (∃ g' : Graph, d = g'.dependencies) ∧ (.leave i, none) ∈ t
  left : ∀ i, (.leave i, none) ∈ t → ∃ g d, get? s.objs i = some g ∧ g.deps = some d
  snaps : ∀ i ∈ s.snaps, (.leave i, none) ∈ t

/-- What holds after every history of `with` blocks. -/
structure WInv (t : Trace) (s : Proc) : Prop where
  ctx : ∀ i, s.ctx = some i ↔ beingDefined i t = some true
  entered : ∀ i, beingDefined i t ≠ none → 1 ≤ timesEntered i t
  once : ∀ i g d, get? s.objs i = some g → g.deps = some d → timesEntered i t ≤ 1 →
    beingDefined i t = some false ∧ d = g.graph.dependencies

theorem small_bound {g g' : GObj} (h : Small g g') {d} (hd : g'.deps = some d) :
    g.deps = some d ∨ g.deps = none ∧ g.status = some .closed ∧ g'.data = g.data ∧
      d = g.graph.dependencies := by
  rcases h.deps with h1 | ⟨h1, h2, h3, h4⟩
  · exact .inl (h1.symm.trans hd)
  · exact .inr ⟨h1, h2, h3, by rw [h4] at hd; exact (Option.some.inj hd).symm⟩

theorem left_of_closed {i : Nat} {t : Trace} (h : beingDefined i t = some false) :
    (.leave i, none) ∈ t := by
  induction t using snoc_cases with
  | h0 => cases h
  | h1 t x ih =>
    by_cases hx : Calm x
    · rw [beingDefined_calm hx] at h
      exact List.mem_append_left _ (ih h)
    · obtain ⟨e, r⟩ := x
      rw [beingDefined_snoc] at h
      cases e <;> cases r <;> first | exact absurd trivial hx | skip
      · dsimp only at h
        split at h
        · cases h
        · exact List.mem_append_left _ (ih h)
      · dsimp only at h
        split at h
        · rename_i hj; subst hj; simp
        · exact List.mem_append_left _ (ih h)

/-- A graph other than the one of the event. -/
theorem get_put {s : Proc} {i j : Nat} {g : GObj} (h : i ≠ j) :
    get? (s.put i g).objs j = get? s.objs j := by
  simp [Proc.put, get?_set, h]

theorem get_put_self {s : Proc} {i : Nat} {g : GObj} : get? (s.put i g).objs i = some g := by
  simp [Proc.put, get?_set]

theorem linv_step {t : Trace} {s s' : Proc} {e : Ev} {r : Option Err} (hI : LInv t s)
    (hk : Kind s e s' r) : LInv (t ++ [(e, r)]) s' ∧
      (∀ id, e = .leave id → (∃ g, get? s.objs id = some g) → r = none) := by
  cases hk with
  | none e x hx =>
    have hc : Calm (e, some x) := by cases e <;> trivial
    refine ⟨⟨?_, ?_, ?_, ?_, ?_⟩, ?_⟩
    · intro i; rw [beingDefined_calm hc]; exact hI.existing i
    · intro i; rw [beingDefined_calm hc]; exact hI.status i
    · intro i; rw [mem_calm hc]; exact hI.deps i
    · intro i; rw [mem_calm hc]; exact hI.left i
    · intro i; rw [mem_calm hc]; exact hI.snaps i
    · rintro id h ⟨g, hg⟩
      rw [hx id h] at hg
      cases hg
  | new id name tags items d hg =>
    have hc : Calm (Ev.new id name tags items, none) := trivial
    have hb : beingDefined id t = none := by
      cases hb : beingDefined id t with
      | none => rfl
      | some b =>
        obtain ⟨g, hg'⟩ := hI.existing id (by rw [hb]; simp)
        rw [hg] at hg'; cases hg'
    refine ⟨⟨?_, ?_, ?_, ?_, ?_⟩, by rintro id h; cases h⟩
    · intro i hi
      rw [beingDefined_calm hc] at hi
      by_cases h : id = i
      · subst h; exact ⟨_, get_put_self⟩
      · rw [get_put h]; exact hI.existing i hi
    · intro i g hi
      rw [beingDefined_calm hc]
      by_cases h : id = i
      · subst h
        rw [get_put_self] at hi
        cases hi
        simp [hb]
      · rw [get_put h] at hi
        exact hI.status i g hi
    · intro i g d' hi hd'
      rw [mem_calm hc]
      by_cases h : id = i
      · subst h
        rw [get_put_self] at hi
        cases hi
        cases hd'
      · rw [get_put h] at hi
        exact hI.deps i g d' hi hd'
    · intro i hi
      rw [mem_calm hc] at hi
      obtain ⟨g, d', h1, h2⟩ := hI.left i hi
      by_cases h : id = i
      · subst h; rw [hg] at h1; cases h1
      · exact ⟨g, d', by rw [get_put h]; exact h1, h2⟩
    · intro i hi
      rw [mem_calm hc]
      exact hI.snaps i hi
  | enter id g hg hctx =>
    have hbd : ∀ i, beingDefined i (t ++ [(Ev.enter id, none)]) =
        if id = i then some true else beingDefined i t := fun i => beingDefined_snoc i t _
    have hmem : ∀ i, (Ev.leave i, none) ∈ t ++ [(Ev.enter id, (none : Option Err))] ↔
        (Ev.leave i, none) ∈ t := by intro i; simp
    refine ⟨⟨?_, ?_, ?_, ?_, ?_⟩, by rintro id h; cases h⟩
    · intro i hi
      by_cases h : id = i
      · subst h; exact ⟨_, get_put_self⟩
      · rw [hbd, if_neg h] at hi
        show ∃ g', get? (s.put id _).objs i = some g'
        rw [get_put h]
        exact hI.existing i hi
    · intro i g' hi
      rw [hbd]
      by_cases h : id = i
      · subst h
        have hi : get? (s.put id _).objs id = some g' := hi
        rw [get_put_self] at hi
        cases hi
        simp [GObj.toggle]
      · rw [if_neg h]
        have hi : get? (s.put id _).objs i = some g' := hi
        rw [get_put h] at hi
        exact hI.status i g' hi
    · intro i g' d' hi hd'
      rw [hmem]
      by_cases h : id = i
      · subst h
        have hi : get? (s.put id _).objs id = some g' := hi
        rw [get_put_self] at hi
        cases hi
        exact hI.deps id g d' hg hd'
      · have hi : get? (s.put id _).objs i = some g' := hi
        rw [get_put h] at hi
        exact hI.deps i g' d' hi hd'
    · intro i hi
      rw [hmem] at hi
      obtain ⟨g', d', h1, h2⟩ := hI.left i hi
      by_cases h : id = i
      · subst h
        rw [hg] at h1
        cases h1
        exact ⟨_, d', get_put_self, h2⟩
      · exact ⟨g', d', (get_put h).trans h1, h2⟩
    · intro i hi
      rw [hmem]
      exact hI.snaps i hi
  | leave id g r d hg hd hr =>
    have hdg : ∃ g' : Graph, d = g'.dependencies := by
      rcases hd with hd | ⟨-, hd⟩
      · exact (hI.deps id g d hg hd).1
      · exact ⟨_, hd⟩
    have hr0 : r = none := by
      obtain ⟨g', rfl⟩ := hdg
      obtain ⟨-, order, ho⟩ := C28_graphs_are_acyclic g'
      rw [hr, ho]
    subst hr0
    clear hr
    have hbd : ∀ i, beingDefined i (t ++ [(Ev.leave id, none)]) =
        if id = i then some false else beingDefined i t := fun i => beingDefined_snoc i t _
    have hmem : ∀ i, (Ev.leave i, none) ∈ t ++ [(Ev.leave id, (none : Option Err))] ↔
        (Ev.leave i, none) ∈ t ∨ i = id := by intro i; simp
    refine ⟨⟨?_, ?_, ?_, ?_, ?_⟩, fun _ _ _ => rfl⟩
    · intro i hi
      by_cases h : id = i
      · subst h; exact ⟨_, get_put_self⟩
      · rw [hbd, if_neg h] at hi
        show ∃ g', get? (s.put id _).objs i = some g'
        rw [get_put h]
        exact hI.existing i hi
    · intro i g' hi
      rw [hbd]
      by_cases h : id = i
      · subst h
        have hi : get? (s.put id _).objs id = some g' := hi
        rw [get_put_self] at hi
        cases hi
        simp [GObj.toggle]
      · rw [if_neg h]
        have hi : get? (s.put id _).objs i = some g' := hi
        rw [get_put h] at hi
        exact hI.status i g' hi
    · intro i g' d' hi hd'
      rw [hmem]
      by_cases h : id = i
      · subst h
        have hi : get? (s.put id _).objs id = some g' := hi
        rw [get_put_self] at hi
        cases hi
        cases hd'
        exact ⟨hdg, .inr rfl⟩
      · have hi : get? (s.put id _).objs i = some g' := hi
        rw [get_put h] at hi
        obtain ⟨h1, h2⟩ := hI.deps i g' d' hi hd'
        exact ⟨h1, .inl h2⟩
    · intro i hi
      rw [hmem] at hi
      by_cases h : id = i
      · subst h
        exact ⟨_, d, get_put_self, rfl⟩
      · rcases hi with hi | hi
        · obtain ⟨g', d', h1, h2⟩ := hI.left i hi
          exact ⟨g', d', (get_put h).trans h1, h2⟩
        · exact absurd hi.symm h
    · intro i hi
      rw [hmem]
      exact .inl (hI.snaps i hi)
  | small e g g' sn r hg hs hc0 hsn =>
    have hc := hc0 r
    refine ⟨⟨?_, ?_, ?_, ?_, ?_⟩, ?_⟩
    · intro i hi
      rw [beingDefined_calm hc] at hi
      by_cases h : e.id = i
      · subst h; exact ⟨_, get_put_self⟩
      · show ∃ g', get? (s.put e.id _).objs i = some g'
        rw [get_put h]; exact hI.existing i hi
    · intro i g1 hi
      rw [beingDefined_calm hc]
      by_cases h : e.id = i
      · subst h
        have hi : get? (s.put e.id _).objs e.id = some g1 := hi
        rw [get_put_self] at hi
        cases hi
        rw [hs.status, hs.boxOpen]
        exact hI.status _ g hg
      · have hi : get? (s.put e.id _).objs i = some g1 := hi
        rw [get_put h] at hi
        exact hI.status i g1 hi
    · intro i g1 d' hi hd'
      rw [mem_calm hc]
      by_cases h : e.id = i
      · subst h
        have hi : get? (s.put e.id _).objs e.id = some g1 := hi
        rw [get_put_self] at hi
        cases hi
        rcases small_bound hs hd' with h1 | ⟨h1, h2, -, h3⟩
        · exact hI.deps _ g d' hg h1
        · refine ⟨⟨_, h3⟩, left_of_closed ?_⟩
          have := (hI.status _ g hg).1
          rw [h2] at this
          cases hb : beingDefined e.id t with
          | none => rw [hb] at this; cases this
          | some b =>
            cases b with
            | false => rfl
            | true => rw [hb] at this; cases this
      · have hi : get? (s.put e.id _).objs i = some g1 := hi
        rw [get_put h] at hi
        exact hI.deps i g1 d' hi hd'
    · intro i hi
      rw [mem_calm hc] at hi
      obtain ⟨g1, d', h1, h2⟩ := hI.left i hi
      by_cases h : e.id = i
      · subst h
        rw [hg] at h1
        cases h1
        refine ⟨g', d', get_put_self, ?_⟩
        rcases hs.deps with h3 | ⟨h3, -⟩
        · rw [h3, h2]
        · rw [h3] at h2; cases h2
      · exact ⟨g1, d', (get_put h).trans h1, h2⟩
    · intro i hi
      rw [mem_calm hc]
      rcases hsn with rfl | ⟨rfl, d', hd'⟩
      · exact hI.snaps i hi
      · rcases List.mem_cons.1 hi with rfl | hi
        · rcases small_bound hs hd' with h1 | ⟨h1, h2, -, h3⟩
          · exact (hI.deps _ g d' hg h1).2
          · apply left_of_closed
            have := (hI.status _ g hg).1
            rw [h2] at this
            cases hb : beingDefined e.id t with
            | none => rw [hb] at this; cases this
            | some b =>
              cases b with
              | false => rfl
              | true => rw [hb] at this; cases this
        · exact hI.snaps i hi
    · rintro id rfl -
      exact absurd (hc0 none) (fun h => h)

theorem linv_run (es : List Ev) : LInv (Proc.init.run es).2 (Proc.init.run es).1 := by
  induction es using snoc_cases with
  | h0 => exact ⟨by simp [Proc.run, beingDefined], by simp [Proc.run, Proc.init],
      by simp [Proc.run, Proc.init], by simp [Proc.run], by simp [Proc.run, Proc.init]⟩
  | h1 es e ih =>
    rw [run_snoc]
    exact (linv_step ih (step_kind _ _)).1

theorem winv_step {t : Trace} {s s' : Proc} {e : Ev} {r : Option Err} (hI : LInv t s)
    (hW : WInv t s) (hwb : WithBlocks (t ++ [(e, r)])) (hk : Kind s e s' r) :
    WInv (t ++ [(e, r)]) s' := by
  cases hk with
  | none e x hx =>
    have hc : Calm (e, some x) := by cases e <;> trivial
    refine ⟨?_, ?_, ?_⟩
    · intro i; rw [beingDefined_calm hc]; exact hW.ctx i
    · intro i; rw [beingDefined_calm hc, timesEntered_calm hc]; exact hW.entered i
    · intro i; rw [beingDefined_calm hc, timesEntered_calm hc]; exact hW.once i
  | new id name tags items d hg =>
    have hc : Calm (Ev.new id name tags items, none) := trivial
    refine ⟨?_, ?_, ?_⟩
    · intro i; rw [beingDefined_calm hc]; exact hW.ctx i
    · intro i; rw [beingDefined_calm hc, timesEntered_calm hc]; exact hW.entered i
    · intro i g d' hi hd'
      rw [beingDefined_calm hc, timesEntered_calm hc]
      by_cases h : id = i
      · subst h
        rw [get_put_self] at hi
        cases hi
        cases hd'
      · rw [get_put h] at hi
        exact hW.once i g d' hi hd'
  | enter id g hg hctx =>
    have hbd : ∀ i, beingDefined i (t ++ [(Ev.enter id, none)]) =
        if id = i then some true else beingDefined i t := fun i => beingDefined_snoc i t _
    have hte : ∀ i, timesEntered i (t ++ [(Ev.enter id, none)]) =
        timesEntered i t + if id = i then 1 else 0 := by
      intro i
      rw [timesEntered_snoc]
      by_cases h : id = i <;> simp [timesEntered, h]
    refine ⟨?_, ?_, ?_⟩
    · intro i
      rw [hbd]
      show some id = some i ↔ _
      by_cases h : id = i
      · simp [h]
      · have : beingDefined i t ≠ some true := by
          intro hb
          rw [← hW.ctx i, hctx] at hb
          cases hb
        simp [h, this]
    · intro i
      rw [hbd, hte]
      by_cases h : id = i
      · simp [h]
      · simpa [h] using hW.entered i
    · intro i g' d' hi hd' hle
      rw [hte] at hle
      by_cases h : id = i
      · subst h
        have hi : get? (s.put id _).objs id = some g' := hi
        rw [get_put_self] at hi
        cases hi
        exfalso
        have hleft := (hI.deps id g d' hg hd').2
        have : beingDefined id t ≠ none := by
          obtain ⟨l, m, hlm⟩ := List.append_of_mem hleft
          have h1 := withBlocks_left hwb l id none m hlm
          intro hb
          have key : ∀ m : Trace, beingDefined id (l ++ (Ev.leave id, none) :: m) ≠ none := by
            intro m
            induction m using snoc_cases with
            | h0 => rw [beingDefined_snoc]; simp
            | h1 m x ih =>
              rw [← List.cons_append, ← List.append_assoc, beingDefined_snoc]
              split
              · split <;> simp_all
              · split <;> simp_all
              · exact ih
          exact key m (hlm ▸ hb)
        have := hW.entered id this
        simp at hle
        omega
      · have hi : get? (s.put id _).objs i = some g' := hi
        rw [get_put h] at hi
        rw [hbd, if_neg h]
        exact hW.once i g' d' hi hd' (by simpa [h] using hle)
  | leave id g r d hg hd hr =>
    have hr0 : r = none := (linv_step hI (.leave id g r d hg hd hr)).2 id rfl ⟨g, hg⟩
    subst hr0
    have hbt : beingDefined id t = some true := hwb t id none [] rfl
    have hbd : ∀ i, beingDefined i (t ++ [(Ev.leave id, none)]) =
        if id = i then some false else beingDefined i t := fun i => beingDefined_snoc i t _
    have hte : ∀ i, timesEntered i (t ++ [(Ev.leave id, none)]) = timesEntered i t := by
      intro i
      rw [timesEntered_snoc]
      rfl
    refine ⟨?_, ?_, ?_⟩
    · intro i
      rw [hbd]
      show none = some i ↔ _
      by_cases h : id = i
      · simp [h]
      · have : beingDefined i t ≠ some true := by
          intro hb
          rw [← hW.ctx i, (hW.ctx id).2 hbt] at hb
          exact h (Option.some.inj hb)
        simp [h, this]
    · intro i hi
      rw [hte]
      by_cases h : id = i
      · subst h; exact hW.entered id (by rw [hbt]; simp)
      · rw [hbd, if_neg h] at hi
        exact hW.entered i hi
    · intro i g' d' hi hd' hle
      rw [hte] at hle
      by_cases h : id = i
      · subst h
        have hi : get? (s.put id _).objs id = some g' := hi
        rw [get_put_self] at hi
        cases hi
        cases hd'
        refine ⟨by rw [hbd]; simp, ?_⟩
        rcases hd with hd | ⟨-, hd⟩
        · have := (hW.once id g d hg hd hle).1
          rw [hbt] at this
          cases this
        · exact hd
      · have hi : get? (s.put id _).objs i = some g' := hi
        rw [get_put h] at hi
        rw [hbd, if_neg h]
        exact hW.once i g' d' hi hd' hle
  | small e g g' sn r hg hs hc0 hsn =>
    have hc := hc0 r
    refine ⟨?_, ?_, ?_⟩
    · intro i; rw [beingDefined_calm hc]; exact hW.ctx i
    · intro i; rw [beingDefined_calm hc, timesEntered_calm hc]; exact hW.entered i
    · intro i g1 d' hi hd'
      rw [beingDefined_calm hc, timesEntered_calm hc]
      intro hle
      by_cases h : e.id = i
      · subst h
        have hi : get? (s.put e.id _).objs e.id = some g1 := hi
        rw [get_put_self] at hi
        cases hi
        have hgraph : g'.data = g.data → g'.graph = g.graph := by
          intro h
          simp only [GObj.graph, hs.name, hs.tags, h]
        rcases small_bound hs hd' with h1 | ⟨h1, h2, h3, h4⟩
        · obtain ⟨h5, h6⟩ := hW.once _ g d' hg h1 hle
          refine ⟨h5, ?_⟩
          rw [hgraph (hs.data ?_), h6]
          rw [(hI.status _ g hg).2, h5]
          rfl
        · refine ⟨?_, by rw [h4, hgraph h3]⟩
          have := (hI.status _ g hg).1
          rw [h2] at this
          cases hb : beingDefined e.id t with
          | none => rw [hb] at this; cases this
          | some b =>
            cases b with
            | false => rfl
            | true => rw [hb] at this; cases this
      · have hi : get? (s.put e.id _).objs i = some g1 := hi
        rw [get_put h] at hi
        exact hW.once i g1 d' hi hd' hle

theorem winv_run (es : List Ev) (h : WithBlocks (Proc.init.run es).2) :
    WInv (Proc.init.run es).2 (Proc.init.run es).1 := by
  induction es using snoc_cases with
  | h0 => exact ⟨by simp [Proc.run, Proc.init, beingDefined], by simp [Proc.run, beingDefined],
      by simp [Proc.run, Proc.init]⟩
  | h1 es e ih =>
    rw [run_snoc] at h ⊢
    exact winv_step (linv_run es) (ih (withBlocks_left h)) h (step_kind _ _)

end Arti.Props
