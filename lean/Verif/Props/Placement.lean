import Verif.Lemmas.Placement
import Verif.Props.Lifecycle
import Verif.Props.Templates

/-!
# C56: artifacts that are assigned to a graph

`(Proc.init.run es).1` is the state after the program `es`, and `(Proc.init.run es).2` its history.
The artifacts of a graph are those that `graph.artifacts.walk()` yields, with their dotted keys.
-/

namespace Arti.Props
open Arti PyDict Spec Life Box Fmt

theorem nodeAt_ne_nil {d : BoxData Art} {p : List Str} {a : Art}
    (h : nodeAt (.box d) p = some (.leaf a)) : p ≠ [] := by
  rintro rfl
  simp [nodeAt] at h

/-- What holds of the contents of graphs after every program. -/
structure DInv (s : Proc) : Prop where
  wf : ∀ i g, get? s.objs i = some g → Wf (.box g.data)
  fp : ∀ i g p a, get? s.objs i = some g → nodeAt (.box g.data) p = some (.leaf a) →
    a.out.isSome = true → a.info.sto.hasFp = true

theorem dinv_step {s : Proc} (h : DInv s) (e : Ev) : DInv (s.step e).1 := by
  constructor
  · intro i g' hg
    rcases data_step s e hg with ⟨g, h1, _, _, h4 | ⟨op, rfl, h4⟩⟩ | ⟨n, t, items, rfl, _, _, h4⟩
    · rw [h4]; exact h.wf i g h1
    · rw [h4]; exact box_step_wf _ _ _ _ (h.wf i g h1)
    · exact construct_wf _ h4
  · intro i g' p a hg hp ho
    have cast : ∀ graph a0, castAt (castValue graph) p a0 = .ok a → a.info.sto.hasFp = true := by
      intro graph a0 hc
      obtain ⟨hpl, hf⟩ := castAt_ok (nodeAt_ne_nil hp) hc
      exact hf (by rw [hpl.1.1]; exact ho)
    rcases data_step s e hg with ⟨g, h1, _, _, h4 | ⟨op, rfl, h4⟩⟩ | ⟨n, t, items, rfl, _, _, h4⟩
    · rw [h4] at hp; exact h.fp i g p a h1 hp ho
    · rw [h4] at hp
      rcases step_grow _ _ _ _ p a hp with hp | ⟨a0, _, hc⟩
      · exact h.fp i g p a h1 hp ho
      · exact cast _ a0 hc
    · obtain ⟨a0, _, hc⟩ := construct_grow _ h4 hp
      exact cast _ a0 hc

theorem dinv_run (es : List Ev) : DInv (Proc.init.run es).1 := by
  induction es using snoc_cases with
  | h0 => exact ⟨by simp [Proc.run, Proc.init, get?], by simp [Proc.run, Proc.init, get?]⟩
  | h1 es e ih =>
    rw [run_snoc]
    exact dinv_step ih e

theorem nodeAt_of_walk {es : List Ev} {i : Nat} {g : GObj}
    (hg : get? (Proc.init.run es).1.objs i = some g) {key : Str} {a : Art}
    (ha : (key, a) ∈ Box.walk g.data) :
    nodeAt (.box g.data) (splitOn '.' key) = some (.leaf a) := by
  have hw := (dinv_run es).wf i g hg
  exact (box_holds_iff hw key a).1 ((box_mem_walk_iff hw key a).1 ha)

/-- C56: whatever a program does, every produced artifact in a graph has the placeholder of the input
fingerprint in its storage. -/
theorem C56_produced_artifacts_have_the_template (es : List Ev) (i : Nat) (g : GObj)
    (hg : get? (Proc.init.run es).1.objs i = some g) (key : Str) (a : Art)
    (ha : (key, a) ∈ Box.walk g.data) (hp : a.out.isSome = true) : HasFpTemplate a.info.sto :=
  (hasFp_iff _).1 ((dinv_run es).fp i g _ a hg (nodeAt_of_walk hg ha) hp)

/-- The artifact `a` at a path was given to the constructor of its graph, after the program `l`: then
its storage has the values of the graph that was being defined, if there was one, and otherwise none
but the (empty) fingerprint. -/
def GivenAfter (l : List Ev) (p : List Str) (a0 a : Art) : Prop :=
  (∃ j gj, beingDefined j (Proc.init.run l).2 = some true ∧
    get? (Proc.init.run l).1.objs j = some gj ∧
    PlacedAs (placeholderValues gj.name gj.tags p a0.out.isNone) a0 a) ∨
  ((∀ j, beingDefined j (Proc.init.run l).2 ≠ some true) ∧
    PlacedAs (if a0.out.isNone then [[("input_fingerprint".toList, [])]] else []) a0 a)

/-- Where an artifact of a graph comes from: an assignment, or the constructor of the graph. -/
def Origin (es : List Ev) (i : Nat) (name : Str) (tags : PyDict Str Str) (p : List Str) (a : Art) :
    Prop :=
  (∃ op a0, Ev.box i op ∈ es ∧ Assigns op p a0 ∧
    PlacedAs (placeholderValues name tags p a0.out.isNone) a0 a) ∨
  ∃ l rest items a0, es = l ++ .new i name tags items :: rest ∧ InpItems.Has items p a0 ∧
    GivenAfter l p a0 a

theorem Origin.snoc {es : List Ev} {i : Nat} {name : Str} {tags : PyDict Str Str} {p : List Str}
    {a : Art} (h : Origin es i name tags p a) (e : Ev) : Origin (es ++ [e]) i name tags p a := by
  rcases h with ⟨op, a0, h1, h2⟩ | ⟨l, rest, items, a0, rfl, h2⟩
  · exact .inl ⟨op, a0, by simp [h1], h2⟩
  · exact .inr ⟨l, rest ++ [e], items, a0, by simp, h2⟩

/-- C56: in every program of `with` blocks, every artifact of a graph is one that was assigned to its
key in the graph (directly or in a nested mapping), with the name and tags of the graph and the full
path of the key put in its storage; or it was given to the constructor of the graph. -/
theorem C56_origin_of_artifacts (es : List Ev) (hw : WithBlocks (Proc.init.run es).2) (i : Nat)
    (g : GObj) (hg : get? (Proc.init.run es).1.objs i = some g) (key : Str) (a : Art)
    (ha : (key, a) ∈ Box.walk g.data) : Origin es i g.name g.tags (splitOn '.' key) a := by
  have hp := nodeAt_of_walk hg ha
  revert hp
  generalize splitOn '.' key = p
  clear ha
  intro hp
  induction es using snoc_cases generalizing i g p a with
  | h0 => simp [Proc.run, Proc.init, get?] at hg
  | h1 es e ih =>
    rw [run_snoc] at hg hw
    have hwb := withBlocks_left hw
    have hL := linv_run es
    have hW := winv_run es hwb
    rcases data_step _ e hg with ⟨g0, h1, hn, ht, h4⟩ | ⟨n, t, items, rfl, hn, ht, h4⟩
    · rw [hn, ht]
      rcases h4 with h4 | ⟨op, rfl, h4⟩
      · rw [h4] at hp
        exact (ih hwb i g0 h1 a p hp).snoc e
      · rw [h4] at hp
        cases hb : g0.boxOpen with
        | false =>
          have hc := (C12_closed_never_changes (castValue (Proc.init.run es).1.ctxGraph) g0.data [op]).1
          simp only [List.map_cons, List.map_nil, Box.run] at hc
          rw [hb, hc] at hp
          exact (ih hwb i g0 h1 a p hp).snoc _
        | true =>
          rcases step_grow _ _ _ _ p a hp with hp' | ⟨a0, has, hc⟩
          · exact (ih hwb i g0 h1 a p hp').snoc _
          · have hbd : beingDefined i (Proc.init.run es).2 = some true := by
              have := (hL.status i g0 h1).2
              rw [hb] at this
              simpa using this.symm
            have hctx := (hW.ctx i).2 hbd
            have hcg : (Proc.init.run es).1.ctxGraph = some (g0.name, g0.tags) := by
              simp [Proc.ctxGraph, hctx, h1]
            obtain ⟨hpl, _⟩ := castAt_ok (nodeAt_ne_nil hp) hc
            rw [hcg] at hpl
            exact .inl ⟨op, a0, by simp, has, hpl⟩
    · subst hn ht
      obtain ⟨a0, has, hc⟩ := construct_grow _ h4 hp
      obtain ⟨hpl, _⟩ := castAt_ok (nodeAt_ne_nil hp) hc
      refine .inr ⟨es, [], items, a0, rfl, has, ?_⟩
      cases hctx : (Proc.init.run es).1.ctx with
      | none =>
        refine .inr ⟨fun j hj => ?_, ?_⟩
        · rw [(hW.ctx j).2 hj] at hctx
          cases hctx
        · have hcg : (Proc.init.run es).1.ctxGraph = none := by simp [Proc.ctxGraph, hctx]
          rw [hcg] at hpl
          exact hpl
      | some j =>
        have hbd := (hW.ctx j).1 hctx
        obtain ⟨gj, hgj⟩ := hL.existing j (by rw [hbd]; simp)
        have hcg : (Proc.init.run es).1.ctxGraph = some (gj.name, gj.tags) := by
          simp [Proc.ctxGraph, hctx, hgj]
        rw [hcg] at hpl
        exact .inl ⟨j, gj, hbd, hgj, hpl⟩

/-- C56 for graphs that are created without artifacts: every artifact is stored under the name, the
tags and the full path of the graph that it is in.  Missing: artifacts given to the constructor, for
which this is false (`C56_violated_by_constructor_artifacts`). -/
theorem C56_stored_under_graph_and_path_partial (es : List Ev)
    (hw : WithBlocks (Proc.init.run es).2) (i : Nat) (g : GObj)
    (hg : get? (Proc.init.run es).1.objs i = some g)
    (hnew : ∀ name tags items, Ev.new i name tags items ∈ es → items = .nil) (key : Str) (a : Art)
    (ha : (key, a) ∈ Box.walk g.data) :
    ∃ op a0, Ev.box i op ∈ es ∧ Assigns op (splitOn '.' key) a0 ∧
      PlacedAs (placeholderValues g.name g.tags (splitOn '.' key) a0.out.isNone) a0 a := by
  rcases C56_origin_of_artifacts es hw i g hg key a ha with h | ⟨l, rest, items, a0, he, hi, _⟩
  · exact h
  · rw [hnew g.name g.tags items (by simp [he])] at hi
    cases hi

/-! ## What the storage looks like -/

/-- Values without braces as templates. -/
def asToks (vals : PyDict Str Str) : PyDict Str (List Tok) := vals.map fun (n, v) => (n, v.map .ch)

theorem eq_chars_of_print {U : List Tok} (h : '{' ∉ print U) : U = (print U).map .ch := by
  induction U with
  | nil => rfl
  | cons x U ih =>
    rw [print_cons] at h ⊢
    simp only [List.mem_append, not_or] at h
    cases x with
    | ch c =>
      rw [List.map_append, ← ih h.2]
      rfl
    | fld f => simp [printTok, printFld] at h

theorem brace_of_segOk {s : Str} (h : segOk s = true) : '{' ∉ s := fun hm => by
  simp only [segOk, Bool.and_eq_true, List.all_eq_true] at h
  simpa using h.2 _ hm

theorem brace_joinWith {l : List Str} (h : ∀ s ∈ l, '{' ∉ s) : '{' ∉ joinWith ['/'] l := by
  induction l with
  | nil => simp [joinWith]
  | cons s l ih =>
    cases l with
    | nil => simpa [joinWith] using h
    | cons s' l =>
      simp only [joinWith, List.mem_append, not_or]
      exact ⟨⟨h s (by simp), by decide⟩, ih fun x hx => h x (by simp [hx])⟩

theorem brace_of_textOk {s : Str} (h : textOk s = true) : '{' ∉ s := by
  have := (valueOk_iff.1 h).1
  intro hm
  simp only [tmplOk, List.all_eq_true, List.mem_map, forall_exists_index, and_imp] at this
  exact absurd (this _ '{' hm rfl) (by decide)

theorem asToks_of_texts {V : PyDict Str (List Tok)} (h : ∀ p ∈ texts V, '{' ∉ p.2) :
    V = asToks (texts V) := by
  induction V with
  | nil => rfl
  | cons p V ih =>
    simp only [texts, List.map_cons, List.mem_cons, forall_eq_or_imp] at h
    simp only [texts, asToks, List.map_cons, List.cons.injEq]
    exact ⟨Prod.ext rfl (eq_chars_of_print h.1), ih h.2⟩

/-- The values as templates. -/
theorem placeholder_toks (graph : Str) (tags : PyDict Str Str) (path : List Str) (raw : Bool)
    (hnames : ∀ n ∈ path, segOk n = true) (hgraph : textOk graph = true)
    (htags : ∀ p ∈ tags, segOk p.1 = true ∧ segOk p.2 = true) :
    ∃ vs : List (PyDict Str (List Tok)), placeholderValues graph tags path raw = vs.map texts ∧
      vs.flatten = asToks (placeholderValues graph tags path raw).flatten ∧
      (keys vs.flatten) = ["graph_name".toList, "path_tags".toList, "name".toList, "names".toList] ++
        (if raw then ["input_fingerprint".toList] else []) ∧
      ∀ p ∈ vs.flatten, valueOk placeholderNames p.2 = true := by
  have hbr : ∀ p ∈ (placeholderValues graph tags path raw).flatten, '{' ∉ p.2 := by
    intro p hp
    have hl : '{' ∉ path.getLastD [] := by
      cases path with
      | nil => simp
      | cons n ns =>
        have hm : (n :: ns).getLastD [] ∈ n :: ns := by
          rw [List.getLastD_eq_getLast?, List.getLast?_eq_some_getLast (by simp)]
          exact List.getLast_mem _
        exact brace_of_segOk (hnames _ hm)
    have hn : '{' ∉ joinWith ['/'] path := brace_joinWith fun s hs => brace_of_segOk (hnames s hs)
    have ht : '{' ∉ joinWith ['/'] (tags.map fun (t, v) => t ++ '=' :: v) := by
      refine brace_joinWith fun s hs => ?_
      obtain ⟨⟨t, v⟩, hp, rfl⟩ := List.mem_map.1 hs
      have h1 := brace_of_segOk (htags _ hp).1
      have h2 := brace_of_segOk (htags _ hp).2
      simp only [List.mem_append, List.mem_cons, not_or]
      exact ⟨h1, by decide, h2⟩
    have hg := brace_of_textOk hgraph
    simp only [placeholderValues, List.flatten_append, List.flatten_cons, List.flatten_nil,
      List.mem_append, List.mem_cons, List.not_mem_nil, or_false] at hp
    rcases hp with ((rfl | rfl) | rfl | rfl) | hp
    · exact hg
    · exact ht
    · exact hl
    · exact hn
    · cases raw with
      | false => simp at hp
      | true =>
        simp only [if_true, List.flatten_cons, List.flatten_nil, List.append_nil,
          List.mem_singleton] at hp
        subst hp
        simp
  suffices hs : ∃ vs : List (PyDict Str (List Tok)), placeholderValues graph tags path raw = vs.map texts ∧
      (keys vs.flatten) = ["graph_name".toList, "path_tags".toList, "name".toList, "names".toList] ++
        (if raw then ["input_fingerprint".toList] else []) ∧
      ∀ p ∈ vs.flatten, valueOk placeholderNames p.2 = true by
    obtain ⟨vs, h1, h2, h3⟩ := hs
    refine ⟨vs, h1, ?_, h2, h3⟩
    have hf : (placeholderValues graph tags path raw).flatten = texts vs.flatten := by
      rw [h1]
      simp only [texts, List.map_flatten]
      rfl
    rw [hf] at hbr ⊢
    exact asToks_of_texts hbr
  obtain ⟨vs, h1, h2, h3⟩ := values_toks path graph tags [] [] none hnames hgraph htags (by decide)
    (by simp [keys])
  cases vs with
  | nil => simp at h1
  | cons v1 vs =>
  cases vs with
  | nil => simp at h1
  | cons v2 vs =>
  cases vs with
  | nil => simp at h1
  | cons v3 vs =>
  cases vs with
  | nil => simp at h1
  | cons v4 vs =>
  cases vs with
  | nil => simp at h1
  | cons v5 vs =>
  cases vs with
  | cons v6 vs => simp at h1
  | nil =>
    simp only [List.map_cons, List.map_nil, List.cons.injEq, and_true] at h1
    obtain ⟨e1, e2, e3, e4, e5⟩ := h1
    have k1 : keys v1 = ["partition_key_spec".toList] := by rw [← Fmt.keys_texts, ← e1]; rfl
    have k2 : keys v2 = ["extension".toList] := by rw [← Fmt.keys_texts, ← e2]; rfl
    have k3 : keys v3 = ["graph_name".toList, "path_tags".toList] := by
      rw [← Fmt.keys_texts, ← e3]; rfl
    have k4 : keys v4 = ["name".toList, "names".toList] := by rw [← Fmt.keys_texts, ← e4]; rfl
    have k5 : keys v5 = ["input_fingerprint".toList] := by rw [← Fmt.keys_texts, ← e5]; rfl
    have hap : ∀ a b : PyDict Str (List Tok), keys (a ++ b) = keys a ++ keys b := by simp [keys]
    cases raw with
    | true =>
      refine ⟨[v3, v4, v5], ?_, ?_, ?_⟩
      · simp only [List.map_cons, List.map_nil, ← e3, ← e4, ← e5]; rfl
      · simp only [List.flatten_cons, List.flatten_nil, List.append_nil, hap, k3, k4, k5]; rfl
      · intro p hp
        refine h3 p ?_
        simp only [List.flatten_cons, List.flatten_nil, List.append_nil, List.mem_append] at hp ⊢
        exact .inr (.inr hp)
    | false =>
      refine ⟨[v3, v4], ?_, ?_, ?_⟩
      · simp only [List.map_cons, List.map_nil, ← e3, ← e4]; rfl
      · simp only [List.flatten_cons, List.flatten_nil, List.append_nil, hap, k3, k4]; rfl
      · intro p hp
        refine h3 p ?_
        simp only [List.flatten_cons, List.flatten_nil, List.append_nil, List.mem_append] at hp ⊢
        tauto


/-- What is put in the storage, for resolvable templates, and names that can be path segments: the
placeholders of the graph name, the tags, the name and the names are replaced, those of empty values
disappear with the separator that follows, and for a raw artifact the one of the fingerprint too; all
else stays. -/
theorem C56_storage_text_partial (graph : Str) (tags : PyDict Str Str) (path : List Str)
    (hnames : ∀ n ∈ path, segOk n = true) (hgraph : textOk graph = true)
    (htags : ∀ p ∈ tags, segOk p.1 = true ∧ segOk p.2 = true) (a0 a : Art)
    (h : PlacedAs (placeholderValues graph tags path a0.out.isNone) a0 a) (T : List Tok)
    (keyed : Bool) (h0 : a0.info.sto = .file ⟨print T, keyed⟩)
    (hT : resolvable placeholderNames T = true) :
    ∃ U, resolved (asToks (placeholderValues graph tags path a0.out.isNone).flatten) T = .ok U ∧
      a.info.sto = .file ⟨print U, keyed⟩ := by
  obtain ⟨vs, h1, h2, h3, h4⟩ := placeholder_toks graph tags path a0.out.isNone hnames hgraph htags
  obtain ⟨⟨-, -, -, hk⟩, hf⟩ := h
  have hsub : ∀ n ∈ keys vs.flatten, n ∈ placeholderNames := by
    rw [h3]
    cases a0.out.isNone <;> decide
  have hr := resolveAll_print vs T placeholderNames hsub
    (by rw [h3]; cases a0.out.isNone <;> decide +kernel)
    (by rw [h3]; cases a0.out.isNone <;> decide +kernel) hT h4
  rw [step_resolved, h2, ← h1] at hr
  rw [h0] at hk hf
  cases hs : a.info.sto with
  | lit t v => rw [hs] at hk; exact hk.elim
  | file t =>
    rw [hs] at hk hf
    simp only [fields, List.forall₂_cons, List.forall₂_nil_right_iff, and_true] at hf
    rw [hr] at hf
    cases hU : resolved (asToks (placeholderValues graph tags path a0.out.isNone).flatten) T with
    | error e => rw [hU] at hf; cases hf
    | ok U =>
      rw [hU] at hf
      refine ⟨U, rfl, ?_⟩
      cases t
      simp only [SameSto, Tmpl.mk.injEq, true_and] at hk
      rw [hk]
      simp only [Except.map, Except.ok.injEq] at hf
      rw [hf]

/-! ## Examples and violations -/

/-- The artifacts of a graph with their keys. -/
def artsAt (s : Proc) (i : Nat) : Option (List (Str × Art)) := (get? s.objs i).map fun g => Box.walk g.data

namespace Ex56
open Ex31

/-- A graph to which a raw and a produced artifact are assigned, the latter in a nested mapping. -/
def prog56 : List Ev :=
  [.new 0 ['g'] [] .nil, .enter 0, .box 0 (.setAttr ['a'] (.raw artA)),
    .box 0 (.setItem ['n'] (.map (.cons ['x', '.', 'b'] (.raw artB) .nil))), .leave 0]

def placedB : Art := .made { prodInfo with sto := .file ⟨"/d/n/x/b/{input_fingerprint}/x".toList, false⟩ }
  (.mk ['P'] ['1'] (.cons ['i'] artA .nil)) 0

theorem prog56_arts : artsAt (Proc.init.run prog56).1 0 =
    some [(['a'], heldA), ("n.x.b".toList, placedB)] := by decide +kernel

theorem prog56_blocks : WithBlocks (Proc.init.run prog56).2 := blocks_of_go (by decide +kernel)

/-- The hypotheses are met: the graph has both artifacts, and they come from the assignments. -/
example : ∃ g, get? (Proc.init.run prog56).1.objs 0 = some g ∧ ("n.x.b".toList, placedB) ∈ Box.walk g.data ∧
    HasFpTemplate placedB.info.sto ∧ Origin prog56 0 g.name g.tags ["n".toList, "x".toList, "b".toList] placedB ∧
    ∃ op a0, Ev.box 0 op ∈ prog56 ∧ Assigns op ["n".toList, "x".toList, "b".toList] a0 := by
  have h := prog56_arts
  cases hg : get? (Proc.init.run prog56).1.objs 0 with
  | none => simp [artsAt, hg] at h
  | some g =>
    simp only [artsAt, hg, Option.map_some, Option.some.injEq] at h
    have hm : ("n.x.b".toList, placedB) ∈ Box.walk g.data := by rw [h]; simp
    have hsp : splitOn '.' "n.x.b".toList = ["n".toList, "x".toList, "b".toList] := by decide +kernel
    obtain ⟨op, a0, h1, h2, -⟩ := C56_stored_under_graph_and_path_partial prog56 prog56_blocks 0 g hg
      (by
        intro n t it hi
        simp only [prog56, List.mem_cons, Ev.new.injEq, List.not_mem_nil, reduceCtorEq, or_false] at hi
        exact hi.2.2.2) _ _ hm
    rw [hsp] at h2
    exact ⟨g, rfl, hm, C56_produced_artifacts_have_the_template prog56 0 g hg _ _ hm rfl,
      hsp ▸ C56_origin_of_artifacts prog56 prog56_blocks 0 g hg _ _ hm, op, a0, h1, h2⟩

def tmplA : List Tok := "/d/".toList.map .ch ++ [.fld (plain "graph_name".toList), .ch '/',
  .fld (plain "path_tags".toList), .ch '/', .fld (plain "names".toList), .ch '/',
  .fld (plain "input_fingerprint".toList), .ch '/', .fld (plain "name".toList)]
def artT : Art := .raw ⟨0, false, .file ⟨print tmplA, false⟩⟩
def artT' : Art := .raw ⟨0, false, .file ⟨"/d/g/n/b/b".toList, false⟩⟩

/-- A template: the tags are empty and the artifact is raw. -/
example : ∃ U, resolved (asToks (placeholderValues ['g'] [] [['n'], ['b']] artT.out.isNone).flatten)
    tmplA = .ok U ∧ artT'.info.sto = .file ⟨print U, false⟩ :=
  C56_storage_text_partial ['g'] [] [['n'], ['b']] (by decide +kernel) (by decide +kernel)
    (by simp) artT artT'
    ⟨⟨rfl, rfl, rfl, rfl⟩, .cons (by decide +kernel) .nil⟩ tmplA false rfl (by decide +kernel)

end Ex56

/-- An artifact given to the constructor of a graph keeps the placeholders of the graph's name and
its own in its storage, although the same artifact assigned to the graph does not. -/
theorem C56_violated_by_constructor_artifacts : ∃ a, a.out = none ∧
    artsAt (Proc.init.run [.new 0 ['g'] [] (.cons ['a'] (.raw a) .nil)]).1 0 = some [(['a'], a)] ∧
    fields a.info.sto = ["/d/{graph_name}/{names}/x".toList] ∧
    ∃ a', artsAt (Proc.init.run [.new 0 ['g'] [] .nil, .enter 0,
        .box 0 (.setItem ['a'] (.raw a)), .leave 0]).1 0 = some [(['a'], a')] ∧
      fields a'.info.sto = ["/d/g/a/x".toList] :=
  ⟨Ex31.artA, by decide +kernel, by decide +kernel, by decide +kernel, Ex31.heldA, by decide +kernel,
    by decide +kernel⟩

/-- An artifact given to the constructor of a graph while another graph is being defined is stored
under the name of the other graph: two graphs with one artifact of the same key collide. -/
theorem C56_violated_by_constructing_inside : ∃ es : List Ev, ∃ a,
    WithBlocks (Proc.init.run es).2 ∧ Ev.new 1 ['h'] [] (.cons ['a'] (.raw a) .nil) ∈ es ∧
    ∃ a0 a1, artsAt (Proc.init.run es).1 0 = some [(['a'], a0)] ∧
      artsAt (Proc.init.run es).1 1 = some [(['a'], a1)] ∧
      fields a0.info.sto = ["/d/g/a/x".toList] ∧ fields a1.info.sto = ["/d/g/a/x".toList] :=
  ⟨[.new 0 ['g'] [] .nil, .enter 0, .box 0 (.setItem ['a'] (.raw Ex31.artA)),
      .new 1 ['h'] [] (.cons ['a'] (.raw Ex31.artA) .nil), .leave 0], Ex31.artA,
    Ex31.blocks_of_go (by decide +kernel), by simp, Ex31.heldA, Ex31.heldA, by decide +kernel,
    by decide +kernel, by decide +kernel, by decide +kernel⟩

end Arti.Props
