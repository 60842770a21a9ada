import Verif.Lemmas.BoxContents
import Verif.Lemmas.Lifecycle
import Verif.Lemmas.Locate

/-! Artifacts in the boxes of graphs. -/

namespace Arti.Life
open PyDict Spec Box Props

/-! ## `_cast_value` -/

theorem resolveSto_ok {values : List (Str × Str)} {s s' : Sto} (h : resolveSto values s = .ok s') :
    SameSto s s' ∧
      List.Forall₂ (fun f f' => Stg.resolveField values f = .ok f') (fields s) (fields s') := by
  cases s with
  | file t =>
    simp only [resolveSto, bind, Except.bind] at h
    cases hr : Stg.resolveField values t.text with
    | error e => simp [hr] at h
    | ok text =>
      simp only [hr, Except.ok.injEq] at h
      subst h
      exact ⟨rfl, .cons hr .nil⟩
  | lit t v =>
    cases v with
    | none =>
      simp only [resolveSto, bind, Except.bind] at h
      cases hr : Stg.resolveField values t.text with
      | error e => simp [hr] at h
      | ok text =>
        simp only [hr, Except.ok.injEq] at h
        subst h
        exact ⟨⟨rfl, rfl⟩, .cons hr .nil⟩
    | some v =>
      simp only [resolveSto, bind, Except.bind] at h
      cases hr : Stg.resolveField values t.text with
      | error e => simp [hr] at h
      | ok text =>
        simp only [hr] at h
        cases hv : Stg.resolveField values v with
        | error e => simp [hv] at h
        | ok v' =>
          simp only [hv, Except.ok.injEq] at h
          subst h
          exact ⟨⟨rfl, rfl⟩, .cons hr (.cons hv .nil)⟩

theorem SameSto.refl (s : Sto) : SameSto s s := by cases s <;> simp [SameSto]

theorem SameSto.trans {a b c : Sto} (h : SameSto a b) (h' : SameSto b c) : SameSto a c := by
  cases a <;> cases b <;> cases c <;> simp only [SameSto] at h h' ⊢
  · exact h.trans h'
  · exact ⟨h.1.trans h'.1, h.2.trans h'.2⟩

/-- One storage after the other. -/
def Resolves (vs : List (PyDict Str Str)) (s s' : Sto) : Prop :=
  SameSto s s' ∧ List.Forall₂ (fun f0 f => resolveAll f0 vs = .ok f) (fields s) (fields s')

theorem Resolves.nil (s : Sto) : Resolves [] s s := by
  refine ⟨SameSto.refl s, ?_⟩
  generalize fields s = l
  induction l with
  | nil => exact .nil
  | cons f l ih => exact .cons rfl ih

theorem forall₂_comp {α β γ : Type} {R : α → β → Prop} {S : β → γ → Prop} {Q : α → γ → Prop}
    (h : ∀ a b c, R a b → S b c → Q a c) : ∀ {l : List α} {m : List β} {n : List γ},
    List.Forall₂ R l m → List.Forall₂ S m n → List.Forall₂ Q l n
  | _, _, _, .nil, .nil => .nil
  | _, _, _, .cons h1 t1, .cons h2 t2 => .cons (h _ _ _ h1 h2) (forall₂_comp h t1 t2)

theorem Resolves.cons {v : List (Str × Str)} {vs : List (PyDict Str Str)} {s s' s'' : Sto}
    (h : resolveSto v s = .ok s') (h' : Resolves vs s' s'') : Resolves (v :: vs) s s'' := by
  obtain ⟨k, f⟩ := resolveSto_ok h
  refine ⟨SameSto.trans k h'.1, forall₂_comp ?_ f h'.2⟩
  intro a b c h1 h2
  simp only [resolveAll, bind, Except.bind, h1, h2]

theorem withSto_info (s : Sto) (a : Art) : (withSto s a).info.sto = s ∧
    (withSto s a).out = a.out ∧ (withSto s a).info.desc = a.info.desc ∧
    (withSto s a).info.partitioned = a.info.partitioned := by
  cases a <;> exact ⟨rfl, rfl, rfl, rfl⟩

theorem placed_withSto {vs : List (PyDict Str Str)} {a : Art} {s : Sto}
    (h : Resolves vs a.info.sto s) : PlacedAs vs a (withSto s a) := by
  obtain ⟨h1, h2, h3, h4⟩ := withSto_info s a
  exact ⟨⟨h2.symm, h3.symm, h4.symm, by rw [h1]; exact h.1⟩, by rw [h1]; exact h.2⟩

/-- What the fields become for the graph in the context. -/
def contextValues (graph : Option (Str × PyDict Str Str)) (path : List Str) (raw : Bool) :
    List (PyDict Str Str) :=
  match graph with
  | some (name, tags) => placeholderValues name tags path raw
  | none => if raw then [[("input_fingerprint".toList, [])]] else []

theorem castValue_ok {graph : Option (Str × PyDict Str Str)} {ns : List Str} {key : Str} {a b : Art}
    (h : castValue graph ns key a = .ok b) :
    PlacedAs (contextValues graph (ns ++ [key]) a.out.isNone) a b ∧
      (a.out.isSome = true → b.info.sto.hasFp = true) := by
  have e1 : ∀ name tags, Stg.graphValues name tags = [("graph_name".toList, name),
    ("path_tags".toList, joinWith ['/'] (tags.map fun (t, v) => t ++ '=' :: v))] := fun _ _ => rfl
  have e2 : Stg.namesValues (ns ++ [key]) = [("name".toList, (ns ++ [key]).getLastD []),
    ("names".toList, joinWith ['/'] (ns ++ [key]))] := rfl
  have e3 : Stg.ifpValues none = [("input_fingerprint".toList, [])] := rfl
  simp only [castValue, bind, Except.bind] at h
  cases graph with
  | none =>
    simp only at h
    cases ho : a.out with
    | none =>
      simp only [ho] at h
      cases hr : resolveSto (Stg.ifpValues none) a.info.sto with
      | error e => simp [hr] at h
      | ok s =>
        simp only [hr, Except.ok.injEq] at h
        subst h
        refine ⟨?_, by simp⟩
        rw [e3] at hr
        exact placed_withSto (.cons hr (.nil s))
    | some o =>
      simp only [ho] at h
      split at h
      · rename_i hf
        injection h with h
        subst h
        exact ⟨placed_withSto (.nil _), fun _ => by rw [(withSto_info _ a).1]; exact hf⟩
      · cases h
  | some g =>
    obtain ⟨name, tags⟩ := g
    simp only at h
    cases h1 : resolveSto (Stg.graphValues name tags) a.info.sto with
    | error e => simp [h1] at h
    | ok s1 =>
      simp only [h1] at h
      cases h2 : resolveSto (Stg.namesValues (ns ++ [key])) s1 with
      | error e => simp [h2] at h
      | ok s2 =>
        simp only [h2] at h
        rw [e1] at h1
        rw [e2] at h2
        cases ho : a.out with
        | none =>
          simp only [ho] at h
          cases hr : resolveSto (Stg.ifpValues none) s2 with
          | error e => simp [hr] at h
          | ok s =>
            simp only [hr, Except.ok.injEq] at h
            subst h
            rw [e3] at hr
            exact ⟨placed_withSto (.cons h1 (.cons h2 (.cons hr (.nil s)))), by simp⟩
        | some o =>
          simp only [ho] at h
          split at h
          · rename_i hf
            injection h with h
            subst h
            exact ⟨placed_withSto (.cons h1 (.cons h2 (.nil _))),
              fun _ => by rw [(withSto_info _ a).1]; exact hf⟩
          · cases h

theorem castAt_ok {graph : Option (Str × PyDict Str Str)} {path : List Str} {a b : Art}
    (hp : path ≠ []) (h : castAt (castValue graph) path a = .ok b) :
    PlacedAs (contextValues graph path a.out.isNone) a b ∧
      (a.out.isSome = true → b.info.sto.hasFp = true) := by
  have := castValue_ok h
  have e : path.dropLast ++ [path.getLastD []] = path := by
    rw [List.getLastD_eq_getLast?, List.getLast?_eq_some_getLast hp]
    exact List.dropLast_append_getLast hp
  rwa [e] at this

theorem hasFp_iff (s : Sto) : s.hasFp = true ↔ HasFpTemplate s := by
  have h : ∀ t : Str, Fmt.isInfix Stg.ifpTmpl t = true ↔ "{input_fingerprint}".toList <:+: t := by
    intro t
    rw [Fmt.isInfix_iff]
    constructor
    · rintro ⟨a, b, rfl⟩; exact ⟨a, b, rfl⟩
    · rintro ⟨a, b, h⟩; exact ⟨a, b, h.symm⟩
  cases s with
  | file t => simp only [Sto.hasFp, HasFpTemplate, fields, h, List.mem_singleton, exists_eq_left]
  | lit t v =>
    cases v with
    | none =>
      simp only [Sto.hasFp, HasFpTemplate, fields, Option.any_none, Bool.or_false, h,
        Option.toList_none, List.mem_singleton, exists_eq_left]
    | some v =>
      simp only [Sto.hasFp, HasFpTemplate, fields, Option.any_some, Bool.or_eq_true, h,
        Option.toList_some, List.mem_cons, List.not_mem_nil, or_false, exists_eq_or_imp,
        exists_eq_left]

/-! ## What events do to the contents of graphs -/

/-- The graphs of the second state are those of the first, with the same contents. -/
def SameData (s s' : Proc) : Prop :=
  ∀ i g', get? s'.objs i = some g' → ∃ g, get? s.objs i = some g ∧ g'.name = g.name ∧
    g'.tags = g.tags ∧ g'.data = g.data

theorem SameData.refl (s : Proc) : SameData s s := fun _ g h => ⟨g, h, rfl, rfl, rfl⟩

theorem SameData.trans {a b c : Proc} (h : SameData a b) (h' : SameData b c) : SameData a c := by
  intro i g hg
  obtain ⟨g1, h1, n1, t1, d1⟩ := h' i g hg
  obtain ⟨g2, h2, n2, t2, d2⟩ := h i g1 h1
  exact ⟨g2, h2, n1.trans n2, t1.trans t2, d1.trans d2⟩

theorem SameData.put {s : Proc} {i : Nat} {g g' : GObj} (h : get? s.objs i = some g)
    (hn : g'.name = g.name) (ht : g'.tags = g.tags) (hd : g'.data = g.data) :
    SameData s (s.put i g') := by
  intro j x hx
  by_cases hj : i = j
  · subst hj
    rw [get_put_self] at hx
    injection hx with hx
    subst hx
    exact ⟨g, h, hn, ht, hd⟩
  · rw [get_put hj] at hx
    exact ⟨x, hx, rfl, rfl, rfl⟩

theorem SameData.objs {s s' s'' : Proc} (h : SameData s s') (he : s''.objs = s'.objs) :
    SameData s s'' := by
  intro i g hg
  rw [he] at hg
  exact h i g hg

theorem deps_same (g : GObj) : g.dependencies.1.name = g.name ∧ g.dependencies.1.tags = g.tags ∧
    g.dependencies.1.data = g.data := by
  unfold GObj.dependencies
  split
  · exact ⟨rfl, rfl, rfl⟩
  · split <;> exact ⟨rfl, rfl, rfl⟩

theorem outs_same (g : GObj) : g.producerOutputs.1.name = g.name ∧
    g.producerOutputs.1.tags = g.tags ∧ g.producerOutputs.1.data = g.data := by
  unfold GObj.producerOutputs
  split
  · exact ⟨rfl, rfl, rfl⟩
  · split <;> exact ⟨rfl, rfl, rfl⟩

theorem fromGraph_same {s : Proc} {id : Nat} {g : GObj} (h : get? s.objs id = some g)
    (rest : Option Err) : SameData s (s.fromGraph id g rest).1 := by
  obtain ⟨h1, h2, h3⟩ := deps_same g
  unfold Proc.fromGraph
  split
  · rename_i g' e he
    rw [he] at h1 h2 h3
    exact .put h h1 h2 h3
  · rename_i g' d he
    rw [he] at h1 h2 h3
    split
    · exact .put h h1 h2 h3
    · exact (SameData.put h h1 h2 h3).objs rfl

theorem runBuild_same {s : Proc} {id : Nat} {g : GObj} (h : get? s.objs id = some g)
    (rest : Option Err) : SameData s (s.runBuild id g rest).1 := by
  obtain ⟨h1, h2, h3⟩ := deps_same g
  unfold Proc.runBuild
  split
  · rename_i g' e he
    rw [he] at h1 h2 h3
    exact .put h h1 h2 h3
  · rename_i g' d he
    rw [he] at h1 h2 h3
    split
    · obtain ⟨k1, k2, k3⟩ := outs_same g'
      split
      · rename_i g'' e he'
        rw [he'] at k1 k2 k3
        exact .put h (k1.trans h1) (k2.trans h2) (k3.trans h3)
      · rename_i g'' e he'
        rw [he'] at k1 k2 k3
        exact .put h (k1.trans h1) (k2.trans h2) (k3.trans h3)
    · exact .put h h1 h2 h3

theorem guarded_same (s : Proc) (g : GObj) (rest : Option Err) : (s.guarded g rest).1 = s := by
  unfold Proc.guarded
  split <;> rfl

/-- The contents of a graph after an event. -/
theorem data_step (s : Proc) (e : Ev) {i : Nat} {g' : GObj}
    (h : get? (s.step e).1.objs i = some g') :
    (∃ g, get? s.objs i = some g ∧ g'.name = g.name ∧ g'.tags = g.tags ∧
      (g'.data = g.data ∨ ∃ op, e = .box i op ∧
        g'.data = (Box.step (castValue s.ctxGraph) g.boxOpen g.data op).1)) ∨
    ∃ name tags items, e = .new i name tags items ∧ g'.name = name ∧ g'.tags = tags ∧
      Box.construct (castValue s.ctxGraph) items = .ok g'.data := by
  have same : SameData s (s.step e).1 → (∃ g, get? s.objs i = some g ∧ g'.name = g.name ∧
      g'.tags = g.tags ∧ (g'.data = g.data ∨ ∃ op, e = .box i op ∧
        g'.data = (Box.step (castValue s.ctxGraph) g.boxOpen g.data op).1)) ∨
    ∃ name tags items, e = .new i name tags items ∧ g'.name = name ∧ g'.tags = tags ∧
      Box.construct (castValue s.ctxGraph) items = .ok g'.data := by
    intro hs
    obtain ⟨g, h1, h2, h3, h4⟩ := hs i g' h
    exact .inl ⟨g, h1, h2, h3, .inl h4⟩
  by_cases hnew : ∃ id name tags items, e = .new id name tags items
  · obtain ⟨id, name, tags, items, rfl⟩ := hnew
    cases hg : get? s.objs id with
    | some g0 =>
      refine same ?_
      simp only [Proc.step, hg]
      exact .refl s
    | none =>
      cases hc : Box.construct (castValue s.ctxGraph) items with
      | error x =>
        refine same ?_
        simp only [Proc.step, hg, hc]
        exact .refl s
      | ok d =>
        simp only [Proc.step, hg, hc] at h
        by_cases hi : id = i
        · subst hi
          rw [get_put_self] at h
          injection h with h
          subst h
          exact .inr ⟨name, tags, items, rfl, rfl, rfl, hc⟩
        · rw [get_put hi] at h
          exact .inl ⟨g', h, rfl, rfl, .inl rfl⟩
  · have hst : s.step e = match get? s.objs e.id with
        | none => (s, some .unsupported)
        | some g => s.onGraph g e := by
      cases e with
      | new id name tags items => exact absurd ⟨_, _, _, _, rfl⟩ hnew
      | _ => rfl
    cases hg : get? s.objs e.id with
    | none =>
      refine same ?_
      rw [hst, hg]
      exact .refl s
    | some g =>
      by_cases hbox : ∃ id op, e = .box id op
      · obtain ⟨id, op, rfl⟩ := hbox
        rw [hst, hg] at h
        simp only [Proc.onGraph] at h
        by_cases hi : id = i
        · subst hi
          have hgi : get? s.objs id = some g := hg
          rw [get_put_self] at h
          injection h with h
          subst h
          exact .inl ⟨g, hgi, rfl, rfl, .inr ⟨op, rfl, rfl⟩⟩
        · rw [get_put hi] at h
          exact .inl ⟨g', h, rfl, rfl, .inl rfl⟩
      · refine same ?_
        rw [hst, hg]
        cases e with
        | new id name tags items => exact absurd ⟨_, _, _, _, rfl⟩ hnew
        | box id op => exact absurd ⟨_, _, rfl⟩ hbox
        | enter id =>
          simp only [Proc.onGraph]
          split
          · exact .refl s
          · exact (SameData.put (g' := g.toggle .opn) hg rfl rfl rfl).objs rfl
        | leave id =>
          obtain ⟨h1, h2, h3⟩ := deps_same (g.toggle .closed)
          simp only [Proc.onGraph]
          split
          · rename_i g1 x he
            rw [he] at h1 h2 h3
            exact (SameData.put (g' := g1) hg h1 h2 h3).objs rfl
          · rename_i g1 x he
            rw [he] at h1 h2 h3
            exact (SameData.put (g' := g1) hg h1 h2 h3).objs rfl
        | read id rest => simp only [Proc.onGraph, guarded_same]; exact .refl s
        | write id rest => simp only [Proc.onGraph, guarded_same]; exact .refl s
        | snapshot id rest =>
          simp only [Proc.onGraph]
          split
          · exact .refl s
          · exact fromGraph_same hg rest
        | fromGraph id rest => exact fromGraph_same hg rest
        | build id rest =>
          simp only [Proc.onGraph]
          split
          · exact .refl s
          · have hf := fromGraph_same hg rest
            split
            · rename_i s' x he
              have he' : s.fromGraph id g rest = (s', some x) := he
              have hf' : SameData s (s.fromGraph id g rest).1 := hf
              rw [he'] at hf'
              exact hf'
            · rename_i s' he
              have he' : s.fromGraph id g rest = (s', none) := he
              have hf' : SameData s (s.fromGraph id g rest).1 := hf
              rw [he'] at hf'
              split
              · exact hf'
              · rename_i g1 hg1
                exact hf'.trans (runBuild_same hg1 none)
        | snapBuild id rest =>
          simp only [Proc.onGraph]
          split
          · exact runBuild_same hg rest
          · exact .refl s
        | snapTag id rest =>
          simp only [Proc.onGraph]
          split <;> exact .refl s
        | snapRead id rest =>
          simp only [Proc.onGraph]
          split
          · rw [guarded_same]; exact .refl s
          · exact .refl s
        | snapWrite id rest =>
          simp only [Proc.onGraph]
          split
          · rw [guarded_same]; exact .refl s
          · exact .refl s
        | dependencies id =>
          obtain ⟨h1, h2, h3⟩ := deps_same g
          exact SameData.put (g' := g.dependencies.1) hg h1 h2 h3
        | outputs id =>
          obtain ⟨h1, h2, h3⟩ := outs_same g
          exact SameData.put (g' := g.producerOutputs.1) hg h1 h2 h3

end Arti.Life
