import Verif.Lemmas.Decorator
import Verif.Model.Views

/-!
# C75: the `producer` decorator
-/

namespace Arti.Props
open Arti PyDict PCls Spec

variable {H A V : Type} [DecidableEq H] {d : DEnv H} {any : H} {dflt : V} {args : DecArgs H A V}
  {stack : List Str} {st : Option Str} {f : PyFn H}

theorem freeName_iff {n : Str} : FreeName d args n ↔
    NoClash d args.map.isSome n ∧ (args.map = none → n ≠ "kwargs".toList) := by
  have hu : n.head? ≠ some '_' ↔ isUnderscored n = false := by
    match n with
    | [] => simp [isUnderscored]
    | c :: n =>
      by_cases hc : c = '_'
      · subst hc; simp [isUnderscored]
      · simp only [List.head?_cons, ne_eq, Option.some.injEq, hc, not_false_eq_true, true_iff]
        simp only [isUnderscored]
        split
        · rename_i he; cases he; exact absurd rfl hc
        · rfl
  have hl : n ∉ ["annotations".toList, "version".toList, "build".toList, "validate_outputs".toList] ↔
      n ≠ annotationsName ∧ n ≠ versionName ∧ n ≠ "build".toList ∧ n ≠ "validate_outputs".toList := by
    simp only [List.mem_cons, List.not_mem_nil, or_false, not_or]
    rfl
  unfold FreeName NoClash
  rw [hu, hl]
  tauto

theorem partitioned_iff {v : Vw H} : isPartitioned v = true ↔ Partitioned v := by
  simp only [isPartitioned, Partitioned]
  cases hv : v.fields with
  | none => simp
  | some fs =>
    cases fs with
    | nil => simp [keys]
    | cons x fs => exact ⟨fun _ => ⟨_, x.1, rfl, by simp [keys]⟩, fun _ => rfl⟩

theorem mem_of_forall₂ {α β : Type} {R : α → β → Prop} {l : List α} {r : List β}
    (h : List.Forall₂ R l r) {b : β} (hb : b ∈ r) : ∃ a, R a b := by
  induction h with
  | nil => simp at hb
  | cons h1 _ ih =>
    rcases List.mem_cons.1 hb with rfl | hb
    · exact ⟨_, h1⟩
    · exact ih hb

theorem exists_views {ps : List (Param H)}
    (h : ∀ p ∈ ps, ∃ t v, p.hint = some t ∧ d.view t = .ok v) :
    ∃ pvs, pvs.map Prod.fst = ps ∧ Viewed d pvs := by
  induction ps with
  | nil => exact ⟨[], rfl, by simp [Viewed]⟩
  | cons p ps ih =>
    obtain ⟨t, v, h1, h2⟩ := h p (by simp)
    obtain ⟨pvs, h3, h4⟩ := ih fun q hq => h q (List.mem_cons_of_mem _ hq)
    refine ⟨(p, v) :: pvs, by simp [h3], ?_⟩
    intro q hq
    rcases List.mem_cons.1 hq with rfl | hq
    · exact ⟨t, h1, h2⟩
    · exact h4 q hq

/-- **C75** The decorator accepts exactly the functions that describe a producer. -/
theorem C75_accepted_iff (hc : Coherent d) (hnd : (f.params.map (·.name)).Nodup) :
    (∃ c, (decorate d any dflt args stack st f).1 = .ok c) ↔ Describes d any args f := by
  have hbv : ∀ hints : List H,
      validateValidate d.hints hints (base any).attrs.validate = .ok () ↔
        ∀ out ∈ hints, d.hints.sub out any = true := by
    intro hints
    rw [validateValidate_iff]
    have hs : (base any).attrs.validate.sig = [⟨"outputs".toList, some any, false, .varPos⟩] := by
      simp only [base, Fn.sig]
      rw [List.filter_eq_self]
      intro p hp
      rw [List.mem_singleton] at hp
      subst hp
      simp only
      decide
    rw [hs]
    constructor
    · rintro (h | ⟨p, hp, _, h⟩) out ho
      · cases h with
        | cons h1 _ =>
          rcases h1.2.1 with h | h <;> cases h
      · cases hp
        exact h out ho any rfl
    · intro h
      refine .inr ⟨_, rfl, rfl, fun out ho ph he => ?_⟩
      cases he
      exact h out ho
  have hnp : ∀ outs : List (Vw H), outs.any isPartitioned = false ↔ ∀ v ∈ outs, ¬ Partitioned v := by
    intro outs
    rw [List.any_eq_false]
    simp only [partitioned_iff]
  constructor
  · rintro ⟨c, h⟩
    rw [decorate_iff hnd] at h
    obtain ⟨pvs, hp, hv, ha, hsub, -⟩ := h
    rw [subclass_iff hc hnd hp hv] at hsub
    obtain ⟨r, outs, m, ks, hn, hr, hone, ho, hk, hs, hval, hm, -⟩ := hsub
    have hndo : ∀ v ∈ outs, ∀ fs, v.fields = some fs → (keys fs).Nodup := by
      intro v hvm fs hfs
      obtain ⟨h, hw⟩ := mem_of_forall₂ ho hvm
      exact hc.nodup h v fs hw hfs
    obtain ⟨hne, hcl, hsch⟩ := (sameScheme_iff hndo).1 ⟨ks, hk, hs⟩
    have hkw : ∀ p ∈ paramInputs f, args.map = none → p.name ≠ "kwargs".toList := by
      intro p hpm hmn
      rcases hm with ⟨g, hg, -⟩ | ⟨-, -, -, hk⟩
      · rw [hmn] at hg; cases hg
      · exact hk _ (List.mem_map_of_mem hpm)
    refine ⟨fun hann => ?_, fun p hpm => ⟨?_, (hn p hpm).2, ?_⟩,
      ⟨r, outs, hr, hne, ho, hone, hcl, hsch, ?_, ?_, ?_⟩, ?_⟩
    · have := ha hann
      obtain ⟨⟨n, s⟩, hx, hxe⟩ := List.mem_map.1 this
      obtain ⟨pv, hpv, he⟩ := List.mem_map.1 hx
      simp only [Prod.mk.injEq] at he
      have hpm : pv.1 ∈ paramInputs f := by rw [← hp]; exact List.mem_map_of_mem hpv
      exact (hn _ hpm).1.2.1 (by rw [he.1]; exact hxe)
    · exact freeName_iff.2 ⟨(hn p hpm).1, hkw p hpm⟩
    · rw [← hp] at hpm
      obtain ⟨pv, hpv, rfl⟩ := List.mem_map.1 hpm
      obtain ⟨h, h1, h2⟩ := hv pv hpv
      exact ⟨h, pv.2, h1, h2⟩
    · intro hmn
      rcases hm with ⟨g, hg, -⟩ | ⟨-, ho, -⟩
      · rw [hmn] at hg; cases hg
      · exact (hnp outs).1 ho
    · intro g hg
      rw [hg, Option.map_some, Option.getD_some, validateValidate_iff, sig_eq] at hval
      exact hval
    · intro hg
      rw [hg, Option.map_none, Option.getD_none, hbv] at hval
      exact hval
    · intro g hg q hq
      rcases hm with ⟨g', hg', -, hqs⟩ | ⟨hmn, -⟩
      · rw [hg] at hg'
        cases hg'
        obtain ⟨h1, h2, h3⟩ := hqs q hq
        obtain ⟨p, hpm, hpn⟩ := List.mem_map.1 h1
        exact ⟨h2, h3, p, hpm, hpn⟩
      · rw [hmn] at hg; cases hg
  · rintro ⟨ha, hpar, ⟨r, outs, hr, hne, ho, hone, hcl, hsch, hpt, hv1, hv2⟩, hmap⟩
    obtain ⟨pvs, hp, hv⟩ := exists_views (d := d) fun p hpm => (hpar p hpm).2.2
    have hndo : ∀ v ∈ outs, ∀ fs, v.fields = some fs → (keys fs).Nodup := by
      intro v hvm fs hfs
      obtain ⟨h, hw⟩ := mem_of_forall₂ ho hvm
      exact hc.nodup h v fs hw hfs
    obtain ⟨ks, hk, hs⟩ := (sameScheme_iff hndo).2 ⟨hne, hcl, hsch⟩
    have hval : validateValidate d.hints (d.hints.tuple r)
        ((args.validate.map PyFn.static).getD (base any).attrs.validate) = .ok () := by
      cases hg : args.validate with
      | none => rw [Option.map_none, Option.getD_none, hbv]; exact hv2 hg
      | some g =>
        rw [Option.map_some, Option.getD_some, validateValidate_iff, sig_eq]
        exact hv1 g hg
    have hm : ∃ m, MapOf d args f outs m := by
      cases hg : args.map with
      | none =>
        refine ⟨_, .inr ⟨hg, (hnp outs).2 (hpt hg), rfl, fun n hn => ?_⟩⟩
        obtain ⟨p, hpm, rfl⟩ := List.mem_map.1 hn
        exact (hpar p hpm).1.2.2.2.2 hg
      | some g =>
        refine ⟨_, .inl ⟨g, hg, rfl, fun q hq => ?_⟩⟩
        obtain ⟨h1, h2, p, hpm, hpn⟩ := hmap g hg q hq
        exact ⟨List.mem_map.2 ⟨p, hpm, hpn⟩, h1, h2⟩
    obtain ⟨m, hm⟩ := hm
    refine ⟨⟨st.getD f.name, moduleName 0 stack, args.annotations.getD [], args.version.getD dflt,
      clsOf any d args f pvs outs m⟩, ?_⟩
    rw [decorate_iff hnd]
    refine ⟨pvs, hp, hv, fun h => absurd h ha, ?_, rfl, rfl, rfl, rfl⟩
    rw [subclass_iff hc hnd hp hv]
    exact ⟨r, outs, m, ks, fun p hpm => ⟨(freeName_iff.1 (hpar p hpm).1).1, (hpar p hpm).2.1⟩, hr, hone,
      ho, hk, hs, hval, hm, rfl⟩

/-- **C75** The class that is made has an input for every parameter, in order and of the artifact
class of its hint, the function as `build`, the given `map`, or one that takes all inputs, the given
`validate_outputs`, annotations and version, and the module of the code that applies the
decorator. -/
theorem C75_the_class (hc : Coherent d) (hnd : (f.params.map (·.name)).Nodup) {c : DCls H A V}
    (h : (decorate d any dflt args stack st f).1 = .ok c) :
    c.module = stack.head? ∧ c.annotations = args.annotations.getD [] ∧
    c.version = args.version.getD dflt ∧ c.cls.attrs.abstract = false ∧
    c.cls.attrs.build = some ⟨f.params, f.ret, true⟩ ∧
    (∀ g, args.validate = some g → c.cls.attrs.validate = ⟨g.params, g.ret, true⟩) ∧
    ∃ views dv m, List.Forall₂ (fun p v => ∃ t, p.hint = some t ∧ d.view t = .ok v) (paramInputs f) views ∧
      c.cls.derived = some dv ∧ c.cls.attrs.map = some m ∧
      dv.inputs = ((paramInputs f).map (·.name)).zip (views.map (·.cls)) ∧
      dv.buildInputs = ((paramInputs f).map (·.name)).zip views ∧
      (∃ r, f.ret = some r ∧
        List.Forall₂ (fun h v => d.hints.writeView h = .ok v) (d.hints.tuple r) dv.outputs) ∧
      (∀ g, args.map = some g → m = .user ⟨g.params, g.ret, true⟩ ∧
        dv.mapInputs = (paramInputs g).map (·.name)) ∧
      (args.map = none → m = .gen ((paramInputs f).map (·.name)) ∧
        dv.mapInputs = (paramInputs f).map (·.name)) := by
  rw [decorate_iff hnd] at h
  obtain ⟨pvs, hp, hv, -, hsub, -, h2, h3, h4⟩ := h
  rw [subclass_iff hc hnd hp hv] at hsub
  obtain ⟨r, outs, m, ks, hn, hr, hone, ho, hk, hs, hval, hm, hcls⟩ := hsub
  rw [hcls]
  have hmod : moduleName 0 stack = stack.head? := by cases stack <;> rfl
  have hz : ∀ {β : Type} (g : Vw H → β), (pvs.map fun pv => (pv.1.name, g pv.2)) =
      ((paramInputs f).map (·.name)).zip ((pvs.map Prod.snd).map g) := by
    intro β g
    rw [← hp]
    clear hp hv hn hcls
    induction pvs with
    | nil => rfl
    | cons pv pvs ih => simpa using ih
  refine ⟨by rw [h2, hmod], h3, h4, rfl, rfl, fun g hg => ?_, pvs.map Prod.snd, _, m, ?_, rfl, rfl,
    hz (·.cls), ?_, ⟨r, hr, ho⟩, fun g hg => ?_, fun hg => ?_⟩
  · simp only [clsOf, hg, Option.map_some, Option.getD_some, PyFn.static]
  · rw [← hp, List.forall₂_map_left_iff, List.forall₂_map_right_iff, List.forall₂_same]
    exact hv
  · have := hz id
    rw [List.map_id] at this
    exact this
  · rcases hm with ⟨g', hg', rfl, -⟩ | ⟨hmn, -⟩
    · rw [hg] at hg'
      cases hg'
      refine ⟨rfl, ?_⟩
      simp only [MapAttr.sig, sig_eq]
    · rw [hmn] at hg; cases hg
  · rcases hm with ⟨g', hg', -⟩ | ⟨-, -, rfl, -⟩
    · rw [hg] at hg'; cases hg'
    · refine ⟨rfl, ?_⟩
      simp only [MapAttr.sig]
      rw [List.filter_eq_self.2]
      · rw [List.map_map]
        exact List.map_id _
      · intro q hq
        obtain ⟨n, hn, rfl⟩ := List.mem_map.1 hq
        simp only [not_owner hn, Bool.not_false]

/-- **C75** It is the class that a class statement with these fields and functions makes, so all that
is proved about producer classes (C06, C53) holds for it. -/
theorem C75_is_what_a_class_statement_makes (hc : Coherent d)
    (hnd : (f.params.map (·.name)).Nodup) {c : DCls H A V}
    (h : (decorate d any dflt args stack st f).1 = .ok c) :
    ∃ views, List.Forall₂ (fun p v => ∃ t, p.hint = some t ∧ d.view t = .ok v) (paramInputs f) views ∧
      define d.hints (base any) [{
        abstract := false
        fields := ((paramInputs f).map (·.name)).zip (views.map fun v => ⟨v.cls, true⟩)
        build := some ⟨f.params, f.ret, true⟩
        validate := args.validate.map fun g => ⟨g.params, g.ret, true⟩
        map := args.map.map fun g => ⟨g.params, g.ret, true⟩ }] = .ok c.cls := by
  rw [decorate_iff hnd] at h
  obtain ⟨pvs, hp, hv, -, hsub, -⟩ := h
  have hsub' := hsub
  rw [subclass_iff hc hnd hp hv] at hsub
  obtain ⟨r, outs, m, ks, hn, -⟩ := hsub
  have hfo := fieldsOf_noClash (d := d) (mg := args.map.isSome) (pvs := pvs) fun pv hpv =>
    (hn pv.1 (by rw [← hp]; exact List.mem_map_of_mem hpv)).1
  refine ⟨pvs.map Prod.snd, ?_, ?_⟩
  · rw [← hp, List.forall₂_map_left_iff, List.forall₂_map_right_iff, List.forall₂_same]
    exact hv
  · have hz : ((paramInputs f).map (·.name)).zip ((pvs.map Prod.snd).map fun v =>
        (⟨v.cls, true⟩ : FieldDef H)) = fieldsOf d args.map.isSome pvs := by
      rw [hfo, ← hp]
      clear hfo hp hv hsub' hn
      induction pvs with
      | nil => rfl
      | cons pv pvs ih => simpa using ih
    simp only [define, bind_ok_iff]
    refine ⟨c.cls, ?_, rfl⟩
    rw [hz, ← hsub']
    rfl

/-- **C75** With a name, or applied once, the classes have that name or the name of the function. -/
theorem C75_names_partial {c : DCls H A V} {fs : List (PyFn H)} {i : Nat}
    (hnd : ∀ g ∈ fs, (g.params.map (·.name)).Nodup)
    (h : (producer d any dflt args stack fs)[i]? = some (.ok c)) :
    (∀ n, args.name = some n → c.name = n) ∧
    (args.name = none → i = 0 → ∃ g, fs[0]? = some g ∧ c.name = g.name) := by
  have hset : ∀ (fs : List (PyFn H)) (i : Nat) (n : Str), (∀ g ∈ fs, (g.params.map (·.name)).Nodup) →
      (decorateAll d any dflt args stack (some n) fs)[i]? = some (.ok c) → c.name = n := by
    intro fs
    induction fs with
    | nil => intro i n _ h; simp [decorateAll] at h
    | cons g fs ih =>
      intro i n hnd h
      have e : decorateAll d any dflt args stack (some n) (g :: fs) =
          (decorate d any dflt args stack (some n) g).1 ::
            decorateAll d any dflt args stack (some n) fs := rfl
      rw [e] at h
      cases i with
      | zero =>
        simp only [List.getElem?_cons_zero, Option.some.injEq] at h
        obtain ⟨_, _, _, _, _, hn, _⟩ := (decorate_iff (hnd g (by simp))).1 h
        exact hn
      | succ i =>
        simp only [List.getElem?_cons_succ] at h
        exact ih i n (fun x hx => hnd x (List.mem_cons_of_mem _ hx)) h
  refine ⟨fun n hn => ?_, fun hn hi => ?_⟩
  · simp only [producer, hn] at h
    exact hset fs i n hnd h
  · subst hi
    cases fs with
    | nil => simp [producer, decorateAll] at h
    | cons g fs =>
      refine ⟨g, rfl, ?_⟩
      have e : producer d any dflt args stack (g :: fs) =
          (decorate d any dflt args stack args.name g).1 ::
            decorateAll d any dflt args stack (some (args.name.getD g.name)) fs := rfl
      rw [e, hn] at h
      simp only [List.getElem?_cons_zero, Option.some.injEq] at h
      obtain ⟨_, _, _, _, _, hname, _⟩ := (decorate_iff (hnd g (by simp))).1 h
      exact hname

/-- An object `producer(...)` that is used again gives all classes the name of the first function,
whatever the other functions are called. -/
theorem C75_later_classes_have_the_first_name {c : DCls H A V} {g : PyFn H} {fs : List (PyFn H)}
    {i : Nat} (hnd : ∀ x ∈ fs, (x.params.map (·.name)).Nodup) (hn : args.name = none)
    (h : (producer d any dflt args stack (g :: fs))[i + 1]? = some (.ok c)) : c.name = g.name := by
  have e : producer d any dflt args stack (g :: fs) =
      (decorate d any dflt args stack args.name g).1 ::
        producer d any dflt { args with name := some (args.name.getD g.name) } stack fs := by
    have : ∀ (fs : List (PyFn H)) (st : Option Str) (n : Option Str),
        decorateAll d any dflt { args with name := n } stack st fs =
          decorateAll d any dflt args stack st fs := by
      intro fs
      induction fs with
      | nil => intro st n; rfl
      | cons x fs ih => intro st n; simp only [decorateAll, ih]; rfl
    simp only [producer, this]
    rfl
  rw [e, List.getElem?_cons_succ] at h
  have := (C75_names_partial (args := { args with name := some (args.name.getD g.name) }) hnd h).1 _ rfl
  rw [this, hn]
  rfl

/-- **C75** What is called as `self.map` is the map of the class if no parameter is called `map`. -/
theorem C75_map_is_called_partial {κ σ : Type} {npKey : κ}
    {user : Fn H → List (Str × σ) → Except Err (List (κ × List (Str × σ)))}
    (hc : Coherent d) (hnd : (f.params.map (·.name)).Nodup) {c : DCls H A V}
    (h : (decorate d any dflt args stack st f).1 = .ok c)
    (hm : ∀ p ∈ f.params, p.name ≠ "map".toList) (kwargs : List (Str × σ)) :
    callInstMap npKey user c.cls kwargs =
      match args.map with
      | some g => user ⟨g.params, g.ret, true⟩ kwargs
      | none => .ok [(npKey, kwargs)] := by
  rw [decorate_iff hnd] at h
  obtain ⟨pvs, hp, hv, -, hsub, -⟩ := h
  rw [subclass_iff hc hnd hp hv] at hsub
  obtain ⟨r, outs, m, ks, hn, hr, hone, ho, hk, hs, hval, hmap, hcls⟩ := hsub
  have hno : contains c.cls.attrs.fields "map".toList = false := by
    rw [Bool.eq_false_iff, Ne, contains_iff, hcls]
    intro hmem
    obtain ⟨x, hx, hxe⟩ := List.mem_map.1 hmem
    obtain ⟨pv, hpv, rfl⟩ := List.mem_map.1 hx
    have hpm : pv.1 ∈ paramInputs f := by rw [← hp]; exact List.mem_map_of_mem hpv
    exact hm pv.1 (List.mem_filter.1 hpm).1 hxe
  have hcm : c.cls.attrs.map = some m := by rw [hcls]; rfl
  simp only [callInstMap, instMap, hno, Bool.false_eq_true, if_false, hcm, Option.map_some]
  rcases hmap with ⟨g, hg, rfl, -⟩ | ⟨hg, -, rfl, -⟩
  · rw [hg]; rfl
  · rw [hg]; rfl

/-! ## The views of the package are coherent -/

open Views in
/-- Asking for the view of a hint again, with the artifact class of the first answer as default (as
`_validate_build_param` does), gives the same view: `Coherent.again` holds for the views of
`Model/Views`, for every registry and every annotation. -/
theorem C75_views_are_coherent {ids : Typ.Ids} {reg : Registry} {ann : Ann} {mode : Mode} {v : View}
    (h : fromAnnotation ids reg ann mode = .ok v) :
    fromAnnotation ids reg
      (match getItem ann Item.art? with
        | .ok none => ⟨ann.hint, ann.items ++ [.art v.art]⟩
        | _ => ann) mode = .ok v := by
  cases hi : getItem ann Item.art? with
  | error e => exact h
  | ok o =>
    cases o with
    | some a => exact h
    | none =>
      simp only
      have hnil : ann.items.filterMap Item.art? = [] := by
        simp only [getItem] at hi
        match hl : ann.items.filterMap Item.art? with
        | [] => rfl
        | [a] => rw [hl] at hi; simp [oneOrNone] at hi
        | a :: b :: l => rw [hl] at hi; simp [oneOrNone] at hi
      have hview : getItem ⟨ann.hint, ann.items ++ [.art v.art]⟩ Item.view? = getItem ann Item.view? := by
        simp [getItem, List.filterMap_append, List.filterMap_cons, Item.view?]
      have htype : getItem ⟨ann.hint, ann.items ++ [.art v.art]⟩ Item.type? = getItem ann Item.type? := by
        simp [getItem, List.filterMap_append, List.filterMap_cons, Item.type?]
      have hart : getItem ⟨ann.hint, ann.items ++ [.art v.art]⟩ Item.art? = .ok (some v.art) := by
        simp [getItem, List.filterMap_append, hnil, Item.art?, oneOrNone]
      have hcls : getClassFor reg ⟨ann.hint, ann.items ++ [.art v.art]⟩ = getClassFor reg ann := by
        simp only [getClassFor, hview]
      simp only [fromAnnotation, bind_ok_iff, hcls] at h ⊢
      obtain ⟨c, h1, ⟨art, t⟩, h2, w, h3, u, h4, h5⟩ := h
      have hw : w = v := by simpa [pure, Except.pure] using h5
      subst hw
      have ha : w.art = art := by
        simp only [mkView] at h3
        split at h3
        · simp at h3
        · split at h3
          · simp only [bind_ok_iff] at h3
            obtain ⟨_, _, h3⟩ := h3
            simp only [pure, Except.pure, Except.ok.injEq] at h3
            rw [← h3]
          · cases h3; rfl
      refine ⟨c, h1, (art, t), ?_, w, h3, u, h4, rfl⟩
      simp only [kwargsFrom, hi, bind_ok_iff, Except.ok.injEq, exists_eq_left', Option.getD_none] at h2
      simp only [kwargsFrom, hart, bind_ok_iff, Except.ok.injEq, exists_eq_left', Option.getD_some]
      obtain ⟨t', ht, he⟩ := h2
      simp only [pure, Except.pure, Except.ok.injEq, Prod.mk.injEq] at he
      obtain ⟨he1, he2⟩ := he
      rw [he1] at ht
      subst he2
      refine ⟨t', ?_, by rw [ha]; rfl⟩
      simp only [typeFrom, htype]
      rw [ha]
      exact ht

/-! ## Examples and violations -/

namespace Ex75

/-- Hints are numbers: 0 is an artifact class, 1 a plain hint, 2 a hint for a collection that is
partitioned by the field `d`, 3 and 4 are the hints for partitions and snapshots, 9 is `Any`. -/
def denv : DEnv Nat where
  hints := {
    optional _ := false
    isArtifact h := h == 0
    readView h field := if h = 5 then .error .valueError else .ok ⟨field, none⟩
    writeView h := .ok ⟨0, if h = 2 then some [("d".toList, 7)] else none⟩
    tuple h := [h]
    isNone _ := false
    partitions := 3
    snapshots := 4
    sub _ _ := true
    fieldClass t := some t }
  view h := if h = 5 then .error .valueError else .ok ⟨0, none⟩
  baseAttr n := n = "inputs".toList || n = "out".toList || n = "fingerprint".toList

theorem coherent : Coherent denv where
  artifact h v hv := by
    simp only [denv] at hv ⊢
    split at hv
    · simp at hv
    · cases hv; simp
  again h v hv := by
    simp only [denv] at hv ⊢
    split at hv
    · simp at hv
    · rename_i hn; cases hv; simp [hn]
  nodup h v fs hv hf := by
    simp only [denv, Except.ok.injEq] at hv
    subst hv
    simp only at hf
    split at hf
    · cases hf; simp [keys]
    · cases hf
  hints := by simp [denv]

def kw (n : String) (h : Nat := 1) : Param Nat := ⟨n.toList, some h, false, .posOrKw⟩

/-- `def add(a: A, b: B) -> C` -/
def add : PyFn Nat := ⟨"add".toList, [kw "a", kw "b"], some 1⟩
def sub : PyFn Nat := ⟨"sub".toList, [kw "a", kw "b"], some 1⟩
/-- `def days(a: A) -> Annotated[list, partitioned by d]` with a map -/
def days : PyFn Nat := ⟨"days".toList, [kw "a", kw "b"], some 2⟩
def mapDays : PyFn Nat := ⟨"map_days".toList, [kw "a" 3], some 9⟩
def noArgs : DecArgs Nat Nat Nat := {}

structure Sum where
  name : Str
  module : Option Str
  annotations : List Nat
  version : Nat
  inputs : List Str
  map : List Str
  deriving DecidableEq

def summary : Except Err (DCls Nat Nat Nat) → Option Sum
  | .ok c => c.cls.derived.map fun dv =>
      ⟨c.name, c.module, c.annotations, c.version, keys dv.inputs, dv.mapInputs⟩
  | .error _ => none

def make (args : DecArgs Nat Nat Nat) (fs : List (PyFn Nat)) : List (Option Sum) :=
  (producer denv 9 1 args ["user.code".toList, "main".toList] fs).map summary

/-- A function that is accepted: the hypotheses of the theorems above are met. -/
example : make noArgs [add] = [some ⟨"add".toList, some "user.code".toList, [], 1,
    ["a".toList, "b".toList], ["a".toList, "b".toList]⟩] := by decide +kernel
example : make ⟨some [4], some mapDays, some "Days".toList, none, some 5⟩ [days] =
    [some ⟨"Days".toList, some "user.code".toList, [4], 5, ["a".toList, "b".toList], ["a".toList]⟩] := by
  decide +kernel
/-- Functions that do not describe a producer: partitioned outputs without a map, parameters without a
hint, without a view, with a default, with a taken name, and a map of something that is no input. -/
example : make noArgs [days] = [none] ∧
    make noArgs [⟨"f".toList, [⟨"a".toList, none, false, .posOrKw⟩], some 1⟩] = [none] ∧
    make noArgs [⟨"f".toList, [kw "a" 5], some 1⟩] = [none] ∧
    make noArgs [⟨"f".toList, [⟨"a".toList, some 1, true, .posOrKw⟩], some 1⟩] = [none] ∧
    make noArgs [⟨"f".toList, [kw "_a"], some 1⟩] = [none] ∧
    make noArgs [⟨"f".toList, [kw "version"], some 1⟩] = [none] ∧
    make { version := some 1 } [⟨"f".toList, [kw "version"], some 1⟩] = [none] ∧
    make noArgs [⟨"f".toList, [kw "out"], some 1⟩] = [none] ∧
    make noArgs [⟨"f".toList, [kw "kwargs"], some 1⟩] = [none] ∧
    make { map := some ⟨"m".toList, [kw "c" 3], some 9⟩ } [days] = [none] := by decide +kernel

end Ex75

/-- **C75** does not hold for an object `producer()` that decorates two functions: the second class has
the name of the first function. -/
theorem C75_violated_by_decorating_twice :
    ∃ (d : DEnv Nat) (any dflt : Nat) (args : DecArgs Nat Nat Nat) (stack : List Str) (f g : PyFn Nat)
      (c c' : DCls Nat Nat Nat), Coherent d ∧ args.name = none ∧ f.name ≠ g.name ∧
      producer d any dflt args stack [f, g] = [.ok c, .ok c'] ∧ c.name = f.name ∧ c'.name = f.name := by
  have h1 : Ex75.make Ex75.noArgs [Ex75.add, Ex75.sub] =
      [some ⟨"add".toList, some "user.code".toList, [], 1, ["a".toList, "b".toList],
        ["a".toList, "b".toList]⟩, some ⟨"add".toList, some "user.code".toList, [], 1,
        ["a".toList, "b".toList], ["a".toList, "b".toList]⟩] := by decide +kernel
  simp only [Ex75.make] at h1
  rcases hp : producer Ex75.denv 9 1 Ex75.noArgs ["user.code".toList, "main".toList]
    [Ex75.add, Ex75.sub] with _ | ⟨x, _ | ⟨y, _ | ⟨z, l⟩⟩⟩
  · rw [hp] at h1; simp at h1
  · rw [hp] at h1; simp at h1
  · rw [hp] at h1
    simp only [List.map_cons, List.map_nil, List.cons.injEq, and_true] at h1
    have get : ∀ {e : Except Err (DCls Nat Nat Nat)} {s : Ex75.Sum}, Ex75.summary e = some s →
        ∃ c, e = .ok c ∧ c.name = s.name := by
      intro e s h
      rcases e with e | c
      · simp [Ex75.summary] at h
      · refine ⟨c, rfl, ?_⟩
        simp only [Ex75.summary, Option.map_eq_some_iff] at h
        obtain ⟨_, _, rfl⟩ := h
        rfl
    obtain ⟨c, rfl, hc⟩ := get h1.1
    obtain ⟨c', rfl, hc'⟩ := get h1.2
    exact ⟨Ex75.denv, 9, 1, Ex75.noArgs, _, Ex75.add, Ex75.sub, c, c', Ex75.coherent, rfl, by decide, hp,
      hc, hc'⟩
  · rw [hp] at h1; simp at h1

/-- **C75** does not hold for an empty tuple of annotations: every function is refused, also one that
is accepted without the argument. -/
theorem C75_violated_by_empty_annotations (hc : Coherent d) (hnd : (f.params.map (·.name)).Nodup)
    (ha : args.annotations = some []) :
    ∃ e, (decorate d any dflt args stack st f).1 = .error e := by
  cases h : (decorate d any dflt args stack st f).1 with
  | error e => exact ⟨e, rfl⟩
  | ok c => exact absurd ha ((C75_accepted_iff hc hnd).1 ⟨c, h⟩).annotations
example : Ex75.make { annotations := some [] } [Ex75.add] = [none] ∧
    Ex75.make {} [Ex75.add] ≠ [none] := by decide +kernel

/-- **C75** does not hold for functions with a parameter called `map`: they are accepted, and the
dependencies of an instance can never be computed. -/
theorem C75_violated_by_a_parameter_called_map :
    ∃ (d : DEnv Nat) (any dflt : Nat) (f : PyFn Nat) (c : DCls Nat Nat Nat), Coherent d ∧
      producer d any dflt {} [] [f] = [.ok c] ∧
      ∀ (κ σ : Type) (npKey : κ) (user : Fn Nat → List (Str × σ) → _) (kwargs : List (Str × σ)),
        callInstMap npKey user c.cls kwargs = .error .typeError := by
  have h : (match producer Ex75.denv 9 1 ({} : DecArgs Nat Nat Nat) []
      [⟨"f".toList, [Ex75.kw "map"], some 1⟩] with
      | [.ok c] => contains c.cls.attrs.fields "map".toList
      | _ => false) = true := by decide +kernel
  split at h
  · rename_i c hc
    refine ⟨Ex75.denv, 9, 1, ⟨"f".toList, [Ex75.kw "map"], some 1⟩, c, Ex75.coherent, hc, ?_⟩
    intro κ σ npKey user kwargs
    simp only [callInstMap, instMap, h, if_true]
  · cases h

end Arti.Props
