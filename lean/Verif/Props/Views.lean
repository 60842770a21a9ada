import Verif.Lemmas.Views

/-!
# C55: views agree with the annotations and artifacts they are made for
-/

namespace Arti
namespace Props
open TH Typ Spec Views
variable {ids : Ids}

/-! ## Views from annotations -/

private theorem getClassFor_iff {reg : Registry} {ann : Ann} {v : ViewCls} :
    getClassFor reg ann = .ok v ↔ ClassOf reg ann v := by
  rw [getClassFor, getItem_eq]
  have he : ann.items.filterMap Item.view? = viewItems ann := rfl
  rw [he]
  constructor
  · intro h
    match hv : viewItems ann with
    | [] =>
      rw [hv] at h
      simp only [bind, Except.bind, pure, Except.pure] at h
      cases hf : find reg (hintKey ann.hint) with
      | some w => rw [hf] at h; simp only [Except.ok.injEq] at h; subst h; exact .registered hv hf
      | none =>
        rw [hf] at h
        simp only at h
        cases ho : find reg (originKey ann.hint) with
        | some w => rw [ho] at h; simp only [Except.ok.injEq] at h; subst h; exact .origin hv hf ho
        | none => rw [ho] at h; simp at h
    | [w] =>
      rw [hv] at h
      simp only [bind, Except.bind, pure, Except.pure, Except.ok.injEq] at h
      subst h
      exact .named hv
    | _ :: _ :: _ => rw [hv] at h; simp [bind, Except.bind] at h
  · intro h
    cases h with
    | named h => simp [h, bind, Except.bind, pure, Except.pure]
    | registered h hr => simp [h, hr, bind, Except.bind, pure, Except.pure]
    | origin h hn hr => simp [h, hn, hr, bind, Except.bind, pure, Except.pure]

private theorem typeFrom_iff {ann : Ann} {a : ArtCls} {t : Ty} :
    typeFrom ids a ann = .ok t ↔ TypeOf ids ann a t := by
  rw [typeFrom, getItem_eq]
  have he' : ann.items.filterMap Item.type? = typeItems ann := rfl
  rw [he']
  constructor
  · intro h
    match ht : typeItems ann with
    | [] =>
      rw [ht] at h
      simp only [bind, Except.bind, pure, Except.pure] at h
      cases hd : a.dflt with
      | some d =>
        rw [hd] at h
        simp only [Except.ok.injEq] at h
        subst h
        exact .default ht hd
      | none =>
        rw [hd] at h
        exact .inferred ht hd h
    | [w] =>
      rw [ht] at h
      simp only [bind, Except.bind, pure, Except.pure, Except.ok.injEq] at h
      subst h
      exact .named ht
    | _ :: _ :: _ => rw [ht] at h; simp [bind, Except.bind] at h
  · intro h
    cases h with
    | named h => simp [h, bind, Except.bind, pure, Except.pure]
    | default h hd => simp [h, hd, bind, Except.bind, pure, Except.pure]
    | inferred h hd hp => simp [h, hd, hp, bind, Except.bind]

private theorem kwargsFrom_iff {v : ViewCls} {ann : Ann} {a : ArtCls} {t : Ty} :
    kwargsFrom ids v ann = .ok (a, t) ↔ ArtOf ann v a ∧ TypeOf ids ann a t := by
  rw [kwargsFrom, getItem_eq]
  have he : ann.items.filterMap Item.art? = artItems ann := rfl
  rw [he]
  have main : ∀ b : ArtCls, (do
      let t ← typeFrom ids b ann
      return (b, t)) = Except.ok (a, t) ↔ b = a ∧ TypeOf ids ann a t := by
    intro b
    rw [← typeFrom_iff]
    cases hb : typeFrom ids b ann with
    | error e =>
      simp only [bind, Except.bind, reduceCtorEq, false_iff, not_and]
      rintro rfl
      rw [hb]; simp
    | ok u =>
      simp only [bind, Except.bind, pure, Except.pure, Except.ok.injEq, Prod.mk.injEq]
      constructor
      · rintro ⟨rfl, rfl⟩; exact ⟨rfl, hb⟩
      · rintro ⟨rfl, h⟩; rw [hb] at h; simp at h; exact ⟨rfl, h⟩
  match ha : artItems ann with
  | [] =>
    refine (main v.artifactClass).trans ⟨?_, ?_⟩
    · rintro ⟨rfl, h⟩; exact ⟨.default ha rfl, h⟩
    · rintro ⟨h1, h2⟩
      cases h1 with
      | named h => rw [h] at ha; simp at ha
      | default _ h => exact ⟨h.symm, h2⟩
  | [w] =>
    refine (main w).trans ⟨?_, ?_⟩
    · rintro ⟨rfl, h⟩; exact ⟨.named ha, h⟩
    · rintro ⟨h1, h2⟩
      cases h1 with
      | named h => rw [h] at ha; simp at ha; exact ⟨ha.symm, h2⟩
      | default h _ => rw [h] at ha; simp at ha
  | x :: y :: zs =>
    refine ⟨fun h => by simp [bind, Except.bind] at h, ?_⟩
    rintro ⟨h1, -⟩
    cases h1 with
    | named h => rw [h] at ha; simp at ha
    | default h _ => rw [h] at ha; simp at ha

private theorem checkAnnotation_iff {v : View} {h : PyHint} :
    checkAnnotation v h = .ok () ↔ Represents v.cls v.type h := by
  rw [checkAnnotation]
  constructor
  · intro hc
    cases hs : v.cls.toSystem v.type with
    | error e => rw [hs] at hc; simp [bind, Except.bind] at hc
    | ok sys =>
      rw [hs] at hc
      simp only [bind, Except.bind] at hc
      refine ⟨sys, hs, ?_⟩
      cases hl : lenient PyCls.hier sys h with
      | error e => rw [hl] at hc; simp at hc
      | ok b =>
        cases b with
        | true => exact .inl rfl
        | false =>
          rw [hl] at hc
          simp only [Bool.false_eq_true, if_false] at hc
          refine .inr ⟨rfl, ?_⟩
          cases hl' : lenient PyCls.hier (.cls (metaOf sys)) h with
          | error e => rw [hl'] at hc; simp at hc
          | ok b => cases b <;> simp [hl'] at hc ⊢
  · rintro ⟨sys, hs, h | ⟨h, h'⟩⟩
    · simp [hs, h, bind, Except.bind, pure, Except.pure]
    · simp [hs, h, h', bind, Except.bind, pure, Except.pure]

private theorem mkView_iff {c : ViewCls} {mode : Mode} {a : ArtCls} {t : Ty} {v : View} :
    mkView c mode a t = .ok v ↔
      c.abstract = false ∧ (∀ d, a.dflt = some d → tyEq t d = true) ∧ v = ⟨c, mode, a, t⟩ := by
  rw [mkView]
  cases c.abstract with
  | true => simp
  | false =>
    simp only [Bool.false_eq_true, if_false, true_and]
    cases hd : a.dflt with
    | none =>
      simp only [bind, Except.bind, pure, Except.pure, Except.ok.injEq]
      constructor
      · rintro rfl; exact ⟨by simp, rfl⟩
      · rintro ⟨-, rfl⟩; rfl
    | some d =>
      simp only [checkType, bind, Except.bind, pure, Except.pure, Option.some.injEq, forall_eq']
      cases tyEq t d with
      | true => simp only [if_true, Except.ok.injEq, true_and]; exact eq_comm
      | false => simp

/-- C55: `View.from_annotation` returns a view exactly if the annotation names at most one view class,
artifact class and type and they agree; the view has the class, artifact class and type that take
precedence, its type equals the default type of its artifact class, and the Python representation of
its type is an instance of the hint. -/
theorem C55_from_annotation_iff {reg : Registry} {ann : Ann} {mode : Mode} {v : View} :
    fromAnnotation ids reg ann mode = .ok v ↔
      v.mode = mode ∧ v.cls.abstract = false ∧
      ClassOf reg ann v.cls ∧ ArtOf ann v.cls v.art ∧ TypeOf ids ann v.art v.type ∧
      (∀ d, v.art.dflt = some d → tyEq v.type d = true) ∧
      Represents v.cls v.type ann.hint := by
  rw [fromAnnotation]
  constructor
  · intro h
    cases hc : getClassFor reg ann with
    | error e => rw [hc] at h; simp [bind, Except.bind] at h
    | ok c =>
      rw [hc] at h
      simp only [bind, Except.bind] at h
      cases hk : kwargsFrom ids c ann with
      | error e => rw [hk] at h; simp at h
      | ok at' =>
        obtain ⟨a, t⟩ := at'
        rw [hk] at h
        simp only at h
        cases hm : mkView c mode a t with
        | error e => rw [hm] at h; simp at h
        | ok w =>
          rw [hm] at h
          simp only at h
          cases hca : checkAnnotation w ann.hint with
          | error e => rw [hca] at h; simp at h
          | ok u =>
            rw [hca] at h
            simp only [pure, Except.pure, Except.ok.injEq] at h
            subst h
            obtain ⟨h1, h2, rfl⟩ := mkView_iff.1 hm
            obtain ⟨h3, h4⟩ := kwargsFrom_iff.1 hk
            exact ⟨rfl, h1, getClassFor_iff.1 hc, h3, h4, h2, checkAnnotation_iff.1 hca⟩
  · rintro ⟨rfl, h1, h2, h3, h4, h5, h6⟩
    have hm : mkView v.cls v.mode v.art v.type = .ok v := mkView_iff.2 ⟨h1, h5, rfl⟩
    simp [getClassFor_iff.2 h2, kwargsFrom_iff.2 ⟨h3, h4⟩, hm, checkAnnotation_iff.2 h6, bind,
      Except.bind, pure, Except.pure]

/-- C55: an annotation that names two view classes, two artifact classes or two types is refused. -/
theorem C55_ambiguous_annotations_are_refused {reg : Registry} {ann : Ann} {mode : Mode}
    (h : 1 < (viewItems ann).length ∨ 1 < (artItems ann).length ∨ 1 < (typeItems ann).length) :
    ∃ e, fromAnnotation ids reg ann mode = .error e := by
  cases hf : fromAnnotation ids reg ann mode with
  | error e => exact ⟨e, rfl⟩
  | ok v =>
    obtain ⟨-, -, h1, h2, h3, -⟩ := C55_from_annotation_iff.1 hf
    rcases h with h | h | h
    · cases h1 with
      | named e => simp [e] at h
      | registered e => simp [e] at h
      | origin e => simp [e] at h
    · cases h2 with
      | named e => simp [e] at h
      | default e => simp [e] at h
    · cases h3 with
      | named e => simp [e] at h
      | default e => simp [e] at h
      | inferred e => simp [e] at h

/-! ## Artifacts -/

private theorem checkArtifact_iff {io : Lookup} {v : View} {a : Art} :
    checkArtifact io v a = .ok () ↔
      a.cls.sub v.art = true ∧ tyEq v.type a.type = true ∧
      (v.mode ≠ .write → io.reader a.type a.fmt a.stor v.cls = .ok ()) ∧
      (v.mode ≠ .read → io.writer v.cls.pythonType a.type a.fmt a.stor v.cls = .ok ()) := by
  rw [checkArtifact, checkType]
  cases a.cls.sub v.art with
  | false => simp
  | true =>
    simp only [if_true, true_and]
    cases tyEq v.type a.type with
    | false => simp [bind, Except.bind]
    | true =>
      simp only [if_true, true_and, bind, Except.bind]
      cases v.mode with
      | read => cases io.reader a.type a.fmt a.stor v.cls <;> simp
      | write => simp
      | readWrite => cases io.reader a.type a.fmt a.stor v.cls <;> simp

/-- C55: a view is compatible with exactly the artifacts that are instances of its artifact class,
have an equal type, and can be read, written or both, according to the mode of the view. -/
theorem C55_artifact_compatibility_iff {io : Lookup} {v : View} {a : Art} :
    checkArtifact io v a = .ok () ↔
      a.cls.sub v.art = true ∧ tyEq v.type a.type = true ∧
      (v.mode ≠ .write → io.reader a.type a.fmt a.stor v.cls = .ok ()) ∧
      (v.mode ≠ .read → io.writer v.cls.pythonType a.type a.fmt a.stor v.cls = .ok ()) :=
  checkArtifact_iff

/-- C55: equality of types does not depend on the order of the fields of structs, at any depth of
the second type's own fields: any reordering of distinct fields is equal. -/
theorem C55_field_order_does_not_matter {n : Str} {fs gs : List (Str × Ty)} {m : Meta}
    (hn : (fs.map Prod.fst).Nodup) (hd : DistinctNamesF fs) (hp : fs.Perm gs) :
    tyEq (.struct n fs m) (.struct n gs m) = true := by
  have hg : ((gs.map Prod.fst)).Nodup := (hp.map Prod.fst).nodup_iff.1 hn
  have := tyEqFields_of fs hd gs fun k t hm => PyDict.get?_of_mem hg (hp.mem_iff.1 hm)
  simp [tyEq, this, hp.length_eq]

/-- C55: reading an artifact with an annotation uses a view of the artifact's own class and type, of
the class that the annotation stands for, that can read it and whose representation is an instance of
the hint; and every such annotation is accepted. -/
theorem C55_read_with_annotation_iff {reg : Registry} {io : Lookup} {a : Art} {ann : Ann} {v : View}
    (hnn : ¬ (ann.hint = .none ∧ ann.items = [])) (ha : a.cls.sub a.cls = true)
    (hd : DistinctNames a.type) :
    readView reg io a (some ann) none = .ok v ↔
      v = ⟨v.cls, .read, a.cls, a.type⟩ ∧ v.cls.abstract = false ∧ ClassOf reg ann v.cls ∧
      (∀ d, a.cls.dflt = some d → tyEq a.type d = true) ∧
      Represents v.cls a.type ann.hint ∧ io.reader a.type a.fmt a.stor v.cls = .ok () := by
  have hN : isNone ann = false := by
    unfold isNone
    split
    · rename_i h1 h2; exact absurd ⟨h1, h2⟩ hnn
    · rfl
  simp only [readView, Option.filter, hN, Bool.not_false, if_true]
  constructor
  · intro h
    cases hc : getClassFor reg ann with
    | error e => rw [hc] at h; simp [bind, Except.bind] at h
    | ok c =>
      rw [hc] at h
      simp only [bind, Except.bind] at h
      cases hm : mkView c .read a.cls a.type with
      | error e => rw [hm] at h; simp at h
      | ok w =>
        rw [hm] at h
        simp only at h
        cases hca : checkAnnotation w ann.hint with
        | error e => rw [hca] at h; simp at h
        | ok u =>
          rw [hca] at h
          simp only at h
          cases hck : checkArtifact io w a with
          | error e => rw [hck] at h; simp at h
          | ok u =>
            rw [hck] at h
            simp only [pure, Except.pure, Except.ok.injEq] at h
            subst h
            obtain ⟨h1, h2, rfl⟩ := mkView_iff.1 hm
            obtain ⟨-, -, h3, -⟩ := checkArtifact_iff.1 hck
            exact ⟨rfl, h1, getClassFor_iff.1 hc, h2, checkAnnotation_iff.1 hca, h3 (by simp)⟩
  · rintro ⟨hv, h1, h2, h3, h4, h5⟩
    have hm : mkView v.cls .read a.cls a.type = .ok v := mkView_iff.2 ⟨h1, h3, hv⟩
    have hca : checkAnnotation v ann.hint = .ok () := by
      apply checkAnnotation_iff.2
      rw [hv]
      exact h4
    have hck : checkArtifact io v a = .ok () := by
      apply checkArtifact_iff.2
      rw [hv]
      exact ⟨ha, tyEq_refl _ hd, fun _ => h5, by simp⟩
    simp [getClassFor_iff.2 h2, hm, hca, hck, bind, Except.bind, pure, Except.pure]

/-- C55: exactly one of an annotation and a view must be given to read. -/
theorem C55_read_takes_one_of_annotation_and_view {reg : Registry} {io : Lookup} {a : Art}
    {ann : Ann} {view : View} (hnn : ¬ (ann.hint = .none ∧ ann.items = [])) :
    readView reg io a none none = .error .valueError ∧
    readView reg io a (some ann) (some view) = .error .valueError := by
  have hN : isNone ann = false := by
    unfold isNone
    split
    · rename_i h1 h2; exact absurd ⟨h1, h2⟩ hnn
    · rfl
  exact ⟨rfl, by simp [readView, Option.filter, hN]⟩

/-- C55: what is written is written with a view that passed both checks, whether it was given or
found from the class of the data. -/
theorem C55_writes_are_checked {reg : Registry} {io : Lookup} {a : Art} {data : PyCls}
    {view : Option View} {v : View} (h : writeView reg io a data view = .ok v) :
    (∀ w, view = some w → v = w) ∧
    (view = none → v = ⟨v.cls, .write, a.cls, a.type⟩ ∧ find reg (some (some data)) = some v.cls) ∧
    Represents v.cls v.type (.cls data) ∧
    a.cls.sub v.art = true ∧ tyEq v.type a.type = true ∧
    (v.mode ≠ .read → io.writer v.cls.pythonType a.type a.fmt a.stor v.cls = .ok ()) := by
  have fin : ∀ w : View, (do
      checkAnnotation w (.cls data)
      checkArtifact io w a
      return w) = Except.ok v → v = w ∧ Represents v.cls v.type (.cls data) ∧
        a.cls.sub v.art = true ∧ tyEq v.type a.type = true ∧
        (v.mode ≠ .read → io.writer v.cls.pythonType a.type a.fmt a.stor v.cls = .ok ()) := by
    intro w h
    simp only [bind, Except.bind] at h
    cases hca : checkAnnotation w (.cls data) with
    | error e => rw [hca] at h; simp at h
    | ok u =>
      rw [hca] at h
      simp only at h
      cases hck : checkArtifact io w a with
      | error e => rw [hck] at h; simp at h
      | ok u =>
        rw [hck] at h
        simp only [pure, Except.pure, Except.ok.injEq] at h
        subst h
        obtain ⟨h1, h2, -, h3⟩ := checkArtifact_iff.1 hck
        exact ⟨rfl, checkAnnotation_iff.1 hca, h1, h2, h3⟩
  cases view with
  | some w =>
    obtain ⟨rfl, hh⟩ := fin w h
    exact ⟨by simp, by simp, hh⟩
  | none =>
    simp only [writeView] at h
    cases hc : getClassFor reg { hint := .cls data } with
    | error e => rw [hc] at h; simp [bind, Except.bind] at h
    | ok c =>
      rw [hc] at h
      simp only [bind, Except.bind] at h
      cases hm : mkView c .write a.cls a.type with
      | error e => rw [hm] at h; simp at h
      | ok w =>
        rw [hm] at h
        obtain ⟨rfl, hh⟩ := fin w h
        obtain ⟨h1, h2, h3⟩ := mkView_iff.1 hm
        have hcl := getClassFor_iff.1 hc
        refine ⟨by simp, fun _ => ⟨by rw [h3], ?_⟩, hh⟩
        cases hcl with
        | named e => simp [viewItems] at e
        | registered _ hr => rw [h3]; exact hr
        | origin _ _ hr => simp [originKey, getOrigin, find] at hr

/-! ## The views of the package -/

private theorem find_py {k : Option (Option PyCls)} {v : ViewCls}
    (h : find (pyRegistry ids) k = some v) :
    k ∈ [some none, some (some .date), some (some .datetime), some (some .dict), some (some .float),
      some (some .int), some (some .list), some (some .str)] ∧ v.toSystem = pyToSystem ids ∧
      v.abstract = false ∧ v.artifactClass = artifactBase := by
  cases k with
  | none => simp [find] at h
  | some k =>
    have hm := PyDict.get?_mem h
    simp only [pyRegistry, List.mem_cons, Prod.mk.injEq, List.not_mem_nil, or_false] at hm
    rcases hm with ⟨rfl, rfl⟩ | ⟨rfl, rfl⟩ | ⟨rfl, rfl⟩ | ⟨rfl, rfl⟩ | ⟨rfl, rfl⟩ | ⟨rfl, rfl⟩ |
      ⟨rfl, rfl⟩ | ⟨rfl, rfl⟩ <;> simp [pyView]

/-- C55: with the views of the package, a hint without further annotations stands for a view exactly
if it is `None`, one of `date`, `datetime`, `dict`, `float`, `int`, `list` and `str`, or a generic
over one of these.  In particular `bool`, `bytes`, tuples, sets, unions, literals, `TypedDict`s and
subclasses of the listed classes have no view. -/
theorem C55_hints_with_a_view {hint : PyHint} :
    (∃ v, getClassFor (pyRegistry ids) { hint := hint } = .ok v) ↔
      hint = .none ∨
      ∃ c ∈ [PyCls.date, .datetime, .dict, .float, .int, .list, .str],
        hint = .cls c ∨ ∃ i args, hint = .gen i c args ∨ hint = .tgen i c args := by
  constructor
  · rintro ⟨v, h⟩
    cases getClassFor_iff.1 h with
    | named e => simp [viewItems] at e
    | registered _ hr =>
      have := (find_py hr).1
      cases hint <;> simp [hintKey] at this ⊢
      exact this
    | origin _ _ hr =>
      have := (find_py hr).1
      cases hint <;> simp [originKey, getOrigin, PyCls.hier] at this ⊢ <;> exact this
  · have reg : ∀ c ∈ [PyCls.date, .datetime, .dict, .float, .int, .list, .str],
        ∃ v, find (pyRegistry ids) (some (some c)) = some v := by
      intro c hc
      simp only [List.mem_cons, List.not_mem_nil, or_false] at hc
      rcases hc with rfl | rfl | rfl | rfl | rfl | rfl | rfl <;> exact ⟨_, rfl⟩
    rintro (rfl | ⟨c, hc, h⟩)
    · exact ⟨_, rfl⟩
    · obtain ⟨v, hv⟩ := reg c hc
      refine ⟨v, getClassFor_iff.2 ?_⟩
      rcases h with rfl | ⟨i, args, rfl | rfl⟩
      · exact .registered rfl hv
      · exact .origin rfl rfl hv
      · exact .origin rfl rfl hv

/-- C55: every non-nullable date, integer, float, string, null, timestamp, list and map type, nested
to any depth (without structs), has a view for the usual way to write it, and that view has exactly
this type. -/
theorem C55_written_hints_have_views_partial {t : Ty} {hint : PyHint} {mode : Mode}
    (hs : Supported t) (hw : Widened t) (hst : NoStruct t) (hv : HasView t)
    (hh : WrittenAs ids t hint) (hnone : t.isScalar .null = false) :
    ∃ v, fromAnnotation ids (pyRegistry ids) { hint := hint } mode = .ok v ∧
      v.type = t ∧ v.art = artifactBase := by
  have hnn : t.nullable = false := by
    cases t <;> simp_all [HasView, Ty.nullable, Ty.info]
  have hkey : ∃ c ∈ [PyCls.date, .datetime, .dict, .float, .int, .list, .str],
      (hint = .cls c ∨ ∃ i args, hint = .gen i c args ∨ hint = .tgen i c args) := by
    have exact_ : WrittenAs ids t hint → (t.isList = false ∧ isMap t = false) →
        hint = hintOf ids t := by
      intro hh hc
      cases t <;> simp [Ty.isList, isMap, HasView] at hc hv <;>
        (simp only [WrittenAs] at hh; rw [pyToSystem_supported hs] at hh; cases hh; rfl)
    cases t with
    | scalar s m =>
      rw [exact_ hh ⟨rfl, rfl⟩, hintOf_base hnn]
      cases s <;> simp [HasView, Ty.isScalar] at hv hnone <;> simp [baseHint, scalarHint]
    | timestamp p m =>
      rw [exact_ hh ⟨rfl, rfl⟩, hintOf_base hnn]
      exact ⟨.datetime, by simp, .inl rfl⟩
    | list e m =>
      rw [WrittenAs, if_neg (by simpa [Ty.nullable, Ty.info] using hnn)] at hh
      obtain ⟨i, a, rfl, -⟩ := hh
      exact ⟨.list, by simp, .inr ⟨i, [a], .inl rfl⟩⟩
    | map k v m =>
      rw [WrittenAs, if_neg (by simpa [Ty.nullable, Ty.info] using hnn)] at hh
      obtain ⟨i, a, b, rfl, -⟩ := hh
      exact ⟨.dict, by simp, .inr ⟨i, [a, b], .inl rfl⟩⟩
    | _ => simp [HasView] at hv
  obtain ⟨c, hc⟩ := (C55_hints_with_a_view (ids := ids)).2 (.inr hkey)
  have hcl := getClassFor_iff.1 hc
  have hprops : c.toSystem = pyToSystem ids ∧ c.abstract = false ∧ c.artifactClass = artifactBase := by
    cases hcl with
    | named e => simp [viewItems] at e
    | registered _ hr => exact (find_py hr).2
    | origin _ _ hr => exact (find_py hr).2
  refine ⟨⟨c, mode, artifactBase, t⟩, C55_from_annotation_iff.2 ⟨rfl, hprops.2.1, hcl,
    .default rfl hprops.2.2.symm, .inferred rfl rfl (written_artigraph hs hw hh _ (Nat.le_refl _)),
    by simp [artifactBase], hintOf ids t, ?_, .inl ?_⟩, rfl, rfl⟩
  · rw [hprops.1]; exact pyToSystem_supported hs
  · have hwl := written_lenient hs hw hst hh
    by_cases hlm : t.isList = true ∨ isMap t = true
    · exact hwl.2 hnn hlm
    · have hwr : hint = hintOf ids t := by
        cases t <;> simp [Ty.isList, isMap, HasView] at hlm hv <;>
          (simp only [WrittenAs] at hh; rw [pyToSystem_supported hs] at hh; cases hh; rfl)
      subst hwr
      rw [hintOf_base hnn]
      cases t with
      | scalar s m =>
        cases s <;> simp [HasView, Ty.isScalar] at hv hnone <;>
          simp only [baseHint, scalarHint] <;> exact lenient_cls_refl _
      | timestamp p m => exact lenient_cls_refl _
      | list e m => simp [Ty.isList] at hlm
      | map k v m => simp [isMap] at hlm
      | _ => simp [HasView] at hv

/-! ## Where views fall short -/

private theorem meta_not_below {sys : PyHint} {i : Nat} {as : List PyHint}
    (hsys : sys = .union i as) {hint : PyHint}
    (hh : hint = .none ∨ ∃ c ∈ [PyCls.date, .datetime, .dict, .float, .int, .list, .str],
        hint = .cls c ∨ ∃ i args, hint = .gen i c args ∨ hint = .tgen i c args) :
    lenient PyCls.hier (.cls (metaOf sys)) hint = .ok false := by
  subst hsys
  rcases hh with rfl | ⟨c, hc, rfl | ⟨j, args, rfl | rfl⟩⟩
  · rw [lenient, if_pos (by rfl), if_neg (by simp [isUnionHint]), checkIssubclass]
    simp [bare, discardAnnotated, unbind, isSame, ident, metaOf, PyCls.hier]
  · rw [lenient_cls]
    simp only [List.mem_cons, List.not_mem_nil, or_false] at hc
    rcases hc with rfl | rfl | rfl | rfl | rfl | rfl | rfl <;> simp [metaOf, PyCls.mro]
  all_goals
    rw [lenient, if_pos (by rfl), if_neg (by simp [isUnionHint]), checkIssubclass]
    simp only [bare, discardAnnotated, unbind, isSame, ident, metaOf, getOrigin, issubclassToOrigin,
      issubclassCls, PyCls.hier]
    simp only [List.mem_cons, List.not_mem_nil, or_false] at hc
    rcases hc with rfl | rfl | rfl | rfl | rfl | rfl | rfl <;> simp [PyCls.mro]

private theorem not_represented {t : Ty} (hs : Supported t) (hn : t.nullable = true) {v : ViewCls}
    (hv : v.toSystem = pyToSystem ids) {hint : PyHint}
    (hh : hint = .none ∨ ∃ c ∈ [PyCls.date, .datetime, .dict, .float, .int, .list, .str],
        hint = .cls c ∨ ∃ i args, hint = .gen i c args ∨ hint = .tgen i c args) :
    ¬ Represents v t hint := by
  rintro ⟨sys, h1, h2⟩
  rw [hv, pyToSystem_supported hs, hintOf_nullable hs hn] at h1
  cases h1
  rcases h2 with h2 | ⟨-, h2⟩
  · rw [lenient, if_neg (by simp [classLike])] at h2
    simp at h2
  · rw [meta_not_below rfl hh] at h2
    simp at h2

/-- C55 is violated by nullable artifacts: whatever the data, an artifact with a nullable type cannot
be written with the views of the package; and it cannot be read with any plain hint. -/
theorem C55_violated_by_nullable_artifacts {io : Lookup} {a : Art} (hs : Supported a.type)
    (hn : a.type.nullable = true) (data : PyCls) (hint : PyHint) :
    (∃ e, writeView (pyRegistry ids) io a data none = .error e) ∧
    (∃ e, readView (pyRegistry ids) io a (some { hint := hint }) none = .error e) := by
  constructor
  · cases h : writeView (pyRegistry ids) io a data none with
    | error e => exact ⟨e, rfl⟩
    | ok v =>
      obtain ⟨-, h1, h2, -⟩ := C55_writes_are_checked h
      obtain ⟨hv, hf⟩ := h1 rfl
      rw [hv] at h2
      have hf' := find_py hf
      refine absurd h2 (not_represented hs hn hf'.2.1 (.inr ⟨data, by simpa using hf'.1, .inl rfl⟩))
  · cases h : readView (pyRegistry ids) io a (some { hint := hint }) none with
    | error e => exact ⟨e, rfl⟩
    | ok v =>
      exfalso
      by_cases hN : hint = .none
      · subst hN; simp [readView, Option.filter, isNone] at h
      · have hN' : isNone { hint := hint } = false := by cases hint <;> simp_all [isNone]
        simp only [readView, Option.filter, hN', Bool.not_false, if_true] at h
        cases hc : getClassFor (pyRegistry ids) { hint := hint } with
        | error e => rw [hc] at h; simp [bind, Except.bind] at h
        | ok c =>
          rw [hc] at h
          simp only [bind, Except.bind] at h
          cases hm : mkView c .read a.cls a.type with
          | error e => rw [hm] at h; simp at h
          | ok w =>
            rw [hm] at h
            simp only at h
            cases hca : checkAnnotation w hint with
            | error e => rw [hca] at h; simp at h
            | ok u =>
              obtain ⟨-, -, rfl⟩ := mkView_iff.1 hm
              have htos : c.toSystem = pyToSystem ids := by
                cases getClassFor_iff.1 hc with
                | named e => simp [viewItems] at e
                | registered _ hr => exact (find_py hr).2.1
                | origin _ _ hr => exact (find_py hr).2.1
              exact not_represented hs hn htos (C55_hints_with_a_view.1 ⟨c, hc⟩)
                (checkAnnotation_iff.1 hca)

/-- C55 is violated by `None`: the hint `None` stands for a view, but that view is registered for
`None` and looked up for `type(None)` when writing, and reading with the annotation `None` counts as
giving no annotation. -/
theorem C55_violated_by_none (io : Lookup) (a : Art) (mode : Mode) :
    writeView (pyRegistry ids) io a .noneType none = .error .valueError ∧
    readView (pyRegistry ids) io a (some { hint := .none }) none = .error .valueError ∧
    ∃ v, fromAnnotation ids (pyRegistry ids) { hint := .none } mode = .ok v ∧
      v.type = .scalar .null {} := by
  have hg : pyToArtigraph ids .none = .ok (.scalar .null {}) := by
    rw [pyToArtigraph]
    simp only [hintSize]
    exact A_none
  have hr : Represents (pyView ids 8 none) (.scalar .null {}) .none := by
    have hp : pyToSystem ids (.scalar .null {}) = .ok .none := by
      rw [pyToSystem_supported (by simp [Supported, hasPythonScalar])]
      rfl
    refine ⟨.none, by simpa only [pyView] using hp, .inr ⟨?_, ?_⟩⟩
    · rw [lenient, if_neg (by simp [classLike])]
    · rw [lenient, if_pos (by rfl), if_neg (by simp [isUnionHint]), checkIssubclass]
      simp [bare, discardAnnotated, unbind, isSame, ident, metaOf, PyCls.hier]
  have hno : getClassFor (pyRegistry ids) { hint := .cls .noneType } = .error .valueError := by
    cases h : getClassFor (pyRegistry ids) { hint := .cls .noneType } with
    | ok v => have := (C55_hints_with_a_view (ids := ids)).1 ⟨v, h⟩; simp at this
    | error e =>
      simp only [getClassFor, getItem, oneOrNone, List.filterMap_nil, List.map_nil, bind, Except.bind] at h
      split at h <;> simp_all [pure, Except.pure]
      split at h <;> simp_all
  refine ⟨by simp [writeView, hno, bind, Except.bind], by simp [readView, Option.filter, isNone],
    ⟨pyView ids 8 none, mode, artifactBase, .scalar .null {}⟩, ?_, rfl⟩
  exact C55_from_annotation_iff.2 ⟨rfl, rfl, .registered rfl rfl, .default rfl rfl,
    .inferred rfl rfl hg, by simp [artifactBase], hr⟩

/-- C55 is violated by lists of structs: the hint `list[TD]`, for any `TypedDict`, cannot be used as
an annotation, although it stands for a (supported) type: comparing the hint with the `TypedDict` made
for that type raises a `TypeError`. -/
theorem C55_violated_by_typed_dicts {i j : Nat} {name : Str} {fs : List (Str × PyHint)} {mode : Mode}
    {t : Ty} (ht : pyToArtigraph ids (.gen i .list [.tdict j name fs]) = .ok t) (hs : Supported t) :
    fromAnnotation ids (pyRegistry ids) { hint := .gen i .list [.tdict j name fs] } mode =
      .error .typeError := by
  obtain ⟨gs, rfl⟩ : ∃ gs, t = .list (.struct name gs {}) {} := by
    have ht' := ht
    rw [pyToArtigraph] at ht'
    simp only [hintSize, hintSizes] at ht'
    obtain ⟨n, hn⟩ : ∃ n, 2 * (1 + (1 + hintSizesF fs + 0)) = n + 1 + 1 :=
      ⟨2 * hintSizesF fs + 2, by omega⟩
    rw [hn, A_list, A_struct] at ht'
    simp only [bind, Except.bind, pure, Except.pure] at ht'
    cases hc : convertFields (fun a => run (pyArti ids) n (strip (fieldHint a)) []) fs with
    | error e => rw [hc] at ht'; simp at ht'
    | ok gs => rw [hc] at ht'; simp at ht'; exact ⟨gs, ht'.symm⟩
  have hc : getClassFor (pyRegistry ids) { hint := .gen i .list [.tdict j name fs] } =
      .ok (pyView ids 7 (some .list)) := getClassFor_iff.2 (.origin rfl rfl rfl)
  have hk : kwargsFrom ids (pyView ids 7 (some .list)) { hint := .gen i .list [.tdict j name fs] } =
      .ok (artifactBase, .list (.struct name gs {}) {}) :=
    kwargsFrom_iff.2 ⟨.default rfl rfl, .inferred rfl rfl ht⟩
  have hm : mkView (pyView ids 7 (some .list)) mode artifactBase (.list (.struct name gs {}) {}) =
      .ok ⟨pyView ids 7 (some .list), mode, artifactBase, .list (.struct name gs {}) {}⟩ :=
    mkView_iff.2 ⟨rfl, by simp [artifactBase], rfl⟩
  have hsys : (pyView ids 7 (some .list)).toSystem (.list (.struct name gs {}) {}) =
      .ok (.gen ids.new .list [.tdict ids.new name (fieldHints ids gs)]) :=
    pyToSystem_supported hs
  have hl : lenient PyCls.hier (.gen ids.new .list [.tdict ids.new name (fieldHints ids gs)])
      (.gen i .list [.tdict j name fs]) = .error .typeError := by
    rw [lenient_gen_gen (as := [.tdict ids.new name (fieldHints ids gs)])
      (bs := [.tdict j name fs]) (by simp) rfl, lenientArgs, lenient, if_pos (by rfl),
      if_neg (by simp [isUnionHint]), checkIssubclass]
    simp [bare, discardAnnotated, unbind, isSame, ident, getOrigin, issubclassHint, pyAnd]
  simp [fromAnnotation, hc, hk, hm, checkAnnotation, hsys, hl, bind, Except.bind]

/-- C55, a limit: a view that is given explicitly is not checked when reading. -/
theorem C55_explicit_views_are_not_checked_on_read (reg : Registry) (io : Lookup) (a : Art) (v : View) :
    readView reg io a none (some v) = .ok v := rfl

/-! ## The hypotheses are met -/

/-- `dict[str, list[Optional[int]]]`. -/
def exampleMap : Ty := .map (.scalar .string {}) (.list (.scalar .int64 { nullable := true }) {}) {}

example : Supported exampleMap ∧ Widened exampleMap ∧ NoStruct exampleMap ∧ HasView exampleMap ∧
    exampleMap.isScalar .null = false ∧
    WrittenAs ids exampleMap
      (.gen 5 .dict [.cls .str, .gen 6 .list [.union (ids.opt (.cls .int)) [.cls .int, .cls .noneType]]]) := by
  refine ⟨?_, ?_, ?_, ?_, rfl, ?_⟩
  · simp [exampleMap, Supported, hasPythonScalar]
  · simp [exampleMap, Widened]
  · simp [exampleMap, NoStruct]
  · simp [exampleMap, HasView]
  · refine ⟨5, _, _, rfl, ?_, 6, _, rfl, ?_⟩
    · exact pyToSystem_supported (ids := ids) (t := .scalar .string {}) ⟨rfl, by simp⟩
    · exact pyToSystem_supported (ids := ids) (t := .scalar .int64 { nullable := true }) ⟨rfl, by simp⟩

/-- A nullable integer. -/
example : Supported (.scalar .int64 { nullable := true }) ∧
    (Ty.scalar .int64 { nullable := true }).nullable = true := ⟨⟨rfl, by simp⟩, rfl⟩

/-- `list[TD]` with one string field. -/
example : pyToArtigraph ids (.gen 5 .list [.tdict 6 "TD".toList [("a".toList, .cls .str)]]) =
      .ok (.list (.struct "TD".toList [("a".toList, .scalar .string {})] {}) {}) ∧
    Supported (.list (.struct "TD".toList [("a".toList, .scalar .string {})] {}) {}) := by
  constructor
  · rw [pyToArtigraph]
    simp only [hintSize, hintSizes, hintSizesF]
    rw [A_list, A_struct]
    simp only [convertFields, fieldHint, strip]
    rw [A_cls (by simp)]
    rfl
  · simp [Supported, SupportedFields, hasPythonScalar, Ty.isScalar]

/-- An artifact that can be read and written, with the hint `int`. -/
example : ∃ v, readView (pyRegistry ids) ⟨fun _ _ _ _ => .ok (), fun _ _ _ _ _ => .ok ()⟩
      ⟨artifactBase, .scalar .int64 {}, 0, 0⟩ (some { hint := .cls .int }) none = .ok v ∧
    (∃ w, writeView (pyRegistry ids) ⟨fun _ _ _ _ => .ok (), fun _ _ _ _ _ => .ok ()⟩
      ⟨artifactBase, .scalar .int64 {}, 0, 0⟩ .int none = .ok w) := by
  have hr : Represents (pyView ids 6 (some .int)) (.scalar .int64 {}) (.cls .int) := by
    have hp : pyToSystem ids (.scalar .int64 {}) = .ok (.cls .int) := by
      rw [pyToSystem_supported (by simp [Supported, hasPythonScalar])]
      rfl
    exact ⟨.cls .int, by simpa only [pyView] using hp, .inl (lenient_cls_refl _)⟩
  refine ⟨⟨pyView ids 6 (some .int), .read, artifactBase, .scalar .int64 {}⟩,
    (C55_read_with_annotation_iff (by simp) rfl
      (by simp [DistinctNames])).2
      ⟨rfl, rfl, .registered rfl rfl, by simp [artifactBase], hr, rfl⟩,
    ⟨pyView ids 6 (some .int), .write, artifactBase, .scalar .int64 {}⟩, ?_⟩
  have hc : checkAnnotation ⟨pyView ids 6 (some .int), .write, artifactBase, .scalar .int64 {}⟩
      (.cls .int) = .ok () := checkAnnotation_iff.2 hr
  have hg : getClassFor (pyRegistry ids) { hint := .cls .int } = .ok (pyView ids 6 (some .int)) :=
    getClassFor_iff.2 (.registered rfl rfl)
  have hm : mkView (pyView ids 6 (some .int)) .write artifactBase (.scalar .int64 {}) =
      .ok ⟨pyView ids 6 (some .int), .write, artifactBase, .scalar .int64 {}⟩ :=
    mkView_iff.2 ⟨rfl, by simp [artifactBase], rfl⟩
  simp only [writeView, hg, hm, hc, bind, Except.bind]
  rfl

end Props
end Arti
