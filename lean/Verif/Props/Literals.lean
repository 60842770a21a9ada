import Verif.Lemmas.Braces
import Verif.Props.DefaultTemplate

/-!
# Literals assigned to graphs (C52)
-/

namespace Arti.Props
open Arti PyDict Spec Fmt Stg Part Lit TH Typ

/-! ## The storage of a literal -/

/-- The default template of literals, in parts. -/
def litTmpl : List Tok :=
  [.fld (plain "graph_name".toList), .ch '/', .fld (plain "path_tags".toList),
    .ch '/', .fld (plain "names".toList), .ch '/', .fld (plain "partition_key_spec".toList), .ch '/',
    .fld (plain "input_fingerprint".toList), .ch '/', .fld (plain "name".toList),
    .fld (plain "extension".toList)]

theorem print_litTmpl : print litTmpl = defaultId := by decide +kernel

theorem noBraces_of_segOk {s : Str} (h : segOk s = true) : NoBraces s := by
  intro c hc
  simp only [segOk, Bool.and_eq_true, List.all_eq_true] at h
  have := h.2 c hc
  constructor <;> (rintro rfl; simp at this)

theorem noBraces_of_textOk {s : Str} (h : textOk s = true) : NoBraces s := by
  intro c hc
  simp only [textOk, valueOk, Bool.and_eq_true] at h
  have := List.all_eq_true.1 h.1.1.1.1 (.ch c) (List.mem_map.2 ⟨c, hc, rfl⟩)
  simpa [tokOk] using this

theorem noBraces_join {s : Str} (hs : NoBraces s) {L : List Str} (h : ∀ t ∈ L, NoBraces t) :
    NoBraces (joinWith s L) := by
  induction L with
  | nil => exact nil_nb
  | cons t L ih =>
    cases L with
    | nil => simpa [joinWith] using h t (by simp)
    | cons u L =>
      exact noBraces_append (noBraces_append (h t (by simp)) hs) (ih fun t ht => h t (by simp [ht]))

/-- The values that a literal's storage is resolved with. -/
abbrev litResolutions (graphName : Str) (pathTags : PyDict Str Str) (names : List Str) :=
  resolutions [] jsonExtension graphName pathTags names true

section
variable {graphName : Str} {pathTags : PyDict Str Str} {names : List Str}

theorem litValues_noBraces (h : TextsOk [] jsonExtension graphName pathTags names)
    {vals : PyDict Str Str} (hm : vals ∈ litResolutions graphName pathTags names) :
    ∀ p ∈ vals, NoBraces p.2 := by
  have hsep : NoBraces [sep] := by decide
  simp only [litResolutions, resolutions, if_true, List.cons_append, List.nil_append,
    List.mem_cons, List.not_mem_nil, or_false] at hm
  rcases hm with rfl | rfl | rfl | rfl | rfl
  · intro p hp
    simp only [typeValues, List.mem_singleton] at hp
    subst hp; decide +kernel
  · intro p hp
    simp only [formatValues, List.mem_singleton] at hp
    subst hp; exact noBraces_of_textOk h.ext
  · intro p hp
    simp only [graphValues, List.mem_cons, List.not_mem_nil, or_false] at hp
    rcases hp with rfl | rfl
    · exact noBraces_of_textOk h.graph
    · refine noBraces_join hsep ?_
      intro t ht
      obtain ⟨q, hq, rfl⟩ := List.mem_map.1 ht
      exact noBraces_append (noBraces_of_segOk (h.tags q hq).1)
        (noBraces_cons (by decide) (noBraces_of_segOk (h.tags q hq).2))
  · intro p hp
    simp only [namesValues, List.mem_cons, List.not_mem_nil, or_false] at hp
    rcases hp with rfl | rfl
    · show NoBraces (names.getLastD [])
      cases hn : names.getLast? with
      | none => rw [List.getLastD_eq_getLast?, hn]; decide
      | some n =>
        rw [List.getLastD_eq_getLast?, hn]
        exact noBraces_of_segOk (h.names n (List.mem_of_getLast? hn))
    · exact noBraces_join hsep fun n hn => noBraces_of_segOk (h.names n hn)
  · intro p hp
    simp only [ifpValues, List.mem_singleton] at hp
    subst hp; decide

theorem litValues_get? (h : TextsOk [] jsonExtension graphName pathTags names)
    {vals : PyDict Str Str} (hm : vals ∈ litResolutions graphName pathTags names) :
    ∀ n v, get? vals n = some v → NoBraces v :=
  fun n v hg => litValues_noBraces h hm (n, v) (get?_mem hg)

theorem print_no_fld {U : List Tok} (h : NoBraces (print U)) : ∀ f, .fld f ∉ U := by
  intro f hf
  exact (h '{' (List.mem_flatten.2 ⟨_, List.mem_map.2 ⟨_, hf, rfl⟩, by simp [printTok, printFld]⟩)).1 rfl

theorem noBraces_print {U : List Tok} (hU : tmplOk U = true) (h : ∀ f, .fld f ∉ U) :
    NoBraces (print U) := by
  intro c hc
  obtain ⟨s, hs, hc⟩ := List.mem_flatten.1 hc
  obtain ⟨t, ht, rfl⟩ := List.mem_map.1 hs
  cases t with
  | fld f => exact absurd ht (h f)
  | ch d =>
    simp only [printTok, List.mem_singleton] at hc
    subst hc
    simpa [tokOk] using List.all_eq_true.1 hU _ ht

/-- The `id` of a literal is always resolved completely. -/
theorem id_resolves (h : TextsOk [] jsonExtension graphName pathTags names) :
    ∃ id, resolveAll defaultId (litResolutions graphName pathTags names) = .ok id ∧
      NoBraces id := by
  have hT : resolvable placeholderNames litTmpl = true := by decide +kernel
  have hok : ∃ path, resolveAll (print litTmpl) (litResolutions graphName pathTags names) =
      .ok path := by
    obtain ⟨vs, h1, h2, h3, h4, -⟩ := resolutions_toks h true
    have hnames : ∀ n ∈ placeholderNames, nameOk n = true := by decide +kernel
    have hext : ∃ U, ("extension".toList, U) ∈ vs.flatten ∧ U ≠ [] := by
      have hm : ("extension".toList, jsonExtension) ∈
          (litResolutions graphName pathTags names).flatten := by
        simp [litResolutions, resolutions, formatValues]
      rw [litResolutions, h1] at hm
      obtain ⟨W, hW, hm⟩ := List.mem_flatten.1 hm
      obtain ⟨V, hV, rfl⟩ := List.mem_map.1 hW
      obtain ⟨⟨n, U⟩, hU, he⟩ := List.mem_map.1 hm
      simp only [Prod.mk.injEq] at he
      refine ⟨U, List.mem_flatten.2 ⟨V, hV, he.1 ▸ hU⟩, ?_⟩
      rintro rfl
      exact absurd he.2 (by decide +kernel)
    obtain ⟨U, hU, hU0⟩ := hext
    have hcut : .fld (plain "extension".toList) ∈ cut (empt vs.flatten) litTmpl :=
      cut_mem (by decide +kernel) (notIn_empt h2 hU hU0).1
    have hne : cut (empt vs.flatten) litTmpl ≠ [] := List.ne_nil_of_mem hcut
    rw [litResolutions, h1, resolveAll_print vs litTmpl placeholderNames h3
      (fun n hn => hnames n (h3 n hn)) h2 hT h4]
    exact ⟨_, by simp only [step, hne, and_false, if_false, Except.map]; rfl⟩
  obtain ⟨path, hr⟩ := hok
  obtain ⟨V, hp, hok, hnd, -, hV, -⟩ := resolved hT h true hr
  rw [print_litTmpl] at hr
  refine ⟨path, hr, ?_⟩
  rw [hp]
  refine noBraces_print hok ?_
  intro g hg
  rcases mem_substT.1 hg with ⟨c, hc, -⟩ | ⟨f, hf, hg⟩
  · cases hc
  have hcutT : .fld f ∈ litTmpl := by
    unfold cut at hf
    split at hf
    · exact hf
    · exact (rem_sublist _ _ _).subset ((rs_sublist _).subset hf)
  have hfirst : f.first ∈ placeholderNames := by
    simp only [litTmpl, List.mem_cons, List.not_mem_nil, or_false, reduceCtorEq, false_or,
      Tok.fld.injEq] at hcutT
    rcases hcutT with rfl | rfl | rfl | rfl | rfl | rfl | rfl <;> decide +kernel
  have hkeys : keys V = ["partition_key_spec".toList, "extension".toList, "graph_name".toList,
      "path_tags".toList, "name".toList, "names".toList, "input_fingerprint".toList] := by
    have : keys V = keys (litResolutions graphName pathTags names).flatten := by
      rw [litResolutions, ← hV]
      simp [keys]
    rw [this]
    rfl
  have hnot : f.first ∉ empt V := by
    have := List.all_eq_true.1 (avoids_cut (empt V) litTmpl) _ hf
    simpa using this
  have hin : f.first ∈ keys V := by rw [hkeys]; exact hfirst
  obtain ⟨⟨n, U⟩, hU, hn⟩ := List.mem_map.1 hin
  simp only at hn
  subst hn
  rw [get?_full hnd hnot, get?_of_mem hnd hU] at hg
  simp only [Option.getD_some] at hg
  refine print_no_fld (U := U) ?_ g hg
  have hm : (f.first, print U) ∈ (litResolutions graphName pathTags names).flatten := by
    rw [litResolutions, ← hV]
    exact List.mem_map.2 ⟨_, hU, rfl⟩
  obtain ⟨vals, hvals, hm⟩ := List.mem_flatten.1 hm
  exact litValues_noBraces h hvals _ hm

/-! ## From the value to the text of the partition -/

theorem resolveLit_some {vals : List (Str × Str)} {id v : Str} {kt : Option KeyTypes}
    {st : LitStorage} (h : resolveLit vals ⟨id, some v, kt⟩ = .ok st) :
    ∃ id' v', resolveField vals id = .ok id' ∧ resolveField vals v = .ok v' ∧
      st = ⟨id', some v', kt⟩ := by
  unfold resolveLit at h
  simp only [bind, Except.bind] at h
  cases h1 : resolveField vals id with
  | error e => simp [h1] at h
  | ok id' =>
    cases h2 : resolveField vals v with
    | error e => simp [h1, h2] at h
    | ok v' =>
      simp only [h1, h2, Except.ok.injEq] at h
      exact ⟨id', v', rfl, rfl, h.symm⟩

theorem resolveLit_of {vals : List (Str × Str)} {id v id' v' : Str} {kt : Option KeyTypes}
    (h1 : resolveField vals id = .ok id') (h2 : resolveField vals v = .ok v') :
    resolveLit vals ⟨id, some v, kt⟩ = .ok ⟨id', some v', kt⟩ := by
  unfold resolveLit
  simp only [bind, Except.bind, h1, h2]

theorem bind_ok {α β : Type} {x : Except Err α} {f : α → Except Err β} {b : β}
    (h : x >>= f = .ok b) : ∃ a, x = .ok a ∧ f a = .ok b := by
  cases x with
  | error e => cases h
  | ok a => exact ⟨a, rfl, h⟩

/-- What casting and assigning do, step by step. -/
theorem cast_assign {ids : Ids} {v : Val} {a b : LitArtifact}
    (hc : castValue ids v = .ok a) (ha : assign graphName pathTags names a = .ok b) :
    ∃ text id value, dumps v = .ok text ∧
      resolveAll defaultId (litResolutions graphName pathTags names) = .ok id ∧
      resolveAll text (litResolutions graphName pathTags names) = .ok value ∧
      b.storage = ⟨id, some value, some []⟩ := by
  obtain ⟨h, -, hc⟩ := bind_ok hc
  obtain ⟨t, -, hc⟩ := bind_ok hc
  obtain ⟨text, hd, hc⟩ := bind_ok hc
  obtain ⟨_, -, hc⟩ := bind_ok hc
  obtain ⟨kt, hkt, hc⟩ := bind_ok hc
  obtain ⟨st1, h1, hc⟩ := bind_ok hc
  obtain ⟨st2, h2, hc⟩ := bind_ok hc
  injection hc with hc
  subst hc
  obtain ⟨st3, h3, ha⟩ := bind_ok ha
  obtain ⟨st4, h4, ha⟩ := bind_ok ha
  obtain ⟨st5, h5, ha⟩ := bind_ok ha
  injection ha with ha
  subst ha
  have hkt' : kt = [] := by
    unfold keyTypesFrom at hkt
    split at hkt
    · cases hkt
    · injection hkt with hkt; exact hkt.symm
  subst hkt'
  obtain ⟨i1, v1, a1, b1, rfl⟩ := resolveLit_some h1
  obtain ⟨i2, v2, a2, b2, rfl⟩ := resolveLit_some h2
  obtain ⟨i3, v3, a3, b3, rfl⟩ := resolveLit_some h3
  obtain ⟨i4, v4, a4, b4, rfl⟩ := resolveLit_some h4
  obtain ⟨i5, v5, a5, b5, rfl⟩ := resolveLit_some h5
  refine ⟨text, i5, v5, hd, ?_, ?_, rfl⟩
  · show resolveAll defaultId [_, _, _, _, _] = _
    simp only [resolveAll, bind, Except.bind, a1, a2, a3, a4, a5]
  · show resolveAll text [_, _, _, _, _] = _
    simp only [resolveAll, bind, Except.bind, b1, b2, b3, b4, b5]

/-- Casting and assigning succeed when the annotation is known, the value can be written as JSON and
both fields can be resolved. -/
theorem cast_assign_of {ids : Ids} {v : Val} {h : PyHint} {t : Ty} {sys : PyHint} {text id value : Str}
    (h1 : annotationOf ids v = .ok h) (h2 : pyToArtigraph ids h = .ok t) (h3 : dumps v = .ok text)
    (h4 : pyToSystem ids t = .ok sys) (h5 : t.isCollection = false)
    (h6 : resolveAll defaultId (litResolutions graphName pathTags names) = .ok id)
    (h7 : resolveAll text (litResolutions graphName pathTags names) = .ok value) :
    ∃ a, castValue ids v = .ok a ∧
      assign graphName pathTags names a = .ok ⟨t, id, some value, some []⟩ := by
  have hkt : keyTypesFrom t = .ok [] := by simp [keyTypesFrom, h5]
  have e6 : resolveAll defaultId [_, _, _, _, _] = _ := h6
  have e7 : resolveAll text [_, _, _, _, _] = _ := h7
  simp only [resolveAll] at e6 e7
  obtain ⟨i1, a1, e6⟩ := bind_ok e6
  obtain ⟨i2, a2, e6⟩ := bind_ok e6
  obtain ⟨i3, a3, e6⟩ := bind_ok e6
  obtain ⟨i4, a4, e6⟩ := bind_ok e6
  obtain ⟨i5, a5, e6⟩ := bind_ok e6
  obtain ⟨v1, b1, e7⟩ := bind_ok e7
  obtain ⟨v2, b2, e7⟩ := bind_ok e7
  obtain ⟨v3, b3, e7⟩ := bind_ok e7
  obtain ⟨v4, b4, e7⟩ := bind_ok e7
  obtain ⟨v5, b5, e7⟩ := bind_ok e7
  injection e6 with e6; subst e6
  injection e7 with e7; subst e7
  refine ⟨⟨t, i2, some v2, some []⟩, ?_, ?_⟩
  · unfold castValue
    simp only [bind, Except.bind, h1, h2, h3, h4, hkt, resolveLit_of a1 b1, resolveLit_of a2 b2]
  · unfold assign
    simp only [bind, Except.bind, resolveLit_of a3 b3, resolveLit_of a4 b4, resolveLit_of a5 b5]

/-- The partitions of a literal. -/
theorem discoverLit_ok {hash : Str → Fp} {id value : Str} {ss : List (Snap LitPartition)}
    (h : discoverLit hash ⟨id, some value, some []⟩ [] = .ok ss) :
    ∃ id' value', genField [] value = .ok value' ∧
      ss = [⟨hash value', ⟨none, [], id', some value'⟩⟩] := by
  have hk : ∀ kw, genKwargs (some []) [id, value] none [] = .ok kw → kw = [] := by
    intro kw hkw
    simp only [genKwargs, checkKey] at hkw
    split at hkw
    · cases hkw
    · split at hkw
      · cases hkw
      · injection hkw with hkw; exact hkw.symm
  simp only [discoverLit, Option.isSome_some, List.isEmpty_nil, Bool.not_true, Bool.false_and,
    Bool.false_eq_true, if_false, Option.isNone_some, if_true] at h
  obtain ⟨p, hp, h⟩ := bind_ok h
  obtain ⟨s, hs, h⟩ := bind_ok h
  obtain ⟨rest, hrest, h⟩ := bind_ok h
  injection hrest with hrest; subst hrest
  injection h with h; subst h
  obtain ⟨kw, hkw, hp⟩ := bind_ok hp
  cases hk kw hkw
  obtain ⟨id', -, hp⟩ := bind_ok hp
  obtain ⟨value', hv, hp⟩ := bind_ok hp
  injection hp with hp; subst hp
  injection hs with hs; subst hs
  exact ⟨id', value', hv, rfl⟩

theorem litRead_ok {hash : Str → Fp} {t : Ty} {id value : Str} {w : Val}
    (h : Lit.read hash ⟨t, id, some value, some []⟩ = .ok w) :
    ∃ value', genField [] value = .ok value' ∧ loads value' = .ok w := by
  obtain ⟨ss, h1, h⟩ := bind_ok h
  obtain ⟨id', value', h2, rfl⟩ := discoverLit_ok h1
  exact ⟨value', h2, h⟩

/-! ## Which values can be cast -/

variable {ids : Ids}

theorem A_cls_other {n : Nat} {c : PyCls} {h : Hints}
    (hc : c ∈ [PyCls.noneType, .list, .tuple, .set, .frozenset, .dict]) :
    run (pyArti ids) (n + 1) (.cls c) h = .error .notImplemented := by
  simp only [List.mem_cons, List.not_mem_nil, or_false] at hc
  rcases hc with rfl | rfl | rfl | rfl | rfl | rfl <;>
  · rw [run_A, sortedA]
    repeat (rw [dispatched_false]; on_goal 2 => acceptsA)
    exact dispatched_nil

theorem val_cls (v : Val) : v.cls ∈ [PyCls.bool, .int, .float, .str, .bytes, .date, .datetime] ∨
    v.cls ∈ [PyCls.noneType, .list, .tuple, .set, .frozenset, .dict] := by
  cases v <;> simp [Val.cls]

theorem supported_classTy {c : PyCls}
    (hc : c ∈ [PyCls.bool, .int, .float, .str, .bytes, .date, .datetime]) :
    Supported (classTy c) ∧ (classTy c).isCollection = false := by
  simp only [List.mem_cons, List.not_mem_nil, or_false] at hc
  rcases hc with rfl | rfl | rfl | rfl | rfl | rfl | rfl <;>
    simp [classTy, Supported, hasPythonScalar, Ty.isCollection]

theorem elementClass_ok {xs : List Val} {c : PyCls} (h : elementClass xs = .ok c) :
    ∃ x tail, xs = x :: tail ∧ c = x.cls ∧ ∀ y ∈ tail, y.isInstance c = true := by
  cases xs with
  | nil => cases h
  | cons x tail =>
    rw [elementClass] at h
    split at h
    · rename_i hall
      injection h with h
      exact ⟨x, tail, rfl, h.symm, fun y hy => h ▸ List.all_eq_true.1 hall y hy⟩
    · cases h

theorem toJsons_mem {xs : List Val} {js : List Json} (h : toJsons xs = .ok js) {y : Val}
    (hy : y ∈ xs) : ∃ j, toJson y = .ok j := by
  induction xs generalizing js with
  | nil => simp at hy
  | cons x xs ih =>
    rw [toJsons] at h
    obtain ⟨j, hj, h⟩ := bind_ok h
    obtain ⟨js', hjs, -⟩ := bind_ok h
    rcases List.mem_cons.1 hy with rfl | hy
    · exact ⟨j, hj⟩
    · exact ih hjs hy

theorem sameKind_of {x y : Val} (hx : x.cls ∈ [PyCls.bool, .int, .float, .str, .bytes, .date, .datetime])
    (hj : ∃ j, toJson x = .ok j) (hi : y.isInstance x.cls = true) :
    Simple x ∧ SameKind x x ∧ Simple y ∧ SameKind x y := by
  have hs : ∀ b, Simple (.bool b) := .bool
  have hs1 : ∀ b, Simple (.int b) := .int
  have hs2 : ∀ b, Simple (.flt b) := .flt
  have hs3 : ∀ b, Simple (.str b) := .str
  have hb : ∀ c : PyCls, c ≠ .bool → c ≠ .int → c ≠ .float → c ≠ .str → True := fun _ _ _ _ _ => trivial
  obtain ⟨j, hj⟩ := hj
  cases x <;> simp [Val.cls] at hx <;> simp [toJson] at hj <;>
    cases y <;> simp [Val.isInstance, Val.cls, PyCls.mro] at hi <;>
    simp [SameKind, hs, hs1, hs2, hs3]

theorem uniform_of {xs : List Val} {c : PyCls} {js : List Json} (h : elementClass xs = .ok c)
    (hc : c ∈ [PyCls.bool, .int, .float, .str, .bytes, .date, .datetime])
    (hj : toJsons xs = .ok js) : Uniform xs := by
  obtain ⟨x, tail, rfl, rfl, ht⟩ := elementClass_ok h
  have hx := toJsons_mem hj (List.mem_cons_self (a := x) (l := tail))
  have h1 := sameKind_of hc hx (y := x) (by simp only [Val.isInstance]; cases x <;> simp [Val.cls, PyCls.mro])
  refine ⟨h1.1, h1.2.1, ?_⟩
  intro y hy
  exact (sameKind_of hc hx (ht y hy)).2.2

/-- The values that can be cast: literals, tuples of simple values of one kind, and mappings. -/
theorem castable {v : Val} {a : LitArtifact} (hc : castValue ids v = .ok a) :
    IsLiteral v ∨ (∃ xs, v = .tuple xs ∧ Uniform xs) ∨ ∃ items, v = .dict items := by
  obtain ⟨h, h1, hc⟩ := bind_ok hc
  obtain ⟨t, h2, hc⟩ := bind_ok hc
  obtain ⟨text, h3, hc⟩ := bind_ok hc
  obtain ⟨j, h3, -⟩ := map_ok h3
  have elem : ∀ {c : PyCls} {n : Nat} {t : Ty}, (∃ v : Val, c = v.cls) →
      run (pyArti ids) (n + 1) (.cls c) [] = .ok t →
      c ∈ [PyCls.bool, .int, .float, .str, .bytes, .date, .datetime] := by
    rintro c n t ⟨v, rfl⟩ hr
    rcases val_cls v with h | h
    · exact h
    · rw [A_cls_other h] at hr; cases hr
  cases v with
  | none => exact .inl (.inl .none)
  | bool b => exact .inl (.inl (.bool b))
  | int b => exact .inl (.inl (.int b))
  | flt b => exact .inl (.inl (.flt b))
  | str b => exact .inl (.inl (.str b))
  | bytes _ => simp [toJson] at h3
  | date _ => simp [toJson] at h3
  | datetime _ => simp [toJson] at h3
  | set _ => simp [toJson] at h3
  | frozenset _ => simp [toJson] at h3
  | dict items => exact .inr (.inr ⟨items, rfl⟩)
  | list xs =>
    obtain ⟨c, hcl, rfl⟩ := map_ok h1
    rw [toJson] at h3
    obtain ⟨js, hjs, -⟩ := map_ok h3
    obtain ⟨x, tail, rfl, hx, -⟩ := elementClass_ok hcl
    have h2 : run (pyArti ids) (3 + 1) (.gen ids.new .list [.cls c]) [] = .ok t := h2
    rw [A_list] at h2
    obtain ⟨e, he, -⟩ := bind_ok h2
    exact .inl (.inr ⟨_, rfl, uniform_of hcl (elem ⟨x, hx⟩ he) hjs⟩)
  | tuple xs =>
    obtain ⟨c, hcl, rfl⟩ := map_ok h1
    rw [toJson] at h3
    obtain ⟨js, hjs, -⟩ := map_ok h3
    obtain ⟨x, tail, rfl, hx, -⟩ := elementClass_ok hcl
    have h2 : run (pyArti ids) (5 + 1) (.gen ids.new .tuple [.cls c, .ellipsis]) [] = .ok t := h2
    rw [A_tuple] at h2
    obtain ⟨e, he, -⟩ := bind_ok h2
    exact .inr (.inl ⟨_, rfl, uniform_of hcl (elem ⟨x, hx⟩ he) hjs⟩)

/-! ## Values that are read back -/

theorem simple_json {v : Val} (hs : Simple v) (hf : FloatsIn v) (hb : NoBracesIn v) :
    ∃ j, toJson v = .ok j ∧ ofJson j = v ∧ Json.Ok j ∧ flatNoBraces j := by
  cases hs with
  | none => exact ⟨.null, by rw [toJson], by rw [ofJson], by simp [Json.Ok], trivial⟩
  | bool b => exact ⟨.bool b, by rw [toJson], by rw [ofJson], by simp [Json.Ok], trivial⟩
  | int b => exact ⟨.int b, by rw [toJson], by rw [ofJson], by simp [Json.Ok], trivial⟩
  | flt b => exact ⟨.flt b, by rw [toJson], by rw [ofJson], by rw [Json.Ok]; exact hf, hf⟩
  | str b => exact ⟨.str b, by rw [toJson], by rw [ofJson], by simp [Json.Ok], hb⟩

theorem simples_json : ∀ {xs : List Val}, (∀ x ∈ xs, Simple x) →
    (∀ t, .flt t ∈ xs → Json.FltOk t) → (∀ s, .str s ∈ xs → NoBraces s) →
    ∃ js, toJsons xs = .ok js ∧ ofJsons js = xs ∧ Json.OkItems js ∧ ∀ j ∈ js, flatNoBraces j
  | [], _, _, _ => ⟨[], by rw [toJsons], by rw [ofJsons], by simp [Json.OkItems], by simp⟩
  | x :: xs, hs, hf, hb => by
    obtain ⟨js, h1, h2, h3, h4⟩ := simples_json (xs := xs) (fun y hy => hs y (by simp [hy]))
      (fun t ht => hf t (by simp [ht])) (fun t ht => hb t (by simp [ht]))
    obtain ⟨j, k1, k2, k3, k4⟩ := simple_json (hs x (by simp))
      (by cases hs x (by simp) with
          | flt t => exact hf t (by simp)
          | _ => trivial)
      (by cases hs x (by simp) with
          | str t => exact hb t (by simp)
          | _ => trivial)
    refine ⟨j :: js, ?_, by rw [ofJsons, h2, k2], ⟨k3, h3⟩, ?_⟩
    · rw [toJsons, k1, h1]; rfl
    · intro i hi
      rcases List.mem_cons.1 hi with rfl | hi
      · exact k4
      · exact h4 i hi

theorem resolveAll_noBraces {s : Str} (h : NoBraces s) (hc : Closed s) :
    ∀ vs : List (PyDict Str Str), resolveAll s vs = .ok s
  | [] => rfl
  | v :: vs => by
    rw [resolveAll, resolveField_noBraces h hc]
    exact resolveAll_noBraces h hc vs

/-- What is read back is what the resolved text stands for, if it has no braces. -/
theorem roundTrip_text {hash : Str → Fp} (h : TextsOk [] jsonExtension graphName pathTags names)
    {v : Val} {hint : PyHint} {t : Ty} {j j' : Json}
    (h1 : annotationOf ids v = .ok hint) (h2 : pyToArtigraph ids hint = .ok t)
    (h3 : toJson v = .ok j) (h4 : Supported t) (h5 : t.isCollection = false)
    (h6 : resolveAll (Json.write Json.python j) (litResolutions graphName pathTags names) =
      .ok (Json.write Json.python j')) (h6' : Json.Ok j')
    (h7 : NoBraces (Json.write Json.python j')) :
    roundTrip ids hash graphName pathTags names v = .ok (ofJson j') := by
  obtain ⟨id, hid, hb⟩ := id_resolves h
  have hd : dumps v = .ok (Json.write Json.python j) := by rw [dumps, h3]; rfl
  obtain ⟨a, ha, hb'⟩ := cast_assign_of h1 h2 hd
    (show pyToSystem ids t = .ok (hintOf ids t) from toSystem _ _ (Nat.le_refl _) h4 _ (Nat.le_refl _))
    h5 hid h6
  have hdisc := C26_value_partial hash id _ hb h7
  unfold roundTrip
  rw [ha]
  show (assign graphName pathTags names a >>= Lit.read hash) = _
  rw [hb']
  show Lit.read hash _ = _
  unfold Lit.read
  rw [hdisc]
  show loads _ = _
  rw [loads, Json.loads_write Json.python_ok h6']

/-- Literals are read back if their text has no braces. -/
theorem roundTrip_of {hash : Str → Fp} (h : TextsOk [] jsonExtension graphName pathTags names)
    {v : Val} {hint : PyHint} {t : Ty} {j : Json}
    (h1 : annotationOf ids v = .ok hint) (h2 : pyToArtigraph ids hint = .ok t)
    (h3 : toJson v = .ok j) (h4 : Supported t) (h5 : t.isCollection = false) (h6 : Json.Ok j)
    (h7 : NoBraces (Json.write Json.python j)) :
    roundTrip ids hash graphName pathTags names v = .ok (ofJson j) :=
  roundTrip_text h h1 h2 h3 h4 h5 (resolveAll_noBraces h7 (closed_write h6) _) h6 h7

theorem uniform_class {xs : List Val} (h : Uniform xs) : ∃ c, elementClass xs = .ok c ∧
    c ∈ [PyCls.bool, .int, .float, .str, .bytes, .date, .datetime] := by
  cases xs with
  | nil => exact h.elim
  | cons x tail =>
    obtain ⟨h1, h2, h3⟩ := h
    refine ⟨x.cls, ?_, ?_⟩
    · rw [elementClass, if_pos]
      rw [List.all_eq_true]
      intro y hy
      have := (h3 y hy).2
      cases x <;> cases y <;> simp [SameKind] at this <;> simp [Val.isInstance, Val.cls, PyCls.mro]
    · cases h1 <;> simp [SameKind] at h2 <;> simp [Val.cls]

theorem uniform_simple {xs : List Val} (h : Uniform xs) : ∀ x ∈ xs, Simple x := by
  cases xs with
  | nil => exact h.elim
  | cons x tail =>
    intro y hy
    rcases List.mem_cons.1 hy with rfl | hy
    · exact h.1
    · exact (h.2.2 y hy).1

/-- `None`, booleans, numbers, strings and lists of them are read back unchanged, in whatever graph
and under whatever name, as long as their strings have no braces. -/
theorem C52_reads_back_partial (hash : Str → Fp)
    (h : TextsOk [] jsonExtension graphName pathTags names) (v : Val) (hv : IsLiteral v)
    (hf : FloatsIn v) (hb : NoBracesIn v) :
    roundTrip ids hash graphName pathTags names v = .ok v := by
  rcases hv with hs | ⟨xs, rfl, hu⟩
  · obtain ⟨j, h1, h2, h3, h4⟩ := simple_json hs hf hb
    have : ∃ hint t, annotationOf ids v = .ok hint ∧ pyToArtigraph ids hint = .ok t ∧ Supported t ∧
        t.isCollection = false := by
      cases hs with
      | none => exact ⟨.none, _, rfl, A_none, by simp [Supported, hasPythonScalar], rfl⟩
      | bool b => exact ⟨.cls .bool, _, rfl, A_cls (by simp), supported_classTy (by simp)⟩
      | int b => exact ⟨.cls .int, _, rfl, A_cls (by simp), supported_classTy (by simp)⟩
      | flt b => exact ⟨.cls .float, _, rfl, A_cls (by simp), supported_classTy (by simp)⟩
      | str b => exact ⟨.cls .str, _, rfl, A_cls (by simp), supported_classTy (by simp)⟩
    obtain ⟨hint, t, k1, k2, k3, k4⟩ := this
    rw [roundTrip_of h k1 k2 h1 k3 k4 h3 (noBraces_flat h4), h2]
  · obtain ⟨js, h1, h2, h3, h4⟩ := simples_json (uniform_simple hu) hf hb
    obtain ⟨c, hc, hm⟩ := uniform_class hu
    have hnb : NoBraces (Json.write Json.python (.arr js)) := by
      rw [Json.write]; exact noBraces_cons (by decide) (noBraces_items h4 _)
    rw [roundTrip_of h (t := .list (classTy c) {}) (hint := .gen ids.new .list [.cls c]) (j := .arr js)
      (by rw [annotationOf, hc]; rfl) ?_ (by rw [toJson, h1]; rfl)
      (by rw [Supported]; exact (supported_classTy hm).1) rfl (by rw [Json.Ok]; exact h3) hnb,
      ofJson, h2]
    show run (pyArti ids) (3 + 1) _ _ = _
    rw [A_list, A_cls hm]; rfl

/-- Tuples of simple values are read back as lists. -/
theorem C52_violated_by_tuples (hash : Str → Fp)
    (h : TextsOk [] jsonExtension graphName pathTags names) (xs : List Val) (hu : Uniform xs)
    (hf : FloatsIn (.tuple xs)) (hb : NoBracesIn (.tuple xs)) :
    roundTrip ids hash graphName pathTags names (.tuple xs) = .ok (.list xs) := by
  obtain ⟨js, h1, h2, h3, h4⟩ := simples_json (uniform_simple hu) hf hb
  obtain ⟨c, hc, hm⟩ := uniform_class hu
  have hnb : NoBraces (Json.write Json.python (.arr js)) := by
    rw [Json.write]; exact noBraces_cons (by decide) (noBraces_items h4 _)
  rw [roundTrip_of h (t := .list (classTy c) {}) (hint := .gen ids.new .tuple [.cls c, .ellipsis])
    (j := .arr js)
    (by rw [annotationOf, hc]; rfl) ?_ (by rw [toJson, h1]; rfl)
    (by rw [Supported]; exact (supported_classTy hm).1) rfl (by rw [Json.Ok]; exact h3) hnb,
    ofJson, h2]
  show run (pyArti ids) (5 + 1) _ _ = _
  rw [A_tuple, A_cls hm]; rfl

/-! ## Mappings -/

/-- The text of an object that is not empty. -/
def ObjText (s : Str) : Prop := ∃ r, s = '{' :: '"' :: r

theorem replaceAll_obj {c : Char} {u s : Str} (hc : c ≠ '"') (hs : ObjText s) :
    ObjText (replaceAll ('{' :: c :: u) [] s) := by
  obtain ⟨r, rfl⟩ := hs
  refine ⟨replaceGo ('{' :: c :: u) [] 0 r, ?_⟩
  simp [replaceAll, replaceGo, dropPrefix?, hc]

theorem rstrip_obj {s : Str} (hs : ObjText s) : ObjText (rstrip sep s) := by
  obtain ⟨r, rfl⟩ := hs
  have h : ∀ r : Str, ∃ r', rstrip sep ('{' :: '"' :: r) = '{' :: '"' :: r' := by
    refine list_snoc _ ?_ ?_
    · exact ⟨[], by decide +kernel⟩
    · rintro l x ⟨r', hr'⟩
      by_cases hx : x = sep
      · subst hx
        exact ⟨r', (rstrip_append_sep ('{' :: '"' :: l)).trans hr'⟩
      · refine ⟨l ++ [x], ?_⟩
        have := rstrip_append_ne ('{' :: '"' :: l) hx
        simpa using this
  exact h r

/-- None of the names starts with a quote. -/
def NoQuote (vals : List (Str × Str)) : Prop := ∀ p ∈ vals, ∀ r, p.1 ≠ '"' :: r

theorem trimEmpty_obj {vals : List (Str × Str)} (hq : NoQuote vals) {s out : Str} (hs : ObjText s)
    (h : trimEmpty s vals = .ok out) : ObjText out := by
  induction vals generalizing s with
  | nil => cases h; exact hs
  | cons p vals ih =>
    obtain ⟨n, v⟩ := p
    have ih := fun {s} => @ih (fun q hqm => hq q (by simp [hqm])) s
    rw [trimEmpty] at h
    split at h
    · simp only at h
      have htrim : ∃ c u, c ≠ '"' ∧ (if isInfix ('{' :: n ++ ['}'] ++ [sep]) s = true then
          '{' :: n ++ ['}'] ++ [sep] else '{' :: n ++ ['}']) = '{' :: c :: u := by
        cases n with
        | nil => split <;> exact ⟨_, _, by decide, rfl⟩
        | cons c n =>
          have : c ≠ '"' := by rintro rfl; exact hq _ List.mem_cons_self n rfl
          split <;> exact ⟨c, _, this, rfl⟩
      obtain ⟨c, u, hc, htrim⟩ := htrim
      rw [htrim] at h
      split at h
      · cases h
      · exact ih (rstrip_obj (replaceAll_obj hc hs)) h
    · exact ih hs h

/-- A field that starts with a quote. -/
def QuoteFld (f : Fld) : Prop := ∃ r, f.first = '"' :: r

theorem parseField_quote {a : Str} {f : Fld} (h : parseField ('"' :: a) = .ok f) : QuoteFld f := by
  unfold parseField at h
  simp only at h
  split at h
  · cases h
  · obtain ⟨as, -, rfl⟩ := map_ok h
    exact ⟨_, by rw [breakOn]; simp only [show decide ('"' = ':') = false by decide,
      Bool.false_eq_true, if_false]; rw [breakOn]; rfl⟩

theorem parseGo_quote {a : Str} : ∀ {r : Str} {T : List Tok}, parseGo (some ('"' :: a)) r = .ok T →
    ∃ f T', T = .fld f :: T' ∧ QuoteFld f := by
  intro r
  induction r generalizing a with
  | nil => intro T h; simp [parseGo] at h
  | cons c r ih =>
    intro T h
    rw [parseGo] at h
    split at h
    · split at h
      · rename_i f hf
        obtain ⟨T', -, rfl⟩ := map_ok h
        exact ⟨f, T', rfl, parseField_quote hf⟩
      · cases h
    · split at h
      · cases h
      · exact ih (a := a ++ [c]) h

theorem parse_obj {s : Str} (hs : ObjText s) {T : List Tok} (h : parse s = .ok T) :
    ∃ f T', T = .fld f :: T' ∧ QuoteFld f := by
  obtain ⟨r, rfl⟩ := hs
  have h : parseGo (some ['"']) r = .ok T := h
  exact parseGo_quote h

theorem placeholderText_quote {f : Fld} (hf : QuoteFld f) {t : Str} (h : placeholderText f = .ok t) :
    ObjText t := by
  obtain ⟨r, hr⟩ := hf
  unfold placeholderText at h
  split at h
  · injection h with h
    rw [← h, hr]
    exact ⟨_, rfl⟩
  · cases h

theorem render_obj {get : Fld → Except Err Str} {T : List Tok} {f : Fld} {out : Str}
    (hg : ∀ t, get f = .ok t → ObjText t) (h : render get (.fld f :: T) = .ok out) : ObjText out := by
  rw [render] at h
  split at h
  · cases h
  · split at h
    · rename_i t ht
      obtain ⟨r, -, rfl⟩ := map_ok h
      obtain ⟨u, rfl⟩ := hg t ht
      exact ⟨u ++ r, rfl⟩
    · cases h

theorem get?_quote {ν : Type} {vals : PyDict Str ν} (hq : ∀ p ∈ vals, ∀ r, p.1 ≠ '"' :: r) {f : Fld}
    (hf : QuoteFld f) : get? vals f.first = none := by
  obtain ⟨r, hr⟩ := hf
  rw [hr]
  cases hg : get? vals ('"' :: r) with
  | none => rfl
  | some v => exact absurd rfl (hq _ (get?_mem hg) r)

theorem resolveField_obj {vals : List (Str × Str)} (hq : NoQuote vals) {s out : Str} (hs : ObjText s)
    (h : resolveField vals s = .ok out) : ObjText out := by
  obtain ⟨t, ht, h⟩ := bind_ok h
  have hs := trimEmpty_obj hq hs ht
  obtain ⟨T, hT, h⟩ := bind_ok h
  obtain ⟨f, T', rfl, hf⟩ := parse_obj hs hT
  refine render_obj ?_ h
  intro u hu
  simp only [get?_quote hq hf] at hu
  exact placeholderText_quote hf hu

theorem resolveAll_obj : ∀ {vs : List (PyDict Str Str)}, (∀ vals ∈ vs, NoQuote vals) → ∀ {s out : Str},
    ObjText s → resolveAll s vs = .ok out → ObjText out
  | [], _, s, out, hs, h => by cases h; exact hs
  | v :: vs, hq, s, out, hs, h => by
    obtain ⟨t, ht, h⟩ := bind_ok h
    exact resolveAll_obj (fun v hv => hq v (by simp [hv])) (resolveField_obj (hq v (by simp)) hs ht) h

theorem genField_obj {s : Str} (hs : ObjText s) : ∀ out, genField [] s ≠ .ok out := by
  intro out h
  obtain ⟨t, ht, h⟩ := bind_ok h
  have ht' : ObjText t := by
    obtain ⟨T, hT, ht⟩ := bind_ok ht
    obtain ⟨f, T', rfl, hf⟩ := parse_obj hs hT
    refine render_obj ?_ ht
    intro u hu
    unfold stripText at hu
    exact placeholderText_quote (by exact hf) hu
  obtain ⟨T, hT, h⟩ := bind_ok h
  obtain ⟨f, T', rfl, hf⟩ := parse_obj ht' hT
  rw [render] at h
  split at h
  · cases h
  · simp [formatFld, get?] at h

theorem litResolutions_noQuote : ∀ vals ∈ litResolutions graphName pathTags names, NoQuote vals := by
  intro vals hm p hp r hr
  have h1 : p.1 ∈ keys (litResolutions graphName pathTags names).flatten :=
    List.mem_map.2 ⟨p, List.mem_flatten.2 ⟨vals, hm, hp⟩, rfl⟩
  have h2 : keys (litResolutions graphName pathTags names).flatten =
      ["partition_key_spec".toList, "extension".toList, "graph_name".toList, "path_tags".toList,
        "name".toList, "names".toList, "input_fingerprint".toList] := rfl
  rw [h2, hr] at h1
  simp at h1

/-- No mapping is ever read back: the braces of its JSON text are taken for a template, so casting,
assigning or reading it raises. -/
theorem C52_violated_by_mappings (hash : Str → Fp) (graphName : Str) (pathTags : PyDict Str Str)
    (names : List Str) (items : List (Val × Val)) :
    ∃ e, roundTrip ids hash graphName pathTags names (.dict items) = .error e := by
  cases hr : roundTrip ids hash graphName pathTags names (.dict items) with
  | error e => exact ⟨e, rfl⟩
  | ok w =>
    exfalso
    obtain ⟨a, hc, hr⟩ := bind_ok hr
    obtain ⟨b, ha, hr⟩ := bind_ok hr
    obtain ⟨text, id, value, hd, -, hv, hb⟩ := cast_assign hc ha
    obtain ⟨t, st⟩ := b
    simp only at hb
    subst hb
    obtain ⟨value', hg, -⟩ := litRead_ok hr
    refine genField_obj (resolveAll_obj litResolutions_noQuote ?_ hv) _ hg
    obtain ⟨j, hj, rfl⟩ := map_ok hd
    cases items with
    | nil =>
      obtain ⟨_, h1, -⟩ := bind_ok hc
      cases h1
    | cons p items =>
      obtain ⟨k, x⟩ := p
      rw [toJson] at hj
      obtain ⟨js, hjs, rfl⟩ := map_ok hj
      rw [toJsonItems] at hjs
      obtain ⟨k', -, hjs⟩ := bind_ok hjs
      obtain ⟨j', -, hjs⟩ := bind_ok hjs
      obtain ⟨js', -, hjs⟩ := bind_ok hjs
      injection hjs with hjs
      subst hjs
      rw [Json.write, Json.writeFields]
      exact ⟨_, rfl⟩

/-- Only literals are read back unchanged. -/
theorem C52_only_literals (hash : Str → Fp) (graphName : Str) (pathTags : PyDict Str Str)
    (names : List Str) (v : Val) (h : roundTrip ids hash graphName pathTags names v = .ok v) :
    IsLiteral v := by
  have h' := h
  obtain ⟨a, hc, h⟩ := bind_ok h
  rcases castable hc with hl | ⟨xs, rfl, -⟩ | ⟨items, rfl⟩
  · exact hl
  · obtain ⟨b, ha, hr⟩ := bind_ok h
    obtain ⟨text, id, value, hd, -, hv, hb⟩ := cast_assign hc ha
    obtain ⟨t, st⟩ := b
    simp only at hb
    subst hb
    obtain ⟨value', -, hl⟩ := litRead_ok hr
    unfold loads at hl
    split at hl
    · rename_i j _
      injection hl with hl
      cases j <;> simp [ofJson] at hl
    · cases hl
  · obtain ⟨e, he⟩ := C52_violated_by_mappings (ids := ids) hash graphName pathTags names items
    rw [he] at h'
    cases h'

theorem resolveAll_braces (h : TextsOk [] jsonExtension graphName pathTags names) :
    ∀ {vs : List (PyDict Str Str)}, (∀ v ∈ vs, v ∈ litResolutions graphName pathTags names) →
    ∀ {s out : Str}, resolveAll s vs = .ok out → braces out ≤ braces s
  | [], _, s, out, hr => by cases hr; exact Nat.le_refl _
  | v :: vs, hm, s, out, hr => by
    obtain ⟨t, ht, hr⟩ := bind_ok hr
    exact Nat.le_trans (resolveAll_braces h (fun v hv => hm v (by simp [hv])) hr)
      (resolveField_braces (litValues_get? h (hm v (by simp))) ht)

/-- The text that is found for a literal is the text that was stored exactly if it has no braces. -/
theorem C52_text_kept_iff_no_braces (hash : Str → Fp)
    (h : TextsOk [] jsonExtension graphName pathTags names) (v : Val) (j : Json)
    (hj : toJson v = .ok j) (hok : Json.Ok j) (a b : LitArtifact)
    (hc : castValue ids v = .ok a) (ha : assign graphName pathTags names a = .ok b) :
    (∃ s, discoverLit hash b.storage [] = .ok [s] ∧
      s.partition.value = some (Json.write Json.python j)) ↔
    NoBraces (Json.write Json.python j) := by
  obtain ⟨text, id, value, hd, hid, hv, hb⟩ := cast_assign hc ha
  have ht : text = Json.write Json.python j := by
    rw [dumps, hj] at hd
    injection hd with hd
    exact hd.symm
  subst ht
  rw [hb]
  constructor
  · rintro ⟨s, h1, h2⟩
    obtain ⟨id', value', hg, hs⟩ := discoverLit_ok h1
    injection hs with hs
    subst hs
    injection h2 with h2
    subst h2
    have h3 := genField_braces hg
    have h4 := resolveAll_braces h (fun v hv => hv) hv
    rw [noBraces_iff]
    omega
  · intro hn
    obtain ⟨id', hid', hnb⟩ := id_resolves h
    rw [hid'] at hid
    injection hid with hid
    subst hid
    rw [resolveAll_noBraces hn (closed_write hok)] at hv
    injection hv with hv
    subst hv
    exact ⟨_, C26_value_partial hash id' _ hnb hn, rfl⟩

/-- A string whose text resolves to another string's text is read back as that other string. -/
theorem string_becomes (hash : Str → Fp) (h : TextsOk [] jsonExtension graphName pathTags names)
    (x y : Str) (hy : NoBraces y)
    (hxy : resolveAll (Json.write Json.python (.str x)) (litResolutions graphName pathTags names) =
      .ok (Json.write Json.python (.str y))) :
    roundTrip ids hash graphName pathTags names (.str x) = .ok (.str y) := by
  obtain ⟨k1, k2⟩ := supported_classTy (c := .str) (by simp)
  have h2 : ofJson (.str y) = .str y := by rw [ofJson]
  rw [← h2]
  refine roundTrip_text h (hint := .cls .str) (t := classTy .str) rfl (A_cls (by simp)) (by rw [toJson]) k1 k2 hxy (by simp [Json.Ok])
    (noBraces_flat (j := .str y) ?_)
  exact hy

end

namespace Ex52

variable {ids : Ids}

theorem texts : TextsOk [] jsonExtension "g".toList [("env".toList, "dev".toList)]
    ["a".toList, "b".toList] :=
  ⟨by decide +kernel, by decide +kernel, by decide +kernel, by decide +kernel, by simp [keys],
    by simp [keys]⟩

/-- `[1, True, -7]` and `"it's \"quoted\" 😀"`. -/
example : roundTrip ids (fun _ => 0) "g".toList [("env".toList, "dev".toList)]
    ["a".toList, "b".toList] (.list [.int 1, .bool true, .int (-7)]) =
    .ok (.list [.int 1, .bool true, .int (-7)]) :=
  C52_reads_back_partial _ texts _
    (.inr ⟨_, rfl, .int 1, trivial, by
      intro y hy
      simp only [List.mem_cons, List.not_mem_nil, or_false] at hy
      rcases hy with rfl | rfl
      · exact ⟨.bool _, trivial⟩
      · exact ⟨.int _, trivial⟩⟩)
    (by intro t ht; simp at ht) (by intro t ht; simp at ht)

example : roundTrip ids (fun _ => 0) "g".toList [("env".toList, "dev".toList)]
    ["a".toList, "b".toList] (.str "it's \"quoted\" 😀".toList) =
    .ok (.str "it's \"quoted\" 😀".toList) :=
  C52_reads_back_partial _ texts _ (.inl (.str _)) trivial (by show NoBraces _; decide +kernel)

example : roundTrip ids (fun _ => 0) "g".toList [("env".toList, "dev".toList)]
    ["a".toList, "b".toList] (.tuple [.str "x".toList]) = .ok (.list [.str "x".toList]) :=
  C52_violated_by_tuples _ texts _ ⟨.str _, trivial, by simp⟩ (by intro t ht; simp at ht)
    (by intro t ht; simp at ht; subst ht; decide +kernel)

end Ex52

/-- Strings that look like placeholders come back as something else, without any error. -/
theorem C52_violated_by_placeholders (ids : Ids) (hash : Str → Fp) :
    roundTrip ids hash "g".toList [("env".toList, "dev".toList)] ["a".toList, "b".toList]
      (.str "{name}{extension} {input_fingerprint}".toList) = .ok (.str "b.json ".toList) :=
  string_becomes _ Ex52.texts _ _ (by decide +kernel) (by decide +kernel)

end Arti.Props
