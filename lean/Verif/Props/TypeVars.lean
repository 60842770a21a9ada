import Verif.Spec.TypeVars

/-!
# C79: mappings are validated with the types they are declared with
-/

namespace Arti.Props
open TypeVars

private theorem closed_not_var {args : List TArg} (h : ∀ a ∈ args, a.Closed) :
    args.any TArg.isVar = false := by
  rw [List.any_eq_false]
  intro a ha
  have := h a ha
  cases a <;> simp_all [TArg.Closed, TArg.isVar]

private theorem argFor_other {ps : List Str} {as : List TArg} {p : Str} {a : TArg} :
    ∀ l : List Str, p ∉ l →
      l.map (fun n => TArg.subst (argFor (p :: ps) (a :: as)) (.var n)) =
        l.map (fun n => TArg.subst (argFor ps as) (.var n))
  | [], _ => rfl
  | n :: l, h => by
    simp only [List.mem_cons, not_or] at h
    simp only [List.map_cons, argFor_other l h.2]
    congr 1
    simp only [TArg.subst, argFor]
    rw [if_neg (fun e => h.1 e.symm)]

private theorem subst_params : ∀ (ps : List Str) (args : List TArg), ps.Nodup →
    args.length = ps.length →
    (ps.map TArg.var).map (TArg.subst (argFor ps args)) = args
  | [], [], _, _ => rfl
  | [], _ :: _, _, h => by simp at h
  | _ :: _, [], _, h => by simp at h
  | p :: ps, a :: as, hn, hl => by
    rw [List.nodup_cons] at hn
    have ih := subst_params ps as hn.2 (by simpa using hl)
    simp only [List.map_cons, List.map_map] at ih ⊢
    have := argFor_other (ps := ps) (as := as) (a := a) ps hn.1
    congr 1
    · simp [TArg.subst, argFor]
    · exact Eq.trans this ih

/-- Generic classes that pass their parameters on bind those of the generic class to their own. -/
private theorem bindings_params {c : Cls} (hv : c.Valid) (hs : c.Straight) (hp : c.params ≠ []) :
    c.params.Nodup ∧ c.bindings = c.params.map TArg.var := by
  induction c with
  | gen ps => exact ⟨hv.2, rfl⟩
  | plain p ih => exact absurd rfl hp
  | sub ps p args ih =>
    obtain ⟨h1, h2, h3, h4⟩ := hv
    obtain ⟨hs1, hs2⟩ := hs
    obtain ⟨hn, hb⟩ := ih h1 hs1 h3
    refine ⟨h2, ?_⟩
    rcases hs2 with rfl | ⟨h, -⟩
    · simp only [Cls.bindings, hb]
      exact subst_params _ _ hn h4
    · exact absurd h hp

private theorem var_any {l : List Str} (h : l ≠ []) : (l.map TArg.var).any TArg.isVar = true := by
  cases l with
  | nil => exact absurd rfl h
  | cons a l => simp [TArg.isVar]

private theorem cls_spec {c : Cls} (hv : c.Valid) (hs : c.Straight) :
    ((∀ a ∈ c.bindings, a.Closed) ∧ firstArgs (origBases c) = .ok c.bindings) ∨
    ((∃ a ∈ c.bindings, ¬ a.Closed) ∧ firstArgs (origBases c) = .error .typeError) := by
  have openCase : ∀ l : List Str, l ≠ [] → ∃ a ∈ l.map TArg.var, ¬ a.Closed := by
    intro l hl
    cases l with
    | nil => exact absurd rfl hl
    | cons a l => exact ⟨.var a, by simp, by simp [TArg.Closed]⟩
  induction c with
  | gen ps =>
    refine .inr ⟨openCase ps hv.1, ?_⟩
    simp only [origBases, firstArgs, var_any hv.1, if_true]
  | plain p ih => exact ih hv hs
  | sub ps p args ih =>
    obtain ⟨h1, h2, h3, h4⟩ := hv
    obtain ⟨hs1, hs2⟩ := hs
    obtain ⟨hn, hb⟩ := bindings_params h1 hs1 h3
    have hb' : (Cls.sub ps p args).bindings = args := by
      simp only [Cls.bindings, hb]
      exact subst_params _ _ hn h4
    have hne : args ≠ [] := by
      rintro rfl
      simp only [List.length_nil] at h4
      exact h3 (List.length_eq_zero_iff.1 h4.symm)
    rw [hb']
    rcases hs2 with rfl | ⟨rfl, hc⟩
    · have hps : ps ≠ [] := by rintro rfl; exact hne rfl
      refine .inr ⟨openCase ps hps, ?_⟩
      cases ps with
      | nil => exact absurd rfl hps
      | cons q qs => simp only [origBases, firstArgs, var_any hps, if_true]
    · refine .inl ⟨hc, ?_⟩
      simp only [origBases, firstArgs, closed_not_var hc, Bool.false_eq_true, if_false]

/-- **C79.** For a class below a generic class (or a subscripted one), however many classes are in
between, the types found are those that the parameters of the generic class stand for, and if some
stand for nothing it raises.  Partial: generic classes on the way must pass all their parameters on
in the same order (see the violations). -/
theorem C79_types_found_are_those_declared_partial {h : Hint} (hv : h.Valid) (hs : h.Straight) :
    ((∀ a ∈ h.bindings, a.Closed) → getClassTypeVars h = .ok h.bindings) ∧
    ((∃ a ∈ h.bindings, ¬ a.Closed) → getClassTypeVars h = .error .typeError) := by
  cases h with
  | cls c =>
    rcases cls_spec hv hs with ⟨h1, h2⟩ | ⟨⟨a, ha, h1⟩, h2⟩
    · exact ⟨fun _ => h2, fun ⟨a, ha, h⟩ => absurd (h1 a ha) h⟩
    · exact ⟨fun h => absurd (h a ha) h1, fun _ => h2⟩
  | «alias» c args =>
    obtain ⟨v1, v2, v3⟩ := hv
    obtain ⟨s1, s2⟩ := hs
    obtain ⟨hn, hb⟩ := bindings_params v1 s1 v2
    have hb' : (Hint.alias c args).bindings = args := by
      simp only [Hint.bindings, hb]
      exact subst_params _ _ hn v3
    rw [hb']
    refine ⟨fun _ => ?_, fun ⟨a, ha, h⟩ => absurd (s2 a ha) h⟩
    simp only [getClassTypeVars, firstArgs, closed_not_var s2, Bool.false_eq_true, if_false]

/-- **C79.** Whatever the classes in between do, no variable is ever taken for a type: a class that
binds only some parameters (`class ByName[V](frozendict[str, V])`) raises if it is used as a hint. -/
theorem C79_variables_are_no_types (h : Hint) {args : List TArg}
    (hok : getClassTypeVars h = .ok args) (n : Str) : TArg.var n ∉ args := by
  have key : ∀ bs : List (List TArg), firstArgs bs = .ok args → TArg.var n ∉ args := by
    intro bs
    induction bs with
    | nil => intro h; simp [firstArgs] at h
    | cons b bs ih =>
      intro h
      unfold firstArgs at h
      split at h
      · exact ih h
      · rename_i hb
        simp only [Except.ok.injEq] at h
        subst h
        intro hm
        exact hb (List.any_eq_true.2 ⟨_, hm, rfl⟩)
  cases h with
  | cls c => exact key _ hok
  | «alias» c as => exact key _ hok

/-- **C79.** So a field with such a hint validates keys and values with the types declared for
them.  Partial, as above. -/
theorem C79_keys_and_values_partial {h : Hint} (hv : h.Valid) (hs : h.Straight) {k v : TArg}
    (hb : h.bindings = [k, v]) (hk : k.Closed) (hv' : v.Closed) : mappingTypes h = .ok (k, v) := by
  have := (C79_types_found_are_those_declared_partial hv hs).1
    (by rw [hb]; intro a ha; simp only [List.mem_cons, List.not_mem_nil, or_false] at ha
        rcases ha with rfl | rfl
        · exact hk
        · exact hv')
  simp only [mappingTypes, this, hb]

namespace Ex79

def str : TArg := .ty "str".toList
def int : TArg := .ty "int".toList
/-- `class frozendict[K, V]` -/
def fd : Cls := .gen [['K'], ['V']]
/-- `class Mine[A, B](frozendict[A, B])` -/
def mine : Cls := .sub [['A'], ['B']] fd [.var ['A'], .var ['B']]
/-- `class Counts(Mine[str, list[int]])`, `class Special(Counts)` -/
def special : Cls := .plain (.sub [] mine [str, .app "list".toList int])

example : mappingTypes (.cls special) = .ok (str, .app "list".toList int) :=
  C79_keys_and_values_partial (h := .cls special) (by simp [Hint.Valid, special, mine, fd, Cls.Valid,
    Cls.params]) (by simp [Hint.Straight, special, mine, fd, Cls.Straight, TArg.Closed, str, int])
    (by decide) (by simp [TArg.Closed, str]) (by simp [TArg.Closed, int])

/-- A class that leaves its parameters open is rejected. -/
example : getClassTypeVars (.cls (.plain mine)) = .error .typeError :=
  (C79_types_found_are_those_declared_partial (h := .cls (.plain mine))
    (by simp [Hint.Valid, mine, fd, Cls.Valid, Cls.params])
    (by simp [Hint.Straight, mine, fd, Cls.Straight])).2
    ⟨.var ['A'], by decide, by simp [TArg.Closed]⟩

/-- `class Swapped[V, K](frozendict[K, V])` -/
def swapped : Cls := .sub [['V'], ['K']] fd [.var ['K'], .var ['V']]
/-- `class ByName[V](frozendict[str, V])` -/
def byName : Cls := .sub [['V']] fd [str, .var ['V']]

example : getClassTypeVars (.cls byName) = .error .typeError ∧
    getClassTypeVars (.cls special) = .ok [str, .app "list".toList int] := by decide

/-- `class Lists[V](frozendict[str, list[V]])` -/
def lists : Cls := .sub [['V']] fd [str, .app "list".toList (.var ['V'])]

end Ex79

/-- **C79** is violated by generic subclasses that exchange the parameters: keys are validated with
the type of the values and values with that of the keys. -/
theorem C79_violated_by_exchanged_parameters : ∃ (h : Hint) (k v : TArg), h.Valid ∧
    h.bindings = [k, v] ∧ k.Closed ∧ v.Closed ∧ k ≠ v ∧ mappingTypes h = .ok (v, k) :=
  ⟨.alias Ex79.swapped [Ex79.int, Ex79.str], Ex79.str, Ex79.int,
    by simp [Hint.Valid, Ex79.swapped, Ex79.fd, Cls.Valid, Cls.params], by decide,
    by simp [TArg.Closed, Ex79.str], by simp [TArg.Closed, Ex79.int], by decide, by decide⟩

/-- **C79** is violated by generic subclasses that bind some parameters: the class cannot be used as
the hint of a field. -/
theorem C79_violated_by_bound_parameters : ∃ (h : Hint) (k v : TArg), h.Valid ∧
    h.bindings = [k, v] ∧ k.Closed ∧ v.Closed ∧ mappingTypes h = .error .valueError :=
  ⟨.cls (.sub [] Ex79.byName [Ex79.int]), Ex79.str, Ex79.int,
    by simp [Hint.Valid, Ex79.byName, Ex79.fd, Cls.Valid, Cls.params], by decide,
    by simp [TArg.Closed, Ex79.str], by simp [TArg.Closed, Ex79.int], by decide⟩

/-- **C79** is violated by variables inside of arguments: a class that leaves a parameter open is
accepted with the variable in its types. -/
theorem C79_violated_by_nested_variables : ∃ (h : Hint) (k v : TArg), h.Valid ∧
    h.bindings = [k, v] ∧ ¬ v.Closed ∧ mappingTypes h = .ok (k, v) :=
  ⟨.cls Ex79.lists, Ex79.str, .app "list".toList (.var ['V']),
    by simp [Hint.Valid, Ex79.lists, Ex79.fd, Cls.Valid, Cls.params], by decide,
    by simp [TArg.Closed], by decide⟩

end Arti.Props
