import Verif.Lemmas.Hints

/-!
# C50: `lenient_issubclass` is an order on class hints
-/

namespace Arti.Props
open Arti TH Spec
variable {C : Type} [DecidableEq C] {H : Hier C}

/-- C50: on class hints, `lenient_issubclass` always answers. -/
theorem C50_class_hints_never_raise (hl : LawfulHier H) {k c : Hint C}
    (hk : ClassHint H k = true) (hc : ClassHint H c = true) : ∃ b, lenient H k c = .ok b :=
  total hl hk hc

/-- C50: `lenient_issubclass` is reflexive on classes, generic classes and type variables, nested
to any depth. -/
theorem C50_reflexive (hl : LawfulHier H) {a : Hint C} (ha : ClassHint H a = true)
    (hcl : IsClass a) : lenient H a a = .ok true :=
  lenient_refl hl _ a (Nat.lt_succ_self _) ha (by cases a <;> simp_all [IsClass, classLike])

/-- C50: `lenient_issubclass` is transitive on class hints, nested to any depth; the last hint, and
every generic argument, may be a union. -/
theorem C50_transitive {heap : Nat → Hint C} (hl : LawfulHier H) {a b c : Hint C}
    (ha : ClassHint H a = true) (hb : ClassHint H b = true) (hc : ClassHint H c = true)
    (hha : InHeap heap a) (hhb : InHeap heap b) (hhc : InHeap heap c)
    (hab : lenient H a b = .ok true) (hbc : lenient H b c = .ok true) :
    lenient H a c = .ok true :=
  lenient_trans hl _ a b c (Nat.lt_succ_self _) ha hb hc hha hhb hhc hab hbc

/-- C50: `Any` is above every class hint (and everything else that is a class). -/
theorem C50_any_is_top {k : Hint C} (hk : IsClass k) : lenient H k .any = .ok true := by
  have hcl : classLike k = true := by cases k <;> simp_all [IsClass, classLike]
  have hb : bare (.any : Hint C) = .any := rfl
  rw [lenient, if_pos hcl, if_neg (by simp [isUnionHint]), checkIssubclass, hb]
  simp [isSame]

/-- C50: ... and only `Any` (possibly annotated, or as an unbounded type variable) is above
`Any`. -/
theorem C50_only_any_above_any {c : Hint C} (hu : isUnionHint c = false)
    (h : lenient H .any c = .ok true) : bare c = .any := by
  have hb : bare (.any : Hint C) = .any := rfl
  rw [lenient, if_pos (by rfl), if_neg (by simpa using hu), checkIssubclass, hb] at h
  simpa [isSame_any, isSame_refl] using h

/-- C50: plain classes are compared with `issubclass`. -/
theorem C50_classes_by_issubclass {c d : C} : lenient H (.cls c) (.cls d) = H.issub c d := by
  rw [lenient, if_pos (by rfl), if_neg (by simp [isUnionHint]), checkIssubclass]
  simp [bare, discardAnnotated, unbind, isSame, ident, getOrigin, issubclassHint, issubclassCls]

/-- C50: `Annotated` on the left is ignored. -/
theorem C50_annotated_left_ignored {i : Nat} {h c : Hint C} (hh : IsClass h)
    (hn : isAnnotatedHint h = false) : lenient H (.annotated i h) c = lenient H h c := by
  have hcl : classLike h = true := by cases h <;> simp_all [IsClass, classLike]
  have hb : bare (.annotated i h) = bare h := by
    cases h <;> simp_all [bare, discardAnnotated, isAnnotatedHint]
  have hchk : ∀ c, checkIssubclass H (.annotated i h) c = checkIssubclass H h c := by
    intro c; rw [checkIssubclass, checkIssubclass, hb]
  have : ∀ n (c : Hint C), sizeOf c < n → lenient H (.annotated i h) c = lenient H h c := by
    intro n
    induction n with
    | zero => intro c hc; omega
    | succ n ih =>
      intro c hc
      rw [lenient, lenient, if_pos (by rfl), if_pos hcl, hchk]
      by_cases hu : isUnionHint c = true
      · rw [if_pos hu, if_pos hu]
        have hany : ∀ cs : List (Hint C), (∀ c' ∈ cs, sizeOf c' < n) →
            lenientAny H (.annotated i h) cs = lenientAny H h cs := by
          intro cs
          induction cs with
          | nil => intro _; rw [lenientAny, lenientAny]
          | cons c' cs ih' =>
            intro hs
            rw [lenientAny, lenientAny, ih c' (hs c' List.mem_cons_self),
              ih' fun x hx => hs x (List.mem_cons_of_mem _ hx)]
        exact hany _ fun c' hm => by have := sizeOf_args hm; omega
      · rw [if_neg hu, if_neg hu]
  exact this _ c (Nat.lt_succ_self _)

/-- C50: `Annotated` on the right is ignored, unless it wraps a union. -/
theorem C50_annotated_right_ignored_partial {i : Nat} {k h : Hint C}
    (hu : isUnionHint h = false) (hn : isAnnotatedHint h = false) :
    lenient H k (.annotated i h) = lenient H k h := by
  have hb : bare (.annotated i h) = bare h := by
    cases h <;> simp_all [bare, discardAnnotated, isAnnotatedHint]
  rw [lenient, lenient, if_neg (by simp [isUnionHint]) (c := isUnionHint (.annotated i h) = true)]
  simp only [hu, Bool.false_eq_true, if_false]
  rw [checkIssubclass, checkIssubclass, hb]

/-- C50: a union on the right means any of its members. -/
theorem C50_union_right_any_of (hl : LawfulHier H) {i : Nat} {k : Hint C} {cs : List (Hint C)}
    {u : Hint C} (hu : u = .union i cs ∨ u = .unionT i cs)
    (hk : ClassHint H k = true) (hcl : IsClass k) (hc : ∀ c ∈ cs, ClassHint H c = true) :
    lenient H k u = .ok true ↔ ∃ c ∈ cs, lenient H k c = .ok true := by
  have hcl' : classLike k = true := by cases k <;> simp_all [IsClass, classLike]
  have hcs : ClassHints H cs = true := by
    clear hu
    induction cs with
    | nil => rfl
    | cons c cs ih =>
      simp only [ClassHints, Bool.and_eq_true]
      exact ⟨hc c List.mem_cons_self,
        ih fun x hx => hc x (List.mem_cons_of_mem _ hx)⟩
  rcases hu with rfl | rfl
  · exact lenient_union_iff hl hk (by simpa [ClassHint] using hcs) hcl' rfl
  · exact lenient_union_iff hl hk (by simpa [ClassHint] using hcs) hcl' rfl

/-- C50: generics are covariant: `A[a, ...]` is below `B[b, ...]` iff `A` is a subclass of `B` and
each argument is below, or the same object as, its counterpart. -/
theorem C50_covariant (hl : LawfulHier H) {i j : Nat} {o o' : C} {as bs : List (Hint C)}
    (ha : ClassHint H (.gen i o as) = true) (hb : ClassHint H (.gen j o' bs) = true)
    (hne : bs ≠ []) :
    lenient H (.gen i o as) (.gen j o' bs) = .ok true ↔
      H.issub o o' = .ok true ∧
      List.Forall₂ (fun a b => lenient H a b = .ok true ∨ isSame a b = true) as bs := by
  rw [lenient_iff_rel hl ha hb rfl rfl]
  simp [Rel, bare, discardAnnotated, unbind, head, getArgs, hne]
  exact fun _ => Iff.rfl

/-- C50: a generic class is below the plain classes its origin is below, and a plain class is not
below a generic one with arguments. -/
theorem C50_generic_and_plain (hl : LawfulHier H) {i : Nat} {o d : C} {as : List (Hint C)}
    (ha : ClassHint H (.gen i o as) = true) :
    (lenient H (.gen i o as) (.cls d) = .ok true ↔ H.issub o d = .ok true) ∧
    (as ≠ [] → lenient H (.cls d) (.gen i o as) = .ok false) := by
  constructor
  · rw [lenient_iff_rel hl ha (by rfl) rfl rfl]
    simp [Rel, bare, discardAnnotated, unbind, head, getArgs]
  · intro hne
    obtain ⟨b, hb⟩ := total hl (k := .cls d) (c := .gen i o as) rfl ha
    cases b with
    | false => exact hb
    | true =>
      rw [lenient_iff_rel hl rfl ha rfl rfl] at hb
      simp [Rel, bare, discardAnnotated, unbind, head, getArgs, hne] at hb

/-! ## Where the claim fails -/

/-- The builtin hierarchy is lawful. -/
theorem lawful_builtins : LawfulHier PyCls.hier where
  total c d := ⟨_, rfl⟩
  refl c := by
    have : c ∈ PyCls.mro c := by cases c <;> simp [PyCls.mro]
    simp [PyCls.hier, this]
  final c h := by
    simp only [PyCls.hier, Except.ok.injEq, decide_eq_true_eq] at h ⊢
    induction c with
    | user n b ih =>
      simp only [PyCls.mro, List.mem_cons, reduceCtorEq, false_or] at h
      split at h
      · simp at h
      · exact absurd (ih h) (by assumption)
    | noneType => rfl
    | _ => simp [PyCls.mro] at h
  trans c d e h h' := by
    simp only [PyCls.hier, Except.ok.injEq, decide_eq_true_eq] at h h' ⊢
    induction c with
    | user n b ih =>
      simp only [PyCls.mro, List.mem_cons] at h
      rcases h with rfl | h
      · exact h'
      · simp only [PyCls.mro, List.mem_cons]
        split at h
        · simp at h; subst h; simp_all [PyCls.mro]
        · rename_i hb; rw [if_neg hb]; exact .inr (ih h)
    | _ =>
      simp only [PyCls.mro, List.mem_cons, List.not_mem_nil, or_false] at h
      rcases h with rfl | rfl | rfl <;> simp_all [PyCls.mro]

/-- C50 is violated: `int` is a subclass of `int | str`, but not of
`Annotated[int | str, ...]`. -/
theorem C50_violated_by_annotated_unions :
    lenient PyCls.hier (.cls .int) (.unionT 1 [.cls .int, .cls .str]) = .ok true ∧
    lenient PyCls.hier (.cls .int) (.annotated 2 (.unionT 1 [.cls .int, .cls .str])) = .ok false ∧
    lenient PyCls.hier (.cls .int) (.annotated 2 (.union 1 [.cls .int, .cls .str]))
      = .error .typeError := by
  refine ⟨?_, ?_, ?_⟩ <;>
  simp [lenient, lenientAny, checkIssubclass, classLike, isUnionHint, getArgs, bare,
    discardAnnotated, unbind, isSame, ident, getOrigin, issubclassHint, issubclassCls,
    issubclassToOrigin, PyCls.hier, PyCls.mro, hasArgs]

/-- C50, a limit: unions on the left are below nothing, not even themselves or `Any`. -/
theorem C50_unions_are_below_nothing {i : Nat} {cs : List (Hint C)} (c : Hint C) :
    lenient H (.union i cs) c = .ok false ∧ lenient H (.unionT i cs) c = .ok false := by
  constructor <;> rw [lenient] <;> simp [classLike]

/-- C50: `None`, `...`, literals and the generics of `typing` (`typing.List[int]`) are below nothing
either, not even themselves or `Any`, and comparing them never raises. -/
theorem C50_violated_by_typing_generics {k : Hint C}
    (hk : (∃ i o as, k = .tgen i o as) ∨ (∃ i ls, k = .literal i ls) ∨ k = .none ∨ k = .ellipsis)
    (c : Hint C) : lenient H k c = .ok false := by
  rcases hk with ⟨i, o, as, rfl⟩ | ⟨i, ls, rfl⟩ | rfl | rfl <;> rw [lenient] <;> simp [classLike]

example : lenient PyCls.hier (.tgen 1 .list [.cls .int]) (.tgen 1 .list [.cls .int]) = .ok false :=
  C50_violated_by_typing_generics (.inl ⟨_, _, _, rfl⟩) _

/-- C50, a limit: `list[int | None]` is not below a second, equal `list[int | None]`, nor below
`list[Any]`: such arguments are accepted only if they are the same object. -/
theorem C50_violated_by_union_arguments :
    lenient PyCls.hier (.gen 1 .list [.unionT 2 [.cls .int, .cls .noneType]])
      (.gen 3 .list [.unionT 4 [.cls .int, .cls .noneType]]) = .ok false ∧
    lenient PyCls.hier (.gen 1 .list [.unionT 2 [.cls .int, .cls .noneType]])
      (.gen 5 .list [.any]) = .ok false ∧
    lenient PyCls.hier (.gen 1 .list [.unionT 2 [.cls .int, .cls .noneType]])
      (.gen 3 .list [.unionT 2 [.cls .int, .cls .noneType]]) = .ok true := by
  refine ⟨?_, ?_, ?_⟩ <;>
  simp [lenient, lenientArgs, checkIssubclass, classLike, isUnionHint, getArgs, bare,
    discardAnnotated, unbind, isSame, ident, getOrigin, isLiteral, pyAnd, lenientOrigins,
    PyCls.hier, PyCls.mro, hasArgs]

/-! ## The hypotheses are met -/

/-- `dict[str, list[T]]` with `T` bounded by `int`, in a heap. -/
example : ClassHint PyCls.hier (.gen 1 .dict [.cls .str, .gen 2 .list [.tvarB 3 (.cls .int)]]) = true ∧
    IsClass (.gen 1 PyCls.dict [.cls .str, .gen 2 .list [.tvarB 3 (.cls .int)]]) := by
  simp [ClassHint, ClassHints, PyCls.hier, bound, IsClass]

/-- `dict[str, bool] ≤ dict[str, T] ≤ Mapping[str, int | None]` in one heap. -/
example :
    let a : Hint PyCls := .gen 1 .dict [.cls .str, .cls .bool]
    let b : Hint PyCls := .gen 2 .dict [.cls .str, .tvarB 3 (.cls .int)]
    let c : Hint PyCls := .gen 4 .mapping [.cls .str, .unionT 5 [.cls .int, .cls .noneType]]
    let heap : Nat → Hint PyCls := fun n =>
      if n = 1 then a else if n = 2 then b else if n = 3 then .tvarB 3 (.cls .int)
      else if n = 4 then c else .unionT 5 [.cls .int, .cls .noneType]
    InHeap heap a ∧ InHeap heap b ∧ InHeap heap c ∧
    lenient PyCls.hier a b = .ok true ∧ lenient PyCls.hier b c = .ok true := by
  refine ⟨?_, ?_, ?_, ?_, ?_⟩
  · simp [InHeap, InHeaps]
  · simp [InHeap, InHeaps]
  · simp [InHeap, InHeaps]
  all_goals
    simp [lenient, lenientAny, lenientArgs, checkIssubclass, classLike, isUnionHint, getArgs, bare,
      discardAnnotated, unbind, isSame, ident, getOrigin, isLiteral, pyAnd, lenientOrigins,
      PyCls.hier, PyCls.mro, hasArgs, issubclassHint, issubclassCls]

end Arti.Props
