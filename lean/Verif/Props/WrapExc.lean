import Verif.Model.WrapExc

/-!
# C77: errors are reported with the place and the original error
-/

namespace Arti.Props
open Arti Wrap

variable {T α : Type} {cl : Classes T}

/-- Exceptions of the class show their message. -/
def Plain (cl : Classes T) (t : T) : Prop := ∀ m, cl.show' t m = m

/-- The exception was not made by `wrap_exc`. -/
def Original (e : Exc T) : Prop := e.wrapped = false

/-- **C77.** However many blocks for one class of errors are nested: an error of that class (or of a
subclass) leaves the outermost block as an error of that class whose message is all prefixes, the
outermost first, then the message of the original error, and its cause is the original error. -/
theorem C77_prefixes_and_cause_partial {t : T} (hp : Plain cl t) (ht : cl.sub t t = true)
    (pre : Str) (pres : List Str) {e : Exc T} (he : Original e) (hs : cl.sub e.ty t = true) :
    nested cl ((pre :: pres).map fun p => (t, p)) (.error e : Except (Exc T) α) =
      .error (.mk t ((pre :: pres).flatten ++ " - ".toList ++ str cl e) true (some e)) := by
  induction pres generalizing pre with
  | nil =>
    simp only [nested, List.map_cons, List.map_nil, List.foldr_cons, List.foldr_nil, wrapExc, hs,
      if_true, List.flatten_cons, List.flatten_nil, List.append_nil, rewrap]
    unfold Original at he
    rw [he]
  | cons p ps ih =>
    have := ih p
    simp only [nested, List.map_cons, List.foldr_cons] at this ⊢
    rw [this]
    simp only [wrapExc, Exc.ty, ht, if_true, rewrap, Exc.wrapped, Exc.cause, str, Exc.msg, hp,
      List.flatten_cons, List.append_assoc]
    simp only [show ∀ m, cl.show' t m = m from hp]

/-- **C77.** What is not raised is returned, and errors that belong to none of the blocks pass
unchanged. -/
theorem C77_others_pass (blocks : List (T × Str)) :
    (∀ a : α, nested cl blocks (.ok a) = .ok a) ∧
    ∀ e : Exc T, (∀ b ∈ blocks, cl.sub e.ty b.1 = false) →
      nested cl blocks (.error e : Except (Exc T) α) = .error e := by
  induction blocks with
  | nil => exact ⟨fun _ => rfl, fun _ _ => rfl⟩
  | cons b bs ih =>
    refine ⟨fun a => ?_, fun e h => ?_⟩
    · have := ih.1 a
      simp only [nested, List.foldr_cons] at this ⊢
      rw [this]
      rfl
    · have := ih.2 e fun b hb => h b (List.mem_cons_of_mem _ hb)
      simp only [nested, List.foldr_cons] at this ⊢
      rw [this]
      simp [wrapExc, h b (by simp)]

/-- **C77.** Blocks for any classes: an error is never swallowed. What leaves the outermost block is
the original error itself, or an error with some of the prefixes in their order, the message of the
original error and the original error as its cause; it is raised by one of the blocks. -/
theorem C77_nothing_is_swallowed_partial (hp : ∀ t, Plain cl t) {e : Exc T} (he : Original e)
    (blocks : List (T × Str)) :
    nested cl blocks (.error e : Except (Exc T) α) = .error e ∨
    ∃ t pres, pres.Sublist (blocks.map Prod.snd) ∧ pres ≠ [] ∧ t ∈ blocks.map Prod.fst ∧
      nested cl blocks (.error e : Except (Exc T) α) =
        .error (.mk t (pres.flatten ++ " - ".toList ++ str cl e) true (some e)) := by
  induction blocks with
  | nil => exact .inl rfl
  | cons b bs ih =>
    simp only [nested, List.foldr_cons] at ih ⊢
    rcases ih with ih | ⟨t, pres, h1, h0, h2, ih⟩
    · rw [ih]
      by_cases hs : cl.sub e.ty b.1 = true
      · refine .inr ⟨b.1, [b.2], by simp, by simp, by simp, ?_⟩
        unfold Original at he
        simp only [wrapExc, hs, if_true, rewrap, he, List.flatten_cons, List.flatten_nil,
          List.append_nil]
      · left
        simp only [wrapExc, hs, Bool.false_eq_true, if_false]
    · rw [ih]
      right
      by_cases hs : cl.sub t b.1 = true
      · refine ⟨b.1, b.2 :: pres, by simpa using h1, by simp, by simp, ?_⟩
        have := hp t
        simp only [wrapExc, Exc.ty, hs, if_true, rewrap, Exc.wrapped, Exc.cause, str, Exc.msg,
          List.flatten_cons, List.append_assoc]
        rw [this]
      · refine ⟨t, pres, h1.trans (by simp), h0, by simp [h2], ?_⟩
        simp only [wrapExc, Exc.ty, hs, Bool.false_eq_true, if_false]

namespace Ex77
/-- `ValueError` (0), `KeyError` (1, shown as a string literal), a subclass of `ValueError` (2). -/
def classes : Classes Nat where
  sub a b := a == b || (a == 2 && b == 0)
  show' t m := if t = 1 then '\'' :: m ++ ['\''] else m

theorem plain0 : Plain classes 0 := fun _ => rfl

/-- Three nested blocks, as for a bad hint of a parameter of `build`. -/
example : nested classes [(0, "P".toList), (0, ".build".toList), (0, " x param".toList)]
    (.error (.mk 2 "bad".toList false none) : Except (Exc Nat) Unit) =
    .error (.mk 0 "P.build x param - bad".toList true (some (.mk 2 "bad".toList false none))) :=
  C77_prefixes_and_cause_partial plain0 rfl "P".toList [".build".toList, " x param".toList] rfl rfl
end Ex77

/-- **C77** does not hold for classes that show more than the message, such as `KeyError`: from the
second block on the prefixes of the inner ones are quoted. -/
theorem C77_violated_by_key_errors :
    ¬ ∀ (cl : Classes Nat) (t : Nat), cl.sub t t = true → ∀ (pre : Str) (pres : List Str) (e : Exc Nat),
      Original e → cl.sub e.ty t = true →
      nested cl ((pre :: pres).map fun p => (t, p)) (.error e : Except (Exc Nat) Unit) =
        .error (.mk t ((pre :: pres).flatten ++ " - ".toList ++ str cl e) true (some e)) := by
  intro h
  have := h Ex77.classes 1 rfl ['a'] [['b']] (.mk 1 ['x'] false none) rfl rfl
  simp only [Except.error.injEq, nested, List.map_cons, List.map_nil, List.foldr_cons,
    List.foldr_nil, wrapExc, Exc.ty, Ex77.classes] at this
  have := congrArg (fun e => match e with
    | .ok _ => []
    | .error (e : Exc Nat) => e.msg) this
  revert this
  decide

/-- **C77** does not hold for an error of the user with a true attribute `wrapped` and a cause: it
is dropped from the chain. -/
theorem C77_violated_by_wrapped_attributes :
    ∃ (e c : Exc Nat), e.wrapped = true ∧ e.cause = some c ∧
      nested Ex77.classes [(0, "P".toList)] (.error e : Except (Exc Nat) Unit) =
        .error (.mk 0 ("P".toList ++ e.msg) true (some c)) :=
  ⟨.mk 0 "bad".toList true (some (.mk 0 "c".toList false none)), .mk 0 "c".toList false none, rfl, rfl,
    rfl⟩

end Arti.Props
