import Verif.Spec.Pydantic
import Mathlib.Tactic.DeriveCountable
import Mathlib.Logic.Equiv.List
import Mathlib.Data.Countable.Basic

/-!
# Lemmas: a table of models exists

Hints are coded as binary trees, which are countable, to number every pair of a name and fields.
-/

namespace Arti
namespace Typ
open TH Spec

instance : Countable Char :=
  Function.Injective.countable (f := Char.toNat) fun _ _ h => Char.toNat_inj.1 h

deriving instance Countable for Lit
deriving instance Countable for PyCls

/-- Binary trees with labels. -/
inductive Code (A : Type)
  | leaf (a : A)
  | nil
  | node (x y : Code A)
  deriving Countable

/-- The labels. -/
abbrev Label := Nat ⊕ PyCls ⊕ List Lit ⊕ Str

def num (n : Nat) : Code Label := .leaf (.inl n)
def clsCode (c : PyCls) : Code Label := .leaf (.inr (.inl c))
def litCode (l : List Lit) : Code Label := .leaf (.inr (.inr (.inl l)))
def strCode (s : Str) : Code Label := .leaf (.inr (.inr (.inr s)))

mutual
/-- The code of a hint. -/
def code : PyHint → Code Label
  | .any => .node (num 0) .nil
  | .none => .node (num 1) .nil
  | .ellipsis => .node (num 2) .nil
  | .cls c => .node (num 3) (clsCode c)
  | .tdict i n fs => .node (num 4) (.node (num i) (.node (strCode n) (codeFields fs)))
  | .gen i o as => .node (num 5) (.node (num i) (.node (clsCode o) (codeList as)))
  | .tgen i o as => .node (num 6) (.node (num i) (.node (clsCode o) (codeList as)))
  | .union i as => .node (num 7) (.node (num i) (codeList as))
  | .unionT i as => .node (num 8) (.node (num i) (codeList as))
  | .literal i l => .node (num 9) (.node (num i) (litCode l))
  | .tvar i => .node (num 10) (num i)
  | .tvarB i b => .node (num 11) (.node (num i) (code b))
  | .annotated i b => .node (num 12) (.node (num i) (code b))
def codeList : List PyHint → Code Label
  | [] => .nil
  | a :: as => .node (code a) (codeList as)
def codeFields : List (Str × PyHint) → Code Label
  | [] => .nil
  | (n, a) :: fs => .node (.node (strCode n) (code a)) (codeFields fs)
end

mutual
theorem code_inj : ∀ (x y : PyHint), code x = code y → x = y
  | .any, y, h => by cases y <;> simp_all [code, num]
  | .none, y, h => by cases y <;> simp_all [code, num]
  | .ellipsis, y, h => by cases y <;> simp_all [code, num]
  | .cls c, y, h => by cases y <;> simp_all [code, num, clsCode]
  | .tdict i n fs, y, h => by
    cases y <;> simp [code, num, strCode] at h
    obtain ⟨rfl, rfl, h⟩ := h
    rw [codeFields_inj fs _ h]
  | .gen i o as, y, h => by
    cases y <;> simp [code, num, clsCode] at h
    obtain ⟨rfl, rfl, h⟩ := h
    rw [codeList_inj as _ h]
  | .tgen i o as, y, h => by
    cases y <;> simp [code, num, clsCode] at h
    obtain ⟨rfl, rfl, h⟩ := h
    rw [codeList_inj as _ h]
  | .union i as, y, h => by
    cases y <;> simp [code, num] at h
    obtain ⟨rfl, h⟩ := h
    rw [codeList_inj as _ h]
  | .unionT i as, y, h => by
    cases y <;> simp [code, num] at h
    obtain ⟨rfl, h⟩ := h
    rw [codeList_inj as _ h]
  | .literal i l, y, h => by cases y <;> simp_all [code, num, litCode]
  | .tvar i, y, h => by cases y <;> simp_all [code, num]
  | .tvarB i b, y, h => by
    cases y <;> simp [code, num] at h
    obtain ⟨rfl, h⟩ := h
    rw [code_inj b _ h]
  | .annotated i b, y, h => by
    cases y <;> simp [code, num] at h
    obtain ⟨rfl, h⟩ := h
    rw [code_inj b _ h]
theorem codeList_inj : ∀ (x y : List PyHint), codeList x = codeList y → x = y
  | [], y, h => by cases y <;> simp_all [codeList]
  | a :: as, y, h => by
    cases y with
    | nil => simp [codeList] at h
    | cons b bs =>
      simp only [codeList, Code.node.injEq] at h
      rw [code_inj a b h.1, codeList_inj as bs h.2]
theorem codeFields_inj : ∀ (x y : List (Str × PyHint)), codeFields x = codeFields y → x = y
  | [], y, h => by
    cases y with
    | nil => rfl
    | cons b bs => simp [codeFields] at h
  | (n, a) :: as, y, h => by
    cases y with
    | nil => simp [codeFields] at h
    | cons b bs =>
      obtain ⟨m, b⟩ := b
      simp only [codeFields, Code.node.injEq, strCode, Code.leaf.injEq, Sum.inr.injEq] at h
      rw [h.1.1, code_inj a b h.1.2, codeFields_inj as bs h.2]
end

/-- There are countably many pairs of a name and fields. -/
theorem models_countable : Countable (Str × List (Str × PyHint)) := by
  have h : Function.Injective fun x : Str × List (Str × PyHint) => (x.1, codeFields x.2) := by
    rintro ⟨n, f⟩ ⟨m, g⟩ h
    simp only [Prod.mk.injEq] at h
    rw [h.1, codeFields_inj f g h.2]
  exact h.countable

/-- A table of models with any refused names. -/
theorem models_exist (refused : Str → Bool) : ∃ M : Models, LawfulModels M ∧ M.refused = refused := by
  obtain ⟨f, hf⟩ := models_countable
  haveI : Nonempty (Str × List (Str × PyHint)) := ⟨([], [])⟩
  refine ⟨⟨fun c => match c with
    | .user k _ => Function.invFun f k
    | _ => ([], []), fun n fs => f (n, fs), refused⟩, fun n fs => ?_, rfl⟩
  exact Function.leftInverse_invFun hf (n, fs)

end Typ
end Arti
