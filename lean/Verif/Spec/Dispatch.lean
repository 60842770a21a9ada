import Verif.Model.Dispatch
import Mathlib.Data.List.Forall2

/-!
# Specification for multiple dispatch
-/

namespace Arti.Spec
open Disp

variable {C K : Type}

/-- A function that is registered for `key` can be called with arguments of these classes. -/
def Applicable (sub : K → K → Bool) (key types : List K) : Prop :=
  List.Forall₂ (fun k t => sub t k = true) key (types.take key.length)

/-- `issubclass` is a partial order. -/
structure Order (sub : K → K → Bool) : Prop where
  refl : ∀ a, sub a a = true
  trans : ∀ {a b c}, sub a b = true → sub b c = true → sub a c = true
  antisymm : ∀ {a b}, sub a b = true → sub b a = true → a = b

/-- `k` comes before `k'` in this method resolution order. -/
def Earlier (mro : List K) (k k' : K) : Prop :=
  ∃ l1 l2, mro = l1 ++ k :: l2 ∧ k ∉ l1 ∧ k' ∉ l1 ∧ k ≠ k' ∧ k' ∈ l2

/-- At the first argument for which the two functions are registered for different classes, the class
of the first function comes before that of the second one in the method resolution order of the
class of the argument. -/
def Precedes (mro : K → List K) (types key key' : List K) : Prop :=
  ∃ (pre : List (K × K)) (t : K) (ts : List K) (k : K) (ks : List K) (k' : K) (ks' : List K),
    types = pre.map Prod.fst ++ t :: ts ∧
    key = pre.map Prod.snd ++ k :: ks ∧ key' = pre.map Prod.snd ++ k' :: ks' ∧
    Earlier (mro t) k k'

end Arti.Spec
