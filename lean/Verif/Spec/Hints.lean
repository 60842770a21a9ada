import Verif.Model.Hints

/-!
# Specification: which hints the order laws are stated for

`ClassHint` singles out the hints built from ordinary classes, generics, type variables,
`Annotated`, unions, `Any` and `None`, nested to any depth.  Left out are `Literal`, `TypedDict`
and `...` (which are not classes), subscripts of `type(None)`
(which do not exist), and unions or `None` directly under `Annotated` or as the bound
of a type variable (for which `C50` is false, see `Verif.Props.Hints`).
-/

namespace Arti
namespace Spec
open TH

/-- What `Annotated` may wrap. -/
def inner {C : Type} : Hint C → Bool
  | .any => true
  | .cls _ => true
  | .gen _ _ _ => true
  | .tgen _ _ _ => true
  | .tvar _ => true
  | .tvarB _ _ => true
  | _ => false
/-- What may bound a type variable. -/
def bound {C : Type} : Hint C → Bool
  | .any => true
  | .cls _ => true
  | .gen _ _ _ => true
  | .tgen _ _ _ => true
  | _ => false

mutual
/-- Hints built from classes and generics. -/
def ClassHint {C : Type} [DecidableEq C] (H : Hier C) : Hint C → Bool
  | .any => true
  | .none => true
  | .cls _ => true
  | .tvar _ => true
  | .gen _ o args => decide (o ≠ H.noneType) && ClassHints H args
  | .tgen _ o args => decide (o ≠ H.noneType) && ClassHints H args
  | .union _ args => ClassHints H args
  | .unionT _ args => ClassHints H args
  | .annotated _ h => inner h && ClassHint H h
  | .tvarB _ h => bound h && ClassHint H h
  | _ => false
/-- All hints of a list. -/
def ClassHints {C : Type} [DecidableEq C] (H : Hier C) : List (Hint C) → Bool
  | [] => true
  | h :: hs => ClassHint H h && ClassHints H hs
end

/-- A hint that is itself a class, a generic class, a type variable, `Any`, or one of these under
`Annotated`: what the first argument of `lenient_issubclass` must be for the answer not to be a
plain `False`. -/
def IsClass {C : Type} : Hint C → Prop
  | .any => True
  | .cls _ => True
  | .tdict _ _ _ => True
  | .gen _ _ _ => True
  | .tvar _ => True
  | .tvarB _ _ => True
  | .annotated _ _ => True
  | _ => False

/-- The subclass relation between ordinary classes never raises and is a preorder. -/
structure LawfulHier {C : Type} (H : Hier C) : Prop where
  total : ∀ c d, ∃ b, H.issub c d = .ok b
  refl : ∀ c, H.issub c c = .ok true
  /-- `type(None)` cannot be subclassed -/
  final : ∀ c, H.issub c H.noneType = .ok true → c = H.noneType
  trans : ∀ c d e, H.issub c d = .ok true → H.issub d e = .ok true → H.issub c e = .ok true

mutual
/-- Every object inside the hint is the one that the heap holds at its identity: within one heap,
two hints that are the same object are equal. -/
def InHeap {C : Type} (heap : Nat → Hint C) : Hint C → Prop
  | .gen i o args => heap i = .gen i o args ∧ InHeaps heap args
  | .tgen i o args => heap i = .tgen i o args ∧ InHeaps heap args
  | .union i args => heap i = .union i args ∧ InHeaps heap args
  | .unionT i args => heap i = .unionT i args ∧ InHeaps heap args
  | .annotated i h => heap i = .annotated i h ∧ InHeap heap h
  | .tvarB i h => heap i = .tvarB i h ∧ InHeap heap h
  | .tvar i => heap i = .tvar i
  | .literal i items => heap i = .literal i items
  | .tdict i name fields => heap i = .tdict i name fields
  | _ => True
def InHeaps {C : Type} (heap : Nat → Hint C) : List (Hint C) → Prop
  | [] => True
  | h :: hs => InHeap heap h ∧ InHeaps heap hs
end

end Spec
end Arti
