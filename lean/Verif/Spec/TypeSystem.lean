import Verif.Model.Types

/-!
# Specification: which adapter a conversion must use
-/

namespace Arti
namespace Spec
open Typ
variable {X Y : Type}

/-- Of the adapters in registration order, `a` is the one to use for `x`: it matches, those
registered before it that match have a lower priority, and those registered after it that match do
not have a higher one. -/
def Winner (as : List (Adapter X Y)) (x : X) (h : Hints) (a : Adapter X Y) : Prop :=
  ∃ before after, as = before ++ a :: after ∧ a.accepts x h = .ok true ∧
    (∀ b ∈ before, b.accepts x h = .ok true → b.priority < a.priority) ∧
    (∀ b ∈ after, b.accepts x h = .ok true → b.priority ≤ a.priority)

/-- Every adapter says whether it matches (none of them raises). -/
def Decided (as : List (Adapter X Y)) (x : X) (h : Hints) : Prop :=
  ∀ a ∈ as, ∃ b, a.accepts x h = .ok b

/-- The adapters of a system, in registration order. -/
def adaptersOf : TypeSystem X Y → List (Adapter X Y)
  | .mk _ adapters _ => adapters.map Prod.snd

/-- The systems that a system extends. -/
def extendsOf : TypeSystem X Y → List (TypeSystem X Y)
  | .mk _ _ ext => ext

/-- `ts'` is `ts`, or a system that it extends, directly or not. -/
inductive Within : TypeSystem X Y → TypeSystem X Y → Prop
  | refl (ts) : Within ts ts
  | ext {ts ts' ts''} : ts' ∈ extendsOf ts → Within ts'' ts' → Within ts'' ts

/-- Some adapter of the system, or of a system it extends, matches. -/
def MatchesAnywhere (ts : TypeSystem X Y) (x : X) (h : Hints) : Prop :=
  ∃ ts', Within ts' ts ∧ ∃ a ∈ adaptersOf ts', a.accepts x h = .ok true

end Spec
end Arti
