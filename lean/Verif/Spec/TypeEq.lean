import Verif.Spec.Views

/-!
# Specification: equal types
-/

namespace Arti
namespace Spec
open Typ TH Views

/-- The value of a literal as far as `==` can tell: booleans are numbers. -/
def litValue : Lit → Lit
  | .bool b => .int (if b then 1 else 0)
  | x => x

/-- The same set of items. -/
def SameItems (i j : List Lit) : Prop := ∀ v, v ∈ i.map litValue ↔ v ∈ j.map litValue

/-- Two types are the same: of the same class, with the same fields, where the items of an enum are
a set and the fields of a struct are a mapping. -/
inductive SameType : Ty → Ty → Prop
  | scalar (s m) : SameType (.scalar s m) (.scalar s m)
  | binary (s m) : SameType (.binary s m) (.binary s m)
  | geography (f s m) : SameType (.geography f s m) (.geography f s m)
  | dateTime (p m) : SameType (.dateTime p m) (.dateTime p m)
  | time (p m) : SameType (.time p m) (.time p m)
  | timestamp (p m) : SameType (.timestamp p m) (.timestamp p m)
  | enum (n m) {t t' : Ty} {i i' : List Lit} (ht : SameType t t') (hi : SameItems i i') :
      SameType (.enum n t i m) (.enum n t' i' m)
  | list (m) {e e' : Ty} (h : SameType e e') : SameType (.list e m) (.list e' m)
  | set (m) {e e' : Ty} (h : SameType e e') : SameType (.set e m) (.set e' m)
  | map (m) {k k' v v' : Ty} (hk : SameType k k') (hv : SameType v v') :
      SameType (.map k v m) (.map k' v' m)
  | struct (n m) {fs gs : List (Str × Ty)} (hn : ∀ k, (∃ t, (k, t) ∈ fs) ↔ ∃ u, (k, u) ∈ gs)
      (ht : ∀ k t u, (k, t) ∈ fs → (k, u) ∈ gs → SameType t u) :
      SameType (.struct n fs m) (.struct n gs m)
  | collection (n p c m) {e e' : Ty} (h : SameType e e') :
      SameType (.collection n e p c m) (.collection n e' p c m)

end Spec
end Arti
