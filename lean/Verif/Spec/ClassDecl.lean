import Verif.Model.ClassDecl

/-!
# What class declarations mean

Specification of inheritance and of the use of classes, in terms of the bodies that the program
wrote and of their base classes only.
-/

namespace Arti.Decl
open Arti
variable {Ty Ann : Type}

/-- The body of class `c` sets nothing twice (bodies are Python namespaces). -/
def Body.WF (b : Body Ty Ann) : Prop :=
  (PyDict.keys b.fields).Nodup ∧ (PyDict.keys b.attrs).Nodup

/-- A step of a program whose class bodies are namespaces. -/
def Op.WF : Op Ty Ann → Prop
  | .declare _ b => b.WF
  | .subscript _ _ => True

/-- The first class among `c`, its base, the base of its base, … whose body sets what `get` asks
for sets it to `v`. -/
inductive Nearest {α : Type} (w : Classes Ty Ann) (get : Body Ty Ann → Option α) : Nat → α → Prop
  | own {c : Nat} {k : Cls Ty Ann} {v : α} (hc : w.classes[c]? = some k)
      (hv : get k.body = some v) : Nearest w get c v
  | inherited {c p : Nat} {k : Cls Ty Ann} {v : α} (hc : w.classes[c]? = some k)
      (hv : get k.body = none) (hp : k.parent = some p) (h : Nearest w get p v) :
      Nearest w get c v

/-- `issubclass(c, a)`. -/
inductive Sub (w : Classes Ty Ann) : Nat → Nat → Prop
  | refl {c : Nat} {k : Cls Ty Ann} (hc : w.classes[c]? = some k) : Sub w c c
  | base {c p a : Nat} {k : Cls Ty Ann} (hc : w.classes[c]? = some k) (hp : k.parent = some p)
      (h : Sub w p a) : Sub w c a

/-- The number of the class `PartitionField`. -/
def partitionField : Nat := 1
/-- The number of the class `StoragePartition`. -/
def storagePartition : Nat := 2
/-- The number of the class `Storage`. -/
def storage : Nat := 3

/-- The body of `c` itself says `_abstract_ = True`. -/
def MarkedAbstract (w : Classes Ty Ann) (c : Nat) : Prop :=
  ∃ k, w.classes[c]? = some k ∧ k.body.abstract = some true

/-- The field `n` of `c` has the annotation `a`. -/
def FieldIs (w : Classes Ty Ann) (c : Nat) (n : Str) (a : Ann) : Prop :=
  Nearest w (fun b => PyDict.get? b.fields n) c a

/-- The attribute `n` of `c` is an `a`. -/
def AttrIs (w : Classes Ty Ann) (c : Nat) (n : Str) (a : Attr) : Prop :=
  Nearest w (fun b => PyDict.get? b.attrs n) c a

/-- `c.matching_type` is `t`. -/
def MatchingType (w : Classes Ty Ann) (c : Nat) (t : Ty) : Prop :=
  Nearest w (fun b => b.matching) c t

/-- `c.default_components` is `d`. -/
def DefaultComponents (w : Classes Ty Ann) (c : Nat) (d : PyDict Str Str) : Prop :=
  Nearest w (fun b => b.defaults) c d

/-- `c.storage_partition_type` is `p`. -/
def PartitionType (w : Classes Ty Ann) (c : Nat) (p : Nat) : Prop :=
  Nearest w (fun b => b.partType) c p

/-- `n` is a component of the partition field class `c`. -/
def IsComponent (w : Classes Ty Ann) (c : Nat) (n : Str) : Prop :=
  (∃ a, FieldIs w c n a) ∨ AttrIs w c n .component

/-- The storage class `c` has the fields of the partition class `p`, with the same annotations;
the three fields that every partition has apart. -/
def SameFields (w : Classes Ty Ann) (c p : Nat) : Prop :=
  ∀ n a, FieldIs w c n a ↔ (FieldIs w p n a ∧ n ∉ partitionRootFields)

end Arti.Decl
