import Verif.Model.Lifecycle
import Verif.Spec.Template
import Mathlib.Data.List.Forall2

/-!
# Assigning artifacts to graphs: specification
-/

namespace Arti.Spec
open Life

mutual
/-- The value `a` is at the path in what is assigned: the value itself at the empty path, or a value
in a (nested) mapping at the path that its dotted keys make. -/
inductive Inp.Has {α : Type} : Inp α → List Str → α → Prop
  | raw (a : α) : Inp.Has (.raw a) [] a
  | map {items : InpItems α} {p : List Str} {a : α} : InpItems.Has items p a →
      Inp.Has (.map items) p a
inductive InpItems.Has {α : Type} : InpItems α → List Str → α → Prop
  | here {k : Str} {v : Inp α} {rest : InpItems α} {p : List Str} {a : α} : Inp.Has v p a →
      InpItems.Has (.cons k v rest) (splitOn '.' k ++ p) a
  | there {k : Str} {v : Inp α} {rest : InpItems α} {p : List Str} {a : α} : InpItems.Has rest p a →
      InpItems.Has (.cons k v rest) p a
end

/-- The operation assigns the value to the path: `box["a.b"] = v`, `box.a = {"b": v}`, ... -/
def Assigns {α : Type} : Box.Op α → List Str → α → Prop
  | .setItem key v, path, a | .setAttr key v, path, a =>
    ∃ p, path = splitOn '.' key ++ p ∧ Inp.Has v p a
  | _, _, _ => False

/-- The string fields of a storage. -/
def fields : Sto → List Str
  | .file t => [t.text]
  | .lit t v => t.text :: v.toList

/-- The placeholder of the input fingerprint is in a field of the storage. -/
def HasFpTemplate (s : Sto) : Prop := ∃ f ∈ fields s, "{input_fingerprint}".toList <:+: f

/-- Two storages of the same class that differ in the string fields only. -/
def SameSto : Sto → Sto → Prop
  | .file t, .file t' => ({ t with text := [] } : Tmpl) = { t' with text := [] }
  | .lit t v, .lit t' v' => ({ t with text := [] } : Tmpl) = { t' with text := [] } ∧ v.isSome = v'.isSome
  | _, _ => False

/-- Everything else of the artifacts is the same: the producer and its output position, and the
other fields. -/
def SameArtifact (a b : Art) : Prop :=
  a.out = b.out ∧ a.info.desc = b.info.desc ∧ a.info.partitioned = b.info.partitioned ∧
    SameSto a.info.sto b.info.sto

/-- What is put in for the placeholders of an artifact at a path of a graph: the name of the graph,
its tags as `tag=value` joined by `/`, the last name and all names of the path joined by `/`; and
nothing for the input fingerprint if the artifact is not produced. -/
def placeholderValues (graph : Str) (tags : PyDict Str Str) (path : List Str) (raw : Bool) :
    List (PyDict Str Str) :=
  [[("graph_name".toList, graph),
    ("path_tags".toList, joinWith ['/'] (tags.map fun (t, v) => t ++ '=' :: v))],
   [("name".toList, path.getLastD []), ("names".toList, joinWith ['/'] path)]] ++
  (if raw then [[("input_fingerprint".toList, [])]] else [])

/-- The artifact `a` is `a0` with these values put in its storage. -/
def PlacedAs (values : List (PyDict Str Str)) (a0 a : Art) : Prop :=
  SameArtifact a0 a ∧
    List.Forall₂ (fun f0 f => resolveAll f0 values = .ok f) (fields a0.info.sto) (fields a.info.sto)

end Arti.Spec
