import Verif.Model.Views
import Verif.Spec.PythonTypes

/-!
# Specification: annotations of views
-/

namespace Arti
namespace Spec
open Typ TH Views

/-- The view classes, artifact classes and `Type`s inside `Annotated[...]`. -/
def viewItems (ann : Ann) : List ViewCls := ann.items.filterMap Item.view?
def artItems (ann : Ann) : List ArtCls := ann.items.filterMap Item.art?
def typeItems (ann : Ann) : List Ty := ann.items.filterMap Item.type?

/-- The view class that an annotation stands for: the one that it names, else the one registered
for its hint, else the one registered for the origin of its hint (eg: `list` for `list[int]`). -/
inductive ClassOf (reg : Registry) (ann : Ann) (v : ViewCls) : Prop
  | named (h : viewItems ann = [v])
  | registered (h : viewItems ann = []) (hr : find reg (hintKey ann.hint) = some v)
  | origin (h : viewItems ann = []) (hn : find reg (hintKey ann.hint) = none)
      (hr : find reg (originKey ann.hint) = some v)

/-- The artifact class: the one that the annotation names, else the default of the view class. -/
inductive ArtOf (ann : Ann) (v : ViewCls) (a : ArtCls) : Prop
  | named (h : artItems ann = [a])
  | default (h : artItems ann = []) (ha : a = v.artifactClass)

/-- The type: the one that the annotation names, else the default of the artifact class, else the
one that the hint stands for. -/
inductive TypeOf (ids : Ids) (ann : Ann) (a : ArtCls) (t : Ty) : Prop
  | named (h : typeItems ann = [t])
  | default (h : typeItems ann = []) (ha : a.dflt = some t)
  | inferred (h : typeItems ann = []) (ha : a.dflt = none) (ht : pyToArtigraph ids ann.hint = .ok t)

/-- The Python representation of the type, or its class, is an instance of the hint. -/
def Represents (v : ViewCls) (t : Ty) (hint : PyHint) : Prop :=
  ∃ sys, v.toSystem t = .ok sys ∧
    (lenient PyCls.hier sys hint = .ok true ∨
      lenient PyCls.hier sys hint = .ok false ∧
        lenient PyCls.hier (.cls (metaOf sys)) hint = .ok true)

mutual
/-- The names of the fields of every struct are distinct, as in any mapping. -/
def DistinctNames : Ty → Prop
  | .enum _ t _ _ => DistinctNames t
  | .list e _ => DistinctNames e
  | .set e _ => DistinctNames e
  | .map k v _ => DistinctNames k ∧ DistinctNames v
  | .struct _ fs _ => (fs.map Prod.fst).Nodup ∧ DistinctNamesF fs
  | .collection _ e _ _ _ => DistinctNames e
  | _ => True
def DistinctNamesF : List (Str × Ty) → Prop
  | [] => True
  | (_, t) :: fs => DistinctNames t ∧ DistinctNamesF fs
end

/-- There is no struct inside the type. -/
def NoStruct : Ty → Prop
  | .list e _ => NoStruct e
  | .set e _ => NoStruct e
  | .map k v _ => NoStruct k ∧ NoStruct v
  | .struct _ _ _ => False
  | .collection _ e _ _ _ => NoStruct e
  | _ => True

/-- The types whose hint has a view of its own: dates, `Int64`, `Float64`, strings, nulls,
timestamps, lists and maps, none of them nullable. -/
def HasView : Ty → Prop
  | .scalar s m => s ∈ [.date, .int64, .float64, .string, .null] ∧ m.nullable = false
  | .timestamp _ m => m.nullable = false
  | .list _ m => m.nullable = false
  | .map _ _ m => m.nullable = false
  | _ => False

/-- The hint is the usual way to write the type: `list[...]` and `dict[..., ...]` are new objects
each time they are written, while `typing` caches `Optional[...]` and `Literal[...]`. -/
def WrittenAs (ids : Ids) : Ty → PyHint → Prop
  | .list e m, h =>
      if m.nullable then pyToSystem ids (.list e m) = .ok h
      else ∃ i a, h = .gen i .list [a] ∧ WrittenAs ids e a
  | .set e m, h =>
      if m.nullable then pyToSystem ids (.set e m) = .ok h
      else ∃ i a, h = .gen i .set [a] ∧ WrittenAs ids e a
  | .map k v m, h =>
      if m.nullable then pyToSystem ids (.map k v m) = .ok h
      else ∃ i a b, h = .gen i .dict [a, b] ∧ WrittenAs ids k a ∧ WrittenAs ids v b
  | t, h => pyToSystem ids t = .ok h

end Spec
end Arti
