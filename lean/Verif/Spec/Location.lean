import Verif.Spec.Template
import Verif.Props.Partitions

/-! # Templates whose placeholders can be told apart in a path -/

namespace Arti.Spec
open PyDict Props

/-- The characters that a rendered component or fingerprint consists of. -/
def componentChars : List Char := "-0123456789abcdefxNon".toList

/-- What follows a placeholder cannot occur in a rendered component. -/
def delimited : List Tok → Bool
  | [] => true
  | .ch _ :: r => delimited r
  | .fld _ :: r =>
    (match r with
      | [] => true
      | .ch c :: _ => !componentChars.contains c
      | .fld _ :: _ => false) && delimited r

/-- The template has a placeholder for this component of this key, as in `{key.component}`,
`{key.component:02}` or `{key.component[3]}`. -/
def mentions (T : List Tok) (key comp : Str) : Bool :=
  T.any fun
    | .ch _ => false
    | .fld f => f.first == key &&
        f.accs.filter (fun | .attr _ => true | .idx _ => false) == [.attr comp]

/-- Every key has components in the template that identify its value. -/
def Identified (kt : KeyTypes) (T : List Tok) : Prop :=
  ∀ k cls, (k, cls) ∈ kt → ∃ names ∈ identifying cls, ∀ c ∈ names, mentions T k c.toList = true

/-- A partition key with the names and field classes of `kt`. -/
structure Conforms (kt : KeyTypes) (pk : PKey) : Prop where
  nodup : (keys pk).Nodup
  same : ∀ k, k ∈ keys pk ↔ k ∈ keys kt
  cls : ∀ k v, (k, v) ∈ pk → get? kt k = some v.cls
  valid : ∀ k v, (k, v) ∈ pk → ValidField v

end Arti.Spec
