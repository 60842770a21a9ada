import Verif.Spec.Discovery

/-! # Templates with hard-coded components: `{date.Y[2021]}` -/

namespace Arti.Spec
open PyDict Props Stg Part

/-- The placeholder `{key.component[text]}`. -/
def hard (key comp text : Str) : Fld := ⟨key, [.attr comp, .idx text], []⟩

/-- The template with `{key.component}` for `{key.component[text]}`. -/
def unindexed (T : List Tok) : List Tok := T.map fun
  | .ch c => .ch c
  | .fld f => .fld { f with accs := f.accs.filter fun | .attr _ => true | .idx _ => false }

/-- Paths of the form of a template: a placeholder with a hard-coded component stands for its text,
every other one for some text within one path segment. -/
inductive FitsHard : List Tok → Str → Prop
  | nil : FitsHard [] []
  | ch (c : Char) {T : List Tok} {s : Str} : FitsHard T s → FitsHard (.ch c :: T) (c :: s)
  | hard (k c i : Str) {T : List Tok} {s : Str} : FitsHard T s →
      FitsHard (.fld (hard k c i) :: T) (i ++ s)
  | fld (f : Fld) (t : Str) {T : List Tok} {s : Str} : (∀ k c i, f ≠ Spec.hard k c i) →
      '/' ∉ t → FitsHard T s → FitsHard (.fld f :: T) (t ++ s)

/-- A template that is discoverable without the hard-coded texts; these consist of characters of
rendered components, and a component is hard-coded everywhere in the template or nowhere. -/
structure HardCoded (cls : FieldCls) (kt : KeyTypes) (T : List Tok) : Prop where
  ok : tmplOk T = true
  base : Discoverable cls kt (unindexed T)
  shape : ∀ f, .fld f ∈ T → (∃ k c i, f = hard k c i) ∨ ∀ i, .idx i ∉ f.accs
  chars : ∀ k c i, .fld (hard k c i) ∈ T → ∀ x ∈ i, x ∈ componentChars
  consistent : ∀ k c i, .fld (hard k c i) ∈ T → ∀ f, .fld f ∈ T → f.first = k →
    f.accs.head? = some (.attr c) → f = hard k c i

/-- The key has the hard-coded components. -/
def HasHardCoded (T : List Tok) (pk : PKey) : Prop :=
  ∀ k c i, .fld (hard k c i) ∈ T →
    ∃ v cv, get? pk k = some v ∧ component v c = some cv ∧ formatComp cv [] = .ok i

end Arti.Spec
