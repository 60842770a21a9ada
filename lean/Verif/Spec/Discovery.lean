import Verif.Spec.Location
import Verif.Spec.Ints

/-! # Templates from whose paths the partitions can be recovered -/

namespace Arti.Spec
open PyDict Props Stg

/-- Paths of the form of a template: every placeholder stands for some text within one path
segment. -/
inductive Fits : List Tok → Str → Prop
  | nil : Fits [] []
  | ch (c : Char) {T : List Tok} {s : Str} : Fits T s → Fits (.ch c :: T) (c :: s)
  | fld (f : Fld) (t : Str) {T : List Tok} {s : Str} :
      '/' ∉ t → Fits T s → Fits (.fld f :: T) (t ++ s)

/-- Templates for partition keys of one field class: the placeholders are delimited, they are
the input fingerprint and components of keys, and every key has exactly the components that are
needed to restore it. -/
structure Discoverable (cls : FieldCls) (kt : KeyTypes) (T : List Tok) : Prop where
  ok : tmplOk T = true
  delimited : delimited T = true
  noGlob : ∀ c, .ch c ∈ T → c ∉ ['*', '?', '[']
  oneClass : ∀ k c, (k, c) ∈ kt → c = cls
  noIfp : ifpName ∉ keys kt
  fields : ∀ f, .fld f ∈ T → f = plain ifpName ∨ ∃ k ∈ keys kt, ∃ c, f = ⟨k, [.attr c], []⟩
  identified : ∀ k ∈ keys kt, ∃ names ∈ identifying cls,
    ∀ c, mentions T k c = true ↔ c ∈ names.map String.toList

/-- A partition of the storage: the key has the declared names and classes, the fingerprint is a
64-bit number, and `path` is where `generate_partition` puts it. -/
structure PartitionAt (kt : KeyTypes) (T : List Tok) (fp : Option Fp) (pk : PKey) (path : Str) :
    Prop where
  conforms : Conforms kt pk
  range : ∀ w, fp = some w → Int64Range w
  path : genFile ⟨print T, some kt⟩ fp pk = .ok ⟨fp, pk, path⟩

/-- The fingerprint filter: a partition without a fingerprint is wanted unless a fingerprint is
requested for its key; one with a fingerprint is wanted if it is the one requested. -/
def FpWanted (ifps : InputFps) (pk : PKey) : Option Fp → Prop
  | none => ∀ e ∈ ifps, fdEq e.1 pk = true → e.2 = none
  | some w => ∃ e ∈ ifps, fdEq e.1 pk = true ∧ e.2 = some w

/-- `ifps` as a dict: its keys are dicts, and they differ. -/
structure FpsOk (ifps : InputFps) : Prop where
  nodup : ∀ e ∈ ifps, (keys e.1).Nodup
  distinct : ifps.Pairwise fun e e' => fdEq e.1 e'.1 = false

end Arti.Spec
