import Verif.Model.Decorator
import Verif.Spec.ProducerClass
import Mathlib.Data.List.Forall2

/-!
# Functions that can be decorated: specification
-/

namespace Arti.Spec
open PyDict PCls

variable {H A V : Type}

/-- The names that parameters of a decorated function can have: they are no attribute of producers,
do not begin with an underscore, and are not taken by the decorator's own arguments.  The map that
is generated if none is given cannot have a parameter called `kwargs`. -/
def FreeName (d : DEnv H) (args : DecArgs H A V) (n : Str) : Prop :=
  n.head? ≠ some '_' ∧ d.baseAttr n = false ∧
  n ∉ ["annotations".toList, "version".toList, "build".toList, "validate_outputs".toList] ∧
  (args.map.isSome → n ≠ "map".toList) ∧ (args.map = none → n ≠ "kwargs".toList)

/-- The parameters other than `cls` and `self`. -/
def paramInputs (f : PyFn H) : List (Param H) :=
  f.params.filter fun p => !(decide (p.name = "cls".toList) || decide (p.name = "self".toList))

/-- The function (with the arguments of the decorator) describes a producer: every parameter is an
input that can be passed by keyword and has a view, every output can be written, all outputs have
the same partitioning scheme, `validate_outputs` takes the outputs, and `map` takes some of the
inputs, or there is nothing to map. -/
structure Describes (d : DEnv H) (any : H) (args : DecArgs H A V) (f : PyFn H) : Prop where
  annotations : args.annotations ≠ some []
  params : ∀ p ∈ paramInputs f, FreeName d args p.name ∧ Keyword p ∧
    ∃ h v, p.hint = some h ∧ d.view h = .ok v
  outputs : ∃ r outs, f.ret = some r ∧ outs ≠ [] ∧
    List.Forall₂ (fun h v => d.hints.writeView h = .ok v) (d.hints.tuple r) outs ∧
    (∀ h, d.hints.tuple r = [h] → d.hints.isNone h = false) ∧
    (∀ v ∈ outs, ∀ fs, v.fields = some fs → ∀ nt ∈ fs, (d.hints.fieldClass nt.2).isSome) ∧
    (∀ v ∈ outs, ∀ w ∈ outs, ∀ n, scheme d.hints v n = scheme d.hints w n) ∧
    (args.map = none → ∀ v ∈ outs, ¬ Partitioned v) ∧
    (∀ g, args.validate = some g →
      List.Forall₂ (TakesOutput d.hints) (paramInputs g) (d.hints.tuple r) ∨
        ∃ p, paramInputs g = [p] ∧ p.kind = .varPos ∧
          ∀ out ∈ d.hints.tuple r, ∀ ph, p.hint = some ph → d.hints.sub out ph = true) ∧
    (args.validate = none → ∀ out ∈ d.hints.tuple r, d.hints.sub out any = true)
  map : ∀ g, args.map = some g → ∀ q ∈ paramInputs g, Keyword q ∧
    q.hint = some d.hints.partitions ∧ ∃ p ∈ paramInputs f, p.name = q.name

/-- What is used about the answers to the questions about hints: the artifact class of a view is an
artifact class, asking again with that class as default gives a view of the class again; partition
fields have one type per name; `StoragePartitions` and `StoragePartitionSnapshots` differ. -/
structure Coherent (d : DEnv H) : Prop where
  artifact : ∀ h v, d.view h = .ok v → d.hints.isArtifact v.cls = true ∧
    d.hints.optional v.cls = false
  again : ∀ h v, d.view h = .ok v → d.hints.readView h v.cls = .ok v
  nodup : ∀ h v fs, d.hints.writeView h = .ok v → v.fields = some fs → (keys fs).Nodup
  hints : d.hints.partitions ≠ d.hints.snapshots

end Arti.Spec
