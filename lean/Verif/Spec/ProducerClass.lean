import Verif.Model.ProducerClass
import Mathlib.Data.List.Forall2

/-!
# Accepted producer classes: specification
-/

namespace Arti.Spec
open PyDict PCls

variable {H : Type}

/-- The names that stand for the class or the instance in methods. -/
def IsOwner (n : Str) : Prop := n = "cls".toList ∨ n = "self".toList

/-- A parameter that can be passed by keyword and must be passed, with a type hint. -/
def Keyword (p : Param H) : Prop :=
  p.hint.isSome ∧ p.hasDefault = false ∧ (p.kind = .posOrKw ∨ p.kind = .kwOnly)

/-- The names of the parameters of a map function. -/
def mapNames : MapAttr H → List Str
  | .user f => f.params.map (·.name)
  | .gen names => names

/-- A parameter of `validate_outputs` to which a value of the given hint can be passed by position:
it has no default, and its hint, if there is one, includes the given one. -/
def TakesOutput (env : Hints H) (p : Param H) (out : H) : Prop :=
  p.hasDefault = false ∧ (p.kind = .posOnly ∨ p.kind = .posOrKw) ∧
    ∀ h, p.hint = some h → env.sub out h = true

/-- The partitioning scheme of an output: the class of the partition field of each name. -/
def scheme (env : Hints H) (v : Vw H) (n : Str) : Option Nat :=
  (v.fields.bind fun fs => get? fs n).bind env.fieldClass

/-- The output is partitioned. -/
def Partitioned (v : Vw H) : Prop := ∃ fs n, v.fields = some fs ∧ n ∈ keys fs

/-- The parameters that are not the class or the instance. -/
def unowned (ps : List (Param H)) : List (Param H) :=
  ps.filter fun p => !(decide (p.name = "cls".toList) || decide (p.name = "self".toList))

/-- The attribute `map` can be called with partitions of the fields. -/
def MapFits (env : Hints H) (fields : List Str) : MapAttr H → Prop
  | .user g => g.bound = true ∧ ∀ p ∈ g.params, ¬ IsOwner p.name →
      p.name ∈ fields ∧ Keyword p ∧ p.hint = some env.partitions
  | .gen names => ∀ n ∈ names, ¬ IsOwner n → n ∈ fields ∧ n ≠ "kwargs".toList

/-- The classes that can be producers: every field is a required artifact; `build` is a classmethod
or staticmethod whose parameters are fields that are passed by keyword with a hint that has a view
of the artifact of the field; every output can be written and all have one partitioning scheme;
`validate_outputs` takes the outputs; `map` takes partitions of fields, and may only be missing if
there is nothing to map; every field is used. -/
structure IsProducer (env : Hints H) (a : Attrs H) : Prop where
  fields : ∀ n fd, (n, fd) ∈ a.fields →
    env.optional fd.hint = false ∧ fd.required = true ∧ env.isArtifact fd.hint = true
  build : ∃ f r outs, a.build = some f ∧ f.bound = true ∧ f.ret = some r ∧
    (∀ p ∈ f.params, ¬ IsOwner p.name → Keyword p ∧ ∃ fd h v, (p.name, fd) ∈ a.fields ∧
      p.hint = some h ∧ env.readView h fd.hint = .ok v ∧ v.cls = fd.hint) ∧
    (∀ h, env.tuple r = [h] → env.isNone h = false) ∧
    List.Forall₂ (fun h v => env.writeView h = .ok v) (env.tuple r) outs ∧ outs ≠ [] ∧
    (∀ v ∈ outs, ∀ fs, v.fields = some fs → ∀ nt ∈ fs, (env.fieldClass nt.2).isSome) ∧
    (∀ v ∈ outs, ∀ w ∈ outs, ∀ n, scheme env v n = scheme env w n) ∧
    (List.Forall₂ (TakesOutput env) (unowned a.validate.params) (env.tuple r) ∨
      ∃ p, unowned a.validate.params = [p] ∧ p.kind = .varPos ∧
        ∀ out ∈ env.tuple r, ∀ ph, p.hint = some ph → env.sub out ph = true) ∧
    (∀ m, a.map = some m → MapFits env (keys a.fields) m) ∧
    (a.map = none → (∀ v ∈ outs, ¬ Partitioned v) ∧
      ∀ p ∈ f.params, p.name ≠ "kwargs".toList) ∧
    ∀ n ∈ keys a.fields, ¬ IsOwner n ∧
      (n ∈ f.params.map (·.name) ∨ ∃ m, a.map = some m ∧ n ∈ mapNames m)

/-- The class of a producer instance in the model of executions is the given class: the same input
names, and the attribute `map` is what is called. -/
def Implements {κ D : Type} (env : Env κ D) (p : Pdr) (c : Cls H)
    (user : Fn H → List (Str × List (PSnap κ)) → Except Err (List (κ × List (Str × List (PSnap κ))))) :
    Prop :=
  ∃ d m, c.derived = some d ∧ c.attrs.map = some m ∧
    keys (World.cls env p).buildInputs = keys d.buildInputs ∧
    (World.cls env p).mapInputs = d.mapInputs ∧
    (World.cls env p).map = callMap env.npKey user m

end Arti.Spec
