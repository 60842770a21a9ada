import Verif.Model.Out
import Verif.Spec.Placement

/-!
# Producer objects and their outputs: specification
-/

namespace Arti.Spec
open PyDict Views Out

/-- The artifact fits the view: it is an instance of the artifact class of the view, its type is
equal to that of the view, and there is a reader and a writer, if the mode of the view asks for
it. -/
def FitsView (io : Lookup) (v : View) (a : Views.Art) : Prop :=
  a.cls.sub v.art = true ∧ tyEq v.type a.type = true ∧
  (v.mode ≠ .write → io.reader a.type a.fmt a.stor v.cls = .ok ()) ∧
  (v.mode ≠ .read → io.writer v.cls.pythonType a.type a.fmt a.stor v.cls = .ok ())

/-- The artifacts in what `Producer.out` returns. -/
def arts : Ret → List Arti.Art
  | .one a => [a]
  | .tuple as => as

/-- The artifacts `outs` are the artifacts `args` in the same order, the n-th of them as the n-th
output of the producer. -/
def BoundTo (p : Pdr) (args outs : List Arti.Art) : Prop :=
  outs.length = args.length ∧
  ∀ (n : Nat) (a : Arti.Art), args[n]? = some a → ∃ b : Arti.Art, outs[n]? = some b ∧ b.info = a.info ∧ b.out = some (p, n)

/-- The outputs of a producer are all in the graph, each of them once, and there are no other
artifacts that this producer (or one that is equal to it) makes.  Those in the graph have another
storage. -/
structure AllAssigned (g : Graph) (p : Pdr) (outs : List Arti.Art) : Prop where
  all : ∀ b ∈ outs, ∃ k a, (k, a) ∈ g.arts ∧ SameArtifact b a
  only : ∀ k a n, (k, a) ∈ g.arts → a.out = some (p, n) → ∃ b ∈ outs, SameArtifact b a
  once : ∀ b ∈ outs, ∀ k a k' a', (k, a) ∈ g.arts → (k', a') ∈ g.arts → SameArtifact b a →
    SameArtifact b a' → k = k' ∧ a = a'

end Arti.Spec
