import Verif.Model.World

/-!
# Specification: the contents that fingerprints are made of
-/

namespace Arti.Spec
variable {κ D : Type}

/-- The content fingerprints of all partitions of a dependency mapping. -/
def depContents (deps : List (Str × List (PSnap κ))) : List Fp :=
  deps.flatMap fun x => x.2.map PSnap.contentFp

/-- All fingerprints are signed 64-bit integers. -/
structure FpRanges (env : Env κ D) : Prop where
  str : ∀ s, -9223372036854775808 ≤ env.strHash s ∧ env.strHash s ≤ 9223372036854775807
  ver : ∀ s, -9223372036854775808 ≤ env.versionFp s ∧ env.versionFp s ≤ 9223372036854775807
  node : ∀ n, -9223372036854775808 ≤ env.nodeFp n ∧ env.nodeFp n ≤ 9223372036854775807
  graph : ∀ g, -9223372036854775808 ≤ env.graphFp g ∧ env.graphFp g ≤ 9223372036854775807
  snap : ∀ s, -9223372036854775808 ≤ env.snapFp s ∧ env.snapFp s ≤ 9223372036854775807

/-- The raw artifacts of a graph. -/
def rawInfos (g : Graph) : List ArtInfo :=
  g.arts.filterMap fun x => match x.2 with | .raw i => some i | .made _ _ _ => none

end Arti.Spec
