import Verif.Spec.Location

/-!
# Where the files of a partition are by default (C59)

The specification is the path that a user sees, written out segment by segment.
-/

namespace Arti.Spec
open Arti PyDict Part Stg

/-- The directories for one field of a partition key: `date_Y=2021/date_m=01/date_d=09`,
`i_value=5`, `n_value=None`. -/
def fieldSegments (name : Str) : FieldVal → List Str
  | .date y m d => [name ++ "_Y=".toList ++ natToStr 10 y, name ++ "_m=".toList ++ padNat 2 m,
      name ++ "_d=".toList ++ padNat 2 d]
  | .int _ v => [name ++ "_value=".toList ++ intToStr v]
  | .null => [name ++ "_value=None".toList]

/-- The directories for a partition key, in the order in which the type lists its fields. -/
def keySegments (kt : KeyTypes) (pk : PKey) : List Str :=
  (keys kt).flatMap fun n => match get? pk n with
    | some v => fieldSegments n v
    | none => []

/-- The directories for the path tags. -/
def tagSegments (tags : PyDict Str Str) : List Str := tags.map fun (t, v) => t ++ '=' :: v

/-- The segments of a path below a directory. -/
def below (dir : Str) (segments : List Str) : Str := dir ++ segments.flatMap fun s => '/' :: s

/-- The segments of the default location of a partition: the graph, its tags, the keys under which
the artifact is stored in the graph, the partition key, the fingerprint of the inputs if the
artifact has a producer, and a file named like the artifact. -/
def segments (graph : Str) (tags : PyDict Str Str) (names : List Str) (kt : KeyTypes) (pk : PKey)
    (fp : Option Fp) (extension : Str) : List Str :=
  graph :: (tagSegments tags ++ names ++ keySegments kt pk ++ fp.toList.map intToStr ++
    [names.getLastD [] ++ extension])

/-- Names that cannot be taken for something else in a path: the graph and the extension have no
separator, tags no `=`, and keys of artifacts have no `=` and are not written like an integer. -/
structure Distinguishable (graph : Str) (tags : PyDict Str Str) (names : List Str)
    (extension : Str) : Prop where
  graph : '/' ∉ graph
  tags : ∀ t ∈ keys tags, '=' ∉ t
  names : ∀ n ∈ names, '=' ∉ n ∧ ∀ i : Int, n ≠ intToStr i
  extension : '/' ∉ extension

end Arti.Spec
