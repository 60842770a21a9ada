import Verif.Model.Gcs
import Verif.Spec.Discovery

/-! # Specification: partitions in Google Cloud Storage -/

namespace Arti.Spec
open PyDict Props Stg

/-- A bucket without placeholders: not empty, and without separators, braces and wildcards. -/
structure PlainBucket (b : Str) : Prop where
  nonempty : b ≠ []
  chars : ∀ c ∈ b, c ∉ ['/', '{', '}', '*', '?', '[']

/-- The template of an object below a bucket. -/
def inBucket (b : Str) (T : List Tok) : List Tok := b.map .ch ++ sepTok :: T

/-- A partition of the storage: the key has the declared names and classes, the fingerprint is a
64-bit number, and `path` is where `generate_partition` puts it, in the bucket of the storage. -/
structure GcsPartitionAt (kt : KeyTypes) (b : Str) (T : List Tok) (fp : Option Fp) (pk : PKey)
    (path : Str) : Prop where
  conforms : Conforms kt pk
  range : ∀ w, fp = some w → Int64Range w
  path : genGcs ⟨b, print T, some kt⟩ fp pk = .ok ⟨fp, pk, b, path⟩

/-- What identifies the content of an object: its MD5, or its CRC32C if there is none. -/
def Checksum (i : GcsInfo) (c : Str) : Prop :=
  i.md5 = some c ∨ (i.md5 = none ∧ i.crc32c = c)

/-- A path that is above another one. -/
def Above (d path : Str) : Prop := ∃ r, path = d ++ '/' :: r

end Arti.Spec
