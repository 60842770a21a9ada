import Verif.Model.Storage

/-!
# Files in Google Cloud Storage (`src/arti/storage/google/cloud/storage.py`)

`gcsfs` is modelled from its documentation (gcsfs and fsspec 2024.6.1): the objects are an association
list from `bucket/path` to their metadata.
-/

namespace Arti
namespace Stg
open Fmt Part

/-- `GCSFile(bucket=..., path=...)` (`storage/google/cloud/storage.py:19-42`) with its `_key_types`. -/
structure GcsStorage where
  bucket : Str
  path : Str
  keyTypes : Option KeyTypes
  deriving DecidableEq, Repr

/-- `GCSFilePartition` (`storage/google/cloud/storage.py:28-33`). -/
structure GcsPartition where
  inputFp : Option Fp
  key : PKey
  bucket : Str
  path : Str
  deriving DecidableEq, Repr

/-- `qualified_path` (`storage/google/cloud/storage.py:23-25`). -/
def GcsPartition.qualified (p : GcsPartition) : Str := p.bucket ++ sep :: p.path

/-- The checksums of an object; composite objects have no MD5. -/
structure GcsInfo where
  md5 : Option Str
  crc32c : Str
  deriving DecidableEq, Repr

/-- `GCSFile.generate_partition` (`storage/__init__.py:193-222`): both fields are formatted. -/
def genGcs (st : GcsStorage) (fp : Option Fp) (pk : PKey) : Except Err GcsPartition := do
  let kwargs ← genKwargs st.keyTypes [st.bucket, st.path] fp pk
  let bucket ← genField kwargs st.bucket
  let path ← genField kwargs st.path
  .ok ⟨fp, pk, bucket, path⟩

/-- The paths above a path: what precedes one of its separators. -/
def parents : Str → Str → List Str
  | _, [] => []
  | pre, c :: cs => if c = sep then pre :: parents (pre ++ [c]) cs else parents (pre ++ [c]) cs

/-- The pseudo directories of the objects. -/
def gcsDirs (objects : PyDict Str GcsInfo) : List Str :=
  (PyDict.keys objects).flatMap (parents [])

/-- `GCSFilePartition.compute_content_fingerprint` and `snapshot`
(`storage/google/cloud/storage.py:29-33`).  The metadata of a pseudo directory has no checksum. -/
def snapGcs (hash : Str → Fp) (objects : PyDict Str GcsInfo) (p : GcsPartition) :
    Except Err (Snap GcsPartition) :=
  match PyDict.get? objects p.qualified with
  | some info => .ok ⟨hash (info.md5.getD info.crc32c), p⟩
  | none => if p.qualified ∈ gcsDirs objects then .error .keyError else .error .fileNotFound

/-- `generate_partition(...).snapshot()` for each match (`storage/google/cloud/storage.py:56-63`); the
pairs of bucket and path in the dictionary are as distinct as the paths. -/
def snapAllGcs (hash : Str → Fp) (objects : PyDict Str GcsInfo) (st : GcsStorage) :
    List (Option Fp × PKey) → Except Err (List (Snap GcsPartition))
  | [] => .ok []
  | (fp, pk) :: rest => do
    let p ← genGcs st fp pk
    let s ← snapGcs hash objects p
    let ss ← snapAllGcs hash objects st rest
    .ok (s :: ss)

/-- The pattern of `GCSFileSystem().glob`: `*` does not match a separator, and where it is all of a
segment it does not match the empty text.  `?`, `[` and `**` are not modelled. -/
def gcsMatch : Bool → Str → Str → Bool
  | _, [], s => s.isEmpty
  | start, '*' :: ps, s =>
    !(start && (ps.isEmpty || ps.head? == some sep) && (s.isEmpty || s.head? == some sep)) &&
      starMatch (gcsMatch false ps) s
  | _, _ :: _, [] => false
  | _, p :: ps, c :: cs => p == c && gcsMatch (p == sep) ps cs

/-- `GCSFileSystem().glob(wildcard)`: the objects and pseudo directories that match, each once (an
object may also be a directory).  Buckets with placeholders, which would need to list buckets, are not
modelled.  The order is left open. -/
def gcsGlob (wildcard : Str) (objects : PyDict Str GcsInfo) : Except Err (List Str) :=
  if '*' ∈ wildcard.takeWhile (· ≠ sep) || isInfix ['*', '*'] wildcard then .error .unsupported
  else .ok ((PyDict.keys objects ++
      ((gcsDirs objects).filter fun d => d ∉ PyDict.keys objects).eraseDups).filter
    (gcsMatch true wildcard))

/-- `GCSFile.discover_partitions` (`storage/google/cloud/storage.py:44-63`). -/
def discoverGcs (hash : Str → Fp) (objects : PyDict Str GcsInfo) (st : GcsStorage)
    (ifps : InputFps) : Except Err (List (Snap GcsPartition)) :=
  match st.keyTypes with
  | none => .error .valueError
  | some kt => do
    let spec := st.bucket ++ sep :: st.path
    let wildcard ← specToWildcard spec kt
    let paths ← gcsGlob wildcard objects
    let toks ← parse spec
    let ms ← parseSpec toks kt ifps paths
    snapAllGcs hash objects st ms

/-- `GCSFile.path` unless it is given (`storage/google/cloud/storage.py:37-45`). -/
def gcsDefaultPath : Str :=
  "{graph_name}/{path_tags}/{names}/{partition_key_spec}/{input_fingerprint}/{name}.{extension}".toList

end Stg
end Arti
