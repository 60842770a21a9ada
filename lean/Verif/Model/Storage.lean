import Verif.Model.Format
import Verif.Model.Partitions

/-!
# Storage (`src/arti/storage/__init__.py`, `storage/_internal.py`, `storage/local.py`,
`storage/literal.py`)

A storage is its string fields plus its partition key types.  `LocalFile` has the single field
`path`; `StringLiteral` has `id` and the optional `value`.  The file system is an association
list from paths to contents.
-/

namespace Arti
namespace Stg
open Fmt Part

/-- `segment_sep = os.sep` (`storage/__init__.py:80`) on POSIX. -/
def sep : Char := '/'

/-- The placeholder name and text of the input fingerprint. -/
def ifpName : Str := "input_fingerprint".toList
def ifpTmpl : Str := "{input_fingerprint}".toList

/-! ## Resolving templates -/

/-- The loop of `_resolve_field` (`storage/__init__.py:225-234`): drop the placeholders whose
value is empty, each with the separator that follows it. -/
def trimEmpty (spec : Str) : List (Str × Str) → Except Err Str
  | [] => .ok spec
  | (name, value) :: rest =>
    if value.isEmpty then
      let trim := '{' :: name ++ ['}']
      let trim := if isInfix (trim ++ [sep]) spec then trim ++ [sep] else trim
      let spec := rstrip sep (replaceAll trim [] spec)
      if spec.isEmpty then .error .valueError else trimEmpty spec rest
    else trimEmpty spec rest

/-- `_resolve_field` (`storage/__init__.py:224-235`) of one string field. -/
def resolveField (values : List (Str × Str)) (spec : Str) : Except Err Str := do
  let spec ← trimEmpty spec values
  partialFormat values spec

/-- `_visit_type` (`storage/__init__.py:124-138`): the value of `partition_key_spec`. -/
def partitionKeySpec (kt : KeyTypes) : Str :=
  let specs : PyDict Str Str := PyDict.ofItems (kt.flatMap fun (name, cls) =>
    (defaultComponents cls).map fun (cn, cs) =>
      (name ++ '_' :: cn, '{' :: name ++ '.' :: cs ++ ['}']))
  joinWith [sep] (specs.map fun (name, spec) => name ++ '=' :: spec)

/-- `_visit_names` (`storage/__init__.py:156-157`). -/
def namesValues (names : List Str) : List (Str × Str) :=
  [("name".toList, names.getLastD []), ("names".toList, joinWith [sep] names)]

/-- `_visit_graph` (`storage/__init__.py:143-149`). -/
def graphValues (graphName : Str) (pathTags : PyDict Str Str) : List (Str × Str) :=
  [("graph_name".toList, graphName),
   ("path_tags".toList, joinWith [sep] (pathTags.map fun (t, v) => t ++ '=' :: v))]

/-- `_visit_format` (`storage/__init__.py:140-141`). -/
def formatValues (extension : Str) : List (Str × Str) := [("extension".toList, extension)]

/-- `_visit_type` (`storage/__init__.py:134-138`). -/
def typeValues (kt : KeyTypes) : List (Str × Str) :=
  [("partition_key_spec".toList, partitionKeySpec kt)]

/-- `_visit_input_fingerprint` (`storage/__init__.py:151-154`). -/
def ifpValues (fp : Option Fp) : List (Str × Str) :=
  [(ifpName, match fp with | none => [] | some f => intToStr f)]

/-! ## Generating partitions -/

/-- A keyword argument of `str.format` in `generate_partition`. -/
inductive FVal
  | field (v : FieldVal)
  | str (s : Str)

/-- `format(component, spec)`: an `int` with no spec or a zero-padded width; the rest is not
modelled. -/
def formatComp (v : CompVal) (spec : Str) : Except Err Str :=
  match spec, v with
  | [], .int i => .ok (intToStr i)
  | [], .text s => .ok s
  | '0' :: w, .int i =>
    match digitsVal 10 0 w with
    | some w =>
      .ok (match i with
        | .ofNat n => padNat w n
        | .negSucc n => '-' :: padNat (w - 1) (n + 1))
    | none => .error .unsupported
  | _, _ => .error .unsupported

/-- One field of `str.format(**kwargs)`. -/
def formatFld (kwargs : PyDict Str FVal) (f : Fld) : Except Err Str :=
  match PyDict.get? kwargs f.first with
  | none => .error .keyError
  | some (.str s) => if f.accs.isEmpty && f.spec.isEmpty then .ok s else .error .unsupported
  | some (.field v) =>
    match f.accs with
    | [.attr c] =>
      match component v c with
      | some cv => formatComp cv f.spec
      | none => .error .attributeError
    | _ => .error .unsupported

/-- `spec.format(**kwargs)`. -/
def strFormat (kwargs : PyDict Str FVal) (spec : Str) : Except Err Str := do
  let toks ← parse spec
  render (formatFld kwargs) toks

/-- `_check_key` (`storage/__init__.py:180-185`). -/
def checkKey (kt : KeyTypes) (key : PKey) : Except Err Unit :=
  if !kt.isEmpty && key.isEmpty then .error .valueError
  else if !key.isEmpty && kt.isEmpty then .error .valueError
  else .ok ()

/-- The keyword arguments that `generate_partition` formats with, after its checks
(`storage/__init__.py:199-207`); `fields` are the string fields of the storage. -/
def genKwargs (kt : Option KeyTypes) (fields : List Str) (fp : Option Fp) (pk : PKey) :
    Except Err (PyDict Str FVal) :=
  match kt with
  | none => .error .valueError
  | some kt =>
    match checkKey kt pk with
    | .error e => .error e
    | .ok _ =>
      let base : PyDict Str FVal := pk.map fun (k, v) => (k, .field v)
      let includes := fields.any (isInfix ifpTmpl)
      match fp with
      | none => if includes then .error .valueError else .ok base
      | some fp =>
        if includes then .ok (PyDict.set base ifpName (.str (intToStr fp)))
        else .error .valueError

/-- The value of one string field of the generated partition (`storage/__init__.py:208-216`). -/
def genField (kwargs : PyDict Str FVal) (original : Str) : Except Err Str := do
  let s ← stripPartitionIndexes original
  strFormat kwargs s

/-- `LocalFile(path=...)` (`storage/local.py:32-45`) with its `_key_types`. -/
structure FileStorage where
  path : Str
  keyTypes : Option KeyTypes
  deriving DecidableEq, Repr

/-- `LocalFilePartition` (`storage/local.py:19-28`). -/
structure FilePartition where
  inputFp : Option Fp
  key : PKey
  path : Str
  deriving DecidableEq, Repr

/-- `LocalFile.generate_partition` (`storage/__init__.py:193-222`). -/
def genFile (st : FileStorage) (fp : Option Fp) (pk : PKey) : Except Err FilePartition := do
  let kwargs ← genKwargs st.keyTypes [st.path] fp pk
  let path ← genField kwargs st.path
  .ok ⟨fp, pk, path⟩

/-- `StringLiteral(id=..., value=...)` (`storage/literal.py:26-30`). -/
structure LitStorage where
  id : Str
  value : Option Str
  keyTypes : Option KeyTypes
  deriving DecidableEq, Repr

/-- `StringLiteralPartition` (`storage/literal.py:15-23`). -/
structure LitPartition where
  inputFp : Option Fp
  key : PKey
  id : Str
  value : Option Str
  deriving DecidableEq, Repr

/-- `StringLiteral.generate_partition` (`storage/__init__.py:193-222`): both string fields are
formatted, also the value. -/
def genLit (st : LitStorage) (fp : Option Fp) (pk : PKey) : Except Err LitPartition := do
  let kwargs ← genKwargs st.keyTypes (st.id :: st.value.toList) fp pk
  let id ← genField kwargs st.id
  match st.value with
  | none => .ok ⟨fp, pk, id, none⟩
  | some v => do
    let v ← genField kwargs v
    .ok ⟨fp, pk, id, some v⟩

/-! ## Discovering partitions -/

/-- `WildcardPlaceholder` (`storage/_internal.py:43-85`) for one field, formatted with its spec.
`str.__format__` and `int.__format__` of a hard coded index with a spec are not modelled. -/
def wildcardFld (kt : KeyTypes) (f : Fld) : Except Err Str :=
  match PyDict.get? kt f.first with
  | none => .error .valueError
  | some cls =>
    match f.accs with
    | [] => if f.spec.isEmpty then .error .valueError else .error .typeError
    | .idx _ :: _ => .error .valueError
    | .attr c :: rest =>
      if (components cls).contains c then
        match rest with
        | [] => if f.spec.isEmpty then .ok ['*'] else .error .typeError
        | [.idx k] => if f.spec.isEmpty then .ok (normIdx k) else .error .unsupported
        | .attr _ :: _ => .error .valueError
        | _ => .error .unsupported
      else .error .attributeError

/-- `spec_to_wildcard` (`storage/_internal.py:114-119`). -/
def specToWildcard (spec : Str) (kt : KeyTypes) : Except Err Str := do
  let toks ← parse (replaceAll ifpTmpl ['*'] spec)
  render (wildcardFld kt) toks

/-- `*` in a glob pattern: any run of characters other than the separator. -/
def starMatch (k : Str → Bool) : Str → Bool
  | [] => k []
  | c :: cs => k (c :: cs) || (c ≠ sep && starMatch k cs)

/-- `glob.glob(pattern)` on a set of existing paths: `*` does not match a separator, and at the
start of a segment it does not match a leading dot.  `?` and `[` are not modelled. -/
def globMatch : Bool → Str → Str → Bool
  | _, [], s => s.isEmpty
  | start, '*' :: ps, s => !(start && s.head? == some '.') && starMatch (globMatch false ps) s
  | _, _ :: _, [] => false
  | _, p :: ps, c :: cs => p == c && globMatch (p == sep) ps cs

/-- A lazy group of the `parse` library: the shortest non-empty prefix for which the rest
matches. -/
def lazyFld {R : Type} (k : Str → Str → Option R) : Str → Str → Option R
  | _, [] => none
  | pre, c :: cs =>
    match k (pre ++ [c]) cs with
    | some r => some r
    | none => lazyFld k (pre ++ [c]) cs

/-- The name of a field in the `parse` library: `first.attr` or `first.attr[index]`.  Other accesses
and format specs are not modelled. -/
def fldName (f : Fld) : Option Str :=
  match f.accs, f.spec with
  | [], [] => some f.first
  | [.attr c], [] => some (f.first ++ '.' :: c)
  | [.attr c, .idx i], [] => some (f.first ++ '.' :: c ++ '[' :: i ++ [']'])
  | _, _ => none

/-- `parse.compile(spec, case_sensitive=True).parse(path)`: an anchored regular expression in
which the first occurrence of a field is a lazy group (`.+?`) and a repeated field must match the
same text again.  `env` are the fields bound so far, in order. -/
def lazyMatch : List Tok → PyDict Str Str → Str → Option (PyDict Str Str)
  | [], env, [] => some env
  | [], _, _ :: _ => none
  | .ch _ :: _, _, [] => none
  | .ch p :: ps, env, c :: cs => if p = c then lazyMatch ps env cs else none
  | .fld f :: ps, env, s =>
    match fldName f with
    | none => none
    | some n =>
      match PyDict.get? env n with
      | some v =>
        match dropPrefix? v s with
        | some rest => lazyMatch ps env rest
        | none => none
      | none => lazyFld (fun pre rest => lazyMatch ps (PyDict.set env n pre) rest) [] s

/-- A name with an index, `base[index]`. -/
def indexed (n : Str) : Option (Str × Str) :=
  if '[' ∈ n then
    some (n.takeWhile (· ≠ '['), ((n.dropWhile (· ≠ '[')).drop 1).takeWhile (· ≠ ']'))
  else none

/-- `parsed_value.named`: the `parse` library turns the text of a field `base[index]` into a dictionary
`{index: text}` at `base`; the flag tells that the value is such a dictionary, of which only the first
key is kept, since `extract_placeholders` uses `next(iter(v))` (`storage/_internal.py:143-146`).  A
text at the same name cannot be assigned to. -/
def expandNamed : List (Str × Str) → PyDict Str (Bool × Str) → Except Err (PyDict Str (Bool × Str))
  | [], acc => .ok acc
  | (n, v) :: rest, acc =>
    match indexed n with
    | none => expandNamed rest (PyDict.set acc n (false, v))
    | some (base, index) =>
      match PyDict.get? acc base with
      | none => expandNamed rest (PyDict.set acc base (true, index))
      | some (true, _) => expandNamed rest acc
      | some (false, _) => .error .typeError

/-- The texts that `extract_placeholders` uses for the names. -/
def expand (named : List (Str × Str)) : Except Err (List (Str × Str)) :=
  (expandNamed named []).map fun d => d.map fun (n, v) => (n, v.2)

/-- The loop over `parsed_value.named` in `extract_placeholders` (`storage/_internal.py:136-147`):
the fingerprint, the components per key, and the loop variable `key` as it is left behind. -/
def collect : List (Str × Str) → Option Fp → PyDict Str (PyDict Str Str) → Option Str →
    Except Err (Option Fp × PyDict Str (PyDict Str Str) × Option Str)
  | [], fp, fc, last => .ok (fp, fc, last)
  | (k, v) :: rest, fp, fc, last =>
    if k = ifpName then
      match pyInt 10 v with
      | .error e => .error e
      | .ok i =>
        match fpFromInt i with
        | .error e => .error e
        | .ok fp => collect rest (some fp) fc last
    else match splitOn '.' k with
      | [key, comp] =>
        let cs := (PyDict.get? fc key).getD []
        collect rest fp (PyDict.set fc key (PyDict.set cs comp v)) (some key)
      | _ => .error .valueError

/-- The dict comprehension of `extract_placeholders` (`storage/_internal.py:149-153`): every
field is parsed with the class of the *last* key of the loop above. -/
def buildKey (kt : KeyTypes) (last : Option Str) :
    PyDict Str (PyDict Str Str) → Except Err PKey
  | [] => .ok []
  | (name, cs) :: rest =>
    match last with
    | none => .error .unsupported
    | some key =>
      match PyDict.get? kt key with
      | none => .error .keyError
      | some cls =>
        match fromComponents cls cs with
        | .error e => .error e
        | .ok v => (buildKey kt last rest).map ((name, v) :: ·)

/-- `extract_placeholders` (`storage/_internal.py:122-158`) on the named groups of a match. -/
def extractPlaceholders (kt : KeyTypes) (named : List (Str × Str)) :
    Except Err (Option Fp × PKey) :=
  match collect named none [] none with
  | .error e => .error e
  | .ok (fp, fc, last) =>
    match buildKey kt last fc with
    | .error e => .error e
    | .ok pk =>
      if sameSet (PyDict.keys pk) (PyDict.keys kt) then .ok (fp, pk) else .error .valueError

/-- `parse_spec` (`storage/_internal.py:161-183`) over the globbed paths. -/
def parseSpec (toks : List Tok) (kt : KeyTypes) (ifps : InputFps) :
    List Str → Except Err (List (Option Fp × PKey))
  | [] => .ok []
  | path :: rest =>
    match lazyMatch toks [] path with
    | none => .error .valueError
    | some named =>
      match expand named >>= extractPlaceholders kt with
      | .error e => .error e
      | .ok (fp, pk) =>
        match parseSpec toks kt ifps rest with
        | .error e => .error e
        | .ok ms => .ok (if (ifpGet ifps pk).join = fp then (fp, pk) :: ms else ms)

/-- A `StoragePartitionSnapshot` of a partition (`storage/__init__.py:47-60`). -/
structure Snap (P : Type) where
  contentFp : Fp
  partition : P
  deriving DecidableEq, Repr

/-- `LocalFilePartition.compute_content_fingerprint` and `snapshot` (`storage/local.py:22-28`,
`storage/__init__.py:36-39`); `hash` stands for SHA-256 followed by farmhash. -/
def snapFile {β : Type} (hash : β → Fp) (files : PyDict Str β) (p : FilePartition) :
    Except Err (Snap FilePartition) :=
  match PyDict.get? files p.path with
  | some content => .ok ⟨hash content, p⟩
  | none => .error .fileNotFound

/-- `generate_partition(...).snapshot()` for each match (`storage/local.py:53-58`). -/
def snapAll {β : Type} (hash : β → Fp) (files : PyDict Str β) (st : FileStorage) :
    List (Option Fp × PKey) → Except Err (List (Snap FilePartition))
  | [] => .ok []
  | (fp, pk) :: rest => do
    let p ← genFile st fp pk
    let s ← snapFile hash files p
    let ss ← snapAll hash files st rest
    .ok (s :: ss)

/-- `LocalFile.discover_partitions` (`storage/local.py:47-58`).  The order of the result is the
iteration order of a set, here the order of `files`. -/
def discoverFile {β : Type} (hash : β → Fp) (files : PyDict Str β) (st : FileStorage)
    (ifps : InputFps) : Except Err (List (Snap FilePartition)) :=
  match st.keyTypes with
  | none => .error .valueError
  | some kt => do
    let wildcard ← specToWildcard st.path kt
    let toks ← parse st.path
    let ms ← parseSpec toks kt ifps ((PyDict.keys files).filter (globMatch true wildcard))
    snapAll hash files st ms

/-- `compute_content_fingerprint` of a path that may be a directory, which cannot be opened
(`storage/local.py:22-28`). -/
def snapEntry {β : Type} (hash : β → Fp) (files : PyDict Str β) (dirs : List Str)
    (p : FilePartition) : Except Err (Snap FilePartition) :=
  if p.path ∈ dirs then .error .isADirectory else snapFile hash files p

/-- `generate_partition(...).snapshot()` for each match, with directories. -/
def snapEntries {β : Type} (hash : β → Fp) (files : PyDict Str β) (dirs : List Str)
    (st : FileStorage) : List (Option Fp × PKey) → Except Err (List (Snap FilePartition))
  | [] => .ok []
  | (fp, pk) :: rest => do
    let p ← genFile st fp pk
    let s ← snapEntry hash files dirs p
    let ss ← snapEntries hash files dirs st rest
    .ok (s :: ss)

/-- `LocalFile.discover_partitions` (`storage/local.py:47-58`) where there are also directories:
`glob` returns those that match, like files.  `discoverFile` is the case without directories. -/
def discoverTree {β : Type} (hash : β → Fp) (files : PyDict Str β) (dirs : List Str)
    (st : FileStorage) (ifps : InputFps) : Except Err (List (Snap FilePartition)) :=
  match st.keyTypes with
  | none => .error .valueError
  | some kt => do
    let wildcard ← specToWildcard st.path kt
    let toks ← parse st.path
    let ms ← parseSpec toks kt ifps
      ((PyDict.keys files ++ dirs).filter (globMatch true wildcard))
    snapEntries hash files dirs st ms

/-- `StringLiteralPartition.compute_content_fingerprint` (`storage/literal.py:20-23`). -/
def snapLit (hash : Str → Fp) (p : LitPartition) : Except Err (Snap LitPartition) :=
  match p.value with
  | none => .error .fileNotFound
  | some v => .ok ⟨hash v, p⟩

/-- The generator at the end of `StringLiteral.discover_partitions`. -/
def snapAllLit (hash : Str → Fp) (st : LitStorage) :
    List (PKey × Option Fp) → Except Err (List (Snap LitPartition))
  | [] => .ok []
  | (pk, fp) :: rest => do
    let p ← genLit st fp pk
    let s ← snapLit hash p
    let ss ← snapAllLit hash st rest
    .ok (s :: ss)

/-- `StringLiteral.discover_partitions` (`storage/literal.py:31-52`). -/
def discoverLit (hash : Str → Fp) (st : LitStorage) (ifps : InputFps) :
    Except Err (List (Snap LitPartition)) :=
  if !ifps.isEmpty && st.value.isSome then .error .valueError
  else match st.keyTypes with
    | none => .error .valueError
    | some kt =>
      if !kt.isEmpty && ifps.isEmpty then .error .valueError
      else if st.value.isNone then .ok []
      else snapAllLit hash st (if ifps.isEmpty then [([], none)] else ifps)

end Stg
end Arti
