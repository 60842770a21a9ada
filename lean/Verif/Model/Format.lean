import Verif.Model.Utils

/-!
# Format strings (`src/arti/storage/_internal.py:15-120` and Python's `string.Formatter`)

A format string is parsed into tokens: literal characters and replacement fields.  The model
covers fields `{first.attr[index]...:spec}`; conversions (`!r`), fields nested in a format spec
and brackets containing a colon give `Err.unsupported`.  Python parses lazily, so with several
errors in one string it may report another one than the model (both raise).
-/

namespace Arti

/-- An attribute or index access in a replacement field. -/
inductive Acc
  | attr (name : Str)
  | idx (key : Str)
  deriving DecidableEq, Repr

/-- A replacement field: first name, accesses and format spec. -/
structure Fld where
  first : Str
  accs : List Acc
  spec : Str
  deriving DecidableEq, Repr

/-- A literal character or a replacement field. -/
inductive Tok
  | ch (c : Char)
  | fld (f : Fld)
  deriving DecidableEq, Repr

namespace Fmt

/-- ASCII digits only. -/
def isDigits (s : Str) : Bool := !s.isEmpty && s.all Char.isDigit

/-- Parser state for the accesses that follow the first name of a field. -/
inductive AccState
  | start
  | attr (acc : Str)
  | idx (acc : Str)

/-- `_string.formatter_field_name_split`: the accesses after the first name. -/
def parseAccs : AccState → Str → Except Err (List Acc)
  | .start, [] => .ok []
  | .start, c :: r =>
    if c = '.' then parseAccs (.attr []) r
    else if c = '[' then parseAccs (.idx []) r
    else .error .valueError
  | .attr acc, [] => if acc.isEmpty then .error .valueError else .ok [.attr acc]
  | .attr acc, c :: r =>
    if c = '.' then
      if acc.isEmpty then .error .valueError else (parseAccs (.attr []) r).map (.attr acc :: ·)
    else if c = '[' then
      if acc.isEmpty then .error .valueError else (parseAccs (.idx []) r).map (.attr acc :: ·)
    else parseAccs (.attr (acc ++ [c])) r
  | .idx _, [] => .error .unsupported
  | .idx acc, c :: r =>
    if c = ']' then
      if acc.isEmpty then .error .valueError else (parseAccs .start r).map (.idx acc :: ·)
    else parseAccs (.idx (acc ++ [c])) r

/-- The part of a string before the first character satisfying `p`, and the rest from it. -/
def breakOn (p : Char → Bool) : Str → Str × Str
  | [] => ([], [])
  | c :: r => if p c then ([], c :: r) else ((c :: (breakOn p r).1), (breakOn p r).2)

/-- The content of `{...}`. -/
def parseField (content : Str) : Except Err Fld :=
  let (name, rest) := breakOn (· = ':') content
  let spec := rest.drop 1
  if name.contains '!' then .error .unsupported
  else
    let (first, tail) := breakOn (fun c => c = '.' || c = '[') name
    (parseAccs .start tail).map (fun accs => ⟨first, accs, spec⟩)

/-- `string.Formatter().parse(s)`; `none` is literal text, `some acc` the inside of a field. -/
def parseGo : Option Str → Str → Except Err (List Tok)
  | none, [] => .ok []
  | none, '{' :: '{' :: r => (parseGo none r).map (.ch '{' :: ·)
  | none, '}' :: '}' :: r => (parseGo none r).map (.ch '}' :: ·)
  | none, c :: r =>
    if c = '{' then parseGo (some []) r
    else if c = '}' then .error .valueError
    else (parseGo none r).map (.ch c :: ·)
  | some _, [] => .error .valueError
  | some acc, c :: r =>
    if c = '}' then
      match parseField acc with
      | .ok f => (parseGo none r).map (.fld f :: ·)
      | .error e => .error e
    else if c = '{' then .error .unsupported
    else parseGo (some (acc ++ [c])) r

/-- `string.Formatter().parse(s)`. -/
def parse (s : Str) : Except Err (List Tok) := parseGo none s

/-- `string.Formatter().vformat(s, (), mapping)`, where `get` is the formatted text of a field.
A field without a name or with a number refers to the (empty) positional arguments. -/
def render (get : Fld → Except Err Str) : List Tok → Except Err Str
  | [] => .ok []
  | .ch c :: r => (render get r).map (c :: ·)
  | .fld f :: r =>
    if f.first.isEmpty || isDigits f.first then .error .indexError
    else match get f with
      | .ok s => (render get r).map (s ++ ·)
      | .error e => .error e

/-- `str(int(key))` for a numeric index. -/
def normIdx (k : Str) : Str :=
  if isDigits k then (match k.dropWhile (· = '0') with | [] => ['0'] | r => r) else k

/-- The text that `FormatPlaceholder.__getattr__`/`__getitem__` append (`_internal.py:27-33`). -/
def printAcc : Acc → Str
  | .attr a => '.' :: a
  | .idx k => '[' :: normIdx k ++ [']']

/-- An attribute that `FormatPlaceholder.__getattr__` never sees, because it exists on the object
(`_key` and dunder names); the model rejects every name with a leading underscore. -/
def accOk : Acc → Bool
  | .attr ('_' :: _) => false
  | _ => true

/-- `FormatPlaceholder` (`storage/_internal.py:20-33`): prints the field back. -/
def placeholderText (f : Fld) : Except Err Str :=
  if f.accs.all accOk then
    .ok ('{' :: f.first ++ (f.accs.map printAcc).flatten
      ++ (if f.spec.isEmpty then [] else ':' :: f.spec) ++ ['}'])
  else .error .unsupported

/-- `StripIndexPlaceholder` (`storage/_internal.py:38-40`): the same without indexes. -/
def stripText (f : Fld) : Except Err Str :=
  placeholderText { f with accs := f.accs.filter (fun | .attr _ => true | .idx _ => false) }

/-- The component names of partition fields (`partitions/__init__.py:83-97,117-119`); a `str` has
none of these attributes. -/
def componentNames : List Str :=
  ["value".toList, "Y".toList, "m".toList, "d".toList, "iso".toList, "hex".toList]

/-- `partial_format(spec, **values)` (`storage/_internal.py:105-106`).  Values are strings;
accessing a partition component of a string raises, other accesses into a value and format specs
for it are not modelled. -/
def partialFormat (values : PyDict Str Str) (spec : Str) : Except Err Str := do
  let toks ← parse spec
  render (fun f =>
    match PyDict.get? values f.first with
    | some v =>
      if f.accs.isEmpty && f.spec.isEmpty then .ok v
      else match f.accs with
        | .attr a :: _ =>
          if componentNames.contains a then .error .attributeError else .error .unsupported
        | _ => .error .unsupported
    | none => placeholderText f) toks

/-- `strip_partition_indexes(spec)` (`storage/_internal.py:110-111`). -/
def stripPartitionIndexes (spec : Str) : Except Err Str := do
  let toks ← parse spec
  render stripText toks

/-- Whether `pat` is a prefix of `s`, and the rest if so. -/
def dropPrefix? : Str → Str → Option Str
  | [], s => some s
  | _ :: _, [] => none
  | p :: ps, c :: cs => if p = c then dropPrefix? ps cs else none

/-- `pat in s`. -/
def isInfix (pat : Str) : Str → Bool
  | [] => pat.isEmpty
  | c :: cs => (dropPrefix? pat (c :: cs)).isSome || isInfix pat cs

/-- `s.replace(pat, new)` for a non-empty pattern; `skip` counts the characters of the current
match that are still to be dropped. -/
def replaceGo (pat new : Str) : Nat → Str → Str
  | _, [] => []
  | skip + 1, _ :: cs => replaceGo pat new skip cs
  | 0, c :: cs =>
    if (dropPrefix? pat (c :: cs)).isSome then new ++ replaceGo pat new (pat.length - 1) cs
    else c :: replaceGo pat new 0 cs

/-- `s.replace(pat, new)`. -/
def replaceAll (pat new s : Str) : Str := replaceGo pat new 0 s

/-- `s.rstrip(c)`. -/
def rstrip (c : Char) (s : Str) : Str := (s.reverse.dropWhile (· = c)).reverse

end Fmt
end Arti
