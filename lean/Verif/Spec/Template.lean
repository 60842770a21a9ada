import Verif.Model.Storage

/-!
# Templates

A template is a text with placeholders like `{date.Y[2021]:04}`.  Here it is given by its parts,
and `print` is how it is written.  Brace escapes and conversions are left out.
-/

namespace Arti.Spec

/-- A placeholder as it is written. -/
def printAcc : Acc → Str
  | .attr a => '.' :: a
  | .idx k => '[' :: k ++ [']']

/-- The inside of the braces of a placeholder. -/
def printBody (f : Fld) : Str :=
  f.first ++ (f.accs.map printAcc).flatten ++ (if f.spec = [] then [] else ':' :: f.spec)

def printFld (f : Fld) : Str := '{' :: printBody f ++ ['}']

def printTok : Tok → Str
  | .ch c => [c]
  | .fld f => printFld f

/-- A template as it is written. -/
def print (T : List Tok) : Str := (T.map printTok).flatten

/-- A name that can be the first part of a placeholder: not a number, none of `. [ { } : !`. -/
def nameOk (s : Str) : Bool :=
  !s.isEmpty && !Fmt.isDigits s && s.all fun c => !(['.', '[', '{', '}', ':', '!'].contains c)

/-- An access.  Attributes do not start with an underscore; numeric indexes have no leading
zeros. -/
def accOk : Acc → Bool
  | .attr a => !a.isEmpty && a.head? != some '_' &&
      a.all fun c => !(['.', '[', '{', '}', ':', '!'].contains c)
  | .idx k => !k.isEmpty && Fmt.normIdx k == k && k.all fun c => !([']', '{', '}', ':', '!'].contains c)

def fldOk (f : Fld) : Bool :=
  nameOk f.first && f.accs.all accOk && f.spec.all fun c => !(['{', '}'].contains c)

def tokOk : Tok → Bool
  | .ch c => c != '{' && c != '}'
  | .fld f => fldOk f

/-- Templates without brace escapes and conversions. -/
def tmplOk (T : List Tok) : Bool := T.all tokOk

/-- The placeholder `{name}`. -/
def plain (name : Str) : Fld := ⟨name, [], []⟩

/-- The template text with the given values for some placeholders and all others as they are. -/
def fillText (values : PyDict Str Str) (T : List Tok) : Str :=
  (T.map fun
    | .ch c => [c]
    | .fld f => (PyDict.get? values f.first).getD (printFld f)).flatten

/-- The placeholders of the template that have a value are plain. -/
def plainIn (names : List Str) (T : List Tok) : Bool :=
  T.all fun
    | .ch _ => true
    | .fld f => !names.contains f.first || (f.accs.isEmpty && f.spec.isEmpty)

/-- The template mentions none of the names. -/
def avoids (names : List Str) (T : List Tok) : Bool :=
  T.all fun
    | .ch _ => true
    | .fld f => !names.contains f.first

/-! ## Resolving templates -/

/-- The path separator as part of a template. -/
def sepTok : Tok := .ch '/'

/-- No two separators next to each other. -/
def noDoubleSep : List Tok → Bool
  | [] => true
  | [_] => true
  | a :: b :: r => !(a == sepTok && b == sepTok) && noDoubleSep (b :: r)

/-- How often a placeholder of that name occurs. -/
def occurrences (name : Str) (T : List Tok) : Nat :=
  (T.filter fun
    | .ch _ => false
    | .fld f => f.first == name).length

/-- A template in which the given names occur as plain placeholders and at most once. -/
def resolvable (names : List Str) (T : List Tok) : Bool :=
  tmplOk T && noDoubleSep T && plainIn names T && names.all fun n => occurrences n T ≤ 1

/-- A value for a placeholder, itself a template: empty, or not starting or ending with a
separator; it mentions none of the names. -/
def valueOk (names : List Str) (U : List Tok) : Bool :=
  tmplOk U && noDoubleSep U && U.head? != some sepTok && U.getLast? != some sepTok && avoids names U

/-- The values as they are written. -/
def texts (vals : PyDict Str (List Tok)) : PyDict Str Str := vals.map fun (n, U) => (n, print U)

/-- Resolving one dictionary of values after the other. -/
def resolveAll (spec : Str) : List (PyDict Str Str) → Except Err Str
  | [] => .ok spec
  | v :: vs => Stg.resolveField v spec >>= fun s => resolveAll s vs

/-- Drop the separators at the end. -/
def dropTrailing (T : List Tok) : List Tok := (T.reverse.dropWhile (· = sepTok)).reverse

/-- Drop the placeholders with the given names, each with the separator that follows it; the flag
tells that a placeholder was just dropped. -/
def dropPlaceholders (names : List Str) : Bool → List Tok → List Tok
  | _, [] => []
  | b, .ch c :: r =>
    if b = true ∧ c = '/' then dropPlaceholders names false r
    else .ch c :: dropPlaceholders names false r
  | _, .fld f :: r =>
    if f.first ∈ names then dropPlaceholders names true r
    else .fld f :: dropPlaceholders names false r

/-- The names whose value is empty, and the values that are not. -/
def emptyNames (vals : PyDict Str (List Tok)) : List Str :=
  PyDict.keys (vals.filter fun p => p.2.isEmpty)
def nonEmpty (vals : PyDict Str (List Tok)) : PyDict Str (List Tok) :=
  vals.filter fun p => !p.2.isEmpty

/-- A template with values put in: placeholders whose value is empty disappear together with the
separator that follows them, and then also the separators at the end; if nothing is left it is an
error; the other placeholders with a value are replaced by it, and those without one stay. -/
def resolved (vals : PyDict Str (List Tok)) (T : List Tok) : Except Err (List Tok) :=
  let T' := if emptyNames vals = [] then T
    else dropTrailing (dropPlaceholders (emptyNames vals) false T)
  if emptyNames vals ≠ [] ∧ T' = [] then .error .valueError
  else .ok (T'.flatMap fun
    | .ch c => [.ch c]
    | .fld f => (PyDict.get? (nonEmpty vals) f.first).getD [.fld f])

/-- The placeholders that storages resolve. -/
def placeholderNames : List Str :=
  ["partition_key_spec".toList, "extension".toList, "graph_name".toList, "path_tags".toList,
    "name".toList, "names".toList, "input_fingerprint".toList]

/-- A path segment: not empty, without separators and braces. -/
def segOk (s : Str) : Bool := !s.isEmpty && s.all fun c => !(['/', '{', '}'].contains c)

/-- A text that can be a value: without braces, empty or not starting or ending with a separator,
no two separators next to each other. -/
def textOk (s : Str) : Bool := valueOk [] (s.map .ch)

/-- A name of a partition key: it can be used in placeholders, has no separator, and is not a
placeholder of the storage itself. -/
def keyNameOk (n : Str) : Bool := nameOk n && !n.contains '/' && !placeholderNames.contains n

end Arti.Spec
