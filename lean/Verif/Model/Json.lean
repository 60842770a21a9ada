import Verif.Model.Partitions

/-!
# JSON

What `json.dumps` and `json.loads` of the standard library (used in
`io/json_stringliteral_python.py`, `io/json_localfile_python.py` and `artifacts/__init__.py`) and
pydantic's `model_dump_json` (used in `internal/models.py:148-150`) do, from their documentation.
A float is its `repr`, which is assumed to read back as the same float.
-/

namespace Arti

/-- A JSON document. -/
inductive Json
  | null
  | bool (b : Bool)
  | int (i : Int)
  /-- a float, by its text -/
  | flt (text : Str)
  | str (s : Str)
  | arr (items : List Json)
  | obj (items : List (Str × Json))

namespace Json

/-! ## Writing -/

/-- The four hexadecimal digits of a number below 65536. -/
def hex4 (n : Nat) : Str :=
  [digitChar (n / 4096 % 16), digitChar (n / 256 % 16), digitChar (n / 16 % 16), digitChar (n % 16)]

/-- The escapes that all writers share. -/
def escShort (c : Char) : Option Str :=
  if c = '"' then some ['\\', '"']
  else if c = '\\' then some ['\\', '\\']
  else if c = '\n' then some ['\\', 'n']
  else if c = '\r' then some ['\\', 'r']
  else if c = '\t' then some ['\\', 't']
  else if c = '\x08' then some ['\\', 'b']
  else if c = '\x0c' then some ['\\', 'f']
  else none

/-- The first of the two surrogates of a character above `0xFFFF`. -/
def hiSur (c : Char) : Nat := 55296 + (c.toNat - 65536) / 1024

/-- The second of the two surrogates of a character above `0xFFFF`. -/
def loSur (c : Char) : Nat := 56320 + (c.toNat - 65536) % 1024

/-- `json.dumps` with `ensure_ascii=True`: everything outside of `' '..'~'` is escaped, as a pair of
surrogates above `0xFFFF`. -/
def escAscii (c : Char) : Str :=
  match escShort c with
  | some s => s
  | none =>
    if 32 ≤ c.toNat ∧ c.toNat ≤ 126 then [c]
    else if c.toNat < 65536 then '\\' :: 'u' :: hex4 c.toNat
    else '\\' :: 'u' :: hex4 (hiSur c) ++ '\\' :: 'u' :: hex4 (loSur c)

/-- pydantic: only control characters are escaped. -/
def escCtrl (c : Char) : Str :=
  match escShort c with
  | some s => s
  | none => if c.toNat < 32 then '\\' :: 'u' :: hex4 c.toNat else [c]

/-- The layout of a writer: the text after `,` and `:`, and the escapes. -/
structure Style where
  pad : Str
  esc : Char → Str

/-- `json.dumps` -/
def python : Style := ⟨[' '], escAscii⟩
/-- `model_dump_json` -/
def compact : Style := ⟨[], escCtrl⟩

def writeStr (st : Style) (s : Str) : Str := '"' :: s.flatMap st.esc ++ ['"']

mutual
/-- A document as text. -/
def write (st : Style) : Json → Str
  | .null => "null".toList
  | .bool true => "true".toList
  | .bool false => "false".toList
  | .int i => intToStr i
  | .flt t => t
  | .str s => writeStr st s
  | .arr items => '[' :: writeItems st true items
  | .obj items => '{' :: writeFields st true items
/-- The items of an array from some item on, with the closing bracket. -/
def writeItems (st : Style) : Bool → List Json → Str
  | _, [] => [']']
  | first, j :: js =>
    (if first then [] else ',' :: st.pad) ++ (write st j ++ writeItems st false js)
/-- The items of an object from some item on, with the closing brace. -/
def writeFields (st : Style) : Bool → List (Str × Json) → Str
  | _, [] => ['}']
  | first, (k, j) :: js =>
    (if first then [] else ',' :: st.pad) ++
      (writeStr st k ++ (':' :: st.pad ++ (write st j ++ writeFields st false js)))
end

/-! ## Reading -/

def skipWs : Str → Str
  | ' ' :: s => skipWs s
  | s => s

def readHex4 : Str → Option (Nat × Str)
  | a :: b :: c :: d :: s => do
    let a ← Part.digitVal a
    let b ← Part.digitVal b
    let c ← Part.digitVal c
    let d ← Part.digitVal d
    some (a * 4096 + b * 256 + c * 16 + d, s)
  | _ => none

/-- After `\u`: one character, which may be two surrogates.  Python reads a lone surrogate as a
character that Lean does not have. -/
def readU (s : Str) : Option (Char × Str) :=
  match readHex4 s with
  | none => none
  | some (n, s1) =>
    if 55296 ≤ n ∧ n < 56320 then
      match s1 with
      | '\\' :: 'u' :: s2 =>
        match readHex4 s2 with
        | some (m, s3) =>
          if 56320 ≤ m ∧ m < 57344 then some (Char.ofNat (65536 + (n - 55296) * 1024 + (m - 56320)), s3)
          else none
        | none => none
      | _ => none
    else if 56320 ≤ n ∧ n < 57344 then none
    else some (Char.ofNat n, s1)

/-- One character of a string; control characters must be escaped. -/
def readChar : Str → Option (Char × Str)
  | '\\' :: '"' :: s => some ('"', s)
  | '\\' :: '\\' :: s => some ('\\', s)
  | '\\' :: '/' :: s => some ('/', s)
  | '\\' :: 'n' :: s => some ('\n', s)
  | '\\' :: 'r' :: s => some ('\r', s)
  | '\\' :: 't' :: s => some ('\t', s)
  | '\\' :: 'b' :: s => some ('\x08', s)
  | '\\' :: 'f' :: s => some ('\x0c', s)
  | '\\' :: 'u' :: s => readU s
  | c :: s => if c = '\\' ∨ c = '"' ∨ c.toNat < 32 then none else some (c, s)
  | [] => none

/-- The rest of a string, after the opening quote. -/
def readStr : Nat → Str → Option (Str × Str)
  | 0, _ => none
  | fuel + 1, s =>
    match s with
    | '"' :: r => some ([], r)
    | s =>
      match readChar s with
      | none => none
      | some (c, r) =>
        match readStr fuel r with
        | none => none
        | some (cs, r') => some (c :: cs, r')

def isNumChar (c : Char) : Bool :=
  c.isDigit || c = '-' || c = '+' || c = '.' || c = 'e' || c = 'E'

/-- A number: the longest run of number characters; an int if it is all digits after the sign. -/
def readNum (s : Str) : Option (Json × Str) :=
  let t := s.takeWhile isNumChar
  let r := s.dropWhile isNumChar
  match t with
  | [] => none
  | c :: ds =>
    let digits := if c = '-' then ds else t
    if digits = [] then none
    else match Part.digitsVal 10 0 digits with
      | some n => some (.int (if c = '-' then -(n : Int) else n), r)
      | none => some (.flt t, r)

mutual
/-- A value; `fuel` bounds the recursion. -/
def read : Nat → Str → Option (Json × Str)
  | 0, _ => none
  | fuel + 1, s =>
    match skipWs s with
    | 'n' :: 'u' :: 'l' :: 'l' :: r => some (.null, r)
    | 't' :: 'r' :: 'u' :: 'e' :: r => some (.bool true, r)
    | 'f' :: 'a' :: 'l' :: 's' :: 'e' :: r => some (.bool false, r)
    | 'N' :: 'a' :: 'N' :: r => some (.flt "NaN".toList, r)
    | 'I' :: 'n' :: 'f' :: 'i' :: 'n' :: 'i' :: 't' :: 'y' :: r => some (.flt "Infinity".toList, r)
    | '-' :: 'I' :: 'n' :: 'f' :: 'i' :: 'n' :: 'i' :: 't' :: 'y' :: r =>
      some (.flt "-Infinity".toList, r)
    | '"' :: r => (readStr (r.length + 1) r).map fun (t, r') => (.str t, r')
    | '[' :: r =>
      match skipWs r with
      | ']' :: r' => some (.arr [], r')
      | _ => (readItems fuel r).map fun (js, r') => (.arr js, r')
    | '{' :: r =>
      match skipWs r with
      | '}' :: r' => some (.obj [], r')
      | _ => (readFields fuel r).map fun (js, r') => (.obj js, r')
    | s' => readNum s'
/-- One or more items and the closing bracket. -/
def readItems : Nat → Str → Option (List Json × Str)
  | 0, _ => none
  | fuel + 1, s =>
    match read fuel s with
    | none => none
    | some (j, r) =>
      match skipWs r with
      | ']' :: r' => some ([j], r')
      | ',' :: r' => (readItems fuel r').map fun (js, r'') => (j :: js, r'')
      | _ => none
/-- One or more fields and the closing brace. -/
def readFields : Nat → Str → Option (List (Str × Json) × Str)
  | 0, _ => none
  | fuel + 1, s =>
    match skipWs s with
    | '"' :: r =>
      match readStr (r.length + 1) r with
      | none => none
      | some (k, r1) =>
        match skipWs r1 with
        | ':' :: r2 =>
          match read fuel r2 with
          | none => none
          | some (j, r3) =>
            match skipWs r3 with
            | '}' :: r4 => some ([(k, j)], r4)
            | ',' :: r4 => (readFields fuel r4).map fun (js, r5) => ((k, j) :: js, r5)
            | _ => none
        | _ => none
    | _ => none
end

/-- `json.loads`; the fuel is always enough. -/
def loads (s : Str) : Option Json :=
  match read (s.length + 1) s with
  | some (j, r) => if skipWs r = [] then some j else none
  | none => none

end Json
end Arti
