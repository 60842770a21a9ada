import Verif.Model.ArrowTypes

/-!
# The NumPy and pandas type systems (`src/arti/types/numpy.py`, `src/arti/types/pandas.py`)

The libraries are modelled from their documentation (NumPy 2.0, pandas 2.2).  The objects of the two
systems are one type, because the pandas system extends the NumPy one.
-/

namespace Arti
namespace Typ

/-- The NumPy scalar classes with an adapter. -/
inductive NpKind
  | bytes | bool | str
  | float16 | float32 | float64
  | int8 | int16 | int32 | int64
  | uint8 | uint16 | uint32 | uint64
  deriving DecidableEq, Repr

/-- The dtype of a `pd.Series`: a NumPy one, `object`, or another one (categories, extension dtypes,
dates, complex numbers, fixed size bytes). -/
inductive PdDtype
  | np (k : NpKind)
  | object
  | other (n : Nat)
  deriving DecidableEq, Repr

/-- A value in a `pd.Series`, as far as the adapters look at it: an instance of `str`, or not. -/
inductive PdVal
  | str
  | other (n : Nat)
  deriving DecidableEq, Repr

/-- A `pd.Series`. -/
structure PdSeries where
  dtype : PdDtype
  values : List PdVal
  deriving DecidableEq, Repr

/-- What the adapters convert to and from.
* `cls k`: a scalar class, like `np.int64`;
* `dtype k n`: a `np.dtype`; `n` is the item size of `S` and `U` dtypes, and ignored for the others;
* `array k shape`: a `np.ndarray`, `none` for element types without an adapter;
* `other n`: any other class, dtype or value.
The values of arrays and the names of columns that are not strings are left out. -/
inductive PdObj
  | cls (k : NpKind)
  | dtype (k : NpKind) (itemsize : Nat)
  | array (k : Option NpKind) (shape : List Nat)
  | series (s : PdSeries)
  | frame (columns : List (Str × PdSeries))
  | other (n : Nat)
  deriving DecidableEq, Repr

/-- `obj == cls.system` for a scalar class: the class itself, or a dtype that NumPy considers equal
to it (`np.dtype("U5") == np.str_` is false, `np.dtype("U") == np.str_` is true).  The comparison
of an array, series or frame is elementwise, and has no truth value. -/
def npEq (k : NpKind) : PdObj → Except Err Bool
  | .cls k' => .ok (k' = k)
  | .dtype k' n => .ok (k' = k ∧ (k' = .bytes ∨ k' = .str → n = 0))
  | .series _ => .error .valueError
  | .frame _ => .error .valueError
  | .array _ _ => .error .valueError
  | _ => .ok false

/-- `isinstance(type_, np.ndarray)`. -/
def isArray : PdObj → Bool
  | .array _ _ => true
  | _ => false

/-- A generated `_NumpyScalarTypeAdapter`: the key, the artigraph class, the result of calling it, the
NumPy class and the priority. -/
structure NpSimple where
  key : String
  isInstance : Ty → Bool
  make : Ty
  system : NpKind
  priority : Int

/-- The generated adapters (`types/numpy.py:42-63`), in registration order. -/
def npSimples : List NpSimple := [
  ⟨"numpyBinary", isTyBinary, .binary none {}, .bytes, 0⟩,
  ⟨"numpyBoolean", Ty.isScalar .boolean, .scalar .boolean {}, .bool, 0⟩,
  ⟨"numpyString", Ty.isScalar .string, .scalar .string {}, .str, 0⟩,
  ⟨"numpyFloat16", Ty.isScalar .float16, .scalar .float16 {}, .float16, 16⟩,
  ⟨"numpyFloat32", Ty.isScalar .float32, .scalar .float32 {}, .float32, 32⟩,
  ⟨"numpyFloat64", Ty.isScalar .float64, .scalar .float64 {}, .float64, 64⟩,
  ⟨"numpyInt8", Ty.isScalar .int8, .scalar .int8 {}, .int8, 8⟩,
  ⟨"numpyUInt8", Ty.isScalar .uint8, .scalar .uint8 {}, .uint8, 8⟩,
  ⟨"numpyInt16", Ty.isScalar .int16, .scalar .int16 {}, .int16, 16⟩,
  ⟨"numpyUInt16", Ty.isScalar .uint16, .scalar .uint16 {}, .uint16, 16⟩,
  ⟨"numpyInt32", Ty.isScalar .int32, .scalar .int32 {}, .int32, 32⟩,
  ⟨"numpyUInt32", Ty.isScalar .uint32, .scalar .uint32 {}, .uint32, 32⟩,
  ⟨"numpyInt64", Ty.isScalar .int64, .scalar .int64 {}, .int64, 64⟩,
  ⟨"numpyUInt64", Ty.isScalar .uint64, .scalar .uint64 {}, .uint64, 64⟩]

/-! ## `to_system` -/

/-- `_ScalarClassTypeAdapter.to_system` (`types/__init__.py:322-324`). -/
def npSimpleS (a : NpSimple) : Adapter Ty PdObj where
  key := a.key.toList
  priority := a.priority
  accepts t _ := .ok (a.isInstance t)
  convert _ _ _ := .ok (.cls a.system)

/-- The `element` of an instance of `List`. -/
def listElement : Ty → Option Ty
  | .list e _ => some e
  | .collection _ e _ _ _ => some e
  | _ => none

/-- `np.array([value])` (`types/numpy.py:93-95`), where `value` is an array or the zero value of a
scalar class.  Calling anything but a class is an error. -/
def npArray : PdObj → Except Err PdObj
  | .array k shape => .ok (.array k (1 :: shape))
  | .cls k => .ok (.array (some k) [1])
  | _ => .error .typeError

/-- `ArrayAdapter.to_system` (`types/numpy.py:87-95`). -/
def npListS : Adapter Ty PdObj where
  key := "ArrayAdapter".toList
  priority := 0
  accepts t _ := .ok t.isList
  convert root t h :=
    match listElement t with
    | some e => do
      let o ← root e h
      npArray o
    | none => .error .assertion

def npAdaptersS : List (Adapter Ty PdObj) := npSimples.map npSimpleS ++ [npListS]

/-- `numpy_type_system`, towards NumPy. -/
def npSys : TypeSystem Ty PdObj :=
  .mk "numpy".toList (npAdaptersS.map fun a => (a.key, a)) []

/-- `pd.Series([dtype()], dtype=dtype)` (`types/pandas.py:51-52`).  Strings are stored as objects.
How bytes are stored is left open, but it is neither a NumPy dtype that equals `np.bytes_` nor a
`str`.  Arrays, series and frames are not callable. -/
def pdSeries : PdObj → Except Err PdSeries
  | .cls .str => .ok ⟨.object, [.str]⟩
  | .cls .bytes => .ok ⟨.other 0, [.other 0]⟩
  | .cls k => .ok ⟨.np k, [.other 0]⟩
  | _ => .error .typeError

def isStructList (t : Ty) : Bool :=
  match listElement t with
  | some e => e.isStruct
  | none => false

/-- `SeriesAdapter.matches_artigraph` and `to_system` (`types/pandas.py:21-27` and `48-52`). -/
def pdSeriesS : Adapter Ty PdObj where
  key := "SeriesAdapter".toList
  priority := 0
  accepts t _ := .ok (t.isList && !isStructList t)
  convert root t h :=
    match listElement t with
    | some e => do
      let o ← root e h
      let s ← pdSeries o
      return .series s
    | none => .error .assertion

/-- A column of a `pd.DataFrame(...)` that is built from a `dict`; a frame cannot be one. -/
def asColumn : PdObj → Except Err PdSeries
  | .series s => .ok s
  | _ => .error .valueError

/-- The columns of `DataFrameAdapter.to_system` (`types/pandas.py:100-105`): each field is converted as
`List(element=field)`. -/
def pdColumnsS (root : Ty → Hints → Except Err PdObj) (h : Hints) :
    List (Str × Ty) → Except Err (List (Str × PdObj))
  | [] => .ok []
  | (n, t) :: rest => do
    let o ← root (.list t {}) h
    let os ← pdColumnsS root h rest
    return (n, o) :: os

/-- `pd.DataFrame({...})`. -/
def pdFrame : List (Str × PdObj) → Except Err (List (Str × PdSeries))
  | [] => .ok []
  | (n, o) :: rest => do
    let s ← asColumn o
    let ss ← pdFrame rest
    return (n, s) :: ss

/-- `DataFrameAdapter.matches_artigraph` and `to_system` (`types/pandas.py:73-77` and `95-105`). -/
def pdFrameS : Adapter Ty PdObj where
  key := "DataFrameAdapter".toList
  priority := 0
  accepts t _ := .ok (t.isList && isStructList t)
  convert root t h :=
    match listElement t with
    | some (.struct _ fields _) => do
      let os ← pdColumnsS root h fields
      let cs ← pdFrame os
      return .frame cs
    | _ => .error .assertion

def pdAdaptersS : List (Adapter Ty PdObj) := [pdSeriesS, pdFrameS]

/-- `pandas_type_system`, towards pandas (`types/pandas.py:13`). -/
def pdSys : TypeSystem Ty PdObj :=
  .mk "pandas".toList (pdAdaptersS.map fun a => (a.key, a)) [npSys]

/-! ## `to_artigraph` -/

/-- `_NumpyScalarTypeAdapter` (`types/numpy.py:31-39` and `types/__init__.py:313-316`). -/
def npSimpleA (a : NpSimple) : Adapter PdObj Ty where
  key := a.key.toList
  priority := a.priority
  accepts o _ := if isArray o then .ok false else npEq a.system o
  convert _ _ _ := .ok a.make

/-- `type_[0] if isinstance(type_[0], np.ndarray) else type(type_[0])` (`types/numpy.py:80`). -/
def npFirst : PdObj → Except Err PdObj
  | .array _ [] => .error .indexError
  | .array _ (0 :: _) => .error .indexError
  | .array k [_ + 1] =>
    match k with
    | some k => .ok (.cls k)
    | none => .ok (.other 0)
  | .array k ((_ + 1) :: rest) => .ok (.array k rest)
  | _ => .error .typeError

/-- `ArrayAdapter.to_artigraph` and `matches_system` (`types/numpy.py:76-85`). -/
def npListA : Adapter PdObj Ty where
  key := "ArrayAdapter".toList
  priority := 0
  accepts o _ := .ok (isArray o)
  convert root o h := do
    let v ← npFirst o
    let e ← root v h
    return .list e {}

def npAdaptersA : List (Adapter PdObj Ty) := npSimples.map npSimpleA ++ [npListA]

/-- `numpy_type_system`, towards artigraph. -/
def npArti : TypeSystem PdObj Ty :=
  .mk "numpy".toList (npAdaptersA.map fun a => (a.key, a)) []

def isSeries : PdObj → Bool
  | .series _ => true
  | _ => false

def isFrame : PdObj → Bool
  | .frame _ => true
  | _ => false

/-- The dtype of a series as an object of the type system. -/
def PdDtype.toObj : PdDtype → PdObj
  | .np k => .dtype k 0
  | .object => .other 0
  | .other n => .other n

/-- `SeriesAdapter.to_artigraph` (`types/pandas.py:29-42`). -/
def pdSeriesConvert (root : PdObj → Hints → Except Err Ty) (s : PdSeries) (h : Hints) :
    Except Err Ty :=
  match s.dtype with
  | .object =>
    match s.values with
    | [] => .error .indexError
    | .str :: _ => .ok (.list (.scalar .string {}) {})
    | .other _ :: _ => .error .notImplemented
  | d => do
    let e ← root d.toObj h
    return .list e {}

/-- `SeriesAdapter` (`types/pandas.py:29-46`). -/
def pdSeriesA : Adapter PdObj Ty where
  key := "SeriesAdapter".toList
  priority := 0
  accepts o _ := .ok (isSeries o)
  convert root o h :=
    match o with
    | .series s => pdSeriesConvert root s h
    | _ => .error .attributeError

/-- `type_[name]`: the series of that name, or the frame of all the series of that name. -/
def pdColumn (columns : List (Str × PdSeries)) (name : Str) : PdObj :=
  match columns.filter fun c => c.1 = name with
  | [c] => .series c.2
  | cs => .frame cs

/-- The fields of `DataFrameAdapter.to_artigraph` (`types/pandas.py:84-87`), for the names of the
columns. -/
def pdColumnsA (root : PdObj → Hints → Except Err Ty) (columns : List (Str × PdSeries)) (h : Hints) :
    List Str → Except Err (List (Str × Ty))
  | [] => .ok []
  | n :: rest => do
    let t ← root (pdColumn columns n) h
    match listElement t with
    | none => .error .attributeError
    | some e => do
      let fs ← pdColumnsA root columns h rest
      return (n, e) :: fs

/-- `DataFrameAdapter.to_artigraph` (`types/pandas.py:79-89`). -/
def pdFrameConvert (root : PdObj → Hints → Except Err Ty) (columns : List (Str × PdSeries))
    (h : Hints) : Except Err Ty := do
  let fs ← pdColumnsA root columns h (columns.map Prod.fst)
  return .list (.struct anon (PyDict.ofItems fs) {}) {}

/-- `DataFrameAdapter` (`types/pandas.py:79-93`). -/
def pdFrameA : Adapter PdObj Ty where
  key := "DataFrameAdapter".toList
  priority := 0
  accepts o _ := .ok (isFrame o)
  convert root o h :=
    match o with
    | .frame cs => pdFrameConvert root cs h
    | _ => .error .assertion

def pdAdaptersA : List (Adapter PdObj Ty) := [pdSeriesA, pdFrameA]

/-- `pandas_type_system`, towards artigraph. -/
def pdArti : TypeSystem PdObj Ty :=
  .mk "pandas".toList (pdAdaptersA.map fun a => (a.key, a)) [npArti]

/-- The two directions describe the same adapters. -/
theorem np_same_registry : npAdaptersS.map (fun a => (a.key, a.priority)) =
    npAdaptersA.map (fun a => (a.key, a.priority)) := rfl

theorem pd_same_registry : pdAdaptersS.map (fun a => (a.key, a.priority)) =
    pdAdaptersA.map (fun a => (a.key, a.priority)) := rfl

/-! ## The conversions -/

/-- A bound on the depth of the conversion of an object: the dimensions of an array, and the columns
of a frame with distinct names. -/
def PdObj.depth : PdObj → Nat
  | .array _ shape => shape.length + 1
  | .series _ => 2
  | .frame _ => 3
  | _ => 1

/-- `numpy_type_system.to_system(t, hints=h)`. -/
def npToSystem (t : Ty) (h : Hints) : Except Err PdObj := run npSys t.size t h

/-- `numpy_type_system.to_artigraph(o, hints=h)`. -/
def npToArtigraph (o : PdObj) (h : Hints) : Except Err Ty := run npArti o.depth o h

/-- `pandas_type_system.to_system(t, hints=h)`. -/
def pdToSystem (t : Ty) (h : Hints) : Except Err PdObj := run pdSys t.size t h

/-- `pandas_type_system.to_artigraph(o, hints=h)`. -/
def pdToArtigraph (o : PdObj) (h : Hints) : Except Err Ty := run pdArti o.depth o h

end Typ
end Arti
