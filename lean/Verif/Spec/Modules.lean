import Verif.Model.Modules

/-!
# Specification: the modules below a directory

Stated with the tree of directories only.
-/

namespace Arti.Spec
open Mods

/-- `e` is the directory at the relative path `rel` below `d`. -/
inductive Below : Dir → List Str → Dir → Prop
  | here (d : Dir) : Below d [] d
  | there {d e e' : Dir} {n : Str} {rel : List Str} (h : (n, e) ∈ d.dirs) (hb : Below e rel e') :
      Below d (n :: rel) e'

/-- Every name in a directory occurs once, at all levels. -/
inductive Tree : Dir → Prop
  | mk {fs : List Str} {ds : List (Str × Dir)} (hn : (fs ++ ds.map Prod.fst).Nodup)
      (h : ∀ x ∈ ds, Tree x.2) : Tree (.mk fs ds)

/-- The suffixes of Python modules, `importlib.machinery.all_suffixes()`: each begins with a dot, and
`inspect.getmodulename` tries the longest first. -/
structure Suffixes (suffixes : List Str) : Prop where
  dot : ∀ s ∈ suffixes, ∃ t, s = '.' :: t
  sorted : suffixes.Pairwise fun s t => t.length ≤ s.length

/-- `f` is `m` with one of the suffixes of Python modules. -/
def FileOf (suffixes : List Str) (m f : Str) : Prop := ∃ s ∈ suffixes, f = m ++ s

/-- The directory `d` has the module `m`: a file with a suffix of Python modules that is not
`__init__`, or a subdirectory with a file `__init__` with such a suffix. -/
def HasModule (suffixes : List Str) (d : Dir) (m : Str) : Prop :=
  m ≠ [] ∧ '.' ∉ m ∧
    ((m ≠ "__init__".toList ∧ ∃ f ∈ d.names, FileOf suffixes m f) ∨
      ∃ e, (m, e) ∈ d.dirs ∧ ∃ f ∈ e.names, FileOf suffixes "__init__".toList f)

/-- The directories that are not searched for modules (those below them are): `ez_setup` at the top,
and the ones whose name ends with `__pycache__`. -/
def Hidden (rel : List Str) : Prop :=
  rel = ["ez_setup".toList] ∨ ∃ n, rel.getLast? = some n ∧ "__pycache__".toList <:+ n

/-- The modules to be imported: `name` followed by the directories and the module, with dots. -/
def Importable (suffixes : List Str) (fs : Str → Dir) (path : List Str) (name full : Str) : Prop :=
  ∃ p ∈ path, ∃ rel d m, Below (fs p) rel d ∧ (∀ n ∈ rel, '.' ∉ n) ∧ ¬ Hidden rel ∧
    HasModule suffixes d m ∧ full = joinWith ['.'] (name :: rel ++ [m])

end Arti.Spec
