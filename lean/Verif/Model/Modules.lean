import Verif.Model.Base

/-!
# Importing all modules of a package

`import_submodules` (`src/arti/internal/utils.py:50-85`) and `find_namespace_packages`
(`src/arti/internal/vendored/setuptools.py:47-127`), with `pkgutil.iter_modules` of the standard
library.  `io` and `views` use it to load all readers, writers and views
(`io/__init__.py:24-27`, `views/__init__.py:96-98`).

Simplifications: directories are finite trees (no cycles of symbolic links); the directories of a
package do not contain one another; the order in which a directory is listed is that of the tree, and
the sorting of `iter_modules` is not modelled; the lock is not modelled.
-/

namespace Arti.Mods

/-- A directory: the names of its files and its subdirectories. -/
inductive Dir
  | mk (files : List Str) (dirs : List (Str × Dir))

def Dir.files : Dir → List Str
  | .mk fs _ => fs

def Dir.dirs : Dir → List (Str × Dir)
  | .mk _ ds => ds

/-- `os.listdir`. -/
def Dir.names (d : Dir) : List Str := d.files ++ d.dirs.map Prod.fst

mutual
/-- The packages, as lists of directory names, that `_find_packages_iter` meets below a directory
(`setuptools.py:84-104`, for `PEP420PackageFinder`, `120-123`): all directories without a dot in
their names; `os.walk` yields a level before the levels below. -/
def walk (rel : List Str) : Dir → List (List Str)
  | .mk _ ds => ((ds.map Prod.fst).filter fun n => !n.contains '.').map (fun n => rel ++ [n]) ++
      walkAll rel ds
def walkAll (rel : List Str) : List (Str × Dir) → List (List Str)
  | [] => []
  | (n, d) :: ds => (if n.contains '.' then [] else walk (rel ++ [n]) d) ++ walkAll rel ds
end

/-- The filter `("ez_setup", "*__pycache__")` of package names (`setuptools.py:68-74,112-117`). -/
def excluded (package : Str) : Bool :=
  package == "ez_setup".toList || "__pycache__".toList.isSuffixOf package

/-- `find_namespace_packages(where)` (`setuptools.py:51-74,127`); `include` is `("*",)`. -/
def findPackages (d : Dir) : List Str :=
  ((walk [] d).map (joinWith ['.'])).filter fun p => !excluded p

/-- The directory at a relative path. -/
def dirAt : Dir → List Str → Option Dir
  | d, [] => some d
  | d, n :: rel =>
    match d.dirs.find? (fun x => x.1 == n) with
    | some x => dirAt x.2 rel
    | none => none

/-- `inspect.getmodulename`: the name without the first suffix that fits. -/
def moduleName (suffixes : List Str) (file : Str) : Option Str :=
  (suffixes.find? fun s => s.isSuffixOf file).map fun s => file.take (file.length - s.length)

/-- The name under which `pkgutil._iter_file_finder_modules` yields an entry of a directory, if it
does. -/
def entryName (suffixes : List Str) (d : Dir) (e : Str) : Option Str :=
  match moduleName suffixes e with
  | some m =>
    if m == "__init__".toList then none
    else if m.isEmpty then none
    else if m.contains '.' then none
    else some m
  | none =>
    if e.contains '.' then none
    else if e.isEmpty then none
    else
      match d.dirs.find? (fun x => x.1 == e) with
      | none => none
      | some x =>
        if x.2.names.any fun f => moduleName suffixes f == some "__init__".toList then some e
        else none

/-- `pkgutil.iter_modules([path], prefix)`: each name is yielded once. -/
def iterModules (suffixes : List Str) (d : Dir) (pre : Str) : List Str :=
  (setUpdate [] (d.names.filterMap (entryName suffixes d))).map fun m => pre ++ m

/-- `path_names` (`utils.py:71-78`): the directories, as a path of the package and the names below it,
with the names of their packages.  `fs` is the file system; a path that does not exist is like an
empty directory. -/
def pathNames (fs : Str → Dir) (path : List Str) (name : Str) : PyDict (Str × List Str) Str :=
  let roots := PyDict.ofItems (path.map fun p => ((p, []), name))
  PyDict.ofItems (roots ++ roots.flatMap fun x =>
    (findPackages (fs x.1.1)).map fun n => ((x.1.1, splitOn '.' n), x.2 ++ '.' :: n))

/-- The names that `importlib.import_module` is called with, in order (`utils.py:81-85`). -/
def requests (suffixes : List Str) (fs : Str → Dir) (path : List Str) (name : Str) : List Str :=
  (pathNames fs path name).flatMap fun x =>
    match dirAt (fs x.1.1) x.1.2 with
    | some d => iterModules suffixes d (x.2 ++ ['.'])
    | none => []

/-- Import modules one after the other; `imp` is `importlib.import_module`, which raises if the
module is not there or if its code raises. -/
def importAll {Mod : Type} (imp : Str → Except Err Mod) : List Str → Except Err (List (Str × Mod))
  | [] => .ok []
  | n :: ns => do
    let m ← imp n
    let ms ← importAll imp ns
    return (n, m) :: ms

/-- `import_submodules(path, name)` (`utils.py:50-85`). -/
def importSubmodules {Mod : Type} (suffixes : List Str) (fs : Str → Dir)
    (imp : Str → Except Err Mod) (path : List Str) (name : Str) : Except Err (PyDict Str Mod) := do
  let ms ← importAll imp (requests suffixes fs path name)
  return PyDict.ofItems ms

end Arti.Mods
