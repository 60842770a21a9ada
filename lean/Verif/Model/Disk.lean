import Verif.Model.World
import Verif.Lemmas.Dict
import Mathlib.Data.List.Lex
import Mathlib.Data.List.Sort
import Mathlib.Data.Char

/-!
# The world over real paths

`Model/World.lean` leaves open how partitions are named in the file system.  Here the two functions
that it leaves open are those of `Model/Storage.lean`: templates are rendered, and paths are globbed
and parsed, as in `src/arti/storage/__init__.py`, `storage/_internal.py` and `storage/local.py`.
-/

namespace Arti.Disk
open PyDict Stg Fmt Part

/-- A `PartitionKey` (`partitions/__init__.py:59-71`) up to the order of its items: a frozendict
compares by its items (`internal/mappings.py:14-39`), so the items are kept sorted by name. -/
abbrev CKey := {k : PKey // k.Pairwise fun a b => a.1 < b.1}

/-- The items sorted by name. -/
def sortItems (pk : PKey) : PKey := pk.insertionSort fun a b => a.1 ≤ b.1

theorem pairwise_sortItems {pk : PKey} (h : (keys pk).Nodup) :
    (sortItems pk).Pairwise fun a b => a.1 < b.1 := by
  let _ : Std.Total fun a b : Str × FieldVal => a.1 ≤ b.1 := ⟨fun a b => le_total a.1 b.1⟩
  let _ : IsTrans (Str × FieldVal) fun a b => a.1 ≤ b.1 := ⟨fun a b c => le_trans⟩
  have h1 := List.pairwise_insertionSort (fun a b : Str × FieldVal => a.1 ≤ b.1) pk
  have h2 : (keys (sortItems pk)).Nodup :=
    ((List.perm_insertionSort _ pk).map Prod.fst).nodup_iff.2 h
  rw [keys, List.nodup_iff_pairwise_ne, List.pairwise_map] at h2
  exact (h1.and h2).imp fun h => lt_of_le_of_ne h.1 h.2

/-- `PartitionKey(**items)`. -/
def ofPKey (pk : PKey) : CKey := ⟨sortItems (ofItems pk), pairwise_sortItems (nodup_keys_ofItems pk)⟩

/-- The key has the names and the field classes of `kt`, and its dates exist. -/
def conforms (kt : KeyTypes) (pk : PKey) : Bool :=
  sameSet (keys pk) (keys kt) && pk.all fun x => get? kt x.1 == some x.2.cls &&
    match x.2 with
    | .date y m d => validDate y m d
    | _ => true

/-- A fingerprint is a 64-bit integer (`fingerprints/__init__.py:36-38`). -/
def inRange (fp : Option Fp) : Bool :=
  fp.all fun w => decide (-9223372036854775808 ≤ w) && decide (w ≤ 9223372036854775807)

/-- The keyword arguments that `generate_partition` formats with (`storage/__init__.py:199-207`);
`World.generate` makes the checks. -/
def kwargs (fp : Option Fp) (pk : PKey) : PyDict Str FVal :=
  let base : PyDict Str FVal := pk.map fun (k, v) => (k, .field v)
  match fp with
  | none => base
  | some fp => PyDict.set base ifpName (.str (intToStr fp))

/-- One string field of a generated partition (`storage/__init__.py:208-212`).  Simplification:
keys that do not have the declared names and classes raise, where the code may go on; the
fingerprints of the code are always in range. -/
def render (kt : Str → KeyTypes) (text : Str) (fp : Option Fp) (pk : CKey) : Except Err Str :=
  if conforms (kt text) pk.1 && inRange fp then genField (kwargs fp pk.1) text
  else .error .unsupported

/-- The loop of `parse_spec` (`storage/_internal.py:161-183`) without the filter. -/
def scanPaths (toks : List Tok) (kt : KeyTypes) :
    List Str → Except Err (List (Option Fp × PKey))
  | [] => .ok []
  | path :: rest =>
    match lazyMatch toks [] path with
    | none => .error .valueError
    | some named =>
      match expand named >>= extractPlaceholders kt with
      | .error e => .error e
      | .ok x =>
        match scanPaths toks kt rest with
        | .error e => .error e
        | .ok xs => .ok (x :: xs)

/-- `glob` and `parse_spec` without the filter (`storage/local.py:50-54`). -/
def scan (kt : Str → KeyTypes) (t : Tmpl) (names : List Str) :
    Except Err (List (Option Fp × CKey)) := do
  let wildcard ← specToWildcard t.text (kt t.text)
  let toks ← parse t.text
  let found ← scanPaths toks (kt t.text) (names.filter (globMatch true wildcard))
  .ok (found.map fun x => (x.1, ofPKey x.2))

/-- The world over real paths: user code, fingerprints, formats and the order of sets are those
of `base`; `kt` are the key types of the storages, by their template. -/
def disk {D : Type} (base : Env CKey D) (kt : Str → KeyTypes) : Env CKey D :=
  { base with npKey := ⟨[], .nil⟩, render := render kt, scan := scan kt }

end Arti.Disk
