import Verif.Model.Base

/-!
# `frozendict` (`src/arti/internal/mappings.py:14-39`)
-/

namespace Arti
variable {κ ν : Type} [DecidableEq κ] [DecidableEq ν]

/-- `frozendict.__init__` (`internal/mappings.py:15-19`): `dict(arg, **kwargs)`; the keyword
arguments come after the items of `arg`. -/
def fdInit (arg kwargs : List (κ × ν)) : PyDict κ ν := PyDict.ofItems (arg ++ kwargs)

/-- `self._hash = hash(frozenset(self._data.items()))` (`internal/mappings.py:19`).  CPython
hashes a frozenset by XOR-ing the (shuffled) hashes of its elements and mixing the result with
the number of elements; `h` is the shuffled element hash and `mix` the final mixing. -/
def fdHash (h : κ × ν → Nat) (mix : Nat → Nat → Nat) (d : PyDict κ ν) : Nat :=
  mix ((d.map h).foldl (· ^^^ ·) 0) d.length

/-- `Mapping.__eq__`: `dict(self.items()) == dict(other.items())`; dict equality compares the
lengths and then each value of the left operand. -/
def fdEq (a b : PyDict κ ν) : Bool :=
  a.length == b.length && a.all (fun kv => PyDict.get? b kv.1 == some kv.2)

/-- `frozendict.__or__` (`internal/mappings.py:33-34`): `type(self)({**self, **other})`. -/
def fdOr (self other : PyDict κ ν) : PyDict κ ν := fdInit (PyDict.merge self other) []

/-- `__ror__ = __or__` (`internal/mappings.py:36`): called as `self.__ror__(left)`. -/
def fdRor (self left : PyDict κ ν) : PyDict κ ν := fdOr self left

/-- The kind of a mapping operand of `|`. -/
inductive MapKind
  | frozen | plain
  deriving DecidableEq, Repr

/-- The Python expression `a | b` where at least one operand is a frozendict.  `dict.__or__`
returns `NotImplemented` for a frozendict (it is not a `dict`), so `dict | frozendict` calls
the reflected method of the right operand; two plain dicts use `dict.__or__`. -/
def pyOrExpr (a : MapKind × PyDict κ ν) (b : MapKind × PyDict κ ν) : PyDict κ ν :=
  match a.1, b.1 with
  | .frozen, _ => fdOr a.2 b.2
  | .plain, .frozen => fdRor b.2 a.2
  | .plain, .plain => PyDict.merge a.2 b.2

end Arti
