import Verif.Model.ModelDoc

/-!
# What fingerprints of models are supposed to see

Stated on the values of fields and the flags of their declarations, without the serialiser.
-/

namespace Arti.Spec
open Arti.MDoc

/-- The field `f` of an instance of `c` with these values is to be fingerprinted, and its value is `x`:
it is neither excluded nor skipped, and not a minor or patch version behind a positive major one. -/
def Seen (c : Cls) (values : List (Str × Val)) (f : Str) (x : Val) : Prop :=
  (∃ fi ∈ c.fields, fi.name = f ∧ fi.exclude = false ∧ fi.skip = false) ∧ (f, x) ∈ values ∧
  ¬ (c.semver = true ∧ f ≠ "major".toList ∧ ∃ m, 0 < m ∧ ("major".toList, Val.int m) ∈ values)

/-- The values that exist: models have one value per field of their class, whose names differ and do not
start with an underscore (pydantic), and a `SemVer` passed the check of `model_post_init`
(`versions/__init__.py:46-49`). -/
inductive WfVal : Val → Prop
  | null : WfVal .null
  | bool (b : Bool) : WfVal (.bool b)
  | int (i : Int) : WfVal (.int i)
  | str (s : Str) : WfVal (.str s)
  | text (k : Nat) (s : Str) : WfVal (.text k s)
  | stamp (u o : Int) : WfVal (.stamp u o)
  | seq {xs : List Val} : (∀ x ∈ xs, WfVal x) → WfVal (.seq xs)
  | set {xs : List Val} : (∀ x ∈ xs, WfVal x) → WfVal (.set xs)
  | map {xs : List (Str × Val)} : (xs.map (·.1)).Nodup → (∀ p ∈ xs, WfVal p.2) → WfVal (.map xs)
  | model {c : Cls} {xs : List (Str × Val)} : xs.map (·.1) = c.fields.map (·.name) →
      (c.fields.map (·.name)).Nodup → (∀ f ∈ c.fields, f.name.head? ≠ some '_') →
      (c.semver = true → ∀ f ∈ c.fields, f.exclude = false → f.skip = false →
        f.name ∈ ["major".toList, "minor".toList, "patch".toList]) →
      (∀ p ∈ xs, WfVal p.2) → WfVal (.model c xs)

/-- No mapping inside has the key `_arti_type_`, by which a mapping could pass for a model. -/
inductive NoTypeKey : Val → Prop
  | null : NoTypeKey .null
  | bool (b : Bool) : NoTypeKey (.bool b)
  | int (i : Int) : NoTypeKey (.int i)
  | str (s : Str) : NoTypeKey (.str s)
  | text (k : Nat) (s : Str) : NoTypeKey (.text k s)
  | stamp (u o : Int) : NoTypeKey (.stamp u o)
  | seq {xs : List Val} : (∀ x ∈ xs, NoTypeKey x) → NoTypeKey (.seq xs)
  | set {xs : List Val} : (∀ x ∈ xs, NoTypeKey x) → NoTypeKey (.set xs)
  | map {xs : List (Str × Val)} : (∀ p ∈ xs, p.1 ≠ "_arti_type_".toList) →
      (∀ p ∈ xs, NoTypeKey p.2) → NoTypeKey (.map xs)
  | model {c : Cls} {xs : List (Str × Val)} : (∀ p ∈ xs, NoTypeKey p.2) → NoTypeKey (.model c xs)

/-- The text of the values that JSON has no kind for, and of strings. -/
def textOf : Val → Option Str
  | .str s => some s
  | .text _ s => some s
  | .stamp u o => some (stampText u o)
  | _ => none

/-- The items of tuples and of frozensets. -/
def itemsOf : Val → Option (List Val)
  | .seq xs => some xs
  | .set xs => some xs
  | _ => none

/-- Two values with the same fingerprinted content, as far as JSON tells kinds apart: all fields to be
fingerprinted agree, to any depth. -/
inductive Agree : Val → Val → Prop
  | null : Agree .null .null
  | bool (b : Bool) : Agree (.bool b) (.bool b)
  | int (i : Int) : Agree (.int i) (.int i)
  | text {a b : Val} {s : Str} : textOf a = some s → textOf b = some s → Agree a b
  | items {a b : Val} {xs ys : List Val} : itemsOf a = some xs → itemsOf b = some ys →
      xs.length = ys.length → (∀ (i : Nat) (x y : Val), xs[i]? = some x → ys[i]? = some y → Agree x y) →
      Agree a b
  | map {xs ys : List (Str × Val)} : xs.map (·.1) = ys.map (·.1) →
      (∀ (i : Nat) (p q : Str × Val), xs[i]? = some p → ys[i]? = some q → Agree p.2 q.2) →
      Agree (.map xs) (.map ys)
  | model {c c' : Cls} {xs ys : List (Str × Val)} : c.name = c'.name →
      (∀ f, (∃ x, Seen c xs f x) ↔ ∃ y, Seen c' ys f y) →
      (∀ f x y, Seen c xs f x → Seen c' ys f y → Agree x y) → Agree (.model c xs) (.model c' ys)

/-- Two values with the same fingerprinted content: like `Agree`, and also of the same kinds. -/
inductive Same : Val → Val → Prop
  | null : Same .null .null
  | bool (b : Bool) : Same (.bool b) (.bool b)
  | int (i : Int) : Same (.int i) (.int i)
  | str (s : Str) : Same (.str s) (.str s)
  | text (k : Nat) (s : Str) : Same (.text k s) (.text k s)
  | stamp (u o : Int) : Same (.stamp u o) (.stamp u o)
  | seq {xs ys : List Val} : xs.length = ys.length →
      (∀ (i : Nat) (x y : Val), xs[i]? = some x → ys[i]? = some y → Same x y) → Same (.seq xs) (.seq ys)
  | set {xs ys : List Val} : xs.length = ys.length →
      (∀ (i : Nat) (x y : Val), xs[i]? = some x → ys[i]? = some y → Same x y) → Same (.set xs) (.set ys)
  | map {xs ys : List (Str × Val)} : xs.map (·.1) = ys.map (·.1) →
      (∀ (i : Nat) (p q : Str × Val), xs[i]? = some p → ys[i]? = some q → Same p.2 q.2) →
      Same (.map xs) (.map ys)
  | model {c : Cls} {xs ys : List (Str × Val)} :
      (∀ f, (∃ x, Seen c xs f x) ↔ ∃ y, Seen c ys f y) →
      (∀ f x y, Seen c xs f x → Seen c ys f y → Same x y) → Same (.model c xs) (.model c ys)

/-- A value of a declared type, where `reg` has the one class of every name. Nothing is said of fields
declared as `Any`. -/
inductive HasTy (reg : Str → Cls) : Ty → Val → Prop
  | bool (b : Bool) : HasTy reg .bool (.bool b)
  | int (i : Int) : HasTy reg .int (.int i)
  | str (s : Str) : HasTy reg .str (.str s)
  | text (k : Nat) (s : Str) : HasTy reg (.text k) (.text k s)
  | stamp (u o : Int) : HasTy reg .stamp (.stamp u o)
  | none {t : Ty} : HasTy reg (.opt t) .null
  | some {t : Ty} {v : Val} : HasTy reg t v → HasTy reg (.opt t) v
  | seq {t : Ty} {xs : List Val} : (∀ x ∈ xs, HasTy reg t x) → HasTy reg (.seq t) (.seq xs)
  | set {t : Ty} {xs : List Val} : (∀ x ∈ xs, HasTy reg t x) → HasTy reg (.set t) (.set xs)
  | map {t : Ty} {xs : List (Str × Val)} : (∀ p ∈ xs, HasTy reg t p.2) → HasTy reg (.map t) (.map xs)
  | model {c : Cls} {xs : List (Str × Val)} : reg c.name = c →
      (∀ p ∈ xs, ∀ fi ∈ c.fields, fi.name = p.1 → HasTy reg fi.ty p.2) →
      HasTy reg .model (.model c xs)

/-- Python's `==`. Models: same class, and equal values for all fields (pydantic's `__eq__`); `True == 1`
and `False == 0`; frozensets and mappings disregard order; datetimes compare by the instant. -/
inductive PyEq : Val → Val → Prop
  | null : PyEq .null .null
  | bool (b : Bool) : PyEq (.bool b) (.bool b)
  | int (i : Int) : PyEq (.int i) (.int i)
  | boolInt (b : Bool) : PyEq (.bool b) (.int (if b then 1 else 0))
  | intBool (b : Bool) : PyEq (.int (if b then 1 else 0)) (.bool b)
  | str (s : Str) : PyEq (.str s) (.str s)
  | text (k : Nat) (s : Str) : PyEq (.text k s) (.text k s)
  | stamp (u o o' : Int) : PyEq (.stamp u o) (.stamp u o')
  | seq {xs ys : List Val} : xs.length = ys.length →
      (∀ (i : Nat) (x y : Val), xs[i]? = some x → ys[i]? = some y → PyEq x y) →
      PyEq (.seq xs) (.seq ys)
  | set {xs ys zs : List Val} : zs.Perm ys → xs.length = zs.length →
      (∀ (i : Nat) (x z : Val), xs[i]? = some x → zs[i]? = some z → PyEq x z) → PyEq (.set xs) (.set ys)
  | map {xs ys : List (Str × Val)} :
      (∀ k, (∃ x, (k, x) ∈ xs) ↔ ∃ y, (k, y) ∈ ys) →
      (∀ k x y, (k, x) ∈ xs → (k, y) ∈ ys → PyEq x y) → PyEq (.map xs) (.map ys)
  | model {c : Cls} {xs ys : List (Str × Val)} : xs.map (·.1) = ys.map (·.1) →
      (∀ f x y, (f, x) ∈ xs → (f, y) ∈ ys → PyEq x y) → PyEq (.model c xs) (.model c ys)

/-- Values whose text does not depend on any choice that `==` disregards: mappings and frozensets have at
most one entry, and datetimes are in UTC. Fields that are not fingerprinted may hold anything. -/
inductive Rigid : Val → Prop
  | null : Rigid .null
  | bool (b : Bool) : Rigid (.bool b)
  | int (i : Int) : Rigid (.int i)
  | str (s : Str) : Rigid (.str s)
  | text (k : Nat) (s : Str) : Rigid (.text k s)
  | stamp (u : Int) : Rigid (.stamp u 0)
  | seq {xs : List Val} : (∀ x ∈ xs, Rigid x) → Rigid (.seq xs)
  | set {xs : List Val} : xs.length ≤ 1 → (∀ x ∈ xs, Rigid x) → Rigid (.set xs)
  | map {xs : List (Str × Val)} : xs.length ≤ 1 → (∀ p ∈ xs, Rigid p.2) → Rigid (.map xs)
  | model {c : Cls} {xs : List (Str × Val)} : (∀ f x, Seen c xs f x → Rigid x) → Rigid (.model c xs)

end Arti.Spec
