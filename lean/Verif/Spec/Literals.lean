import Verif.Model.Literals
import Verif.Lemmas.Json

/-!
# Specification: values that can be literals of a graph
-/

namespace Arti
namespace Spec
open Lit

/-- Neither `{` nor `}` occurs. -/
def NoBraces (s : Str) : Prop := ∀ c ∈ s, c ≠ '{' ∧ c ≠ '}'

/-- A value without parts that JSON has: `None`, a boolean, a number or a string. -/
inductive Simple : Val → Prop
  | none : Simple .none
  | bool (b : Bool) : Simple (.bool b)
  | int (i : Int) : Simple (.int i)
  | flt (t : Str) : Simple (.flt t)
  | str (s : Str) : Simple (.str s)

/-- The simple values of the items of a list that can be a literal: all of one class, where a
boolean may follow an integer; `None` cannot be an item. -/
def SameKind : Val → Val → Prop
  | .bool _, .bool _ => True
  | .int _, .int _ => True
  | .int _, .bool _ => True
  | .flt _, .flt _ => True
  | .str _, .str _ => True
  | _, _ => False

/-- A list (or tuple) of simple values of one kind, not empty. -/
def Uniform : List Val → Prop
  | [] => False
  | x :: xs => Simple x ∧ SameKind x x ∧ ∀ y ∈ xs, Simple y ∧ SameKind x y

/-- The strings of a value without braces; only those of simple values and of the items of lists
and tuples matter. -/
def NoBracesIn : Val → Prop
  | .str s => NoBraces s
  | .list xs => ∀ s, .str s ∈ xs → NoBraces s
  | .tuple xs => ∀ s, .str s ∈ xs → NoBraces s
  | _ => True

/-- The texts of floats are texts that floats have. -/
def FloatsIn : Val → Prop
  | .flt t => Json.FltOk t
  | .list xs => ∀ t, .flt t ∈ xs → Json.FltOk t
  | .tuple xs => ∀ t, .flt t ∈ xs → Json.FltOk t
  | _ => True

/-- The values that can be literals: simple values and lists of simple values of one kind. -/
def IsLiteral (v : Val) : Prop := Simple v ∨ ∃ xs, v = .list xs ∧ Uniform xs

end Spec
end Arti
