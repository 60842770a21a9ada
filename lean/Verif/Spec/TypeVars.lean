import Verif.Model.TypeVars

/-!
# What a class binds the parameters of a generic class to
-/

namespace Arti.TypeVars

/-- Replace variables. -/
def TArg.subst (f : Str → TArg) : TArg → TArg
  | .var n => f n
  | .ty n => .ty n
  | .app n a => .app n (a.subst f)

/-- No variable is left. -/
def TArg.Closed : TArg → Prop
  | .var _ => False
  | .ty _ => True
  | .app _ a => a.Closed

/-- The argument for a parameter. -/
def argFor : List Str → List TArg → Str → TArg
  | p :: ps, a :: as, n => if n = p then a else argFor ps as n
  | _, _, n => .var n

/-- The types that the parameters of the generic class stand for in a class: those that it was
subscripted with, after replacing the parameters of the classes in between. -/
def Cls.bindings : Cls → List TArg
  | .gen ps => ps.map .var
  | .plain p => p.bindings
  | .sub _ p args => p.bindings.map (TArg.subst (argFor p.params args))

/-- The same for a hint. -/
def Hint.bindings : Hint → List TArg
  | .cls c => c.bindings
  | .alias c args => c.bindings.map (TArg.subst (argFor c.params args))

/-- What Python accepts: parameters have different names, and only generic classes are subscripted,
with as many arguments as they have parameters. -/
def Cls.Valid : Cls → Prop
  | .gen ps => ps ≠ [] ∧ ps.Nodup
  | .plain p => p.Valid
  | .sub ps p args => p.Valid ∧ ps.Nodup ∧ p.params ≠ [] ∧ args.length = p.params.length

/-- The same for a hint. -/
def Hint.Valid : Hint → Prop
  | .cls c => c.Valid
  | .alias c args => c.Valid ∧ c.params ≠ [] ∧ args.length = c.params.length

/-- Every generic class on the way passes all its parameters on, in the same order; the others bind
all of them. -/
def Cls.Straight : Cls → Prop
  | .gen _ => True
  | .plain p => p.Straight
  | .sub ps p args => p.Straight ∧ (args = ps.map .var ∨ (ps = [] ∧ ∀ a ∈ args, a.Closed))

/-- The same for a hint: hints of fields have no variables. -/
def Hint.Straight : Hint → Prop
  | .cls c => c.Straight
  | .alias c args => c.Straight ∧ ∀ a ∈ args, a.Closed

end Arti.TypeVars
