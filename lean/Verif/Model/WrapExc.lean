import Verif.Model.Base

/-!
# `wrap_exc` (`internal/__init__.py`)
-/

namespace Arti
namespace Wrap

/-- What is known about exception classes: `isinstance` by class, and `str(cls(message))`.  Only
classes that can be made from a single message are modelled, as `wrap_exc` requires. -/
structure Classes (T : Type) where
  sub : T → T → Bool
  show' : T → Str → Str

/-- An exception: its class, the message it was made with, `getattr(e, "wrapped", False)` and
`e.__cause__`.  Tracebacks and `__context__` are not modelled. -/
inductive Exc (T : Type)
  | mk (ty : T) (msg : Str) (wrapped : Bool) (cause : Option (Exc T))

namespace Exc
variable {T : Type}
def ty : Exc T → T | mk t _ _ _ => t
def msg : Exc T → Str | mk _ m _ _ => m
def wrapped : Exc T → Bool | mk _ _ w _ => w
def cause : Exc T → Option (Exc T) | mk _ _ _ c => c
end Exc

variable {T α : Type} (cl : Classes T)

/-- `str(e)`. -/
def str (e : Exc T) : Str := cl.show' e.ty e.msg

/-- The `except` clause (`internal/__init__.py:18-26`). -/
def rewrap (errorType : T) (pre : Str) (e : Exc T) : Exc T :=
  let msg := str cl e
  match e.wrapped, e.cause with
  | true, some src => .mk errorType (pre ++ msg) true (some src)
  | _, _ => .mk errorType (pre ++ " - ".toList ++ msg) true (some e)

/-- `with wrap_exc(error_type, prefix=pre): body` (`internal/__init__.py:7-26`), given what the
body does. -/
def wrapExc (errorType : T) (pre : Str) (body : Except (Exc T) α) : Except (Exc T) α :=
  match body with
  | .ok a => .ok a
  | .error e => if cl.sub e.ty errorType then .error (rewrap cl errorType pre e) else .error e

/-- Nested `with` blocks, the outermost first. -/
def nested (blocks : List (T × Str)) (body : Except (Exc T) α) : Except (Exc T) α :=
  blocks.foldr (fun b r => wrapExc cl b.1 b.2 r) body

end Wrap
end Arti
