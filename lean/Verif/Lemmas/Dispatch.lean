import Verif.Model.Types

/-!
# Lemmas: dispatch to the first matching adapter, and types
-/

namespace Arti
namespace Typ

section
variable {X Y : Type}

/-- What the first matching adapter of a list returns. -/
def dispatched (root : X → Hints → Except Err Y) (l : List (Adapter X Y)) (x : X) (h : Hints) :
    Except Err Y :=
  match firstMatch l x h with
  | .error e => .error e
  | .ok (some a) => a.convert root x h
  | .ok none => .error .notImplemented

theorem run_leaf (k : Str) (ads : PyDict Str (Adapter X Y)) (n : Nat) (x : X) (h : Hints) :
    run (.mk k ads []) (n + 1) x h =
      dispatched (run (.mk k ads []) n) (sortByPriority (ads.map Prod.snd)) x h := by
  rw [run, convert, dispatched]
  generalize firstMatch _ x h = r
  rcases r with e | (_ | a) <;> simp [convertExt]

theorem dispatched_true {root : X → Hints → Except Err Y} {a : Adapter X Y} {l : List (Adapter X Y)}
    {x : X} {h : Hints} (ha : a.accepts x h = .ok true) :
    dispatched root (a :: l) x h = a.convert root x h := by
  simp [dispatched, firstMatch, ha]

theorem dispatched_false {root : X → Hints → Except Err Y} {a : Adapter X Y}
    {l : List (Adapter X Y)} {x : X} {h : Hints} (ha : a.accepts x h = .ok false) :
    dispatched root (a :: l) x h = dispatched root l x h := by
  simp [dispatched, firstMatch, ha]

theorem dispatched_nil {root : X → Hints → Except Err Y} {x : X} {h : Hints} :
    dispatched root [] x h = .error .notImplemented := rfl

end

/-- A system without extensions is its dispatch. -/
theorem convert_leaf {X Y : Type} (root : X → Hints → Except Err Y) (k : Str)
    (ads : PyDict Str (Adapter X Y)) (x : X) (h : Hints) :
    convert root (.mk k ads []) x h =
      dispatched root (sortByPriority (ads.map Prod.snd)) x h := by
  rw [convert, dispatched]
  generalize firstMatch _ x h = r
  rcases r with e | (_ | a) <;> simp [convertExt]

/-- Extending one system. -/
theorem convertExt_single {X Y : Type} (root : X → Hints → Except Err Y) (ts : TypeSystem X Y)
    (x : X) (h : Hints) : convertExt root [ts] x h = convert root ts x h := by
  rw [convertExt]
  rcases convert root ts x h with e | y
  · cases e <;> rfl
  · rfl

@[simp] theorem nullable_setNullable (t : Ty) (b : Bool) : (t.setNullable b).nullable = b := by
  cases t <;> rfl
@[simp] theorem size_setNullable (t : Ty) (b : Bool) : (t.setNullable b).size = t.size := by
  cases t <;> simp [Ty.setNullable, Ty.withMeta, Ty.size]
theorem size_pos (t : Ty) : 0 < t.size := by cases t <;> simp [Ty.size] <;> omega

@[simp] theorem setNullable_setNullable (t : Ty) (a b : Bool) :
    (t.setNullable a).setNullable b = t.setNullable b := by
  cases t <;> rfl

theorem setNullable_self {t : Ty} {b : Bool} (h : t.nullable = b) : t.setNullable b = t := by
  subst h; cases t <;> rfl

theorem mem_sizes {fs : List (Str × Ty)} {x : Str × Ty} (h : x ∈ fs) : x.2.size ≤ Ty.sizes fs := by
  induction fs with
  | nil => simp at h
  | cons y fs ih =>
    obtain ⟨n, t⟩ := y
    rcases List.mem_cons.1 h with h | h
    · subst h; simp [Ty.sizes]
    · have := ih h; simp [Ty.sizes]; omega

end Typ
end Arti
