import Verif.Lemmas.TypedBox
import Mathlib.Data.List.Sort

/-!
# C12-C17, C54: TypedBox

The theorems are stated with the operations of the box only: item and attribute reads and
writes, membership, `walk` and programs (`run`) made of them, in which failing operations are
caught.  `castV` is the arbitrary conversion of assigned values.
-/

namespace Arti.Props
open Arti Arti.Box PyDict
variable {α V : Type} (castV : List Str → Str → α → Except Err V)

/-- A box that a program can hold: built by the constructor and then changed by operations, each
called while the box is open or closed. -/
inductive Reachable : BoxData V → Prop
  | construct (items : InpItems α) (d : BoxData V) : construct castV items = .ok d → Reachable d
  | step (opn : Bool) (d : BoxData V) (op : Op α) : Reachable d → Reachable (step castV opn d op).1

/-- What looking up a key gives as a value: `box[key]` returns the value `v`. -/
def Holds (d : BoxData V) (key : Str) (v : V) : Prop :=
  ∀ opn, getItem opn d key = (d, .ok (.leaf v))

theorem box_step_fst (opn : Bool) (d : BoxData V) (op : Op α) :
    (step castV opn d op).1 = match op with
      | .getItem key => (getItem opn d key).1
      | .getAttr key => (getAttr opn d key).1
      | .contains key => (containsKey opn d key).1
      | .walk => d
      | .setItem key v => (setItem castV opn d key v).1
      | .setAttr key v => (setAttr castV opn d key v).1 := by
  cases op <;> rfl

theorem box_getAttr_fst (opn : Bool) (d : BoxData V) (key : Str) :
    (getAttr opn d key).1 = if isPrivate key then d else (getItem opn d key).1 := by
  unfold getAttr
  split
  · rfl
  · split
    · rename_i h; rw [h]
    · rfl

theorem box_step_wf (opn : Bool) (d : BoxData V) (op : Op α) (h : Wf (.box d)) :
    Wf (.box (step castV opn d op).1) := by
  have hget : ∀ key, Wf (.box (getItem opn d key).1) := fun key =>
    atPath_wf (fun ns d k hw hd hp => by
      unfold getLast
      split
      · exact hw
      · split
        · exact hw.set hd hp Wf.nil
        · exact hw) _ _ _ (fun p hp => not_mem_splitOn '.' key p hp) h
  have hset : ∀ key v, Wf (.box (setItem castV opn d key v).1) := fun key v =>
    atPath_wf (fun ns d k hw hd hp => assign_wf castV opn v ns d k hw hd hp) _ _ _
      (fun p hp => not_mem_splitOn '.' key p hp) h
  rw [box_step_fst]
  cases op with
  | getItem key => exact hget key
  | getAttr key => simp only [box_getAttr_fst]; split; exacts [h, hget key]
  | contains key =>
    unfold containsKey
    exact atPath_wf (fun _ d _ hw _ _ => hw) _ _ _ (fun p hp => not_mem_splitOn '.' key p hp) h
  | walk => exact h
  | setItem key v => exact hset key v
  | setAttr key v => simp only [setAttr]; split; exacts [h, hset key v]

theorem reachable_wf {d : BoxData V} (h : Reachable castV d) : Wf (.box d) := by
  induction h with
  | construct items d hc =>
    have := assignAll_wf castV true items [] [] Wf.nil
    unfold construct at hc
    split at hc
    · rename_i he; rw [he] at this; cases hc; exact this
    · cases hc
  | step opn d op _ ih => exact box_step_wf castV opn d op ih

private theorem step_pres (opn : Bool) (d : BoxData V) (op : Op α) :
    Pres d (step castV opn d op).1 := by
  have hget : ∀ key, Pres d (getItem opn d key).1 := fun key =>
    atPath_pres (getLast_pres opn) _ _ _
  have hset : ∀ key v, Pres d (setItem castV opn d key v).1 := fun key v =>
    atPath_pres (fun ns d k => assign_pres castV opn v ns d k) _ _ _
  rw [box_step_fst]
  cases op with
  | getItem key => exact hget key
  | getAttr key => simp only [box_getAttr_fst]; split; exacts [Pres.refl d, hget key]
  | contains key => exact atPath_pres (fun _ d _ => Pres.refl d) _ _ _
  | walk => exact Pres.refl d
  | setItem key v => exact hset key v
  | setAttr key v => simp only [setAttr]; split; exacts [Pres.refl d, hset key v]

private theorem run_pres (d : BoxData V) (prog : List (Bool × Op α)) :
    Pres d (run castV d prog).1 ∧ (Reachable castV d → Reachable castV (run castV d prog).1) := by
  induction prog generalizing d with
  | nil => exact ⟨Pres.refl d, id⟩
  | cons x prog ih =>
    obtain ⟨opn, op⟩ := x
    have := ih (step castV opn d op).1
    exact ⟨(step_pres castV opn d op).trans this.1, fun h => this.2 (.step opn d op h)⟩

theorem box_holds_iff {d : BoxData V} (hw : Wf (.box d)) (key : Str) (v : V) :
    Holds d key v ↔ nodeAt (.box d) (splitOn '.' key) = some (.leaf v) := by
  constructor
  · intro h
    have := (getPath_leaf_iff true (splitOn '.' key) [] d v hw (splitOn_ne_nil _ _)).1
    exact this (by have := h true; unfold getItem at this; rw [this])
  · intro h opn
    exact getPath_node opn _ _ d _ hw h (splitOn_ne_nil _ _)

/-- For a reachable box, a lookup that returns a value (open or closed) is a `Holds`. -/
theorem C14_holds_of_lookup (d : BoxData V) (hd : Reachable castV d) (opn : Bool) (key : Str)
    (v : V) (h : (getItem opn d key).2 = .ok (.leaf v)) : Holds d key v := by
  have hw := reachable_wf castV hd
  exact (box_holds_iff hw key v).2
    ((getPath_leaf_iff opn (splitOn '.' key) [] d v hw (splitOn_ne_nil _ _)).1 h)

/-- C12: on a closed box, no program changes anything, and every assignment in it raises. -/
theorem C12_closed_never_changes (d : BoxData V) (ops : List (Op α)) :
    (run castV d (ops.map (fun op => (false, op)))).1 = d ∧
    ∀ (i : Nat) (op : Op α), ops[i]? = some op → op.isAssign = true →
      ∃ e, (run castV d (ops.map (fun op => (false, op)))).2[i]? = some (some e) := by
  have hget : ∀ (d : BoxData V) key, (getItem false d key).1 = d := fun d key =>
    atPath_closed getLast_closed _ _ _
  have hset1 : ∀ (d : BoxData V) key v, (setItem castV false d key v).1 = d := fun d key v =>
    atPath_closed (fun ns d k => by rw [assign_closed]) _ _ _
  have hset2 : ∀ (d : BoxData V) key v, ∃ e, (setItem castV false d key v).2 = .error e :=
    fun d key v => atPath_err (fun ns d k => ⟨.valueError, by rw [assign_closed]⟩) _ _ _
  have hstep : ∀ (d : BoxData V) op, (step castV false d op).1 = d := by
    intro d op
    rw [box_step_fst]
    cases op with
    | getItem key => exact hget d key
    | getAttr key => simp only [box_getAttr_fst]; split; exacts [rfl, hget d key]
    | contains key => exact atPath_closed (fun _ _ _ => rfl) _ _ _
    | walk => rfl
    | setItem key v => exact hset1 d key v
    | setAttr key v => simp only [setAttr]; split; exacts [rfl, hset1 d key v]
  have hres : ∀ (d : BoxData V) op, op.isAssign = true → ∃ e, (step castV false d op).2 = some e := by
    intro d op ho
    cases op with
    | setItem key v =>
      obtain ⟨e, he⟩ := hset2 d key v
      exact ⟨e, by simp [step, he]⟩
    | setAttr key v =>
      by_cases hp : isPrivate key
      · exact ⟨.invalidKeyError, by simp [step, setAttr, hp]⟩
      · obtain ⟨e, he⟩ := hset2 d key v
        exact ⟨e, by simp [step, setAttr, hp, he]⟩
    | _ => simp [Op.isAssign] at ho
  induction ops with
  | nil => exact ⟨rfl, by simp⟩
  | cons op ops ih =>
    simp only [List.map_cons, run]
    rw [hstep d op]
    refine ⟨ih.1, fun i o hi ho => ?_⟩
    cases i with
    | zero =>
      simp only [List.getElem?_cons_zero, Option.some.injEq] at hi
      subst hi
      obtain ⟨e, he⟩ := hres d op ho
      exact ⟨e, by simp [he]⟩
    | succ i =>
      simp only [List.getElem?_cons_succ] at hi ⊢
      exact ih.2 i o hi ho

/-- C13: a value found under a key is found under that key after any further program, whatever
its operations and their failures. -/
theorem C13_write_once (d : BoxData V) (hd : Reachable castV d) (key : Str) (v : V)
    (h : Holds d key v) (prog : List (Bool × Op α)) : Holds (run castV d prog).1 key v := by
  have hw := reachable_wf castV hd
  have hw' := reachable_wf castV ((run_pres castV d prog).2 hd)
  exact (box_holds_iff hw' key v).2 ((run_pres castV d prog).1 _ _ ((box_holds_iff hw key v).1 h))

/-- A key holds at most one value. -/
theorem C13_holds_unique (d : BoxData V) (key : Str) (v w : V) (h : Holds d key v)
    (h' : Holds d key w) : v = w := by
  have := (h true).symm.trans (h' true)
  simpa using this

/-- C14: after a successful assignment of a value, the key holds the value that the conversion
gave for it (called with the parts of the dotted key), and every other key holds exactly what it
held before. -/
theorem C14_read_after_write_and_frame (d : BoxData V) (hd : Reachable castV d) (opn : Bool)
    (key : Str) (a : α) (d' : BoxData V) (h : setItem castV opn d key (.raw a) = (d', .ok ())) :
    (∃ ns last v, splitOn '.' key = ns ++ [last] ∧ castV ns last a = .ok v ∧ Holds d' key v) ∧
    ∀ key', key' ≠ key → ∀ w, Holds d' key' w ↔ Holds d key' w := by
  have hw := reachable_wf castV hd
  have hw' : Wf (.box d') := by
    have := reachable_wf castV (.step opn d (.setItem key (.raw a)) hd)
    rw [box_step_fst] at this
    simpa [h] using this
  have hs := setPath_raw_stored castV opn a (splitOn '.' key) [] d
    (by unfold setItem at h; rw [h])
  have hf := atPath_frame (opn := opn)
    (f := fun ns d key => assign castV opn (.raw a) ns d key)
    (Y := fun r k p => r = .ok () ∧ p = [k])
    (fun ns d k => assign_raw_frame castV opn a ns d k) (splitOn '.' key) [] d
  unfold setItem at h
  rw [h] at hs hf
  obtain ⟨ns, last, v, h1, h2, h3⟩ := hs
  refine ⟨⟨ns, last, v, h1, by simpa using h2, (box_holds_iff hw' key v).2 h3⟩, fun key' hk w => ?_⟩
  rw [box_holds_iff hw', box_holds_iff hw]
  apply hf
  rintro ⟨ini, l, q, e1, ⟨_, rfl⟩, e2⟩
  apply hk
  rw [← joinWith_splitOn '.' key', ← joinWith_splitOn '.' key, e2, e1]

theorem box_mem_walk_iff {d : BoxData V} (hw : Wf (.box d)) (key : Str) (v : V) :
    (key, v) ∈ walk d ↔ Holds d key v := by
  rw [box_holds_iff hw]
  have h := mem_walkNode (.box d) [] key v hw
  simp only [walkNode, List.nil_append] at h
  unfold walk
  rw [h]
  constructor
  · rintro ⟨p, rfl, hp⟩
    have hne : p ≠ [] := by rintro rfl; simp [nodeAt] at hp
    rw [splitOn_joinWith '.' p hne (nodeAt_parts hw p _ hp)]
    exact hp
  · intro hp
    exact ⟨splitOn '.' key, (joinWith_splitOn '.' key).symm, hp⟩

private theorem nodup_walk {d : BoxData V} (hw : Wf (.box d)) : ((walk d).map Prod.fst).Nodup := by
  cases hw with
  | box _ h1 h2 h3 =>
    exact nodup_walkData d [] h1 (fun k n hm => ⟨(h2 k n hm).1, (h2 k n hm).2, h3 k n hm⟩) (by simp)

/-- C15: `walk` yields distinct keys, each with the value that looking it up returns, and it
yields every value that can be looked up. -/
theorem C15_walk_enumerates (d : BoxData V) (hd : Reachable castV d) :
    ((walk d).map Prod.fst).Nodup ∧ ∀ key v, (key, v) ∈ walk d ↔ Holds d key v :=
  ⟨nodup_walk (reachable_wf castV hd), fun key v => box_mem_walk_iff (reachable_wf castV hd) key v⟩

/-- C16: membership never changes the box, and is true iff the lookup of the key finds an entry
without having to create one. -/
theorem C16_membership_pure (d : BoxData V) (hd : Reachable castV d) (opn : Bool) (key : Str) :
    (containsKey opn d key).1 = d ∧
    ((containsKey opn d key).2 = .ok true ↔ ∃ n, getItem opn d key = (d, .ok n)) := by
  have hw := reachable_wf castV hd
  have h := containsPath_spec opn (splitOn '.' key) [] d hw (splitOn_ne_nil _ _)
  refine ⟨h.1, h.2.trans ⟨?_, ?_⟩⟩
  · rintro ⟨n, hn⟩; exact ⟨n, getPath_node opn _ _ d n hw hn (splitOn_ne_nil _ _)⟩
  · rintro ⟨n, hn⟩; exact ⟨n, getPath_exists opn _ _ d n hn⟩

theorem walk_perm_of_frame {d d' : BoxData V} (hw : Wf (.box d)) (hw' : Wf (.box d'))
    (h : Frame (fun _ => False) d d') : (walk d').Perm (walk d) := by
  rw [List.perm_ext_iff_of_nodup (List.Nodup.of_map _ (nodup_walk hw'))
    (List.Nodup.of_map _ (nodup_walk hw))]
  rintro ⟨key, v⟩
  rw [box_mem_walk_iff hw', box_mem_walk_iff hw, box_holds_iff hw', box_holds_iff hw]
  exact h _ (fun h => h) v

/-- C17 (what holds): a failed assignment leaves the values unchanged if the assigned value is
not a mapping, or if the key was not present. -/
theorem C17_failed_assignment_partial (d : BoxData V) (hd : Reachable castV d) (opn : Bool)
    (key : Str) (value : Inp α) (e : Err) (d' : BoxData V)
    (h : setItem castV opn d key value = (d', .error e))
    (hv : (∃ a, value = .raw a) ∨ (containsKey opn d key).2 ≠ .ok true) :
    (walk d').Perm (walk d) := by
  have hw := reachable_wf castV hd
  have hw' : Wf (.box d') := by
    have := reachable_wf castV (.step opn d (.setItem key value) hd)
    rw [box_step_fst] at this
    simpa [h] using this
  unfold setItem at h
  apply walk_perm_of_frame hw hw'
  cases value with
  | raw a =>
    have hf := atPath_frame (opn := opn)
      (f := fun ns d key => assign castV opn (.raw a) ns d key)
      (Y := fun r k p => r = .ok () ∧ p = [k])
      (fun ns d k => assign_raw_frame castV opn a ns d k) (splitOn '.' key) [] d
    rw [h] at hf
    exact hf.mono (by rintro p ⟨_, _, _, _, ⟨h, _⟩, _⟩; cases h)
  | map items =>
    rcases hv with ⟨a, ha⟩ | hv
    · cases ha
    · have hc := containsPath_spec opn (splitOn '.' key) [] d hw (splitOn_ne_nil _ _)
      have hn : nodeAt (.box d) (splitOn '.' key) = none := by
        cases hn : nodeAt (.box d) (splitOn '.' key) with
        | none => rfl
        | some n => exact absurd (hc.2.2 ⟨n, hn⟩) hv
      have := setPath_map_fresh castV opn items e (splitOn '.' key) [] d hn (by rw [h])
      rw [h] at this
      exact this

/-- A conversion that accepts numbers below 10 and raises for the others. -/
def exCast : List Str → Str → Nat → Except Err Nat := fun _ _ n =>
  if n < 10 then .ok n else .error .valueError

/-- The box `{"a": {"x": 1}}`. -/
def exBox : BoxData Nat := [(['a'], .box [(['x'], .leaf 1)])]

theorem exBox_reachable : Reachable exCast exBox :=
  .construct (.cons ['a'] (.map (.cons ['x'] (.raw 1) .nil)) .nil) _ rfl

/-- C17 (violated): `box["a"] = {"b": 2, "c": <bad>}` raises, but `a.b` is stored. -/
theorem C17_failed_assignment_violated :
    ¬ ∀ (d : BoxData Nat), Reachable exCast d → ∀ (opn : Bool) (key : Str) (value : Inp Nat)
      (e : Err) (d' : BoxData Nat), setItem exCast opn d key value = (d', .error e) →
      (walk d').Perm (walk d) := by
  intro h
  have := h exBox exBox_reachable true ['a']
    (.map (.cons ['b'] (.raw 2) (.cons ['c'] (.raw 20) .nil))) .valueError
    [(['a'], .box [(['x'], .leaf 1), (['b'], .leaf 2)])] rfl
  exact absurd this.length_eq (by decide)

/-- C54: the serialised form of a box (which is what its fingerprint is computed from) depends
only on the values it holds, not on the order in which they were assigned. -/
theorem C54_serialize_order_free (le : Str → Str → Bool)
    (trans : ∀ a b c, le a b = true → le b c = true → le a c = true)
    (total : ∀ a b, (le a b || le b a) = true)
    (antisymm : ∀ a b, le a b = true → le b a = true → a = b)
    (d d' : BoxData V) (hd : Reachable castV d) (hd' : Reachable castV d')
    (h : ∀ key v, Holds d key v ↔ Holds d' key v) : serialize le d = serialize le d' := by
  have hw := reachable_wf castV hd
  have hw' := reachable_wf castV hd'
  have hp : (walk d).Perm (walk d') := by
    rw [List.perm_ext_iff_of_nodup (List.Nodup.of_map _ (nodup_walk hw))
      (List.Nodup.of_map _ (nodup_walk hw'))]
    rintro ⟨key, v⟩
    rw [box_mem_walk_iff hw, box_mem_walk_iff hw']
    exact h key v
  unfold serialize
  congr 1
  refine List.Perm.eq_of_pairwise (le := fun a b => le a.1 b.1 = true) ?_
    (List.pairwise_mergeSort (α := Str × V) (le := fun a b => le a.1 b.1) (fun a b c => trans a.1 b.1 c.1)
      (fun a b => total a.1 b.1) _)
    (List.pairwise_mergeSort (α := Str × V) (le := fun a b => le a.1 b.1) (fun a b c => trans a.1 b.1 c.1)
      (fun a b => total a.1 b.1) _)
    ((List.mergeSort_perm _ _).trans (hp.trans (List.mergeSort_perm _ _).symm))
  rintro ⟨k, v⟩ ⟨k', w⟩ ha hb h1 h2
  have hk : k = k' := antisymm _ _ h1 h2
  subst hk
  have h1 := (box_mem_walk_iff hw k v).1 ((List.mergeSort_perm _ _).mem_iff.1 ha)
  have h2 := (h k w).2 ((box_mem_walk_iff hw' k w).1 ((List.mergeSort_perm _ _).mem_iff.1 hb))
  rw [C13_holds_unique d k v w h1 h2]

/-! ### Concrete cases -/

example : Holds exBox ['a', '.', 'x'] 1 := fun opn => by cases opn <;> rfl
example : walk exBox = [(['a', '.', 'x'], 1)] := by decide
example : setItem exCast true exBox ['a', '.', 'y'] (.raw 3) =
    ([(['a'], .box [(['x'], .leaf 1), (['y'], .leaf 3)])], .ok ()) := rfl
example : setItem exCast true exBox ['a', '.', 'y'] (.raw 30) =
    (exBox, .error .valueError) := rfl
example : setItem exCast true exBox ['q'] (.map (.cons ['y'] (.raw 3) (.cons ['z'] (.raw 30) .nil)))
    = (exBox, .error .valueError) := rfl
example : (containsKey true exBox ['q']).2 = .ok false := rfl
example : (run exCast exBox [(true, .setItem ['a', '.', 'x'] (.raw 2)),
    (true, .getItem ['b', '.', 'c']), (false, .setAttr ['d'] (.raw 2)), (true, .contains ['e'])]) =
    ([(['a'], .box [(['x'], .leaf 1)]), (['b'], .box [(['c'], .box [])])],
     [some .valueError, none, some .valueError, none]) := rfl

end Arti.Props
