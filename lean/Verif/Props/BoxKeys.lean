import Verif.Props.TypedBox

/-!
# C76: names with a leading underscore
-/

namespace Arti.Props
open Arti Arti.Box PyDict
variable {α V : Type} (castV : List Str → Str → α → Except Err V)

/-- Some part of the (dotted) key begins with an underscore. -/
def HasPrivatePart (key : Str) : Prop := ∃ part ∈ splitOn '.' key, part.head? = some '_'

theorem isPrivate_iff (s : Str) : isPrivate s = true ↔ s.head? = some '_' := by
  unfold isPrivate
  split
  · simp
  · rename_i h
    cases s with
    | nil => simp
    | cons c s =>
      simp only [Bool.false_eq_true, List.head?_cons, Option.some.injEq, false_iff]
      rintro rfl
      exact h s rfl

/-- With a private part, what would be done at the end of the path does not matter, and nothing is
returned. -/
theorem atPath_private {ρ : Type} (opn : Bool)
    (f g : List Str → BoxData V → Str → BoxData V × Except Err ρ) :
    ∀ (parts : List Str) (ns : List Str) (d : BoxData V), (∃ p ∈ parts, isPrivate p = true) →
      atPath opn false f ns d parts = atPath opn false g ns d parts ∧
      ∃ e, (atPath opn false f ns d parts).2 = .error e
  | [], _, _, h => by simp at h
  | [tail], ns, d, h => by
    have : isPrivate tail = true := by simpa using h
    simp [atPath, this]
  | part :: p2 :: rest, ns, d, h => by
    have ih := atPath_private opn f g (p2 :: rest)
    simp only [atPath, Bool.false_eq_true, if_false]
    split
    · exact ⟨rfl, _, rfl⟩
    · rename_i hp
      have h' : ∃ p ∈ p2 :: rest, isPrivate p = true := by
        obtain ⟨p, hpm, hpp⟩ := h
        rcases List.mem_cons.1 hpm with rfl | hpm
        · exact absurd hpp hp
        · exact ⟨p, hpm, hpp⟩
      split
      · split
        · obtain ⟨h1, e, h2⟩ := ih (ns ++ [part]) [] h'
          exact ⟨by rw [h1], e, h2⟩
        · exact ⟨rfl, _, rfl⟩
      · rename_i c _
        obtain ⟨h1, e, h2⟩ := ih (ns ++ [part]) c h'
        exact ⟨by rw [h1], e, h2⟩
      · split
        · exact ⟨rfl, _, rfl⟩
        · exact ⟨rfl, _, rfl⟩

/-- **C76.** Whatever is in the box and whether it is open or not: a key with a part that begins
with an underscore can be neither read nor assigned, as an item or as an attribute, and is never
contained; `InvalidKeyError` is raised at once if its first part is such a name. -/
theorem C76_never_keys (d : BoxData V) (hd : Reachable castV d) (opn : Bool) (key : Str)
    (hk : HasPrivatePart key) :
    (∃ e, (getItem opn d key).2 = .error e) ∧ (∃ e, (getAttr opn d key).2 = .error e) ∧
    (∀ value, ∃ e, (setItem castV opn d key value).2 = .error e) ∧
    (∀ value, ∃ e, (setAttr castV opn d key value).2 = .error e) ∧
    (containsKey opn d key).2 ≠ .ok true ∧
    (key.head? = some '_' →
      getItem opn d key = (d, .error .invalidKeyError) ∧
      getAttr opn d key = (d, .error .invalidKeyError) ∧
      containsKey opn d key = (d, .error .invalidKeyError) ∧
      ∀ value, setItem castV opn d key value = (d, .error .invalidKeyError) ∧
        setAttr castV opn d key value = (d, .error .invalidKeyError)) := by
  have hk' : ∃ p ∈ splitOn '.' key, isPrivate p = true := by
    obtain ⟨p, h1, h2⟩ := hk
    exact ⟨p, h1, (isPrivate_iff p).2 h2⟩
  have hget : ∃ e, (getItem opn d key).2 = .error e :=
    (atPath_private opn (getLast opn) (getLast opn) _ _ _ hk').2
  have hset : ∀ value, ∃ e, (setItem castV opn d key value).2 = .error e := fun value =>
    (atPath_private opn (fun ns d key => assign castV opn value ns d key)
      (fun ns d key => assign castV opn value ns d key) _ _ _ hk').2
  refine ⟨hget, ?_, hset, fun value => ?_, fun hc => ?_, fun hh => ?_⟩
  · unfold getAttr
    split
    · exact ⟨_, rfl⟩
    · split
      · exact ⟨_, rfl⟩
      · exact hget
  · unfold setAttr
    split
    · exact ⟨_, rfl⟩
    · exact hset value
  · obtain ⟨n, hn⟩ := (C16_membership_pure castV d hd opn key).2.1 hc
    obtain ⟨e, he⟩ := hget
    rw [hn] at he
    cases he
  · have hp : isPrivate key = true := (isPrivate_iff key).2 hh
    have hat : ∀ {ρ : Type} (short : Bool) (f : List Str → BoxData V → Str → BoxData V × Except Err ρ),
        atPath opn short f [] d (splitOn '.' key) = (d, .error .invalidKeyError) := by
      intro ρ short f
      have hfirst : ∃ p rest, splitOn '.' key = p :: rest ∧ isPrivate p = true := by
        cases key with
        | nil => simp at hh
        | cons c cs =>
          simp only [List.head?_cons, Option.some.injEq] at hh
          subst hh
          simp only [splitOn]
          rw [if_neg (by decide)]
          split
          · exact ⟨_, _, rfl, rfl⟩
          · exact ⟨_, _, rfl, rfl⟩
      obtain ⟨p, rest, he, hpp⟩ := hfirst
      rw [he]
      cases rest with
      | nil => simp [atPath, hpp]
      | cons q rest => simp [atPath, hpp]
    refine ⟨hat _ _, ?_, hat _ _, fun value => ⟨hat _ _, ?_⟩⟩
    · unfold getAttr; rw [if_pos hp]
    · unfold setAttr; rw [if_pos hp]

/-- **C76.** Trying to assign to such a key leaves all values of the box as they were. -/
theorem C76_attempts_change_no_values (d : BoxData V) (hd : Reachable castV d) (opn : Bool)
    (key : Str) (hk : HasPrivatePart key) (value : Inp α) :
    (walk (setItem castV opn d key value).1).Perm (walk d) := by
  have hk' : ∃ p ∈ splitOn '.' key, isPrivate p = true := by
    obtain ⟨p, h1, h2⟩ := hk
    exact ⟨p, h1, (isPrivate_iff p).2 h2⟩
  have hw' : Wf (.box (setItem castV opn d key value).1) := by
    have := reachable_wf castV (.step opn d (.setItem key value) hd)
    rwa [box_step_fst] at this
  refine walk_perm_of_frame (reachable_wf castV hd) hw' ?_
  unfold setItem
  rw [(atPath_private opn _ (fun _ d _ => (d, .error .invalidKeyError)) _ _ _ hk').1]
  exact (atPath_frame (Y := fun _ _ _ => False) (fun _ d _ => Frame.refl _ d) _ _ _).mono
    (by rintro p ⟨_, _, _, _, h, _⟩; exact h)

/-- **C76.** No box that a program can hold has a value under such a key, however the value was
given: by the constructor, as an item, as an attribute or inside of a mapping. -/
theorem C76_no_value_has_such_a_key (d : BoxData V) (hd : Reachable castV d) (key : Str) (v : V)
    (h : (key, v) ∈ walk d) : ¬ HasPrivatePart key := by
  intro hk
  have hh := ((C15_walk_enumerates castV d hd).2 key v).1 h
  obtain ⟨e, he⟩ := (C76_never_keys castV d hd true key hk).1
  rw [hh true] at he
  cases he

/-- The hypotheses are met; the empty box `a` is made on the way, values are not. -/
example : HasPrivatePart "a._b".toList := ⟨['_', 'b'], by decide, rfl⟩
example : (setItem exCast true [] "a._b".toList (.raw 1)).1 = [(['a'], .box [])] := rfl
example : setItem exCast true exBox "_b.x".toList (.raw 1) = (exBox, .error .invalidKeyError) :=
  ((C76_never_keys exCast exBox exBox_reachable true "_b.x".toList
    ⟨['_', 'b'], by decide, rfl⟩).2.2.2.2.2 rfl).2.2.2 _ |>.1

end Arti.Props
