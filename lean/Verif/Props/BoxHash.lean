import Verif.Model.BoxHash
import Verif.Props.TypedBox
import Mathlib.Data.List.Perm.Subperm

/-!
# C80: equal boxes hold the same, and have the same hash
-/

namespace Arti.Props
open PyDict Box

/-- Two lookups agree: both find equal values, or both a box, or both nothing. -/
def Agree {V : Type} (eqV : V → V → Bool) : Option (Node V) → Option (Node V) → Prop
  | none, none => True
  | some (.leaf v), some (.leaf w) => eqV v w = true
  | some (.box _), some (.box _) => True
  | _, _ => False

variable {α V : Type} {castV : List Str → Str → α → Except Err V} {eqV : V → V → Bool}

private theorem itemsIn_iff {d e : List (Str × Node V)} : itemsIn eqV d e = true ↔
    ∀ k n, (k, n) ∈ d → ∃ m, get? e k = some m ∧ nodeEq eqV n m = true := by
  induction d with
  | nil => simp [itemsIn]
  | cons x d ih =>
    obtain ⟨k, n⟩ := x
    unfold itemsIn
    rw [Bool.and_eq_true, ih]
    constructor
    · rintro ⟨h1, h2⟩ k' n' hm
      rcases List.mem_cons.1 hm with heq | hm
      · simp only [Prod.mk.injEq] at heq
        obtain ⟨rfl, rfl⟩ := heq
        cases hg : get? e k' with
        | none => rw [hg] at h1; simp at h1
        | some m => rw [hg] at h1; exact ⟨m, rfl, h1⟩
      · exact h2 k' n' hm
    · intro h
      refine ⟨?_, fun k' n' hm => h k' n' (List.mem_cons_of_mem _ hm)⟩
      obtain ⟨m, hg, hm⟩ := h k n (by simp)
      rw [hg]; exact hm

/-- Two dicts with as many keys, if one has all keys of the other, have the same keys. -/
private theorem same_keys {ν ν' : Type} {d : PyDict Str ν} {e : PyDict Str ν'} (hd : (keys d).Nodup)
    (hl : d.length = e.length) (h : ∀ k ∈ keys d, k ∈ keys e) :
    ∀ k, k ∈ keys d ↔ k ∈ keys e := by
  have hp : (keys d).Perm (keys e) :=
    (List.subperm_of_subset hd h).perm_of_length_le (by simp [keys, hl])
  exact fun k => hp.mem_iff

/-- Equality says that lookups agree along every path. -/
private theorem nodeEq_iff {n : Node V} (hn : Wf n) : ∀ {m : Node V}, Wf m →
    (nodeEq eqV n m = true ↔ ∀ path, Agree eqV (nodeAt n path) (nodeAt m path)) := by
  induction hn with
  | leaf v =>
    intro m hm
    cases m with
    | leaf w =>
      constructor
      · intro h path
        cases path with
        | nil => exact h
        | cons k p => exact trivial
      · intro h; exact h []
    | box e =>
      constructor
      · intro h; simp [nodeEq] at h
      · intro h; exact absurd (h []) (by simp [nodeAt, Agree])
  | box d hd _ hc ih =>
    intro m hm
    cases m with
    | leaf w =>
      constructor
      · intro h; simp [nodeEq] at h
      · intro h; exact absurd (h []) (by simp [nodeAt, Agree])
    | box e =>
      have he := hm.nodup
      unfold nodeEq
      rw [Bool.and_eq_true, itemsIn_iff, beq_iff_eq]
      constructor
      · rintro ⟨hl, h⟩ path
        cases path with
        | nil => exact trivial
        | cons k p =>
          have hk := same_keys hd hl (fun k hk => by
            obtain ⟨⟨k', n⟩, h1, h2⟩ := List.mem_map.1 hk
            simp only at h2; subst h2
            obtain ⟨m, hg, -⟩ := h _ n h1
            exact List.mem_map.2 ⟨_, get?_mem hg, rfl⟩) k
          rw [nodeAt_box_cons, nodeAt_box_cons]
          cases hgd : get? d k with
          | none =>
            have : get? e k = none := by
              rw [get?_eq_none_iff, ← hk, ← get?_eq_none_iff]; exact hgd
            rw [this]; exact trivial
          | some n =>
            obtain ⟨m, hg, hnm⟩ := h k n (get?_mem hgd)
            rw [hg]
            exact (ih k n (get?_mem hgd) (hm.child hg).2.2).1 hnm p
      · intro h
        have hkeys : ∀ k, get? d k = none ↔ get? e k = none := by
          intro k
          have := h [k]
          rw [nodeAt_box_cons, nodeAt_box_cons] at this
          cases h1 : get? d k with
          | none =>
            cases h2 : get? e k with
            | none => simp
            | some m => rw [h1, h2] at this; simp [nodeAt, Agree] at this
          | some n =>
            cases h2 : get? e k with
            | some m => simp
            | none => rw [h1, h2] at this; cases n <;> simp [nodeAt, Agree] at this
        refine ⟨?_, ?_⟩
        · have hp : (keys d).Perm (keys e) := by
            rw [List.perm_ext_iff_of_nodup hd he]
            intro k
            have := hkeys k
            rw [get?_eq_none_iff, get?_eq_none_iff] at this
            exact not_iff_not.1 this
          simpa [keys] using hp.length_eq
        · intro k n hm'
          have hgd := get?_of_mem hd hm'
          cases hge : get? e k with
          | none => rw [(hkeys k).2 hge] at hgd; simp at hgd
          | some m =>
            refine ⟨m, rfl, (ih k n hm' (hm.child hge).2.2).2 fun p => ?_⟩
            have := h (k :: p)
            rw [nodeAt_box_cons, nodeAt_box_cons, hgd, hge] at this
            exact this

/-- **C80.** Two boxes are equal iff every lookup, along any keys, finds equal values in both, or a
nested box in both, or nothing in both; in what order they were assigned makes no difference. -/
theorem C80_equal_iff_lookups_agree {d e : BoxData V} (hd : Reachable castV d)
    (he : Reachable castV e) :
    boxEq eqV d e = true ↔
      ∀ path, Agree eqV (nodeAt (.box d) path) (nodeAt (.box e) path) :=
  nodeEq_iff (reachable_wf castV hd) (reachable_wf castV he)

/-- **C80.** Equal boxes hold equal values under the same keys. -/
theorem C80_equal_boxes_hold_equal_values {d e : BoxData V} (hd : Reachable castV d)
    (he : Reachable castV e) (h : boxEq eqV d e = true) (key : Str) :
    (∀ v, Holds d key v → ∃ w, Holds e key w ∧ eqV v w = true) ∧
    ∀ w, Holds e key w → ∃ v, Holds d key v ∧ eqV v w = true := by
  have hwd := reachable_wf castV hd
  have hwe := reachable_wf castV he
  have hk := (C80_equal_iff_lookups_agree hd he).1 h (splitOn '.' key)
  constructor
  · intro v hv
    rw [(box_holds_iff hwd key v).1 hv] at hk
    cases hn : nodeAt (.box e) (splitOn '.' key) with
    | none => rw [hn] at hk; simp [Agree] at hk
    | some n =>
      rw [hn] at hk
      cases n with
      | leaf w => exact ⟨w, (box_holds_iff hwe key w).2 hn, hk⟩
      | box _ => simp [Agree] at hk
  · intro w hw
    rw [(box_holds_iff hwe key w).1 hw] at hk
    cases hn : nodeAt (.box d) (splitOn '.' key) with
    | none => rw [hn] at hk; simp [Agree] at hk
    | some n =>
      rw [hn] at hk
      cases n with
      | leaf v => exact ⟨v, (box_holds_iff hwd key v).2 hn, hk⟩
      | box _ => simp [Agree] at hk

private theorem nodeAt_append : ∀ (p q : List Str) (n : Node V),
    nodeAt n (p ++ q) = (nodeAt n p).bind fun m => nodeAt m q
  | [], q, n => by simp [nodeAt]
  | k :: p, q, .leaf v => rfl
  | k :: p, q, .box d => by
    rw [List.cons_append, nodeAt_box_cons, nodeAt_box_cons]
    cases get? d k with
    | none => rfl
    | some n => exact nodeAt_append p q n

/-- Below a box without empty boxes there is a value. -/
private theorem some_leaf {n : Node V} (hn : Wf n) (h : ∀ p, nodeAt n p ≠ some (.box [])) :
    ∃ p v, nodeAt n p = some (.leaf v) := by
  induction hn with
  | leaf v => exact ⟨[], v, rfl⟩
  | box d hd _ _ ih =>
    cases d with
    | nil => exact absurd rfl (h [])
    | cons x d =>
      obtain ⟨k, n⟩ := x
      have hg : get? ((k, n) :: d) k = some n := get?_of_mem hd (by simp)
      obtain ⟨p, v, hp⟩ := ih k n (by simp) (fun p hp => h (k :: p) (by
        rw [nodeAt_box_cons, hg]; exact hp))
      exact ⟨k :: p, v, by rw [nodeAt_box_cons, hg]; exact hp⟩

private theorem wf_at : ∀ (p : List Str) {n m : Node V}, Wf n → nodeAt n p = some m → Wf m
  | [], n, m, hn, h => by simp only [nodeAt, Option.some.injEq] at h; exact h ▸ hn
  | k :: p, .leaf v, m, hn, h => by simp [nodeAt] at h
  | k :: p, .box d, m, hn, h => by
    rw [nodeAt_box_cons] at h
    cases hg : get? d k with
    | none => rw [hg] at h; simp at h
    | some n => rw [hg] at h; exact wf_at p (hn.child hg).2.2 h

/-- **C80.** Boxes that hold the same values are equal, however they were made.  Partial: if nested
boxes are not empty (see the violation). -/
theorem C80_same_values_are_equal_partial (hr : ∀ v, eqV v v = true) {d e : BoxData V}
    (hd : Reachable castV d) (he : Reachable castV e)
    (hd' : ∀ p, p ≠ [] → nodeAt (.box d) p ≠ some (.box []))
    (he' : ∀ p, p ≠ [] → nodeAt (.box e) p ≠ some (.box []))
    (h : ∀ key v, Holds d key v ↔ Holds e key v) : boxEq eqV d e = true := by
  have hwd := reachable_wf castV hd
  have hwe := reachable_wf castV he
  have one : ∀ {d e : BoxData V}, Wf (.box d) → Wf (.box e) →
      (∀ key v, Holds d key v ↔ Holds e key v) →
      ∀ p v, nodeAt (.box d) p = some (.leaf v) → nodeAt (.box e) p = some (.leaf v) := by
    intro d e hwd hwe h p v hp
    have hne : p ≠ [] := by rintro rfl; simp [nodeAt] at hp
    have hj := splitOn_joinWith '.' p hne (nodeAt_parts hwd p _ hp)
    have := (h (joinWith ['.'] p) v).1 ((box_holds_iff hwd _ v).2 (by rw [hj]; exact hp))
    rw [box_holds_iff hwe, hj] at this
    exact this
  have h1 := one hwd hwe h
  have h2 := one hwe hwd fun key v => (h key v).symm
  -- a box in one of them is a box in the other
  have two : ∀ {d e : BoxData V}, Wf (.box d) →
      (∀ p, p ≠ [] → nodeAt (.box d) p ≠ some (.box [])) →
      (∀ p v, nodeAt (.box d) p = some (.leaf v) → nodeAt (.box e) p = some (.leaf v)) →
      ∀ p c, p ≠ [] → nodeAt (.box d) p = some (.box c) → nodeAt (.box e) p ≠ none := by
    intro d e hwd hd' h1 p c hne hp hnone
    obtain ⟨q, v, hq⟩ := some_leaf (wf_at p hwd hp) (fun q hq => hd' (p ++ q) (by simp [hne]) (by
      rw [nodeAt_append, hp]; exact hq))
    have := h1 (p ++ q) v (by rw [nodeAt_append, hp]; exact hq)
    rw [nodeAt_append, hnone] at this
    simp at this
  rw [C80_equal_iff_lookups_agree hd he]
  intro p
  by_cases hne : p = []
  · subst hne; exact trivial
  cases hpd : nodeAt (.box d) p with
  | none =>
    cases hpe : nodeAt (.box e) p with
    | none => exact trivial
    | some m =>
      cases m with
      | leaf w => rw [h2 p w hpe] at hpd; simp at hpd
      | box c => exact absurd hpd (two hwe he' h2 p c hne hpe)
  | some n =>
    cases n with
    | leaf v => rw [h1 p v hpd]; exact hr v
    | box c =>
      cases hpe : nodeAt (.box e) p with
      | none => exact absurd hpe (two hwd hd' h1 p c hne hpd)
      | some m =>
        cases m with
        | leaf w => rw [h2 p w hpe] at hpd; simp at hpd
        | box c' => exact trivial

private theorem get?_map_snd {ν ν' : Type} (f : Str → ν → ν') (d : PyDict Str ν) (k : Str) :
    get? (d.map fun x => (x.1, f x.1 x.2)) k = (get? d k).map (f k) := by
  induction d with
  | nil => rfl
  | cons x d ih =>
    obtain ⟨a, b⟩ := x
    simp only [List.map_cons, get?]
    split
    · rename_i h; subst h; rfl
    · exact ih

private theorem xor_perm {l l' : List Nat} (h : l.Perm l') :
    ∀ a, l.foldl (· ^^^ ·) a = l'.foldl (· ^^^ ·) a := by
  induction h with
  | nil => intro a; rfl
  | cons x _ ih => intro a; exact ih _
  | swap x y l =>
    intro a
    simp only [List.foldl_cons]
    congr 1
    rw [Nat.xor_assoc, Nat.xor_comm y x, ← Nat.xor_assoc]
  | trans _ _ h1 h2 => intro a; rw [h1, h2]

private theorem itemHashes_eq {hv : V → Nat} {hi : Str → Nat → Nat} {mix : Nat → Nat → Nat}
    (d : BoxData V) : itemHashes hv hi mix d =
      (d.map fun x => (x.1, hi x.1 (nodeHash hv hi mix x.2))).map Prod.snd := by
  induction d with
  | nil => simp [itemHashes]
  | cons x d ih =>
    obtain ⟨k, n⟩ := x
    simp only [itemHashes, List.map_cons, ih]

private theorem nodeHash_eq {hv : V → Nat} (hi : Str → Nat → Nat) (mix : Nat → Nat → Nat)
    (hh : ∀ v w, eqV v w = true → hv v = hv w) {n : Node V} (hn : Wf n) : ∀ {m : Node V}, Wf m →
    nodeEq eqV n m = true → nodeHash hv hi mix n = nodeHash hv hi mix m := by
  induction hn with
  | leaf v =>
    intro m hm h
    cases m with
    | leaf w => simp only [nodeEq] at h; simp only [nodeHash]; exact hh v w h
    | box e => simp [nodeEq] at h
  | box d hd _ hc ih =>
    intro m hm h
    cases m with
    | leaf w => simp [nodeEq] at h
    | box e =>
      have he := hm.nodup
      unfold nodeEq at h
      rw [Bool.and_eq_true, itemsIn_iff, beq_iff_eq] at h
      obtain ⟨hl, h⟩ := h
      have hp : (d.map fun x => (x.1, hi x.1 (nodeHash hv hi mix x.2))).Perm
          (e.map fun x => (x.1, hi x.1 (nodeHash hv hi mix x.2))) := by
        apply perm_of_get?_eq
        · simpa [keys, List.map_map, Function.comp_def] using hd
        · simpa [keys, List.map_map, Function.comp_def] using he
        · intro k
          rw [get?_map_snd (fun k n => hi k (nodeHash hv hi mix n)),
            get?_map_snd (fun k n => hi k (nodeHash hv hi mix n))]
          have hk := same_keys hd hl (fun k hk => by
            obtain ⟨⟨k', n⟩, h1, h2⟩ := List.mem_map.1 hk
            simp only at h2; subst h2
            obtain ⟨m, hg, -⟩ := h _ n h1
            exact List.mem_map.2 ⟨_, get?_mem hg, rfl⟩) k
          cases hgd : get? d k with
          | none =>
            have : get? e k = none := by
              rw [get?_eq_none_iff, ← hk, ← get?_eq_none_iff]; exact hgd
            rw [this]
          | some n =>
            obtain ⟨m, hg, hnm⟩ := h k n (get?_mem hgd)
            rw [hg, Option.map_some, Option.map_some,
              ih k n (get?_mem hgd) (hm.child hg).2.2 hnm]
      simp only [nodeHash, itemHashes_eq]
      rw [xor_perm (hp.map Prod.snd), hl]

/-- **C80.** Closed boxes that are equal have the same hash, if equal values have; boxes that are
still open have none. -/
theorem C80_equal_boxes_have_one_hash {hv : V → Nat} (hi : Str → Nat → Nat)
    (mix : Nat → Nat → Nat) (hh : ∀ v w, eqV v w = true → hv v = hv w) {d e : BoxData V}
    (hd : Reachable castV d) (he : Reachable castV e) (h : boxEq eqV d e = true) :
    (∃ x, boxHash hv hi mix false d = .ok x ∧ boxHash hv hi mix false e = .ok x) ∧
    boxHash hv hi mix true d = .error .valueError := by
  refine ⟨⟨_, rfl, ?_⟩, rfl⟩
  simp only [boxHash, Bool.false_eq_true, if_false]
  rw [nodeHash_eq hi mix hh (reachable_wf castV hd) (reachable_wf castV he) h]

/-- **C80.** The hash of a closed box never changes, whatever is done with it. -/
theorem C80_hash_is_constant (hv : V → Nat) (hi : Str → Nat → Nat) (mix : Nat → Nat → Nat)
    (d : BoxData V) (ops : List (Op α)) :
    boxHash hv hi mix false (run castV d (ops.map fun op => (false, op))).1 =
      boxHash hv hi mix false d := by
  rw [(C12_closed_never_changes castV d ops).1]

namespace Ex80

def castN : List Str → Str → Nat → Except Err Nat := fun _ _ n => .ok n
/-- `{"a.x": 1, "b": 2}` and `{"b": 2, "a": {"x": 1}}` -/
def i1 : InpItems Nat := .cons "a.x".toList (.raw 1) (.cons ['b'] (.raw 2) .nil)
def i2 : InpItems Nat := .cons ['b'] (.raw 2) (.cons ['a'] (.map (.cons ['x'] (.raw 1) .nil)) .nil)
def d1 : BoxData Nat := (assignAll castN true i1 [] []).1
def d2 : BoxData Nat := (assignAll castN true i2 [] []).1

theorem r1 : Reachable castN d1 := .construct i1 d1 rfl
theorem r2 : Reachable castN d2 := .construct i2 d2 rfl

/-- Boxes that were assigned in different ways are equal and have one hash. -/
example : boxEq (· == ·) d1 d2 = true ∧ keys d1 ≠ keys d2 ∧
    ∃ x, boxHash id (fun k n => k.length + 7 * n) (· + ·) false d1 = .ok x ∧
      boxHash id (fun k n => k.length + 7 * n) (· + ·) false d2 = .ok x :=
  have h : boxEq (· == ·) d1 d2 = true := by rfl
  ⟨h, by decide, (C80_equal_boxes_have_one_hash _ _
    (fun v w (h : (v == w) = true) => by simpa using h) r1 r2 h).1⟩

/-- The hypotheses of `C80_same_values_are_equal_partial` are met. -/
example : boxEq (· == ·) d1 d2 = true := by
  have full : ∀ d : BoxData Nat, d = d1 ∨ d = d2 → ∀ p, p ≠ [] →
      nodeAt (.box d) p ≠ some (.box []) := by
    intro d hd p hp h
    have hsub : ∀ k n, get? d k = some n → n = .leaf 2 ∨ n = .box [(['x'], .leaf 1)] := by
      intro k n hg
      have := get?_mem hg
      rcases hd with rfl | rfl
      · have he : d1 = [(['a'], .box [(['x'], .leaf 1)]), (['b'], .leaf 2)] := rfl
        rw [he] at this
        simp only [List.mem_cons, Prod.mk.injEq, List.not_mem_nil, or_false] at this
        rcases this with ⟨-, h⟩ | ⟨-, h⟩
        · exact .inr h
        · exact .inl h
      · have he : d2 = [(['b'], .leaf 2), (['a'], .box [(['x'], .leaf 1)])] := rfl
        rw [he] at this
        simp only [List.mem_cons, Prod.mk.injEq, List.not_mem_nil, or_false] at this
        rcases this with ⟨-, h⟩ | ⟨-, h⟩
        · exact .inl h
        · exact .inr h
    cases p with
    | nil => exact hp rfl
    | cons k p =>
      rw [nodeAt_box_cons] at h
      cases hg : get? d k with
      | none => rw [hg] at h; simp at h
      | some n =>
        rw [hg] at h
        rcases hsub k n hg with rfl | rfl
        · cases p <;> simp [nodeAt] at h
        · cases p with
          | nil => simp [nodeAt] at h
          | cons k' p =>
            simp only at h
            rw [nodeAt_box_cons] at h
            simp only [get?] at h
            split at h
            · rename_i hx
              split at hx
              · simp only [Option.some.injEq] at hx; subst hx
                cases p <;> simp [nodeAt] at h
              · simp at hx
            · simp at h
  refine C80_same_values_are_equal_partial (by simp) r1 r2 (full _ (.inl rfl)) (full _ (.inr rfl)) ?_
  intro key v
  rw [← box_mem_walk_iff (reachable_wf castN r1), ← box_mem_walk_iff (reachable_wf castN r2)]
  have e1 : walk d1 = [("a.x".toList, 1), (['b'], 2)] := rfl
  have e2 : walk d2 = [(['b'], 2), ("a.x".toList, 1)] := rfl
  rw [e1, e2]
  simp only [List.mem_cons, List.not_mem_nil, or_false]
  exact or_comm

end Ex80

/-- **C80** is violated by lookups while a box is open: looking for a key that is missing leaves an
empty box behind, so boxes that hold the same values (before they are closed) differ. -/
theorem C80_violated_by_lookups : ∃ (d e : BoxData Nat), Reachable Ex80.castN d ∧
    Reachable Ex80.castN e ∧ (∀ key v, Holds d key v ↔ Holds e key v) ∧
    boxEq (· == ·) d e = false := by
  refine ⟨Ex80.d1, (step Ex80.castN true Ex80.d1 (.getItem ['c'])).1, Ex80.r1,
    .step true _ (.getItem ['c']) Ex80.r1, fun key v => ?_, rfl⟩
  have hw := reachable_wf Ex80.castN Ex80.r1
  have hw' := reachable_wf Ex80.castN
    (Reachable.step true Ex80.d1 (Op.getItem (α := Nat) ['c']) Ex80.r1)
  rw [← box_mem_walk_iff hw, ← box_mem_walk_iff hw']
  rfl

end Arti.Props
