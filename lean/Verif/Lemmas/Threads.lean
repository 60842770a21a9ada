import Verif.Spec.Threads
import Verif.Lemmas.Dict

/-!
# Threads that share a backend: what holds between any two steps
-/

namespace Arti.Thr
open PyDict

variable {K P V : Type} [DecidableEq K] [DecidableEq P]

/-! ## Objects -/

def okind : Obj K P V → Nat
  | .dict _ => 0
  | .set _ => 1
  | .vals _ => 2

/-- What kind of object there is at a path. -/
def kind : Path K → Nat
  | (0, []) => 0
  | (1, []) => 0
  | (2, []) => 0
  | (3, []) => 0
  | (4, []) => 0
  | (1, [_]) => 0
  | (0, [_]) => 1
  | (1, [_, _]) => 1
  | (2, [_]) => 2
  | (3, [_]) => 2
  | (4, [_]) => 2
  | _ => 3

theorem getElem?_store (r : Nat) (k : K) (r' : Nat) (h : Heap K P V) (q : Nat) :
    (store r k r' h)[q]? = (h[q]?).map fun c => if r = q then (match c.obj with
      | .dict d => { c with obj := .dict (PyDict.set d k r') }
      | _ => c) else c := by
  unfold store
  rw [List.getElem?_modify]
  rfl

theorem getElem?_insertAt (r : Nat) (p : P) (h : Heap K P V) (q : Nat) :
    (insertAt r p h)[q]? = (h[q]?).map fun c => if r = q then (match c.obj with
      | .set ps => { c with obj := .set (setInsert ps p) }
      | _ => c) else c := by
  unfold insertAt
  rw [List.getElem?_modify]
  rfl

theorem getElem?_assign (r : Nat) (t : K) (v : V) (h : Heap K P V) (q : Nat) :
    (assign r t v h)[q]? = (h[q]?).map fun c => if r = q then (match c.obj with
      | .vals d => { c with obj := .vals (PyDict.set d t v) }
      | _ => c) else c := by
  unfold assign
  rw [List.getElem?_modify]
  rfl

theorem mem_setInsert (s : List P) (x y : P) : y ∈ setInsert s x ↔ y ∈ s ∨ y = x := by
  unfold setInsert
  split
  · rename_i h
    constructor
    · exact .inl
    · rintro (h' | rfl)
      · exact h'
      · simpa using h
  · simp

/-! ### Changing a dictionary -/

theorem entry_store (r : Nat) (k : K) (r' : Nat) (h : Heap K P V) (q : Nat) (k' : K) :
    entry (store r k r' h) q k' =
      if r = q ∧ k = k' ∧ (∃ c, h[r]? = some c ∧ okind c.obj = 0) then some r' else entry h q k' := by
  unfold entry
  rw [getElem?_store]
  cases hq : h[q]? with
  | none =>
    simp only [Option.map_none]
    rw [if_neg]
    rintro ⟨rfl, -, c, hc, -⟩
    rw [hq] at hc; cases hc
  | some c =>
    simp only [Option.map_some]
    by_cases e : r = q
    · subst e
      obtain ⟨pa, o⟩ := c
      cases o with
      | dict d =>
        simp only [if_true, get?_set]
        simp [hq, okind]
      | set ps => simp [hq, okind]
      | vals d => simp [hq, okind]
    · simp [e]

theorem elems_store (r : Nat) (k : K) (r' : Nat) (h : Heap K P V) (q : Nat) :
    elems (store r k r' h) q = elems h q := by
  unfold elems
  rw [getElem?_store]
  cases hq : h[q]? with
  | none => rfl
  | some c =>
    obtain ⟨pa, o⟩ := c
    by_cases e : r = q <;> cases o <;> simp [e]

theorem value_store (r : Nat) (k : K) (r' : Nat) (h : Heap K P V) (q : Nat) (t : K) :
    value (store r k r' h) q t = value h q t := by
  unfold value
  rw [getElem?_store]
  cases hq : h[q]? with
  | none => rfl
  | some c =>
    obtain ⟨pa, o⟩ := c
    by_cases e : r = q <;> cases o <;> simp [e]

theorem cell_store {r : Nat} {k : K} {r' : Nat} {h : Heap K P V} {q : Nat} {c : Cell K P V}
    (hc : (store r k r' h)[q]? = some c) :
    ∃ c0, h[q]? = some c0 ∧ c.path = c0.path ∧ okind c.obj = okind c0.obj := by
  rw [getElem?_store] at hc
  cases hq : h[q]? with
  | none => rw [hq] at hc; cases hc
  | some c0 =>
    rw [hq] at hc
    obtain rfl := Option.some.inj hc
    refine ⟨c0, rfl, ?_⟩
    obtain ⟨pa, o⟩ := c0
    by_cases e : r = q <;> cases o <;> simp [e, okind]

theorem store_cell {r : Nat} {k : K} {r' : Nat} {h : Heap K P V} {q : Nat} {c : Cell K P V}
    (hc : h[q]? = some c) : ∃ c', (store r k r' h)[q]? = some c' ∧ c'.path = c.path := by
  rw [getElem?_store, hc]
  refine ⟨_, rfl, ?_⟩
  obtain ⟨pa, o⟩ := c
  by_cases e : r = q <;> cases o <;> simp [e]

/-! ### Changing a set -/

theorem entry_insertAt (r : Nat) (p : P) (h : Heap K P V) (q : Nat) (k : K) :
    entry (insertAt r p h) q k = entry h q k := by
  unfold entry
  rw [getElem?_insertAt]
  cases hq : h[q]? with
  | none => rfl
  | some c =>
    obtain ⟨pa, o⟩ := c
    by_cases e : r = q <;> cases o <;> simp [e]

theorem value_insertAt (r : Nat) (p : P) (h : Heap K P V) (q : Nat) (t : K) :
    value (insertAt r p h) q t = value h q t := by
  unfold value
  rw [getElem?_insertAt]
  cases hq : h[q]? with
  | none => rfl
  | some c =>
    obtain ⟨pa, o⟩ := c
    by_cases e : r = q <;> cases o <;> simp [e]

theorem mem_elems_insertAt (r : Nat) (p : P) (h : Heap K P V) (q : Nat) (x : P) :
    x ∈ elems (insertAt r p h) q ↔ x ∈ elems h q ∨
      (r = q ∧ x = p ∧ ∃ c, h[r]? = some c ∧ okind c.obj = 1) := by
  unfold elems
  rw [getElem?_insertAt]
  cases hq : h[q]? with
  | none =>
    simp only [Option.map_none, List.not_mem_nil, false_or, false_iff]
    rintro ⟨rfl, -, c, hc, -⟩
    rw [hq] at hc; cases hc
  | some c =>
    obtain ⟨pa, o⟩ := c
    by_cases e : r = q
    · subst e
      cases o with
      | dict d => simp [hq, okind]
      | vals d => simp [hq, okind]
      | set ps => simp [hq, okind, mem_setInsert]
    · cases o <;> simp [e]

theorem cell_insertAt {r : Nat} {p : P} {h : Heap K P V} {q : Nat} {c : Cell K P V}
    (hc : (insertAt r p h)[q]? = some c) :
    ∃ c0, h[q]? = some c0 ∧ c.path = c0.path ∧ okind c.obj = okind c0.obj := by
  rw [getElem?_insertAt] at hc
  cases hq : h[q]? with
  | none => rw [hq] at hc; cases hc
  | some c0 =>
    rw [hq] at hc
    obtain rfl := Option.some.inj hc
    refine ⟨c0, rfl, ?_⟩
    obtain ⟨pa, o⟩ := c0
    by_cases e : r = q <;> cases o <;> simp [e, okind]

theorem insertAt_cell {r : Nat} {p : P} {h : Heap K P V} {q : Nat} {c : Cell K P V}
    (hc : h[q]? = some c) : ∃ c', (insertAt r p h)[q]? = some c' ∧ c'.path = c.path := by
  rw [getElem?_insertAt, hc]
  refine ⟨_, rfl, ?_⟩
  obtain ⟨pa, o⟩ := c
  by_cases e : r = q <;> cases o <;> simp [e]

/-! ### Setting a tag -/

theorem entry_assign (r : Nat) (t : K) (v : V) (h : Heap K P V) (q : Nat) (k : K) :
    entry (assign r t v h) q k = entry h q k := by
  unfold entry
  rw [getElem?_assign]
  cases hq : h[q]? with
  | none => rfl
  | some c =>
    obtain ⟨pa, o⟩ := c
    by_cases e : r = q <;> cases o <;> simp [e]

theorem elems_assign (r : Nat) (t : K) (v : V) (h : Heap K P V) (q : Nat) :
    elems (assign r t v h) q = elems h q := by
  unfold elems
  rw [getElem?_assign]
  cases hq : h[q]? with
  | none => rfl
  | some c =>
    obtain ⟨pa, o⟩ := c
    by_cases e : r = q <;> cases o <;> simp [e]

theorem value_assign (r : Nat) (t : K) (v : V) (h : Heap K P V) (q : Nat) (t' : K) :
    value (assign r t v h) q t' =
      if r = q ∧ t = t' ∧ (∃ c, h[r]? = some c ∧ okind c.obj = 2) then some v else value h q t' := by
  unfold value
  rw [getElem?_assign]
  cases hq : h[q]? with
  | none =>
    simp only [Option.map_none]
    rw [if_neg]
    rintro ⟨rfl, -, c, hc, -⟩
    rw [hq] at hc; cases hc
  | some c =>
    simp only [Option.map_some]
    by_cases e : r = q
    · subst e
      obtain ⟨pa, o⟩ := c
      cases o with
      | vals d =>
        simp only [if_true, get?_set]
        simp [hq, okind]
      | set ps => simp [hq, okind]
      | dict d => simp [hq, okind]
    · simp [e]

theorem cell_assign {r : Nat} {t : K} {v : V} {h : Heap K P V} {q : Nat} {c : Cell K P V}
    (hc : (assign r t v h)[q]? = some c) :
    ∃ c0, h[q]? = some c0 ∧ c.path = c0.path ∧ okind c.obj = okind c0.obj := by
  rw [getElem?_assign] at hc
  cases hq : h[q]? with
  | none => rw [hq] at hc; cases hc
  | some c0 =>
    rw [hq] at hc
    obtain rfl := Option.some.inj hc
    refine ⟨c0, rfl, ?_⟩
    obtain ⟨pa, o⟩ := c0
    by_cases e : r = q <;> cases o <;> simp [e, okind]

theorem assign_cell {r : Nat} {t : K} {v : V} {h : Heap K P V} {q : Nat} {c : Cell K P V}
    (hc : h[q]? = some c) : ∃ c', (assign r t v h)[q]? = some c' ∧ c'.path = c.path := by
  rw [getElem?_assign, hc]
  refine ⟨_, rfl, ?_⟩
  obtain ⟨pa, o⟩ := c
  by_cases e : r = q <;> cases o <;> simp [e]

/-! ## Invariant and steps -/

/-- What may be in the sets and under the tags of the objects with a path, and the objects. -/
structure World (K P V : Type) where
  A : Path K → P → Prop
  B : Path K → K → V → Prop
  h : Heap K P V

def World.after (w : World K P V) (f : Heap K P V → Heap K P V) : World K P V := { w with h := f w.h }

/-- `kn` are entries that stay. -/
structure Good (kn : Nat → K → Option Nat) (w : World K P V) : Prop where
  kinds : ∀ (r : Nat) (c : Cell K P V), w.h[r]? = some c → okind c.obj = kind c.path
  edges : ∀ r k r', entry w.h r k = some r' → ∃ c c' : Cell K P V, w.h[r]? = some c ∧ w.h[r']? = some c' ∧
    c'.path = (c.path.1, c.path.2 ++ [k])
  roots : ∀ i : Nat, i < 5 → ∃ c : Cell K P V, w.h[i]? = some c ∧ c.path = (i, [])
  known : ∀ r k r', kn r k = some r' → entry w.h r k = some r'
  elems : ∀ (r : Nat) (c : Cell K P V) (p : P), w.h[r]? = some c → p ∈ Thr.elems w.h r → w.A c.path p
  vals : ∀ (r : Nat) (c : Cell K P V) (t : K) (v : V), w.h[r]? = some c → value w.h r t = some v → w.B c.path t v

/-- What other threads may do. -/
structure Ext (w w' : World K P V) : Prop where
  A : ∀ π p, w.A π p → w'.A π p
  B : ∀ π t v, w.B π t v → w'.B π t v
  cells : ∀ (r : Nat) (c : Cell K P V), w.h[r]? = some c → ∃ c' : Cell K P V, w'.h[r]? = some c' ∧ c'.path = c.path
  elems : ∀ (r : Nat) (p : P), p ∈ Thr.elems w.h r → p ∈ Thr.elems w'.h r
  vals : ∀ r t, (value w.h r t).isSome → (value w'.h r t).isSome

theorem Ext.refl (w : World K P V) : Ext w w :=
  ⟨fun _ _ h => h, fun _ _ _ h => h, fun _ c h => ⟨c, h, rfl⟩, fun _ _ h => h, fun _ _ h => h⟩

theorem Ext.trans {w w1 w2 : World K P V} (h1 : Ext w w1) (h2 : Ext w1 w2) : Ext w w2 :=
  ⟨fun _ _ h => h2.A _ _ (h1.A _ _ h), fun _ _ _ h => h2.B _ _ _ (h1.B _ _ _ h),
    fun r c h => by
      obtain ⟨c1, e1, p1⟩ := h1.cells r c h
      obtain ⟨c2, e2, p2⟩ := h2.cells r c1 e1
      exact ⟨c2, e2, p2.trans p1⟩,
    fun _ _ h => h2.elems _ _ (h1.elems _ _ h), fun _ _ h => h2.vals _ _ (h1.vals _ _ h)⟩

/-- A step that preserves the invariant and that others may expect. -/
def Fine (kn : Nat → K → Option Nat) (w : World K P V) (f : Heap K P V → Heap K P V) : Prop :=
  Good kn (w.after f) ∧ Ext w (w.after f)

theorem fine_id {kn : Nat → K → Option Nat} {w : World K P V} (hw : Good kn w) : Fine kn w id :=
  ⟨hw, Ext.refl w⟩

theorem fine_new {kn : Nat → K → Option Nat} {w : World K P V} (hw : Good kn w) {π : Path K}
    {o : Obj K P V} (hk : okind o = kind π) (ho : o = .dict [] ∨ o = .set [] ∨ o = .vals []) :
    Fine kn w fun h => h ++ [⟨π, o⟩] := by
  have hlt : ∀ r, r < w.h.length → (w.h ++ [⟨π, o⟩])[r]? = w.h[r]? := fun r hr =>
    List.getElem?_append_left hr
  have hge : ∀ r c, ¬ r < w.h.length → (w.h ++ [(⟨π, o⟩ : Cell K P V)])[r]? = some c → c = ⟨π, o⟩ := by
    intro r c hr hc
    rw [List.getElem?_append_right (by omega)] at hc
    rcases hn : r - w.h.length with _ | n
    · rw [hn] at hc; simpa using hc.symm
    · rw [hn] at hc; simp at hc
  have hen : ∀ r k, entry (w.h ++ [⟨π, o⟩]) r k = entry w.h r k := by
    intro r k
    by_cases hr : r < w.h.length
    · unfold entry; rw [hlt r hr]
    · have h2 : w.h[r]? = none := List.getElem?_eq_none (by omega)
      unfold entry
      rw [h2]
      cases hc : (w.h ++ [(⟨π, o⟩ : Cell K P V)])[r]? with
      | none => rfl
      | some c =>
        rw [hge r c hr hc]
        rcases ho with rfl | rfl | rfl <;> rfl
  have hel : ∀ r, elems (w.h ++ [⟨π, o⟩]) r = elems w.h r := by
    intro r
    by_cases hr : r < w.h.length
    · unfold elems; rw [hlt r hr]
    · have h2 : w.h[r]? = none := List.getElem?_eq_none (by omega)
      unfold elems
      rw [h2]
      cases hc : (w.h ++ [(⟨π, o⟩ : Cell K P V)])[r]? with
      | none => rfl
      | some c =>
        rw [hge r c hr hc]
        rcases ho with rfl | rfl | rfl <;> rfl
  have hva : ∀ r t, value (w.h ++ [⟨π, o⟩]) r t = value w.h r t := by
    intro r t
    by_cases hr : r < w.h.length
    · unfold value; rw [hlt r hr]
    · have h2 : w.h[r]? = none := List.getElem?_eq_none (by omega)
      unfold value
      rw [h2]
      cases hc : (w.h ++ [(⟨π, o⟩ : Cell K P V)])[r]? with
      | none => rfl
      | some c =>
        rw [hge r c hr hc]
        rcases ho with rfl | rfl | rfl <;> rfl
  have hcell : ∀ (r : Nat) (c : Cell K P V), w.h[r]? = some c → (w.h ++ [(⟨π, o⟩ : Cell K P V)])[r]? = some c := by
    intro r c hc
    rw [hlt r (List.getElem?_eq_some_iff.1 hc).1, hc]
  have hback : ∀ (r : Nat) (c : Cell K P V), (w.h ++ [(⟨π, o⟩ : Cell K P V)])[r]? = some c →
      w.h[r]? = some c ∨ (w.h[r]? = none ∧ c = ⟨π, o⟩) := by
    intro r c hc
    by_cases hr : r < w.h.length
    · left; rw [← hlt r hr, hc]
    · exact .inr ⟨List.getElem?_eq_none (by omega), hge r c hr hc⟩
  refine ⟨⟨?_, ?_, ?_, ?_, ?_, ?_⟩, ⟨fun _ _ h => h, fun _ _ _ h => h, ?_, ?_, ?_⟩⟩
  · intro r c hc
    rcases hback r c hc with h | ⟨-, rfl⟩
    · exact hw.kinds r c h
    · exact hk
  · intro r k r' he
    obtain ⟨c, c', h1, h2, h3⟩ := hw.edges r k r' ((hen r k).symm.trans he)
    exact ⟨c, c', hcell _ _ h1, hcell _ _ h2, h3⟩
  · intro i hi
    obtain ⟨c, h1, h2⟩ := hw.roots i hi
    exact ⟨c, hcell _ _ h1, h2⟩
  · intro r k r' h
    exact (hen r k).trans (hw.known r k r' h)
  · intro r c p hc hp
    have hp : p ∈ Thr.elems w.h r := by rw [← hel r]; exact hp
    rcases hback r c hc with h | ⟨h, rfl⟩
    · exact hw.elems r c p h hp
    · unfold Thr.elems at hp; rw [h] at hp; cases hp
  · intro r c t v hc hp
    have hp : value w.h r t = some v := by rw [← hva r t]; exact hp
    rcases hback r c hc with h | ⟨h, rfl⟩
    · exact hw.vals r c t v h hp
    · unfold value at hp; rw [h] at hp; cases hp
  · intro r c hc
    exact ⟨c, hcell r c hc, rfl⟩
  · intro r p hp
    change p ∈ Thr.elems (w.h ++ _) r
    rw [hel r]; exact hp
  · intro r t hp
    change (value (w.h ++ _) r t).isSome
    rw [hva r t]; exact hp

theorem fine_store {kn : Nat → K → Option Nat} {w : World K P V} (hw : Good kn w) {r r' : Nat} {k : K}
    {c c' : Cell K P V} (hc : w.h[r]? = some c) (hc' : w.h[r']? = some c')
    (hp : c'.path = (c.path.1, c.path.2 ++ [k])) (hkn : kn r k = none) :
    Fine kn w (store r k r') := by
  refine ⟨⟨?_, ?_, ?_, ?_, ?_, ?_⟩, ⟨fun _ _ h => h, fun _ _ _ h => h, ?_, ?_, ?_⟩⟩
  · intro q d hd
    obtain ⟨d0, h1, h2, h3⟩ := cell_store hd
    rw [h2, h3]; exact hw.kinds q d0 h1
  · intro q k1 q' he
    change entry (store r k r' w.h) q k1 = some q' at he
    rw [entry_store] at he
    split at he
    · rename_i hcond
      obtain ⟨rfl, rfl, -⟩ := hcond
      obtain rfl := Option.some.inj he
      obtain ⟨d, hd1, hd2⟩ := store_cell (r := r) (k := k) (r' := r') hc
      obtain ⟨d', hd3, hd4⟩ := store_cell (r := r) (k := k) (r' := r') hc'
      exact ⟨d, d', hd1, hd3, by rw [hd2, hd4, hp]⟩
    · obtain ⟨d, d', h1, h2, h3⟩ := hw.edges q k1 q' he
      obtain ⟨e, he1, he2⟩ := store_cell (r := r) (k := k) (r' := r') h1
      obtain ⟨e', he3, he4⟩ := store_cell (r := r) (k := k) (r' := r') h2
      exact ⟨e, e', he1, he3, by rw [he2, he4, h3]⟩
  · intro i hi
    obtain ⟨d, h1, h2⟩ := hw.roots i hi
    obtain ⟨e, he1, he2⟩ := store_cell (r := r) (k := k) (r' := r') h1
    exact ⟨e, he1, he2.trans h2⟩
  · intro q k1 q' h
    change entry (store r k r' w.h) q k1 = some q'
    rw [entry_store, if_neg]
    · exact hw.known _ _ _ h
    · rintro ⟨rfl, rfl, -⟩
      rw [hkn] at h; cases h
  · intro q d p hd hp
    obtain ⟨d0, h1, h2, -⟩ := cell_store hd
    have hp : p ∈ Thr.elems w.h q := by rw [← elems_store r k r' w.h q]; exact hp
    rw [h2]; exact hw.elems q d0 p h1 hp
  · intro q d t v hd hp
    obtain ⟨d0, h1, h2, -⟩ := cell_store hd
    have hp : value w.h q t = some v := by rw [← value_store r k r' w.h q t]; exact hp
    rw [h2]; exact hw.vals q d0 t v h1 hp
  · intro q d hd
    exact store_cell hd
  · intro q p hp
    change p ∈ Thr.elems (store r k r' w.h) q
    rw [elems_store]; exact hp
  · intro q t hp
    change (value (store r k r' w.h) q t).isSome
    rw [value_store]; exact hp

theorem fine_insertAt {kn : Nat → K → Option Nat} {w : World K P V} (hw : Good kn w) {r : Nat} {p : P}
    {c : Cell K P V} (hc : w.h[r]? = some c) (hp : w.A c.path p) : Fine kn w (insertAt r p) := by
  refine ⟨⟨?_, ?_, ?_, ?_, ?_, ?_⟩, ⟨fun _ _ h => h, fun _ _ _ h => h, ?_, ?_, ?_⟩⟩
  · intro q d hd
    obtain ⟨d0, h1, h2, h3⟩ := cell_insertAt hd
    rw [h2, h3]; exact hw.kinds q d0 h1
  · intro q k1 q' he
    change entry (insertAt r p w.h) q k1 = some q' at he
    rw [entry_insertAt] at he
    obtain ⟨d, d', h1, h2, h3⟩ := hw.edges q k1 q' he
    obtain ⟨e, he1, he2⟩ := insertAt_cell (r := r) (p := p) h1
    obtain ⟨e', he3, he4⟩ := insertAt_cell (r := r) (p := p) h2
    exact ⟨e, e', he1, he3, by rw [he2, he4, h3]⟩
  · intro i hi
    obtain ⟨d, h1, h2⟩ := hw.roots i hi
    obtain ⟨e, he1, he2⟩ := insertAt_cell (r := r) (p := p) h1
    exact ⟨e, he1, he2.trans h2⟩
  · intro q k1 q' h
    change entry (insertAt r p w.h) q k1 = some q'
    rw [entry_insertAt]
    exact hw.known _ _ _ h
  · intro q d x hd hx
    obtain ⟨d0, h1, h2, -⟩ := cell_insertAt hd
    rcases (mem_elems_insertAt r p w.h q x).1 hx with hx | ⟨rfl, rfl, -⟩
    · rw [h2]; exact hw.elems q d0 x h1 hx
    · rw [h2]
      rw [hc] at h1
      obtain rfl := Option.some.inj h1
      exact hp
  · intro q d t v hd hx
    obtain ⟨d0, h1, h2, -⟩ := cell_insertAt hd
    have hx : value w.h q t = some v := by rw [← value_insertAt r p w.h q t]; exact hx
    rw [h2]; exact hw.vals q d0 t v h1 hx
  · intro q d hd
    exact insertAt_cell hd
  · intro q x hx
    exact (mem_elems_insertAt r p w.h q x).2 (.inl hx)
  · intro q t hx
    change (value (insertAt r p w.h) q t).isSome
    rw [value_insertAt]; exact hx

theorem fine_assign {kn : Nat → K → Option Nat} {w : World K P V} (hw : Good kn w) {r : Nat} {t : K}
    {v : V} {c : Cell K P V} (hc : w.h[r]? = some c) (hp : w.B c.path t v) :
    Fine kn w (assign r t v) := by
  refine ⟨⟨?_, ?_, ?_, ?_, ?_, ?_⟩, ⟨fun _ _ h => h, fun _ _ _ h => h, ?_, ?_, ?_⟩⟩
  · intro q d hd
    obtain ⟨d0, h1, h2, h3⟩ := cell_assign hd
    rw [h2, h3]; exact hw.kinds q d0 h1
  · intro q k1 q' he
    change entry (assign r t v w.h) q k1 = some q' at he
    rw [entry_assign] at he
    obtain ⟨d, d', h1, h2, h3⟩ := hw.edges q k1 q' he
    obtain ⟨e, he1, he2⟩ := assign_cell (r := r) (t := t) (v := v) h1
    obtain ⟨e', he3, he4⟩ := assign_cell (r := r) (t := t) (v := v) h2
    exact ⟨e, e', he1, he3, by rw [he2, he4, h3]⟩
  · intro i hi
    obtain ⟨d, h1, h2⟩ := hw.roots i hi
    obtain ⟨e, he1, he2⟩ := assign_cell (r := r) (t := t) (v := v) h1
    exact ⟨e, he1, he2.trans h2⟩
  · intro q k1 q' h
    change entry (assign r t v w.h) q k1 = some q'
    rw [entry_assign]
    exact hw.known _ _ _ h
  · intro q d x hd hx
    obtain ⟨d0, h1, h2, -⟩ := cell_assign hd
    have hx : x ∈ Thr.elems w.h q := by rw [← elems_assign r t v w.h q]; exact hx
    rw [h2]; exact hw.elems q d0 x h1 hx
  · intro q d t' v' hd hx
    obtain ⟨d0, h1, h2, -⟩ := cell_assign hd
    have hy := (value_assign r t v w.h q t').symm.trans hx
    rw [h2]
    split at hy
    · rename_i hcond
      obtain ⟨rfl, rfl, -⟩ := hcond
      obtain rfl := Option.some.inj hy
      rw [hc] at h1
      obtain rfl := Option.some.inj h1
      exact hp
    · exact hw.vals q d0 t' v' h1 hy
  · intro q d hd
    exact assign_cell hd
  · intro q x hx
    change x ∈ Thr.elems (assign r t v w.h) q
    rw [elems_assign]; exact hx
  · intro q t' hx
    change (value (assign r t v w.h) q t').isSome
    rw [value_assign]
    split
    · rfl
    · exact hx

/-! ## Programs among others -/

/-- Whatever the others do, the program makes fine steps and ends with `Q`. -/
def Safe (kn : Nat → K → Option Nat) {R : Type} (Q : R → World K P V → Prop) :
    Code (Heap K P V) R → World K P V → Prop
  | .ret r, w => ∀ w', Ext w w' → Good kn w' → Q r w'
  | .act f k, w => ∀ w', Ext w w' → Good kn w' → Fine kn w' f ∧ Safe kn Q (k w'.h) (w'.after f)

theorem Safe.mono {kn : Nat → K → Option Nat} {R : Type} {Q : R → World K P V → Prop}
    {p : Code (Heap K P V) R} {w w1 : World K P V} (h : Safe kn Q p w) (he : Ext w w1) :
    Safe kn Q p w1 := by
  cases p with
  | ret r => exact fun w' h1 h2 => h w' (he.trans h1) h2
  | act f k => exact fun w' h1 h2 => h w' (he.trans h1) h2

/-- There is an object with this path. -/
def At (w : World K P V) (r : Nat) (π : Path K) : Prop := ∃ c : Cell K P V, w.h[r]? = some c ∧ c.path = π

theorem At.ext {w w' : World K P V} {r : Nat} {π : Path K} (h : At w r π) (he : Ext w w') :
    At w' r π := by
  obtain ⟨c, h1, h2⟩ := h
  obtain ⟨c', h3, h4⟩ := he.cells r c h1
  exact ⟨c', h3, h4.trans h2⟩

theorem safe_sub {kn : Nat → K → Option Nat} {R : Type} {Q : R → World K P V → Prop} {r : Nat}
    {π : Path K} {k : K} {new : Obj K P V} {next : Nat → Code (Heap K P V) R} {w : World K P V}
    (hr : At w r π) (hk : okind new = kind (π.1, π.2 ++ [k]))
    (ho : new = .dict [] ∨ new = .set [] ∨ new = .vals [])
    (hn : ∀ w' r', Ext w w' → Good kn w' → At w' r' (π.1, π.2 ++ [k]) →
      (∀ q, kn r k = some q → r' = q) → Safe kn Q (next r') w') :
    Safe kn Q (sub r k new next) w := by
  intro w1 he1 hg1
  refine ⟨fine_id hg1, ?_⟩
  have e0 : w1.after id = w1 := rfl
  rw [e0]
  obtain ⟨c1, hc1, hp1⟩ := hr.ext he1
  cases hent : entry w1.h r k with
  | some r' =>
    simp only [hent]
    refine hn w1 r' he1 hg1 ?_ ?_
    · obtain ⟨c, c', h1, h2, h3⟩ := hg1.edges _ _ _ hent
      rw [hc1] at h1
      obtain rfl := Option.some.inj h1
      exact ⟨c', h2, by rw [h3, hp1]⟩
    · intro q hq
      have := hg1.known _ _ _ hq
      rw [hent] at this
      exact Option.some.inj this
  | none =>
    simp only [hent]
    have hkn : kn r k = none := by
      cases hq : kn r k with
      | none => rfl
      | some q => rw [hg1.known _ _ _ hq] at hent; cases hent
    intro w2 he2 hg2
    obtain ⟨c2, hc2, hp2⟩ := hr.ext (he1.trans he2)
    have hpa : pathAt w2.h r = π := by unfold pathAt; rw [hc2]; exact hp2
    have hf := fine_new hg2 (π := (π.1, π.2 ++ [k])) hk ho
    have hf' : Fine kn w2 fun h => h ++ [⟨((pathAt h r).1, (pathAt h r).2 ++ [k]), new⟩] := by
      have e : w2.after (fun h => h ++ [⟨((pathAt h r).1, (pathAt h r).2 ++ [k]), new⟩]) =
          w2.after (fun h => h ++ [⟨(π.1, π.2 ++ [k]), new⟩]) := by
        simp only [World.after, hpa]
      unfold Fine
      rw [e]
      exact hf
    refine ⟨hf', ?_⟩
    intro w3 he3 hg3
    obtain ⟨c3, hc3, hp3⟩ := hr.ext ((he1.trans he2).trans (hf'.2.trans he3))
    have hnew : At (w2.after fun h => h ++ [⟨((pathAt h r).1, (pathAt h r).2 ++ [k]), new⟩])
        w2.h.length (π.1, π.2 ++ [k]) :=
      ⟨_, List.getElem?_concat_length, by simp only [hpa]⟩
    obtain ⟨c4, hc4, hp4⟩ := hnew.ext he3
    have hf3 : Fine kn w3 (store r k w2.h.length) :=
      fine_store hg3 hc3 hc4 (by rw [hp4, hp3]) hkn
    refine ⟨hf3, hn _ _ ((he1.trans he2).trans ((hf'.2.trans he3).trans hf3.2)) hf3.1
      (At.ext ⟨c4, hc4, hp4⟩ hf3.2) ?_⟩
    intro q hq
    rw [hkn] at hq; cases hq

theorem safe_addAll {kn : Nat → K → Option Nat} {R : Type} {Q : R → World K P V → Prop} {r : Nat}
    {π : Path K} (hk : kind π = 1) {next : Code (Heap K P V) R} : ∀ (ps : List P) {w : World K P V},
    At w r π → (∀ p ∈ ps, w.A π p) →
    (∀ w', Ext w w' → Good kn w' → (∀ p ∈ ps, p ∈ elems w'.h r) → Safe kn Q next w') →
    Good kn w → Safe kn Q (addAll r ps next) w
  | [], w, _, _, hn, hg => hn w (Ext.refl w) hg (by simp)
  | p :: ps, w, hr, hA, hn, hg => by
    intro w1 he1 hg1
    obtain ⟨c, hc, hp⟩ := hr.ext he1
    have hf : Fine kn w1 (insertAt r p) :=
      fine_insertAt hg1 hc (by rw [hp]; exact he1.A _ _ (hA p List.mem_cons_self))
    refine ⟨hf, safe_addAll hk ps (At.ext ⟨c, hc, hp⟩ hf.2)
      (fun x hx => he1.A _ _ (hA x (List.mem_cons_of_mem _ hx))) ?_ hf.1⟩
    intro w2 he2 hg2 hps
    refine hn w2 (he1.trans (hf.2.trans he2)) hg2 fun x hx => ?_
    rcases List.mem_cons.1 hx with rfl | hx
    · refine he2.elems _ _ ((mem_elems_insertAt r x w1.h r x).2 (.inr ⟨rfl, rfl, c, hc, ?_⟩))
      rw [hg1.kinds _ _ hc, hp, hk]
    · exact hps x hx

end Arti.Thr
