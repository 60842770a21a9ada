import Verif.Model.TypedBox
import Verif.Lemmas.Dict

/-!
# Lemmas about `TypedBox`
-/

namespace Arti.Box
open Arti PyDict
variable {α V ρ : Type}

/-- The node that a path of key parts leads to. -/
def nodeAt : Node V → List Str → Option (Node V)
  | n, [] => some n
  | .leaf _, _ :: _ => none
  | .box d, k :: p =>
    match get? d k with
    | some n => nodeAt n p
    | none => none

/-- Every level has distinct keys without dots and without a leading underscore. -/
inductive Wf : Node V → Prop
  | leaf (v : V) : Wf (.leaf v)
  | box (d : BoxData V) : (keys d).Nodup →
      (∀ k n, (k, n) ∈ d → '.' ∉ k ∧ isPrivate k = false) → (∀ k n, (k, n) ∈ d → Wf n) →
      Wf (.box d)

theorem Wf.nil : Wf (.box ([] : BoxData V)) := .box _ (by simp [keys]) (by simp) (by simp)

theorem Wf.nodup {d : BoxData V} (h : Wf (.box d)) : (keys d).Nodup := by cases h; assumption

theorem Wf.child {d : BoxData V} (h : Wf (.box d)) {k : Str} {n : Node V} (hg : get? d k = some n) :
    '.' ∉ k ∧ isPrivate k = false ∧ Wf n := by
  cases h with
  | box _ _ h2 h3 => exact ⟨(h2 k n (get?_mem hg)).1, (h2 k n (get?_mem hg)).2, h3 k n (get?_mem hg)⟩

theorem mem_set {κ ν : Type} [DecidableEq κ] {d : PyDict κ ν} {k k' : κ} {v v' : ν}
    (h : (k', v') ∈ PyDict.set d k v) : (k' = k ∧ v' = v) ∨ (k', v') ∈ d := by
  induction d with
  | nil => simp [PyDict.set] at h; exact Or.inl h
  | cons kv d ih =>
    obtain ⟨k0, v0⟩ := kv
    simp only [PyDict.set] at h
    split at h
    · rename_i hk
      rcases List.mem_cons.1 h with h | h
      · simp at h; exact Or.inl ⟨by rw [h.1, hk], h.2⟩
      · exact Or.inr (List.mem_cons_of_mem _ h)
    · rcases List.mem_cons.1 h with h | h
      · exact Or.inr (by rw [h]; simp)
      · rcases ih h with h | h
        · exact Or.inl h
        · exact Or.inr (List.mem_cons_of_mem _ h)

theorem set_self {κ ν : Type} [DecidableEq κ] {d : PyDict κ ν} {k : κ} {v : ν}
    (h : get? d k = some v) : PyDict.set d k v = d := by
  induction d with
  | nil => simp [get?] at h
  | cons kv d ih =>
    obtain ⟨k0, v0⟩ := kv
    simp only [get?] at h
    simp only [PyDict.set]
    split
    · rename_i hk; simp [hk] at h; simp [h, hk]
    · rename_i hk; simp only [hk, if_false] at h; rw [ih h]

theorem Wf.set {d : BoxData V} (h : Wf (.box d)) {k : Str} {n : Node V} (hd : '.' ∉ k)
    (hp : isPrivate k = false) (hn : Wf n) : Wf (.box (PyDict.set d k n)) := by
  cases h with
  | box _ h1 h2 h3 =>
    refine .box _ (nodup_keys_set _ _ _ h1) (fun k' n' hm => ?_) fun k' n' hm => ?_
    · rcases mem_set hm with ⟨rfl, rfl⟩ | hm
      · exact ⟨hd, hp⟩
      · exact h2 _ _ hm
    · rcases mem_set hm with ⟨rfl, rfl⟩ | hm
      · exact hn
      · exact h3 _ _ hm

theorem atPath_wf {opn short : Bool}
    {f : List Str → BoxData V → Str → BoxData V × Except Err ρ}
    (hf : ∀ ns d k, Wf (.box d) → '.' ∉ k → isPrivate k = false → Wf (.box (f ns d k).1)) :
    ∀ (parts : List Str) (ns : List Str) (d : BoxData V), (∀ p ∈ parts, '.' ∉ p) → Wf (.box d) →
      Wf (.box (atPath opn short f ns d parts).1)
  | [], _, d, _, h => by simpa [atPath] using h
  | [tail], ns, d, hp, h => by
    simp only [atPath]
    split
    · exact h
    · rename_i hpr
      exact hf ns d tail h (hp _ (by simp)) (by simpa using hpr)
  | part :: p2 :: rest, ns, d, hp, h => by
    have ih := atPath_wf hf (p2 :: rest) (opn := opn) (short := short)
    have hp2 : ∀ p ∈ p2 :: rest, '.' ∉ p := fun p hm => hp p (List.mem_cons_of_mem _ hm)
    have hd : '.' ∉ part := hp _ (by simp)
    simp only [atPath]
    split
    · exact h
    · rename_i hpr
      have hpr : isPrivate part = false := by simpa using hpr
      split
      · split
        · exact hf ns d part h hd hpr
        · split
          · exact h.set hd hpr (ih _ _ hp2 Wf.nil)
          · exact h
      · rename_i c hc
        exact h.set hd hpr (ih _ _ hp2 (h.child hc).2.2)
      · split <;> exact h

mutual
theorem assign_wf (castV : List Str → Str → α → Except Err V) (opn : Bool) :
    ∀ (v : Inp α) (ns : List Str) (d : BoxData V) (k : Str), Wf (.box d) → '.' ∉ k →
      isPrivate k = false → Wf (.box (assign castV opn v ns d k).1)
  | .raw a, ns, d, k, h, hd, hp => by
    simp only [assign]
    split
    · split
      · exact h
      · split
        · exact h.set hd hp (.leaf _)
        · exact h
    · exact h
  | .map items, ns, d, k, h, hd, hp => by
    simp only [assign]
    split
    · split
      · rename_i c hc
        exact h.set hd hp (assignAll_wf castV opn items _ _ (h.child hc).2.2)
      · exact h
      · split
        · rename_i c _ hc
          have := assignAll_wf castV opn items (ns ++ [k]) [] Wf.nil
          rw [hc] at this
          exact h.set hd hp this
        · exact h
    · exact h
theorem assignAll_wf (castV : List Str → Str → α → Except Err V) (opn : Bool) :
    ∀ (items : InpItems α) (ns : List Str) (d : BoxData V), Wf (.box d) →
      Wf (.box (assignAll castV opn items ns d).1)
  | .nil, _, d, h => by simpa [assignAll] using h
  | .cons k v rest, ns, d, h => by
    simp only [assignAll]
    have h1 := atPath_wf (opn := opn) (short := false)
      (f := fun ns d key => assign castV opn v ns d key)
      (fun ns d k => assign_wf castV opn v ns d k) (splitOn '.' k) ns d
      (fun p hp => not_mem_splitOn '.' k p hp) h
    split
    · rename_i d' _ he
      rw [he] at h1
      exact assignAll_wf castV opn rest ns d' h1
    · rename_i d' _ he
      rw [he] at h1
      exact h1
end

/-! ### Values are never changed -/

/-- Every value of `d` is a value of `d'` under the same path. -/
def Pres (d d' : BoxData V) : Prop :=
  ∀ p v, nodeAt (.box d) p = some (.leaf v) → nodeAt (.box d') p = some (.leaf v)

theorem Pres.refl (d : BoxData V) : Pres d d := fun _ _ h => h
theorem Pres.trans {a b c : BoxData V} (h : Pres a b) (h' : Pres b c) : Pres a c :=
  fun p v hp => h' p v (h p v hp)

theorem nodeAt_box_cons (d : BoxData V) (k : Str) (p : List Str) :
    nodeAt (.box d) (k :: p) = match get? d k with
      | some n => nodeAt n p
      | none => none := rfl

theorem Pres.set_box {d c c' : BoxData V} {k : Str} (hg : get? d k = some (.box c))
    (h : Pres c c') : Pres d (PyDict.set d k (.box c')) := by
  intro p v hp
  cases p with
  | nil => simp [nodeAt] at hp
  | cons k' p =>
    rw [nodeAt_box_cons] at hp ⊢
    rw [get?_set]
    by_cases hk : k = k'
    · subst hk
      rw [hg] at hp
      simpa using h p v hp
    · simpa [hk] using hp

theorem Pres.set_new {d : BoxData V} {k : Str} (n : Node V) (hg : get? d k = none) :
    Pres d (PyDict.set d k n) := by
  intro p v hp
  cases p with
  | nil => simp [nodeAt] at hp
  | cons k' p =>
    rw [nodeAt_box_cons] at hp ⊢
    rw [get?_set]
    by_cases hk : k = k'
    · subst hk; rw [hg] at hp; simp at hp
    · simpa [hk] using hp

theorem atPath_pres {opn short : Bool}
    {f : List Str → BoxData V → Str → BoxData V × Except Err ρ}
    (hf : ∀ ns d k, Pres d (f ns d k).1) :
    ∀ (parts : List Str) (ns : List Str) (d : BoxData V), Pres d (atPath opn short f ns d parts).1
  | [], _, d => by simpa [atPath] using Pres.refl d
  | [tail], ns, d => by
    simp only [atPath]
    split
    · exact Pres.refl d
    · exact hf ns d tail
  | part :: p2 :: rest, ns, d => by
    have ih := atPath_pres hf (p2 :: rest) (opn := opn) (short := short)
    simp only [atPath]
    split
    · exact Pres.refl d
    · split
      · rename_i hc
        split
        · exact hf ns d part
        · split
          · exact Pres.set_new _ hc
          · exact Pres.refl d
      · rename_i c hc
        exact Pres.set_box hc (ih _ _)
      · split <;> exact Pres.refl d

mutual
theorem assign_pres (castV : List Str → Str → α → Except Err V) (opn : Bool) :
    ∀ (v : Inp α) (ns : List Str) (d : BoxData V) (k : Str), Pres d (assign castV opn v ns d k).1
  | .raw a, ns, d, k => by
    simp only [assign]
    split
    · split
      · exact Pres.refl d
      · rename_i hc
        split
        · exact Pres.set_new _ hc
        · exact Pres.refl d
    · exact Pres.refl d
  | .map items, ns, d, k => by
    simp only [assign]
    split
    · split
      · rename_i c hc
        exact Pres.set_box hc (assignAll_pres castV opn items _ _)
      · exact Pres.refl d
      · rename_i hc
        split
        · exact Pres.set_new _ hc
        · exact Pres.refl d
    · exact Pres.refl d
theorem assignAll_pres (castV : List Str → Str → α → Except Err V) (opn : Bool) :
    ∀ (items : InpItems α) (ns : List Str) (d : BoxData V), Pres d (assignAll castV opn items ns d).1
  | .nil, _, d => by simpa [assignAll] using Pres.refl d
  | .cons k v rest, ns, d => by
    simp only [assignAll]
    have h1 := atPath_pres (opn := opn) (short := false)
      (f := fun ns d key => assign castV opn v ns d key)
      (fun ns d k => assign_pres castV opn v ns d k) (splitOn '.' k) ns d
    split
    · rename_i d' _ he
      rw [he] at h1
      exact h1.trans (assignAll_pres castV opn rest ns d')
    · rename_i d' _ he
      rw [he] at h1
      exact h1
end

theorem getLast_pres (opn : Bool) (ns : List Str) (d : BoxData V) (k : Str) :
    Pres d (getLast opn ns d k).1 := by
  unfold getLast
  split
  · exact Pres.refl d
  · rename_i hc
    split
    · exact Pres.set_new _ hc
    · exact Pres.refl d

/-! ### Closed boxes -/

theorem atPath_closed {short : Bool}
    {f : List Str → BoxData V → Str → BoxData V × Except Err ρ}
    (hf : ∀ ns d k, (f ns d k).1 = d) :
    ∀ (parts : List Str) (ns : List Str) (d : BoxData V), (atPath false short f ns d parts).1 = d
  | [], _, d => by simp [atPath]
  | [tail], ns, d => by
    simp only [atPath]
    split
    · rfl
    · exact hf ns d tail
  | part :: p2 :: rest, ns, d => by
    have ih := atPath_closed hf (p2 :: rest) (short := short)
    simp only [atPath]
    split
    · rfl
    · split
      · split
        · exact hf ns d part
        · simp
      · rename_i c hc
        show PyDict.set d part (.box (atPath false short f (ns ++ [part]) c (p2 :: rest)).1) = d
        rw [ih]; exact set_self hc
      · split <;> rfl

/-- If the final step always fails, so does the walk. -/
theorem atPath_err {opn : Bool}
    {f : List Str → BoxData V → Str → BoxData V × Except Err ρ}
    (hf : ∀ ns d k, ∃ e, (f ns d k).2 = .error e) :
    ∀ (parts : List Str) (ns : List Str) (d : BoxData V),
      ∃ e, (atPath opn false f ns d parts).2 = .error e
  | [], _, d => ⟨_, rfl⟩
  | [tail], ns, d => by
    simp only [atPath]
    split
    · exact ⟨_, rfl⟩
    · exact hf ns d tail
  | part :: p2 :: rest, ns, d => by
    have ih := atPath_err hf (p2 :: rest) (opn := opn)
    simp only [atPath]
    split
    · exact ⟨_, rfl⟩
    · split
      · simp only [Bool.false_eq_true, if_false]
        split
        · exact ih (ns ++ [part]) []
        · exact ⟨_, rfl⟩
      · rename_i c _
        exact ih (ns ++ [part]) c
      · split <;> exact ⟨_, rfl⟩

theorem assign_closed (castV : List Str → Str → α → Except Err V) (v : Inp α) (ns : List Str)
    (d : BoxData V) (k : Str) : assign castV false v ns d k = (d, .error .valueError) := by
  cases v <;> simp [assign]

theorem getLast_closed (ns : List Str) (d : BoxData V) (k : Str) :
    (getLast false ns d k).1 = d := by
  unfold getLast
  split <;> rfl

/-! ### Lookups -/

/-- Lookups of values agree with `nodeAt`. -/
theorem getPath_leaf_iff (opn : Bool) : ∀ (parts : List Str) (ns : List Str) (d : BoxData V) (v : V),
    Wf (.box d) → parts ≠ [] →
    ((atPath opn false (getLast opn) ns d parts).2 = .ok (.leaf v) ↔
      nodeAt (.box d) parts = some (.leaf v))
  | [], _, _, _, _, h => absurd rfl h
  | [tail], ns, d, v, hw, _ => by
    simp only [atPath]
    rw [nodeAt_box_cons]
    split
    · rename_i hp
      cases hg : get? d tail with
      | none => simp
      | some n =>
        have := (hw.child hg).2.1
        rw [hp] at this; cases this
    · unfold getLast
      cases hg : get? d tail with
      | none => cases opn <;> simp
      | some n => simp [nodeAt]
  | part :: p2 :: rest, ns, d, v, hw, _ => by
    have ih := getPath_leaf_iff opn (p2 :: rest)
    simp only [atPath]
    rw [nodeAt_box_cons]
    split
    · rename_i hp
      cases hg : get? d part with
      | none => simp
      | some n =>
        have := (hw.child hg).2.1
        rw [hp] at this; cases this
    · cases hg : get? d part with
      | none =>
        simp only [Bool.false_eq_true, if_false]
        split
        · have := ih (ns ++ [part]) [] v Wf.nil (by simp)
          simp [this, nodeAt_box_cons, get?]
        · simp
      | some n =>
        cases n with
        | box c => exact ih (ns ++ [part]) c v (hw.child hg).2.2 (by simp)
        | leaf w =>
          simp only [nodeAt]
          cases rest <;> simp

/-- Looking up an existing entry does not change the box. -/
theorem getPath_unchanged (opn : Bool) : ∀ (parts : List Str) (ns : List Str) (d : BoxData V) (n : Node V),
    nodeAt (.box d) parts = some n → parts ≠ [] →
    (atPath opn false (getLast opn) ns d parts).1 = d
  | [], _, _, _, _, h => absurd rfl h
  | [tail], ns, d, n, hn, _ => by
    simp only [atPath]
    rw [nodeAt_box_cons] at hn
    split
    · rfl
    · unfold getLast
      cases hg : get? d tail with
      | none => rw [hg] at hn; simp at hn
      | some n => rfl
  | part :: p2 :: rest, ns, d, n, hn, _ => by
    have ih := getPath_unchanged opn (p2 :: rest)
    simp only [atPath]
    rw [nodeAt_box_cons] at hn
    split
    · rfl
    · cases hg : get? d part with
      | none => rw [hg] at hn; simp at hn
      | some m =>
        rw [hg] at hn
        cases m with
        | box c =>
          show PyDict.set d part (.box (atPath opn false (getLast opn) (ns ++ [part]) c (p2 :: rest)).1) = d
          rw [ih _ c n hn (by simp)]; exact set_self hg
        | leaf w => cases rest <;> rfl

/-- Successful lookups of existing entries. -/
theorem getPath_node (opn : Bool) : ∀ (parts : List Str) (ns : List Str) (d : BoxData V) (n : Node V),
    Wf (.box d) → nodeAt (.box d) parts = some n → parts ≠ [] →
    (atPath opn false (getLast opn) ns d parts) = (d, .ok n)
  | [], _, _, _, _, _, h => absurd rfl h
  | [tail], ns, d, n, hw, hn, _ => by
    simp only [atPath]
    rw [nodeAt_box_cons] at hn
    cases hg : get? d tail with
    | none => rw [hg] at hn; simp at hn
    | some m =>
      rw [hg] at hn
      simp only [nodeAt, Option.some.injEq] at hn
      rw [(hw.child hg).2.1]
      simp [getLast, hg, hn]
  | part :: p2 :: rest, ns, d, n, hw, hn, _ => by
    have ih := getPath_node opn (p2 :: rest)
    simp only [atPath]
    rw [nodeAt_box_cons] at hn
    cases hg : get? d part with
    | none => rw [hg] at hn; simp at hn
    | some m =>
      rw [hg] at hn
      rw [(hw.child hg).2.1]
      cases m with
      | box c =>
        simp only [Bool.false_eq_true, if_false]
        rw [ih _ c n (hw.child hg).2.2 hn (by simp)]
        simp [set_self hg]
      | leaf w => simp [nodeAt] at hn

/-- A lookup that neither fails nor changes the box found an existing entry. -/
theorem getPath_exists (opn : Bool) : ∀ (parts : List Str) (ns : List Str) (d : BoxData V) (n : Node V),
    (atPath opn false (getLast opn) ns d parts) = (d, .ok n) → nodeAt (.box d) parts = some n
  | [], _, _, _, h => by simp [atPath] at h
  | [tail], ns, d, n, h => by
    simp only [atPath] at h
    split at h
    · simp at h
    · rw [nodeAt_box_cons]
      unfold getLast at h
      cases hg : get? d tail with
      | none =>
        rw [hg] at h
        cases opn
        · simp at h
        · simp only [if_true, Prod.mk.injEq] at h
          have := congrArg (fun d => get? d tail) h.1
          simp [get?_set, hg] at this
      | some m => rw [hg] at h; simp at h; simp [nodeAt, h]
  | part :: p2 :: rest, ns, d, n, h => by
    have ih := getPath_exists opn (p2 :: rest)
    simp only [atPath] at h
    rw [nodeAt_box_cons]
    split at h
    · simp at h
    · cases hg : get? d part with
      | none =>
        rw [hg] at h
        simp only [Bool.false_eq_true, if_false] at h
        split at h
        · simp only [Prod.mk.injEq] at h
          have := congrArg (fun d => get? d part) h.1
          simp [get?_set, hg] at this
        · simp at h
      | some m =>
        rw [hg] at h
        cases m with
        | box c =>
          simp only [Prod.mk.injEq] at h
          have hc := congrArg (fun d => get? d part) h.1
          simp only [get?_set, if_true, hg, Option.some.injEq, Node.box.injEq] at hc
          exact ih (ns ++ [part]) c n (Prod.ext hc h.2)
        | leaf w =>
          simp only at h
          split at h <;> simp at h

/-! ### Membership -/

theorem containsPath_spec (opn : Bool) : ∀ (parts : List Str) (ns : List Str) (d : BoxData V),
    Wf (.box d) → parts ≠ [] →
    (atPath opn true (fun _ d k => (d, .ok (PyDict.contains d k))) ns d parts).1 = d ∧
    ((atPath opn true (fun _ d k => (d, .ok (PyDict.contains d k))) ns d parts).2 = .ok true ↔
      ∃ n, nodeAt (.box d) parts = some n)
  | [], _, _, _, h => absurd rfl h
  | [tail], ns, d, hw, _ => by
    simp only [atPath]
    rw [nodeAt_box_cons]
    split
    · rename_i hp
      cases hg : get? d tail with
      | none => simp
      | some n =>
        have := (hw.child hg).2.1
        rw [hp] at this; cases this
    · cases hg : get? d tail <;> simp [PyDict.contains, hg, nodeAt]
  | part :: p2 :: rest, ns, d, hw, _ => by
    have ih := containsPath_spec opn (p2 :: rest)
    simp only [atPath]
    rw [nodeAt_box_cons]
    split
    · rename_i hp
      cases hg : get? d part with
      | none => simp
      | some n =>
        have := (hw.child hg).2.1
        rw [hp] at this; cases this
    · cases hg : get? d part with
      | none => simp [PyDict.contains, hg]
      | some m =>
        cases m with
        | box c =>
          have := ih (ns ++ [part]) c (hw.child hg).2.2 (by simp)
          simp only []
          constructor
          · rw [this.1]; exact set_self hg
          · exact this.2
        | leaf w =>
          simp only [nodeAt]
          cases rest <;> simp

/-! ### Frame -/

/-- The values of `d` and `d'` agree on every path outside `X`. -/
def Frame (X : List Str → Prop) (d d' : BoxData V) : Prop :=
  ∀ p, ¬ X p → ∀ w, nodeAt (.box d') p = some (.leaf w) ↔ nodeAt (.box d) p = some (.leaf w)

theorem Frame.refl (X : List Str → Prop) (d : BoxData V) : Frame X d d := fun _ _ _ => Iff.rfl

theorem Frame.mono {X Y : List Str → Prop} {d d' : BoxData V} (h : Frame X d d')
    (hXY : ∀ p, X p → Y p) : Frame Y d d' := fun p hp => h p (fun hx => hp (hXY p hx))

theorem Frame.set {X : List Str → Prop} {d c c' : BoxData V} {k : Str}
    (hg : get? d k = some (.box c) ∨ (get? d k = none ∧ c = [])) (h : Frame X c c') :
    Frame (fun p => ∃ q, X q ∧ p = k :: q) d (PyDict.set d k (.box c')) := by
  intro p hp w
  cases p with
  | nil => simp [nodeAt]
  | cons k' p =>
    rw [nodeAt_box_cons, nodeAt_box_cons, get?_set]
    by_cases hk : k = k'
    · subst hk
      have hx : ¬ X p := fun hx => hp ⟨p, hx, rfl⟩
      have := h p hx w
      rcases hg with hg | ⟨hg, rfl⟩
      · simp only [if_true, hg]; exact this
      · simp only [if_true, hg]
        rw [this]
        cases p with
        | nil => simp [nodeAt]
        | cons a p => simp [nodeAt, get?]
    · simp [hk]

theorem atPath_frame {opn : Bool}
    {f : List Str → BoxData V → Str → BoxData V × Except Err ρ}
    {Y : Except Err ρ → Str → List Str → Prop}
    (hf : ∀ ns d k, Frame (Y (f ns d k).2 k) d (f ns d k).1) :
    ∀ (parts : List Str) (ns : List Str) (d : BoxData V),
      Frame (fun p => ∃ ini last q, parts = ini ++ [last] ∧
        Y (atPath opn false f ns d parts).2 last q ∧ p = ini ++ q) d (atPath opn false f ns d parts).1
  | [], _, d => by simpa [atPath] using Frame.refl _ d
  | [tail], ns, d => by
    simp only [atPath]
    split
    · exact Frame.refl _ d
    · exact (hf ns d tail).mono fun p hp => ⟨[], tail, p, rfl, hp, rfl⟩
  | part :: p2 :: rest, ns, d => by
    have ih := atPath_frame hf (p2 :: rest) (opn := opn)
    simp only [atPath]
    split
    · exact Frame.refl _ d
    · split
      · rename_i hc
        simp only [Bool.false_eq_true, if_false]
        split
        · refine (Frame.set (Or.inr ⟨hc, rfl⟩) (ih (ns ++ [part]) [])).mono ?_
          rintro p ⟨q, ⟨ini, last, q', h1, h2, rfl⟩, rfl⟩
          exact ⟨part :: ini, last, q', by simp [h1], h2, rfl⟩
        · exact Frame.refl _ d
      · rename_i c hc
        refine (Frame.set (Or.inl hc) (ih (ns ++ [part]) c)).mono ?_
        rintro p ⟨q, ⟨ini, last, q', h1, h2, rfl⟩, rfl⟩
        exact ⟨part :: ini, last, q', by simp [h1], h2, rfl⟩
      · split <;> exact Frame.refl _ d

theorem Frame.set_leaf {d : BoxData V} {k : Str} (v : V) (hg : get? d k = none) :
    Frame (fun p => p = [k]) d (PyDict.set d k (.leaf v)) := by
  intro p hp w
  cases p with
  | nil => simp [nodeAt]
  | cons k' p =>
    rw [nodeAt_box_cons, nodeAt_box_cons, get?_set]
    by_cases hk : k = k'
    · subst hk
      have : p ≠ [] := fun h => hp (by rw [h])
      obtain ⟨a, p, rfl⟩ := List.exists_cons_of_ne_nil this
      simp [hg, nodeAt]
    · simp [hk]

theorem assign_raw_frame (castV : List Str → Str → α → Except Err V) (opn : Bool) (a : α)
    (ns : List Str) (d : BoxData V) (k : Str) :
    Frame (fun p => (assign castV opn (.raw a) ns d k).2 = .ok () ∧ p = [k]) d
      (assign castV opn (.raw a) ns d k).1 := by
  simp only [assign]
  split
  · split
    · exact Frame.refl _ d
    · rename_i hc
      split
      · exact (Frame.set_leaf _ hc).mono fun p hp => ⟨rfl, hp⟩
      · exact Frame.refl _ d
  · exact Frame.refl _ d

/-- A successful assignment of a value stores the cast of the value at the path. -/
theorem setPath_raw_stored (castV : List Str → Str → α → Except Err V) (opn : Bool) (a : α) :
    ∀ (parts : List Str) (ns : List Str) (d : BoxData V),
      (atPath opn false (fun ns d key => assign castV opn (.raw a) ns d key) ns d parts).2 = .ok () →
      ∃ ini last v, parts = ini ++ [last] ∧ castV (ns ++ ini) last a = .ok v ∧
        nodeAt (.box (atPath opn false (fun ns d key => assign castV opn (.raw a) ns d key) ns d parts).1)
          parts = some (.leaf v)
  | [], _, d, h => by simp [atPath] at h
  | [tail], ns, d, h => by
    simp only [atPath] at h ⊢
    split at h
    · simp at h
    · rename_i hp
      simp only [hp, Bool.false_eq_true, if_false]
      refine ⟨[], tail, ?_⟩
      simp only [assign] at h ⊢
      split at h
      · rename_i ho
        split at h
        · simp at h
        · rename_i hg
          split at h
          · rename_i v hv
            refine ⟨v, rfl, by simpa using hv, ?_⟩
            simp [ho, hg, hv, nodeAt_box_cons, get?_set, nodeAt]
          · simp at h
      · simp at h
  | part :: p2 :: rest, ns, d, h => by
    have ih := setPath_raw_stored castV opn a (p2 :: rest)
    simp only [atPath] at h ⊢
    split at h
    · simp at h
    · rename_i hp
      simp only [hp, Bool.false_eq_true, if_false]
      cases hg : get? d part with
      | none =>
        rw [hg] at h
        simp only [Bool.false_eq_true, if_false] at h ⊢
        split at h
        · rename_i ho
          obtain ⟨ini, last, v, h1, h2, h3⟩ := ih (ns ++ [part]) [] h
          refine ⟨part :: ini, last, v, by simp [h1], by simpa using h2, ?_⟩
          rw [if_pos ho, nodeAt_box_cons, get?_set]
          simpa using h3
        · simp at h
      | some m =>
        rw [hg] at h
        cases m with
        | box c =>
          simp only at h ⊢
          obtain ⟨ini, last, v, h1, h2, h3⟩ := ih (ns ++ [part]) c h
          refine ⟨part :: ini, last, v, by simp [h1], by simpa using h2, ?_⟩
          rw [nodeAt_box_cons, get?_set]
          simpa using h3
        | leaf w =>
          simp only at h
          split at h <;> simp at h

/-! ### Mapping values under a fresh key -/

/-- If the key is new, a failing assignment of a mapping stores nothing. -/
theorem assign_map_fresh (castV : List Str → Str → α → Except Err V) (opn : Bool)
    (items : InpItems α) (ns : List Str) (d : BoxData V) (k : Str) (hg : get? d k = none)
    (e : Err) (he : (assign castV opn (.map items) ns d k).2 = .error e) :
    (assign castV opn (.map items) ns d k).1 = d := by
  simp only [assign, hg] at he ⊢
  split at he
  · rename_i ho
    simp only [ho, if_true]
    split at he
    · simp at he
    · rename_i hc
      simp [ho] at hc ⊢
      simp [hc]
  · rename_i ho; simp [ho]

/-- Failing to assign a mapping to a key that is not present leaves the values alone. -/
theorem setPath_map_fresh (castV : List Str → Str → α → Except Err V) (opn : Bool)
    (items : InpItems α) (e : Err) :
    ∀ (parts : List Str) (ns : List Str) (d : BoxData V),
      nodeAt (.box d) parts = none →
      (atPath opn false (fun ns d key => assign castV opn (.map items) ns d key) ns d parts).2
        = .error e →
      Frame (fun _ => False) d
        (atPath opn false (fun ns d key => assign castV opn (.map items) ns d key) ns d parts).1
  | [], _, d, h, _ => by simp [nodeAt] at h
  | [tail], ns, d, h, he => by
    simp only [atPath] at he ⊢
    split at he
    · rename_i hp; simp only [hp, if_true]; exact Frame.refl _ d
    · rename_i hp
      simp only [hp, if_false]
      rw [nodeAt_box_cons] at h
      have hg : get? d tail = none := by
        cases hg : get? d tail with
        | none => rfl
        | some n => rw [hg] at h; simp [nodeAt] at h
      rw [if_neg (by simp), assign_map_fresh castV opn items ns d tail hg e he]
      exact Frame.refl _ d
  | part :: p2 :: rest, ns, d, h, he => by
    have ih := setPath_map_fresh castV opn items e (p2 :: rest)
    rw [nodeAt_box_cons] at h
    simp only [atPath] at he ⊢
    split
    · exact Frame.refl _ d
    · rename_i hp
      simp only [hp, Bool.false_eq_true, if_false] at he
      cases hg : get? d part with
      | none =>
        rw [hg] at he
        simp only [Bool.false_eq_true, if_false] at he ⊢
        split
        · rename_i ho
          rw [if_pos ho] at he
          have hn : nodeAt (.box ([] : BoxData V)) (p2 :: rest) = none := by simp [nodeAt, get?]
          refine (Frame.set (Or.inr ⟨hg, rfl⟩) (ih (ns ++ [part]) [] hn he)).mono ?_
          rintro p ⟨q, hq, _⟩; exact hq
        · exact Frame.refl _ d
      | some m =>
        rw [hg] at he h
        cases m with
        | box c =>
          simp only at he ⊢
          refine (Frame.set (Or.inl hg) (ih (ns ++ [part]) c h he)).mono ?_
          rintro p ⟨q, hq, _⟩; exact hq
        | leaf w =>
          simp only
          split <;> exact Frame.refl _ d

/-! ### Walk -/

mutual
theorem mem_walkNode : ∀ (n : Node V) (root : List Str) (key : Str) (v : V), Wf n →
    ((key, v) ∈ walkNode root n ↔
      ∃ p, key = joinWith ['.'] (root ++ p) ∧ nodeAt n p = some (.leaf v))
  | .leaf w, root, key, v, _ => by
    simp only [walkNode, List.mem_singleton, Prod.mk.injEq]
    constructor
    · rintro ⟨rfl, rfl⟩; exact ⟨[], by simp, rfl⟩
    · rintro ⟨p, rfl, hp⟩
      cases p with
      | nil => simp [nodeAt] at hp; simp [hp]
      | cons a p => simp [nodeAt] at hp
  | .box d, root, key, v, h => by
    simp only [walkNode]
    cases h with
    | box _ h1 h2 h3 =>
      rw [mem_walkData d root key v h1 h3]
      constructor
      · rintro ⟨k, p, n, hm, hkey, hp⟩
        exact ⟨k :: p, hkey, by rw [nodeAt_box_cons, get?_of_mem h1 hm]; exact hp⟩
      · rintro ⟨p, hkey, hp⟩
        cases p with
        | nil => simp [nodeAt] at hp
        | cons k p =>
          rw [nodeAt_box_cons] at hp
          cases hg : get? d k with
          | none => rw [hg] at hp; simp at hp
          | some n => rw [hg] at hp; exact ⟨k, p, n, get?_mem hg, hkey, hp⟩
theorem mem_walkData : ∀ (d : List (Str × Node V)) (root : List Str) (key : Str) (v : V),
    (keys d).Nodup → (∀ k n, (k, n) ∈ d → Wf n) →
    ((key, v) ∈ walkData root d ↔
      ∃ k p n, (k, n) ∈ d ∧ key = joinWith ['.'] (root ++ k :: p) ∧ nodeAt n p = some (.leaf v))
  | [], root, key, v, _, _ => by simp [walkData]
  | (k0, n0) :: d, root, key, v, h1, h2 => by
    simp only [walkData, List.mem_append]
    rw [mem_walkNode n0 (root ++ [k0]) key v (h2 k0 n0 (by simp)),
      mem_walkData d root key v (List.nodup_cons.1 h1).2
        (fun k n hm => h2 k n (List.mem_cons_of_mem _ hm))]
    constructor
    · rintro (⟨p, hk, hp⟩ | ⟨k, p, n, hm, hk, hp⟩)
      · exact ⟨k0, p, n0, by simp, by simpa using hk, hp⟩
      · exact ⟨k, p, n, List.mem_cons_of_mem _ hm, hk, hp⟩
    · rintro ⟨k, p, n, hm, hk, hp⟩
      rcases List.mem_cons.1 hm with hm | hm
      · simp only [Prod.mk.injEq] at hm
        obtain ⟨rfl, rfl⟩ := hm
        exact Or.inl ⟨p, by simpa using hk, hp⟩
      · exact Or.inr ⟨k, p, n, hm, hk, hp⟩
end

theorem nodeAt_parts {n : Node V} (h : Wf n) : ∀ (p : List Str) (m : Node V),
    nodeAt n p = some m → ∀ k ∈ p, '.' ∉ k := by
  intro p
  induction p generalizing n with
  | nil => simp
  | cons a p ih =>
    intro m hm k hk
    cases n with
    | leaf v => simp [nodeAt] at hm
    | box d =>
      rw [nodeAt_box_cons] at hm
      cases hg : get? d a with
      | none => rw [hg] at hm; simp at hm
      | some c =>
        rw [hg] at hm
        have hc := h.child hg
        rcases List.mem_cons.1 hk with rfl | hk
        · exact hc.1
        · exact ih hc.2.2 m hm k hk

theorem join_inj {p q : List Str} (hp : p ≠ []) (hq : q ≠ []) (h1 : ∀ k ∈ p, '.' ∉ k)
    (h2 : ∀ k ∈ q, '.' ∉ k) (h : joinWith ['.'] p = joinWith ['.'] q) : p = q := by
  rw [← splitOn_joinWith '.' p hp h1, ← splitOn_joinWith '.' q hq h2, h]

mutual
theorem nodup_walkNode : ∀ (n : Node V) (root : List Str), Wf n → root ≠ [] → (∀ k ∈ root, '.' ∉ k) →
    ((walkNode root n).map Prod.fst).Nodup
  | .leaf w, root, _, _, _ => by simp [walkNode]
  | .box d, root, h, hr, hd => by
    simp only [walkNode]
    cases h with
    | box _ h1 h2 h3 =>
      exact nodup_walkData d root h1 (fun k n hm => ⟨(h2 k n hm).1, (h2 k n hm).2, h3 k n hm⟩) hd
theorem nodup_walkData : ∀ (d : List (Str × Node V)) (root : List Str), (keys d).Nodup →
    (∀ k n, (k, n) ∈ d → '.' ∉ k ∧ isPrivate k = false ∧ Wf n) → (∀ k ∈ root, '.' ∉ k) →
    ((walkData root d).map Prod.fst).Nodup
  | [], _, _, _, _ => by simp [walkData]
  | (k0, n0) :: d, root, h1, h2, hd => by
    simp only [walkData, List.map_append]
    have hk0 := h2 k0 n0 (by simp)
    have hd' : ∀ k ∈ root ++ [k0], '.' ∉ k := by
      intro k hk
      rcases List.mem_append.1 hk with hk | hk
      · exact hd k hk
      · simp at hk; rw [hk]; exact hk0.1
    rw [List.nodup_append]
    have h2' : ∀ k n, (k, n) ∈ d → '.' ∉ k ∧ isPrivate k = false ∧ Wf n :=
      fun k n hm => h2 k n (List.mem_cons_of_mem _ hm)
    have hnd := List.nodup_cons.1 h1
    refine ⟨nodup_walkNode n0 _ hk0.2.2 (by simp) hd', nodup_walkData d root hnd.2 h2' hd, ?_⟩
    intro a ha b hb hab
    subst hab
    obtain ⟨⟨_, v⟩, hm, rfl⟩ := List.mem_map.1 ha
    obtain ⟨⟨_, w⟩, hm', heq⟩ := List.mem_map.1 hb
    rw [mem_walkNode n0 _ _ _ hk0.2.2] at hm
    rw [mem_walkData d root _ _ hnd.2 (fun k n hm => (h2' k n hm).2.2)] at hm'
    obtain ⟨p, e1, hp⟩ := hm
    obtain ⟨k, q, n, hkn, e2, hq⟩ := hm'
    simp only at heq e1 e2
    rw [heq, e1] at e2
    have := join_inj (by simp) (by simp) ?_ ?_ e2
    · simp at this
      exact hnd.1 (List.mem_map.2 ⟨(k, n), hkn, this.1.symm⟩)
    · intro x hx
      rcases List.mem_append.1 hx with hx | hx
      · exact hd' x hx
      · exact nodeAt_parts hk0.2.2 p _ hp x hx
    · intro x hx
      rcases List.mem_append.1 hx with hx | hx
      · exact hd x hx
      · rcases List.mem_cons.1 hx with rfl | hx
        · exact (h2' _ n hkn).1
        · exact nodeAt_parts (h2' k n hkn).2.2 q _ hq x hx
end

end Arti.Box
