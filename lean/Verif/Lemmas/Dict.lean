import Verif.Model.Base

/-! Helper lemmas for the association-list model of Python dicts and sets. -/

namespace Arti
namespace PyDict
variable {κ ν : Type} [DecidableEq κ]

theorem get?_set (d : PyDict κ ν) (k k' : κ) (v : ν) :
    get? (set d k v) k' = if k = k' then some v else get? d k' := by
  induction d with
  | nil => simp [set, get?]
  | cons kv d ih =>
    obtain ⟨k0, v0⟩ := kv
    simp only [set]
    by_cases h : k0 = k
    · subst h
      simp only [if_true, get?]
      by_cases h2 : k0 = k' <;> simp [h2]
    · simp only [h, if_false, get?]
      by_cases h2 : k0 = k'
      · subst h2; simp [Ne.symm h]
      · simp [h2, ih]

@[simp] theorem get?_nil (k : κ) : get? ([] : PyDict κ ν) k = none := rfl

theorem mem_keys_set (d : PyDict κ ν) (k k' : κ) (v : ν) :
    k' ∈ keys (set d k v) ↔ k' = k ∨ k' ∈ keys d := by
  induction d with
  | nil => simp [set, keys]
  | cons kv d ih =>
    obtain ⟨k0, v0⟩ := kv
    simp only [set]
    by_cases h : k0 = k
    · subst h; simp [keys]
    · simp only [h, if_false]
      simp only [keys, List.map_cons, List.mem_cons] at ih ⊢
      rw [ih]
      constructor <;> rintro (h | h | h) <;> simp [h]

theorem nodup_keys_set (d : PyDict κ ν) (k : κ) (v : ν) (h : (keys d).Nodup) :
    (keys (set d k v)).Nodup := by
  induction d with
  | nil => simp [set, keys]
  | cons kv d ih =>
    obtain ⟨k0, v0⟩ := kv
    simp only [keys, List.map_cons, List.nodup_cons] at h
    simp only [set]
    by_cases hk : k0 = k
    · subst hk
      simpa [keys] using h
    · simp only [hk, if_false, keys, List.map_cons, List.nodup_cons]
      refine ⟨fun hm => ?_, ih h.2⟩
      have := (mem_keys_set d k k0 v).1 hm
      rcases this with h1 | h1
      · exact hk h1
      · exact h.1 h1

theorem get?_eq_none_iff (d : PyDict κ ν) (k : κ) : get? d k = none ↔ k ∉ keys d := by
  induction d with
  | nil => simp [keys]
  | cons kv d ih =>
    obtain ⟨k0, v0⟩ := kv
    simp only [get?, keys, List.map_cons, List.mem_cons, not_or] at *
    by_cases h : k0 = k
    · simp [h]
    · simp [h, ih, Ne.symm h]

theorem get?_mem {d : PyDict κ ν} {k : κ} {v : ν} (h : get? d k = some v) : (k, v) ∈ d := by
  induction d with
  | nil => simp at h
  | cons kv d ih =>
    obtain ⟨k0, v0⟩ := kv
    simp only [get?] at h
    by_cases hk : k0 = k
    · simp only [hk, if_true, Option.some.injEq] at h; subst hk h; simp
    · simp only [hk, if_false] at h; exact List.mem_cons_of_mem _ (ih h)

theorem get?_of_mem {d : PyDict κ ν} (hn : (keys d).Nodup) {k : κ} {v : ν} (h : (k, v) ∈ d) :
    get? d k = some v := by
  induction d with
  | nil => simp at h
  | cons kv d ih =>
    obtain ⟨k0, v0⟩ := kv
    simp only [keys, List.map_cons, List.nodup_cons] at hn
    simp only [get?]
    rcases List.mem_cons.1 h with h | h
    · cases h; simp
    · have : k0 ≠ k := by
        rintro rfl; exact hn.1 (List.mem_map_of_mem (f := Prod.fst) h)
      simp only [this, if_false]
      exact ih hn.2 h

theorem mem_iff_get? {d : PyDict κ ν} (hn : (keys d).Nodup) {k : κ} {v : ν} :
    (k, v) ∈ d ↔ get? d k = some v := ⟨get?_of_mem hn, get?_mem⟩

/-- Folding a list of items into a dict: the last occurrence wins. -/
theorem get?_foldl_set (items : List (κ × ν)) (d : PyDict κ ν) (k : κ) :
    get? (items.foldl (fun d kv => set d kv.1 kv.2) d) k =
      (get? items.reverse k).or (get? d k) := by
  induction items generalizing d with
  | nil => simp
  | cons kv items ih =>
    obtain ⟨k0, v0⟩ := kv
    rw [List.foldl_cons, ih, get?_set]
    have app : ∀ (a b : PyDict κ ν), get? (a ++ b) k = (get? a k).or (get? b k) := by
      intro a b
      induction a with
      | nil => simp
      | cons x a iha =>
        obtain ⟨k1, v1⟩ := x
        simp only [List.cons_append, get?]
        by_cases h : k1 = k <;> simp [h, iha]
    rw [List.reverse_cons, app]
    simp only [get?]
    by_cases h : k0 = k
    · simp [h]
    · simp [h]

theorem get?_append (a b : PyDict κ ν) (k : κ) :
    get? (a ++ b) k = (get? a k).or (get? b k) := by
  induction a with
  | nil => simp
  | cons x a iha =>
    obtain ⟨k1, v1⟩ := x
    simp only [List.cons_append, get?]
    by_cases h : k1 = k <;> simp [h, iha]

theorem nodup_keys_foldl_set (items : List (κ × ν)) (d : PyDict κ ν) (h : (keys d).Nodup) :
    (keys (items.foldl (fun d kv => set d kv.1 kv.2) d)).Nodup := by
  induction items generalizing d with
  | nil => exact h
  | cons kv items ih => exact ih _ (nodup_keys_set _ _ _ h)

theorem nodup_keys_ofItems (items : List (κ × ν)) : (keys (ofItems items)).Nodup :=
  nodup_keys_foldl_set _ _ (by simp [keys])

/-- On a dict with distinct keys, reversing does not change lookups. -/
theorem get?_reverse {d : PyDict κ ν} (hn : (keys d).Nodup) (k : κ) :
    get? d.reverse k = get? d k := by
  have hn' : (keys d.reverse).Nodup := by
    rw [keys, List.map_reverse]; exact (List.reverse_perm _).nodup_iff.2 hn
  cases h : get? d k with
  | none =>
    rw [get?_eq_none_iff] at h ⊢
    simpa [keys, List.map_reverse] using h
  | some v => exact get?_of_mem hn' (by simpa using get?_mem h)

theorem get?_ofItems (items : List (κ × ν)) (k : κ) :
    get? (ofItems items) k = get? items.reverse k := by
  unfold ofItems; rw [get?_foldl_set]; simp

theorem get?_ofItems_nodup {items : PyDict κ ν} (hn : (keys items).Nodup) (k : κ) :
    get? (ofItems items) k = get? items k := by
  rw [get?_ofItems, get?_reverse hn]

theorem get?_merge {a b : PyDict κ ν} (ha : (keys a).Nodup) (hb : (keys b).Nodup) (k : κ) :
    get? (merge a b) k = (get? b k).or (get? a k) := by
  unfold merge
  rw [get?_foldl_set, get?_foldl_set, get?_reverse ha, get?_reverse hb]; simp

theorem nodup_keys_merge (a b : PyDict κ ν) : (keys (merge a b)).Nodup :=
  nodup_keys_foldl_set _ _ (nodup_keys_foldl_set _ _ (by simp [keys]))

/-- Two dicts with distinct keys and the same lookups have the same items up to order. -/
theorem perm_of_get?_eq {a b : PyDict κ ν} (ha : (keys a).Nodup) (hb : (keys b).Nodup)
    (h : ∀ k, get? a k = get? b k) : a.Perm b := by
  have nd : ∀ {d : PyDict κ ν}, (keys d).Nodup → d.Nodup := by
    intro d hd
    induction d with
    | nil => simp
    | cons kv d ih =>
      obtain ⟨k0, v0⟩ := kv
      simp only [keys, List.map_cons, List.nodup_cons] at hd
      exact List.nodup_cons.2 ⟨fun hm => hd.1 (List.mem_map_of_mem (f := Prod.fst) hm), ih hd.2⟩
  refine (List.perm_ext_iff_of_nodup (nd ha) (nd hb)).2 ?_
  rintro ⟨k, v⟩
  rw [mem_iff_get? ha, mem_iff_get? hb, h]

end PyDict

theorem mem_setInsert {α : Type} [DecidableEq α] (s : List α) (x y : α) :
    y ∈ setInsert s x ↔ y ∈ s ∨ y = x := by
  unfold setInsert
  by_cases h : x ∈ s
  · rw [if_pos h]
    constructor
    · exact Or.inl
    · rintro (h' | rfl) <;> assumption
  · rw [if_neg h]; simp

theorem mem_setUpdate {α : Type} [DecidableEq α] (s xs : List α) (y : α) :
    y ∈ setUpdate s xs ↔ y ∈ s ∨ y ∈ xs := by
  induction xs generalizing s with
  | nil => simp [setUpdate]
  | cons x xs ih =>
    show y ∈ setUpdate (setInsert s x) xs ↔ _
    rw [ih, mem_setInsert]
    simp [or_assoc]

theorem setUpdate_of_subset {α : Type} [DecidableEq α] (s xs : List α) (h : ∀ x ∈ xs, x ∈ s) :
    setUpdate s xs = s := by
  induction xs generalizing s with
  | nil => rfl
  | cons x xs ih =>
    show setUpdate (setInsert s x) xs = s
    have : setInsert s x = s := by unfold setInsert; rw [if_pos (h x (by simp))]
    rw [this]; exact ih s (fun y hy => h y (by simp [hy]))

theorem nodup_setInsert {α : Type} [DecidableEq α] (s : List α) (x : α) (h : s.Nodup) :
    (setInsert s x).Nodup := by
  unfold setInsert
  by_cases hx : x ∈ s
  · rwa [if_pos hx]
  · rw [if_neg hx, List.nodup_append]
    refine ⟨h, by simp, ?_⟩
    intro a ha b hb
    simp only [List.mem_singleton] at hb
    subst hb; rintro rfl; exact hx ha

theorem nodup_setUpdate {α : Type} [DecidableEq α] (s xs : List α) (h : s.Nodup) :
    (setUpdate s xs).Nodup := by
  induction xs generalizing s with
  | nil => exact h
  | cons x xs ih => exact ih _ (nodup_setInsert s x h)

theorem sameSet_iff {α : Type} [DecidableEq α] (a b : List α) :
    sameSet a b = true ↔ ∀ x, x ∈ a ↔ x ∈ b := by
  simp only [sameSet, Bool.and_eq_true, List.all_eq_true, List.contains_iff_mem]
  constructor
  · rintro ⟨h1, h2⟩ x; exact ⟨h1 x, h2 x⟩
  · intro h; exact ⟨fun x hx => (h x).1 hx, fun x hx => (h x).2 hx⟩

theorem splitOn_ne_nil (sep : Char) (s : Str) : splitOn sep s ≠ [] := by
  induction s with
  | nil => simp [splitOn]
  | cons c cs ih =>
    simp only [splitOn]
    split
    · simp
    · split <;> simp

/-- The parts of a split do not contain the separator. -/
theorem not_mem_splitOn (sep : Char) (s : Str) : ∀ p ∈ splitOn sep s, sep ∉ p := by
  induction s with
  | nil => simp [splitOn]
  | cons c cs ih =>
    simp only [splitOn]
    split
    · intro p hp
      rcases List.mem_cons.1 hp with rfl | hp
      · simp
      · exact ih p hp
    · rename_i hc
      cases hsp : splitOn sep cs with
      | nil => exact absurd hsp (splitOn_ne_nil sep cs)
      | cons q qs =>
        rw [hsp] at ih
        intro p hp
        rcases List.mem_cons.1 hp with rfl | hp
        · simp only [List.mem_cons, not_or]
          exact ⟨fun h => hc h.symm, ih q (by simp)⟩
        · exact ih p (by simp [hp])

/-- Splitting a joined list of separator-free parts gives the parts back. -/
theorem splitOn_joinWith (sep : Char) : ∀ (ps : List Str), ps ≠ [] → (∀ p ∈ ps, sep ∉ p) →
    splitOn sep (joinWith [sep] ps) = ps := by
  have base : ∀ (p : Str) (rest : Str), sep ∉ p →
      splitOn sep (p ++ sep :: rest) = p :: splitOn sep rest := by
    intro p rest hp
    induction p with
    | nil => simp [splitOn]
    | cons c p ih =>
      simp only [List.mem_cons, not_or] at hp
      simp only [List.cons_append, splitOn, if_neg (fun h => hp.1 (Eq.symm h)), ih hp.2]
  have single : ∀ p : Str, sep ∉ p → splitOn sep p = [p] := by
    intro p hp
    induction p with
    | nil => simp [splitOn]
    | cons c p ih =>
      simp only [List.mem_cons, not_or] at hp
      simp only [splitOn, if_neg (fun h => hp.1 (Eq.symm h)), ih hp.2]
  intro ps
  induction ps with
  | nil => intro h; exact absurd rfl h
  | cons p ps ih =>
    intro _ hp
    cases ps with
    | nil => simpa [joinWith] using single p (hp p (by simp))
    | cons q qs =>
      simp only [joinWith, List.append_assoc, List.cons_append, List.nil_append]
      rw [base p _ (hp p (by simp)), ih (by simp) (fun x hx => hp x (by simp [hx]))]

/-- Joining the parts of a split gives the string back. -/
theorem joinWith_splitOn (sep : Char) (s : Str) : joinWith [sep] (splitOn sep s) = s := by
  induction s with
  | nil => simp [splitOn, joinWith]
  | cons c cs ih =>
    simp only [splitOn]
    split
    · rename_i h; subst h
      cases hsp : splitOn c cs with
      | nil => exact absurd hsp (splitOn_ne_nil _ cs)
      | cons q qs => rw [hsp] at ih; simp [joinWith, ih]
    · cases hsp : splitOn sep cs with
      | nil => exact absurd hsp (splitOn_ne_nil sep cs)
      | cons q qs =>
        rw [hsp] at ih
        cases qs with
        | nil => simpa [joinWith] using ih
        | cons r rs => simpa [joinWith] using ih

end Arti
