import Verif.Spec.Construct
import Verif.Lemmas.Graph
import Verif.Lemmas.Items

/-!
# Lemmas: the key types of a type
-/

namespace Arti
namespace Make
open PyDict Typ Stg Spec

theorem classFor_iff {t : Ty} {c : FieldCls} : classFor t = .ok c ↔ PartitionedBy t c := by
  constructor
  · intro h
    cases t with
    | scalar s m =>
      cases s <;> simp only [classFor, Except.ok.injEq, reduceCtorEq] at h <;> subst h <;> constructor
    | _ => simp [classFor] at h
  · intro h
    cases h <;> rfl

theorem firsts_mem {x : Str} : ∀ {l : List Str}, x ∈ firsts l ↔ x ∈ l
  | [] => by simp [firsts]
  | y :: l => by
    simp only [firsts, List.mem_cons, List.mem_filter, firsts_mem (l := l), decide_eq_true_eq]
    by_cases h : x = y <;> simp [h]

theorem firsts_nodup : ∀ l : List Str, (firsts l).Nodup
  | [] => by simp [firsts]
  | y :: l => by
    simp only [firsts, List.nodup_cons, List.mem_filter, decide_eq_true_eq, ne_eq, not_true_eq_false,
      and_false, not_false_iff, true_and]
    exact (firsts_nodup l).filter _

theorem keys_set {κ ν : Type} [DecidableEq κ] (d : PyDict κ ν) (k : κ) (v : ν) :
    keys (set d k v) = if k ∈ keys d then keys d else keys d ++ [k] := by
  induction d with
  | nil => simp [PyDict.set, keys]
  | cons x d ih =>
    obtain ⟨k', v'⟩ := x
    rw [PyDict.set]
    by_cases h : k' = k
    · subst h
      rw [if_pos rfl, if_pos (by simp [keys])]
      rfl
    · rw [if_neg h]
      have h' : k ≠ k' := fun e => h e.symm
      have e1 : keys ((k', v') :: PyDict.set d k v) = k' :: keys (PyDict.set d k v) := rfl
      have e2 : keys ((k', v') :: d) = k' :: keys d := rfl
      rw [e1, e2, ih]
      by_cases hk : k ∈ keys d
      · rw [if_pos hk, if_pos (List.mem_cons_of_mem _ hk)]
      · rw [if_neg hk, if_neg (by simp [h', hk])]
        rfl

theorem keys_foldl_set {ν : Type} (items : List (Str × ν)) (d : PyDict Str ν) :
    keys (items.foldl (fun d kv => set d kv.1 kv.2) d) =
      keys d ++ (firsts (items.map Prod.fst)).filter (· ∉ keys d) := by
  induction items generalizing d with
  | nil => simp [firsts]
  | cons x items ih =>
    rw [List.foldl_cons, ih, keys_set, List.map_cons, firsts]
    by_cases h : x.1 ∈ keys d
    · rw [if_pos h, List.filter_cons, if_neg (by simpa using h), List.filter_filter]
      congr 1
      refine List.filter_congr fun y _ => ?_
      by_cases hy : y = x.1
      · subst hy; simp [h]
      · simp [hy]
    · rw [if_neg h, List.filter_cons, if_pos (by simpa using h), List.filter_filter, List.append_assoc]
      congr 1
      rw [List.singleton_append]
      congr 1
      refine List.filter_congr fun y _ => ?_
      simp

theorem keys_ofItems {ν : Type} (items : List (Str × ν)) :
    keys (ofItems items) = firsts (items.map Prod.fst) := by
  have := keys_foldl_set items []
  simpa [ofItems, keys] using this

theorem partitionItems_ok {fields : List (Str × Ty)} : ∀ {p : List Str} {items : List (Str × Ty)},
    partitionItems fields p = .ok items →
      items.map Prod.fst = p ∧ ∀ x ∈ items, get? fields x.1 = some x.2
  | [], items, h => by cases h; simp
  | n :: ns, items, h => by
    rw [partitionItems] at h
    cases hg : get? fields n with
    | none => rw [hg] at h; cases h
    | some t =>
      rw [hg] at h
      cases hr : partitionItems fields ns with
      | error _ => rw [hr] at h; cases h
      | ok rest =>
        rw [hr] at h
        cases h
        obtain ⟨h1, h2⟩ := partitionItems_ok hr
        refine ⟨by simp [h1], ?_⟩
        rintro x hx
        rcases List.mem_cons.1 hx with rfl | hx
        · exact hg
        · exact h2 x hx

theorem partitionItems_total {fields : List (Str × Ty)} : ∀ {p : List Str},
    (∀ x ∈ p, x ∈ fields.map Prod.fst) → ∃ items, partitionItems fields p = .ok items
  | [], _ => ⟨[], rfl⟩
  | n :: ns, h => by
    obtain ⟨rest, hr⟩ := partitionItems_total fun x hx => h x (List.mem_cons_of_mem _ hx)
    cases hg : get? fields n with
    | none =>
      exact absurd (h n List.mem_cons_self) ((get?_eq_none_iff fields n).1 hg)
    | some t => exact ⟨(n, t) :: rest, by rw [partitionItems, hg, hr]; rfl⟩

theorem classItems_iff : ∀ {items : List (Str × Ty)} {kt : KeyTypes},
    classItems items = .ok kt ↔
      List.Forall₂ (fun x y => x.1 = y.1 ∧ PartitionedBy x.2 y.2) items kt
  | [], kt => by
    simp only [classItems, Except.ok.injEq, List.forall₂_nil_left_iff]
    exact eq_comm
  | (n, t) :: rest, kt => by
    rw [classItems]
    constructor
    · intro h
      cases hc : classFor t with
      | error _ => rw [hc] at h; cases h
      | ok c =>
        rw [hc] at h
        cases hr : classItems rest with
        | error _ => rw [hr] at h; cases h
        | ok kt' =>
          rw [hr] at h
          cases h
          exact .cons ⟨rfl, classFor_iff.1 hc⟩ (classItems_iff.1 hr)
    · intro h
      cases h with
      | @cons _ y _ ys h1 h2 =>
        obtain ⟨n', c⟩ := y
        obtain ⟨rfl, h1⟩ := h1
        rw [classFor_iff.2 h1, classItems_iff.2 h2]
        rfl

theorem forall₂_keys : ∀ {items : List (Str × Ty)} {kt : KeyTypes},
    List.Forall₂ (fun x y => x.1 = y.1 ∧ PartitionedBy x.2 y.2) items kt →
      keys items = keys kt ∧ ∀ x c, (x, c) ∈ kt → ∃ t, (x, t) ∈ items ∧ PartitionedBy t c
  | _, _, .nil => ⟨rfl, by simp⟩
  | _, _, .cons (a := a) (b := b) (l₁ := l₁) (l₂ := l₂) h1 h2 => by
    obtain ⟨h3, h4⟩ := forall₂_keys h2
    refine ⟨?_, ?_⟩
    · simp only [keys, List.map_cons] at h3 ⊢
      rw [h3, h1.1]
    · rintro x c hx
      rcases List.mem_cons.1 hx with rfl | hx
      · exact ⟨a.2, List.mem_cons.2 (.inl (Prod.ext h1.1.symm rfl)), h1.2⟩
      · obtain ⟨t, ht, hp⟩ := h4 x c hx
        exact ⟨t, List.mem_cons_of_mem _ ht, hp⟩

theorem forall₂_of_keys : ∀ {items : List (Str × Ty)} {kt : KeyTypes}, keys items = keys kt →
    (keys items).Nodup →
    (∀ x c, (x, c) ∈ kt → ∃ t, (x, t) ∈ items ∧ PartitionedBy t c) →
    List.Forall₂ (fun x y => x.1 = y.1 ∧ PartitionedBy x.2 y.2) items kt
  | [], [], _, _, _ => .nil
  | [], _ :: _, h, _, _ => by simp [keys] at h
  | _ :: _, [], h, _, _ => by simp [keys] at h
  | (n, t) :: items, (n', c) :: kt, h, hn, hc => by
    simp only [keys, List.map_cons, List.cons.injEq] at h
    obtain ⟨rfl, h⟩ := h
    simp only [keys, List.map_cons, List.nodup_cons] at hn
    refine .cons ⟨rfl, ?_⟩ (forall₂_of_keys h hn.2 fun x c' hx => ?_)
    · obtain ⟨t', ht', hp⟩ := hc n c List.mem_cons_self
      rcases List.mem_cons.1 ht' with he | ht'
      · cases he; exact hp
      · exact absurd (List.mem_map.2 ⟨_, ht', rfl⟩) hn.1
    · obtain ⟨t', ht', hp⟩ := hc x c' (List.mem_cons_of_mem _ hx)
      rcases List.mem_cons.1 ht' with he | ht'
      · cases he
        have : n ∈ kt.map Prod.fst := List.mem_map.2 ⟨_, hx, rfl⟩
        exact absurd (h ▸ this) hn.1
      · exact ⟨t', ht', hp⟩

/-- The key types are those of the specification. -/
theorem typesFrom_iff {t : Ty} (hv : Valid t) {kt : KeyTypes} :
    typesFrom t = .ok kt ↔ KeyTypesOf t kt := by
  have plain : ∀ {t : Ty}, (∀ n e p c m, t ≠ .collection n e p c m) →
      (Except.ok [] = (.ok kt : Except Err KeyTypes) ↔ KeyTypesOf t kt) := by
    intro t ht
    constructor
    · intro h; cases h; exact .plain ht
    · intro h
      cases h with
      | plain => rfl
      | collection => exact absurd rfl (ht _ _ _ _ _)
  cases t with
  | collection n e p c m =>
    cases e with
    | struct sn fs sm =>
      simp only [Valid] at hv
      obtain ⟨items, hi⟩ := partitionItems_total hv.2.2.1
      obtain ⟨h1, h2⟩ := partitionItems_ok hi
      have hsub : ∀ {x t}, (x, t) ∈ ofItems items → (x, t) ∈ fs := fun hx =>
        get?_mem (h2 _ (mem_of_mem_ofItems hx))
      show (partitionItems fs p >>= fun items => classItems (ofItems items)) = _ ↔ _
      rw [hi]
      show classItems (ofItems items) = _ ↔ _
      rw [classItems_iff]
      constructor
      · intro h
        obtain ⟨h3, h4⟩ := forall₂_keys h
        refine .collection (by rw [← h3, keys_ofItems, h1]) fun x c hx => ?_
        obtain ⟨t, ht, hp⟩ := h4 x c hx
        exact ⟨t, hsub ht, hp⟩
      · intro h
        cases h with
        | plain h => exact absurd rfl (h _ _ _ _ _)
        | collection h3 h4 =>
          refine forall₂_of_keys (by rw [h3, keys_ofItems, h1]) (nodup_keys_ofItems _) fun x c hx => ?_
          obtain ⟨t, ht, hp⟩ := h4 x c hx
          have hx' : x ∈ keys (ofItems items) := by
            rw [keys_ofItems, h1, ← h3]
            exact List.mem_map.2 ⟨_, hx, rfl⟩
          obtain ⟨⟨x', t'⟩, hm, he⟩ := List.mem_map.1 hx'
          simp only at he
          subst he
          have e1 := get?_of_mem hv.1.1 (hsub hm)
          have e2 := get?_of_mem hv.1.1 ht
          rw [e1] at e2
          cases e2
          exact ⟨_, hm, hp⟩
    | _ => simp [Valid] at hv
  | _ => exact plain (by simp)

end Make
end Arti
