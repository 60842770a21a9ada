import Verif.Spec.Dispatch
import Verif.Lemmas.Dict
import Mathlib.Data.List.Nodup

/-!
# C70: the function for a read or a write is determined by classes
-/

namespace Arti.Props
open Arti Disp Spec PyDict TH

section
variable {C K : Type} [DecidableEq C] [DecidableEq K] {H : Hier C} {E : Classes C K}

theorem applies_iff {key types : List K} : applies E key types = true ↔ Applicable E.sub key types := by
  unfold applies Applicable
  induction key generalizing types with
  | nil => simp
  | cons k ks ih =>
    cases types with
    | nil => simp
    | cons t ts =>
      have := @ih ts
      simp only [Bool.and_eq_true, decide_eq_true_eq, List.length_cons, Nat.add_le_add_iff_right,
        List.zip_cons_cons, List.all_cons, List.take_succ_cons, List.forall₂_cons] at this ⊢
      rw [← this]
      constructor
      · rintro ⟨a, b, c⟩; exact ⟨b, a, c⟩
      · rintro ⟨b, a, c⟩; exact ⟨a, b, c⟩

/-! ### The state of a table -/

/-- What holds of a table at any time. -/
structure TInv (E : Classes C K) (T : Table C K) : Prop where
  nodup : (keys T.funcs).Nodup
  cache : ∀ types f, get? T.cache types = some f →
    T.pending = [] ∧ get? T.funcs types = none ∧ select E T.funcs types = .ok f

theorem TInv.setItem {T : Table C K} (h : TInv E T) (types : List K) (f : Fn) :
    TInv E (setItem types f T) :=
  ⟨nodup_keys_set _ _ _ h.nodup, fun _ _ hc => by simp [Disp.setItem, get?] at hc⟩

theorem TInv.register {T : Table C K} (h : TInv E T) (x : Handler C) :
    TInv E (register H E x T).2 := by
  unfold Disp.register
  split
  · exact h
  · exact h.setItem _ _

theorem discover_inv : ∀ (hs : List (Handler C)) {T : Table C K}, TInv E T → T.pending = hs →
    TInv E (discover H E hs T).2 ∧ ((discover H E hs T).1 = .ok () → (discover H E hs T).2.pending = [])
  | [], T, h, hp => by
    refine ⟨⟨h.nodup, fun types f hc => ?_⟩, fun _ => rfl⟩
    exact ⟨rfl, (h.cache types f hc).2⟩
  | x :: hs, T, h, hp => by
    have e : ({ T with pending := x :: hs } : Table C K) = T := by rw [← hp]
    rw [discover, e]
    have hr := h.register (H := H) x
    cases hreg : Disp.register H E x T with
    | mk r T' =>
    rw [hreg] at hr
    cases r with
    | error e => exact ⟨hr, by simp⟩
    | ok _ =>
      have hc : T'.cache = [] := by
        unfold Disp.register at hreg
        split at hreg
        · simp at hreg
        · simp only [Prod.mk.injEq] at hreg
          rw [← hreg.2]; rfl
      cases hs with
      | nil =>
        refine ⟨⟨hr.nodup, fun types f hx => ?_⟩, fun _ => rfl⟩
        simp only [discover, hc, get?] at hx
        simp at hx
      | cons y ys =>
        simp only
        rw [show discover H E (y :: ys) T' = discover H E (y :: ys) { T' with pending := y :: ys } from by
          rw [discover, discover]]
        exact discover_inv (y :: ys) ⟨hr.nodup, fun types f hx => by simp [hc, get?] at hx⟩ rfl

theorem discover_nil {T : Table C K} (h : T.pending = []) :
    discover H E T.pending T = (.ok (), T) := by
  rw [h]
  simp only [discover]
  rw [← h]

theorem TInv.getItem {T : Table C K} (h : TInv E T) (types : List K) :
    TInv E (getItem H E types T).2 := by
  unfold Disp.getItem
  split
  · exact h
  · split
    · exact h
    · unfold missing
      have hd := discover_inv (H := H) T.pending h rfl
      cases hx : discover H E T.pending T with
      | mk r T' =>
      rw [hx] at hd
      cases r with
      | error e => exact hd.1
      | ok _ =>
        simp only
        split
        · exact hd.1
        · rename_i hn
          split
          · exact hd.1
          · rename_i f hf
            refine ⟨hd.1.nodup, fun types' f' hc => ?_⟩
            simp only [get?_set] at hc
            split at hc
            · rename_i he
              subst he
              rw [← Option.some.inj hc]
              exact ⟨hd.2 rfl, hn, hf⟩
            · exact hd.1.cache types' f' hc

theorem lookup_state {types : List K} {T : Table C K} :
    (lookup H E types T).2 = (getItem H E types T).2 := by
  unfold lookup
  cases getItem H E types T with
  | mk r T' =>
    cases r with
    | ok f => simp only; split <;> rfl
    | error e => cases e <;> rfl

theorem TInv.ops : ∀ (ops : List (Op C K)) {T : Table C K}, TInv E T → TInv E (runOps H E T ops)
  | [], _, h => h
  | op :: ops, T, h => by
    refine TInv.ops ops (T := Op.run H E T op) ?_
    cases op with
    | register x => exact h.register x
    | registerBare types f => exact h.setItem types f
    | lookup types => simp only [Op.run, lookup_state]; exact h.getItem types
    | call types => exact h.getItem types

theorem TInv.new (base : Handler C) (pending : List (Handler C)) :
    TInv E (Disp.new E base pending : Table C K) :=
  ⟨by simp [Disp.new, keys], fun _ _ h => by simp [Disp.new, get?] at h⟩

/-! ### Selection -/

theorem mem_closest {funcs : PyDict (List K) Fn} {types : List K} {x : List K × Fn} :
    x ∈ closest E funcs types ↔ x ∈ funcs ∧ applies E x.1 types = true ∧
      ∀ y ∈ funcs, applies E y.1 types = true → below E x.1 y.1 = false := by
  unfold closest
  simp only [List.mem_filter, Bool.not_eq_true', List.any_eq_false, List.mem_filter]
  constructor
  · rintro ⟨⟨h1, h2⟩, h3⟩
    exact ⟨h1, h2, fun y hy hy' => by simpa using h3 y ⟨hy, hy'⟩⟩
  · rintro ⟨h1, h2, h3⟩
    exact ⟨⟨h1, h2⟩, fun y hy => by simpa using h3 y hy.1 hy.2⟩

theorem mem_nearest {funcs : PyDict (List K) Fn} {types : List K} {x : List K × Fn} :
    x ∈ nearest E funcs types ↔ x ∈ closest E funcs types ∧
      ∀ y ∈ closest E funcs types, lexLe (distance E types x.1) (distance E types y.1) = true := by
  unfold nearest
  simp only [List.mem_filter, List.all_eq_true]

theorem select_ok {funcs : PyDict (List K) Fn} {types : List K} {f : Fn} :
    select E funcs types = .ok f ↔ (∃ x ∈ nearest E funcs types, x.2 = f) ∧
      ∀ x ∈ nearest E funcs types, x.2 = f := by
  unfold select
  have hm : ∀ g, g ∈ (nearest E funcs types).map Prod.snd ↔ ∃ x ∈ nearest E funcs types, x.2 = g := by
    intro g; simp only [List.mem_map]
  have hall : (∀ x ∈ nearest E funcs types, x.2 = f) ↔
      ∀ g ∈ (nearest E funcs types).map Prod.snd, g = f := by
    constructor
    · intro h g hg
      obtain ⟨x, hx, rfl⟩ := (hm g).1 hg
      exact h x hx
    · intro h x hx
      exact h _ ((hm _).2 ⟨x, hx, rfl⟩)
  rw [hall, ← hm]
  cases (nearest E funcs types).map Prod.snd with
  | nil => simp
  | cons g gs =>
    simp only [List.all_eq_true, decide_eq_true_eq]
    split
    · rename_i h
      simp only [Except.ok.injEq, List.mem_cons, forall_eq_or_imp]
      constructor
      · rintro rfl; exact ⟨.inl rfl, rfl, h⟩
      · rintro ⟨-, h2, -⟩; exact h2
    · rename_i h
      simp only [reduceCtorEq, List.mem_cons, forall_eq_or_imp, false_iff, not_and]
      rintro - rfl h2
      exact h h2

theorem select_error {funcs : PyDict (List K) Fn} {types : List K} {e : Err}
    (h : select E funcs types = .error e) : e = .typeError := by
  unfold select at h
  split at h
  · exact (Except.error.inj h).symm
  · split at h
    · simp at h
    · exact (Except.error.inj h).symm

/-- Selection depends on which functions are registered, not on the order. -/
theorem select_congr {funcs funcs' : PyDict (List K) Fn} (hn : (keys funcs).Nodup)
    (hn' : (keys funcs').Nodup) (h : ∀ key, get? funcs key = get? funcs' key) (types : List K) :
    select E funcs types = select E funcs' types := by
  have hm : ∀ x, x ∈ funcs ↔ x ∈ funcs' := by
    rintro ⟨k, f⟩
    rw [mem_iff_get? hn, mem_iff_get? hn', h]
  have hc : ∀ x, x ∈ closest E funcs types ↔ x ∈ closest E funcs' types := by
    intro x
    simp only [mem_closest, hm]
  have hne : ∀ x, x ∈ nearest E funcs types ↔ x ∈ nearest E funcs' types := by
    intro x
    simp only [mem_nearest, hc]
  have hk : ∀ f, select E funcs types = .ok f ↔ select E funcs' types = .ok f := by
    intro f
    simp only [select_ok, hne]
  cases h1 : select E funcs types with
  | ok f => exact ((hk f).1 h1).symm
  | error e =>
    cases h2 : select E funcs' types with
    | ok f => rw [(hk f).2 h2] at h1; simp at h1
    | error e' => rw [select_error h1, select_error h2]

/-- What `self[types]` is when nothing is left to discover. -/
theorem getItem_eq {T : Table C K} (h : TInv E T) (hp : T.pending = []) (types : List K) :
    (getItem H E types T).1 = match get? T.funcs types with
      | some f => .ok f
      | none => select E T.funcs types := by
  unfold getItem
  cases hf : get? T.funcs types with
  | some f => rfl
  | none =>
    simp only
    cases hc : get? T.cache types with
    | some f => exact (h.cache types f hc).2.2.symm
    | none =>
      simp only [missing, discover_nil hp, hf]
      cases select E T.funcs types with
      | error e => rfl
      | ok f => rfl

theorem lookup_fst {T : Table C K} {types : List K} :
    (lookup H E types T).1 = match (getItem H E types T).1 with
      | .error .typeError => .error .valueError
      | .error e => .error e
      | .ok f => if f.abstract then .error .valueError else .ok f := by
  unfold lookup
  cases getItem H E types T with
  | mk r T' =>
    cases r with
    | ok f => simp only; split <;> rfl
    | error e => cases e <;> rfl

/-! ### The property -/

/-- **C70.** Two tables, after any histories of registrations, lookups and calls in any order, with
nothing left to discover.  If the same functions are registered for the same classes then all
lookups and calls find the same functions: neither the order of registrations nor what was looked up
before matters. -/
theorem C70_only_registered_functions_matter {base base' : Handler C} {pend pend' : List (Handler C)}
    {ops ops' : List (Op C K)} {T T' : Table C K}
    (hT : runOps H E (Disp.new E base pend) ops = T)
    (hT' : runOps H E (Disp.new E base' pend') ops' = T')
    (hp : T.pending = []) (hp' : T'.pending = [])
    (hf : ∀ key, get? T.funcs key = get? T'.funcs key) (types : List K) :
    (lookup H E types T).1 = (lookup H E types T').1 ∧
    (getItem H E types T).1 = (getItem H E types T').1 := by
  have h : TInv E T := hT ▸ TInv.ops ops (TInv.new base pend)
  have h' : TInv E T' := hT' ▸ TInv.ops ops' (TInv.new base' pend')
  have hg : (getItem H E types T).1 = (getItem H E types T').1 := by
    rw [getItem_eq h hp, getItem_eq h' hp', hf, select_congr h.nodup h'.nodup hf]
  exact ⟨by rw [lookup_fst, lookup_fst, hg], hg⟩

/-- **C70.** Lookups and calls register nothing, once everything was discovered. -/
theorem C70_lookups_register_nothing {T : Table C K} (hp : T.pending = []) (types : List K) :
    (lookup H E types T).2.funcs = T.funcs ∧ (lookup H E types T).2.spec = T.spec ∧
    (lookup H E types T).2.pending = [] := by
  rw [lookup_state]
  unfold getItem
  split
  · exact ⟨rfl, rfl, hp⟩
  · split
    · exact ⟨rfl, rfl, hp⟩
    · simp only [missing, discover_nil hp]
      split
      · exact ⟨rfl, rfl, hp⟩
      · split
        · exact ⟨rfl, rfl, hp⟩
        · exact ⟨rfl, rfl, hp⟩

/-- **C70.** A function is accepted exactly if it has the parameters of the first one (in any order),
of the same kinds, each annotated with `Any` or with a subclass, and returns a subclass.  If it is
accepted it is found under its classes at once, instead of what was there before, and nothing else
changes; otherwise nothing changes. -/
theorem C70_accepted_functions {T : Table C K} (hs : (T.spec.params.map Param.name).Nodup)
    (h : Handler C) :
    ((register H E h T).1 = .ok () ↔
      (∀ n, n ∈ h.sig.params.map Param.name ↔ n ∈ T.spec.params.map Param.name) ∧
      (∀ p ∈ h.sig.params, ∀ q ∈ T.spec.params, q.name = p.name → p.kind = q.kind ∧
        (p.ann = .any ∨ lenient H p.ann q.ann = .ok true)) ∧
      lenient H h.sig.ret T.spec.ret = .ok true) ∧
    ((register H E h T).1 = .ok () →
      (getItem H E (keyOf E h.sig) (register H E h T).2).1 = .ok h.fn ∧
      ∀ key, key ≠ keyOf E h.sig → get? (register H E h T).2.funcs key = get? T.funcs key) ∧
    ((register H E h T).1 ≠ .ok () → (register H E h T).2 = T) := by
  have hany : ∀ a : Hint C, isSame a .any = true ↔ a = .any := by
    intro a
    cases a <;> simp [isSame, ident]
  have hparams : ∀ ps : List (Param C), (∀ p ∈ ps, p.name ∈ T.spec.params.map Param.name) →
      (checkParams H T.spec.params ps = .ok () ↔
        ∀ p ∈ ps, ∀ q ∈ T.spec.params, q.name = p.name → p.kind = q.kind ∧
          (p.ann = .any ∨ lenient H p.ann q.ann = .ok true)) := by
    intro ps
    induction ps with
    | nil => intro _; simp [checkParams]
    | cons p ps ih =>
      intro hp
      have ih := ih fun q hq => hp q (List.mem_cons_of_mem _ hq)
      obtain ⟨q, hq, hqn⟩ := List.mem_map.1 (hp p (by simp))
      have huniq : ∀ q' ∈ T.spec.params, q'.name = p.name → q' = q := fun q' hq' he =>
        List.inj_on_of_nodup_map hs hq' hq (he.trans hqn.symm)
      have hfind : T.spec.params.find? (fun q => q.name = p.name) = some q := by
        cases hf : T.spec.params.find? (fun q => q.name = p.name) with
        | none => exact absurd hqn (by simpa using List.find?_eq_none.1 hf q hq)
        | some q' =>
          rw [huniq q' (List.mem_of_find?_eq_some hf) (by simpa using List.find?_some hf)]
      have hq1 : (∀ q' ∈ T.spec.params, q'.name = p.name → p.kind = q'.kind ∧
          (p.ann = .any ∨ lenient H p.ann q'.ann = .ok true)) ↔
          (p.kind = q.kind ∧ (p.ann = .any ∨ lenient H p.ann q.ann = .ok true)) := by
        constructor
        · intro h; exact h q hq hqn
        · intro h q' hq' he; rw [huniq q' hq' he]; exact h
      simp only [checkParams, hfind, List.forall_mem_cons, hq1, ← ih]
      by_cases hk : p.kind = q.kind
      · simp only [hk, ne_eq, not_true, if_false, true_and]
        by_cases ha : p.ann = .any
        · simp [ha, (hany .any).2 rfl]
        · have : isSame p.ann .any = false := by
            rw [← Bool.not_eq_true, hany]; exact ha
          simp only [this, Bool.false_eq_true, if_false, ha, false_or]
          cases hl : lenient H p.ann q.ann with
          | error e => simp
          | ok b => cases b <;> simp
      · simp [hk]
  have hcheck : check H T.spec h.sig = .ok () ↔
      (∀ n, n ∈ h.sig.params.map Param.name ↔ n ∈ T.spec.params.map Param.name) ∧
      (∀ p ∈ h.sig.params, ∀ q ∈ T.spec.params, q.name = p.name → p.kind = q.kind ∧
        (p.ann = .any ∨ lenient H p.ann q.ann = .ok true)) ∧
      lenient H h.sig.ret T.spec.ret = .ok true := by
    unfold check
    by_cases hn : ∀ n, n ∈ h.sig.params.map Param.name ↔ n ∈ T.spec.params.map Param.name
    · have hs' := (sameSet_iff _ _).2 hn
      rw [hs']
      simp only [Bool.not_true, Bool.false_eq_true, if_false]
      rw [← hparams h.sig.params fun p hp => (hn _).1 (List.mem_map_of_mem hp)]
      simp only [hn, implies_true, true_and]
      cases checkParams H T.spec.params h.sig.params with
      | error e => simp
      | ok u =>
        cases hl : lenient H h.sig.ret T.spec.ret with
        | error e => simp
        | ok b => cases b <;> simp
    · have : sameSet (h.sig.params.map Param.name) (T.spec.params.map Param.name) = false := by
        rw [← Bool.not_eq_true, sameSet_iff]; exact hn
      rw [this]
      simp only [Bool.not_false, if_true, reduceCtorEq, false_iff, not_and]
      exact fun h => absurd h hn
  refine ⟨?_, ?_, ?_⟩
  · rw [← hcheck]
    unfold register
    cases check H T.spec h.sig <;> simp
  · unfold register
    cases check H T.spec h.sig with
    | error e => simp
    | ok u =>
      intro _
      refine ⟨?_, fun key hk => ?_⟩
      · simp [getItem, setItem, get?_set]
      · simp [setItem, get?_set, Ne.symm hk]
  · unfold register
    cases check H T.spec h.sig <;> simp

/-- **C70.** The function that a lookup finds is registered, is not the first one, can be called with
the arguments, and no registered function that can be called is more specific. -/
theorem C70_lookup_finds_a_closest_function (ho : Order E.sub) {base : Handler C}
    {pend : List (Handler C)} {ops : List (Op C K)} {T : Table C K}
    (hT : runOps H E (Disp.new E base pend) ops = T) (hp : T.pending = []) {types : List K} {f : Fn}
    (hl : (lookup H E types T).1 = .ok f) :
    f.abstract = false ∧ ∃ key, get? T.funcs key = some f ∧ Applicable E.sub key types ∧
      ∀ key' f', get? T.funcs key' = some f' → Applicable E.sub key' types →
        Applicable E.sub key key' → key' = key := by
  have h : TInv E T := hT ▸ TInv.ops ops (TInv.new base pend)
  rw [lookup_fst, getItem_eq h hp] at hl
  have hsame : ∀ a b : List K, Applicable E.sub a b → Applicable E.sub b a → a = b := by
    intro a b h1 h2
    have l1 : a.length ≤ b.length := by
      have := h1.length_eq; rw [List.length_take] at this; omega
    have l2 : b.length ≤ a.length := by
      have := h2.length_eq; rw [List.length_take] at this; omega
    unfold Applicable at h1 h2
    rw [List.take_of_length_le l2] at h1
    rw [List.take_of_length_le l1] at h2
    have h3 : List.Forall₂ (fun k t => E.sub k t = true) a b := h2.flip
    clear l1 l2 h2
    induction h1 with
    | nil => rfl
    | cons h hs ih =>
      obtain ⟨e1, e2⟩ := List.forall₂_cons.1 h3
      rw [ho.antisymm h e1, ih e2]
  have hrefl : ∀ a : List K, Applicable E.sub a a := by
    intro a
    unfold Applicable
    rw [List.take_of_length_le (Nat.le_refl _)]
    induction a with
    | nil => exact .nil
    | cons x a ih => exact .cons (ho.refl x) ih
  cases hf : get? T.funcs types with
  | some g =>
    simp only [hf] at hl
    split at hl
    · simp at hl
    · rename_i ha
      obtain rfl := Except.ok.inj hl
      exact ⟨by simpa using ha, types, hf, hrefl types, fun key' f' _ h1 h2 => hsame _ _ h1 h2⟩
  | none =>
    simp only [hf] at hl
    cases hsel : select E T.funcs types with
    | error e =>
      rw [hsel] at hl
      rw [select_error hsel] at hl
      simp at hl
    | ok g =>
      rw [hsel] at hl
      simp only at hl
      split at hl
      · simp at hl
      · rename_i ha
        obtain rfl := Except.ok.inj hl
        refine ⟨by simpa using ha, ?_⟩
        obtain ⟨⟨x, hx, hxg⟩, -⟩ := select_ok.1 hsel
        obtain ⟨h1, h2, h3⟩ := mem_closest.1 (mem_nearest.1 hx).1
        refine ⟨x.1, ?_, applies_iff.1 h2, fun key' f' hk ha hb => ?_⟩
        · rw [← hxg]; exact (mem_iff_get? h.nodup).1 h1
        · have := h3 (key', f') (get?_mem hk) (applies_iff.2 ha)
          simp only [below, applies_iff.2 hb, Bool.and_true, decide_eq_false_iff_not, ne_eq,
            not_not] at this
          exact this.symm

private theorem position_split (k : K) : ∀ (l1 l2 : List K), k ∉ l1 → l2 ≠ [] →
    position k (l1 ++ k :: l2) = l1.length
  | [], l2, _, h2 => by
    cases l2 with
    | nil => exact absurd rfl h2
    | cons c cs => simp [position]
  | c :: l1, l2, h, h2 => by
    have hc : c ≠ k := fun e => h (e ▸ List.mem_cons_self)
    have := position_split k l1 l2 (fun hm => h (List.mem_cons_of_mem _ hm)) h2
    cases l1 with
    | nil => simp only [List.cons_append, List.nil_append, List.length_cons] at *; simp [position, hc] at this ⊢
    | cons d l1 => simp only [List.cons_append] at *; simp only [position, hc, if_false, List.length_cons]; rw [this]; simp

private theorem position_late (k' : K) : ∀ (l1 l2 : List K) (k : K), k' ∉ l1 → k ≠ k' → l2 ≠ [] →
    l1.length < position k' (l1 ++ k :: l2)
  | [], l2, k, _, hk, h2 => by
    cases l2 with
    | nil => exact absurd rfl h2
    | cons c cs => simp [position, hk]
  | c :: l1, l2, k, h, hk, h2 => by
    have hc : c ≠ k' := fun e => h (e ▸ List.mem_cons_self)
    have := position_late k' l1 l2 k (fun hm => h (List.mem_cons_of_mem _ hm)) hk h2
    cases l1 with
    | nil =>
      have e : position k' (c :: k :: l2) = position k' (k :: l2) + 1 := by
        simp only [position, hc, if_false]
      simp only [List.cons_append, List.nil_append, List.length_cons] at this ⊢
      omega
    | cons d l1 => simp only [List.cons_append] at *; simp only [position, hc, if_false, List.length_cons] at *; omega

private theorem lexLe_prefix : ∀ (a x y : List Nat), lexLe (a ++ x) (a ++ y) = lexLe x y
  | [], _, _ => rfl
  | c :: a, x, y => by simp [lexLe, lexLe_prefix a x y]

private theorem zip_prefix {α β : Type} (pre : List (α × β)) (xs : List α) (ys : List β) :
    (pre.map Prod.fst ++ xs).zip (pre.map Prod.snd ++ ys) = pre ++ xs.zip ys := by
  induction pre with
  | nil => rfl
  | cons p pre ih => simp [ih]

/-- A function that precedes another one is nearer. -/
private theorem precedes_nearer {types key key' : List K} (h : Precedes E.mro types key' key) :
    lexLe (distance E types key) (distance E types key') = false := by
  obtain ⟨pre, t, ts, k, ks, k', ks', rfl, rfl, rfl, l1, l2, hm, h1, h2, h3, h4⟩ := h
  have hne : l2 ≠ [] := List.ne_nil_of_mem h4
  unfold distance
  rw [zip_prefix, zip_prefix, List.map_append, List.map_append, lexLe_prefix]
  simp only [List.zip_cons_cons, List.map_cons, lexLe, hm, position_split k l1 l2 h1 hne]
  have := position_late k' l1 l2 k h2 h3 hne
  simp only [Bool.or_eq_false_iff, Bool.and_eq_false_iff, decide_eq_false_iff_not]
  omega

/-- **C70.** Between functions of which none is more specific than the other, the method resolution
orders of the classes of the arguments decide, the first argument first: the function that is found
is preceded by no other one that can be called and than which none is more specific. -/
theorem C70_the_first_arguments_decide (ho : Order E.sub) {base : Handler C}
    {pend : List (Handler C)} {ops : List (Op C K)} {T : Table C K}
    (hT : runOps H E (Disp.new E base pend) ops = T) (hp : T.pending = []) {types : List K} {f : Fn}
    (hl : (lookup H E types T).1 = .ok f) :
    ∃ key, get? T.funcs key = some f ∧ Applicable E.sub key types ∧
      ∀ key' f', get? T.funcs key' = some f' → Applicable E.sub key' types →
        (∀ key'' f'', get? T.funcs key'' = some f'' → Applicable E.sub key'' types →
          Applicable E.sub key' key'' → key'' = key') →
        ¬ Precedes E.mro types key' key := by
  have h : TInv E T := hT ▸ TInv.ops ops (TInv.new base pend)
  rw [lookup_fst, getItem_eq h hp] at hl
  cases hf : get? T.funcs types with
  | some g =>
    simp only [hf] at hl
    split at hl
    · simp at hl
    · obtain rfl := Except.ok.inj hl
      have hrefl : ∀ a : List K, Applicable E.sub a a := by
        intro a
        unfold Applicable
        rw [List.take_of_length_le (Nat.le_refl _)]
        induction a with
        | nil => exact .nil
        | cons x a ih => exact .cons (ho.refl x) ih
      refine ⟨types, hf, hrefl types, fun key' f' _ ha hc hpre => ?_⟩
      obtain rfl := hc types _ hf (hrefl types) ha
      obtain ⟨pre, t, ts, k, ks, k', ks', -, e1, e2, l1, l2, -, -, -, h3, -⟩ := hpre
      rw [e1] at e2
      have := List.append_cancel_left e2
      exact h3 (List.cons.inj this).1
  | none =>
    simp only [hf] at hl
    cases hsel : select E T.funcs types with
    | error e =>
      rw [hsel] at hl
      rw [select_error hsel] at hl
      simp at hl
    | ok g =>
      rw [hsel] at hl
      simp only at hl
      split at hl
      · simp at hl
      · obtain rfl := Except.ok.inj hl
        obtain ⟨⟨x, hx, hxg⟩, -⟩ := select_ok.1 hsel
        obtain ⟨hx1, hx2⟩ := mem_nearest.1 hx
        obtain ⟨h1, h2, h3⟩ := mem_closest.1 hx1
        refine ⟨x.1, by rw [← hxg]; exact (mem_iff_get? h.nodup).1 h1, applies_iff.1 h2,
          fun key' f' hk ha hc hpre => ?_⟩
        have hcl : (key', f') ∈ closest E T.funcs types := by
          refine mem_closest.2 ⟨get?_mem hk, applies_iff.2 ha, fun y hy hya => ?_⟩
          by_cases e : key' = y.1
          · simp [below, e]
          · simp only [below, Bool.and_eq_false_iff]
            right
            by_contra hb
            rw [Bool.not_eq_false] at hb
            exact e (hc y.1 y.2 ((mem_iff_get? h.nodup).1 hy) (applies_iff.1 hya)
              (applies_iff.1 hb)).symm
        have := hx2 _ hcl
        rw [precedes_nearer hpre] at this
        exact Bool.noConfusion this

/-- **C70.** If among the registered functions that can be called one is the most specific, then it
is found; if that is the first one, the lookup raises. -/
theorem C70_most_specific_function_is_found (ho : Order E.sub) {base : Handler C}
    {pend : List (Handler C)} {ops : List (Op C K)} {T : Table C K}
    (hT : runOps H E (Disp.new E base pend) ops = T) (hp : T.pending = []) {types key : List K} {f : Fn}
    (hf : get? T.funcs key = some f) (ha : Applicable E.sub key types)
    (hbest : ∀ key' f', get? T.funcs key' = some f' → Applicable E.sub key' types →
      Applicable E.sub key' key) :
    (getItem H E types T).1 = .ok f ∧
    (lookup H E types T).1 = if f.abstract then .error .valueError else .ok f := by
  have h : TInv E T := hT ▸ TInv.ops ops (TInv.new base pend)
  have hlen : ∀ a b : List K, Applicable E.sub a b → a.length ≤ b.length := by
    intro a b h1
    have := h1.length_eq; rw [List.length_take] at this; omega
  have hsame : ∀ a b : List K, Applicable E.sub a b → Applicable E.sub b a → a = b := by
    intro a b h1 h2
    have l1 := hlen _ _ h1
    have l2 := hlen _ _ h2
    unfold Applicable at h1 h2
    rw [List.take_of_length_le l2] at h1
    rw [List.take_of_length_le l1] at h2
    have h3 : List.Forall₂ (fun k t => E.sub k t = true) a b := h2.flip
    clear l1 l2 h2
    induction h1 with
    | nil => rfl
    | cons h hs ih =>
      obtain ⟨e1, e2⟩ := List.forall₂_cons.1 h3
      rw [ho.antisymm h e1, ih e2]
  have hrefl : ∀ a : List K, Applicable E.sub a a := by
    intro a
    unfold Applicable
    rw [List.take_of_length_le (Nat.le_refl _)]
    induction a with
    | nil => exact .nil
    | cons x a ih => exact .cons (ho.refl x) ih
  have hg : (getItem H E types T).1 = .ok f := by
    rw [getItem_eq h hp]
    cases hx : get? T.funcs types with
    | some g =>
      have := hsame _ _ ha (hbest types g hx (hrefl types))
      rw [this, hx] at hf
      rw [Option.some.inj hf]
    | none =>
      simp only
      have hcl : ∀ x, x ∈ closest E T.funcs types ↔ x = (key, f) := by
        intro x
        rw [mem_closest]
        constructor
        · rintro ⟨h1, h2, h3⟩
          have h4 := hbest x.1 x.2 ((mem_iff_get? h.nodup).1 h1) (applies_iff.1 h2)
          have h5 := h3 (key, f) (get?_mem hf) (applies_iff.2 ha)
          simp only [below, applies_iff.2 h4, Bool.and_true, decide_eq_false_iff_not, ne_eq,
            not_not] at h5
          have h6 := (mem_iff_get? h.nodup).1 h1
          rw [h5, hf] at h6
          exact Prod.ext h5 (Option.some.inj h6).symm
        · rintro rfl
          refine ⟨get?_mem hf, applies_iff.2 ha, fun y hy hy' => ?_⟩
          have h4 := hbest y.1 y.2 ((mem_iff_get? h.nodup).1 hy) (applies_iff.1 hy')
          unfold below
          cases hb : applies E key y.1 with
          | false => simp
          | true =>
            have := hsame _ _ (applies_iff.1 hb) h4
            simp [this]
      have hlex : ∀ l : List Nat, lexLe l l = true := by
        intro l
        induction l with
        | nil => rfl
        | cons a l ih => simp [lexLe, ih]
      rw [select_ok]
      refine ⟨⟨(key, f), mem_nearest.2 ⟨(hcl _).2 rfl, fun y hy => ?_⟩, rfl⟩, fun x hx => ?_⟩
      · rw [(hcl y).1 hy]; exact hlex _
      · rw [(hcl x).1 (mem_nearest.1 hx).1]
  exact ⟨hg, by rw [lookup_fst, hg]⟩

private theorem precedes_lexLe {types key key' : List K} (h : Precedes E.mro types key key') :
    lexLe (distance E types key) (distance E types key') = true := by
  obtain ⟨pre, t, ts, k, ks, k', ks', rfl, rfl, rfl, l1, l2, hm, h1, h2, h3, h4⟩ := h
  have hne : l2 ≠ [] := List.ne_nil_of_mem h4
  unfold distance
  rw [zip_prefix, zip_prefix, List.map_append, List.map_append, lexLe_prefix]
  simp only [List.zip_cons_cons, List.map_cons, lexLe, hm, position_split k l1 l2 h1 hne]
  have := position_late k' l1 l2 k h2 h3 hne
  simp only [Bool.or_eq_true, decide_eq_true_eq]
  left
  omega

/-- **C70.** If one of the functions than which none is more specific precedes all others of them, then
it is found, whatever the later arguments are; if that is the first function of the table, the lookup
raises. -/
theorem C70_the_preceding_function_is_found (ho : Order E.sub) {base : Handler C}
    {pend : List (Handler C)} {ops : List (Op C K)} {T : Table C K}
    (hT : runOps H E (Disp.new E base pend) ops = T) (hp : T.pending = []) {types key : List K} {f : Fn}
    (hf : get? T.funcs key = some f) (ha : Applicable E.sub key types)
    (hclose : ∀ key' f', get? T.funcs key' = some f' → Applicable E.sub key' types →
      Applicable E.sub key key' → key' = key)
    (hfirst : ∀ key' f', get? T.funcs key' = some f' → Applicable E.sub key' types →
      (∀ key'' f'', get? T.funcs key'' = some f'' → Applicable E.sub key'' types →
        Applicable E.sub key' key'' → key'' = key') →
      key' ≠ key → Precedes E.mro types key key') :
    (getItem H E types T).1 = .ok f ∧
    (lookup H E types T).1 = if f.abstract then .error .valueError else .ok f := by
  have h : TInv E T := hT ▸ TInv.ops ops (TInv.new base pend)
  have hrefl : ∀ a : List K, Applicable E.sub a a := by
    intro a
    unfold Applicable
    rw [List.take_of_length_le (Nat.le_refl _)]
    induction a with
    | nil => exact .nil
    | cons x a ih => exact .cons (ho.refl x) ih
  have hg : (getItem H E types T).1 = .ok f := by
    rw [getItem_eq h hp]
    cases hx : get? T.funcs types with
    | some g =>
      have := hclose types g hx (hrefl types) ha
      rw [← this, hx] at hf
      rw [Option.some.inj hf]
    | none =>
      simp only
      have hme : (key, f) ∈ closest E T.funcs types := by
        refine mem_closest.2 ⟨get?_mem hf, applies_iff.2 ha, fun y hy hy' => ?_⟩
        unfold below
        cases hb : applies E key y.1 with
        | false => simp
        | true =>
          have := hclose y.1 y.2 ((mem_iff_get? h.nodup).1 hy) (applies_iff.1 hy') (applies_iff.1 hb)
          simp [this]
      have hpre : ∀ y ∈ closest E T.funcs types, y.1 ≠ key → Precedes E.mro types key y.1 := by
        intro y hy hne
        obtain ⟨h1, h2, h3⟩ := mem_closest.1 hy
        refine hfirst y.1 y.2 ((mem_iff_get? h.nodup).1 h1) (applies_iff.1 h2) ?_ hne
        intro key'' f'' hk'' ha'' hb
        have := h3 (key'', f'') (get?_mem hk'') (applies_iff.2 ha'')
        simp only [below, applies_iff.2 hb, Bool.and_true, decide_eq_false_iff_not, ne_eq,
          not_not] at this
        exact this.symm
      have hsame : ∀ y ∈ closest E T.funcs types, y.1 = key → y.2 = f := by
        intro y hy he
        have := (mem_iff_get? h.nodup).1 (mem_closest.1 hy).1
        rw [he, hf] at this
        exact (Option.some.inj this).symm
      have hlex : ∀ l : List Nat, lexLe l l = true := by
        intro l
        induction l with
        | nil => rfl
        | cons a l ih => simp [lexLe, ih]
      rw [select_ok]
      refine ⟨⟨(key, f), mem_nearest.2 ⟨hme, fun y hy => ?_⟩, rfl⟩, fun x hx => ?_⟩
      · by_cases he : y.1 = key
        · rw [he]; exact hlex _
        · exact precedes_lexLe (hpre y hy he)
      · obtain ⟨h1, h2⟩ := mem_nearest.1 hx
        by_cases he : x.1 = key
        · exact hsame x h1 he
        · have := h2 _ hme
          rw [precedes_nearer (hpre x h1 he)] at this
          exact Bool.noConfusion this
  exact ⟨hg, by rw [lookup_fst, hg]⟩

/-- **C70.** If no function but the first can be called, a lookup raises. -/
theorem C70_no_function_raises (ho : Order E.sub) {base : Handler C} {pend : List (Handler C)}
    {ops : List (Op C K)} {T : Table C K} (hT : runOps H E (Disp.new E base pend) ops = T)
    (hp : T.pending = []) {types : List K}
    (hno : ∀ key f, get? T.funcs key = some f → Applicable E.sub key types → f.abstract = true) :
    (lookup H E types T).1 = .error .valueError := by
  have h : TInv E T := hT ▸ TInv.ops ops (TInv.new base pend)
  cases hl : (lookup H E types T).1 with
  | ok f =>
    obtain ⟨h1, key, h2, h3, -⟩ := C70_lookup_finds_a_closest_function ho hT hp hl
    rw [hno key f h2 h3] at h1
    simp at h1
  | error e =>
    rw [lookup_fst, getItem_eq h hp] at hl
    cases hf : get? T.funcs types with
    | some g =>
      simp only [hf] at hl
      split at hl
      · exact hl.symm
      · simp at hl
    | none =>
      simp only [hf] at hl
      cases hs : select E T.funcs types with
      | error e' => rw [hs, select_error hs] at hl; exact hl.symm
      | ok g =>
        rw [hs] at hl
        simp only at hl
        split at hl
        · exact hl.symm
        · simp at hl

theorem discover_get? {key : List K} : ∀ (hs : List (Handler C)) {T T' : Table C K},
    discover H E hs T = (.ok (), T') → (∀ h ∈ hs, keyOf E h.sig ≠ key) →
    get? T'.funcs key = get? T.funcs key
  | [], T, T', hd, _ => by
    simp only [discover, Prod.mk.injEq, true_and] at hd
    rw [← hd]
  | h :: hs, T, T', hd, hk => by
    simp only [discover, register] at hd
    split at hd
    · simp at hd
    · rename_i T1 h1
      split at h1
      · simp at h1
      · simp only [Prod.mk.injEq, true_and] at h1
        rw [discover_get? hs hd fun x hx => hk x (List.mem_cons_of_mem _ hx), ← h1]
        simp [setItem, get?_set, hk h (by simp)]

/-- **C70.** It does not matter when the functions of the package are imported, if none of them is for
the same classes as one that is registered already: every lookup and call finds before the import
what it finds afterwards. -/
theorem C70_discovery_can_wait_partial {base : Handler C} {pend : List (Handler C)} {ops : List (Op C K)}
    {T T' : Table C K} (hT : runOps H E (Disp.new E base pend) ops = T)
    (hd : discover H E T.pending T = (.ok (), T'))
    (hk : ∀ h ∈ T.pending, get? T.funcs (keyOf E h.sig) = none) (types : List K) :
    (lookup H E types T).1 = (lookup H E types T').1 ∧
    (getItem H E types T).1 = (getItem H E types T').1 := by
  have h : TInv E T := hT ▸ TInv.ops ops (TInv.new base pend)
  have hi := discover_inv (H := H) T.pending h rfl
  rw [hd] at hi
  have h' : TInv E T' := hi.1
  have hp' : T'.pending = [] := hi.2 rfl
  have hg : (getItem H E types T).1 = (getItem H E types T').1 := by
    rw [getItem_eq h' hp']
    unfold getItem
    cases hf : get? T.funcs types with
    | some f =>
      have : get? T'.funcs types = some f := by
        rw [discover_get? _ hd, hf]
        rintro x hx rfl
        rw [hk x hx] at hf
        simp at hf
      rw [this]
    | none =>
      simp only
      cases hc : get? T.cache types with
      | some f =>
        obtain ⟨q1, q2, q3⟩ := h.cache types f hc
        rw [discover_nil q1] at hd
        simp only [Prod.mk.injEq, true_and] at hd
        rw [← hd, q2]
        exact q3.symm
      | none =>
        simp only [missing, hd]
        cases get? T'.funcs types with
        | some f => rfl
        | none => cases select E T'.funcs types <;> rfl
  exact ⟨by rw [lookup_fst, lookup_fst, hg], hg⟩

end

/-! ### Cases that meet the hypotheses -/

namespace Ex70

/-- `object`, `Type`, `Collection`, `Format`, `JSON`, `type(None)`, `UnionType`, `dict`. -/
abbrev Cl := Fin 8

def mro (c : Cl) : List Cl := if c = 2 then [2, 1, 0] else if c = 4 then [4, 3, 0]
  else if c = 0 then [0] else [c, 0]

def H : Hier Cl := ⟨fun c d => .ok ((mro c).contains d), 5, 6, 7⟩

def E : Classes Cl Cl where
  subtype h := match h with
    | .cls c => c
    | _ => 0
  sub c d := (mro c).contains d
  mro := mro

theorem order : Order E.sub where
  refl := by decide
  trans := fun {a b c} h1 h2 => by revert a b c; decide +kernel
  antisymm := fun {a b} h1 h2 => by revert a b; decide +kernel

def T (c : Cl) : Param Cl := ⟨"type_".toList, .posOrKw, .cls c⟩
def F (c : Cl) : Param Cl := ⟨"format".toList, .posOrKw, .cls c⟩

def handler (n : Nat) (ps : List (Param Cl)) : Handler Cl := ⟨⟨n, false⟩, ⟨ps, .any⟩⟩

def base : Handler Cl := handler 0 [T 1, F 3]

/-- A function for JSON, one for collections, and one for collections in JSON, which is yet to be
discovered. -/
def ops : List (Op Cl Cl) := [.register (handler 1 [T 1, F 4]), .lookup [2, 3],
  .register (handler 2 [T 2, F 3]), .call [1, 4], .registerBare [1, 3, 7] ⟨4, false⟩]

def ops' : List (Op Cl Cl) := [.registerBare [1, 3, 7] ⟨4, false⟩, .register (handler 2 [T 2, F 3]),
  .register (handler 9 [T 1, F 4]), .register (handler 1 [T 1, F 4]), .lookup [2, 4]]

def t : Table Cl Cl := runOps H E (new E base [handler 3 [T 2, F 4]]) ops
def t' : Table Cl Cl := runOps H E (new E base [handler 3 [T 2, F 4]]) ops'

theorem lenient_cls (c d : Cl) : lenient H (.cls c) (.cls d) = .ok ((mro c).contains d) := by
  unfold lenient
  simp only [classLike, isUnionHint, if_true, Bool.false_eq_true, if_false]
  unfold checkIssubclass
  rfl

theorem lenient_any : lenient H .any .any = .ok true := by
  unfold lenient
  simp only [classLike, isUnionHint, if_true, Bool.false_eq_true, if_false]
  unfold checkIssubclass
  rfl

theorem check_eq (a b : Cl) (ha : (mro a).contains 1 = true) (hb : (mro b).contains 3 = true) :
    check H base.sig ⟨[T a, F b], .any⟩ = .ok () := by
  have h1 : sameSet ([T a, F b].map Param.name) (base.sig.params.map Param.name) = true := by rfl
  have h2 : checkParams H base.sig.params [T a, F b] = .ok () := by
    simp only [checkParams, base, handler, T, F, List.find?, decide_true, isSame, ident, lenient_cls,
      ha, hb, ne_eq, not_true, if_false, reduceCtorEq, decide_false, Bool.false_eq_true,
      show ¬ "type_".toList = "format".toList from by decide]
  unfold check
  simp only [h1, h2, Bool.not_true, Bool.false_eq_true, if_false]
  rw [show base.sig.ret = .any from rfl, lenient_any]

theorem register_eq (n : Nat) (a b : Cl) (ha : (mro a).contains 1 = true)
    (hb : (mro b).contains 3 = true) (U : Table Cl Cl) (hU : U.spec = base.sig) :
    register H E (handler n [T a, F b]) U = (.ok (), setItem [a, b] ⟨n, false⟩ U) := by
  unfold register
  rw [hU, show (handler n [T a, F b]).sig = ⟨[T a, F b], .any⟩ from rfl, check_eq a b ha hb]
  rfl

theorem discover_eq (n : Nat) (a b : Cl) (ha : (mro a).contains 1 = true)
    (hb : (mro b).contains 3 = true) (U : Table Cl Cl) (hU : U.spec = base.sig) :
    discover H E [handler n [T a, F b]] U =
      (.ok (), ⟨U.spec, set U.funcs [a, b] ⟨n, false⟩, [], []⟩) := by
  simp only [discover]
  rw [register_eq n a b ha hb ⟨U.spec, U.funcs, U.cache, [handler n [T a, F b]]⟩ hU]
  rfl

theorem t_eq : t = ⟨base.sig, [([1, 3], ⟨0, true⟩), ([1, 4], ⟨1, false⟩), ([2, 4], ⟨3, false⟩),
    ([2, 3], ⟨2, false⟩), ([1, 3, 7], ⟨4, false⟩)], [], []⟩ := by
  simp only [t, ops, runOps, List.foldl, Op.run, new]
  rw [register_eq 1 1 4 (by decide) (by decide) _ rfl, lookup_state]
  simp only [getItem, missing, setItem]
  rw [show get? (set [(keyOf E base.sig, ({ base.fn with abstract := true } : Fn))] [1, 4] ⟨1, false⟩)
    [2, 3] = none from rfl]
  simp only [get?]
  rw [discover_eq 3 2 4 (by decide) (by decide) _ rfl]
  rw [register_eq 2 2 3 (by decide) (by decide) _ rfl]
  rfl

theorem t'_eq : t' = ⟨base.sig, [([1, 3], ⟨0, true⟩), ([1, 3, 7], ⟨4, false⟩), ([2, 3], ⟨2, false⟩),
    ([1, 4], ⟨1, false⟩), ([2, 4], ⟨3, false⟩)], [], []⟩ := by
  simp only [t', ops', runOps, List.foldl, Op.run, new, registerBare]
  rw [register_eq 2 2 3 (by decide) (by decide) _ rfl, register_eq 9 1 4 (by decide) (by decide) _ rfl,
    register_eq 1 1 4 (by decide) (by decide) _ rfl, lookup_state]
  simp only [getItem, missing, setItem]
  rw [show get? (set (set (set (set [(keyOf E base.sig, ({ base.fn with abstract := true } : Fn))]
    [1, 3, 7] ⟨4, false⟩) [2, 3] ⟨2, false⟩) [1, 4] ⟨9, false⟩) [1, 4] ⟨1, false⟩) [2, 4] = none from rfl]
  simp only [get?]
  rw [discover_eq 3 2 4 (by decide) (by decide) _ rfl]
  rfl

/-- Two histories with the same functions in the end. -/
example (types : List Cl) : (lookup H E types t).1 = (lookup H E types t').1 :=
  (C70_only_registered_functions_matter (H := H) (E := E) (ops := ops) (ops' := ops') rfl rfl
    (show t.pending = [] by rw [t_eq]) (show t'.pending = [] by rw [t'_eq]) (by
      intro key
      show get? t.funcs key = get? t'.funcs key
      rw [t_eq, t'_eq]
      simp only [get?]
      by_cases h1 : [1, 3] = key
      · simp [← h1]
      by_cases h2 : [1, 4] = key
      · simp [← h2]
      by_cases h3 : [2, 4] = key
      · simp [← h3]
      by_cases h4 : [2, 3] = key
      · simp [← h4]
      by_cases h5 : [1, 3, 7] = key
      · simp [← h5]
      simp [h1, h2, h3, h4, h5]) types).1

/-- Four functions can be called for a collection in JSON; the one for both is found.  For another
type in JSON it is the one for JSON. -/
example : (lookup H E [2, 4] t).1 = .ok ⟨3, false⟩ ∧ (lookup H E [1, 4, 4] t).1 = .ok ⟨1, false⟩ := by
  constructor
  · refine (C70_most_specific_function_is_found order (ops := ops) rfl
      (show t.pending = [] by rw [t_eq]) (key := [2, 4]) (f := ⟨3, false⟩)
      (show get? t.funcs _ = _ by rw [t_eq]; rfl) (applies_iff.1 (by decide)) ?_).2
    intro key' f' h1 h2
    have h1 : get? t.funcs key' = some f' := h1
    rw [t_eq] at h1
    have := get?_mem h1
    simp only [List.mem_cons, Prod.mk.injEq, List.not_mem_nil, or_false] at this
    rcases this with ⟨rfl, -⟩ | ⟨rfl, -⟩ | ⟨rfl, -⟩ | ⟨rfl, -⟩ | ⟨rfl, -⟩
    · exact applies_iff.1 (by decide)
    · exact applies_iff.1 (by decide)
    · exact applies_iff.1 (by decide)
    · exact applies_iff.1 (by decide)
    · exact absurd (applies_iff.2 h2) (by decide)
  · refine (C70_most_specific_function_is_found order (ops := ops) rfl
      (show t.pending = [] by rw [t_eq]) (key := [1, 4]) (f := ⟨1, false⟩)
      (show get? t.funcs _ = _ by rw [t_eq]; rfl) (applies_iff.1 (by decide)) ?_).2
    intro key' f' h1 h2
    have h1 : get? t.funcs key' = some f' := h1
    rw [t_eq] at h1
    have := get?_mem h1
    simp only [List.mem_cons, Prod.mk.injEq, List.not_mem_nil, or_false] at this
    rcases this with ⟨rfl, -⟩ | ⟨rfl, -⟩ | ⟨rfl, -⟩ | ⟨rfl, -⟩ | ⟨rfl, -⟩
    · exact applies_iff.1 (by decide)
    · exact applies_iff.1 (by decide)
    · exact absurd (applies_iff.2 h2) (by decide)
    · exact absurd (applies_iff.2 h2) (by decide)
    · exact absurd (applies_iff.2 h2) (by decide)

/-- Nothing is there for a type in another format. -/
example : (lookup H E [1, 3] t).1 = .error .valueError := by
  refine C70_no_function_raises order (ops := ops) rfl (show t.pending = [] by rw [t_eq]) ?_
  intro key f h1 h2
  have h1 : get? t.funcs key = some f := h1
  rw [t_eq] at h1
  have := get?_mem h1
  simp only [List.mem_cons, Prod.mk.injEq, List.not_mem_nil, or_false] at this
  rcases this with ⟨rfl, rfl⟩ | ⟨rfl, -⟩ | ⟨rfl, -⟩ | ⟨rfl, -⟩ | ⟨rfl, -⟩
  · rfl
  · exact absurd (applies_iff.2 h2) (by decide)
  · exact absurd (applies_iff.2 h2) (by decide)
  · exact absurd (applies_iff.2 h2) (by decide)
  · exact absurd (applies_iff.2 h2) (by decide)

/-- A function for JSON and one for collections, for a collection in JSON: none is more specific, and
the one for collections precedes the other one. -/
example : ∃ U, runOps H E (new E base []) [.register (handler 1 [T 1, F 4]),
      .register (handler 2 [T 2, F 3])] = U ∧ (lookup H E [2, 4] U).1 = .ok ⟨2, false⟩ ∧
    Precedes E.mro [2, 4] [2, 3] [1, 4] ∧
    ∃ key, get? U.funcs key = some ⟨2, false⟩ ∧ Applicable E.sub key [2, 4] ∧
      ¬ Precedes E.mro [2, 4] [1, 4] key := by
  have hU : runOps H E (new E base []) [.register (handler 1 [T 1, F 4]),
      .register (handler 2 [T 2, F 3])] =
      setItem [2, 3] ⟨2, false⟩ (setItem [1, 4] ⟨1, false⟩ (new E base [])) := by
    simp only [runOps, List.foldl, Op.run]
    rw [register_eq 1 1 4 (by decide) (by decide) _ rfl,
      register_eq 2 2 3 (by decide) (by decide) _ rfl]
  have hl : (lookup H E [2, 4] (setItem [2, 3] ⟨2, false⟩
      (setItem [1, 4] ⟨1, false⟩ (new E base [])))).1 = .ok ⟨2, false⟩ := rfl
  refine ⟨_, hU, hl, ⟨[], 2, [4], 2, [3], 1, [4], rfl, rfl, rfl, [], [1, 0], rfl, by decide,
    by decide, by decide, by decide⟩, ?_⟩
  obtain ⟨key, h1, h2, h3⟩ := C70_the_first_arguments_decide order hU rfl hl
  refine ⟨key, h1, h2, h3 [1, 4] ⟨1, false⟩ rfl (applies_iff.1 (by decide)) ?_⟩
  intro key'' f'' hk ha hb
  have := get?_mem hk
  rw [show (setItem [2, 3] (⟨2, false⟩ : Fn) (setItem [1, 4] ⟨1, false⟩ (new E base []))).funcs =
    [([1, 3], ⟨0, true⟩), ([1, 4], ⟨1, false⟩), ([2, 3], ⟨2, false⟩)] from rfl] at this
  simp only [List.mem_cons, Prod.mk.injEq, List.not_mem_nil, or_false] at this
  rcases this with ⟨rfl, -⟩ | ⟨rfl, -⟩ | ⟨rfl, -⟩
  · exact absurd (applies_iff.2 hb) (by decide)
  · rfl
  · exact absurd (applies_iff.2 hb) (by decide)

/-- The same: it is found although the other one is for a nearer class of the second argument. -/
example : (lookup H E [2, 4] (runOps H E (new E base []) [.register (handler 1 [T 1, F 4]),
      .register (handler 2 [T 2, F 3])])).1 = .ok ⟨2, false⟩ := by
  have hU : runOps H E (new E base []) [.register (handler 1 [T 1, F 4]),
      .register (handler 2 [T 2, F 3])] =
      setItem [2, 3] ⟨2, false⟩ (setItem [1, 4] ⟨1, false⟩ (new E base [])) := by
    simp only [runOps, List.foldl, Op.run]
    rw [register_eq 1 1 4 (by decide) (by decide) _ rfl,
      register_eq 2 2 3 (by decide) (by decide) _ rfl]
  have hfs : (setItem [2, 3] (⟨2, false⟩ : Fn) (setItem [1, 4] ⟨1, false⟩ (new E base []))).funcs =
    [([1, 3], ⟨0, true⟩), ([1, 4], ⟨1, false⟩), ([2, 3], ⟨2, false⟩)] := rfl
  rw [hU]
  refine (C70_the_preceding_function_is_found order hU rfl (key := [2, 3]) (f := ⟨2, false⟩) rfl
    (applies_iff.1 (by decide)) ?_ ?_).2
  · intro key' f' hk _ hb
    have := get?_mem hk
    rw [hfs] at this
    simp only [List.mem_cons, Prod.mk.injEq, List.not_mem_nil, or_false] at this
    rcases this with ⟨rfl, -⟩ | ⟨rfl, -⟩ | ⟨rfl, -⟩
    · exact absurd (applies_iff.2 hb) (by decide)
    · exact absurd (applies_iff.2 hb) (by decide)
    · rfl
  · intro key' f' hk _ hc hne
    have := get?_mem hk
    rw [hfs] at this
    simp only [List.mem_cons, Prod.mk.injEq, List.not_mem_nil, or_false] at this
    rcases this with ⟨rfl, -⟩ | ⟨rfl, -⟩ | ⟨rfl, -⟩
    · exact absurd (hc [1, 4] ⟨1, false⟩ rfl (applies_iff.1 (by decide)) (applies_iff.1 (by decide)))
        (by decide)
    · exact ⟨[], 2, [4], 2, [3], 1, [4], rfl, rfl, rfl, [], [1, 0], rfl, by decide, by decide,
        by decide, by decide⟩
    · exact absurd rfl hne

/-- The function of the package is for other classes than the registered one. -/
example (types : List Cl) :
    (lookup H E types (runOps H E (new E base [handler 3 [T 2, F 4]]) [.register (handler 1 [T 1, F 4])])).1 =
    (lookup H E types ⟨base.sig, [([1, 3], ⟨0, true⟩), ([1, 4], ⟨1, false⟩), ([2, 4], ⟨3, false⟩)],
      [], []⟩).1 := by
  have hU : runOps H E (new E base [handler 3 [T 2, F 4]]) [.register (handler 1 [T 1, F 4])] =
      setItem [1, 4] ⟨1, false⟩ (new E base [handler 3 [T 2, F 4]]) := by
    simp only [runOps, List.foldl, Op.run]
    rw [register_eq 1 1 4 (by decide) (by decide) _ rfl]
  refine (C70_discovery_can_wait_partial (base := base) (pend := [handler 3 [T 2, F 4]])
    (ops := [.register (handler 1 [T 1, F 4])]) rfl ?_ ?_ types).1
  · rw [hU]
    exact discover_eq 3 2 4 (by decide) (by decide) _ rfl
  · rw [hU]
    intro h hh
    rw [List.mem_singleton.1 (show h ∈ [handler 3 [T 2, F 4]] from hh)]
    rfl

/-- A function with the parameters of the first one is accepted. -/
example : (∀ p ∈ (handler 1 [T 1, F 4]).sig.params, ∀ q ∈ t.spec.params, q.name = p.name →
    p.kind = q.kind ∧ (p.ann = .any ∨ lenient H p.ann q.ann = .ok true)) :=
  ((C70_accepted_functions (E := E) (T := t) (by rw [t_eq]; decide) (handler 1 [T 1, F 4])).1.1 (by
    rw [register_eq 1 1 4 (by decide) (by decide) _ (by rw [t_eq])])).2.1

end Ex70

/-- **C70** is violated by functions for the same classes as one of the package: the function of a
user is found at first; after a lookup for other classes, which imports the package, the same lookup
finds that of the package. -/
theorem C70_violated_by_discovery :
    let T := (register Ex70.H Ex70.E (Ex70.handler 7 [Ex70.T 1, Ex70.F 4])
      (new Ex70.E Ex70.base [Ex70.handler 1 [Ex70.T 1, Ex70.F 4]])).2
    (lookup Ex70.H Ex70.E [1, 4] T).1 = .ok ⟨7, false⟩ ∧
    (lookup Ex70.H Ex70.E [1, 4] (lookup Ex70.H Ex70.E [2, 4] T).2).1 = .ok ⟨1, false⟩ := by
  intro T
  have hT : T = setItem [1, 4] ⟨7, false⟩ (new Ex70.E Ex70.base [Ex70.handler 1 [Ex70.T 1, Ex70.F 4]]) := by
    simp only [T]
    rw [Ex70.register_eq 7 1 4 (by decide) (by decide) _ rfl]
  refine ⟨by rw [hT]; rfl, ?_⟩
  have h2 : (lookup Ex70.H Ex70.E [2, 4] T).2 = ⟨Ex70.base.sig, [([1, 3], ⟨0, true⟩), ([1, 4], ⟨1, false⟩)],
      [([2, 4], ⟨1, false⟩)], []⟩ := by
    rw [lookup_state, hT]
    simp only [getItem]
    rw [show get? (setItem [1, 4] (⟨7, false⟩ : Fn) (new Ex70.E Ex70.base
      [Ex70.handler 1 [Ex70.T 1, Ex70.F 4]])).funcs [2, 4] = none from rfl]
    simp only [setItem, get?, missing]
    rw [show (new Ex70.E Ex70.base [Ex70.handler 1 [Ex70.T 1, Ex70.F 4]] : Table Ex70.Cl Ex70.Cl).pending =
      [Ex70.handler 1 [Ex70.T 1, Ex70.F 4]] from rfl]
    rw [Ex70.discover_eq 1 1 4 (by decide) (by decide) _ rfl]
    rfl
  rw [h2]
  rfl

/-- **C70** is violated by functions with the parameters in another order: they are accepted, but for
the classes in their own order, so that they are not found for the arguments of a call. -/
theorem C70_violated_by_the_order_of_parameters :
    let T := register Ex70.H Ex70.E (Ex70.handler 7 [Ex70.F 4, Ex70.T 1]) (new Ex70.E Ex70.base [])
    T.1 = .ok () ∧ (lookup Ex70.H Ex70.E [1, 4] T.2).1 = .error .valueError ∧
    (lookup Ex70.H Ex70.E [4, 1] T.2).1 = .ok ⟨7, false⟩ := by
  intro T
  have hT : T = (.ok (), setItem [4, 1] ⟨7, false⟩ (new Ex70.E Ex70.base [])) := by
    have hc : check Ex70.H Ex70.base.sig ⟨[Ex70.F 4, Ex70.T 1], .any⟩ = .ok () := by
      have h1 : sameSet ([Ex70.F 4, Ex70.T 1].map Param.name) (Ex70.base.sig.params.map Param.name) =
        true := by decide
      have h2 : checkParams Ex70.H Ex70.base.sig.params [Ex70.F 4, Ex70.T 1] = .ok () := by
        simp only [checkParams, Ex70.base, Ex70.handler, Ex70.T, Ex70.F, List.find?, decide_true,
          isSame, ident, Ex70.lenient_cls, ne_eq, not_true, if_false, reduceCtorEq, decide_false,
          Bool.false_eq_true, show ¬ "type_".toList = "format".toList from by decide]
        decide
      unfold check
      simp only [h1, h2, Bool.not_true, Bool.false_eq_true, if_false]
      rw [show Ex70.base.sig.ret = .any from rfl, Ex70.lenient_any]
    simp only [T, register]
    rw [show (new Ex70.E Ex70.base [] : Table Ex70.Cl Ex70.Cl).spec = Ex70.base.sig from rfl,
      show (Ex70.handler 7 [Ex70.F 4, Ex70.T 1]).sig = ⟨[Ex70.F 4, Ex70.T 1], .any⟩ from rfl, hc]
    rfl
  rw [hT]
  exact ⟨rfl, rfl, rfl⟩

/-- **C70** is violated by functions that are registered with a list of classes: they are not checked,
so that a function for classes that are no types and formats is accepted and found. -/
theorem C70_violated_by_unchecked_classes (f : Fn) (hf : f.abstract = false) :
    (lookup Ex70.H Ex70.E [7, 7] (registerBare [7, 7] f (new Ex70.E Ex70.base []))).1 = .ok f := by
  simp only [lookup_fst, getItem, registerBare, setItem, get?_set, if_true, hf]
  rfl

end Arti.Props
