import Verif.Spec.ClassDecl
import Verif.Lemmas.Dict
import Verif.Props.FrozenDict

/-!
# Lemmas about class declarations
-/

namespace Arti.Decl
open Arti PyDict
variable {Ty Ann : Type} [DecidableEq Ty] [DecidableEq Ann]

/-- The class `c` is what its body and its base class make of it. -/
structure Derived (p : Option (Cls Ty Ann)) (k : Cls Ty Ann) : Prop where
  abstract : k.abstract = k.body.abstract.getD false
  fields : ∀ n, get? k.fields n = (get? k.body.fields n).or (p.bind fun q => get? q.fields n)
  attrs : ∀ n, get? k.attrs n = (get? k.body.attrs n).or (p.bind fun q => get? q.attrs n)
  defaults : k.defaults = k.body.defaults.or (p.bind (·.defaults))
  matching : k.matching = k.body.matching.or (p.bind (·.matching))
  partType : k.partType = k.body.partType.or (p.bind (·.partType))
  nodupF : (keys k.fields).Nodup
  nodupA : (keys k.attrs).Nodup

/-- The kind of the roots. -/
def rootKind : Nat → Option Kind
  | 0 => some .model
  | 1 => some .field
  | 2 => some .partition
  | 3 => some .storage
  | _ => none

structure WF (w : Classes Ty Ann) : Prop where
  cls : ∀ (c : Nat) (k : Cls Ty Ann), w.classes[c]? = some k →
    (k.parent = none ∧ Derived none k) ∨
    ∃ p q, p < c ∧ k.parent = some p ∧ w.classes[p]? = some q ∧ Derived (some q) k
  roots : ∀ (c : Nat) (k : Cls Ty Ann), w.classes[c]? = some k → c < 4 → rootKind c = some k.kind ∧
    (k.parent = none ∨ k.parent = some 0)
  kinds : ∀ (c : Nat) (k : Cls Ty Ann), w.classes[c]? = some k → 4 ≤ c → ∃ p q, k.parent = some p ∧
    w.classes[p]? = some q ∧ k.kind = q.kind
  size : 4 ≤ w.classes.length
  rootF : ∀ (c : Nat) (k : Cls Ty Ann), w.classes[c]? = some k → k.kind = .partition →
    ∀ n ∈ partitionRootFields, (get? k.fields n).isSome
  registry : ∀ t c, get? w.byType t = some c ↔ ∃ k : Cls Ty Ann, w.classes[c]? = some k ∧ k.kind = .field ∧
    k.abstract = false ∧ k.matching = some t
  comps : ∀ (c : Nat) (k : Cls Ty Ann), w.classes[c]? = some k → k.kind = .field → k.abstract = false →
    ∃ d, k.defaults = some d ∧ ∀ n ∈ keys d, n ∈ components k
  stor : ∀ (c : Nat) (k : Cls Ty Ann), w.classes[c]? = some k → k.kind = .storage → k.abstract = false →
    ∀ p, k.partType = some p → ∃ pc, w.classes[p]? = some pc ∧
      fdEq (ownFields storageRootFields k.fields) (ownFields partitionRootFields pc.fields) = true

omit [DecidableEq Ty] [DecidableEq Ann] in
theorem derived_derive {p : Cls Ty Ann} {base : Nat} {b : Body Ty Ann} (hb : b.WF)
    (hf : (keys p.fields).Nodup) (ha : (keys p.attrs).Nodup) :
    Derived (some p) (derive p base b) := by
  refine ⟨rfl, fun n => ?_, fun n => ?_, rfl, rfl, rfl, nodup_keys_merge _ _, nodup_keys_merge _ _⟩
  · simp only [derive, Option.bind_some]
    exact get?_merge hf hb.1 n
  · simp only [derive, Option.bind_some]
    exact get?_merge ha hb.2 n

theorem WF.nodup {w : Classes Ty Ann} (h : WF w) {c : Nat} {k : Cls Ty Ann}
    (hc : w.classes[c]? = some k) : (keys k.fields).Nodup ∧ (keys k.attrs).Nodup := by
  rcases h.cls c k hc with ⟨_, d⟩ | ⟨_, _, _, _, _, d⟩ <;> exact ⟨d.nodupF, d.nodupA⟩

/-- Adding a class keeps the invariant. -/
theorem WF.add {w : Classes Ty Ann} (h : WF w) {base : Nat} {q k : Cls Ty Ann} {r : PyDict Ty Nat}
    (hq : w.classes[base]? = some q) (hp : k.parent = some base) (hk : k.kind = q.kind)
    (hd : Derived (some q) k)
    (hreg : ∀ t c, get? r t = some c ↔ (get? w.byType t = some c ∨
      (c = w.classes.length ∧ k.kind = .field ∧ k.abstract = false ∧ k.matching = some t)))
    (hcomp : k.kind = .field → k.abstract = false →
      ∃ d, k.defaults = some d ∧ ∀ n ∈ keys d, n ∈ components k)
    (hstor : k.kind = .storage → k.abstract = false → ∀ p, k.partType = some p →
      ∃ pc, w.classes[p]? = some pc ∧
      fdEq (ownFields storageRootFields k.fields) (ownFields partitionRootFields pc.fields) = true) :
    WF { classes := w.classes ++ [k], byType := r } := by
  have old : ∀ {c : Nat} {x : Cls Ty Ann}, w.classes[c]? = some x →
      (w.classes ++ [k])[c]? = some x := fun {c x} hc => by
    rw [List.getElem?_append_left (List.getElem?_eq_some_iff.1 hc).1]; exact hc
  have split : ∀ {c : Nat} {x : Cls Ty Ann}, (w.classes ++ [k])[c]? = some x →
      w.classes[c]? = some x ∨ (c = w.classes.length ∧ x = k) := fun {c x} hc => by
    by_cases hl : c < w.classes.length
    · rw [List.getElem?_append_left hl] at hc; exact .inl hc
    · have hlt := (List.getElem?_eq_some_iff.1 hc).1
      simp only [List.length_append, List.length_cons, List.length_nil] at hlt
      have : c = w.classes.length := by omega
      subst this
      simp at hc
      exact .inr ⟨rfl, hc.symm⟩
  have hbl : base < w.classes.length := (List.getElem?_eq_some_iff.1 hq).1
  have hsz := h.size
  refine ⟨fun c x hc => ?_, fun c x hc hlt => ?_, fun c x hc hge => ?_, ?_, fun c x hc hkd => ?_,
    fun t c => ?_, fun c x hc hkd ha => ?_, fun c x hc hkd ha p hpt => ?_⟩
  · rcases split hc with hc | ⟨rfl, rfl⟩
    · rcases h.cls c x hc with h1 | ⟨p, y, h1, h2, h3, h4⟩
      · exact .inl h1
      · exact .inr ⟨p, y, h1, h2, old h3, h4⟩
    · exact .inr ⟨base, q, hbl, hp, old hq, hd⟩
  · rcases split hc with hc | ⟨rfl, rfl⟩
    · exact h.roots c x hc hlt
    · omega
  · rcases split hc with hc | ⟨rfl, rfl⟩
    · obtain ⟨p, y, h1, h2, h3⟩ := h.kinds c x hc hge
      exact ⟨p, y, h1, old h2, h3⟩
    · exact ⟨base, q, hp, old hq, hk⟩
  · simp only [List.length_append]; omega
  · rcases split hc with hc | ⟨rfl, rfl⟩
    · exact h.rootF c x hc hkd
    · intro n hn
      have := h.rootF base q hq (hk ▸ hkd) n hn
      rw [hd.fields]
      cases get? x.body.fields n <;> simp [this]
  · rw [hreg, h.registry]
    constructor
    · rintro (⟨x, hx, h1⟩ | ⟨rfl, h1⟩)
      · exact ⟨x, old hx, h1⟩
      · exact ⟨k, by simp, h1⟩
    · rintro ⟨x, hx, h1⟩
      rcases split hx with hx | ⟨rfl, rfl⟩
      · exact .inl ⟨x, hx, h1⟩
      · exact .inr ⟨rfl, h1⟩
  · rcases split hc with hc | ⟨rfl, rfl⟩
    · exact h.comps c x hc hkd ha
    · exact hcomp hkd ha
  · rcases split hc with hc | ⟨rfl, rfl⟩
    · obtain ⟨pc, h1, h2⟩ := h.stor c x hc hkd ha p hpt
      exact ⟨pc, old h1, h2⟩
    · obtain ⟨pc, h1, h2⟩ := hstor hkd ha p hpt
      exact ⟨pc, old h1, h2⟩

theorem fieldHook_ok {r0 r : PyDict Ty Nat} {id : Nat} {c : Cls Ty Ann}
    (h : fieldHook r0 id c = .ok r) :
    (c.abstract = true ∧ r = r0) ∨
    (c.abstract = false ∧ ∃ d t, c.defaults = some d ∧ c.matching = some t ∧
      (∀ n ∈ keys d, n ∈ components c) ∧ get? r0 t = none ∧ r = PyDict.set r0 t id) := by
  unfold fieldHook at h
  by_cases ha : c.abstract = true
  · rw [if_pos ha] at h
    exact .inl ⟨ha, by injection h with h; exact h.symm⟩
  · rw [if_neg ha] at h
    cases hd : c.defaults with
    | none => simp [hd] at h
    | some d =>
      cases ht : c.matching with
      | none => simp [hd, ht] at h
      | some t =>
        simp only [hd, ht] at h
        split at h
        · cases h
        · rename_i hun
          unfold register at h
          cases hg : get? r0 t with
          | some x => simp [hg] at h
          | none =>
            simp only [hg, Except.ok.injEq] at h
            refine .inr ⟨by simpa using ha, d, t, rfl, rfl, fun n hn => ?_, hg, h.symm⟩
            by_contra hc
            refine hun (List.any_eq_true.2 ⟨n, hn, ?_⟩)
            simpa using hc

theorem storageHook_ok {w : Classes Ty Ann} {c : Cls Ty Ann} (h : storageHook w c = .ok ())
    (ha : c.abstract = false) {p : Nat} (hp : c.partType = some p) :
    ∃ pc, w.classes[p]? = some pc ∧
      fdEq (ownFields storageRootFields c.fields) (ownFields partitionRootFields pc.fields)
        = true := by
  unfold storageHook at h
  simp only [ha, hp, Bool.false_eq_true, if_false] at h
  cases hw : w.classes[p]? with
  | none => simp [hw] at h
  | some pc =>
    simp only [hw] at h
    split at h
    · rename_i he; exact ⟨pc, rfl, he⟩
    · cases h

theorem WF.declare {w w' : Classes Ty Ann} (h : WF w) {base : Nat} {b : Body Ty Ann} (hb : b.WF)
    (hr : declare w base b = .ok w') : WF w' := by
  unfold Decl.declare at hr
  cases hq : w.classes[base]? with
  | none => simp [hq] at hr
  | some q =>
    simp only [hq] at hr
    have hd := derived_derive (base := base) hb (h.nodup hq).1 (h.nodup hq).2
    have hkind : (derive q base b).kind = q.kind := rfl
    cases hk : (derive q base b).kind with
    | field =>
      simp only [hk, bind, Except.bind] at hr
      cases hf : fieldHook w.byType w.classes.length (derive q base b) with
      | error e => simp [hf] at hr
      | ok r =>
        simp only [hf, Except.ok.injEq] at hr
        subst hr
        rcases fieldHook_ok hf with ⟨ha, rfl⟩ | ⟨ha, d, t, hdf, ht, hcs, hg, rfl⟩
        · exact h.add hq rfl rfl hd (by simp [ha]) (by simp [ha]) (by simp [ha])
        · refine h.add hq rfl rfl hd (fun t' c => ?_) (fun _ _ => ⟨d, hdf, hcs⟩) (by simp [hk])
          rw [get?_set]
          by_cases htt : t = t'
          · subst htt
            simp [hg, hk, ha, ht, eq_comm]
          · simp [htt, Ne.symm htt, ht]
    | storage =>
      simp only [hk, bind, Except.bind] at hr
      cases hf : storageHook w (derive q base b) with
      | error e => simp [hf] at hr
      | ok u =>
        simp only [hf, Except.ok.injEq] at hr
        subst hr
        exact h.add hq rfl rfl hd (by simp [hk]) (by simp [hk])
          fun _ ha p hp => storageHook_ok hf ha hp
    | model =>
      simp only [hk, Except.ok.injEq] at hr
      subst hr
      exact h.add hq rfl rfl hd (by simp [hk]) (by simp [hk]) (by simp [hk])
    | partition =>
      simp only [hk, Except.ok.injEq] at hr
      subst hr
      exact h.add hq rfl rfl hd (by simp [hk]) (by simp [hk]) (by simp [hk])

theorem WF.subscript {w w' : Classes Ty Ann} (h : WF w) {base item : Nat}
    (hr : subscript w base item = .ok w') : WF w' := by
  unfold Decl.subscript at hr
  cases hq : w.classes[base]? with
  | none => simp [hq] at hr
  | some q =>
    cases hi : w.classes[item]? with
    | none => simp [hq, hi] at hr
    | some i =>
      simp only [hq, hi] at hr
      split at hr
      · rename_i hk
        simp only [bind, Except.bind] at hr
        split at hr
        · cases hr
        · simp only [Except.ok.injEq] at hr
          subst hr
          have hd := derived_derive (base := base) (b := { abstract := some true, partType := some item })
            (by simp [Body.WF, keys]) (h.nodup hq).1 (h.nodup hq).2
          have hkd : (derive q base { abstract := some true, partType := some item }).kind
              = .storage := hk.1
          exact h.add hq rfl rfl hd (by simp [hkd]) (by simp [hkd]) (by simp [derive])
      · cases hr

theorem WF.init (fieldAnn : Str → Ann) : WF (Decl.init fieldAnn : Classes Ty Ann) := by
  obtain ⟨k0, k1, k2, k3, hcl, hd1, hd2, hd3⟩ : ∃ k0 k1 k2 k3 : Cls Ty Ann,
      (Decl.init fieldAnn : Classes Ty Ann).classes = [k0, k1, k2, k3] ∧
      (k0.parent = none ∧ Derived none k0 ∧ k0.kind = .model ∧ k0.abstract = true) ∧
      (k1.parent = some 0 ∧ Derived (some k0) k1 ∧ k1.kind = .field ∧ k1.abstract = true) ∧
      (k2.parent = some 0 ∧ Derived (some k0) k2 ∧ k2.kind = .partition ∧
        ∀ n ∈ partitionRootFields, (get? k2.fields n).isSome) ∧
      (k3.parent = some 0 ∧ Derived (some k0) k3 ∧ k3.kind = .storage ∧ k3.abstract = true) := by
    refine ⟨_, _, _, _, rfl, ⟨rfl, ?_, rfl, rfl⟩, ⟨rfl, ?_, rfl, rfl⟩, ⟨rfl, ?_, rfl, ?_⟩,
      ⟨rfl, ?_, rfl, rfl⟩⟩
    · exact ⟨rfl, fun n => rfl, fun n => rfl, rfl, rfl, rfl, by simp [keys], by simp [keys]⟩
    · refine { derived_derive (base := 0) ?_ ?_ ?_ with }
      all_goals simp [Body.WF, keys]
    · refine { derived_derive (base := 0) ?_ ?_ ?_ with }
      · simp only [Body.WF]; exact ⟨by simp [keys, partitionRootFields], by simp [keys]⟩
      all_goals simp [keys]
    · intro n hn
      simp only [derive]
      rw [get?_merge (by simp [keys]) (by simp [keys, partitionRootFields])]
      simp only [partitionRootFields, List.mem_cons, List.not_mem_nil, or_false] at hn
      rcases hn with rfl | rfl | rfl <;> simp [partitionRootFields, get?]
    · refine { derived_derive (base := 0) ?_ ?_ ?_ with }
      all_goals simp [Body.WF, keys]
  have hby : (Decl.init fieldAnn : Classes Ty Ann).byType = [] := rfl
  have hget : ∀ (c : Nat) (k : Cls Ty Ann),
      (Decl.init fieldAnn : Classes Ty Ann).classes[c]? = some k →
      (c = 0 ∧ k = k0) ∨ (c = 1 ∧ k = k1) ∨ (c = 2 ∧ k = k2) ∨ (c = 3 ∧ k = k3) := fun c k h => by
    rw [hcl] at h
    match c, h with
    | 0, h => simp at h; simp [h]
    | 1, h => simp at h; simp [h]
    | 2, h => simp at h; simp [h]
    | 3, h => simp at h; simp [h]
    | n + 4, h => simp at h
  refine ⟨fun c k hc => ?_, fun c k hc hlt => ?_, fun c k hc hge => ?_, by rw [hcl]; simp,
    fun c k hc hk => ?_, fun t c => ?_, fun c k hc hk ha => ?_, fun c k hc hk ha => ?_⟩
  · rcases hget c k hc with ⟨rfl, rfl⟩ | ⟨rfl, rfl⟩ | ⟨rfl, rfl⟩ | ⟨rfl, rfl⟩
    · exact .inl ⟨hd1.1, hd1.2.1⟩
    · exact .inr ⟨0, k0, by omega, hd2.1, by simp [hcl], hd2.2.1⟩
    · exact .inr ⟨0, k0, by omega, hd3.1.1, by simp [hcl], hd3.1.2.1⟩
    · exact .inr ⟨0, k0, by omega, hd3.2.1, by simp [hcl], hd3.2.2.1⟩
  · rcases hget c k hc with ⟨rfl, rfl⟩ | ⟨rfl, rfl⟩ | ⟨rfl, rfl⟩ | ⟨rfl, rfl⟩ <;>
      simp_all [rootKind]
  · rcases hget c k hc with ⟨rfl, rfl⟩ | ⟨rfl, rfl⟩ | ⟨rfl, rfl⟩ | ⟨rfl, rfl⟩ <;> omega
  · rcases hget c k hc with ⟨rfl, rfl⟩ | ⟨rfl, rfl⟩ | ⟨rfl, rfl⟩ | ⟨rfl, rfl⟩ <;> simp_all
  · rw [hby]
    constructor
    · intro h; simp at h
    · rintro ⟨k, hc, hk, ha, _⟩
      rcases hget c k hc with ⟨rfl, rfl⟩ | ⟨rfl, rfl⟩ | ⟨rfl, rfl⟩ | ⟨rfl, rfl⟩ <;> simp_all
  · rcases hget c k hc with ⟨rfl, rfl⟩ | ⟨rfl, rfl⟩ | ⟨rfl, rfl⟩ | ⟨rfl, rfl⟩ <;> simp_all
  · rcases hget c k hc with ⟨rfl, rfl⟩ | ⟨rfl, rfl⟩ | ⟨rfl, rfl⟩ | ⟨rfl, rfl⟩ <;> simp_all

theorem WF.step {w : Classes Ty Ann} (h : WF w) {op : Op Ty Ann} (ho : op.WF) : WF (step w op) := by
  unfold Decl.step
  cases op with
  | declare base b =>
    cases hr : Decl.declare w base b with
    | error e => simpa only [hr] using h
    | ok w' => simpa only [hr] using h.declare ho hr
  | subscript base item =>
    cases hr : Decl.subscript w base item with
    | error e => simpa only [hr] using h
    | ok w' => simpa only [hr] using h.subscript hr

theorem WF.foldl {ops : List (Op Ty Ann)} (ho : ∀ op ∈ ops, op.WF) {w : Classes Ty Ann} (h : WF w) :
    WF (ops.foldl Decl.step w) := by
  induction ops generalizing w with
  | nil => exact h
  | cons op ops ih =>
    exact ih (fun o hm => ho o (List.mem_cons_of_mem _ hm)) (h.step (ho op (by simp)))

theorem WF.run (fieldAnn : Str → Ann) {ops : List (Op Ty Ann)} (ho : ∀ op ∈ ops, op.WF) :
    WF (run fieldAnn ops) := WF.foldl ho (WF.init fieldAnn)

/-- What attribute access finds is what the specification of inheritance says. -/
theorem WF.nearest {α : Type} {w : Classes Ty Ann} (h : WF w) (get : Body Ty Ann → Option α)
    (res : Cls Ty Ann → Option α)
    (hres : ∀ (p : Option (Cls Ty Ann)) k, Derived p k → res k = (get k.body).or (p.bind res))
    (c : Nat) (k : Cls Ty Ann) (hc : w.classes[c]? = some k) (v : α) :
    res k = some v ↔ Nearest w get c v := by
  induction c using Nat.strongRecOn generalizing k v with
  | _ c ih =>
    constructor
    · intro hv
      rcases h.cls c k hc with ⟨_, d⟩ | ⟨p, q, hlt, hp, hq, d⟩
      · rw [hres none k d] at hv
        exact .own hc (by simpa using hv)
      · rw [hres (some q) k d] at hv
        cases hg : get k.body with
        | some x => rw [hg] at hv; exact .own hc (by simpa [hg] using hv)
        | none =>
          rw [hg] at hv
          exact .inherited hc hg hp ((ih p hlt q hq v).1 (by simpa using hv))
    · intro hn
      cases hn with
      | own hc' hv =>
        rw [hc] at hc'; cases hc'
        rcases h.cls c k hc with ⟨_, d⟩ | ⟨p, q, _, _, _, d⟩ <;> rw [hres _ k d, hv] <;> rfl
      | inherited hc' hv hp' hn' =>
        rw [hc] at hc'; cases hc'
        rcases h.cls c k hc with ⟨hp, _⟩ | ⟨p, q, hlt, hp, hq, d⟩
        · rw [hp] at hp'; cases hp'
        · rw [hp] at hp'; cases hp'
          rw [hres _ k d, hv]
          simpa using (ih _ hlt q hq v).2 hn'

theorem WF.fieldIs {w : Classes Ty Ann} (h : WF w) {c : Nat} {k : Cls Ty Ann}
    (hc : w.classes[c]? = some k) (n : Str) (a : Ann) :
    get? k.fields n = some a ↔ FieldIs w c n a :=
  h.nearest (fun b => get? b.fields n) (fun k => get? k.fields n) (fun _ _ d => d.fields n) c k hc a

theorem WF.attrIs {w : Classes Ty Ann} (h : WF w) {c : Nat} {k : Cls Ty Ann}
    (hc : w.classes[c]? = some k) (n : Str) (a : Attr) :
    get? k.attrs n = some a ↔ AttrIs w c n a :=
  h.nearest (fun b => get? b.attrs n) (fun k => get? k.attrs n) (fun _ _ d => d.attrs n) c k hc a

theorem WF.matchingType {w : Classes Ty Ann} (h : WF w) {c : Nat} {k : Cls Ty Ann}
    (hc : w.classes[c]? = some k) (t : Ty) : k.matching = some t ↔ MatchingType w c t :=
  h.nearest (fun b => b.matching) (fun k => k.matching) (fun _ _ d => d.matching) c k hc t

theorem WF.defaultComponents {w : Classes Ty Ann} (h : WF w) {c : Nat} {k : Cls Ty Ann}
    (hc : w.classes[c]? = some k) (t : PyDict Str Str) :
    k.defaults = some t ↔ DefaultComponents w c t :=
  h.nearest (fun b => b.defaults) (fun k => k.defaults) (fun _ _ d => d.defaults) c k hc t

theorem WF.partitionType {w : Classes Ty Ann} (h : WF w) {c : Nat} {k : Cls Ty Ann}
    (hc : w.classes[c]? = some k) (t : Nat) : k.partType = some t ↔ PartitionType w c t :=
  h.nearest (fun b => b.partType) (fun k => k.partType) (fun _ _ d => d.partType) c k hc t

/-- The kind of a class tells which root it descends from. -/
theorem WF.kind_iff {w : Classes Ty Ann} (h : WF w) (root : Nat) (κ : Kind)
    (hroot : 0 < root ∧ rootKind root = some κ)
    {c : Nat} {k : Cls Ty Ann} (hc : w.classes[c]? = some k) : k.kind = κ ↔ Sub w c root := by
  have hinj : ∀ c, c < 4 → rootKind c = some κ → c = root := by
    intro c hlt hk
    obtain ⟨_, hr⟩ := hroot
    have : root < 4 := by
      by_contra hge
      have : rootKind root = none := by
        unfold rootKind; split <;> first | omega | rfl
      rw [this] at hr; cases hr
    rw [← hr] at hk
    obtain rfl | rfl | rfl | rfl : c = 0 ∨ c = 1 ∨ c = 2 ∨ c = 3 := by omega
    all_goals
      obtain rfl | rfl | rfl | rfl : root = 0 ∨ root = 1 ∨ root = 2 ∨ root = 3 := by omega
      all_goals first | rfl | (simp [rootKind] at hk)
  induction c using Nat.strongRecOn generalizing k with
  | _ c ih =>
    by_cases hlt : c < 4
    · have hr := h.roots c k hc hlt
      constructor
      · intro hk
        have := hinj c hlt (hk ▸ hr.1)
        subst this
        exact .refl hc
      · intro hs
        cases hs with
        | refl =>
          have := hr.1.symm.trans hroot.2
          simpa using this
        | base hc' hp hs' =>
          rw [hc] at hc'; cases hc'
          rcases hr.2 with hn | hn
          · rw [hn] at hp; cases hp
          · rw [hn] at hp; cases hp
            exfalso
            cases hs' with
            | refl => omega
            | base hc'' hp' _ =>
              rcases h.cls 0 _ hc'' with ⟨hn', _⟩ | ⟨p, q, hlt', _⟩
              · rw [hn'] at hp'; cases hp'
              · omega
    · obtain ⟨p, q, hp, hq, hk⟩ := h.kinds c k hc (by omega)
      have hplt : p < c := by
        rcases h.cls c k hc with ⟨hn, _⟩ | ⟨p', _, hl, hp', _⟩
        · rw [hn] at hp; cases hp
        · rw [hp'] at hp; cases hp; exact hl
      rw [hk]
      refine (ih p hplt hq).trans ?_
      constructor
      · exact fun hs => .base hc hp hs
      · intro hs
        cases hs with
        | refl =>
          exfalso
          have : root < 4 := by
            by_contra hge
            have hn : rootKind root = none := by
              unfold rootKind; split <;> first | omega | rfl
            rw [hn] at hroot; cases hroot.2
          omega
        | base hc' hp' hs' =>
          rw [hc] at hc'; cases hc'
          rw [hp] at hp'; cases hp'
          exact hs'

end Arti.Decl
