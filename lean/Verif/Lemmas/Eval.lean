import Verif.Spec.Build
import Verif.Lemmas.World

/-! Lemmas about the evaluator: it depends on the raw data only as sets. -/

namespace Arti.Spec
open PyDict
variable {κ D : Type} [DecidableEq κ] {env : Env κ D}

/-- The iteration order of a set is an order of its elements and depends on nothing else. -/
structure IterOk (env : Env κ D) : Prop where
  perm : ∀ l, (env.iter l).Perm l
  ext : ∀ l l' : List (PSnap κ), l.Nodup → l'.Nodup → (∀ x, x ∈ l ↔ x ∈ l') →
    env.iter l = env.iter l'

/-- Equal as dictionaries. -/
def DEq (l l' : Data κ) : Prop :=
  (keys l).Nodup ∧ (keys l').Nodup ∧ ∀ x, x ∈ l ↔ x ∈ l'

theorem DEq.get {l l' : Data κ} (h : DEq l l') (sn : PSnap κ) : get? l sn = get? l' sn := by
  obtain ⟨h1, h2, h3⟩ := h
  cases hg : get? l sn with
  | some c => exact ((mem_iff_get? h2).1 ((h3 _).1 (get?_mem hg))).symm
  | none =>
    cases hg' : get? l' sn with
    | none => rfl
    | some c =>
      have := (mem_iff_get? h1).1 ((h3 _).2 (get?_mem hg'))
      rw [hg] at this; simp at this

theorem DEq.mem_keys {l l' : Data κ} (h : DEq l l') (sn : PSnap κ) :
    sn ∈ l.map Prod.fst ↔ sn ∈ l'.map Prod.fst := by
  simp only [List.mem_map]
  constructor
  · rintro ⟨x, hx, rfl⟩; exact ⟨x, (h.2.2 x).1 hx, rfl⟩
  · rintro ⟨x, hx, rfl⟩; exact ⟨x, (h.2.2 x).2 hx, rfl⟩

theorem DEq.iter (hi : IterOk env) {l l' : Data κ} (h : DEq l l') :
    env.iter (l.map Prod.fst) = env.iter (l'.map Prod.fst) :=
  hi.ext _ _ h.1 h.2.1 h.mem_keys

theorem lookAll_congr {l l' : Data κ} (h : ∀ sn, get? l sn = get? l' sn) (ss : List (PSnap κ)) :
    lookAll l ss = lookAll l' ss := by
  induction ss with
  | nil => rfl
  | cons s ss ih => simp only [lookAll, h s, ih]

/-- Evaluated inputs that are equal as dictionaries. -/
inductive XEq : List (Str × (ArtInfo × Data κ)) → List (Str × (ArtInfo × Data κ)) → Prop
  | nil : XEq [] []
  | cons {n i l l' xs xs'} : DEq l l' → XEq xs xs' → XEq ((n, (i, l)) :: xs) ((n, (i, l')) :: xs')

theorem XEq.get {xs xs' : List (Str × (ArtInfo × Data κ))} (h : XEq xs xs') (n : Str) :
    (get? xs n = none ∧ get? xs' n = none) ∨
    ∃ i l l', get? xs n = some (i, l) ∧ get? xs' n = some (i, l') ∧ DEq l l' := by
  induction h with
  | nil => exact .inl ⟨rfl, rfl⟩
  | @cons m i l l' xs xs' hd _ ih =>
    by_cases hm : m = n
    · right; exact ⟨i, l, l', by simp [get?, hm], by simp [get?, hm], hd⟩
    · simpa [get?, hm] using ih

theorem argsOf_congr {xs xs' : List (Str × (ArtInfo × Data κ))} (h : XEq xs xs')
    (d : List (Str × List (PSnap κ))) (ps : List (Str × Nat)) :
    argsOf env xs d ps = argsOf env xs' d ps := by
  induction ps with
  | nil => rfl
  | cons p ps ih =>
    obtain ⟨n, v⟩ := p
    simp only [argsOf, ih]
    rcases h.get n with ⟨h1, h2⟩ | ⟨i, l, l', h1, h2, hd⟩
    · rw [h1, h2]
    · rw [h1, h2]
      simp only [orElse, readData, bind, Except.bind, lookAll_congr hd.get]

theorem outcomes_congr (p : Pdr) {xs xs' : List (Str × (ArtInfo × Data κ))} (h : XEq xs xs')
    (items : List (κ × List (Str × List (PSnap κ)))) :
    outcomes env p xs items = outcomes env p xs' items := by
  induction items with
  | nil => rfl
  | cons x items ih =>
    obtain ⟨pk, d⟩ := x
    simp only [outcomes, ih, argsOf_congr h]

theorem evalProducer_congr (hi : IterOk env) (p : Pdr)
    {xs xs' : List (Str × (ArtInfo × Data κ))} (h : XEq xs xs') :
    evalProducer env p xs = evalProducer env p xs' := by
  have hins : xs.map (fun x => (x.1, env.iter (x.2.2.map Prod.fst))) =
      xs'.map (fun x => (x.1, env.iter (x.2.2.map Prod.fst))) := by
    induction h with
    | nil => rfl
    | cons hd _ ih => simp only [List.map_cons, ih, hd.iter hi]
  simp only [evalProducer, hins, outcomes_congr p h]

/-- The keys of the outcomes are the keys that `map` returned. -/
theorem outcomes_keys (p : Pdr) (xs : List (Str × (ArtInfo × Data κ)))
    (items : List (κ × List (Str × List (PSnap κ)))) {rs : List (Outcome κ D)}
    (h : outcomes env p xs items = .ok rs) : rs.map Outcome.key = items.map Prod.fst := by
  induction items generalizing rs with
  | nil => simp [outcomes] at h; subst h; rfl
  | cons x items ih =>
    obtain ⟨pk, d⟩ := x
    unfold outcomes at h
    cases hf : World.computeInputFingerprint env p d with
    | error e => rw [hf] at h; simp [bind, Except.bind] at h
    | ok fp =>
      rw [hf] at h
      simp only [bind, Except.bind] at h
      cases hr : outcomes env p xs items with
      | error e => rw [hr] at h; simp at h
      | ok r =>
        rw [hr] at h
        simp only [Except.ok.injEq] at h
        subst h
        simp [ih hr]

theorem evalProducer_nodup {p : Pdr} {xs : List (Str × (ArtInfo × Data κ))}
    {rs : List (Outcome κ D)} (h : evalProducer env p xs = .ok rs) :
    (rs.map Outcome.key).Nodup := by
  unfold evalProducer at h
  simp only [bind, Except.bind] at h
  split at h
  · simp at h
  · rw [outcomes_keys p xs _ h]
    exact nodup_keys_ofItems _

theorem stored_ok {part : Prt κ} {c : Str} {sn : PSnap κ} {b : Str}
    (h : stored env part c = .ok (sn, b)) :
    b = c ∧ sn.part.key = part.key ∧ sn.part.inputFp = part.inputFp ∧ sn.part.sto = part.sto := by
  unfold stored at h
  cases hl : part.loc with
  | file path =>
    rw [hl] at h; simp only [Except.ok.injEq, Prod.mk.injEq] at h
    obtain ⟨rfl, rfl⟩ := h; simp
  | lit id v =>
    rw [hl] at h
    cases v with
    | none =>
      simp only [Except.ok.injEq, Prod.mk.injEq] at h
      obtain ⟨rfl, rfl⟩ := h; simp
    | some v => simp at h

theorem place_ok {c : PClass κ D} {i : ArtInfo} {pos : Nat} {r : Outcome κ D} {sn : PSnap κ}
    {b : Str} (h : place env c i pos r = .ok (sn, b)) :
    outBytes env c i pos r.outs = .ok b ∧
    ∃ part, World.generate env i.sto (some r.fp) r.key = .ok part ∧
      stored env part b = .ok (sn, b) := by
  unfold place at h
  simp only [bind, Except.bind] at h
  split at h
  · simp at h
  · rename_i b' hb
    split at h
    · simp at h
    · rename_i part hg
      obtain rfl := (stored_ok h).1
      exact ⟨hb, part, hg, h⟩

theorem place_of {c : PClass κ D} {i : ArtInfo} {pos : Nat} {r : Outcome κ D} {sn : PSnap κ}
    {b : Str} {part : Prt κ} (h1 : outBytes env c i pos r.outs = .ok b)
    (h2 : World.generate env i.sto (some r.fp) r.key = .ok part)
    (h3 : stored env part b = .ok (sn, b)) : place env c i pos r = .ok (sn, b) := by
  unfold place
  rw [h1]
  simp only [bind, Except.bind]
  rw [h2]
  exact h3

theorem place_key {c : PClass κ D} {i : ArtInfo} {pos : Nat} {r : Outcome κ D} {sn : PSnap κ}
    {b : Str} (h : place env c i pos r = .ok (sn, b)) :
    sn.part.key = r.key ∧ sn.part.inputFp = some r.fp ∧ sn.part.sto = i.sto := by
  obtain ⟨_, part, hg, hs⟩ := place_ok h
  obtain ⟨_, h1, h2, h3⟩ := stored_ok hs
  obtain ⟨g1, g2, g3, _⟩ := World.generate_ok hg
  exact ⟨h1.trans g3, h2.trans g2, h3.trans g1⟩

theorem placeAll_cons {c : PClass κ D} {i : ArtInfo} {pos : Nat} {r : Outcome κ D}
    {rs : List (Outcome κ D)} {l : Data κ} :
    placeAll env c i pos (r :: rs) = .ok l ↔
      ∃ x xs, place env c i pos r = .ok x ∧ placeAll env c i pos rs = .ok xs ∧ l = x :: xs := by
  simp only [placeAll, bind, Except.bind]
  cases place env c i pos r with
  | error e => simp
  | ok x =>
    cases placeAll env c i pos rs with
    | error e => simp
    | ok xs => simp [eq_comm]

theorem placeAll_keys {c : PClass κ D} {i : ArtInfo} {pos : Nat} {rs : List (Outcome κ D)}
    {l : Data κ} (h : placeAll env c i pos rs = .ok l) :
    l.map (fun x => x.1.part.key) = rs.map Outcome.key := by
  induction rs generalizing l with
  | nil => simp [placeAll] at h; subst h; rfl
  | cons r rs ih =>
    obtain ⟨⟨sn, b⟩, xs, h1, h2, rfl⟩ := placeAll_cons.1 h
    simp [ih h2, (place_key h1).1]

theorem placeAll_nodup {c : PClass κ D} {i : ArtInfo} {pos : Nat} {rs : List (Outcome κ D)}
    {l : Data κ} (h : placeAll env c i pos rs = .ok l) (hn : (rs.map Outcome.key).Nodup) :
    (keys l).Nodup := by
  rw [← placeAll_keys h] at hn
  have : l.map (fun x => x.1.part.key) = (keys l).map (fun sn => sn.part.key) := by
    simp [keys]
  rw [this] at hn
  exact List.Pairwise.of_map _ (fun _ _ h e => h (by rw [e])) hn

theorem mem_placeAll {c : PClass κ D} {i : ArtInfo} {pos : Nat} {rs : List (Outcome κ D)}
    {l : Data κ} (h : placeAll env c i pos rs = .ok l) (x : PSnap κ × Str) :
    x ∈ l ↔ ∃ r ∈ rs, place env c i pos r = .ok x := by
  induction rs generalizing l with
  | nil => simp [placeAll] at h; subst h; simp
  | cons r rs ih =>
    obtain ⟨y, xs, h1, h2, rfl⟩ := placeAll_cons.1 h
    rw [List.mem_cons, ih h2]
    constructor
    · rintro (rfl | ⟨r', hr, hp⟩)
      · exact ⟨r, by simp, h1⟩
      · exact ⟨r', List.mem_cons_of_mem _ hr, hp⟩
    · rintro ⟨r', hr, hp⟩
      rcases List.mem_cons.1 hr with rfl | hr
      · rw [h1] at hp; exact .inl (Except.ok.inj hp).symm
      · exact .inr ⟨r', hr, hp⟩

/-- If every partition can be placed, all of them can. -/
theorem placeAll_of_forall {c : PClass κ D} {i : ArtInfo} {pos : Nat} {rs : List (Outcome κ D)}
    (h : ∀ r ∈ rs, ∃ x, place env c i pos r = .ok x) : ∃ l, placeAll env c i pos rs = .ok l := by
  induction rs with
  | nil => exact ⟨[], rfl⟩
  | cons r rs ih =>
    obtain ⟨x, hx⟩ := h r (by simp)
    obtain ⟨xs, hxs⟩ := ih fun r hr => h r (List.mem_cons_of_mem _ hr)
    exact ⟨x :: xs, placeAll_cons.2 ⟨x, xs, hx, hxs, rfl⟩⟩

/-- Raw data that is equal as sets. -/
def RawEq (ρ ρ' : ArtInfo → Data κ) : Prop := ∀ i, DEq (ρ i) (ρ' i)

theorem evalPdr_nodup {ρ : ArtInfo → Data κ} {p : Pdr} {rs : List (Outcome κ D)}
    (h : evalPdr env ρ p = .ok rs) : (rs.map Outcome.key).Nodup := by
  obtain ⟨c, v, ins⟩ := p
  simp only [evalPdr, bind, Except.bind] at h
  split at h
  · simp at h
  · exact evalProducer_nodup h

/-- Results that are both errors or both evaluated data equal as sets. -/
def EEq {α : Type} (R : α → α → Prop) : Except Err α → Except Err α → Prop
  | .ok a, .ok b => R a b
  | .error e, .error e' => e = e'
  | _, _ => False

mutual
theorem evalArt_congr (hi : IterOk env) {ρ ρ' : ArtInfo → Data κ} (h : RawEq ρ ρ') :
    ∀ a, EEq DEq (evalArt env ρ a) (evalArt env ρ' a)
  | .raw i => by simp only [evalArt, EEq]; exact h i
  | .made i p pos => by
    simp only [evalArt, evalPdr_congr hi h p]
    cases hp : evalPdr env ρ' p with
    | error e => simp [bind, Except.bind, EEq]
    | ok rs =>
      simp only [bind, Except.bind]
      cases hl : placeAll env (env.impl p.cls (env.versionFp p.ver)) i pos rs with
      | error e => simp [EEq]
      | ok l =>
        have := placeAll_nodup hl (evalPdr_nodup hp)
        exact ⟨this, this, fun _ => Iff.rfl⟩
theorem evalPdr_congr (hi : IterOk env) {ρ ρ' : ArtInfo → Data κ} (h : RawEq ρ ρ') :
    ∀ p, evalPdr env ρ p = evalPdr env ρ' p
  | .mk c v ins => by
    simp only [evalPdr]
    have := evalIns_congr hi h ins
    revert this
    cases evalIns env ρ ins <;> cases evalIns env ρ' ins <;>
      simp only [EEq, bind, Except.bind, false_implies]
    · rintro rfl; rfl
    · intro hx; exact evalProducer_congr hi _ hx
theorem evalIns_congr (hi : IterOk env) {ρ ρ' : ArtInfo → Data κ} (h : RawEq ρ ρ') :
    ∀ ins, EEq XEq (evalIns env ρ ins) (evalIns env ρ' ins)
  | .nil => by simp only [evalIns, EEq]; exact .nil
  | .cons n a r => by
    simp only [evalIns]
    have h1 := evalArt_congr hi h a
    have h2 := evalIns_congr hi h r
    revert h1 h2
    cases evalArt env ρ a <;> cases evalArt env ρ' a <;>
      simp only [EEq, bind, Except.bind, false_implies, implies_true]
    · rintro rfl _; rfl
    · cases evalIns env ρ r <;> cases evalIns env ρ' r <;>
        simp only [EEq, false_implies, implies_true]
      · rintro _ rfl; rfl
      · intro h1 h2; exact .cons h1 h2
end

end Arti.Spec
