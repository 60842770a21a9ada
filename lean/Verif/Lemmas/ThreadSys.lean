import Verif.Lemmas.Threads

/-!
# Threads that share a backend: what holds of every call in every schedule
-/

namespace Arti.Thr
open PyDict Spec

variable {K P V : Type} [DecidableEq K] [DecidableEq P]

def slotPath : Slot K → Path K
  | .storage sto => (0, [sto])
  | .links snap key => (1, [snap, key])

/-- The set of a slot, if the entries that lead to it stay. -/
def knownRef (kn : Nat → K → Option Nat) : Slot K → Option Nat
  | .storage sto => kn 0 sto
  | .links snap key => (kn 1 snap).bind fun r => kn r key

/-- The path of the dictionary of a place. -/
def rootOf : Place K → Nat
  | .tag _ _ => 2
  | .graph _ _ => 3
  | .snapshot _ _ => 4

def nameOf : Place K → K
  | .tag name _ | .graph name _ | .snapshot name _ => name

def keyOf : Place K → K
  | .tag _ k | .graph _ k | .snapshot _ k => k

/-- What the call adds may be added. -/
def Allowed (w : World K P V) : Call K P V → Prop
  | .writeArtifact sto ps => ∀ p ∈ ps, w.A (0, [sto]) p
  | .readArtifact sto found _ => ∀ p ∈ found, w.A (0, [sto]) p
  | .writeLinks snap key ps => ∀ p ∈ ps, w.A (1, [snap, key]) p
  | .readLinks _ _ => True
  | .writeTag name tag v _ => w.B (2, [name]) tag v
  | .readTag _ _ => True
  | .writeGraph name fp v => w.B (3, [name]) fp v
  | .readGraph _ _ => True
  | .writeSnapshot name fp v => w.B (4, [name]) fp v
  | .readSnapshot _ _ => True

/-- What holds when a call that was made in `w0` has ended with `r` in `w'`. -/
structure Post (kn : Nat → K → Option Nat) (w0 : World K P V) (c : Call K P V) (r : Res P V)
    (w' : World K P V) : Prop where
  writes : ∀ x ps, Writes c x ps → r = .done ∧
    ∀ q, knownRef kn x = some q → ∀ p ∈ ps, p ∈ elems w'.h q
  reads : ∀ x f, Reads c x f →
    (r = .runtimeError ∧ ∃ sto found g, c = .readArtifact sto found (some g)) ∨
    ∃ l, r = .found l ∧ (∀ p ∈ l, f p = true ∧ w'.A (slotPath x) p) ∧
      ∀ q, knownRef kn x = some q → ∀ p ∈ elems w0.h q, f p = true → p ∈ l
  puts : ∀ y v, Puts c y v →
    (r = .done ∧ ∀ q, kn (rootOf y) (nameOf y) = some q → (value w'.h q (keyOf y)).isSome) ∨
    (r = .valueError ∧ (∃ name tag, c = .writeTag name tag v false) ∧
      ∃ v', w'.B (rootOf y, [nameOf y]) (keyOf y) v')
  gets : ∀ y, Gets c y →
    (∃ v, r = .got v ∧ w'.B (rootOf y, [nameOf y]) (keyOf y) v) ∨
    ((r = .valueError ∨ r = .keyError) ∧
      ∀ q, kn (rootOf y) (nameOf y) = some q → (value w0.h q (keyOf y)).isSome = false)

theorem At.value {w : World K P V} {kn : Nat → K → Option Nat} (hg : Good kn w) {r : Nat} {π : Path K}
    (h : At w r π) {t : K} {v : V} (hv : value w.h r t = some v) : w.B π t v := by
  obtain ⟨c, h1, h2⟩ := h
  exact h2 ▸ hg.vals r c t v h1 hv

theorem At.elems {w : World K P V} {kn : Nat → K → Option Nat} (hg : Good kn w) {r : Nat} {π : Path K}
    (h : At w r π) {p : P} (hv : p ∈ elems w.h r) : w.A π p := by
  obtain ⟨c, h1, h2⟩ := h
  exact h2 ▸ hg.elems r c p h1 hv

theorem At.root {kn : Nat → K → Option Nat} {w : World K P V} (hg : Good kn w) {i : Nat} (hi : i < 5) :
    At w i (i, []) := hg.roots i hi

section
variable {kn : Nat → K → Option Nat} {w0 w : World K P V}

theorem safe_listSet {Q : Res P V → World K P V → Prop} {x : Slot K} {keep : Option (P → Bool)} {r : Nat}
    (hx : At w r (slotPath x)) (hk : ∀ q, knownRef kn x = some q → r = q) (he : Ext w0 w)
    (hQ : ∀ w' l, Ext w w' → (∀ p ∈ l, (keep.getD fun _ => true) p = true ∧ w'.A (slotPath x) p) →
      (∀ q, knownRef kn x = some q → ∀ p ∈ elems w0.h q, (keep.getD fun _ => true) p = true → p ∈ l) →
      Q (.found l) w')
    (hQ' : ∀ w', (∃ g, keep = some g) → Q .runtimeError w') :
    Safe kn Q (listSet keep r) w := by
  cases keep with
  | none =>
    intro w1 he1 hg1
    refine ⟨fine_id hg1, ?_⟩
    intro w2 he2 hg2
    refine hQ w2 _ (he1.trans he2) (fun p hp => ⟨rfl, he2.A _ _ ((hx.ext he1).elems hg1 hp)⟩) ?_
    intro q hq p hp _
    rw [hk q hq]
    exact (he.trans he1).elems _ _ hp
  | some f =>
    intro w1 he1 hg1
    refine ⟨fine_id hg1, ?_⟩
    intro w2 he2 hg2
    refine ⟨fine_id hg2, ?_⟩
    intro w3 he3 hg3
    change Q (if _ then _ else _) w3
    have he2 : Ext w1 w2 := he2
    have he3 : Ext w2 w3 := he3
    split
    · refine hQ w3 _ (he1.trans (he2.trans he3)) (fun p hp => ?_) ?_
      · obtain ⟨hp1, hp2⟩ := List.mem_filter.1 hp
        exact ⟨hp2, (he2.trans he3).A _ _ ((hx.ext he1).elems hg1 hp1)⟩
      · intro q hq p hp hf
        rw [hk q hq]
        exact List.mem_filter.2 ⟨(he.trans he1).elems _ _ hp, hf⟩
    · exact hQ' w3 ⟨f, rfl⟩

theorem safe_storageSet {R : Type} {Q : R → World K P V → Prop} {sto : K}
    {next : Nat → Code (Heap K P V) R} (hg : Good kn w)
    (hn : ∀ w' r, Ext w w' → Good kn w' → At w' r (0, [sto]) →
      (∀ q, knownRef kn (.storage sto) = some q → r = q) → Safe kn Q (next r) w') :
    Safe kn Q (storageSet sto next) w :=
  safe_sub (At.root hg (by omega)) rfl (.inr (.inl rfl)) hn

theorem safe_linkSet {R : Type} {Q : R → World K P V → Prop} {snap key : K}
    {next : Nat → Code (Heap K P V) R} (hg : Good kn w)
    (hn : ∀ w' r, Ext w w' → Good kn w' → At w' r (1, [snap, key]) →
      (∀ q, knownRef kn (.links snap key) = some q → r = q) → Safe kn Q (next r) w') :
    Safe kn Q (linkSet snap key next) w := by
  refine safe_sub (At.root hg (by omega)) rfl (.inl rfl) ?_
  intro w1 r1 he1 hg1 ha1 hk1
  refine safe_sub ha1 rfl (.inr (.inl rfl)) ?_
  intro w2 r2 he2 hg2 ha2 hk2
  refine hn w2 r2 (he1.trans he2) hg2 ha2 ?_
  intro q hq
  change (kn 1 snap).bind (fun r => kn r key) = some q at hq
  cases h1 : kn 1 snap with
  | none => rw [h1] at hq; cases hq
  | some q1 =>
    rw [h1] at hq
    have := hk1 q1 h1
    subst this
    exact hk2 q hq

theorem safe_place {R : Type} {Q : R → World K P V → Prop} {y : Place K}
    {next : Nat → Code (Heap K P V) R} (hg : Good kn w)
    (hn : ∀ w' r, Ext w w' → Good kn w' → At w' r (rootOf y, [nameOf y]) →
      (∀ q, kn (rootOf y) (nameOf y) = some q → r = q) → Safe kn Q (next r) w') :
    Safe kn Q (sub (rootOf y) (nameOf y) (.vals []) next) w := by
  cases y with
  | tag n t => exact safe_sub (At.root hg (by show 2 < 5; omega)) rfl (.inr (.inr rfl)) hn
  | graph n t => exact safe_sub (At.root hg (by show 3 < 5; omega)) rfl (.inr (.inr rfl)) hn
  | snapshot n t => exact safe_sub (At.root hg (by show 4 < 5; omega)) rfl (.inr (.inr rfl)) hn

theorem kind_place (y : Place K) : kind (rootOf y, [nameOf y]) = 2 := by
  cases y <;> rfl

/-- Putting something at a place. -/
theorem safe_put {Q : Res P V → World K P V → Prop} {y : Place K} {v : V} (hg : Good kn w)
    (hv : w.B (rootOf y, [nameOf y]) (keyOf y) v)
    (hQ : ∀ w', Ext w w' → (∀ q, kn (rootOf y) (nameOf y) = some q → (value w'.h q (keyOf y)).isSome) →
      Q .done w') :
    Safe kn Q (sub (rootOf y) (nameOf y) (.vals []) fun r => .act (assign r (keyOf y) v) fun _ => .ret .done)
      w := by
  refine safe_place hg ?_
  intro w3 r3 he3 hg3 ha3 hk3 w4 he4 hg4
  obtain ⟨c4, hc4, hp4⟩ := ha3.ext he4
  have hf : Fine kn w4 (assign r3 (keyOf y) v) := by
    refine fine_assign hg4 hc4 ?_
    rw [hp4]
    exact (he3.trans he4).B _ _ _ hv
  refine ⟨hf, ?_⟩
  intro w5 he5 hg5
  refine hQ w5 ((he3.trans he4).trans (hf.2.trans he5)) (fun q hq => ?_)
  rw [← hk3 q hq]
  refine he5.vals _ _ ?_
  change (value (assign r3 (keyOf y) v w4.h) r3 (keyOf y)).isSome
  rw [value_assign, if_pos ⟨rfl, rfl, c4, hc4, by rw [hg4.kinds _ _ hc4, hp4]; exact kind_place y⟩]
  rfl

/-- Looking up what is at a place. -/
theorem safe_lookUp {Q : Res P V → World K P V → Prop} {y : Place K} {r : Nat}
    (ha : At w r (rootOf y, [nameOf y])) (hk : ∀ q, kn (rootOf y) (nameOf y) = some q → r = q)
    (hQ : ∀ w' v, Ext w w' → w'.B (rootOf y, [nameOf y]) (keyOf y) v → Q (.got v) w')
    (hQ' : ∀ w', Ext w w' → (∀ q, kn (rootOf y) (nameOf y) = some q →
      (value w.h q (keyOf y)).isSome = false) → Q .keyError w') :
    Safe kn Q (lookUp (keyOf y) r) w := by
  intro w4 he4 hg4
  refine ⟨fine_id hg4, ?_⟩
  intro w5 he5 hg5
  have he5 : Ext w4 w5 := he5
  change Q (match value w4.h r (keyOf y) with | some v => .got v | none => .keyError) w5
  cases hv : value w4.h r (keyOf y) with
  | some v => exact hQ w5 v (he4.trans he5) (he5.B _ _ _ ((ha.ext he4).value hg4 hv))
  | none =>
    refine hQ' w5 (he4.trans he5) (fun q hq => ?_)
    cases hs : (value w.h q (keyOf y)).isSome with
    | false => rfl
    | true =>
      have := he4.vals q _ hs
      rw [← hk q hq, hv] at this
      cases this

theorem Allowed.ext {w w' : World K P V} {c : Call K P V} (h : Allowed w c) (he : Ext w w') :
    Allowed w' c := by
  cases c with
  | writeArtifact sto ps => exact fun p hp => he.A _ _ (h p hp)
  | readArtifact sto found keep => exact fun p hp => he.A _ _ (h p hp)
  | writeLinks snap key ps => exact fun p hp => he.A _ _ (h p hp)
  | readLinks snap key => trivial
  | writeTag name tag v o => exact he.B _ _ _ h
  | readTag name tag => trivial
  | writeGraph name fp v => exact he.B _ _ _ h
  | readGraph name fp => trivial
  | writeSnapshot name fp v => exact he.B _ _ _ h
  | readSnapshot name fp => trivial

theorem back {w w' : World K P V} (he : Ext w w') {q : Nat} {t : K}
    (h : (value w'.h q t).isSome = false) : (value w.h q t).isSome = false := by
  cases hs : (value w.h q t).isSome with
  | false => rfl
  | true => rw [he.vals q t hs] at h; cases h

/-- Every call ends as `Post` says, whatever other threads do. -/
theorem safe_code (hg : Good kn w0) {c : Call K P V} (ha : Allowed w0 c) :
    Safe kn (Post kn w0 c) (code c) w0 := by
  cases c with
  | writeArtifact sto ps =>
    refine safe_storageSet hg ?_
    intro w1 r1 he1 hg1 ha1 hk1
    refine safe_addAll rfl ps ha1 (fun p hp => he1.A _ _ (ha p hp)) ?_ hg1
    intro w2 he2 hg2 hps w3 he3 hg3
    refine ⟨?_, (fun _ _ h => by cases h), (fun _ _ h => by cases h), (fun _ h => by cases h)⟩
    intro x qs hx
    cases hx
    refine ⟨rfl, fun q hq p hp => ?_⟩
    rw [← hk1 q hq]
    exact he3.elems _ _ (hps p hp)
  | writeLinks snap key ps =>
    refine safe_linkSet hg ?_
    intro w1 r1 he1 hg1 ha1 hk1
    refine safe_addAll rfl ps ha1 (fun p hp => he1.A _ _ (ha p hp)) ?_ hg1
    intro w2 he2 hg2 hps w3 he3 hg3
    refine ⟨?_, (fun _ _ h => by cases h), (fun _ _ h => by cases h), (fun _ h => by cases h)⟩
    intro x qs hx
    cases hx
    refine ⟨rfl, fun q hq p hp => ?_⟩
    rw [← hk1 q hq]
    exact he3.elems _ _ (hps p hp)
  | readLinks snap key =>
    refine safe_linkSet hg ?_
    intro w1 r1 he1 hg1 ha1 hk1
    refine safe_listSet (x := .links snap key) ha1 hk1 he1 ?_ ?_
    · intro w2 l he2 hl1 hl2
      refine ⟨(fun _ _ h => by cases h), ?_, (fun _ _ h => by cases h), (fun _ h => by cases h)⟩
      intro x f hx
      cases hx
      exact .inr ⟨l, rfl, hl1, hl2⟩
    · rintro w2 ⟨g, hg⟩
      cases hg
  | readArtifact sto found keep =>
    have hlist : ∀ w1 r1, Ext w0 w1 → Good kn w1 → At w1 r1 (0, [sto]) →
        (∀ q, knownRef kn (.storage sto) = some q → r1 = q) →
        Safe kn (Post kn w0 (.readArtifact sto found keep)) (listSet keep r1) w1 := by
      intro w1 r1 he1 hg1 ha1 hk1
      refine safe_listSet (x := .storage sto) ha1 hk1 he1 ?_ ?_
      · intro w2 l he2 hl1 hl2
        refine ⟨(fun _ _ h => by cases h), ?_, (fun _ _ h => by cases h), (fun _ h => by cases h)⟩
        intro x f hx
        cases hx with
        | all => exact .inr ⟨l, rfl, hl1, hl2⟩
        | some => exact .inr ⟨l, rfl, hl1, hl2⟩
      · rintro w2 ⟨g, rfl⟩
        refine ⟨(fun _ _ h => by cases h), ?_, (fun _ _ h => by cases h), (fun _ h => by cases h)⟩
        intro x f _
        exact .inl ⟨rfl, sto, found, g, rfl⟩
    intro w1 he1 hg1
    refine ⟨fine_id hg1, ?_⟩
    change Safe kn _ (if _ then _ else _) w1
    split
    · refine safe_storageSet hg1 ?_
      intro w2 r2 he2 hg2 ha2 hk2
      exact hlist w2 r2 (he1.trans he2) hg2 ha2 hk2
    · refine safe_storageSet hg1 ?_
      intro w2 r2 he2 hg2 ha2 hk2
      refine safe_addAll rfl found ha2 (fun p hp => (he1.trans he2).A _ _ (ha p hp)) ?_ hg2
      intro w3 he3 hg3 _
      refine safe_storageSet hg3 ?_
      intro w4 r4 he4 hg4 ha4 hk4
      exact hlist w4 r4 ((he1.trans he2).trans (he3.trans he4)) hg4 ha4 hk4
  | writeTag name tag v o =>
    refine safe_place (y := .tag name tag) hg ?_
    intro w1 r1 he1 hg1 ha1 hk1 w2 he2 hg2
    refine ⟨fine_id hg2, ?_⟩
    change Safe kn _ (if _ then _ else _) w2
    split
    · rename_i hcond
      simp only [Bool.and_eq_true, Bool.not_eq_eq_eq_not, Bool.not_true] at hcond
      intro w3 he3 hg3
      refine ⟨(fun _ _ h => by cases h), (fun _ _ h => by cases h), ?_, (fun _ h => by cases h)⟩
      intro y v' h
      cases h
      obtain ⟨v1, hv1⟩ := Option.isSome_iff_exists.1 hcond.1
      refine .inr ⟨rfl, ⟨name, tag, ?_⟩, v1, he3.B _ _ _ ((ha1.ext he2).value hg2 hv1)⟩
      rw [hcond.2]
    · refine safe_put (y := .tag name tag) hg2 ((he1.trans he2).B _ _ _ ha) ?_
      intro w3 he3 hw3
      refine ⟨(fun _ _ h => by cases h), (fun _ _ h => by cases h), ?_, (fun _ h => by cases h)⟩
      intro y v' h
      cases h
      exact .inl ⟨rfl, hw3⟩
  | readTag name tag =>
    refine safe_place (y := .tag name tag) hg ?_
    intro w1 r1 he1 hg1 ha1 hk1 w2 he2 hg2
    refine ⟨fine_id hg2, ?_⟩
    change Safe kn _ (if _ then _ else _) w2
    split
    · rename_i hcond
      intro w3 he3 hg3
      refine ⟨(fun _ _ h => by cases h), (fun _ _ h => by cases h), (fun _ _ h => by cases h), ?_⟩
      intro y h
      cases h
      refine .inr ⟨.inl rfl, fun q hq => ?_⟩
      rw [← hk1 q hq]
      change (value w0.h r1 tag).isSome = false
      cases hs : (value w0.h r1 tag).isSome with
      | false => rfl
      | true =>
        have := (he1.trans he2).vals r1 tag hs
        rw [Option.isNone_iff_eq_none] at hcond
        rw [hcond] at this
        cases this
    · refine safe_place (y := .tag name tag) hg2 ?_
      intro w3 r3 he3 hg3 ha3 hk3
      refine safe_lookUp (y := .tag name tag) ha3 hk3 ?_ ?_
      · intro w4 v he4 hv
        refine ⟨(fun _ _ h => by cases h), (fun _ _ h => by cases h), (fun _ _ h => by cases h), ?_⟩
        intro y h
        cases h
        exact .inl ⟨v, rfl, hv⟩
      · intro w4 he4 hv
        refine ⟨(fun _ _ h => by cases h), (fun _ _ h => by cases h), (fun _ _ h => by cases h), ?_⟩
        intro y h
        cases h
        exact .inr ⟨.inr rfl, fun q hq => back ((he1.trans he2).trans he3) (hv q hq)⟩
  | writeGraph name fp v =>
    refine safe_put (y := .graph name fp) hg ha ?_
    intro w3 he3 hw3
    refine ⟨(fun _ _ h => by cases h), (fun _ _ h => by cases h), ?_, (fun _ h => by cases h)⟩
    intro y v' h
    cases h
    exact .inl ⟨rfl, hw3⟩
  | writeSnapshot name fp v =>
    refine safe_put (y := .snapshot name fp) hg ha ?_
    intro w3 he3 hw3
    refine ⟨(fun _ _ h => by cases h), (fun _ _ h => by cases h), ?_, (fun _ h => by cases h)⟩
    intro y v' h
    cases h
    exact .inl ⟨rfl, hw3⟩
  | readGraph name fp =>
    refine safe_place (y := .graph name fp) hg ?_
    intro w3 r3 he3 hg3 ha3 hk3
    refine safe_lookUp (y := .graph name fp) ha3 hk3 ?_ ?_
    · intro w4 v he4 hv
      refine ⟨(fun _ _ h => by cases h), (fun _ _ h => by cases h), (fun _ _ h => by cases h), ?_⟩
      intro y h
      cases h
      exact .inl ⟨v, rfl, hv⟩
    · intro w4 he4 hv
      refine ⟨(fun _ _ h => by cases h), (fun _ _ h => by cases h), (fun _ _ h => by cases h), ?_⟩
      intro y h
      cases h
      exact .inr ⟨.inr rfl, fun q hq => back he3 (hv q hq)⟩
  | readSnapshot name fp =>
    refine safe_place (y := .snapshot name fp) hg ?_
    intro w3 r3 he3 hg3 ha3 hk3
    refine safe_lookUp (y := .snapshot name fp) ha3 hk3 ?_ ?_
    · intro w4 v he4 hv
      refine ⟨(fun _ _ h => by cases h), (fun _ _ h => by cases h), (fun _ _ h => by cases h), ?_⟩
      intro y h
      cases h
      exact .inl ⟨v, rfl, hv⟩
    · intro w4 he4 hv
      refine ⟨(fun _ _ h => by cases h), (fun _ _ h => by cases h), (fun _ _ h => by cases h), ?_⟩
      intro y h
      cases h
      exact .inr ⟨.inr rfl, fun q hq => back he3 (hv q hq)⟩

end

/-! ## All threads -/

def allowA (log : List (Ev K P V)) (π : Path K) (p : P) : Prop :=
  ∃ x, slotPath x = π ∧ Offered log x p

def allowB (log : List (Ev K P V)) (π : Path K) (t : K) (v : V) : Prop :=
  ∃ y, (rootOf y, [nameOf y]) = π ∧ keyOf y = t ∧ PutBegun log y v

/-- What happened before the threads were started, and what they did. -/
def worldOf (pre : List (Ev K P V)) (log : List (Ev K P V)) (h : Heap K P V) : World K P V :=
  ⟨allowA (pre ++ log), allowB (pre ++ log), h⟩

theorem Offered.mono {log log' : List (Ev K P V)} (h : ∀ e ∈ log, e ∈ log') {x : Slot K} {p : P}
    (ho : Offered log x p) : Offered log' x p := by
  rcases ho with ⟨i, c, ps, h1, h2⟩ | ⟨i, sto, found, keep, h1, h2⟩
  · exact .inl ⟨i, c, ps, h _ h1, h2⟩
  · exact .inr ⟨i, sto, found, keep, h _ h1, h2⟩

theorem ext_log {pre log log' : List (Ev K P V)} (h : ∀ e ∈ log, e ∈ log') (hp : Heap K P V) :
    Ext (worldOf pre log hp) (worldOf pre log' hp) := by
  have hm : ∀ e ∈ pre ++ log, e ∈ pre ++ log' := by
    intro e he
    rcases List.mem_append.1 he with he | he
    · exact List.mem_append_left _ he
    · exact List.mem_append_right _ (h e he)
  refine ⟨?_, ?_, fun _ c h => ⟨c, h, rfl⟩, fun _ _ h => h, fun _ _ h => h⟩
  · rintro π p ⟨x, h1, h2⟩
    exact ⟨x, h1, Offered.mono hm h2⟩
  · rintro π t v ⟨y, h1, h2, i, c, h3, h4⟩
    exact ⟨y, h1, h2, i, c, hm _ h3, h4⟩

theorem good_log {kn : Nat → K → Option Nat} {pre log log' : List (Ev K P V)} {hp : Heap K P V}
    (hg : Good kn (worldOf pre log hp)) (h : ∀ e ∈ log, e ∈ log') : Good kn (worldOf pre log' hp) := by
  have he := ext_log (pre := pre) h hp
  exact ⟨hg.kinds, hg.edges, hg.roots, hg.known, fun r c p h1 h2 => he.A _ _ (hg.elems r c p h1 h2),
    fun r c t v h1 h2 => he.B _ _ _ (hg.vals r c t v h1 h2)⟩

/-- The known sets have what they had at first and what was written in `log`. -/
structure Before (kn : Nat → K → Option Nat) (h0 : Heap K P V) (log : List (Ev K P V))
    (h : Heap K P V) : Prop where
  sets : ∀ x q, knownRef kn x = some q → ∀ p, (p ∈ elems h0 q ∨ Written log x p) → p ∈ elems h q
  places : ∀ y q, kn (rootOf y) (nameOf y) = some q →
    ((value h0 q (keyOf y)).isSome ∨ PutDone log y) → (value h q (keyOf y)).isSome

theorem Before.ext {kn : Nat → K → Option Nat} {h0 : Heap K P V} {log : List (Ev K P V)}
    {w w' : World K P V} (h : Before kn h0 log w.h) (he : Ext w w') : Before kn h0 log w'.h :=
  ⟨fun x q hq p hp => he.elems _ _ (h.sets x q hq p hp),
    fun y q hq hy => he.vals _ _ (h.places y q hq hy)⟩

structure ThreadInv (kn : Nat → K → Option Nat) (pre : List (Ev K P V)) (h0 : Heap K P V) (s : Sys K P V) :
    Prop where
  good : Good kn (worldOf pre s.log s.heap)
  before : Before kn h0 s.log s.heap
  cur : ∀ (i : Nat) (t : Thread K P V) (c : Call K P V) (n : Nat) (p : Code (Heap K P V) (Res P V)),
    s.threads[i]? = some t → t.cur = some (c, n, p) → n ≤ s.log.length ∧
    ∃ w0, Before kn h0 (s.log.take n) w0.h ∧ Safe kn (Post kn w0 c) p (worldOf pre s.log s.heap)
  rets : ∀ (j i : Nat) (c : Call K P V) (n : Nat) (r : Res P V), s.log[j]? = some (.returned i c n r) → n ≤ j ∧
    ∃ w0 w', Before kn h0 (s.log.take n) w0.h ∧ w'.A = allowA (pre ++ s.log.take j) ∧
      w'.B = allowB (pre ++ s.log.take j) ∧ Post kn w0 c r w'

theorem ThreadInv.step {kn : Nat → K → Option Nat} {pre : List (Ev K P V)} {h0 : Heap K P V} {s : Sys K P V}
    (h : ThreadInv kn pre h0 s) (i : Nat) : ThreadInv kn pre h0 (step s i) := by
  unfold Thr.step
  cases ht : s.threads[i]? with
  | none => exact h
  | some t =>
    simp only
    have hlen : i < s.threads.length := (List.getElem?_eq_some_iff.1 ht).1
    have hset : ∀ (t' : Thread K P V) j u, (s.threads.set i t')[j]? = some u →
        (j = i ∧ u = t') ∨ (s.threads[j]? = some u) := by
      intro t' j u hu
      rw [List.getElem?_set] at hu
      by_cases e : i = j
      · subst e; simp [hlen] at hu; exact .inl ⟨rfl, hu.symm⟩
      · simp [e] at hu; exact .inr hu
    have htake : ∀ (e : Ev K P V) n, n ≤ s.log.length → (s.log ++ [e]).take n = s.log.take n := by
      intro e n hn
      rw [List.take_append_of_le_length hn]
    have hrets : ∀ (e : Ev K P V) j i' c n r, j < s.log.length →
        (s.log ++ [e])[j]? = some (.returned i' c n r) → n ≤ j ∧
        ∃ w0 w', Before kn h0 ((s.log ++ [e]).take n) w0.h ∧
          w'.A = allowA (pre ++ (s.log ++ [e]).take j) ∧
          w'.B = allowB (pre ++ (s.log ++ [e]).take j) ∧ Post kn w0 c r w' := by
      intro e j i' c n r hj hl
      rw [List.getElem?_append_left hj] at hl
      obtain ⟨h1, w0, w', h2⟩ := h.rets j i' c n r hl
      refine ⟨h1, w0, w', ?_⟩
      rw [htake e n (by omega), htake e j (by omega)]
      exact h2
    have hlast : ∀ (e : Ev K P V) j x, (s.log ++ [e])[j]? = some x → ¬ j < s.log.length →
        j = s.log.length ∧ x = e := by
      intro e j x hx hj
      have : j < (s.log ++ [e]).length := (List.getElem?_eq_some_iff.1 hx).1
      simp only [List.length_append, List.length_singleton] at this
      have hj : j = s.log.length := by omega
      subst hj
      rw [List.getElem?_concat_length] at hx
      exact ⟨rfl, (Option.some.inj hx).symm⟩
    cases hc : t.cur with
    | none =>
      simp only
      cases htd : t.todo with
      | nil => exact h
      | cons c cs =>
        simp only
        have hsub : ∀ e ∈ s.log, e ∈ s.log ++ [.called i c] := fun e he => List.mem_append_left _ he
        have hext := ext_log (pre := pre) hsub s.heap
        have hgood := good_log h.good hsub
        have hw : ∀ x p, Written (s.log ++ [.called i c]) x p → Written s.log x p := by
          rintro x p ⟨i', c', n, ps, h1, h2⟩
          rcases List.mem_append.1 h1 with h1 | h1
          · exact ⟨i', c', n, ps, h1, h2⟩
          · simp at h1
        have htg : ∀ y, PutDone (s.log ++ [.called i c]) y → PutDone s.log y := by
          rintro y ⟨i', c', n, v, h1, h2⟩
          rcases List.mem_append.1 h1 with h1 | h1
          · exact ⟨i', c', n, v, h1, h2⟩
          · simp at h1
        refine ⟨hgood, ⟨fun x q hq p hp => h.before.sets x q hq p (hp.imp_right (hw x p)),
          fun y q hq hy => h.before.places y q hq (hy.imp_right (htg y))⟩, ?_, ?_⟩
        · intro j u c' n p hu hcur
          rcases hset _ j u hu with ⟨rfl, rfl⟩ | hu
          · simp only [Option.some.injEq, Prod.mk.injEq] at hcur
            obtain ⟨rfl, rfl, rfl⟩ := hcur
            refine ⟨by simp, worldOf pre (s.log ++ [.called j c]) s.heap, ?_, safe_code hgood ?_⟩
            · rw [htake _ _ (Nat.le_refl _), List.take_length]
              exact h.before
            · have hm : (Ev.called j c : Ev K P V) ∈ pre ++ (s.log ++ [.called j c]) := by simp
              cases c with
              | writeArtifact sto ps =>
                exact fun p hp => ⟨.storage sto, rfl, .inl ⟨j, _, ps, hm, .artifact sto ps, hp⟩⟩
              | readArtifact sto found keep =>
                exact fun p hp => ⟨.storage sto, rfl, .inr ⟨j, sto, found, keep, hm, rfl, hp⟩⟩
              | writeLinks snap key ps =>
                exact fun p hp => ⟨.links snap key, rfl, .inl ⟨j, _, ps, hm, .links snap key ps, hp⟩⟩
              | readLinks snap key => trivial
              | writeTag name tag v o => exact ⟨.tag name tag, rfl, rfl, j, _, hm, .tag name tag v o⟩
              | readTag name tag => trivial
              | writeGraph name fp v => exact ⟨.graph name fp, rfl, rfl, j, _, hm, .graph name fp v⟩
              | readGraph name fp => trivial
              | writeSnapshot name fp v =>
                exact ⟨.snapshot name fp, rfl, rfl, j, _, hm, .snapshot name fp v⟩
              | readSnapshot name fp => trivial
          · obtain ⟨h1, w0, h2, h3⟩ := h.cur j u c' n p hu hcur
            refine ⟨by simp; omega, w0, ?_, h3.mono hext⟩
            rw [htake _ _ h1]; exact h2
        · intro j i' c' n r hl
          by_cases hj : j < s.log.length
          · exact hrets _ j i' c' n r hj hl
          · have := (hlast _ j _ hl hj).2
            cases this
    | some cur =>
      obtain ⟨c, n, p⟩ := cur
      obtain ⟨hn, w0, hb, hsafe⟩ := h.cur i t c n p ht hc
      cases p with
      | ret r =>
        simp only
        have hpost : Post kn w0 c r (worldOf pre s.log s.heap) :=
          hsafe _ (Ext.refl _) h.good
        have hsub : ∀ e ∈ s.log, e ∈ s.log ++ [.returned i c n r] :=
          fun e he => List.mem_append_left _ he
        have hext := ext_log (pre := pre) hsub s.heap
        refine ⟨good_log h.good hsub, ⟨?_, ?_⟩, ?_, ?_⟩
        · rintro x q hq p (hp | ⟨i', c', n', ps, h1, h2, h3⟩)
          · exact h.before.sets x q hq p (.inl hp)
          · rcases List.mem_append.1 h1 with h1 | h1
            · exact h.before.sets x q hq p (.inr ⟨i', c', n', ps, h1, h2, h3⟩)
            · simp only [List.mem_singleton, Ev.returned.injEq] at h1
              obtain ⟨-, rfl, -, -⟩ := h1
              exact (hpost.writes x ps h2).2 q hq p h3
        · rintro y q hq (hp | ⟨i', c', n', v, h1, h2⟩)
          · exact h.before.places y q hq (.inl hp)
          · rcases List.mem_append.1 h1 with h1 | h1
            · exact h.before.places y q hq (.inr ⟨i', c', n', v, h1, h2⟩)
            · simp only [List.mem_singleton, Ev.returned.injEq] at h1
              obtain ⟨-, rfl, -, rfl⟩ := h1
              rcases hpost.puts _ _ h2 with ⟨-, h3⟩ | ⟨h3, -⟩
              · exact h3 q hq
              · cases h3
        · intro j u c' n' p hu hcur
          rcases hset _ j u hu with ⟨rfl, rfl⟩ | hu
          · cases hcur
          · obtain ⟨h1, w0', h2, h3⟩ := h.cur j u c' n' p hu hcur
            refine ⟨by simp; omega, w0', ?_, h3.mono hext⟩
            rw [htake _ _ h1]; exact h2
        · intro j i' c' n' r' hl
          by_cases hj : j < s.log.length
          · exact hrets _ j i' c' n' r' hj hl
          · obtain ⟨rfl, he⟩ := hlast _ j _ hl hj
            cases he
            refine ⟨hn, w0, worldOf pre s.log s.heap, ?_, ?_, ?_, hpost⟩
            · rw [htake _ _ hn]; exact hb
            · rw [htake _ _ (Nat.le_refl _), List.take_length]; rfl
            · rw [htake _ _ (Nat.le_refl _), List.take_length]; rfl
      | act f k =>
        simp only
        obtain ⟨hf, hs⟩ := hsafe _ (Ext.refl _) h.good
        have hext : Ext (worldOf pre s.log s.heap) (worldOf pre s.log (f s.heap)) := hf.2
        refine ⟨hf.1, h.before.ext hext, ?_, h.rets⟩
        intro j u c' n' p hu hcur
        rcases hset _ j u hu with ⟨rfl, rfl⟩ | hu
        · simp only [Option.some.injEq, Prod.mk.injEq] at hcur
          obtain ⟨rfl, rfl, rfl⟩ := hcur
          exact ⟨hn, w0, hb, hs⟩
        · obtain ⟨h1, w0', h2, h3⟩ := h.cur j u c' n' p hu hcur
          exact ⟨h1, w0', h2, h3.mono hext⟩

theorem ThreadInv.run {kn : Nat → K → Option Nat} {pre : List (Ev K P V)} {h0 : Heap K P V} (schedule : List Nat) :
    ∀ {s : Sys K P V}, ThreadInv kn pre h0 s → ThreadInv kn pre h0 (run s schedule) := by
  induction schedule with
  | nil => exact fun h => h
  | cons i is ih => exact fun h => ih (h.step i)

theorem ThreadInv.start {kn : Nat → K → Option Nat} {pre : List (Ev K P V)} {h0 : Heap K P V}
    (hg : Good kn (worldOf pre [] h0)) (calls : List (List (Call K P V))) :
    ThreadInv kn pre h0 (start h0 calls) := by
  refine ⟨hg, ⟨?_, ?_⟩, ?_, ?_⟩
  · rintro x q _ p (hp | ⟨i, c, n, ps, h1, -⟩)
    · exact hp
    · cases h1
  · rintro y q _ (hp | ⟨i, c, n, v, h1, -⟩)
    · exact hp
    · cases h1
  · intro i t c n p ht hc
    simp only [Thr.start, List.getElem?_map, Option.map_eq_some_iff] at ht
    obtain ⟨cs, -, rfl⟩ := ht
    cases hc
  · intro j i c n r h
    cases h

theorem good_fresh : Good (fun _ _ => none) (worldOf [] [] (fresh : Heap K P V)) := by
  have hcell : ∀ (r : Nat) (c : Cell K P V), (fresh : Heap K P V)[r]? = some c →
      c = ⟨(r, []), .dict []⟩ ∧ r < 5 := by
    intro r c h
    match r, h with
    | 0, h => simp [fresh] at h; exact ⟨h.symm, by omega⟩
    | 1, h => simp [fresh] at h; exact ⟨h.symm, by omega⟩
    | 2, h => simp [fresh] at h; exact ⟨h.symm, by omega⟩
    | 3, h => simp [fresh] at h; exact ⟨h.symm, by omega⟩
    | 4, h => simp [fresh] at h; exact ⟨h.symm, by omega⟩
    | n + 5, h => simp [fresh] at h
  refine ⟨?_, ?_, ?_, ?_, ?_, ?_⟩
  · intro r c h
    obtain ⟨rfl, hr⟩ := hcell r c h
    match r, hr with
    | 0, _ => rfl
    | 1, _ => rfl
    | 2, _ => rfl
    | 3, _ => rfl
    | 4, _ => rfl
  · intro r k r' he
    exfalso
    change entry fresh r k = some r' at he
    unfold entry at he
    cases h : (fresh : Heap K P V)[r]? with
    | none => rw [h] at he; cases he
    | some c => rw [h, (hcell r c h).1] at he; cases he
  · intro i hi
    match i, hi with
    | 0, _ => exact ⟨_, rfl, rfl⟩
    | 1, _ => exact ⟨_, rfl, rfl⟩
    | 2, _ => exact ⟨_, rfl, rfl⟩
    | 3, _ => exact ⟨_, rfl, rfl⟩
    | 4, _ => exact ⟨_, rfl, rfl⟩
  · intro r k r' h; cases h
  · intro r c p h hp
    exfalso
    change p ∈ elems fresh r at hp
    unfold elems at hp
    rw [show (fresh : Heap K P V)[r]? = some c from h, (hcell r c h).1] at hp
    cases hp
  · intro r c t v h hp
    exfalso
    change value fresh r t = some v at hp
    unfold value at hp
    rw [show (fresh : Heap K P V)[r]? = some c from h, (hcell r c h).1] at hp
    cases hp

theorem Good.known_all {kn : Nat → K → Option Nat} {w : World K P V} (h : Good kn w) :
    Good (entry w.h) w := ⟨h.kinds, h.edges, h.roots, fun _ _ _ h => h, h.elems, h.vals⟩

/-- Threads on a container that other threads, which are done, left behind. -/
theorem inv_two {calls1 calls2 : List (List (Call K P V))} {sched1 sched2 : List Nat}
    {s1 s2 : Sys K P V} (h1 : run (start fresh calls1) sched1 = s1)
    (h2 : run (start s1.heap calls2) sched2 = s2) : ThreadInv (entry s1.heap) s1.log s1.heap s2 := by
  have hi1 : ThreadInv (fun _ _ => none) [] fresh s1 := h1 ▸ (ThreadInv.start good_fresh calls1).run sched1
  have hg : Good (entry s1.heap) (worldOf s1.log [] s1.heap) := by
    have := hi1.good.known_all
    unfold worldOf at this ⊢
    simpa using this
  exact h2 ▸ (ThreadInv.start hg calls2).run sched2

theorem knownRef_iff (h : Heap K P V) (x : Slot K) : contents h x = (knownRef (entry h) x).map (elems h) := by
  cases x <;> rfl

end Arti.Thr
