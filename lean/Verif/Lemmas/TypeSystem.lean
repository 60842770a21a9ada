import Verif.Spec.TypeSystem

/-!
# Lemmas about the type system dispatcher
-/

namespace Arti
namespace Typ
open Spec
variable {X Y : Type}

theorem mem_insertByPriority {a b : Adapter X Y} {as : List (Adapter X Y)} :
    b ∈ insertByPriority a as ↔ b = a ∨ b ∈ as := by
  induction as with
  | nil => simp [insertByPriority]
  | cons c cs ih =>
    simp only [insertByPriority]
    split
    · simp
    · simp only [List.mem_cons, ih]
      constructor
      · rintro (h | h | h) <;> simp [h]
      · rintro (h | h | h) <;> simp [h]

theorem mem_sortByPriority {b : Adapter X Y} {as : List (Adapter X Y)} :
    b ∈ sortByPriority as ↔ b ∈ as := by
  induction as with
  | nil => simp [sortByPriority]
  | cons c cs ih => simp [sortByPriority, mem_insertByPriority, ih]

/-- `firstMatch` on a list whose members all answer. -/
theorem firstMatch_none {as : List (Adapter X Y)} {x : X} {h : Hints}
    (hn : ∀ a ∈ as, a.accepts x h = .ok false) : firstMatch as x h = .ok none := by
  induction as with
  | nil => rfl
  | cons a as ih =>
    simp only [firstMatch, hn a List.mem_cons_self]
    exact ih fun b hb => hn b (List.mem_cons_of_mem _ hb)

theorem firstMatch_insert {a : Adapter X Y} {as : List (Adapter X Y)} {x : X} {h : Hints}
    (hf : a.accepts x h = .ok false) : firstMatch (insertByPriority a as) x h = firstMatch as x h := by
  induction as with
  | nil => simp [insertByPriority, firstMatch, hf]
  | cons b bs ih =>
    simp only [insertByPriority]
    split
    · simp [firstMatch, hf]
    · simp [firstMatch, ih]

/-- Inserting a matching adapter in a list whose first match is `b`: the new one is found unless
`b` has a higher priority; provided the list is sorted. -/
theorem firstMatch_insert_true {a : Adapter X Y} {as : List (Adapter X Y)} {x : X} {h : Hints}
    (ht : a.accepts x h = .ok true) (hd : Decided as x h)
    (hs : as.Pairwise fun b c => c.priority ≤ b.priority) :
    firstMatch (insertByPriority a as) x h = .ok (some a) ∨
    ∃ b, firstMatch as x h = .ok (some b) ∧ a.priority < b.priority ∧
      firstMatch (insertByPriority a as) x h = .ok (some b) := by
  induction as with
  | nil => left; simp [insertByPriority, firstMatch, ht]
  | cons b bs ih =>
    simp only [insertByPriority]
    split
    · left; simp [firstMatch, ht]
    · rename_i hlt
      obtain ⟨v, hv⟩ := hd b List.mem_cons_self
      cases v with
      | true =>
        right
        exact ⟨b, by simp [firstMatch, hv], by omega, by simp [firstMatch, hv]⟩
      | false =>
        rcases ih (fun c hc => hd c (List.mem_cons_of_mem _ hc)) (List.pairwise_cons.1 hs).2 with h1 | ⟨c, h1, h2, h3⟩
        · left; simp [firstMatch, hv, h1]
        · right; exact ⟨c, by simp [firstMatch, hv, h1], h2, by simp [firstMatch, hv, h3]⟩

theorem pairwise_insert {a : Adapter X Y} {as : List (Adapter X Y)}
    (hs : as.Pairwise fun b c => c.priority ≤ b.priority) :
    (insertByPriority a as).Pairwise fun b c => c.priority ≤ b.priority := by
  induction as with
  | nil => simp [insertByPriority]
  | cons b bs ih =>
    have hs' := List.pairwise_cons.1 hs
    simp only [insertByPriority]
    split
    · rename_i hle
      refine List.pairwise_cons.2 ⟨?_, hs⟩
      intro c hc
      rcases List.mem_cons.1 hc with rfl | hc
      · exact hle
      · have := hs'.1 c hc; omega
    · rename_i hlt
      refine List.pairwise_cons.2 ⟨?_, ih hs'.2⟩
      intro c hc
      rcases mem_insertByPriority.1 hc with rfl | hc
      · omega
      · exact hs'.1 c hc

theorem pairwise_sort (as : List (Adapter X Y)) :
    (sortByPriority as).Pairwise fun b c => c.priority ≤ b.priority := by
  induction as with
  | nil => simp [sortByPriority]
  | cons a as ih => exact pairwise_insert ih

theorem decided_sort {as : List (Adapter X Y)} {x : X} {h : Hints} (hd : Decided as x h) :
    Decided (sortByPriority as) x h := fun a ha => hd a (mem_sortByPriority.1 ha)

/-- With deciding adapters, the loop over the sorted adapters finds the winner, or nothing if
nothing matches. -/
theorem firstMatch_sort {as : List (Adapter X Y)} {x : X} {h : Hints} (hd : Decided as x h) :
    (∃ a, firstMatch (sortByPriority as) x h = .ok (some a) ∧ Winner as x h a) ∨
    (firstMatch (sortByPriority as) x h = .ok none ∧ ∀ a ∈ as, a.accepts x h = .ok false) := by
  induction as with
  | nil => right; simp [sortByPriority, firstMatch]
  | cons a as ih =>
    have hd' : Decided as x h := fun b hb => hd b (List.mem_cons_of_mem _ hb)
    obtain ⟨v, hv⟩ := hd a List.mem_cons_self
    simp only [sortByPriority]
    cases v with
    | false =>
      rw [firstMatch_insert hv]
      rcases ih hd' with ⟨b, hb, pre, post, rfl, ht, h1, h2⟩ | ⟨hb, hall⟩
      · left
        refine ⟨b, hb, a :: pre, post, rfl, ht, ?_, h2⟩
        intro c hc hct
        rcases List.mem_cons.1 hc with rfl | hc
        · rw [hv] at hct; simp at hct
        · exact h1 c hc hct
      · right
        refine ⟨hb, ?_⟩
        intro c hc
        rcases List.mem_cons.1 hc with rfl | hc
        · exact hv
        · exact hall c hc
    | true =>
      left
      rcases firstMatch_insert_true hv (decided_sort hd') (pairwise_sort as) with h1 | ⟨b, h1, h2, h3⟩
      · refine ⟨a, h1, [], as, rfl, hv, by simp, ?_⟩
        intro c hc hct
        -- `a` was found although `c` matches
        rcases ih hd' with ⟨b, hb, pre, post, rfl, ht, h1', h2'⟩ | ⟨_, hall⟩
        · have hle : b.priority ≤ a.priority := by
            rcases Int.lt_or_le a.priority b.priority with hlt | hle
            · exfalso
              -- then `b` would have been found
              have : firstMatch (insertByPriority a (sortByPriority (pre ++ b :: post))) x h = .ok (some b) := by
                clear h1 h1' h2' ht hc hct ih
                have hs := pairwise_sort (pre ++ b :: post)
                revert hb hs
                generalize sortByPriority (pre ++ b :: post) = l
                intro hb hs
                induction l with
                | nil => simp [firstMatch] at hb
                | cons d ds ihd =>
                  have hs' := List.pairwise_cons.1 hs
                  simp only [firstMatch] at hb
                  have hda : ¬ d.priority ≤ a.priority := by
                    cases hacc : d.accepts x h with
                    | error e => rw [hacc] at hb; simp at hb
                    | ok v =>
                      rw [hacc] at hb
                      cases v with
                      | true => simp at hb; subst hb; omega
                      | false =>
                        simp only at hb
                        have hm : ∀ (l : List (Adapter X Y)), firstMatch l x h = .ok (some b) → b ∈ l := by
                          intro l
                          induction l with
                          | nil => intro h; simp [firstMatch] at h
                          | cons e es ihe =>
                            intro h'
                            simp only [firstMatch] at h'
                            cases hacc' : e.accepts x h with
                            | error _ => rw [hacc'] at h'; simp at h'
                            | ok v =>
                              rw [hacc'] at h'
                              cases v with
                              | true => simp at h'; simp [h']
                              | false => exact List.mem_cons_of_mem _ (ihe h')
                        have := hs'.1 b (hm ds hb)
                        omega
                  simp only [insertByPriority, if_neg hda, firstMatch]
                  cases hacc : d.accepts x h with
                  | error e => rw [hacc] at hb; simp at hb
                  | ok v =>
                    rw [hacc] at hb
                    cases v with
                    | true => simpa using hb
                    | false => exact ihd hb hs'.2
              rw [h1] at this
              simp only [Except.ok.injEq, Option.some.injEq] at this
              subst this
              omega
            · exact hle
          rcases List.mem_append.1 hc with hc | hc
          · have := h1' c hc hct; omega
          · rcases List.mem_cons.1 hc with rfl | hc
            · exact hle
            · have := h2' c hc hct; omega
        · rw [hall c hc] at hct; simp at hct
      · rcases ih hd' with ⟨b', hb, pre, post, rfl, ht, h1', h2'⟩ | ⟨hnone, _⟩
        · rw [h1] at hb
          simp only [Except.ok.injEq, Option.some.injEq] at hb
          subst hb
          refine ⟨b, h3, a :: pre, post, rfl, ht, ?_, h2'⟩
          intro c hc hct
          rcases List.mem_cons.1 hc with rfl | hc
          · exact h2
          · exact h1' c hc hct
        · rw [h1] at hnone; simp at hnone

end Typ
end Arti

namespace Arti
namespace Typ
open Spec
variable {X Y : Type}

/-- There is at most one winner. -/
theorem winner_unique {as : List (Adapter X Y)} {x : X} {h : Hints} {a b : Adapter X Y}
    (ha : Winner as x h a) (hb : Winner as x h b) : a = b := by
  obtain ⟨p, q, rfl, hat, ha1, ha2⟩ := ha
  obtain ⟨p', q', he, hbt, hb1, hb2⟩ := hb
  rcases List.append_eq_append_iff.1 he with ⟨l, h1, h2⟩ | ⟨l, h1, h2⟩
  · cases l with
    | nil => simp at h2; exact h2.1
    | cons c cs =>
      simp only [List.cons_append, List.cons.injEq] at h2
      obtain ⟨rfl, rfl⟩ := h2
      have h3 := hb1 a (by rw [h1]; simp) hat
      have h4 := ha2 b (by simp) hbt
      omega
  · cases l with
    | nil => simp at h2; exact h2.1.symm
    | cons c cs =>
      simp only [List.cons_append, List.cons.injEq] at h2
      obtain ⟨rfl, rfl⟩ := h2
      have h3 := ha1 b (by rw [h1]; simp) hbt
      have h4 := hb2 a (by simp) hat
      omega

theorem convert_winner {ts : TypeSystem X Y} {root : X → Hints → Except Err Y} {x : X} {h : Hints}
    {a : Adapter X Y} (hd : Decided (adaptersOf ts) x h) (hw : Winner (adaptersOf ts) x h a) :
    convert root ts x h = a.convert root x h := by
  cases ts with
  | mk key adapters ext =>
    simp only [adaptersOf] at hd hw
    rw [convert]
    rcases firstMatch_sort hd with ⟨b, hb, hwb⟩ | ⟨_, hall⟩
    · rw [hb, winner_unique hw hwb]
    · obtain ⟨p, q, he, hat, _, _⟩ := hw
      rw [hall a (by rw [he]; simp)] at hat
      simp at hat

theorem convert_ext {ts : TypeSystem X Y} {root : X → Hints → Except Err Y} {x : X} {h : Hints}
    (hn : ∀ a ∈ adaptersOf ts, a.accepts x h = .ok false) :
    convert root ts x h = convertExt root (extendsOf ts) x h := by
  cases ts with
  | mk key adapters ext =>
    simp only [adaptersOf] at hn
    rw [convert, firstMatch_none (fun a ha => hn a (mem_sortByPriority.1 ha))]
    rfl

theorem exists_winner {as : List (Adapter X Y)} {x : X} {h : Hints} (hd : Decided as x h)
    {a : Adapter X Y} (ha : a ∈ as) (hat : a.accepts x h = .ok true) : ∃ b, Winner as x h b := by
  rcases firstMatch_sort hd with ⟨b, _, hb⟩ | ⟨_, hall⟩
  · exact ⟨b, hb⟩
  · rw [hall a ha] at hat; simp at hat

/-- The loop over `extends`. -/
theorem convertExt_cases {root : X → Hints → Except Err Y} {x : X} {h : Hints} :
    ∀ (l : List (TypeSystem X Y)),
    (convertExt root l x h = .error .notImplemented ∧
      ∀ ts ∈ l, convert root ts x h = .error .notImplemented) ∨
    ∃ before ts after, l = before ++ ts :: after ∧
      (∀ t ∈ before, convert root t x h = .error .notImplemented) ∧
      convert root ts x h ≠ .error .notImplemented ∧
      convertExt root l x h = convert root ts x h
  | [] => by left; simp [convertExt]
  | ts :: rest => by
    by_cases hts : convert root ts x h = .error .notImplemented
    · have hstep : convertExt root (ts :: rest) x h = convertExt root rest x h := by
        rw [convertExt, hts]
      rw [hstep]
      rcases convertExt_cases rest with ⟨h1, h2⟩ | ⟨before, t, after, h1, h2, h3, h4⟩
      · left
        refine ⟨h1, ?_⟩
        intro t ht
        rcases List.mem_cons.1 ht with rfl | ht
        · exact hts
        · exact h2 t ht
      · right
        refine ⟨ts :: before, t, after, by rw [h1]; rfl, ?_, h3, h4⟩
        intro t' ht'
        rcases List.mem_cons.1 ht' with rfl | ht'
        · exact hts
        · exact h2 t' ht'
    · right
      refine ⟨[], ts, rest, rfl, by simp, hts, ?_⟩
      rw [convertExt]
      split
      · rename_i heq; exact absurd heq hts
      · rfl

end Typ
end Arti
