import Verif.Lemmas.TypeSystem

/-!
# C47: conversions pick the matching adapter of the highest priority

`convert` is the common shape of `TypeSystem.to_artigraph` and `TypeSystem.to_system`; `run` is the
conversion by a root system.
-/

namespace Arti.Props
open Arti Typ Spec
variable {X Y : Type}

/-- C47: the adapter with the highest priority among those that match, the first registered among
equals, does the conversion; whatever it returns or raises is the result. -/
theorem C47_highest_priority_match_converts {ts : TypeSystem X Y} {n : Nat} {x : X} {h : Hints}
    {a : Adapter X Y} (hd : Decided (adaptersOf ts) x h) (hw : Winner (adaptersOf ts) x h a) :
    run ts (n + 1) x h = a.convert (run ts n) x h :=
  convert_winner hd hw

/-- C47: ... and there is exactly one such adapter as soon as one matches. -/
theorem C47_one_winner {as : List (Adapter X Y)} {x : X} {h : Hints} (hd : Decided as x h)
    {a : Adapter X Y} (ha : a ∈ as) (hat : a.accepts x h = .ok true) :
    ∃ b, Winner as x h b ∧ ∀ c, Winner as x h c → c = b := by
  obtain ⟨b, hb⟩ := exists_winner hd ha hat
  exact ⟨b, hb, fun c hc => winner_unique hc hb⟩

/-- C47: extended systems are consulted only if no adapter of the system matches; then the result is
that of the first of them that does not raise `NotImplementedError`, and it is an error if there is
none. -/
theorem C47_extended_systems_only_without_match {ts : TypeSystem X Y} {n : Nat} {x : X} {h : Hints}
    (hn : ∀ a ∈ adaptersOf ts, a.accepts x h = .ok false) :
    (run ts (n + 1) x h = .error .notImplemented ∧
      ∀ t ∈ extendsOf ts, convert (run ts n) t x h = .error .notImplemented) ∨
    ∃ before t after, extendsOf ts = before ++ t :: after ∧
      (∀ t' ∈ before, convert (run ts n) t' x h = .error .notImplemented) ∧
      convert (run ts n) t x h ≠ .error .notImplemented ∧
      run ts (n + 1) x h = convert (run ts n) t x h := by
  rw [run, convert_ext hn]
  exact convertExt_cases _

/-- C47: what a matching adapter of the system returns does not depend on the extended systems. -/
theorem C47_extended_systems_are_not_consulted_on_match {key : Str}
    {adapters : PyDict Str (Adapter X Y)} {ext ext' : List (TypeSystem X Y)} {x : X} {h : Hints}
    {root : X → Hints → Except Err Y} (hd : Decided (adapters.map Prod.snd) x h)
    (hm : ∃ a ∈ adapters.map Prod.snd, a.accepts x h = .ok true) :
    convert root (.mk key adapters ext) x h = convert root (.mk key adapters ext') x h := by
  obtain ⟨a, ha, hat⟩ := hm
  obtain ⟨b, hb⟩ := exists_winner hd ha hat
  rw [convert_winner (ts := .mk key adapters ext) hd hb,
    convert_winner (ts := .mk key adapters ext') hd hb]

mutual
theorem convert_none {root : X → Hints → Except Err Y} {x : X} {h : Hints} :
    ∀ (ts : TypeSystem X Y), (∀ t, Within t ts → ∀ a ∈ adaptersOf t, a.accepts x h = .ok false) →
      convert root ts x h = .error .notImplemented
  | .mk key adapters ext, hn => by
    rw [convert_ext (hn _ (.refl _))]
    exact convertExt_none ext fun t ht t' hw a ha => hn t' (.ext ht hw) a ha
theorem convertExt_none {root : X → Hints → Except Err Y} {x : X} {h : Hints} :
    ∀ (l : List (TypeSystem X Y)),
      (∀ ts ∈ l, ∀ t, Within t ts → ∀ a ∈ adaptersOf t, a.accepts x h = .ok false) →
      convertExt root l x h = .error .notImplemented
  | [], _ => by rw [convertExt]
  | ts :: rest, hn => by
    rw [convertExt, convert_none ts (hn ts List.mem_cons_self)]
    exact convertExt_none rest fun t ht => hn t (List.mem_cons_of_mem _ ht)
end

/-- C47: if no adapter matches anywhere, the conversion raises `NotImplementedError`. -/
theorem C47_no_match_raises {ts : TypeSystem X Y} {n : Nat} {x : X} {h : Hints}
    (hd : ∀ t, Within t ts → Decided (adaptersOf t) x h) (hn : ¬ MatchesAnywhere ts x h) :
    run ts (n + 1) x h = .error .notImplemented := by
  refine convert_none ts fun t hw a ha => ?_
  obtain ⟨b, hb⟩ := hd t hw a ha
  cases b with
  | false => exact hb
  | true => exact absurd ⟨t, hw, a, ha, hb⟩ hn

mutual
theorem convert_some {root : X → Hints → Except Err Y} {x : X} {h : Hints} :
    ∀ (ts : TypeSystem X Y), (∀ t, Within t ts → Decided (adaptersOf t) x h) →
      (∀ t, Within t ts → ∀ a ∈ adaptersOf t, a.accepts x h = .ok true →
        a.convert root x h ≠ .error .notImplemented) →
      MatchesAnywhere ts x h → convert root ts x h ≠ .error .notImplemented
  | .mk key adapters ext, hd, hc, hm => by
    have hd0 := hd _ (.refl _)
    by_cases hloc : ∃ a ∈ adaptersOf (.mk key adapters ext), a.accepts x h = .ok true
    · obtain ⟨a, ha, hat⟩ := hloc
      obtain ⟨b, hb⟩ := exists_winner hd0 ha hat
      rw [convert_winner hd0 hb]
      obtain ⟨p, q, he, hbt, _, _⟩ := hb
      exact hc _ (.refl _) b (by rw [he]; simp) hbt
    · have hn : ∀ a ∈ adaptersOf (.mk key adapters ext), a.accepts x h = .ok false := by
        intro a ha
        obtain ⟨b, hb⟩ := hd0 a ha
        cases b with
        | false => exact hb
        | true => exact absurd ⟨a, ha, hb⟩ hloc
      rw [convert_ext hn]
      apply convertExt_some ext (fun t ht t' hw => hd t' (.ext ht hw))
        (fun t ht t' hw => hc t' (.ext ht hw))
      obtain ⟨t, hw, a, ha, hat⟩ := hm
      cases hw with
      | refl => rw [hn a ha] at hat; simp at hat
      | ext hm hw => exact ⟨_, hm, _, hw, a, ha, hat⟩
theorem convertExt_some {root : X → Hints → Except Err Y} {x : X} {h : Hints} :
    ∀ (l : List (TypeSystem X Y)), (∀ ts ∈ l, ∀ t, Within t ts → Decided (adaptersOf t) x h) →
      (∀ ts ∈ l, ∀ t, Within t ts → ∀ a ∈ adaptersOf t, a.accepts x h = .ok true →
        a.convert root x h ≠ .error .notImplemented) →
      (∃ ts ∈ l, MatchesAnywhere ts x h) → convertExt root l x h ≠ .error .notImplemented
  | [], _, _, hm => by obtain ⟨_, hm, _⟩ := hm; cases hm
  | ts :: rest, hd, hc, hm => by
    rw [convertExt]
    split
    · rename_i heq
      have hnot : ¬ MatchesAnywhere ts x h := fun hm' =>
        convert_some ts (hd ts List.mem_cons_self) (hc ts List.mem_cons_self) hm' heq
      obtain ⟨t, ht, hm⟩ := hm
      rcases List.mem_cons.1 ht with rfl | ht
      · exact absurd hm hnot
      · exact convertExt_some rest (fun t ht => hd t (List.mem_cons_of_mem _ ht))
          (fun t ht => hc t (List.mem_cons_of_mem _ ht)) ⟨t, ht, hm⟩
    · rename_i hne; exact fun h => hne h
end

/-- C47: if the adapters that match do not themselves raise `NotImplementedError`, then the
conversion raises it iff no adapter matches anywhere.  (Without that hypothesis the "only if" part is
false: see `C47_violated_by_nested_types` in `Verif.Props.PythonTypes`.) -/
theorem C47_raises_iff_no_match_partial {ts : TypeSystem X Y} {n : Nat} {x : X} {h : Hints}
    (hd : ∀ t, Within t ts → Decided (adaptersOf t) x h)
    (hc : ∀ t, Within t ts → ∀ a ∈ adaptersOf t, a.accepts x h = .ok true →
      a.convert (run ts n) x h ≠ .error .notImplemented) :
    run ts (n + 1) x h = .error .notImplemented ↔ ¬ MatchesAnywhere ts x h :=
  ⟨fun he hm => convert_some ts hd hc hm he, C47_no_match_raises hd⟩

/-- The registry after registering adapters with distinct keys is the list of them in order. -/
theorem registerAdapters_ok {key : Str} {ext : List (TypeSystem X Y)} :
    ∀ (as : List (Adapter X Y)) (d : PyDict Str (Adapter X Y)),
      ((d.map Prod.fst) ++ as.map Adapter.key).Nodup →
      registerAdapters (.mk key d ext) as = .ok (.mk key (d ++ as.map fun a => (a.key, a)) ext)
  | [], d, _ => by simp [registerAdapters]
  | a :: as, d, hn => by
    have hget : ∀ (d : PyDict Str (Adapter X Y)), a.key ∉ d.map Prod.fst →
        PyDict.get? d a.key = none ∧ PyDict.set d a.key a = d ++ [(a.key, a)] := by
      intro d
      induction d with
      | nil => intro _; simp [PyDict.get?, PyDict.set]
      | cons p d ih =>
        intro hm
        simp only [List.map_cons, List.mem_cons, not_or] at hm
        have := ih hm.2
        simp [PyDict.get?, PyDict.set, Ne.symm hm.1, this.1, this.2]
    have hm : a.key ∉ d.map Prod.fst := by
      intro hm
      exact (List.nodup_append.1 hn).2.2 _ hm _ (by simp) rfl
    obtain ⟨h1, h2⟩ := hget d hm
    have hreg : registerAdapter (.mk key d ext) a = .ok (.mk key (d ++ [(a.key, a)]) ext) := by
      simp [registerAdapter, register, h1, h2, bind, Except.bind, pure, Except.pure]
    rw [registerAdapters, hreg]
    simp only [bind, Except.bind]
    rw [registerAdapters_ok as _ (by simpa using hn)]
    simp

/-- C47: adapters registered with distinct keys are kept in registration order, so "the first
registered among equals" refers to the order of the `register_adapter` calls. -/
theorem C47_registration_order {key : Str} {ext : List (TypeSystem X Y)} (as : List (Adapter X Y))
    (hn : (as.map Adapter.key).Nodup) :
    ∃ ts, registerAdapters (.mk key [] ext) as = .ok ts ∧ adaptersOf ts = as ∧ extendsOf ts = ext := by
  refine ⟨_, registerAdapters_ok as [] (by simpa using hn), ?_, rfl⟩
  simp [adaptersOf, Function.comp_def]

theorem registerAdapters_nodup {key : Str} {ext : List (TypeSystem X Y)} :
    ∀ (as : List (Adapter X Y)) (d : PyDict Str (Adapter X Y)) (ts : TypeSystem X Y),
      (d.map Prod.fst).Nodup → registerAdapters (.mk key d ext) as = .ok ts →
      ((d.map Prod.fst) ++ as.map Adapter.key).Nodup
  | [], d, _, hd, _ => by simpa using hd
  | a :: as, d, ts, hd, h => by
    have hset : ∀ (d : PyDict Str (Adapter X Y)), PyDict.get? d a.key = none →
        a.key ∉ d.map Prod.fst ∧ PyDict.set d a.key a = d ++ [(a.key, a)] := by
      intro d
      induction d with
      | nil => intro _; simp [PyDict.set]
      | cons p d ih =>
        intro hm
        simp only [PyDict.get?] at hm
        split at hm
        · cases hm
        · rename_i hne
          have := ih hm
          have hne' : ¬ a.key = p.1 := fun e => hne e.symm
          simp only [List.map_cons, List.mem_cons, not_or, PyDict.set, hne, if_false, this.2]
          exact ⟨⟨hne', this.1⟩, rfl⟩
    cases hg : PyDict.get? d a.key with
    | some b =>
      simp [registerAdapters, registerAdapter, register, hg, bind, Except.bind] at h
    | none =>
      obtain ⟨h1, h2⟩ := hset d hg
      simp only [registerAdapters, registerAdapter, register, hg, h2, bind, Except.bind, pure,
        Except.pure] at h
      have := registerAdapters_nodup as (d ++ [(a.key, a)]) ts
        (by
          rw [List.map_append, List.nodup_append]
          refine ⟨hd, by simp, ?_⟩
          intro x hx y hy e
          simp only [List.map_cons, List.map_nil, List.mem_singleton] at hy
          exact h1 (by rw [← hy, ← e]; exact hx)) h
      simpa using this

/-- C47: a list of adapters can be registered exactly if no two of them have the same key; a second
adapter with a key that is taken is refused and never replaces the first, whatever its priority. -/
theorem C47_registered_iff_distinct_keys {key : Str} {ext : List (TypeSystem X Y)}
    (as : List (Adapter X Y)) :
    (∃ ts, registerAdapters (.mk key [] ext) as = .ok ts) ↔ (as.map Adapter.key).Nodup := by
  constructor
  · rintro ⟨ts, h⟩
    simpa using registerAdapters_nodup as [] ts (by simp) h
  · intro hn
    obtain ⟨ts, h, _⟩ := C47_registration_order (key := key) (ext := ext) as hn
    exact ⟨ts, h⟩

/-! ## A case that meets the hypotheses -/

/-- A small system: two adapters of equal priority that match even numbers, a third one with a
lower priority that matches everything. -/
def sampleAdapter (k : Char) (p : Int) (accepts : Nat → Bool) : Adapter Nat Char where
  key := [k]
  priority := p
  accepts x _ := .ok (accepts x)
  convert _ _ _ := .ok k

example :
    let ts : TypeSystem Nat Char := .mk [] (["c", "a", "b"].map fun s => (s.toList,
      if s = "c" then sampleAdapter 'c' 0 (fun _ => true)
      else if s = "a" then sampleAdapter 'a' 5 (fun x => x % 2 = 0)
      else sampleAdapter 'b' 5 (fun x => x % 2 = 0))) []
    Decided (adaptersOf ts) 4 [] ∧
    Winner (adaptersOf ts) 4 [] (sampleAdapter 'a' 5 fun x => x % 2 = 0) ∧
    run ts 1 4 [] = .ok 'a' ∧ run ts 1 3 [] = .ok 'c' := by
  refine ⟨?_, ?_, ?_, ?_⟩
  · simp [Decided, adaptersOf, sampleAdapter]
  · refine ⟨[sampleAdapter 'c' 0 fun _ => true], [sampleAdapter 'b' 5 fun x => x % 2 = 0], ?_, ?_, ?_, ?_⟩ <;>
      simp [adaptersOf, sampleAdapter]
  · simp [run, convert, sortByPriority, insertByPriority, firstMatch, sampleAdapter]
  · simp [run, convert, sortByPriority, insertByPriority, firstMatch, sampleAdapter]

end Arti.Props
