import Verif.Spec.Out
import Verif.Props.Views
import Verif.Lemmas.ProducerClass
import Verif.Props.Stable

/-!
# C58: producers take the artifacts that fit, and their outputs are bound by position
-/

namespace Arti.Props
open PyDict Views Out Spec

variable {env : Out.Env}

/-! ## Inputs -/

private theorem checkInput_iff {c : Out.Cls} {n : Str} {f : ArtCls} {a : Arti.Art} :
    checkInput env c n f a = .ok () ↔ (env.look a.info).cls.sub f = true ∧
      ∀ v, get? c.buildInputs n = some v → FitsView env.io v (env.look a.info) := by
  unfold checkInput
  by_cases h : (env.look a.info).cls.sub f = true
  · rw [if_pos h]
    cases hv : get? c.buildInputs n with
    | none => simp [h]
    | some v =>
      simp only [Option.some.injEq, forall_eq', h, true_and]
      exact C55_artifact_compatibility_iff
  · rw [if_neg h]; simp [h]

private theorem inputsOf_iff {c : Out.Cls} {kwargs : PyDict Str Arti.Art} {ins : Ins} :
    ∀ {fields : PyDict Str ArtCls}, Out.inputsOf env c kwargs fields = .ok ins ↔
      (ins.toList.map Prod.fst = keys fields) ∧
      (∀ n a, (n, a) ∈ ins.toList → get? kwargs n = some a) ∧
      ∀ n f, (n, f) ∈ fields → ∃ a, get? kwargs n = some a ∧
        (env.look a.info).cls.sub f = true ∧
        ∀ v, get? c.buildInputs n = some v → FitsView env.io v (env.look a.info) := by
  intro fields
  induction fields generalizing ins with
  | nil =>
    unfold Out.inputsOf
    cases ins <;> simp [Ins.toList, keys]
  | cons p fields ih =>
    obtain ⟨n, f⟩ := p
    unfold Out.inputsOf
    cases hk : get? kwargs n with
    | none =>
      simp only [reduceCtorEq, false_iff, not_and]
      intro _ _ h
      obtain ⟨a, h, -⟩ := h n f (.head _)
      rw [hk] at h; cases h
    | some a =>
      cases hc : checkInput env c n f a with
      | error e =>
        simp only [bind, Except.bind, hc, reduceCtorEq, false_iff, not_and]
        intro _ _ h
        obtain ⟨a', h1, h2⟩ := h n f (.head _)
        rw [hk] at h1
        obtain rfl := Option.some.inj h1
        rw [checkInput_iff.2 h2] at hc
        cases hc
      | ok u =>
        have hc' := checkInput_iff.1 hc
        simp only [bind, Except.bind, hc]
        cases hi : Out.inputsOf env c kwargs fields with
        | error e =>
          simp only [reduceCtorEq, false_iff, not_and]
          intro h1 h2 h3
          cases ins with
          | nil => simp [Ins.toList, keys] at h1
          | cons n' a' r =>
            have : Out.inputsOf env c kwargs fields = .ok r := ih.2 ⟨by
              simpa [Ins.toList, keys] using (List.cons.inj h1).2,
              fun m b hm => h2 m b (List.mem_cons_of_mem _ hm),
              fun m g hm => h3 m g (List.mem_cons_of_mem _ hm)⟩
            rw [hi] at this; cases this
        | ok r =>
          obtain ⟨g1, g2, g3⟩ := ih.1 hi
          simp only [Except.ok.injEq]
          constructor
          · rintro rfl
            refine ⟨by simpa [Ins.toList, keys] using g1, ?_, ?_⟩
            · intro m b hm
              simp only [Ins.toList, List.mem_cons, Prod.mk.injEq] at hm
              rcases hm with ⟨rfl, rfl⟩ | hm
              · exact hk
              · exact g2 m b hm
            · intro m g hm
              simp only [List.mem_cons, Prod.mk.injEq] at hm
              rcases hm with ⟨rfl, rfl⟩ | hm
              · exact ⟨a, hk, hc'⟩
              · exact g3 m g hm
          · rintro ⟨h1, h2, h3⟩
            cases ins with
            | nil => simp [Ins.toList, keys] at h1
            | cons n' a' r' =>
              have e1 : n' = n := (List.cons.inj h1).1
              have e2 := h2 n' a' (.head _)
              rw [e1, hk] at e2
              obtain rfl := Option.some.inj e2
              have : Out.inputsOf env c kwargs fields = .ok r' := ih.2 ⟨by
                simpa [Ins.toList, keys] using (List.cons.inj h1).2,
                fun m b hm => h2 m b (List.mem_cons_of_mem _ hm),
                fun m g hm => h3 m g (List.mem_cons_of_mem _ hm)⟩
              rw [hi] at this
              rw [e1, Except.ok.inj this]

/-- **C58**: a producer class can be called with exactly the artifacts that its inputs ask for: one
for every field and no others, each an instance of the class of the field and, if `build` reads it,
fitting the view that `build` reads it with.  The object has the given artifacts, in the order of
the fields. -/
theorem C58_accepted_inputs {c : Out.Cls} {version : Str} {kwargs : PyDict Str Arti.Art} {p : Pdr} :
    instantiate env c version kwargs = .ok p ↔
      (∀ n a, (n, a) ∈ kwargs → n ∈ keys c.fields) ∧
      (∀ n f, (n, f) ∈ c.fields → ∃ a, get? kwargs n = some a ∧
        (env.look a.info).cls.sub f = true ∧
        ∀ v, get? c.buildInputs n = some v → FitsView env.io v (env.look a.info)) ∧
      p.cls = c.key ∧ p.ver = version ∧ p.inputs.map Prod.fst = keys c.fields ∧
      ∀ n a, (n, a) ∈ p.inputs → get? kwargs n = some a := by
  unfold instantiate
  have hany : (kwargs.any fun (n, _) => !contains c.fields n) = false ↔
      ∀ n a, (n, a) ∈ kwargs → n ∈ keys c.fields := by
    simp only [List.any_eq_false, Prod.forall, Bool.not_eq_true', Bool.not_eq_false,
      PCls.contains_iff]
  cases h : kwargs.any fun (n, _) => !contains c.fields n with
  | true =>
    rw [if_pos rfl]
    simp only [reduceCtorEq, false_iff, not_and]
    intro h'
    rw [hany.2 h'] at h; cases h
  | false =>
    rw [if_neg (by simp)]
    obtain ⟨k, v, ins⟩ := p
    constructor
    · intro hp
      cases hi : Out.inputsOf env c kwargs c.fields with
      | error e => rw [hi] at hp; cases hp
      | ok r =>
        simp only [hi, bind, Except.bind, Except.ok.injEq, Pdr.mk.injEq] at hp
        obtain ⟨rfl, rfl, rfl⟩ := hp
        obtain ⟨h1, h2, h3⟩ := inputsOf_iff.1 hi
        exact ⟨hany.1 h, h3, rfl, rfl, h1, h2⟩
    · rintro ⟨-, h3, h4, h5, h1, h2⟩
      have : Out.inputsOf env c kwargs c.fields = .ok ins := inputsOf_iff.2 ⟨h1, h2, h3⟩
      simp only [this, bind, Except.bind, Except.ok.injEq, Pdr.mk.injEq]
      exact ⟨h4.symm, h5.symm, trivial⟩

/-! ## Outputs -/

private theorem validate_iff {p : Pdr} {v : View} {n : Nat} {a b : Arti.Art} :
    validate env p v n a = .ok b ↔
      FitsView env.io v (env.look a.info) ∧ a.out = none ∧ b.info = a.info ∧ b.out = some (p, n) := by
  unfold validate
  cases hc : checkArtifact env.io v (env.look a.info) with
  | error e =>
    simp only [bind, Except.bind, reduceCtorEq, false_iff, not_and]
    intro h
    rw [C55_artifact_compatibility_iff.2 h] at hc; cases hc
  | ok u =>
    have hf : FitsView env.io v (env.look a.info) := C55_artifact_compatibility_iff.1 hc
    simp only [bind, Except.bind, hf, true_and]
    cases a with
    | raw i =>
      cases b with
      | raw j => simp [Arti.Art.out]
      | made j q m =>
        simp only [Except.ok.injEq, Arti.Art.made.injEq, Arti.Art.out, Arti.Art.info, true_and,
          Option.some.injEq, Prod.mk.injEq]
        constructor <;> (rintro ⟨rfl, rfl, rfl⟩; exact ⟨rfl, rfl, rfl⟩)
    | made i q m => simp [Arti.Art.out]

private theorem validateAll_iff {p : Pdr} : ∀ {vs : List View} {as : List Arti.Art} {n : Nat}
    {bs : List Arti.Art}, vs.length = as.length → (validateAll env p n vs as = .ok bs ↔
      (∀ (j : Nat) (v : View) (a : Arti.Art), vs[j]? = some v → as[j]? = some a →
        FitsView env.io v (env.look a.info) ∧ a.out = none) ∧
      bs.length = as.length ∧
      ∀ (j : Nat) (a : Arti.Art), as[j]? = some a → ∃ b : Arti.Art, bs[j]? = some b ∧ b.info = a.info ∧ b.out = some (p, n + j)) := by
  intro vs
  induction vs with
  | nil =>
    intro as n bs hl
    cases as with
    | cons _ _ => simp at hl
    | nil => cases bs <;> simp [validateAll]
  | cons v vs ih =>
    intro as n bs hl
    cases as with
    | nil => simp at hl
    | cons a as =>
      have hl' : vs.length = as.length := by simpa using hl
      unfold validateAll
      have tail : ∀ {b0 : Arti.Art} {bs : List Arti.Art},
          (∀ (j : Nat) (v' : View) (a' : Arti.Art), (v :: vs)[j]? = some v' → (a :: as)[j]? = some a' →
            FitsView env.io v' (env.look a'.info) ∧ a'.out = none) →
          (b0 :: bs).length = (a :: as).length →
          (∀ (j : Nat) (a' : Arti.Art), (a :: as)[j]? = some a' → ∃ b, (b0 :: bs)[j]? = some b ∧ b.info = a'.info ∧
            b.out = some (p, n + j)) → validateAll env p (n + 1) vs as = .ok bs ∧
            validate env p v n a = .ok b0 := by
        intro b0 bs g1 g2 g3
        refine ⟨(ih hl').2 ⟨fun j v' a' h h' => g1 (j + 1) v' a' (by simpa using h) (by simpa using h'),
          by simpa using g2, fun j a' h => ?_⟩, ?_⟩
        · obtain ⟨b, h1, h2, h3⟩ := g3 (j + 1) a' (by simpa using h)
          exact ⟨b, by simpa using h1, h2, by rw [h3]; congr 2; omega⟩
        · obtain ⟨b, h1, h2, h3⟩ := g3 0 a rfl
          simp only [List.getElem?_cons_zero, Option.some.injEq] at h1
          subst h1
          obtain ⟨k1, k2⟩ := g1 0 v a rfl rfl
          exact validate_iff.2 ⟨k1, k2, h2, h3⟩
      constructor
      · intro h
        cases hv : validate env p v n a with
        | error e => simp [hv, bind, Except.bind] at h
        | ok b =>
          cases hr : validateAll env p (n + 1) vs as with
          | error e => simp [hv, hr, bind, Except.bind] at h
          | ok r =>
            simp only [hv, hr, bind, Except.bind, Except.ok.injEq] at h
            subst h
            obtain ⟨k1, k2, k3, k4⟩ := validate_iff.1 hv
            obtain ⟨g1, g2, g3⟩ := (ih hl').1 hr
            refine ⟨fun j v' a' h h' => ?_, by simp [g2], fun j a' h => ?_⟩
            · cases j with
              | zero =>
                simp only [List.getElem?_cons_zero, Option.some.injEq] at h h'
                subst h h'
                exact ⟨k1, k2⟩
              | succ j => exact g1 j v' a' (by simpa using h) (by simpa using h')
            · cases j with
              | zero =>
                simp only [List.getElem?_cons_zero, Option.some.injEq] at h
                subst h
                exact ⟨b, rfl, k3, k4⟩
              | succ j =>
                obtain ⟨b', h1, h2, h3⟩ := g3 j a' (by simpa using h)
                exact ⟨b', by simpa using h1, h2, by rw [h3]; congr 2; omega⟩
      · rintro ⟨g1, g2, g3⟩
        cases bs with
        | nil => simp at g2
        | cons b bs =>
          obtain ⟨h1, h2⟩ := tail g1 g2 g3
          simp only [h1, h2, bind, Except.bind]

private theorem arts_ret (l : List Arti.Art) : arts (ret l) = l := by
  unfold ret; split <;> rfl

private theorem ret_arts {r : Ret} {l : List Arti.Art} :
    r = ret l ↔ arts r = l ∧ ((∃ a, r = .one a) ↔ l.length = 1) := by
  constructor
  · rintro rfl
    refine ⟨arts_ret l, ?_⟩
    match l with
    | [] => simp [ret]
    | [a] => simp [ret]
    | _ :: _ :: _ => simp [ret]
  · rintro ⟨rfl, h⟩
    cases r with
    | one a => rfl
    | tuple as =>
      match as with
      | [] => rfl
      | [a] => simp [arts] at h
      | _ :: _ :: _ => rfl

private theorem out_core {c : Out.Cls} {p : Pdr} {args : List Arti.Art} {r : Ret} :
    (if args.length ≠ c.outputs.length then .error .valueError
     else do
      let outs ← validateAll env p 0 c.outputs args
      .ok (ret outs) : Except Err Ret) = .ok r ↔
      args.length = c.outputs.length ∧
      (∀ (n : Nat) (v : View) (a : Arti.Art), c.outputs[n]? = some v → args[n]? = some a →
        FitsView env.io v (env.look a.info) ∧ a.out = none) ∧
      BoundTo p args (arts r) ∧ ((∃ a, r = .one a) ↔ c.outputs.length = 1) := by
  by_cases hl : args.length = c.outputs.length
  · rw [if_neg (by simpa using hl)]
    constructor
    · intro h
      cases hv : validateAll env p 0 c.outputs args with
      | error e => simp [hv, bind, Except.bind] at h
      | ok outs =>
        simp only [hv, bind, Except.bind, Except.ok.injEq] at h
        subst h
        obtain ⟨h1, h2, h3⟩ := (validateAll_iff hl.symm).1 hv
        simp only [Nat.zero_add] at h3
        refine ⟨hl, h1, ?_, ?_⟩
        · rw [arts_ret]; exact ⟨h2, h3⟩
        · rw [(ret_arts.1 (rfl : ret outs = ret outs)).2, h2, hl]
    · rintro ⟨-, h1, ⟨h2, h3⟩, h4⟩
      have hv : validateAll env p 0 c.outputs args = .ok (arts r) :=
        (validateAll_iff hl.symm).2 ⟨h1, h2, by simpa only [Nat.zero_add] using h3⟩
      simp only [hv, bind, Except.bind, Except.ok.injEq]
      exact (ret_arts.2 ⟨rfl, by rw [h2, hl]; exact h4⟩).symm
  · rw [if_pos (by simpa using hl)]
    simp [hl]

/-- **C58**: `producer.out(a, b, ...)` accepts exactly as many artifacts as `build` returns values,
each of them fitting the view of the value at its position, and none of them produced already.  It
returns them in the same order, with nothing changed but that they are made by this producer as the
output at their position: a tuple, or the artifact alone if there is only one. -/
theorem C58_out_iff {c : Out.Cls} {p : Pdr} {args : List Arti.Art} (hne : args ≠ []) {r : Ret} :
    out env c p args = .ok r ↔
      args.length = c.outputs.length ∧
      (∀ (n : Nat) (v : View) (a : Arti.Art), c.outputs[n]? = some v → args[n]? = some a →
        FitsView env.io v (env.look a.info) ∧ a.out = none) ∧
      BoundTo p args (arts r) ∧ ((∃ a, r = .one a) ↔ c.outputs.length = 1) := by
  have : args.isEmpty = false := by cases args <;> simp_all
  unfold out
  rw [if_neg (by simp [this])]
  exact out_core

private theorem defaults_iff {vs : List View} {as : List Arti.Art} :
    defaults env vs = .ok as ↔
      List.Forall₂ (fun v a => ∃ i, env.make v.art v.type = .ok i ∧ a = .raw i) vs as := by
  unfold defaults
  induction vs generalizing as with
  | nil => cases as <;> simp [PCls.mapE]
  | cons v vs ih =>
    unfold PCls.mapE
    cases hm : env.make v.art v.type with
    | error e =>
      simp only [bind, Except.bind, reduceCtorEq, false_iff]
      intro h
      cases h with
      | cons h _ =>
        obtain ⟨i, h, -⟩ := h
        rw [hm] at h; cases h
    | ok i =>
      simp only [bind, Except.bind] at ih ⊢
      split
      · rename_i e he
        simp only [reduceCtorEq, false_iff]
        intro h
        cases h with
        | cons _ h =>
          rw [ih.2 h] at he; cases he
      · rename_i bs he
        have hb := ih.1 he
        simp only [Except.ok.injEq]
        constructor
        · rintro rfl
          exact .cons ⟨i, hm, rfl⟩ hb
        · intro h
          cases h with
          | cons h1 h2 =>
            obtain ⟨j, h1, rfl⟩ := h1
            rw [hm] at h1
            obtain rfl := Except.ok.inj h1
            have := ih.2 h2
            rw [he] at this
            rw [Except.ok.inj this]

/-- **C58**: `producer.out()` returns, for each value that `build` returns, a new artifact of the
class and the type of its view, bound to the output at its position; it raises if one of them cannot
be made, or if no writer is found for it. -/
theorem C58_out_default_iff {c : Out.Cls} {p : Pdr} (hne : c.outputs ≠ [])
    (hmake : ∀ cls t i, env.make cls t = .ok i → (env.look i).cls = cls ∧ (env.look i).type = t)
    (hcls : ∀ v ∈ c.outputs, v.mode = .write ∧ DistinctNames v.type) {r : Ret} :
    out env c p [] = .ok r ↔ ∃ infos : List ArtInfo,
      infos.length = c.outputs.length ∧
      (∀ (n : Nat) (v : View) (i : ArtInfo), c.outputs[n]? = some v → infos[n]? = some i → env.make v.art v.type = .ok i ∧
        env.io.writer v.cls.pythonType v.type (env.look i).fmt (env.look i).stor v.cls = .ok ()) ∧
      BoundTo p (infos.map Arti.Art.raw) (arts r) ∧
      ((∃ a, r = .one a) ↔ c.outputs.length = 1) := by
  have hd : out env c p [] = (do
      let outputs ← defaults env c.outputs
      if outputs.length ≠ c.outputs.length then .error .valueError
      else do
        let outs ← validateAll env p 0 c.outputs outputs
        .ok (ret outs)) := rfl
  rw [hd]
  constructor
  · intro h
    cases hdf : defaults env c.outputs with
    | error e => simp [hdf, bind, Except.bind] at h
    | ok as =>
      rw [hdf] at h
      obtain ⟨h1, h2, h3, h4⟩ := out_core.1 h
      have hf := defaults_iff.1 hdf
      have hraw : as = (as.map Arti.Art.info).map Arti.Art.raw := by
        rw [List.map_map]
        have : ∀ a ∈ as, (Arti.Art.raw ∘ Arti.Art.info) a = a := by
          intro a ha
          obtain ⟨n, hn⟩ := List.getElem?_of_mem ha
          have hlt : n < c.outputs.length := by
            rw [← h1]; exact (List.getElem?_eq_some_iff.1 hn).1
          obtain ⟨-, ho⟩ := h2 n _ a (List.getElem?_eq_getElem hlt) hn
          cases a with
          | raw i => rfl
          | made _ _ _ => simp [Arti.Art.out] at ho
        exact ((List.map_congr_left this).trans (List.map_id' as)).symm
      refine ⟨as.map Arti.Art.info, by simpa using h1, fun n v i hv hi => ?_, by rwa [← hraw], h4⟩
      rw [List.getElem?_map, Option.map_eq_some_iff] at hi
      obtain ⟨a, ha, rfl⟩ := hi
      obtain ⟨⟨f1, f2, f3, f4⟩, -⟩ := h2 n v a hv ha
      have hj := (List.forall₂_iff_get.1 hf).2 n (List.getElem?_eq_some_iff.1 hv).1
        (List.getElem?_eq_some_iff.1 ha).1
      obtain ⟨i, hi, hai⟩ := hj
      have e1 : c.outputs.get ⟨n, (List.getElem?_eq_some_iff.1 hv).1⟩ = v := by
        simpa using (List.getElem?_eq_some_iff.1 hv).2
      have e2 : as.get ⟨n, (List.getElem?_eq_some_iff.1 ha).1⟩ = a := by
        simpa using (List.getElem?_eq_some_iff.1 ha).2
      rw [e1] at hi; rw [e2] at hai
      subst hai
      have hm := hmake _ _ _ hi
      refine ⟨hi, ?_⟩
      have := f4 (by rw [(hcls v (List.mem_of_getElem? hv)).1]; decide)
      simpa [Arti.Art.info, hm.2] using this
  · rintro ⟨infos, h1, h2, h3, h4⟩
    have hdf : defaults env c.outputs = .ok (infos.map Arti.Art.raw) := by
      refine defaults_iff.2 (List.forall₂_iff_get.2 ⟨by simp [h1], fun n hn hn' => ?_⟩)
      have hlt : n < infos.length := by simpa using hn'
      exact ⟨infos[n], (h2 n _ _ (List.getElem?_eq_getElem hn) (List.getElem?_eq_getElem hlt)).1,
        by simp⟩
    rw [hdf]
    refine out_core.2 ⟨by simpa using h1, fun n v a hv ha => ?_, h3, h4⟩
    rw [List.getElem?_map, Option.map_eq_some_iff] at ha
    obtain ⟨i, hi, rfl⟩ := ha
    obtain ⟨g1, g2⟩ := h2 n v i hv hi
    have hm := hmake _ _ _ g1
    obtain ⟨c1, c2⟩ := hcls v (List.mem_of_getElem? hv)
    refine ⟨⟨?_, ?_, by simp [c1], fun _ => ?_⟩, rfl⟩
    · simp [Arti.Art.info, hm.1, ArtCls.sub]
    · simpa [Arti.Art.info, hm.2] using tyEq_refl _ c2
    · simpa [Arti.Art.info, hm.2] using g2

/-- **C58**: however `out` was called, it returns as many artifacts as `build` returns values, and the
n-th of them is the n-th output of this producer. -/
theorem C58_out_positions {c : Out.Cls} {p : Pdr} {args : List Arti.Art} {r : Ret}
    (h : out env c p args = .ok r) : (arts r).length = c.outputs.length ∧
      ∀ (n : Nat) (b : Arti.Art), (arts r)[n]? = some b → b.out = some (p, n) := by
  have key : ∀ {as : List Arti.Art}, BoundTo p as (arts r) → as.length = c.outputs.length →
      (arts r).length = c.outputs.length ∧
      ∀ (n : Nat) (b : Arti.Art), (arts r)[n]? = some b → b.out = some (p, n) := by
    intro as h1 h2
    refine ⟨h1.1.trans h2, fun n b hb => ?_⟩
    have hlt : n < as.length := by rw [← h1.1]; exact (List.getElem?_eq_some_iff.1 hb).1
    obtain ⟨b', h3, -, h4⟩ := h1.2 n _ (List.getElem?_eq_getElem hlt)
    rw [hb] at h3
    obtain rfl := Option.some.inj h3
    exact h4
  cases args with
  | nil =>
    have hd : out env c p [] = (do
        let outputs ← defaults env c.outputs
        if outputs.length ≠ c.outputs.length then .error .valueError
        else do
          let outs ← validateAll env p 0 c.outputs outputs
          .ok (ret outs)) := rfl
    rw [hd] at h
    cases hdf : defaults env c.outputs with
    | error e => simp [hdf, bind, Except.bind] at h
    | ok as =>
      rw [hdf] at h
      obtain ⟨h1, -, h2, -⟩ := out_core.1 h
      exact key h2 h1
  | cons a as =>
    obtain ⟨h1, -, h2, -⟩ := (C58_out_iff (by simp)).1 h
    exact key h2 h1

/-- **C58** and **C45**: if the outputs of a call of `out` are all assigned to a graph, each of them
once, then the n-th value that `build` returns is stored for the artifact that is the n-th output of
the call, and linked to its key. -/
theorem C58_outputs_are_written_to_their_artifacts {κ D : Type} [DecidableEq κ]
    {wenv : Arti.Env κ D} {c : Out.Cls} {p : Pdr} {args : List Arti.Art} {r : Ret}
    (h : out env c p args = .ok r) {σ : Snapshot} (ha : AllAssigned σ.graph p (arts r))
    {fp : Fp} {pk : κ} {existing : List κ} (hnew : pk ∉ existing)
    {deps : List (Str × List (PSnap κ))} {s s' : St κ D}
    (hrun : World.buildPartition wenv σ p existing fp deps pk s = (.ok (), s')) :
    ∃ ins outs, World.readArgs wenv s.files p.inputs deps (World.cls wenv p).buildInputs = .ok ins ∧
      (World.cls wenv p).build ins = .ok outs ∧ (World.cls wenv p).validate outs = .ok true ∧
      ∀ n d, outs[n]? = some d → ∃ b k i, (arts r)[n]? = some b ∧
        (k, Arti.Art.made i p n) ∈ σ.graph.arts ∧ SameArtifact b (.made i p n) ∧
        ∃ key sn c, σ.graph.keyOf (.made i p n) = some key ∧ OutputAt wenv p fp pk i n d sn c ∧
          sn ∈ linksOf s' σ key := by
  obtain ⟨hlen, hpos⟩ := C58_out_positions h
  have hin : ∀ k i n, (k, Arti.Art.made i p n) ∈ σ.graph.arts →
      ∃ b, (arts r)[n]? = some b ∧ SameArtifact b (.made i p n) := by
    intro k i n hk
    obtain ⟨b, hb, hs⟩ := ha.only k _ n hk rfl
    obtain ⟨m, hm⟩ := List.getElem?_of_mem hb
    have := hpos m b hm
    rw [hs.1] at this
    simp only [Arti.Art.out, Option.some.injEq, Prod.mk.injEq, true_and] at this
    subst this
    exact ⟨b, hm, hs⟩
  have hgap : ∀ k i pos, (k, Arti.Art.made i p pos) ∈ σ.graph.arts →
      ∀ j, j ≤ pos → ∃ k' i', (k', Arti.Art.made i' p j) ∈ σ.graph.arts := by
    intro k i pos hk j hj
    obtain ⟨b, hb, -⟩ := hin k i pos hk
    have hlt : j < (arts r).length :=
      Nat.lt_of_le_of_lt hj (List.getElem?_eq_some_iff.1 hb).1
    obtain ⟨k', a, hm, hs⟩ := ha.all _ (List.getElem_mem hlt)
    have ho := hpos j _ (List.getElem?_eq_getElem hlt)
    rw [hs.1] at ho
    cases a with
    | raw _ => simp [Arti.Art.out] at ho
    | made i' q n =>
      simp only [Arti.Art.out, Option.some.injEq, Prod.mk.injEq] at ho
      obtain ⟨rfl, rfl⟩ := ho
      exact ⟨k', i', hm⟩
  have hone : ∀ k i k' i' pos, (k, Arti.Art.made i p pos) ∈ σ.graph.arts →
      (k', Arti.Art.made i' p pos) ∈ σ.graph.arts → i = i' := by
    intro k i k' i' pos hk hk'
    obtain ⟨b, hb, hs⟩ := hin _ _ _ hk
    obtain ⟨b', hb', hs'⟩ := hin _ _ _ hk'
    rw [hb] at hb'
    obtain rfl := Option.some.inj hb'
    have := (ha.once b (List.mem_of_getElem? hb) _ _ _ _ hk hk' hs hs').2
    exact (Arti.Art.made.inj this).1
  obtain ⟨ins, outs, h1, h2, h3, h4⟩ :=
    C45_output_is_written_to_its_artifact_partial hgap hone hnew hrun
  refine ⟨ins, outs, h1, h2, h3, fun n d hd => ?_⟩
  obtain ⟨⟨k, i, hk⟩, h5⟩ := h4 n d hd
  obtain ⟨b, hb, hs⟩ := hin _ _ _ hk
  obtain ⟨key, sn, c, g1, g2, g3, -⟩ := h5 k i hk
  exact ⟨b, k, i, hb, hk, hs, key, sn, c, g1, g2, g3⟩

/-- **C58**: iterating over a producer gives the artifacts that `out()` returns. -/
theorem C58_iter {c : Out.Cls} {p : Pdr} :
    iter env c p = (out env c p []).map arts := by
  unfold iter
  cases h : out env c p [] with
  | error e => rfl
  | ok r => cases r <;> rfl

/-- **C58**: a producer can be assigned to a graph only if it has a single output, and then the
artifact is the one that `out()` returns. -/
theorem C58_cast_iff {c : Out.Cls} {p : Pdr} {a : Arti.Art} :
    Out.cast env (.producer c p) = .ok a ↔ out env c p [] = .ok (.one a) := by
  unfold Out.cast
  cases h : out env c p [] with
  | error e => simp [h, bind, Except.bind]
  | ok r => cases r <;> simp [h, bind, Except.bind]

theorem C58_several_outputs_cannot_be_assigned {c : Out.Cls} {p : Pdr} (h : c.outputs.length ≠ 1)
    {graph : Option (Str × PyDict Str Str)} {ns : List Str} {key : Str} :
    ∃ e, boxCast env graph ns key (.producer c p) = .error e := by
  unfold boxCast
  cases hc : Out.cast env (.producer c p) with
  | error e => exact ⟨e, rfl⟩
  | ok a =>
    exfalso
    rw [C58_cast_iff] at hc
    have hd : out env c p [] = (do
        let outputs ← defaults env c.outputs
        if outputs.length ≠ c.outputs.length then .error .valueError
        else do
          let outs ← validateAll env p 0 c.outputs outputs
          .ok (ret outs)) := rfl
    rw [hd] at hc
    cases hdf : defaults env c.outputs with
    | error e => simp [hdf, bind, Except.bind] at hc
    | ok as =>
      rw [hdf] at hc
      exact h ((out_core.1 hc).2.2.2.1 ⟨a, rfl⟩)

/-! ## Examples and necessity -/

namespace Ex58
open Typ

def int64 : Ty := .scalar .int64 {}

/-- All artifacts are of the base class and of type `Int64`; the first format (0) can be written to
the local file system (0), the others cannot. -/
def penv : Out.Env where
  look i := ⟨artifactBase, int64, i.desc, match i.sto with | .file _ => 0 | .lit _ _ => 1⟩
  make _ _ := .ok ⟨1, false, .lit ⟨"{input_fingerprint}".toList, false⟩ none⟩
  io := { reader := fun _ _ _ _ => .ok ()
          writer := fun _ _ f s _ => if f = 0 ∧ s = 0 then .ok () else .error .valueError }

def view (m : Mode) : View := ⟨⟨6, [1], false, 0, some .int, artifactBase, fun _ => .ok (.cls .int)⟩, m,
  artifactBase, int64⟩

/-- A producer with one input and two outputs. -/
def c : Out.Cls := ⟨['T'], [(['x'], artifactBase)], [(['x'], view .read)], [view .write, view .write]⟩

def b0 : Arti.Art := .raw ⟨0, false, .file ⟨"b{input_fingerprint}".toList, false⟩⟩
def c0 : Arti.Art := .raw ⟨0, false, .file ⟨"c{input_fingerprint}".toList, false⟩⟩

/-- The producer of `Ex40` is made by the class. -/
theorem made : instantiate penv c ['1'] [(['x'], Ex40.x)] = .ok Ex40.p := by
  rw [C58_accepted_inputs]
  refine ⟨by simp [c, keys], ?_, rfl, rfl, rfl, ?_⟩
  · intro n f h
    simp only [c, List.mem_cons, Prod.mk.injEq, List.not_mem_nil, or_false] at h
    obtain ⟨rfl, rfl⟩ := h
    refine ⟨Ex40.x, rfl, rfl, fun v hv => ?_⟩
    obtain rfl : view .read = v := by simpa [c, get?] using hv
    exact ⟨rfl, rfl, fun _ => rfl, fun h => absurd rfl h⟩
  · intro n a h
    simp only [Ex40.p, Pdr.inputs, Ins.toList, List.mem_cons, Prod.mk.injEq, List.not_mem_nil,
      or_false] at h
    obtain ⟨rfl, rfl⟩ := h
    rfl

/-- Its outputs are those of `Ex40`. -/
theorem outs : out penv c Ex40.p [b0, c0] = .ok (.tuple [Ex40.y, Ex40.z]) := rfl

/-- A wrong number of outputs, an artifact that cannot be written, one that is produced already, and
defaults that cannot be written are rejected. -/
example : out penv c Ex40.p [b0] = .error .valueError ∧
    out penv c Ex40.p [b0, .raw ⟨1, false, .file ⟨[], false⟩⟩] = .error .valueError ∧
    out penv c Ex40.p [b0, Ex40.y] = .error .valueError ∧
    out penv c Ex40.p [] = .error .valueError := ⟨rfl, rfl, rfl, rfl⟩

/-- The outputs are assigned in the graph of `Ex45`, so the theorem applies. -/
example : ∃ b k i, [Ex40.y, Ex40.z][1]? = some b ∧
    (k, Arti.Art.made i Ex40.p 1) ∈ Ex45.σ.graph.arts := by
  have ha : AllAssigned Ex45.σ.graph Ex40.p (arts (.tuple [Ex40.y, Ex40.z])) := by
    have hy : SameArtifact Ex40.y Ex40.y := ⟨rfl, rfl, rfl, rfl⟩
    have hz : SameArtifact Ex40.z Ex40.z := ⟨rfl, rfl, rfl, rfl⟩
    constructor
    · intro b hb
      simp only [arts, List.mem_cons, List.not_mem_nil, or_false] at hb
      rcases hb with rfl | rfl
      · exact ⟨['b'], _, by simp [Ex45.σ, Ex40.h], hy⟩
      · exact ⟨['c'], _, by simp [Ex45.σ, Ex40.h], hz⟩
    · intro k a n hk ho
      simp only [Ex45.σ, Ex40.h, List.mem_cons, Prod.mk.injEq, List.not_mem_nil, or_false] at hk
      rcases hk with ⟨rfl, rfl⟩ | ⟨rfl, rfl⟩ | ⟨rfl, rfl⟩
      · simp [Ex40.x, Arti.Art.out] at ho
      · exact ⟨_, by simp [arts], hy⟩
      · exact ⟨_, by simp [arts], hz⟩
    · have key : ∀ k a b, b ∈ [Ex40.y, Ex40.z] → (k, a) ∈ Ex45.σ.graph.arts → SameArtifact b a →
          a = b ∧ (b = Ex40.y → k = ['b']) ∧ (b = Ex40.z → k = ['c']) := by
        intro k a b hb hk hs
        have hs := hs.1
        simp only [Ex45.σ, Ex40.h, List.mem_cons, Prod.mk.injEq, List.not_mem_nil, or_false] at hk hb
        rcases hk with ⟨rfl, rfl⟩ | ⟨rfl, rfl⟩ | ⟨rfl, rfl⟩ <;> rcases hb with rfl | rfl <;>
          simp_all [Ex40.x, Ex40.y, Ex40.z, Arti.Art.out]
      intro b hb k a k' a' hk hk' hs hs'
      obtain ⟨h1, h2, h3⟩ := key k a b hb hk hs
      obtain ⟨g1, g2, g3⟩ := key k' a' b hb hk' hs'
      refine ⟨?_, h1.trans g1.symm⟩
      simp only [arts, List.mem_cons, List.not_mem_nil, or_false] at hb
      rcases hb with rfl | rfl
      · rw [h2 rfl, g2 rfl]
      · rw [h3 rfl, g3 rfl]
  obtain ⟨ins, os, h1, h2, -, h3⟩ := C58_outputs_are_written_to_their_artifacts (existing := []) outs ha
    (by simp) Ex45.run_ok
  have e1 : World.readArgs Ex.env Ex40.s0.files Ex40.p.inputs Ex45.deps
      (World.cls Ex.env Ex40.p).buildInputs = .ok [(['x'], ['u'])] := by decide +kernel
  rw [e1] at h1
  obtain rfl := Except.ok.inj h1
  have e2 : (World.cls Ex.env Ex40.p).build [(['x'], ['u'])] = .ok [['u', '1'], ['u', 't']] := by
    decide +kernel
  rw [e2] at h2
  obtain rfl := Except.ok.inj h2
  obtain ⟨b, k, i, g1, g2, -⟩ := h3 1 ['u', 't'] rfl
  exact ⟨b, k, i, g1, g2⟩

end Ex58

end Arti.Props
