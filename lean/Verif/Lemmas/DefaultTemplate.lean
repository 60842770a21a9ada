import Verif.Lemmas.Items
import Verif.Props.Discovery
import Verif.Props.Templates

/-! The partition key spec in a resolved template. -/

namespace Arti.Props
open Arti PyDict Spec Fmt Stg Part

/-! ## The partition key spec as a template -/

/-- The default components with attribute and format spec apart. -/
def defaultToks : FieldCls → List (Str × Str × Str)
  | .date => [(['Y'], ['Y'], []), (['m'], ['m'], ['0', '2']), (['d'], ['d'], ['0', '2'])]
  | .int _ => [(['v', 'a', 'l', 'u', 'e'], ['v', 'a', 'l', 'u', 'e'], [])]
  | .null => [(['v', 'a', 'l', 'u', 'e'], ['v', 'a', 'l', 'u', 'e'], [])]

/-- The entries of the partition key spec. -/
def specToks (kt : KeyTypes) : List (List Tok) :=
  kt.flatMap fun (name, cls) => (defaultToks cls).map fun (cn, a, s) => compToks name cn a s

theorem underscore_inj {a b c d : Str} (hc : '_' ∉ c) (hd : '_' ∉ d)
    (h : a ++ '_' :: c = b ++ '_' :: d) : a = b ∧ c = d := by
  have h' := congrArg List.reverse h
  simp only [List.reverse_append, List.reverse_cons, List.append_assoc, List.singleton_append,
    List.cons_append, List.nil_append] at h'
  obtain ⟨h1, h2⟩ := append_cons_inj (by simpa using hc) (by simpa using hd) h'
  exact ⟨List.reverse_inj.1 h2, List.reverse_inj.1 h1⟩

theorem defaultComponents_underscore (cls : FieldCls) {p : Str × Str}
    (h : p ∈ defaultComponents cls) : '_' ∉ p.1 := by
  cases cls with
  | date => revert p; decide
  | int k =>
    revert p
    show ∀ p ∈ [(['v', 'a', 'l', 'u', 'e'], ['v', 'a', 'l', 'u', 'e'])], '_' ∉ p.1
    decide
  | null => revert p; decide

theorem nodup_specs {kt : KeyTypes} (h : (keys kt).Nodup) :
    (keys (kt.flatMap fun (name, cls) => (defaultComponents cls).map fun (cn, cs) =>
      (name ++ '_' :: cn, '{' :: name ++ '.' :: cs ++ ['}']))).Nodup := by
  have hmem : ∀ (kt : KeyTypes) n, n ∈ keys (kt.flatMap fun (name, cls) =>
      (defaultComponents cls).map fun (cn, cs) =>
        (name ++ '_' :: cn, '{' :: name ++ '.' :: cs ++ ['}'])) →
      ∃ name ∈ keys kt, ∃ cn, '_' ∉ cn ∧ n = name ++ '_' :: cn := by
    intro kt n hn
    simp only [keys, List.mem_map, List.mem_flatMap, Prod.exists] at hn
    obtain ⟨n, t, ⟨name, cls, hk, cn, cs, hc, he⟩, rfl⟩ := hn
    simp only [Prod.mk.injEq] at he
    exact ⟨name, List.mem_map.2 ⟨_, hk, rfl⟩, cn, defaultComponents_underscore cls hc, he.1.symm⟩
  induction kt with
  | nil => simp [keys]
  | cons p kt ih =>
    obtain ⟨name, cls⟩ := p
    simp only [keys, List.map_cons, List.nodup_cons] at h
    have ih := ih h.2
    rw [List.flatMap_cons]
    simp only [keys, List.map_append] at ih ⊢
    refine List.nodup_append.2 ⟨?_, ih, ?_⟩
    · rw [List.map_map]
      have hinj : ∀ l : List (Str × Str), (l.map Prod.fst).Nodup →
          (l.map (Prod.fst ∘ fun (cn, cs) => (name ++ '_' :: cn,
            '{' :: name ++ '.' :: cs ++ ['}']))).Nodup := by
        intro l hl
        have : (l.map (Prod.fst ∘ fun (x : Str × Str) => (name ++ '_' :: x.1,
            '{' :: name ++ '.' :: x.2 ++ ['}']))) =
            (l.map Prod.fst).map fun cn => name ++ '_' :: cn := by simp
        rw [this]
        exact List.Pairwise.map _ (fun a b hab he => hab (by simpa using he)) hl
      apply hinj
      cases cls with
      | date => decide
      | int k =>
        show (List.map Prod.fst [(['v', 'a', 'l', 'u', 'e'], ['v', 'a', 'l', 'u', 'e'])]).Nodup
        decide
      | null => decide
    · rintro a ha b hb rfl
      obtain ⟨name', hn', cn', hc', he'⟩ := hmem kt a hb
      simp only [List.map_map, List.mem_map] at ha
      obtain ⟨⟨cn, cs⟩, hc, he⟩ := ha
      simp only [Function.comp] at he
      rw [← he] at he'
      have := (underscore_inj (defaultComponents_underscore cls hc) hc' he').1
      exact h.1 (this ▸ hn')

theorem compToks_print (name cn a s : Str) :
    print (compToks name cn a s) =
      (name ++ '_' :: cn) ++ '=' :: ('{' :: name ++ '.' :: (a ++ (if s = [] then [] else ':' :: s)) ++
        ['}']) := by
  rw [compToks, print_append, print_lit]
  simp [print, printTok, printFld, printBody, Spec.printAcc]

theorem partitionKeySpec_exact {kt : KeyTypes} (h : (keys kt).Nodup) :
    partitionKeySpec kt = print (joinToks (specToks kt)) := by
  unfold partitionKeySpec
  rw [ofItems_nodup (nodup_specs h), ← joinToks_print]
  show joinWith [sep] _ = _
  refine congrArg (joinWith [sep]) ?_
  unfold specToks
  clear h
  induction kt with
  | nil => rfl
  | cons p kt ih =>
    obtain ⟨name, cls⟩ := p
    simp only [List.flatMap_cons, List.map_append, ih]
    congr 1
    cases cls <;> simp [defaultComponents, defaultToks, compToks_print]

theorem mem_joinToks {Us : List (List Tok)} {x : Tok} (h : x ∈ joinToks Us) :
    x = sepTok ∨ ∃ U ∈ Us, x ∈ U := by
  induction Us with
  | nil => simp [joinToks] at h
  | cons U Us ih =>
    cases Us with
    | nil => exact .inr ⟨U, by simp, h⟩
    | cons W Us =>
      simp only [joinToks, List.mem_append, List.mem_cons] at h
      rcases h with h | h | h
      · exact .inr ⟨U, by simp, h⟩
      · exact .inl h
      · rcases ih h with h | ⟨X, hX, h⟩
        · exact .inl h
        · exact .inr ⟨X, by simp [List.mem_cons.1 hX], h⟩

theorem joinToks_mem {Us : List (List Tok)} {x : Tok} {U : List Tok} (hU : U ∈ Us) (h : x ∈ U) :
    x ∈ joinToks Us := by
  induction Us with
  | nil => simp at hU
  | cons W Us ih =>
    cases Us with
    | nil => simp at hU; subst hU; exact h
    | cons X Us =>
      simp only [joinToks, List.mem_append, List.mem_cons]
      rcases List.mem_cons.1 hU with rfl | hU
      · exact .inl h
      · exact .inr (.inr (ih hU))

/-- The template that stands for the partition key spec among the values. -/
theorem spec_value {kt : KeyTypes} (hnd : (keys kt).Nodup) {vs : List (PyDict Str (List Tok))}
    {R : List (PyDict Str Str)} (hvs : typeValues kt :: R = vs.map texts)
    (hok : ∀ p ∈ vs.flatten, valueOk placeholderNames p.2 = true)
    (hkt : ∀ n ∈ keys kt, keyNameOk n = true) :
    ("partition_key_spec".toList, joinToks (specToks kt)) ∈ vs.flatten := by
  cases vs with
  | nil => simp at hvs
  | cons V vs =>
    simp only [List.map_cons, List.cons.injEq] at hvs
    obtain ⟨h1, -⟩ := hvs
    cases V with
    | nil => simp [typeValues, texts] at h1
    | cons p V =>
      simp only [typeValues, texts, List.map_cons, List.cons.injEq, Prod.mk.injEq] at h1
      have hp := hok p (by simp)
      have hU : tmplOk p.2 = true := (valueOk_iff.1 hp).1
      have hJ : tmplOk (joinToks (specToks kt)) = true := by
        have : ∀ U ∈ specToks kt, SegTok placeholderNames U := by
          intro U hU
          simp only [specToks, List.mem_flatMap, List.mem_map, Prod.exists] at hU
          obtain ⟨name, cls, hk, cn, a, s, hc, rfl⟩ := hU
          have hn := hkt name (List.mem_map.2 ⟨_, hk, rfl⟩)
          cases cls <;> simp only [defaultToks, List.mem_cons, List.not_mem_nil, or_false,
            Prod.mk.injEq] at hc
          · rcases hc with ⟨rfl, rfl, rfl⟩ | ⟨rfl, rfl, rfl⟩ | ⟨rfl, rfl, rfl⟩ <;>
              exact compToks_seg hn rfl rfl rfl
          · obtain ⟨rfl, rfl, rfl⟩ := hc
            exact compToks_seg hn rfl rfl rfl
          · obtain ⟨rfl, rfl, rfl⟩ := hc
            exact compToks_seg hn rfl rfl rfl
        exact (valueOk_iff.1 (joinToks_valueOk _ this).1).1
      have he : p.2 = joinToks (specToks kt) := by
        apply print_inj hU hJ
        rw [← partitionKeySpec_exact hnd]
        exact h1.1.2.symm
      have : p = ("partition_key_spec".toList, joinToks (specToks kt)) := by
        rw [← he]
        exact Prod.ext h1.1.1.symm rfl
      rw [← this]
      simp

/-! ## Fields of a resolved template -/

theorem mem_rem {E : List Str} {b : Bool} {T : List Tok} {x : Tok} (h : x ∈ rem E b T) : x ∈ T := by
  induction T generalizing b with
  | nil => simp [rem] at h
  | cons y T ih =>
    cases y with
    | ch c =>
      simp only [rem] at h
      split at h
      · exact List.mem_cons_of_mem _ (ih h)
      · rcases List.mem_cons.1 h with h | h
        · exact h ▸ .head _
        · exact List.mem_cons_of_mem _ (ih h)
    | fld f =>
      simp only [rem] at h
      split at h
      · exact List.mem_cons_of_mem _ (ih h)
      · rcases List.mem_cons.1 h with h | h
        · exact h ▸ .head _
        · exact List.mem_cons_of_mem _ (ih h)

theorem rem_mem {E : List Str} {b : Bool} {T : List Tok} {f : Fld} (h : .fld f ∈ T)
    (hE : f.first ∉ E) : .fld f ∈ rem E b T := by
  induction T generalizing b with
  | nil => simp at h
  | cons y T ih =>
    cases y with
    | ch c =>
      simp only [rem]
      have := ih (b := false) (by simpa using h)
      split
      · exact this
      · exact List.mem_cons_of_mem _ this
    | fld g =>
      simp only [rem]
      rcases List.mem_cons.1 h with h | h
      · cases h; simp [hE]
      · split
        · exact ih h
        · exact List.mem_cons_of_mem _ (ih h)

theorem rs_split (T : List Tok) : ∃ S, T = rs T ++ S ∧ ∀ x ∈ S, x = sepTok := by
  induction T using list_snoc with
  | h0 => exact ⟨[], rfl, by simp⟩
  | h1 T x ih =>
    by_cases hx : x = sepTok
    · subst hx
      obtain ⟨S, h1, h2⟩ := ih
      refine ⟨S ++ [sepTok], ?_, ?_⟩
      · rw [rs_append_sep, ← List.append_assoc, ← h1]
      · intro y hy
        rcases List.mem_append.1 hy with hy | hy
        · exact h2 y hy
        · simpa using hy
    · exact ⟨[], by rw [rs_append_ne _ hx]; simp, by simp⟩

theorem mem_cut {E : List Str} {T : List Tok} {x : Tok} (h : x ∈ cut E T) : x ∈ T := by
  unfold cut at h
  split at h
  · exact h
  · obtain ⟨S, h1, -⟩ := rs_split (rem E false T)
    apply mem_rem (E := E) (b := false)
    rw [h1]
    simp [h]

theorem cut_mem {E : List Str} {T : List Tok} {f : Fld} (h : .fld f ∈ T) (hE : f.first ∉ E) :
    .fld f ∈ cut E T := by
  unfold cut
  split
  · exact h
  · obtain ⟨S, h1, h2⟩ := rs_split (rem E false T)
    have := rem_mem (b := false) h hE
    rw [h1] at this
    rcases List.mem_append.1 this with h | h
    · exact h
    · exact absurd (h2 _ h) (by simp [sepTok])

theorem mem_substT {V : PyDict Str (List Tok)} {T : List Tok} {x : Tok} :
    x ∈ substT V T ↔ (∃ c, x = .ch c ∧ .ch c ∈ T) ∨
      ∃ f, .fld f ∈ T ∧ x ∈ (get? V f.first).getD [.fld f] := by
  simp only [substT, List.mem_flatMap]
  constructor
  · rintro ⟨y, hy, hx⟩
    cases y with
    | ch c => simp at hx; exact .inl ⟨c, hx, hy⟩
    | fld f => exact .inr ⟨f, hy, hx⟩
  · rintro (⟨c, rfl, hc⟩ | ⟨f, hf, hx⟩)
    · exact ⟨_, hc, by simp⟩
    · exact ⟨_, hf, hx⟩

end Arti.Props
