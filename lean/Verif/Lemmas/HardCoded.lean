import Verif.Props.Discovery
import Verif.Spec.HardCoded

/-! Discovering with hard-coded components. -/

namespace Arti.Fmt
open PyDict Spec Stg Part Props

theorem unindexed_eq (T : List Tok) : unindexed T = T.map stripTok := by
  unfold unindexed
  exact List.map_congr_left fun x _ => by cases x <;> rfl

theorem strip_hard (k c i : Str) : strip (hard k c i) = ⟨k, [.attr c], []⟩ := rfl

theorem strip_of_no_idx {f : Fld} (h : ∀ i, .idx i ∉ f.accs) : strip f = f := by
  obtain ⟨a, accs, b⟩ := f
  simp only [strip, Fld.mk.injEq, true_and, and_true]
  rw [List.filter_eq_self]
  intro x hx
  cases x with
  | attr c => rfl
  | idx i => exact absurd hx (h i)

/-- The hard-coded text of a placeholder. -/
def hardText (f : Fld) : Option Str :=
  match f.accs, f.spec with
  | [.attr _, .idx i], [] => some i
  | _, _ => none

theorem hardText_some {f : Fld} {i : Str} (h : hardText f = some i) : ∃ k c, f = hard k c i := by
  obtain ⟨k, accs, spec⟩ := f
  unfold hardText at h
  split at h
  · rename_i c j h1 h2
    cases h
    simp only at h1 h2
    exact ⟨k, c, by simp [hard, h1, h2]⟩
  · cases h

theorem hardText_hard (k c i : Str) : hardText (hard k c i) = some i := rfl

theorem hardText_none {f : Fld} (h : ∀ i, .idx i ∉ f.accs) : hardText f = none := by
  cases hf : hardText f with
  | none => rfl
  | some i =>
    obtain ⟨k, c, rfl⟩ := hardText_some hf
    exact absurd (by simp [hard]) (h i)

/-! ## The wildcard -/

def wildHard : List Tok → Str
  | [] => []
  | .ch c :: T => c :: wildHard T
  | .fld f :: T => (hardText f).getD ['*'] ++ wildHard T

section
variable {cls : FieldCls} {kt : KeyTypes} {T : List Tok} (hH : HardCoded cls kt T)
include hH

theorem hard_strip_mem {f : Fld} (hf : .fld f ∈ T) : .fld (strip f) ∈ unindexed T := by
  rw [unindexed_eq]
  exact List.mem_map.2 ⟨_, hf, rfl⟩

theorem hard_fields {f : Fld} (hf : .fld f ∈ T) :
    (f = plain ifpName) ∨ (∃ k ∈ keys kt, ∃ c, f = ⟨k, [.attr c], []⟩) ∨
      ∃ k ∈ keys kt, ∃ c i, f = hard k c i := by
  have hb := hH.base.fields _ (hard_strip_mem hH hf)
  rcases hH.shape f hf with ⟨k, c, i, rfl⟩ | h
  · rcases hb with hb | ⟨k', hk, c', hb⟩
    · simp [strip_hard, plain] at hb
    · rw [strip_hard] at hb
      cases hb
      exact .inr (.inr ⟨k, hk, c, i, rfl⟩)
  · rw [strip_of_no_idx h] at hb
    rcases hb with hb | hb
    · exact .inl hb
    · exact .inr (.inl hb)

theorem specToWildcard_hard : specToWildcard (print T) kt = .ok (wildHard T) := by
  unfold specToWildcard
  rw [replaceAll_ifp hH.ok, parse_print _ (tmplOk_starIfp hH.ok)]
  simp only [bind, Except.bind]
  rw [render_ok _ (fun f => (hardText f).getD ['*']) _ (tmplOk_starIfp hH.ok)]
  · congr 1
    clear hH
    induction T with
    | nil => rfl
    | cons x T ih =>
      rw [List.map_cons, List.map_cons, List.flatten_cons, ih]
      cases x with
      | ch c => rfl
      | fld f =>
        simp only [starIfp, wildHard]
        split <;> rename_i heq <;> split at heq <;> cases heq
        · rename_i he
          subst he
          rfl
        · rfl
  · intro f hf
    obtain ⟨x, hx, he⟩ := List.mem_map.1 hf
    cases x with
    | ch c => simp [starIfp] at he
    | fld g =>
      simp only [starIfp] at he
      split at he
      · cases he
      · rename_i hg
        cases he
        rcases hard_fields hH hx with rfl | ⟨k, hk, c, rfl⟩ | ⟨k, hk, c, i, rfl⟩
        · exact absurd rfl hg
        · have hc := disc_component hH.base (hard_strip_mem hH hx) hk
          simp [wildcardFld, disc_get hH.base hk, hc, hardText]
        · have hc := disc_component hH.base (hard_strip_mem hH hx) hk
          have hok := (fldOk_iff.1 (List.all_eq_true.1 hH.ok _ hx)).2.1
          simp only [hard, List.all_cons, List.all_nil, Bool.and_true, Bool.and_eq_true, Spec.accOk,
            beq_iff_eq] at hok
          simp [wildcardFld, disc_get hH.base hk, hc, hardText, hard, hok.2.1.2]

end

/-! ## Globbing -/

theorem noGlob_component {c : Char} (h : c ∈ componentChars) : c ≠ '*' := by
  rintro rfl
  revert h
  decide +kernel

theorem glob_lit {i : Str} (hi : ∀ x ∈ i, x ≠ '*') {b : Bool} {ps s : Str}
    (h : globMatch b (i ++ ps) s = true) : ∃ b' r, s = i ++ r ∧ globMatch b' ps r = true := by
  induction i generalizing b s with
  | nil => exact ⟨b, s, rfl, h⟩
  | cons c i ih =>
    simp only [List.mem_cons, forall_eq_or_imp] at hi
    cases s with
    | nil => rw [List.cons_append, globMatch_ch_nil hi.1] at h; cases h
    | cons d s =>
      rw [List.cons_append, globMatch_ch hi.1, Bool.and_eq_true, beq_iff_eq] at h
      obtain ⟨rfl, h⟩ := h
      obtain ⟨b', r, rfl, h'⟩ := ih hi.2 h
      exact ⟨b', r, rfl, h'⟩

theorem glob_lit_of {i : Str} (hi : ∀ x ∈ i, x ≠ '*') {b : Bool} {ps r : Str}
    (h : ∀ b, globMatch b ps r = true) : globMatch b (i ++ ps) (i ++ r) = true := by
  induction i generalizing b with
  | nil => exact h b
  | cons c i ih =>
    simp only [List.mem_cons, forall_eq_or_imp] at hi
    rw [List.cons_append, List.cons_append, globMatch_ch hi.1, ih hi.2]
    simp

theorem fitsHard_of_glob {T : List Tok} (hg : ∀ c, .ch c ∈ T → c ∉ ['*', '?', '['])
    (hc : ∀ k c i, .fld (hard k c i) ∈ T → ∀ x ∈ i, x ≠ '*') {b : Bool}
    {s : Str} (h : globMatch b (wildHard T) s = true) : FitsHard T s := by
  induction T generalizing b s with
  | nil =>
    cases s with
    | nil => exact .nil
    | cons c s => simp [wildHard, globMatch] at h
  | cons x T ih =>
    have hg' := fun c hc => hg c (List.mem_cons_of_mem x hc)
    have hc' := fun k c i hm => hc k c i (List.mem_cons_of_mem x hm)
    cases x with
    | ch p =>
      have hp : p ≠ '*' := fun he => hg p (by simp) (by simp [he])
      cases s with
      | nil => rw [wildHard, globMatch_ch_nil hp] at h; cases h
      | cons c s =>
        rw [wildHard, globMatch_ch hp, Bool.and_eq_true, beq_iff_eq] at h
        obtain ⟨rfl, h⟩ := h
        exact .ch p (ih hg' hc' h)
    | fld f =>
      rw [wildHard] at h
      cases hf : hardText f with
      | some i =>
        obtain ⟨k, c, rfl⟩ := hardText_some hf
        rw [hf, Option.getD_some] at h
        obtain ⟨b', r, rfl, h'⟩ := glob_lit (hc k c i (by simp)) h
        exact .hard k c i (ih hg' hc' h')
      | none =>
        rw [hf, Option.getD_none, List.singleton_append, globMatch_star, Bool.and_eq_true] at h
        obtain ⟨t, r, rfl, h1, h2⟩ := starMatch_split h.2
        refine .fld f t ?_ h1 (ih hg' hc' h2)
        rintro k c i rfl
        cases hf

theorem glob_of_renderHard {T : List Tok} (hg : ∀ c, .ch c ∈ T → c ∉ ['*', '?', '['])
    (hi : ∀ k c i, .fld (hard k c i) ∈ T → ∀ x ∈ i, x ≠ '*')
    {get : Fld → Except Err Str}
    (hc : ∀ f t, get f = .ok t → t ≠ [] ∧ ∀ c ∈ t, c ∈ componentChars)
    (hh : ∀ k c i, .fld (hard k c i) ∈ T → get ⟨k, [.attr c], []⟩ = .ok i) {b : Bool} {s : Str}
    (h : render get (T.map stripTok) = .ok s) : globMatch b (wildHard T) s = true := by
  induction T generalizing b s with
  | nil =>
    simp only [List.map_nil, render, Except.ok.injEq] at h
    subst h
    cases b <;> rfl
  | cons x T ih =>
    have hg' := fun c hc => hg c (List.mem_cons_of_mem x hc)
    have hi' := fun k c i hm => hi k c i (List.mem_cons_of_mem x hm)
    have hh' := fun k c i hm => hh k c i (List.mem_cons_of_mem x hm)
    cases x with
    | ch p =>
      have hp : p ≠ '*' := fun he => hg p (by simp) (by simp [he])
      obtain ⟨r, hr, rfl⟩ := render_cons_ch h
      rw [wildHard, globMatch_ch hp, ih hg' hi' hh' hr]
      simp
    | fld f =>
      obtain ⟨t, r, ht, hr, rfl⟩ := render_cons_fld h
      obtain ⟨h1, h2⟩ := hc _ t ht
      rw [wildHard]
      cases hf : hardText f with
      | some i =>
        obtain ⟨k, c, rfl⟩ := hardText_some hf
        rw [strip_hard, hh k c i (by simp)] at ht
        cases ht
        exact glob_lit_of (hi k c _ (by simp)) fun b => ih hg' hi' hh' hr
      | none =>
        rw [Option.getD_none, List.singleton_append, globMatch_star, Bool.and_eq_true]
        refine ⟨?_, starMatch_of (fun hm => sep_not_component (h2 _ hm)) (ih hg' hi' hh' hr)⟩
        cases t with
        | nil => exact absurd rfl h1
        | cons c t =>
          have : c ≠ '.' := fun he => dot_not_component (he ▸ h2 c (by simp))
          simp [this]

/-! ## The texts of a path are determined -/

/-- How many characters cannot occur in a component. -/
def others (s : Str) : Nat := (s.filter fun c => !componentChars.contains c).length

def othersT (T : List Tok) : Nat := (T.filter fun
  | .ch c => !componentChars.contains c
  | .fld _ => false).length

theorem others_append (a b : Str) : others (a ++ b) = others a + others b := by
  simp [others]

theorem others_zero {s : Str} : others s = 0 ↔ ∀ c ∈ s, c ∈ componentChars := by
  simp [others, List.filter_eq_nil_iff]

theorem others_cons (c : Char) (s : Str) : others (c :: s) = others [c] + others s :=
  others_append [c] s

theorem othersT_ch (c : Char) (T : List Tok) : othersT (.ch c :: T) = others [c] + othersT T := by
  simp only [othersT, others, List.filter_cons, List.filter_nil]
  split <;> simp [Nat.add_comm]

theorem othersT_fld (f : Fld) (T : List Tok) : othersT (.fld f :: T) = othersT T := by
  simp [othersT]

theorem others_render {T : List Tok} {get : Fld → Except Err Str}
    (hc : ∀ f t, get f = .ok t → t ≠ [] ∧ ∀ c ∈ t, c ∈ componentChars) {s : Str}
    (h : render get (T.map stripTok) = .ok s) : others s = othersT T := by
  induction T generalizing s with
  | nil =>
    simp only [List.map_nil, render, Except.ok.injEq] at h
    subst h
    rfl
  | cons x T ih =>
    cases x with
    | ch c =>
      obtain ⟨r, hr, rfl⟩ := render_cons_ch h
      rw [others_cons, othersT_ch, ih hr]
    | fld f =>
      obtain ⟨t, r, ht, hr, rfl⟩ := render_cons_fld h
      rw [others_append, othersT_fld, ih hr, others_zero.2 (hc _ t ht).2, Nat.zero_add]

theorem others_fits {T : List Tok} {s : Str} (h : FitsHard T s) : othersT T ≤ others s := by
  induction h with
  | nil => exact Nat.le_refl _
  | ch c _ ih => rw [others_cons, othersT_ch]; omega
  | hard k c i _ ih => rw [others_append, othersT_fld]; omega
  | fld f t _ _ _ ih => rw [others_append, othersT_fld]; omega

theorem takeWhile_all {P : Char → Bool} {a : Str} (h : ∀ c ∈ a, P c = true) : a.takeWhile P = a := by
  induction a with
  | nil => rfl
  | cons c a ih =>
    simp only [List.mem_cons, forall_eq_or_imp] at h
    simp [h.1, ih h.2]

theorem prefix_unique {P : Char → Bool} {t r u w : Str} (ht : ∀ c ∈ t, P c = true)
    (hu : ∀ c ∈ u, P c = true) (hr : r = [] ∨ ∃ c r', r = c :: r' ∧ P c = false)
    (hw : w = [] ∨ ∃ c w', w = c :: w' ∧ P c = false) (h : t ++ r = u ++ w) : t = u ∧ r = w := by
  have key : ∀ (a b : Str), (∀ c ∈ a, P c = true) → (b = [] ∨ ∃ c b', b = c :: b' ∧ P c = false) →
      (a ++ b).takeWhile P = a := by
    intro a b ha hb
    rcases hb with rfl | ⟨c, b', rfl, hc⟩
    · rw [List.append_nil]; exact takeWhile_all ha
    · exact takeWhile_stop ha hc b'
  have he : t = u := by rw [← key t r ht hr, h, key u w hu hw]
  subst he
  exact ⟨rfl, List.append_cancel_left h⟩

theorem fits_texts {T : List Tok} (hd : delimited T = true) {get : Fld → Except Err Str}
    (hc : ∀ f t, get f = .ok t → t ≠ [] ∧ ∀ c ∈ t, c ∈ componentChars) {s : Str}
    (h : render get (T.map stripTok) = .ok s) (hf : FitsHard T s) :
    ∀ k c i, .fld (hard k c i) ∈ T → get ⟨k, [.attr c], []⟩ = .ok i := by
  induction T generalizing s with
  | nil => simp
  | cons x T ih =>
    cases x with
    | ch p =>
      obtain ⟨r, hr, rfl⟩ := render_cons_ch h
      cases hf with
      | ch _ hf =>
        intro k c i hm
        exact ih hd hr hf k c i (by simpa using hm)
    | fld f =>
      obtain ⟨t, r, ht, hr, rfl⟩ := render_cons_fld h
      obtain ⟨hd1, hd2⟩ := delimited_tail hd
      -- the rest starts with a delimiter in both readings
      have hstart : ∀ w, FitsHard T w → w = [] ∨ ∃ c w', w = c :: w' ∧ componentChars.contains c = false := by
        intro w hw
        rcases hd2 with rfl | ⟨c, U, rfl, hn⟩
        · cases hw; exact .inl rfl
        · cases hw with
          | ch _ hw => exact .inr ⟨c, _, rfl, by simpa using hn⟩
      have hstart' : r = [] ∨ ∃ c w', r = c :: w' ∧ componentChars.contains c = false := by
        rcases hd2 with rfl | ⟨c, U, rfl, hn⟩
        · simp only [List.map_nil, render, Except.ok.injEq] at hr
          exact .inl hr.symm
        · obtain ⟨r', -, rfl⟩ := render_cons_ch hr
          exact .inr ⟨c, _, rfl, by simpa using hn⟩
      have main : ∀ u w, t ++ r = u ++ w → FitsHard T w → t = u ∧ r = w := by
        intro u w he hw
        have h1 : others (t ++ r) = othersT T := by
          rw [others_append, others_zero.2 (hc _ t ht).2, others_render hc hr, Nat.zero_add]
        have h2 := others_fits hw
        rw [he, others_append] at h1
        have h3 : others u = 0 := by omega
        exact prefix_unique (P := componentChars.contains)
          (fun c hm => by simpa using (hc _ t ht).2 c hm)
          (fun c hm => by simpa using others_zero.1 h3 c hm) hstart' (hstart w hw) he
      generalize hs : t ++ r = s at hf
      cases hf with
      | hard k' c' i' hw =>
        obtain ⟨rfl, rfl⟩ := main _ _ hs hw
        intro k c i hm
        rcases List.mem_cons.1 hm with he | hm
        · cases he
          exact ht
        · exact ih hd1 hr hw k c i hm
      | fld _ u hno _ hw =>
        obtain ⟨rfl, rfl⟩ := main _ _ hs hw
        intro k c i hm
        rcases List.mem_cons.1 hm with he | hm
        · cases he
          exact absurd rfl (hno k c i)
        · exact ih hd1 hr hw k c i hm

/-! ## Matching -/

/-- The name with its index, if it has one. -/
def rename (idx : Str → Option Str) (n : Str) : Str := (idx n).elim n (withIndex n)

def renameE (idx : Str → Option Str) (e : Str × Str) : Str × Str := (rename idx e.1, e.2)

theorem rename_base {idx : Str → Option Str} {n : Str} (h : '[' ∉ n) :
    (rename idx n).takeWhile (· ≠ '[') = n := by
  have h1 : ∀ x ∈ n, decide (x ≠ '[') = true := fun x hx => by
    simp only [ne_eq, decide_not, Bool.not_eq_eq_eq_not, Bool.not_true, decide_eq_false_iff_not]
    exact fun he => h (he ▸ hx)
  unfold rename
  cases idx n with
  | none => exact takeWhile_all h1
  | some i =>
    have e : withIndex n i = n ++ '[' :: (i ++ ']' :: []) := by simp [withIndex]
    rw [Option.elim_some, e, takeWhile_stop h1 (by decide)]

theorem rename_inj {idx : Str → Option Str} {n m : Str} (hn : '[' ∉ n) (hm : '[' ∉ m)
    (h : rename idx n = rename idx m) : n = m := by
  rw [← rename_base (idx := idx) hn, h, rename_base hm]

theorem get?_rename {idx : Str → Option Str} {env : PyDict Str Str} (he : ∀ e ∈ env, '[' ∉ e.1)
    {n : Str} (hn : '[' ∉ n) : get? (env.map (renameE idx)) (rename idx n) = get? env n := by
  induction env with
  | nil => rfl
  | cons e env ih =>
    simp only [List.mem_cons, forall_eq_or_imp] at he
    simp only [List.map_cons, renameE, get?]
    by_cases h : e.1 = n
    · simp [h]
    · rw [if_neg h, if_neg fun h' => h (rename_inj he.1 hn h')]
      exact ih he.2

theorem set_rename {idx : Str → Option Str} {env : PyDict Str Str} (he : ∀ e ∈ env, '[' ∉ e.1)
    {n t : Str} (hn : '[' ∉ n) : PyDict.set (env.map (renameE idx)) (rename idx n) t =
      (PyDict.set env n t).map (renameE idx) := by
  induction env with
  | nil => rfl
  | cons e env ih =>
    simp only [List.mem_cons, forall_eq_or_imp] at he
    simp only [List.map_cons, PyDict.set]
    by_cases h : e.1 = n
    · simp [renameE, h]
    · have hne : ¬ (renameE idx e).1 = rename idx n := fun h' => h (rename_inj he.1 hn h')
      rw [if_neg h, if_neg hne, List.map_cons]
      congr 1
      exact ih he.2

theorem lazyFld_map {R S : Type} (g : R → S) (k : Str → Str → Option R) (k' : Str → Str → Option S)
    (h : ∀ a b, k' a b = (k a b).map g) (pre s : Str) :
    lazyFld k' pre s = (lazyFld k pre s).map g := by
  induction s generalizing pre with
  | nil => rfl
  | cons c s ih =>
    simp only [lazyFld, h]
    cases k (pre ++ [c]) s with
    | none => exact ih _
    | some r => rfl

theorem lazyMatch_rename {idx : Str → Option Str} {T : List Tok}
    (hT : ∀ f, .fld f ∈ T → ∃ n, '[' ∉ n ∧ fldName (strip f) = some n ∧
      fldName f = some (rename idx n)) (env : PyDict Str Str) (he : ∀ e ∈ env, '[' ∉ e.1) (s : Str) :
    lazyMatch T (env.map (renameE idx)) s =
      (lazyMatch (T.map stripTok) env s).map (·.map (renameE idx)) := by
  induction T generalizing env s with
  | nil => cases s <;> rfl
  | cons x T ih =>
    have hT' := fun f hf => hT f (List.mem_cons_of_mem x hf)
    cases x with
    | ch p =>
      cases s with
      | nil => rfl
      | cons c s =>
        simp only [List.map_cons, stripTok, lazyMatch]
        split
        · exact ih hT' env he s
        · rfl
    | fld f =>
      obtain ⟨n, hn, h1, h2⟩ := hT f (by simp)
      simp only [List.map_cons, stripTok, lazyMatch, h1, h2, get?_rename he hn]
      cases get? env n with
      | some v =>
        simp only
        cases dropPrefix? v s with
        | none => rfl
        | some r => exact ih hT' env he r
      | none =>
        simp only
        refine lazyFld_map _ _ _ (fun a b => ?_) [] s
        rw [set_rename he hn]
        refine ih hT' _ (fun e hm => ?_) b
        rcases mem_set (k' := e.1) (v' := e.2) hm with ⟨h, -⟩ | h
        · rw [h]; exact hn
        · exact he _ h

/-- The index of a name in a template. -/
def idxOf (T : List Tok) (n : Str) : Option Str :=
  T.findSome? fun
    | .ch _ => none
    | .fld f => if fldName (strip f) = some n then hardText f else none

section
variable {cls : FieldCls} {kt : KeyTypes} {T : List Tok} (hH : HardCoded cls kt T)
include hH

theorem idxOf_some {n i : Str} (h : idxOf T n = some i) :
    ∃ k c, .fld (hard k c i) ∈ T ∧ n = k ++ '.' :: c := by
  obtain ⟨x, hx, h⟩ := List.exists_of_findSome?_eq_some h
  cases x with
  | ch c => cases h
  | fld f =>
    simp only at h
    split at h
    · rename_i hn
      obtain ⟨k, c, rfl⟩ := hardText_some h
      rw [strip_hard] at hn
      cases hn
      exact ⟨k, c, hx, rfl⟩
    · cases h

theorem hard_names {f : Fld} (hf : .fld f ∈ T) : ∃ n, '[' ∉ n ∧ fldName (strip f) = some n ∧
    fldName f = some (rename (idxOf T) n) := by
  have hb := hard_strip_mem hH hf
  obtain ⟨n, hn⟩ : ∃ n, fldName (strip f) = some n := by
    rcases disc_name hH.base hb with ⟨-, h⟩ | ⟨k, -, c, -, -, -, h⟩ <;> exact ⟨_, h⟩
  refine ⟨n, disc_bracket hH.base hb hn, hn, ?_⟩
  have huniq : ∀ g, .fld g ∈ T → fldName (strip g) = some n → strip g = strip f := fun g hg hgn =>
    disc_inj hH.base (hard_strip_mem hH hg) hb hgn hn
  rcases hH.shape f hf with ⟨k, c, i, rfl⟩ | hno
  · have hi : idxOf T n = some i := by
      cases hx : idxOf T n with
      | none =>
        have := List.findSome?_eq_none_iff.1 hx _ hf
        simp [hn, hardText_hard] at this
      | some j =>
        obtain ⟨k', c', hm, he⟩ := idxOf_some hH hx
        have hu := huniq _ hm (by rw [strip_hard, he]; rfl)
        rw [strip_hard, strip_hard] at hu
        cases hu
        have := hH.consistent k c i hf _ hm rfl rfl
        cases this
        rfl
    rw [strip_hard] at hn
    cases hn
    unfold rename
    rw [hi]
    rfl
  · have hi : idxOf T n = none := by
      cases hx : idxOf T n with
      | none => rfl
      | some j =>
        obtain ⟨k', c', hm, he⟩ := idxOf_some hH hx
        have hu := huniq _ hm (by rw [strip_hard, he]; rfl)
        rw [strip_hard, strip_of_no_idx hno] at hu
        have := hH.consistent k' c' j hm f hf (by rw [← hu]) (by rw [← hu]; rfl)
        exact absurd (by rw [this]; simp [hard]) (hno j)
    unfold rename
    rw [hi, Option.elim_none, ← hn, strip_of_no_idx hno]

theorem plain_mem : .fld (plain ifpName) ∈ unindexed T ↔ .fld (plain ifpName) ∈ T := by
  rw [unindexed_eq]
  constructor
  · intro h
    obtain ⟨x, hx, he⟩ := List.mem_map.1 h
    cases x with
    | ch c => cases he
    | fld f =>
      simp only [stripTok, Tok.fld.injEq] at he
      rcases hH.shape f hx with ⟨k, c, i, rfl⟩ | hno
      · simp [strip_hard, plain] at he
      · rw [strip_of_no_idx hno] at he
        rw [← he]
        exact hx
  · exact fun h => List.mem_map.2 ⟨_, h, rfl⟩

theorem strip_strip : (unindexed T).map stripTok = T.map stripTok := by
  rw [unindexed_eq, List.map_map]
  refine List.map_congr_left fun x _ => ?_
  cases x with
  | ch c => rfl
  | fld f => simp [stripTok, strip, List.filter_filter]

theorem genFile_hard {fp : Option Fp} {pk : PKey} {p : FilePartition} :
    genFile ⟨print T, some kt⟩ fp pk = .ok p ↔ genFile ⟨print (unindexed T), some kt⟩ fp pk = .ok p := by
  constructor
  · intro h
    obtain ⟨h1, h2, h3, h4, h5⟩ := genFile_ok hH.ok h
    rw [← strip_strip hH] at h5
    rw [genFile_of hH.base.ok h3 (h4.trans (plain_mem hH).symm) h5, ← h1, ← h2]
  · intro h
    obtain ⟨h1, h2, h3, h4, h5⟩ := genFile_ok hH.base.ok h
    rw [strip_strip hH] at h5
    rw [genFile_of hH.ok h3 (h4.trans (plain_mem hH)) h5, ← h1, ← h2]

theorem partitionAt_hard {fp : Option Fp} {pk : PKey} {path : Str} :
    PartitionAt kt T fp pk path ↔ PartitionAt kt (unindexed T) fp pk path :=
  ⟨fun h => ⟨h.conforms, h.range, (genFile_hard hH).1 h.path⟩,
    fun h => ⟨h.conforms, h.range, (genFile_hard hH).2 h.path⟩⟩

theorem snapAll_hard {β : Type} {hash : β → Fp} {files : PyDict Str β}
    {ms : List (Option Fp × PKey)} {snaps : List (Snap FilePartition)}
    (h : snapAll hash files ⟨print (unindexed T), some kt⟩ ms = .ok snaps) :
    snapAll hash files ⟨print T, some kt⟩ ms = .ok snaps := by
  induction ms generalizing snaps with
  | nil => exact h
  | cons m ms ih =>
    obtain ⟨fp, pk⟩ := m
    simp only [snapAll, bind, Except.bind] at h ⊢
    cases hg : genFile ⟨print (unindexed T), some kt⟩ fp pk with
    | error e => rw [hg] at h; cases h
    | ok p =>
      rw [hg] at h
      rw [(genFile_hard hH).2 hg]
      simp only at h ⊢
      cases hs : snapFile hash files p with
      | error e => rw [hs] at h; cases h
      | ok s =>
        rw [hs] at h
        simp only at h ⊢
        cases hr : snapAll hash files ⟨print (unindexed T), some kt⟩ ms with
        | error e => rw [hr] at h; cases h
        | ok ss =>
          rw [hr] at h
          rw [ih hr]
          exact h

theorem fieldText_hard {fp : Option Fp} {pk : PKey} {k c i : Str} (hf : .fld (hard k c i) ∈ T) :
    fieldText fp pk ⟨k, [.attr c], []⟩ = .ok i ↔
      ∃ v cv, get? pk k = some v ∧ component v c = some cv ∧ formatComp cv [] = .ok i := by
  have hk : k ∈ keys kt := by
    rcases hH.base.fields _ (hard_strip_mem hH hf) with h | ⟨k', hk, c', h⟩
    · cases h
    · rw [strip_hard] at h; cases h; exact hk
  have hne : k ≠ ifpName := fun he => hH.base.noIfp (he ▸ hk)
  have ha : argOf fp pk k = (get? pk k).map .field := by
    unfold argOf
    cases fp <;> simp [hne]
  simp only [fieldText, ha]
  cases get? pk k with
  | none => simp
  | some v =>
    simp only [Option.map_some]
    cases hc : component v c with
    | none => simp [hc]
    | some cv => simp [hc]

/-- The path of a partition that has the hard-coded texts is read as without them. -/
theorem match_hard {fp : Option Fp} {pk : PKey} {path : Str}
    (hp : PartitionAt kt (unindexed T) fp pk path) (hh : HasHardCoded T pk) :
    ∃ named, lazyMatch (unindexed T) [] path = some named ∧ expand named = .ok named ∧
      ∃ named', lazyMatch T [] path = some named' ∧ expand named' = .ok named := by
  obtain ⟨named, pk', e1, ex, hn, hs, -, -, -⟩ := extract_path hH.base hp
  refine ⟨named, e1, ex, named.map (renameE (idxOf T)), ?_, ?_⟩
  · have := lazyMatch_rename (idx := idxOf T) (T := T) (fun f hf => hard_names hH hf) [] (by simp) path
    rw [← unindexed_eq, e1] at this
    exact this
  · refine expand_ok (idx := idxOf T) ?_ ?_ hn
    · intro e he
      obtain ⟨f, hf, hfn, -⟩ := hs e.1 e.2 he
      exact disc_bracket hH.base hf hfn
    · intro e he i hi
      obtain ⟨k, c, hm, hnm⟩ := idxOf_some hH hi
      have hok := (fldOk_iff.1 (List.all_eq_true.1 hH.ok _ hm)).2.1
      simp only [hard, List.all_cons, List.all_nil, Bool.and_true, Bool.and_eq_true, Spec.accOk,
        List.all_eq_true] at hok
      refine ⟨fun hb => absurd (hok.2.2 _ hb) (by decide), ?_⟩
      obtain ⟨f, hf, hfn, ht⟩ := hs e.1 e.2 he
      have hfe : f = ⟨k, [.attr c], []⟩ := by
        refine disc_inj hH.base hf (hard_strip_mem hH hm) hfn ?_
        rw [hnm]
        rfl
      rw [hfe, (fieldText_hard hH hm).2 (hh k c i hm)] at ht
      exact (Except.ok.inj ht).symm

theorem parseSpec_hard {ifps : InputFps} {paths : List Str}
    (hp : ∀ path ∈ paths, ∃ fp pk, PartitionAt kt (unindexed T) fp pk path ∧ HasHardCoded T pk) :
    parseSpec T kt ifps paths = parseSpec (unindexed T) kt ifps paths := by
  induction paths with
  | nil => rfl
  | cons path paths ih =>
    simp only [List.mem_cons, forall_eq_or_imp] at hp
    obtain ⟨fp, pk, h1, h2⟩ := hp.1
    obtain ⟨named, e1, ex, named', e2, ex'⟩ := match_hard hH h1 h2
    simp only [parseSpec, e1, e2, ex, ex', bind, Except.bind, ih hp.2]

end

end Arti.Fmt
