import Verif.Spec.Hints
import Mathlib.Data.List.Forall2

/-!
# Lemmas about `lenient_issubclass`
-/

namespace Arti
namespace TH
open Spec
set_option linter.unusedSectionVars false
variable {C : Type} [DecidableEq C] {H : Hier C}

theorem classHints_mem : ∀ {hs : List (Hint C)}, ClassHints H hs = true → ∀ h ∈ hs, ClassHint H h = true
  | [], _, h, hm => by cases hm
  | g :: gs, hc, h, hm => by
    simp only [ClassHints, Bool.and_eq_true] at hc
    rcases List.mem_cons.1 hm with rfl | hm
    · exact hc.1
    · exact classHints_mem hc.2 h hm

theorem inHeaps_mem {heap : Nat → Hint C} :
    ∀ {hs : List (Hint C)}, InHeaps heap hs → ∀ h ∈ hs, InHeap heap h
  | [], _, h, hm => by cases hm
  | g :: gs, hc, h, hm => by
    simp only [InHeaps] at hc
    rcases List.mem_cons.1 hm with rfl | hm
    · exact hc.1
    · exact inHeaps_mem hc.2 h hm

/-- The body of `_check_issubclass` on hints without `Annotated` and type variables, when nothing
raises: `P` says which arguments are accepted. -/
theorem isSame_any {k : Hint C} : isSame k .any = true ↔ k = .any := by
  cases k <;> simp [isSame, ident]

theorem isSame_none {k : Hint C} : isSame k .none = true ↔ k = .none := by
  cases k <;> simp [isSame, ident]

theorem isSame_cls {k : Hint C} {c : C} : isSame k (.cls c) = true ↔ k = .cls c := by
  cases k <;> simp [isSame, ident]

theorem isSame_refl (k : Hint C) : isSame k k = true := by simp [isSame]

theorem heap_of_ident {heap : Nat → Hint C} {a : Hint C} (ha : InHeap heap a) {i : Nat}
    (h : ident a = .obj i) : heap i = a := by
  cases a <;> simp only [ident, reduceCtorEq, Ident.obj.injEq] at h <;> subst h <;>
    simp only [InHeap] at ha
  all_goals first | exact ha | exact ha.1

theorem isSame_eq {heap : Nat → Hint C} {a b : Hint C} (ha : InHeap heap a) (hb : InHeap heap b)
    (h : isSame a b = true) : a = b := by
  simp only [isSame, decide_eq_true_eq] at h
  cases hi : ident b with
  | obj i => rw [← heap_of_ident ha (h.trans hi), heap_of_ident hb hi]
  | any => rw [hi] at h; cases a <;> simp [ident] at h; cases b <;> simp [ident] at hi; rfl
  | none => rw [hi] at h; cases a <;> simp [ident] at h; cases b <;> simp [ident] at hi; rfl
  | ellipsis => rw [hi] at h; cases a <;> simp [ident] at h; cases b <;> simp [ident] at hi; rfl
  | cls c =>
    rw [hi] at h
    cases a <;> simp [ident] at h; cases b <;> simp [ident] at hi
    rw [h, hi]

/-- A bare hint: what remains after `Annotated` and type variables are gone. -/
inductive Bare (H : Hier C) : Hint C → Prop
  | any : Bare H .any
  | none : Bare H .none
  | cls (c) : Bare H (.cls c)
  | gen (i o args) (hn : o ≠ H.noneType) (h : ClassHints H args = true) : Bare H (.gen i o args)
  | tgen (i o args) (hn : o ≠ H.noneType) (h : ClassHints H args = true) : Bare H (.tgen i o args)

/-- A class hint that is not a union is bare after `bare`. -/
theorem bare_of_classHint {h : Hint C} (hc : ClassHint H h = true) (hu : isUnionHint h = false) :
    Bare H (bare h) := by
  cases h with
  | any => exact .any
  | none => exact .none
  | ellipsis => simp [ClassHint] at hc
  | cls c => exact .cls c
  | tdict i n f => simp [ClassHint] at hc
  | gen i o as => exact .gen _ _ _ (by simp_all [ClassHint]) (by simp_all [ClassHint])
  | tgen i o as => exact .tgen _ _ _ (by simp_all [ClassHint]) (by simp_all [ClassHint])
  | union i as => simp [isUnionHint] at hu
  | unionT i as => simp [isUnionHint] at hu
  | literal i l => simp [ClassHint] at hc
  | tvar i => exact .any
  | tvarB i b =>
    simp only [ClassHint, Bool.and_eq_true] at hc
    cases b <;> simp [bound] at hc
    · exact .any
    · exact .cls _
    · exact .gen _ _ _ (by simp_all [ClassHint]) (by simp_all [ClassHint])
    · exact .tgen _ _ _ (by simp_all [ClassHint]) (by simp_all [ClassHint])
  | annotated i b =>
    simp only [ClassHint, Bool.and_eq_true] at hc
    cases b <;> simp [inner] at hc
    · exact .any
    · exact .cls _
    · exact .gen _ _ _ (by simp_all [ClassHint]) (by simp_all [ClassHint])
    · exact .tgen _ _ _ (by simp_all [ClassHint]) (by simp_all [ClassHint])
    · exact .any
    · rename_i b
      simp only [ClassHint, Bool.and_eq_true] at hc
      cases b <;> simp [bound] at hc
      · exact .any
      · exact .cls _
      · exact .gen _ _ _ (by simp_all [ClassHint]) (by simp_all [ClassHint])
      · exact .tgen _ _ _ (by simp_all [ClassHint]) (by simp_all [ClassHint])

theorem bare_inHeap {heap : Nat → Hint C} {h : Hint C} (hh : InHeap heap h) :
    InHeap heap (bare h) := by
  have h1 : ∀ g : Hint C, InHeap heap g → InHeap heap (unbind g) := by
    intro g hg; cases g <;> simp_all [unbind, InHeap]
  have h2 : InHeap heap (discardAnnotated h) := by
    cases h <;> simp_all [discardAnnotated, InHeap]
  exact h1 _ h2

theorem getArgs_inHeap {heap : Nat → Hint C} {h : Hint C} (hh : InHeap heap h) :
    InHeaps heap (getArgs h) := by
  cases h <;> simp_all [getArgs, InHeap, InHeaps]

theorem getArgs_classHints {h : Hint C} (hb : ClassHint H h = true) :
    ClassHints H (getArgs h) = true := by
  cases h <;> simp_all [getArgs, ClassHint, ClassHints]

theorem Bare.args {h : Hint C} (hb : Bare H h) : ClassHints H (getArgs h) = true := by
  cases hb <;> simp_all [getArgs, ClassHints]

/-- The shape of a bare hint that is neither `Any` nor `None`: a class with arguments, if any. -/
theorem hasArgs_eq {h : Hint C} (hl : isLiteral h = false) : hasArgs h = !(getArgs h).isEmpty := by
  cases h <;> simp_all [hasArgs, isLiteral]

theorem lenientAny_of {k : Hint C} {cs : List (Hint C)}
    (ht : ∀ c ∈ cs, ∃ b, lenient H k c = .ok b) :
    (lenientAny H k cs = .ok true ∧ ∃ c ∈ cs, lenient H k c = .ok true) ∨
    (lenientAny H k cs = .ok false ∧ ∀ c ∈ cs, lenient H k c = .ok false) := by
  induction cs with
  | nil => right; simp [lenientAny]
  | cons c cs ih =>
    have ih := ih (fun c hc => ht c (List.mem_cons_of_mem _ hc))
    obtain ⟨b, hb⟩ := ht c (List.mem_cons_self)
    cases b with
    | true => left; simp [lenientAny, hb]
    | false =>
      rcases ih with ⟨h1, h2⟩ | ⟨h1, h2⟩
      · left
        obtain ⟨c', hc', h'⟩ := h2
        exact ⟨by simp [lenientAny, hb, h1], c', List.mem_cons_of_mem _ hc', h'⟩
      · right
        refine ⟨by simp [lenientAny, hb, h1], ?_⟩
        intro c' hc'
        rcases List.mem_cons.1 hc' with rfl | hc'
        · exact hb
        · exact h2 _ hc'

/-- One pair of arguments is accepted. -/
def ArgOk (H : Hier C) (a b : Hint C) : Prop := lenient H a b = .ok true ∨ isSame a b = true

theorem lenientArgs_of : ∀ {ks cs : List (Hint C)}, ks.length = cs.length →
    (∀ c ∈ cs, ∀ k ∈ ks, ∃ b, lenient H k c = .ok b) →
    (lenientArgs H ks cs = .ok true ∧ List.Forall₂ (ArgOk H) ks cs) ∨
    (lenientArgs H ks cs = .ok false ∧ ¬ List.Forall₂ (ArgOk H) ks cs)
  | [], [], _, _ => by left; simp [lenientArgs]
  | [], _ :: _, h, _ => by simp at h
  | _ :: _, [], h, _ => by simp at h
  | k :: ks, c :: cs, hlen, ht => by
    have ih := lenientArgs_of (ks := ks) (cs := cs) (by simpa using hlen)
      (fun c hc k hk => ht c (List.mem_cons_of_mem _ hc) k (List.mem_cons_of_mem _ hk))
    obtain ⟨b, hb⟩ := ht c List.mem_cons_self k List.mem_cons_self
    by_cases hok : (b || isSame k c) = true
    · have hok' : ArgOk H k c := by
        unfold ArgOk
        cases b with
        | true => left; exact hb
        | false => right; simpa using hok
      rcases ih with ⟨h1, h2⟩ | ⟨h1, h2⟩
      · left; exact ⟨by simp [lenientArgs, hb, hok, h1], .cons hok' h2⟩
      · right
        refine ⟨by simp [lenientArgs, hb, hok, h1], ?_⟩
        intro h
        cases h with
        | cons _ h => exact h2 h
    · right
      refine ⟨by simp [lenientArgs, hb, hok], ?_⟩
      intro h
      cases h with
      | cons h _ =>
        rcases h with h | h
        · rw [hb] at h; simp only [Except.ok.injEq] at h; simp [h] at hok
        · simp [h] at hok

theorem bare_ne_none {h : Hint C} (hc : ClassHint H h = true) (hk : classLike h = true) :
    bare h ≠ .none := by
  cases h with
  | annotated i b =>
    simp only [ClassHint, Bool.and_eq_true] at hc
    cases b <;> simp [inner] at hc <;> simp [bare, discardAnnotated, unbind]
    rename_i b
    simp only [ClassHint, Bool.and_eq_true] at hc
    cases b <;> simp [bound] at hc <;> simp
  | tvarB i b =>
    simp only [ClassHint, Bool.and_eq_true] at hc
    cases b <;> simp [bound] at hc <;> simp [bare, discardAnnotated, unbind]
  | _ => simp_all [classLike, bare, discardAnnotated, unbind]

/-- The class of a plain or generic hint. -/
def head : Hint C → Option C
  | .cls c => some c
  | .gen _ o _ => some o
  | .tgen _ o _ => some o
  | _ => Option.none

/-- What `_check_issubclass` decides for bare hints. -/
def Rel (H : Hier C) (k c : Hint C) : Prop :=
  c = .any ∨ (k ≠ .any ∧ ((c = .none ∧ k = .cls H.noneType) ∨
    ∃ o o', head k = some o ∧ head c = some o' ∧ H.issub o o' = .ok true ∧
      (getArgs c = [] ∨ List.Forall₂ (ArgOk H) (getArgs k) (getArgs c))))

theorem check_of (hl : LawfulHier H) {k c : Hint C} (hk : Bare H (bare k)) (hkn : bare k ≠ .none)
    (hc : Bare H (bare c))
    (ht : ∀ c' ∈ getArgs (bare c), ∀ k' ∈ getArgs (bare k), ∃ b, lenient H k' c' = .ok b) :
    (checkIssubclass H k c = .ok true ∧ Rel H (bare k) (bare c)) ∨
    (checkIssubclass H k c = .ok false ∧ ¬ Rel H (bare k) (bare c)) := by
  unfold checkIssubclass
  generalize bare k = k at *
  generalize bare c = c at *
  have hpair : ∀ (ks cs : List (Hint C)) (o o' : C),
      (∀ c' ∈ cs, ∀ k' ∈ ks, ∃ b, lenient H k' c' = .ok b) → ∀ r : Except Err Bool,
      r = (if cs.isEmpty = false then
            if ks.length = cs.length then
              pyAnd (lenientArgs H ks cs) (H.issub o o')
            else .ok false
          else H.issub o o') →
      (r = .ok true ∧ (H.issub o o' = .ok true ∧ (cs = [] ∨ List.Forall₂ (ArgOk H) ks cs))) ∨
      (r = .ok false ∧ ¬ (H.issub o o' = .ok true ∧ (cs = [] ∨ List.Forall₂ (ArgOk H) ks cs))) := by
    intro ks cs o o' ht r hr
    obtain ⟨b, hb⟩ := hl.total o o'
    subst hr
    cases cs with
    | nil => cases b <;> simp [hb]
    | cons c cs =>
      by_cases hlen : ks.length = (c :: cs).length
      · rcases lenientArgs_of hlen ht with ⟨h1, h2⟩ | ⟨h1, h2⟩
        · cases b <;> simp [hlen, h1, h2, hb, pyAnd]
        · simp [hlen, h1, h2, pyAnd]
      · have : ¬ List.Forall₂ (ArgOk H) ks (c :: cs) := fun h => hlen h.length_eq
        right
        refine ⟨by simp only [List.isEmpty_cons, if_true, if_neg hlen], by simp [this]⟩
  cases hk with
  | any =>
    cases hc <;> simp [isSame, ident, Rel, head]
  | none => exact absurd rfl hkn
  | cls d =>
    cases hc with
    | any => simp [isSame, ident, Rel]
    | none =>
      by_cases h : d = H.noneType <;> simp [isSame, ident, Rel, h, head]
    | cls e =>
      obtain ⟨b, hb⟩ := hl.total d e
      cases b <;> simp [isSame, ident, Rel, head, getOrigin, issubclassHint, issubclassCls, hb, getArgs]
    | gen i o as hn h =>
      obtain ⟨b, hb⟩ := hl.total d o
      cases as <;> cases b <;> simp [isSame, ident, Rel, head, getOrigin, issubclassToOrigin,
        issubclassCls, hb, getArgs, hasArgs]
    | tgen i o as hn h =>
      obtain ⟨b, hb⟩ := hl.total d o
      cases as <;> cases b <;> simp [isSame, ident, Rel, head, getOrigin, issubclassToOrigin,
        issubclassCls, hb, getArgs, hasArgs]
  | gen i o as hn h =>
    cases hc with
    | any => simp [isSame, ident, Rel]
    | none => simp [isSame, ident, Rel, head]
    | cls e =>
      obtain ⟨b, hb⟩ := hl.total o e
      cases b <;> simp [isSame, ident, Rel, head, getOrigin, issubclassOrigin, issubclassHint,
        issubclassCls, hb, getArgs]
    | gen j o' as' hn' h' =>
      have := hpair as as' o o' (by simpa [getArgs] using ht) _ rfl
      by_cases hlen : as.length = as'.length <;> cases as' <;>
        simp only [List.length_cons, List.length_nil] at hlen <;>
        simpa [isSame, ident, Rel, head, getOrigin, isLiteral, hasArgs, lenientOrigins, getArgs, hlen]
          using this
    | tgen j o' as' hn' h' =>
      have := hpair as as' o o' (by simpa [getArgs] using ht) _ rfl
      by_cases hlen : as.length = as'.length <;> cases as' <;>
        simp only [List.length_cons, List.length_nil] at hlen <;>
        simpa [isSame, ident, Rel, head, getOrigin, isLiteral, hasArgs, lenientOrigins, getArgs, hlen]
          using this
  | tgen i o as hn h =>
    cases hc with
    | any => simp [isSame, ident, Rel]
    | none => simp [isSame, ident, Rel, head]
    | cls e =>
      obtain ⟨b, hb⟩ := hl.total o e
      cases b <;> simp [isSame, ident, Rel, head, getOrigin, issubclassOrigin, issubclassHint,
        issubclassCls, hb, getArgs]
    | gen j o' as' hn' h' =>
      have := hpair as as' o o' (by simpa [getArgs] using ht) _ rfl
      by_cases hlen : as.length = as'.length <;> cases as' <;>
        simp only [List.length_cons, List.length_nil] at hlen <;>
        simpa [isSame, ident, Rel, head, getOrigin, isLiteral, hasArgs, lenientOrigins, getArgs, hlen]
          using this
    | tgen j o' as' hn' h' =>
      have := hpair as as' o o' (by simpa [getArgs] using ht) _ rfl
      by_cases hlen : as.length = as'.length <;> cases as' <;>
        simp only [List.length_cons, List.length_nil] at hlen <;>
        simpa [isSame, ident, Rel, head, getOrigin, isLiteral, hasArgs, lenientOrigins, getArgs, hlen]
          using this

theorem sizeOf_args_bare {c c' : Hint C} (h : c' ∈ getArgs (bare c)) : sizeOf c' < sizeOf c := by
  have h1 := List.sizeOf_lt_of_mem h
  have h2 := sizeOf_getArgs_le (bare c)
  have h3 := sizeOf_bare_le c
  omega

theorem sizeOf_args {c c' : Hint C} (h : c' ∈ getArgs c) : sizeOf c' < sizeOf c := by
  have h1 := List.sizeOf_lt_of_mem h
  have h2 := sizeOf_getArgs_le c
  omega

/-- On class hints, `lenient_issubclass` never raises. -/
theorem lenient_total (hl : LawfulHier H) : ∀ (n : Nat) (k c : Hint C), sizeOf c < n →
    ClassHint H k = true → ClassHint H c = true → ∃ b, lenient H k c = .ok b
  | 0, _, _, h, _, _ => by omega
  | n + 1, k, c, hn, hk, hc => by
    unfold lenient
    by_cases hcl : classLike k = true
    · rw [if_pos hcl]
      by_cases hu : isUnionHint c = true
      · rw [if_pos hu]
        have ht : ∀ c' ∈ getArgs c, ∃ b, lenient H k c' = .ok b := fun c' hm =>
          lenient_total hl n k c' (by have := sizeOf_args hm; omega) hk
            (classHints_mem (getArgs_classHints hc) c' hm)
        rcases lenientAny_of ht with ⟨h, _⟩ | ⟨h, _⟩ <;> exact ⟨_, h⟩
      · rw [if_neg hu]
        have hku : isUnionHint k = false := by cases k <;> simp_all [classLike, isUnionHint]
        have hbk := bare_of_classHint hk hku
        have hbc := bare_of_classHint hc (by simpa using hu)
        rcases check_of hl hbk (bare_ne_none hk hcl) hbc (fun c' hm k' hm' =>
          lenient_total hl n k' c' (by have := sizeOf_args_bare hm; omega)
            (classHints_mem hbk.args k' hm') (classHints_mem hbc.args c' hm)) with ⟨h, _⟩ | ⟨h, _⟩ <;>
        exact ⟨_, h⟩
    · exact ⟨_, by rw [if_neg hcl]⟩

theorem total (hl : LawfulHier H) {k c : Hint C} (hk : ClassHint H k = true)
    (hc : ClassHint H c = true) : ∃ b, lenient H k c = .ok b :=
  lenient_total hl _ k c (Nat.lt_succ_self _) hk hc

/-- For a hint on the right that is not a union, `lenient_issubclass` is `Rel`. -/
theorem lenient_iff_rel (hl : LawfulHier H) {k c : Hint C} (hk : ClassHint H k = true)
    (hc : ClassHint H c = true) (hcl : classLike k = true) (hu : isUnionHint c = false) :
    lenient H k c = .ok true ↔ Rel H (bare k) (bare c) := by
  unfold lenient
  rw [if_pos hcl, if_neg (by simpa using hu)]
  have hku : isUnionHint k = false := by cases k <;> simp_all [classLike, isUnionHint]
  have hbk := bare_of_classHint hk hku
  have hbc := bare_of_classHint hc hu
  rcases check_of hl hbk (bare_ne_none hk hcl) hbc (fun c' hm k' hm' =>
    total hl (classHints_mem hbk.args k' hm') (classHints_mem hbc.args c' hm)) with ⟨h, h'⟩ | ⟨h, h'⟩
  · simp [h, h']
  · simp [h, h']

theorem lenient_union_iff (hl : LawfulHier H) {k c : Hint C} (hk : ClassHint H k = true)
    (hc : ClassHint H c = true) (hcl : classLike k = true) (hu : isUnionHint c = true) :
    lenient H k c = .ok true ↔ ∃ c' ∈ getArgs c, lenient H k c' = .ok true := by
  rw [lenient, if_pos hcl, if_pos hu]
  rcases lenientAny_of (fun c' hm => total hl hk (classHints_mem (getArgs_classHints hc) c' hm))
    with ⟨h, h'⟩ | ⟨h, h'⟩
  · simp only [h, true_iff]; exact h'
  · simp only [h, Except.ok.injEq, Bool.false_eq_true, false_iff, not_exists, not_and]
    intro c' hm he
    rw [h' c' hm] at he
    simp at he

theorem classLike_of_true {k c : Hint C} (h : lenient H k c = .ok true) : classLike k = true := by
  unfold lenient at h
  by_cases hcl : classLike k = true
  · exact hcl
  · rw [if_neg hcl] at h; simp at h

theorem forall₂_refl' {P : Hint C → Hint C → Prop} :
    ∀ {as : List (Hint C)}, (∀ a ∈ as, P a a) → List.Forall₂ P as as
  | [], _ => .nil
  | a :: _as, h => .cons (h a List.mem_cons_self)
      (forall₂_refl' fun b hb => h b (List.mem_cons_of_mem _ hb))

theorem lenient_refl (hl : LawfulHier H) : ∀ (n : Nat) (a : Hint C), sizeOf a < n →
    ClassHint H a = true → classLike a = true → lenient H a a = .ok true
  | 0, _, h, _, _ => by omega
  | n + 1, a, hn, ha, hcl => by
    have hu : isUnionHint a = false := by cases a <;> simp_all [classLike, isUnionHint]
    rw [lenient_iff_rel hl ha ha hcl hu]
    have hb := bare_of_classHint ha hu
    have hne := bare_ne_none ha hcl
    have hargs : List.Forall₂ (ArgOk H) (getArgs (bare a)) (getArgs (bare a)) := by
      apply forall₂_refl'
      intro b hm
      have hcb := classHints_mem hb.args b hm
      by_cases hclb : classLike b = true
      · exact .inl (lenient_refl hl n b (by have := sizeOf_args_bare hm; omega) hcb hclb)
      · exact .inr (isSame_refl b)
    generalize bare a = b at *
    cases hb with
    | any => exact .inl rfl
    | none => exact absurd rfl hne
    | cls c => exact .inr ⟨by simp, .inr ⟨c, c, rfl, rfl, hl.refl c, .inl rfl⟩⟩
    | gen i o as hn h => exact .inr ⟨by simp, .inr ⟨o, o, rfl, rfl, hl.refl o, .inr hargs⟩⟩
    | tgen i o as hn h => exact .inr ⟨by simp, .inr ⟨o, o, rfl, rfl, hl.refl o, .inr hargs⟩⟩

theorem lenient_trans {heap : Nat → Hint C} (hl : LawfulHier H) : ∀ (n : Nat) (a b c : Hint C),
    sizeOf c < n → ClassHint H a = true → ClassHint H b = true → ClassHint H c = true →
    InHeap heap a → InHeap heap b → InHeap heap c →
    lenient H a b = .ok true → lenient H b c = .ok true → lenient H a c = .ok true
  | 0, _, _, _, h, _, _, _, _, _, _, _, _ => by omega
  | n + 1, a, b, c, hn, ha, hb, hc, hha, hhb, hhc, hab, hbc => by
    have hcla := classLike_of_true hab
    have hclb := classLike_of_true hbc
    by_cases hu : isUnionHint c = true
    · rw [lenient_union_iff hl hb hc hclb hu] at hbc
      obtain ⟨c', hm, h'⟩ := hbc
      rw [lenient_union_iff hl ha hc hcla hu]
      exact ⟨c', hm, lenient_trans hl n a b c' (by have := sizeOf_args hm; omega) ha hb
        (classHints_mem (getArgs_classHints hc) c' hm) hha hhb
        (inHeaps_mem (getArgs_inHeap hhc) c' hm) hab h'⟩
    · have hu : isUnionHint c = false := by simpa using hu
      have hub : isUnionHint b = false := by cases b <;> simp_all [classLike, isUnionHint]
      have hua : isUnionHint a = false := by cases a <;> simp_all [classLike, isUnionHint]
      rw [lenient_iff_rel hl ha hb hcla hub] at hab
      rw [lenient_iff_rel hl hb hc hclb hu] at hbc
      rw [lenient_iff_rel hl ha hc hcla hu]
      have hba := bare_of_classHint ha hua
      have hbb := bare_of_classHint hb hub
      have hbc' := bare_of_classHint hc hu
      have hnb := bare_ne_none hb hclb
      -- transitivity of one pair of arguments
      have harg : ∀ x ∈ getArgs (bare a), ∀ y ∈ getArgs (bare b), ∀ z ∈ getArgs (bare c),
          ArgOk H x y → ArgOk H y z → ArgOk H x z := by
        intro x hx y hy z hz hxy hyz
        have hhx := inHeaps_mem (getArgs_inHeap (bare_inHeap hha)) x hx
        have hhy := inHeaps_mem (getArgs_inHeap (bare_inHeap hhb)) y hy
        have hhz := inHeaps_mem (getArgs_inHeap (bare_inHeap hhc)) z hz
        rcases hxy with hxy | hxy
        · rcases hyz with hyz | hyz
          · exact .inl (lenient_trans hl n x y z (by have := sizeOf_args_bare hz; omega)
              (classHints_mem hba.args x hx) (classHints_mem hbb.args y hy)
              (classHints_mem hbc'.args z hz) hhx hhy hhz hxy hyz)
          · rw [← isSame_eq hhy hhz hyz]; exact .inl hxy
        · rw [isSame_eq hhx hhy hxy]; exact hyz
      have hlist : ∀ (xs ys zs : List (Hint C)),
          (∀ x ∈ xs, ∀ y ∈ ys, ∀ z ∈ zs, ArgOk H x y → ArgOk H y z → ArgOk H x z) →
          List.Forall₂ (ArgOk H) xs ys → List.Forall₂ (ArgOk H) ys zs →
          List.Forall₂ (ArgOk H) xs zs := by
        intro xs ys zs h h1
        induction h1 generalizing zs with
        | nil => intro h2; cases h2; exact .nil
        | @cons x y xs ys hxy _ ih =>
          intro h2
          cases h2 with
          | @cons _ z _ zs hyz h2 =>
            refine .cons (h x List.mem_cons_self y List.mem_cons_self z List.mem_cons_self hxy hyz) ?_
            exact ih zs (fun x hx y hy z hz => h x (List.mem_cons_of_mem _ hx) y
              (List.mem_cons_of_mem _ hy) z (List.mem_cons_of_mem _ hz)) h2
      have hlist := hlist _ _ _ harg
      generalize bare a = a at *
      generalize bare b = b at *
      generalize bare c = c at *
      clear harg
      rcases hbc with rfl | ⟨hbany, hbc⟩
      · exact .inl rfl
      rcases hab with rfl | ⟨haany, hab⟩
      · exact absurd rfl hbany
      right
      refine ⟨haany, ?_⟩
      rcases hab with ⟨rfl, _⟩ | ⟨o, o', ho, ho', hs, hargs⟩
      · exact absurd rfl hnb
      rcases hbc with ⟨rfl, rfl⟩ | ⟨p, p', hp, hp', hs', hargs'⟩
      · -- `b` is the class of `None`
        simp only [head, Option.some.injEq] at ho'
        subst ho'
        have := hl.final _ hs
        subst this
        left
        refine ⟨rfl, ?_⟩
        cases hba with
        | any => simp [head] at ho
        | none => simp [head] at ho
        | cls d => simp [head] at ho; rw [ho]
        | gen i o as hn h => simp [head] at ho; exact absurd ho hn
        | tgen i o as hn h => simp [head] at ho; exact absurd ho hn
      · rw [ho', Option.some.injEq] at hp
        subst hp
        refine .inr ⟨o, p', ho, hp', hl.trans _ _ _ hs hs', ?_⟩
        rcases hargs' with h | h
        · exact .inl h
        · rcases hargs with h0 | h0
          · rw [h0] at h; cases hz : getArgs c with
            | nil => exact .inl rfl
            | cons z zs => rw [hz] at h; cases h
          · exact .inr (hlist h0 h)

end TH
end Arti
