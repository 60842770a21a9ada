import Verif.Lemmas.Literals

/-!
# Lemmas: formatting does not add braces
-/

namespace Arti
namespace Lit
open Fmt Stg Spec

def isBrace (c : Char) : Bool := c = '{' || c = '}'

/-- The number of braces of a text. -/
def braces (s : Str) : Nat := s.countP isBrace

theorem noBraces_iff {s : Str} : NoBraces s ↔ braces s = 0 := by
  unfold NoBraces braces
  rw [List.countP_eq_zero]
  simp [isBrace]

theorem braces_append (s t : Str) : braces (s ++ t) = braces s + braces t := List.countP_append
theorem braces_cons (c : Char) (t : Str) : braces (c :: t) = braces t + if isBrace c then 1 else 0 :=
  List.countP_cons
theorem braces_sublist {s t : Str} (h : s.Sublist t) : braces s ≤ braces t := h.countP_le

theorem noBraces_sublist {s t : Str} (h : s.Sublist t) (ht : NoBraces t) : NoBraces s :=
  fun c hc => ht c (h.subset hc)

/-! ## Fields -/

/-- A field without braces inside. -/
structure FldNB (f : Fld) : Prop where
  first : NoBraces f.first
  accs : ∀ a ∈ f.accs, NoBraces (Fmt.printAcc a)
  spec : NoBraces f.spec

theorem breakOn_append (p : Char → Bool) (s : Str) : (breakOn p s).1 ++ (breakOn p s).2 = s := by
  induction s with
  | nil => rfl
  | cons c s ih => rw [breakOn]; split <;> simp [ih]

theorem breakOn_nb {p : Char → Bool} {s : Str} (h : NoBraces s) :
    NoBraces (breakOn p s).1 ∧ NoBraces (breakOn p s).2 := by
  rw [← breakOn_append p s] at h
  exact ⟨fun c hc => h c (by simp [hc]), fun c hc => h c (by simp [hc])⟩

def AccState.nb : AccState → Prop
  | .start => True
  | .attr acc => NoBraces acc
  | .idx acc => NoBraces acc

theorem normIdx_nb {k : Str} (h : NoBraces k) : NoBraces (normIdx k) := by
  unfold normIdx
  split
  · split
    · decide +kernel
    · rename_i r hr
      refine noBraces_sublist ?_ h
      exact List.dropWhile_sublist _
  · exact h

theorem nb_snoc {s : Str} {c : Char} (h : NoBraces s) (hc : c ≠ '{' ∧ c ≠ '}') :
    NoBraces (s ++ [c]) :=
  noBraces_append h (noBraces_cons hc (by intro d hd; simp at hd))

theorem map_ok {α β : Type} {x : Except Err α} {f : α → β} {b : β} (h : x.map f = .ok b) :
    ∃ a, x = .ok a ∧ f a = b := by
  cases x with
  | error e => simp [Except.map] at h
  | ok a => exact ⟨a, rfl, by simpa [Except.map] using h⟩

theorem nil_nb : NoBraces ([] : Str) := by decide

theorem parseAccs_nb : ∀ (st : AccState) (s : Str) (as : List Acc), AccState.nb st → NoBraces s →
    parseAccs st s = .ok as → ∀ a ∈ as, NoBraces (Fmt.printAcc a) := by
  intro st s
  have attr : ∀ {acc : Str}, NoBraces acc → NoBraces (Fmt.printAcc (.attr acc)) :=
    fun h => noBraces_cons (by decide) h
  have idx : ∀ {acc : Str}, NoBraces acc → NoBraces (Fmt.printAcc (.idx acc)) := fun h =>
    noBraces_append (noBraces_cons (by decide) (normIdx_nb h)) (by decide +kernel)
  have cons : ∀ {x : Acc} {r : Except Err (List Acc)} {as : List Acc}, NoBraces (Fmt.printAcc x) →
      (∀ bs, r = .ok bs → ∀ a ∈ bs, NoBraces (Fmt.printAcc a)) → r.map (x :: ·) = .ok as →
      ∀ a ∈ as, NoBraces (Fmt.printAcc a) := by
    intro x r as hx hr h a ha
    obtain ⟨bs, hb, rfl⟩ := map_ok h
    rcases List.mem_cons.1 ha with h | h
    · subst h; exact hx
    · exact hr bs hb a h
  fun_induction parseAccs st s with
  | case1 => intro as _ _ h a ha; cases h; simp at ha
  | case2 r ih => intro as _ hs h; exact ih as nil_nb (noBraces_tail hs) h
  | case3 r _ ih => intro as _ hs h; exact ih as nil_nb (noBraces_tail hs) h
  | case4 => intro as _ _ h; cases h
  | case5 acc _ => intro as hst _ h; cases h
  | case6 acc _ => intro as hst _ h a ha; cases h; simp at ha; subst ha; exact attr hst
  | case7 => intro as _ _ h; cases h
  | case8 acc r _ ih =>
    intro as hst hs h
    exact cons (attr hst) (fun bs hb => ih bs nil_nb (noBraces_tail hs) hb) h
  | case9 => intro as _ _ h; cases h
  | case10 acc r _ _ ih =>
    intro as hst hs h
    exact cons (attr hst) (fun bs hb => ih bs nil_nb (noBraces_tail hs) hb) h
  | case11 acc c r _ _ ih =>
    intro as hst hs h
    exact ih as (nb_snoc hst (hs c (by simp))) (noBraces_tail hs) h
  | case12 => intro as _ _ h; cases h
  | case13 => intro as _ _ h; cases h
  | case14 acc r _ ih =>
    intro as hst hs h
    exact cons (idx hst) (fun bs hb => ih bs trivial (noBraces_tail hs) hb) h
  | case15 acc c r _ ih =>
    intro as hst hs h
    exact ih as (nb_snoc hst (hs c (by simp))) (noBraces_tail hs) h

theorem parseField_nb {s : Str} {f : Fld} (h : NoBraces s) (hf : parseField s = .ok f) : FldNB f := by
  unfold parseField at hf
  simp only at hf
  split at hf
  · cases hf
  · obtain ⟨as, ha, rfl⟩ := map_ok hf
    have h1 := breakOn_nb (p := (· = ':')) h
    have h2 := breakOn_nb (p := fun c => c = '.' || c = '[') h1.1
    exact ⟨h2.1, parseAccs_nb .start _ as trivial h2.2 ha, noBraces_sublist (List.drop_sublist _ _) h1.2⟩

/-! ## Tokens -/

/-- The number of braces that a token is written with. -/
def weight : Tok → Nat
  | .ch c => if isBrace c then 2 else 0
  | .fld _ => 2

def weights (T : List Tok) : Nat := (T.map weight).sum

/-- The fields of a template have no braces inside. -/
def ToksNB (T : List Tok) : Prop := ∀ f, .fld f ∈ T → FldNB f

theorem toksNB_ch {c : Char} {T : List Tok} (h : ToksNB T) : ToksNB (.ch c :: T) := by
  intro f hf
  rcases List.mem_cons.1 hf with h1 | h1
  · cases h1
  · exact h f h1

theorem parseGo_weights : ∀ (st : Option Str) (s : Str) (T : List Tok), (∀ a, st = some a → NoBraces a) →
    parseGo st s = .ok T →
    weights T = braces s + (if st.isSome then 1 else 0) ∧ ToksNB T := by
  intro st s
  fun_induction parseGo st s with
  | case1 => intro T _ h; cases h; exact ⟨rfl, by intro f hf; simp at hf⟩
  | case2 r ih =>
    intro T ha h
    obtain ⟨U, hU, rfl⟩ := map_ok h
    obtain ⟨h1, h2⟩ := ih U (by simp) hU
    refine ⟨?_, toksNB_ch h2⟩
    simp [weights, weight, braces_cons, isBrace] at h1 ⊢
    omega
  | case3 r ih =>
    intro T ha h
    obtain ⟨U, hU, rfl⟩ := map_ok h
    obtain ⟨h1, h2⟩ := ih U (by simp) hU
    refine ⟨?_, toksNB_ch h2⟩
    simp [weights, weight, braces_cons, isBrace] at h1 ⊢
    omega
  | case4 r _ _ ih =>
    intro T ha h
    obtain ⟨h1, h2⟩ := ih T (by intro a h; cases h; decide +kernel) h
    refine ⟨?_, h2⟩
    simp [braces_cons, isBrace] at h1 ⊢
    omega
  | case5 => intro T _ h; cases h
  | case6 c r _ _ h1 h2 ih =>
    intro T ha h
    obtain ⟨U, hU, rfl⟩ := map_ok h
    obtain ⟨h3, h4⟩ := ih U (by simp) hU
    refine ⟨?_, toksNB_ch h4⟩
    simp [weights, weight, braces_cons, isBrace, h1, h2] at h3 ⊢
    omega
  | case7 => intro T _ h; cases h
  | case8 acc r f hf ih =>
    intro T ha h
    obtain ⟨U, hU, rfl⟩ := map_ok h
    obtain ⟨h3, h4⟩ := ih U (by simp) hU
    refine ⟨?_, ?_⟩
    · simp [weights, weight, braces_cons, isBrace] at h3 ⊢
      omega
    · intro g hg
      rcases List.mem_cons.1 hg with h5 | h5
      · cases h5; exact parseField_nb (ha acc rfl) hf
      · exact h4 g h5
  | case9 => intro T _ h; cases h
  | case10 => intro T _ h; cases h
  | case11 acc c r h1 h2 ih =>
    intro T ha h
    obtain ⟨h3, h4⟩ := ih T (by intro a h; cases h; exact nb_snoc (ha acc rfl) ⟨h2, h1⟩) h
    refine ⟨?_, h4⟩
    simp [braces_cons, isBrace, h1, h2] at h3 ⊢
    omega

theorem parse_weights {s : Str} {T : List Tok} (h : parse s = .ok T) :
    weights T = braces s ∧ ToksNB T := by
  obtain ⟨h1, h2⟩ := parseGo_weights none s T (by simp) h
  exact ⟨by simpa using h1, h2⟩

/-- Rendering adds no braces if no field does. -/
theorem render_braces {get : Fld → Except Err Str} : ∀ {T : List Tok} {out : Str},
    (∀ f, .fld f ∈ T → ∀ t, get f = .ok t → braces t ≤ 2) → render get T = .ok out →
    braces out ≤ weights T
  | [], out, _, h => by cases h; simp [braces]
  | .ch c :: T, out, hg, h => by
    rw [render] at h
    obtain ⟨r, hr, rfl⟩ := map_ok h
    have := render_braces (fun f hf => hg f (by simp [hf])) hr
    simp only [weights, List.map_cons, List.sum_cons, weight, braces_cons] at this ⊢
    split <;> omega
  | .fld f :: T, out, hg, h => by
    rw [render] at h
    split at h
    · cases h
    · split at h
      · rename_i t ht
        obtain ⟨r, hr, rfl⟩ := map_ok h
        have h1 := render_braces (fun f hf => hg f (by simp [hf])) hr
        have h2 := hg f (by simp) t ht
        rw [braces_append]
        simp only [weights, List.map_cons, List.sum_cons, weight] at h1 ⊢
        omega
      · cases h

/-- Without values for any field, a template with fields cannot be rendered. -/
theorem render_no_fields {get : Fld → Except Err Str} : ∀ {T : List Tok} {out : Str},
    (∀ f, .fld f ∈ T → ∀ t, get f ≠ .ok t) → render get T = .ok out →
    2 * braces out = weights T
  | [], out, _, h => by cases h; simp [braces, weights]
  | .ch c :: T, out, hg, h => by
    rw [render] at h
    obtain ⟨r, hr, rfl⟩ := map_ok h
    have := render_no_fields (fun f hf => hg f (by simp [hf])) hr
    simp only [weights, List.map_cons, List.sum_cons, weight, braces_cons] at this ⊢
    split <;> omega
  | .fld f :: T, out, hg, h => by
    rw [render] at h
    split at h
    · cases h
    · split at h
      · rename_i t ht
        exact absurd ht (hg f (by simp) t)
      · cases h

theorem nb_flatten {L : List Str} (h : ∀ s ∈ L, NoBraces s) : NoBraces L.flatten := by
  intro c hc
  obtain ⟨s, hs, hc⟩ := List.mem_flatten.1 hc
  exact h s hs c hc

theorem placeholderText_braces {f : Fld} (hf : FldNB f) {t : Str} (h : placeholderText f = .ok t) :
    braces t ≤ 2 := by
  unfold placeholderText at h
  split at h
  · cases h
    have h1 := noBraces_iff.1 hf.first
    have h2 : braces (f.accs.map Fmt.printAcc).flatten = 0 := noBraces_iff.1 (nb_flatten (by
      intro s hs
      obtain ⟨a, ha, rfl⟩ := List.mem_map.1 hs
      exact hf.accs a ha))
    have h3 : braces (if f.spec.isEmpty then [] else ':' :: f.spec) = 0 := by
      split
      · rfl
      · exact noBraces_iff.1 (noBraces_cons (by decide) hf.spec)
    simp only [List.cons_append, braces_cons, braces_append, h1, h2, h3]
    decide
  · cases h

theorem partialFormat_braces {vals : PyDict Str Str} (hv : ∀ n v, PyDict.get? vals n = some v → NoBraces v)
    {s out : Str} (h : partialFormat vals s = .ok out) : braces out ≤ braces s := by
  unfold partialFormat at h
  cases hp : parse s with
  | error e => simp [hp, bind, Except.bind] at h
  | ok T =>
    simp only [hp, bind, Except.bind] at h
    obtain ⟨h1, h2⟩ := parse_weights hp
    rw [← h1]
    refine render_braces ?_ h
    intro f hf t ht
    split at ht
    · rename_i v hg
      have := noBraces_iff.1 (hv _ _ hg)
      repeat' split at ht
      all_goals first
        | (injection ht with ht; subst ht; omega)
        | cases ht
    · exact placeholderText_braces (h2 f hf) ht

theorem stripIndexes_braces {s out : Str} (h : stripPartitionIndexes s = .ok out) :
    braces out ≤ braces s := by
  unfold stripPartitionIndexes at h
  cases hp : parse s with
  | error e => simp [hp, bind, Except.bind] at h
  | ok T =>
    simp only [hp, bind, Except.bind] at h
    obtain ⟨h1, h2⟩ := parse_weights hp
    rw [← h1]
    refine render_braces ?_ h
    intro f hf t ht
    refine placeholderText_braces ?_ ht
    have := h2 f hf
    exact ⟨this.first, fun a ha => this.accs a (List.mem_filter.1 ha).1, this.spec⟩

theorem strFormat_braces {s out : Str} (h : strFormat [] s = .ok out) : 2 * braces out = braces s := by
  unfold strFormat at h
  cases hp : parse s with
  | error e => simp [hp, bind, Except.bind] at h
  | ok T =>
    simp only [hp, bind, Except.bind] at h
    rw [← (parse_weights hp).1]
    refine render_no_fields ?_ h
    intro f _ t ht
    simp [formatFld, PyDict.get?] at ht

theorem replaceGo_sublist (p : Str) (s : Str) : ∀ n, (replaceGo p [] n s).Sublist s := by
  induction s with
  | nil => intro n; cases n <;> simp [replaceGo]
  | cons c s ih =>
    intro n
    cases n with
    | zero =>
      rw [replaceGo]
      split
      · exact (ih _).cons _
      · exact (ih _).cons_cons _
    | succ n => exact (ih n).cons _

theorem rstrip_sublist (c : Char) (s : Str) : (rstrip c s).Sublist s := by
  unfold rstrip
  have := (List.dropWhile_sublist (p := fun x => decide (x = c)) (l := s.reverse)).reverse
  simpa using this

theorem trimEmpty_sublist {vals : List (Str × Str)} : ∀ {s out : Str},
    trimEmpty s vals = .ok out → out.Sublist s := by
  induction vals with
  | nil => intro s out h; cases h; exact List.Sublist.refl _
  | cons p vals ih =>
    obtain ⟨n, v⟩ := p
    intro s out h
    rw [trimEmpty] at h
    split at h
    · simp only at h
      generalize (if isInfix ('{' :: n ++ ['}'] ++ [sep]) s = true then '{' :: n ++ ['}'] ++ [sep]
        else '{' :: n ++ ['}']) = trim at h
      split at h
      · cases h
      · exact (ih h).trans ((rstrip_sublist _ _).trans (replaceGo_sublist _ _ _))
    · exact ih h

theorem resolveField_braces {vals : PyDict Str Str}
    (hv : ∀ n v, PyDict.get? vals n = some v → NoBraces v)
    {s out : Str} (h : resolveField vals s = .ok out) : braces out ≤ braces s := by
  unfold resolveField at h
  cases ht : trimEmpty s vals with
  | error e => simp [ht, bind, Except.bind] at h
  | ok t =>
    simp only [ht, bind, Except.bind] at h
    exact Nat.le_trans (partialFormat_braces hv h) (braces_sublist (trimEmpty_sublist ht))

theorem genField_braces {s out : Str} (h : genField [] s = .ok out) : 2 * braces out ≤ braces s := by
  unfold genField at h
  cases ht : stripPartitionIndexes s with
  | error e => simp [ht, bind, Except.bind] at h
  | ok t =>
    simp only [ht, bind, Except.bind] at h
    rw [strFormat_braces h]
    exact stripIndexes_braces ht

end Lit
end Arti
