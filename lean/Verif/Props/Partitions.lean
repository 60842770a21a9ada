import Verif.Model.Storage
import Verif.Lemmas.Digits
import Verif.Lemmas.Dict

/-!
# C24: partition field components
-/

namespace Arti.Props
open Arti Part Stg PyDict

/-- Specification: the sets of component names that identify a field of each class. -/
def identifying : FieldCls → List (List String)
  | .date => [["value"], ["iso"], ["Y", "m", "d"]]
  | .int _ => [["value"], ["hex"]]
  | .null => [["value"]]

/-- Dates are calendar dates; other fields are unrestricted. -/
def ValidField : FieldVal → Prop
  | .date y m d => validDate y m d = true
  | _ => True

/-- `cs` are components of `v` as they are rendered into a path: `{key.component}` or, with a
zero-padded width, `{key.component:0w}`. -/
def RenderedFrom (v : FieldVal) (cs : List (Str × Str)) : Prop :=
  ∀ c t, (c, t) ∈ cs → ∃ cv spec, component v c = some cv ∧ formatComp cv spec = .ok t

/-- The names in `cs` are exactly `names`. -/
def HasNames (cs : List (Str × Str)) (names : List String) : Prop :=
  ∀ n : Str, n ∈ keys cs ↔ n ∈ names.map String.toList

private theorem pyInt_padNat (w n : Nat) : pyInt 10 (padNat w n) = .ok (n : Int) := by
  have hne : padNat w n ≠ [] := by
    intro h
    unfold padNat at h
    exact natToStr_ne_nil 10 n (List.append_eq_nil_iff.1 h).2
  have hodd : (padNat w n).any oddChar = false := by
    rw [List.any_eq_false]
    intro c hc
    simp [oddChar_digit (padNat_chars w n c hc)]
  have hsign : splitSign (padNat w n) = (false, padNat w n) := by
    cases hs : padNat w n with
    | nil => rfl
    | cons c r =>
      have hc := isDigitOf_le (padNat_chars w n c (by rw [hs]; simp))
      simp [splitSign, hc.2.1, hc.2.2.1]
  simp [pyInt, hodd, hsign, hne, digitsVal_padNat]

private theorem pyInt_negPad (w n : Nat) : pyInt 10 ('-' :: padNat w n) = .ok (-(n : Int)) := by
  have hne : padNat w n ≠ [] := by
    intro h
    unfold padNat at h
    exact natToStr_ne_nil 10 n (List.append_eq_nil_iff.1 h).2
  have hodd : (padNat w n).any oddChar = false := by
    rw [List.any_eq_false]
    intro c hc
    simp [oddChar_digit (padNat_chars w n c hc)]
  have h1 : oddChar '-' = false := by decide
  simp [pyInt, hodd, h1, splitSign, hne, digitsVal_padNat]

/-- Every rendering of an int component reads back as the int. -/
theorem pyInt_formatComp (i : Int) (spec t : Str) (h : formatComp (.int i) spec = .ok t) :
    pyInt 10 t = .ok i := by
  unfold formatComp at h
  split at h
  · rename_i h'; cases h'; cases h; exact pyInt_intToStr i
  · rename_i h'; cases h'
  · rename_i h'
    cases h'
    split at h
    · cases i with
      | ofNat n => simp only at h; cases h; exact pyInt_padNat _ n
      | negSucc n =>
        simp only at h; cases h
        rw [pyInt_negPad]
        congr 1
    · cases h
  · cases h

theorem formatComp_text (s spec t : Str) (h : formatComp (.text s) spec = .ok t) : t = s := by
  unfold formatComp at h
  split at h
  · rename_i h'; cases h'
  · rename_i h'; cases h'; cases h; rfl
  · rename_i h'; cases h'
  · cases h

private theorem sameSet_of_hasNames {cs : List (Str × Str)} {names : List String}
    (h : HasNames cs names) : sameSet (keys cs) (names.map String.toList) = true := by
  rw [sameSet_iff]; exact h

private theorem not_sameSet {cs : List (Str × Str)} {names : List String} {other : List Str}
    (h : HasNames cs names) (hne : sameSet (names.map String.toList) other = false) :
    sameSet (keys cs) other = false := by
  rw [← Bool.not_eq_true, sameSet_iff] at hne ⊢
  exact fun h' => hne fun x => (h x).symm.trans (h' x)

private theorem get_of_hasNames {v : FieldVal} {cs : List (Str × Str)} {names : List String}
    (h : HasNames cs names) (hr : RenderedFrom v cs) {c : Str} (hc : c ∈ names.map String.toList) :
    ∃ t cv spec, get? cs c = some t ∧ component v c = some cv ∧ formatComp cv spec = .ok t := by
  have hm := (h c).2 hc
  cases hg : get? cs c with
  | none => exact absurd hm ((get?_eq_none_iff _ _).1 hg)
  | some t =>
    obtain ⟨cv, spec, h1, h2⟩ := hr c t (get?_mem hg)
    exact ⟨t, cv, spec, rfl, h1, h2⟩

/-- C24: any identifying set of rendered components reads back as the field, for every field
value, in any order and with any zero padding of the numbers. -/
theorem C24_components_roundtrip (v : FieldVal) (hv : ValidField v) (names : List String)
    (hid : names ∈ identifying v.cls) (cs : List (Str × Str)) (hn : HasNames cs names)
    (hr : RenderedFrom v cs) : fromComponents v.cls cs = .ok v := by
  have hs := sameSet_of_hasNames hn
  cases v with
  | date y m d =>
    have hval : validDate y m d = true := hv
    simp only [FieldVal.cls, identifying, List.mem_cons, List.not_mem_nil, or_false] at hid
    rcases hid with rfl | rfl | rfl
    · obtain ⟨t, cv, spec, h1, h2, h3⟩ := get_of_hasNames hn hr (c := ['v', 'a', 'l', 'u', 'e']) (by decide)
      simp [component] at h2
      subst h2
      have := formatComp_text _ _ _ h3
      subst this
      have hs' : sameSet (keys cs) [['v', 'a', 'l', 'u', 'e']] = true := hs
      simp [fromComponents, FieldVal.cls, hs', h1, dateFromIso_isoFormat hval]
    · obtain ⟨t, cv, spec, h1, h2, h3⟩ := get_of_hasNames hn hr (c := ['i', 's', 'o']) (by decide)
      simp [component] at h2
      subst h2
      have := formatComp_text _ _ _ h3
      subst this
      have hs' : sameSet (keys cs) [['i', 's', 'o']] = true := hs
      have hn1 := not_sameSet (other := [['v', 'a', 'l', 'u', 'e']]) hn (by decide)
      simp [fromComponents, FieldVal.cls, hs', hn1, h1, dateFromIso_isoFormat hval]
    · obtain ⟨ty, cy, sy, hy1, hy2, hy3⟩ := get_of_hasNames hn hr (c := ['Y']) (by decide)
      obtain ⟨tm, cm, sm, hm1, hm2, hm3⟩ := get_of_hasNames hn hr (c := ['m']) (by decide)
      obtain ⟨td, cd, sd, hd1, hd2, hd3⟩ := get_of_hasNames hn hr (c := ['d']) (by decide)
      simp [component] at hy2 hm2 hd2
      subst hy2; subst hm2; subst hd2
      have hs' : sameSet (keys cs) [['Y'], ['m'], ['d']] = true := hs
      have hn1 := not_sameSet (other := [['v', 'a', 'l', 'u', 'e']]) hn (by decide)
      have hn2 := not_sameSet (other := [['i', 's', 'o']]) hn (by decide)
      simp [fromComponents, FieldVal.cls, hs', hn1, hn2, hy1, hm1, hd1,
        pyInt_formatComp _ _ _ hy3, pyInt_formatComp _ _ _ hm3, pyInt_formatComp _ _ _ hd3, bind,
        Except.bind, mkDate_valid hval]
  | int k i =>
    simp only [FieldVal.cls, identifying, List.mem_cons, List.not_mem_nil, or_false] at hid
    rcases hid with rfl | rfl
    · obtain ⟨t, cv, spec, h1, h2, h3⟩ := get_of_hasNames hn hr (c := ['v', 'a', 'l', 'u', 'e']) (by decide)
      simp [component] at h2
      subst h2
      have hs' : sameSet (keys cs) [['v', 'a', 'l', 'u', 'e']] = true := hs
      simp [fromComponents, FieldVal.cls, hs', h1, pyInt_formatComp _ _ _ h3, Except.map]
    · obtain ⟨t, cv, spec, h1, h2, h3⟩ := get_of_hasNames hn hr (c := ['h', 'e', 'x']) (by decide)
      simp [component] at h2
      subst h2
      have := formatComp_text _ _ _ h3
      subst this
      have hs' : sameSet (keys cs) [['h', 'e', 'x']] = true := hs
      have hn1 := not_sameSet (other := [['v', 'a', 'l', 'u', 'e']]) hn (by decide)
      simp [fromComponents, FieldVal.cls, hs', hn1, h1, pyInt_pyHex, Except.map]
  | null =>
    simp only [FieldVal.cls, identifying, List.mem_cons, List.not_mem_nil, or_false] at hid
    subst hid
    obtain ⟨t, cv, spec, h1, h2, h3⟩ := get_of_hasNames hn hr (c := ['v', 'a', 'l', 'u', 'e']) (by decide)
    simp [component] at h2
    subst h2
    have := formatComp_text _ _ _ h3
    subst this
    have hs' : sameSet (keys cs) [['v', 'a', 'l', 'u', 'e']] = true := hs
    simp [fromComponents, FieldVal.cls, hs', h1]

/-- C24: component names that do not identify the field are refused, whatever their values. -/
theorem C24_other_components_rejected (cls : FieldCls) (cs : List (Str × Str))
    (h : ∀ names ∈ identifying cls, ¬ HasNames cs names) :
    fromComponents cls cs = .error .notImplemented := by
  have key : ∀ names ∈ identifying cls, sameSet (keys cs) (names.map String.toList) = false := by
    intro names hm
    rw [← Bool.not_eq_true, sameSet_iff]
    exact h names hm
  cases cls with
  | date =>
    have h1 := key ["value"] (by simp [identifying])
    have h2 := key ["iso"] (by simp [identifying])
    have h3 := key ["Y", "m", "d"] (by simp [identifying])
    have h1 : sameSet (keys cs) [['v', 'a', 'l', 'u', 'e']] = false := h1
    have h2 : sameSet (keys cs) [['i', 's', 'o']] = false := h2
    have h3 : sameSet (keys cs) [['Y'], ['m'], ['d']] = false := h3
    simp [fromComponents, h1, h2, h3]
  | int k =>
    have h1 := key ["value"] (by simp [identifying])
    have h2 := key ["hex"] (by simp [identifying])
    have h1 : sameSet (keys cs) [['v', 'a', 'l', 'u', 'e']] = false := h1
    have h2 : sameSet (keys cs) [['h', 'e', 'x']] = false := h2
    simp [fromComponents, h1, h2]
  | null =>
    have h1 := key ["value"] (by simp [identifying])
    have h1 : sameSet (keys cs) [['v', 'a', 'l', 'u', 'e']] = false := h1
    simp [fromComponents, h1]

/-- C24: a field read from components has the class it was read with, and dates are calendar
dates. -/
theorem C24_class_and_validity (cls : FieldCls) (cs : List (Str × Str)) (v : FieldVal)
    (h : fromComponents cls cs = .ok v) : v.cls = cls ∧ ValidField v := by
  have hmk : ∀ y m d w, mkDate y m d = .ok w → w.cls = .date ∧ ValidField w := by
    intro y m d w hw
    unfold mkDate at hw
    split at hw
    · rename_i hc; cases hw; exact ⟨rfl, hc.2.2.2⟩
    · cases hw
  have hiso : ∀ s w, dateFromIso s = .ok w → w.cls = .date ∧ ValidField w := by
    intro s w hw
    unfold dateFromIso at hw
    split at hw
    · split at hw
      · split at hw
        · exact hmk _ _ _ _ hw
        · cases hw
      · cases hw
    · cases hw
  cases cls with
  | date =>
    simp only [fromComponents] at h
    split at h
    · split at h
      · exact hiso _ _ h
      · cases h
    · split at h
      · split at h
        · exact hiso _ _ h
        · cases h
      · split at h
        · split at h
          · simp only [bind, Except.bind] at h
            split at h
            · cases h
            · split at h
              · cases h
              · split at h
                · cases h
                · exact hmk _ _ _ _ h
          · cases h
        · cases h
  | int k =>
    simp only [fromComponents] at h
    split at h
    · split at h
      · rename_i s _
        cases hp : pyInt 10 s <;> rw [hp] at h <;> simp [Except.map] at h
        subst h; exact ⟨rfl, trivial⟩
      · cases h
    · split at h
      · split at h
        · rename_i s _
          cases hp : pyInt 16 s <;> rw [hp] at h <;> simp [Except.map] at h
          subst h; exact ⟨rfl, trivial⟩
        · cases h
      · cases h
  | null =>
    simp only [fromComponents] at h
    split at h
    · split at h
      · split at h
        · cases h; exact ⟨rfl, trivial⟩
        · cases h
      · cases h
    · cases h

example : fromComponents .date [(['m'], ['0', '2']), (['Y'], ['2', '0', '2', '4']), (['d'], ['2', '9'])]
    = .ok (.date 2024 2 29) := by decide
example : RenderedFrom (.date 2024 2 29) [(['m'], ['0', '2'])] := by
  intro c t h
  simp at h
  exact ⟨.int 2, ['0', '2'], by rw [h.1]; decide, by rw [h.2]; decide⟩
example : ValidField (.date 2024 2 29) := by show validDate 2024 2 29 = true; decide
example : fromComponents (.int .int8) [(['h', 'e', 'x'], ['-', '0', 'x', '1', 'f'])] = .ok (.int .int8 (-31)) := by
  decide
example : fromComponents .date [(['m'], ['0', '2'])] = .error .notImplemented := by decide

end Arti.Props
