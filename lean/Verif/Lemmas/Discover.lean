import Verif.Lemmas.Locate
import Verif.Props.Ints
import Verif.Spec.Discovery

/-! Discovering the partitions that a template was filled with. -/

namespace Arti.Fmt
open PyDict Spec Stg Part Props

/-! ## The wildcard -/

/-- A template with `*` for its placeholders. -/
def wild : List Tok → Str
  | [] => []
  | .ch c :: T => c :: wild T
  | .fld _ :: T => '*' :: wild T

/-- `*` for the fingerprint. -/
def starIfp : Tok → Tok
  | .ch c => .ch c
  | .fld f => if f = plain ifpName then .ch '*' else .fld f

theorem replaceAll_ifp {T : List Tok} (h : tmplOk T = true) :
    replaceAll ifpTmpl ['*'] (print T) = print (T.map starIfp) := by
  rw [ifpTmpl_eq]
  unfold replaceAll
  induction T with
  | nil => rfl
  | cons x T ih =>
    obtain ⟨h1, h2⟩ := tmplOk_cons.1 h
    rw [print_cons]
    by_cases hx : x = .fld (plain ifpName)
    · subst hx
      have : printTok (.fld (plain ifpName)) = pat ifpName [] := by
        simp [printTok, printFld, pat, printBody_plain]
      rw [this, replaceGo_hit, ih h2, List.map_cons, print_cons]
      rfl
    · have := replaceGo_tmpl (t := []) (new := ['*']) nameOk_ifp [x] (print T)
        (by simpa [tmplOk] using h1) (by simpa using Ne.symm hx)
      have hp : print [x] = printTok x := by simp [print]
      rw [hp] at this
      rw [this, ih h2, List.map_cons, print_cons]
      congr 1
      cases x with
      | ch c => rfl
      | fld f => simp [starIfp, show f ≠ plain ifpName from fun he => hx (by rw [he])]

theorem tmplOk_starIfp {T : List Tok} (h : tmplOk T = true) : tmplOk (T.map starIfp) = true := by
  simp only [tmplOk, List.all_map, List.all_eq_true] at h ⊢
  intro x hx
  have := h x hx
  cases x with
  | ch c => exact this
  | fld f =>
    simp only [Function.comp, starIfp]
    split
    · decide
    · exact this

theorem mem_components {cls : FieldCls} {names : List String} (h : names ∈ identifying cls)
    {c : Str} (hc : c ∈ names.map String.toList) : c ∈ components cls := by
  cases cls with
  | date =>
    simp only [identifying, List.mem_cons, List.not_mem_nil, or_false] at h
    rcases h with rfl | rfl | rfl <;> revert hc <;> revert c <;> decide +kernel
  | int k =>
    simp only [identifying, List.mem_cons, List.not_mem_nil, or_false] at h
    rcases h with rfl | rfl <;> revert hc <;> revert c
    · show ∀ c ∈ [['v', 'a', 'l', 'u', 'e']], c ∈ [['h', 'e', 'x'], ['v', 'a', 'l', 'u', 'e']]
      decide
    · show ∀ c ∈ [['h', 'e', 'x']], c ∈ [['h', 'e', 'x'], ['v', 'a', 'l', 'u', 'e']]
      decide
  | null =>
    simp only [identifying, List.mem_cons, List.not_mem_nil, or_false] at h
    subst h; revert hc; revert c; decide +kernel

theorem mentions_of_mem {T : List Tok} {k c : Str} (h : .fld ⟨k, [.attr c], []⟩ ∈ T) :
    mentions T k c = true := by
  simp only [mentions, List.any_eq_true]
  exact ⟨_, h, by simp⟩

section
variable {cls : FieldCls} {kt : KeyTypes} {T : List Tok} (hD : Discoverable cls kt T)
include hD

theorem disc_get {k : Str} (hk : k ∈ keys kt) : get? kt k = some cls := by
  cases hg : get? kt k with
  | none => exact absurd hk ((get?_eq_none_iff _ _).1 hg)
  | some c => rw [hD.oneClass k c (get?_mem hg)]

theorem disc_component {k c : Str} (h : .fld ⟨k, [.attr c], []⟩ ∈ T)
    (hk : k ∈ keys kt) : c ∈ components cls := by
  obtain ⟨names, hn, hm⟩ := hD.identified k hk
  exact mem_components hn ((hm c).1 (mentions_of_mem h))

theorem specToWildcard_ok : specToWildcard (print T) kt = .ok (wild T) := by
  unfold specToWildcard
  rw [replaceAll_ifp hD.ok, parse_print _ (tmplOk_starIfp hD.ok)]
  simp only [bind, Except.bind]
  rw [render_ok _ (fun _ => ['*']) _ (tmplOk_starIfp hD.ok)]
  · congr 1
    clear hD
    induction T with
    | nil => rfl
    | cons x T ih =>
      rw [List.map_cons, List.map_cons, List.flatten_cons, ih]
      cases x with
      | ch c => rfl
      | fld f =>
        simp only [starIfp, wild]
        split <;> rename_i heq <;> split at heq <;> cases heq <;> rfl
  · intro f hf
    obtain ⟨x, hx, he⟩ := List.mem_map.1 hf
    cases x with
    | ch c => simp [starIfp] at he
    | fld g =>
      simp only [starIfp] at he
      split at he
      · cases he
      · rename_i hg
        cases he
        rcases hD.fields _ hx with rfl | ⟨k, hk, c, rfl⟩
        · exact absurd rfl hg
        · have hc := disc_component hD hx hk
          simp [wildcardFld, disc_get hD hk, hc]

end

/-! ## Globbing -/

theorem starMatch_of {k : Str → Bool} {t r : Str} (ht : sep ∉ t) (hr : k r = true) :
    starMatch k (t ++ r) = true := by
  induction t with
  | nil =>
    cases r with
    | nil => simpa [starMatch] using hr
    | cons c r => simp [starMatch, hr]
  | cons c t ih =>
    simp only [List.mem_cons, not_or] at ht
    simp only [List.cons_append, starMatch, Bool.or_eq_true, Bool.and_eq_true]
    exact .inr ⟨by simpa using Ne.symm ht.1, ih ht.2⟩

theorem starMatch_split {k : Str → Bool} {s : Str} (h : starMatch k s = true) :
    ∃ t r, s = t ++ r ∧ sep ∉ t ∧ k r = true := by
  induction s with
  | nil => exact ⟨[], [], rfl, by simp, by simpa [starMatch] using h⟩
  | cons c s ih =>
    simp only [starMatch, Bool.or_eq_true, Bool.and_eq_true] at h
    rcases h with h | ⟨h1, h2⟩
    · exact ⟨[], c :: s, rfl, by simp, h⟩
    · obtain ⟨t, r, rfl, h3, h4⟩ := ih h2
      refine ⟨c :: t, r, rfl, ?_, h4⟩
      simp only [List.mem_cons, not_or]
      exact ⟨fun he => by simp [he] at h1, h3⟩

theorem globMatch_ch {p c : Char} (hp : p ≠ '*') (b : Bool) (ps cs : Str) :
    globMatch b (p :: ps) (c :: cs) = (p == c && globMatch (p == sep) ps cs) := by
  rw [globMatch.eq_4]
  exact hp

theorem globMatch_ch_nil {p : Char} (hp : p ≠ '*') (b : Bool) (ps : Str) :
    globMatch b (p :: ps) [] = false := by
  rw [globMatch.eq_3]
  exact hp

theorem globMatch_star (b : Bool) (ps s : Str) :
    globMatch b ('*' :: ps) s =
      (!(b && s.head? == some '.') && starMatch (globMatch false ps) s) := by
  rw [globMatch.eq_2]

theorem fits_of_glob {T : List Tok} (hg : ∀ c, .ch c ∈ T → c ∉ ['*', '?', '[']) {b : Bool}
    {s : Str} (h : globMatch b (wild T) s = true) : Fits T s := by
  induction T generalizing b s with
  | nil =>
    cases s with
    | nil => exact .nil
    | cons c s => simp [wild, globMatch] at h
  | cons x T ih =>
    have hg' := fun c hc => hg c (List.mem_cons_of_mem x hc)
    cases x with
    | ch p =>
      have hp : p ≠ '*' := fun he => hg p (by simp) (by simp [he])
      cases s with
      | nil => rw [wild, globMatch_ch_nil hp] at h; cases h
      | cons c s =>
        rw [wild, globMatch_ch hp, Bool.and_eq_true, beq_iff_eq] at h
        obtain ⟨rfl, h⟩ := h
        exact .ch p (ih hg' h)
    | fld f =>
      rw [wild, globMatch_star, Bool.and_eq_true] at h
      obtain ⟨t, r, rfl, h1, h2⟩ := starMatch_split h.2
      exact .fld f t h1 (ih hg' h2)

theorem sep_not_component : sep ∉ componentChars := by decide +kernel
theorem dot_not_component : '.' ∉ componentChars := by decide +kernel

theorem glob_of_render {T : List Tok} (hg : ∀ c, .ch c ∈ T → c ∉ ['*', '?', '['])
    {get : Fld → Except Err Str}
    (hc : ∀ f t, get f = .ok t → t ≠ [] ∧ ∀ c ∈ t, c ∈ componentChars) {b : Bool} {s : Str}
    (h : render get T = .ok s) : globMatch b (wild T) s = true := by
  induction T generalizing b s with
  | nil =>
    simp only [render, Except.ok.injEq] at h
    subst h
    cases b <;> rfl
  | cons x T ih =>
    have hg' := fun c hc => hg c (List.mem_cons_of_mem x hc)
    cases x with
    | ch p =>
      have hp : p ≠ '*' := fun he => hg p (by simp) (by simp [he])
      obtain ⟨r, hr, rfl⟩ := render_cons_ch h
      rw [wild, globMatch_ch hp, ih hg' hr]
      simp
    | fld f =>
      obtain ⟨t, r, ht, hr, rfl⟩ := render_cons_fld h
      obtain ⟨h1, h2⟩ := hc f t ht
      rw [wild, globMatch_star, Bool.and_eq_true]
      refine ⟨?_, starMatch_of (fun hm => sep_not_component (h2 _ hm)) (ih hg' hr)⟩
      cases t with
      | nil => exact absurd rfl h1
      | cons c t =>
        have : c ≠ '.' := fun he => dot_not_component (he ▸ h2 c (by simp))
        simp [this]

/-! ## Matching -/

theorem lazyFld_of {R : Type} {k : Str → Str → Option R} {t r : Str} (pre : Str) {x : R}
    (ht : t ≠ []) (hno : ∀ a b, t = a ++ b → a ≠ [] → b ≠ [] → k (pre ++ a) (b ++ r) = none)
    (hx : k (pre ++ t) r = some x) : lazyFld k pre (t ++ r) = some x := by
  induction t generalizing pre with
  | nil => exact absurd rfl ht
  | cons c t ih =>
    rw [List.cons_append, lazyFld]
    by_cases h : t = []
    · subst h
      simp [hx]
    · rw [hno [c] t rfl (by simp) h]
      simp only
      refine ih (pre ++ [c]) h ?_ (by simpa using hx)
      intro a b he ha hb
      have := hno (c :: a) b (by rw [he]; rfl) (by simp) hb
      simpa using this

theorem lazyMatch_wrong {T : List Tok} (hT : T = [] ∨ ∃ c U, T = .ch c :: U ∧ c ∉ componentChars)
    (env : PyDict Str Str) {b r : Str} (hb : b ≠ []) (hc : ∀ c ∈ b, c ∈ componentChars) :
    lazyMatch T env (b ++ r) = none := by
  cases b with
  | nil => exact absurd rfl hb
  | cons d b =>
    rcases hT with rfl | ⟨c, U, rfl, hn⟩
    · rfl
    · rw [List.cons_append, lazyMatch, if_neg]
      intro he
      exact hn (he ▸ hc d (by simp))

/-- What the match binds, given the texts of the placeholders. -/
structure Bound (get : Fld → Except Err Str) (T : List Tok) (env named : PyDict Str Str) : Prop where
  nodup : (keys named).Nodup
  sound : ∀ n t, (n, t) ∈ named → (n, t) ∈ env ∨
    ∃ f, .fld f ∈ T ∧ fldName f = some n ∧ get f = .ok t
  old : ∀ n, n ∈ keys env → n ∈ keys named
  new : ∀ f n, .fld f ∈ T → fldName f = some n → n ∈ keys named

theorem mem_set {κ ν : Type} [DecidableEq κ] {d : PyDict κ ν} {k k' : κ} {v v' : ν}
    (h : (k', v') ∈ set d k v) : (k' = k ∧ v' = v) ∨ (k', v') ∈ d := by
  induction d with
  | nil => simp only [PyDict.set, List.mem_singleton, Prod.mk.injEq] at h; exact .inl h
  | cons p d ih =>
    simp only [PyDict.set] at h
    split at h
    · rcases List.mem_cons.1 h with h | h
      · cases h; exact .inl ⟨by assumption, rfl⟩
      · exact .inr (by simp [h])
    · rcases List.mem_cons.1 h with h | h
      · exact .inr (by simp [h])
      · rcases ih h with h | h
        · exact .inl h
        · exact .inr (by simp [h])

theorem lazyMatch_render {get : Fld → Except Err Str}
    (hc : ∀ f t, get f = .ok t → t ≠ [] ∧ ∀ c ∈ t, c ∈ componentChars) {T : List Tok}
    (hd : delimited T = true) (hn : ∀ f, .fld f ∈ T → ∃ n, fldName f = some n)
    (env : PyDict Str Str) (hnd : (keys env).Nodup)
    (henv : ∀ f n t, .fld f ∈ T → fldName f = some n → get? env n = some t → get f = .ok t)
    (hinj : ∀ f g n, .fld f ∈ T → .fld g ∈ T → fldName f = some n → fldName g = some n → f = g)
    {s : Str} (h : render get T = .ok s) :
    ∃ named, lazyMatch T env s = some named ∧ Bound get T env named := by
  induction T generalizing env s with
  | nil =>
    simp only [render, Except.ok.injEq] at h
    subst h
    exact ⟨env, rfl, hnd, fun n t hm => .inl hm, fun n hm => hm, by simp⟩
  | cons x T ih =>
    have hn' := fun f hf => hn f (List.mem_cons_of_mem x hf)
    have hinj' := fun f g n hf hg =>
      hinj f g n (List.mem_cons_of_mem x hf) (List.mem_cons_of_mem x hg)
    cases x with
    | ch c =>
      obtain ⟨r, hr, rfl⟩ := render_cons_ch h
      obtain ⟨named, h1, h2⟩ := ih hd hn' env hnd
        (fun f n t hf => henv f n t (List.mem_cons_of_mem _ hf)) hinj' hr
      refine ⟨named, by simpa [lazyMatch] using h1, h2.nodup, ?_, h2.old, ?_⟩
      · intro n t hm
        rcases h2.sound n t hm with h | ⟨f, hf, h⟩
        · exact .inl h
        · exact .inr ⟨f, by simp [hf], h⟩
      · intro f n hf
        exact h2.new f n (by simpa using hf)
    | fld f =>
      obtain ⟨t, r, ht, hr, rfl⟩ := render_cons_fld h
      obtain ⟨hd1, hd2⟩ := delimited_tail hd
      obtain ⟨n, hfn⟩ := hn f (by simp)
      obtain ⟨ht1, ht2⟩ := hc f t ht
      cases hg : get? env n with
      | some t' =>
        have : t' = t := by
          have := henv f n t' (by simp) hfn hg
          rw [ht] at this
          exact (Except.ok.inj this).symm
        subst this
        obtain ⟨named, h1, h2⟩ := ih hd1 hn' env hnd
          (fun f n t hf => henv f n t (List.mem_cons_of_mem _ hf)) hinj' hr
        refine ⟨named, ?_, h2.nodup, ?_, h2.old, ?_⟩
        · simp [lazyMatch, hfn, hg, dropPrefix?_append, h1]
        · intro n t hm
          rcases h2.sound n t hm with h | ⟨f, hf, h⟩
          · exact .inl h
          · exact .inr ⟨f, by simp [hf], h⟩
        · intro g m hm hgm
          rcases List.mem_cons.1 hm with he | hm
          · cases he
            rw [hfn] at hgm
            cases hgm
            exact h2.old n (List.mem_map.2 ⟨_, get?_mem hg, rfl⟩)
          · exact h2.new g m hm hgm
      | none =>
        have hset : ∀ g m t', .fld g ∈ T → fldName g = some m →
            get? (set env n t) m = some t' → get g = .ok t' := by
          intro g m t' hm hgm hgt
          rw [get?_set] at hgt
          split at hgt
          · rename_i he
            cases hgt
            subst he
            rw [← hinj f g n (by simp) (by simp [hm]) hfn hgm]
            exact ht
          · exact henv g m t' (by simp [hm]) hgm hgt
        obtain ⟨named, h1, h2⟩ := ih hd1 hn' (set env n t) (nodup_keys_set _ _ _ hnd) hset hinj' hr
        refine ⟨named, ?_, h2.nodup, ?_, ?_, ?_⟩
        · simp only [lazyMatch, hfn, hg]
          refine lazyFld_of [] ht1 ?_ (by simpa using h1)
          intro a b he ha hb
          exact lazyMatch_wrong hd2 _ hb fun c hcb => ht2 c (by simp [he, hcb])
        · intro m t' hm
          rcases h2.sound m t' hm with h | ⟨g, hg, h⟩
          · rcases mem_set h with ⟨rfl, rfl⟩ | h
            · exact .inr ⟨f, by simp, hfn, ht⟩
            · exact .inl h
          · exact .inr ⟨g, by simp [hg], h⟩
        · intro m hm
          exact h2.old m ((mem_keys_set _ _ _ _).2 (.inr hm))
        · intro g m hm hgm
          rcases List.mem_cons.1 hm with he | hm
          · cases he
            rw [hfn] at hgm
            cases hgm
            exact h2.old n ((mem_keys_set _ _ _ _).2 (.inl rfl))
          · exact h2.new g m hm hgm

/-! ## Collecting the components -/

theorem splitOn_two {k c : Str} (hk : '.' ∉ k) (hc : '.' ∉ c) :
    splitOn '.' (k ++ '.' :: c) = [k, c] := by
  have := splitOn_joinWith '.' [k, c] (by simp) (by simp [hk, hc])
  simpa [joinWith] using this

/-- The state of the loop after the entries `done`. -/
structure Collected (fp : Option Fp) (done : List (Str × Str)) (fp' : Option Fp)
    (fc : PyDict Str (PyDict Str Str)) (last : Option Str) : Prop where
  fp : fp' = if ifpName ∈ PyDict.keys done then fp else none
  nodup : (PyDict.keys fc).Nodup
  keys : ∀ k, k ∈ PyDict.keys fc ↔ ∃ c t, '.' ∉ k ∧ '.' ∉ c ∧ (k ++ '.' :: c, t) ∈ done
  sound : ∀ k cs, get? fc k = some cs → ∀ c t, (c, t) ∈ cs →
    '.' ∉ k ∧ '.' ∉ c ∧ (k ++ '.' :: c, t) ∈ done
  complete : ∀ k c t, '.' ∉ k → '.' ∉ c → (k ++ '.' :: c, t) ∈ done →
    ∃ cs, get? fc k = some cs ∧ c ∈ PyDict.keys cs
  last : fc = [] ∨ ∃ k, last = some k ∧ k ∈ PyDict.keys fc

/-- A binding: the fingerprint or a component. -/
def EntryOk (fp : Option Fp) (e : Str × Str) : Prop :=
  (e.1 = ifpName ∧ ∃ w, fp = some w ∧ e.2 = intToStr w ∧ Int64Range w) ∨
    ∃ k c, '.' ∉ k ∧ '.' ∉ c ∧ e.1 = k ++ '.' :: c

theorem dot_not_ifp : '.' ∉ ifpName := by decide +kernel

theorem dotted_inj {k c k' c' : Str} (hk : '.' ∉ k) (hk' : '.' ∉ k')
    (h : k ++ '.' :: c = k' ++ '.' :: c') : k = k' ∧ c = c' := append_cons_inj hk hk' h

theorem collect_ok {fp : Option Fp} (rest : List (Str × Str)) :
    ∀ (done : List (Str × Str)) (fp' : Option Fp) (fc : PyDict Str (PyDict Str Str))
      (last : Option Str), (∀ e ∈ rest, EntryOk fp e) → Collected fp done fp' fc last →
    ∃ fp'' fc' last', collect rest fp' fc last = .ok (fp'', fc', last') ∧
      Collected fp (done ++ rest) fp'' fc' last' := by
  induction rest with
  | nil => intro done fp' fc last _ h; exact ⟨fp', fc, last, rfl, by simpa using h⟩
  | cons e rest ih =>
    obtain ⟨n, t⟩ := e
    intro done fp' fc last he h
    have he' := fun e hm => he e (List.mem_cons_of_mem _ hm)
    have happ : done ++ (n, t) :: rest = (done ++ [(n, t)]) ++ rest := by simp
    rw [happ]
    rcases he (n, t) (by simp) with ⟨rfl, w, hw, rfl, h1⟩ | ⟨k, c, hk, hc, rfl⟩
    · simp only [collect, ↓reduceIte, pyInt_intToStr, (C02_from_int_exact _).1 h1]
      refine ih _ _ _ _ he' ⟨?_, h.nodup, ?_, ?_, ?_, h.last⟩
      · simp [PyDict.keys, hw]
      · intro k
        rw [h.keys]
        constructor
        · rintro ⟨c, t, h3, h4, h5⟩; exact ⟨c, t, h3, h4, by simp [h5]⟩
        · rintro ⟨c, t, h3, h4, h5⟩
          refine ⟨c, t, h3, h4, ?_⟩
          rcases List.mem_append.1 h5 with h5 | h5
          · exact h5
          · simp only [List.mem_singleton, Prod.mk.injEq] at h5
            exact absurd (h5.1 ▸ (by simp : '.' ∈ k ++ '.' :: c)) dot_not_ifp
      · intro k cs hg c t hm
        obtain ⟨h3, h4, h5⟩ := h.sound k cs hg c t hm
        exact ⟨h3, h4, by simp [h5]⟩
      · intro k c t h3 h4 h5
        rcases List.mem_append.1 h5 with h5 | h5
        · exact h.complete k c t h3 h4 h5
        · simp only [List.mem_singleton, Prod.mk.injEq] at h5
          exact absurd (h5.1 ▸ (by simp : '.' ∈ k ++ '.' :: c)) dot_not_ifp
    · have hne : k ++ '.' :: c ≠ ifpName := fun he => dot_not_ifp (he ▸ by simp)
      simp only [collect, hne, ↓reduceIte, splitOn_two hk hc]
      refine ih _ _ _ _ he' ⟨?_, nodup_keys_set _ _ _ h.nodup, ?_, ?_, ?_, .inr ⟨k, rfl, ?_⟩⟩
      · rw [h.fp]
        have : ifpName ∈ PyDict.keys (done ++ [(k ++ '.' :: c, t)]) ↔ ifpName ∈ PyDict.keys done := by
          simp [PyDict.keys, Ne.symm hne]
        simp only [this]
      · intro k'
        rw [mem_keys_set, h.keys]
        constructor
        · rintro (rfl | ⟨c', t', h3, h4, h5⟩)
          · exact ⟨c, t, hk, hc, by simp⟩
          · exact ⟨c', t', h3, h4, by simp [h5]⟩
        · rintro ⟨c', t', h3, h4, h5⟩
          rcases List.mem_append.1 h5 with h5 | h5
          · exact .inr ⟨c', t', h3, h4, h5⟩
          · simp only [List.mem_singleton, Prod.mk.injEq] at h5
            exact .inl (dotted_inj h3 hk h5.1).1
      · intro k' cs hg c' t' hm
        rw [get?_set] at hg
        split at hg
        · rename_i hkk
          subst hkk
          cases hg
          rcases mem_set hm with ⟨rfl, rfl⟩ | hm
          · exact ⟨hk, hc, by simp⟩
          · cases hgk : get? fc k with
            | none => simp [hgk] at hm
            | some cs =>
              rw [hgk] at hm
              obtain ⟨h3, h4, h5⟩ := h.sound k cs hgk c' t' hm
              exact ⟨h3, h4, by simp [h5]⟩
        · obtain ⟨h3, h4, h5⟩ := h.sound k' cs hg c' t' hm
          exact ⟨h3, h4, by simp [h5]⟩
      · intro k' c' t' h3 h4 h5
        rw [get?_set]
        by_cases hkk : k = k'
        · subst hkk
          refine ⟨_, if_pos rfl, ?_⟩
          rw [mem_keys_set]
          rcases List.mem_append.1 h5 with h5 | h5
          · obtain ⟨cs, h6, h7⟩ := h.complete k c' t' h3 h4 h5
            right
            rw [h6]
            exact h7
          · simp only [List.mem_singleton, Prod.mk.injEq] at h5
            exact .inl (dotted_inj h3 hk h5.1).2
        · rw [if_neg hkk]
          rcases List.mem_append.1 h5 with h5 | h5
          · exact h.complete k' c' t' h3 h4 h5
          · simp only [List.mem_singleton, Prod.mk.injEq] at h5
            exact absurd (dotted_inj h3 hk h5.1).1.symm hkk
      · rw [mem_keys_set]; exact .inl rfl

theorem buildKey_ok {kt : KeyTypes} {last : Option Str} {cls : FieldCls}
    (fc : PyDict Str (PyDict Str Str)) (val : Str → FieldVal)
    (hl : fc = [] ∨ ∃ k, last = some k ∧ get? kt k = some cls)
    (h : ∀ k cs, (k, cs) ∈ fc → fromComponents cls cs = .ok (val k)) :
    buildKey kt last fc = .ok (fc.map fun p => (p.1, val p.1)) := by
  rcases hl with rfl | ⟨k, rfl, hk⟩
  · rfl
  · induction fc with
    | nil => rfl
    | cons p fc ih =>
      obtain ⟨n, cs⟩ := p
      simp only [buildKey, hk, h n cs (by simp), ih fun k cs hm => h k cs (by simp [hm])]
      rfl

/-! ## Indexes -/

theorem get?_append_left {κ ν : Type} [DecidableEq κ] {a b : PyDict κ ν} {k : κ} (h : k ∉ keys a) :
    get? (a ++ b) k = get? b k := by
  induction a with
  | nil => rfl
  | cons p a ih =>
    simp only [keys, List.map_cons, List.mem_cons, not_or] at h
    simp only [List.cons_append, get?, if_neg (Ne.symm h.1)]
    exact ih h.2

theorem set_of_not_mem {κ ν : Type} [DecidableEq κ] {d : PyDict κ ν} {k : κ} {v : ν}
    (h : k ∉ keys d) : PyDict.set d k v = d ++ [(k, v)] := by
  induction d with
  | nil => rfl
  | cons p d ih =>
    simp only [keys, List.map_cons, List.mem_cons, not_or] at h
    simp only [PyDict.set, if_neg (Ne.symm h.1), List.cons_append, ih h.2]

/-- A name with an index. -/
def withIndex (n i : Str) : Str := n ++ '[' :: i ++ [']']

theorem indexed_none {n : Str} (h : '[' ∉ n) : indexed n = none := by simp [indexed, h]

theorem takeWhile_stop {α : Type} {p : α → Bool} {a : List α} (h : ∀ x ∈ a, p x = true) {c : α}
    (hc : p c = false) (b : List α) : (a ++ c :: b).takeWhile p = a := by
  induction a with
  | nil => simp [hc]
  | cons x a ih =>
    simp only [List.mem_cons, forall_eq_or_imp] at h
    simp [h.1, ih h.2]

theorem dropWhile_stop {α : Type} {p : α → Bool} {a : List α} (h : ∀ x ∈ a, p x = true) {c : α}
    (hc : p c = false) (b : List α) : (a ++ c :: b).dropWhile p = c :: b := by
  induction a with
  | nil => simp [hc]
  | cons x a ih =>
    simp only [List.mem_cons, forall_eq_or_imp] at h
    simp [h.1, ih h.2]

theorem indexed_withIndex {n i : Str} (hn : '[' ∉ n) (hi : ']' ∉ i) :
    indexed (withIndex n i) = some (n, i) := by
  have h1 : ∀ x ∈ n, decide (x ≠ '[') = true := fun x hx => by
    simp only [ne_eq, decide_not, Bool.not_eq_eq_eq_not, Bool.not_true, decide_eq_false_iff_not]
    exact fun he => hn (he ▸ hx)
  have h2 : ∀ x ∈ i, decide (x ≠ ']') = true := fun x hx => by
    simp only [ne_eq, decide_not, Bool.not_eq_eq_eq_not, Bool.not_true, decide_eq_false_iff_not]
    exact fun he => hi (he ▸ hx)
  have e : withIndex n i = n ++ '[' :: (i ++ ']' :: []) := by simp [withIndex]
  have hm : '[' ∈ withIndex n i := by rw [e]; simp
  unfold indexed
  rw [if_pos hm, e, takeWhile_stop h1 (by decide), dropWhile_stop h1 (by decide), List.drop_one,
    List.tail_cons, takeWhile_stop h2 (by decide)]

/-- Every name is plain, or has an index and the index as its text. -/
theorem expandNamed_ok {rest : List (Str × Str)} {idx : Str → Option Str}
    (hb : ∀ e ∈ rest, '[' ∉ e.1) (hi : ∀ e ∈ rest, ∀ i, idx e.1 = some i → ']' ∉ i ∧ e.2 = i)
    (acc : PyDict Str (Bool × Str)) (hn : (keys acc ++ keys rest).Nodup) :
    expandNamed (rest.map fun e => ((idx e.1).elim e.1 (withIndex e.1), e.2)) acc =
      .ok (acc ++ rest.map fun e => (e.1, (idx e.1).isSome, e.2)) := by
  induction rest generalizing acc with
  | nil => simp [expandNamed]
  | cons e rest ih =>
    obtain ⟨n, t⟩ := e
    simp only [List.mem_cons, forall_eq_or_imp] at hb hi
    have hn0 : n ∉ keys acc := by
      intro hm
      rw [List.nodup_append] at hn
      exact hn.2.2 n hm n (by simp [keys]) rfl
    have hn' : ∀ v, (keys (acc ++ [(n, v)]) ++ keys rest).Nodup := by
      intro v
      have : keys (acc ++ [(n, v)]) ++ keys rest = keys acc ++ keys ((n, t) :: rest) := by
        simp [keys]
      rw [this]
      exact hn
    cases hx : idx n with
    | none =>
      simp only [List.map_cons, hx, Option.elim_none, expandNamed, indexed_none hb.1,
        set_of_not_mem hn0, Option.isSome_none]
      rw [ih hb.2 hi.2 _ (hn' _)]
      simp
    | some i =>
      obtain ⟨h1, rfl⟩ := hi.1 i hx
      simp only [List.map_cons, hx, Option.elim_some, expandNamed, indexed_withIndex hb.1 h1,
        (get?_eq_none_iff _ _).2 hn0, set_of_not_mem hn0, Option.isSome_some]
      rw [ih hb.2 hi.2 _ (hn' _)]
      simp

theorem expand_ok {rest : List (Str × Str)} {idx : Str → Option Str}
    (hb : ∀ e ∈ rest, '[' ∉ e.1) (hi : ∀ e ∈ rest, ∀ i, idx e.1 = some i → ']' ∉ i ∧ e.2 = i)
    (hn : (keys rest).Nodup) :
    expand (rest.map fun e => ((idx e.1).elim e.1 (withIndex e.1), e.2)) = .ok rest := by
  unfold expand
  rw [expandNamed_ok hb hi [] (by simpa [keys] using hn)]
  simp [Except.map, Function.comp_def]

theorem expand_plain {named : List (Str × Str)} (hb : ∀ e ∈ named, '[' ∉ e.1)
    (hn : (keys named).Nodup) : expand named = .ok named := by
  have := expand_ok (idx := fun _ => none) hb (by simp) hn
  simpa using this

/-! ## From a path to its partition -/

theorem argOf_congr {fp : Option Fp} {pk pk' : PKey} (h : ∀ k, get? pk k = get? pk' k) :
    argOf fp pk = argOf fp pk' := by
  funext k
  unfold argOf
  cases fp <;> simp [h]

theorem fieldText_congr {fp : Option Fp} {pk pk' : PKey} (h : ∀ k, get? pk k = get? pk' k) :
    fieldText fp pk = fieldText fp pk' := by
  funext f
  unfold fieldText
  rw [argOf_congr h]

section
variable {cls : FieldCls} {kt : KeyTypes} {T : List Tok} (hD : Discoverable cls kt T)
include hD

theorem disc_strip : T.map stripTok = T := by
  have : ∀ x ∈ T, stripTok x = x := by
    intro x hx
    cases x with
    | ch c => rfl
    | fld f =>
      rcases hD.fields f hx with rfl | ⟨k, -, c, rfl⟩ <;> rfl
  rw [List.map_congr_left (g := id) this]
  simp

theorem disc_name {f : Fld} (hf : .fld f ∈ T) : (f = plain ifpName ∧ fldName f = some ifpName) ∨
    ∃ k ∈ keys kt, ∃ c, f = ⟨k, [.attr c], []⟩ ∧ '.' ∉ k ∧ '.' ∉ c ∧
      fldName f = some (k ++ '.' :: c) := by
  rcases hD.fields f hf with rfl | ⟨k, hk, c, rfl⟩
  · exact .inl ⟨rfl, rfl⟩
  · refine .inr ⟨k, hk, c, rfl, ?_, ?_, rfl⟩
    · have h1 := (fldOk_iff.1 (List.all_eq_true.1 hD.ok _ hf)).1
      exact fun hm => (nameOk_chars h1 _ hm).1 rfl
    · have := disc_component hD hf hk
      clear hf
      revert this
      cases cls with
      | date => revert c; show ∀ c ∈ [['Y'], ['d'], ['i', 's', 'o'], ['m'],
          ['v', 'a', 'l', 'u', 'e']], '.' ∉ c; decide
      | int k => revert c; show ∀ c ∈ [['h', 'e', 'x'], ['v', 'a', 'l', 'u', 'e']], '.' ∉ c; decide
      | null => revert c; show ∀ c ∈ [['v', 'a', 'l', 'u', 'e']], '.' ∉ c; decide

theorem disc_bracket {f : Fld} {n : Str} (hf : .fld f ∈ T) (hn : fldName f = some n) : '[' ∉ n := by
  rcases hD.fields f hf with rfl | ⟨k, hk, c, rfl⟩
  · cases hn; decide +kernel
  · cases hn
    have h1 := fldOk_iff.1 (List.all_eq_true.1 hD.ok _ hf)
    obtain ⟨h0, h2, -⟩ := h1
    have h1 := h0
    simp only [nameOk, Bool.and_eq_true, List.all_eq_true] at h1
    rw [List.all_eq_true] at h2
    have h3 := h2 (.attr c) (by simp)
    simp only [Spec.accOk, Bool.and_eq_true, List.all_eq_true] at h3
    intro hm
    rcases List.mem_append.1 hm with hm | hm
    · exact absurd (h1.2 _ hm) (by decide)
    · rcases List.mem_cons.1 hm with hm | hm
      · exact absurd hm (by decide)
      · exact absurd (h3.2 _ hm) (by decide)

theorem disc_inj {f g : Fld} {n : Str} (hf : .fld f ∈ T) (hg : .fld g ∈ T)
    (h1 : fldName f = some n) (h2 : fldName g = some n) : f = g := by
  rcases disc_name hD hf with ⟨rfl, h3⟩ | ⟨k, -, c, rfl, hk, hc, h3⟩ <;>
    rcases disc_name hD hg with ⟨rfl, h4⟩ | ⟨k', -, c', rfl, hk', hc', h4⟩
  · rfl
  · rw [h3] at h1; rw [h4] at h2; cases h1
    injection h2 with h2
    exact absurd (h2 ▸ (by simp : '.' ∈ k' ++ '.' :: c')) dot_not_ifp
  · rw [h3] at h1; rw [h4] at h2; cases h2
    injection h1 with h1
    exact absurd (h1 ▸ (by simp : '.' ∈ k ++ '.' :: c)) dot_not_ifp
  · rw [h3] at h1; rw [h4] at h2
    cases h1
    injection h2 with h2
    obtain ⟨rfl, rfl⟩ := dotted_inj hk' hk h2
    rfl

/-- Parsing the path of a partition gives its fingerprint and an equal key. -/
theorem extract_path {fp : Option Fp} {pk : PKey} {path : Str}
    (hp : PartitionAt kt T fp pk path) :
    ∃ named pk', lazyMatch T [] path = some named ∧ expand named = .ok named ∧
      (keys named).Nodup ∧ (∀ n t, (n, t) ∈ named → ∃ f, .fld f ∈ T ∧ fldName f = some n ∧
        fieldText fp pk f = .ok t) ∧
      extractPlaceholders kt named = .ok (fp, pk') ∧ (∀ k, get? pk' k = get? pk k) ∧
      (keys pk').Nodup := by
  obtain ⟨-, -, -, hfp, hr⟩ := genFile_ok hD.ok hp.path
  simp only [disc_strip hD] at hr
  obtain ⟨named, h1, h2⟩ := lazyMatch_render (fun f t h => fieldText_chars h) hD.delimited
    (fun f hf => by rcases disc_name hD hf with ⟨-, h⟩ | ⟨k, -, c, -, -, -, h⟩ <;> exact ⟨_, h⟩) []
    (by simp [keys]) (by simp) (fun f g n hf hg => disc_inj hD hf hg) hr
  -- every binding comes from a placeholder
  have hs : ∀ n t, (n, t) ∈ named → ∃ f, .fld f ∈ T ∧ fldName f = some n ∧
      fieldText fp pk f = .ok t := by
    intro n t hm
    rcases h2.sound n t hm with h | h
    · simp at h
    · exact h
  have hent : ∀ e ∈ named, EntryOk fp e := by
    rintro ⟨n, t⟩ hm
    obtain ⟨f, hf, hn, ht⟩ := hs n t hm
    rcases disc_name hD hf with ⟨rfl, h⟩ | ⟨k, -, c, rfl, hk, hc, h⟩
    · rw [h] at hn
      cases hn
      obtain ⟨w, hw⟩ := Option.isSome_iff_exists.1 (hfp.2 hf)
      subst hw
      simp only [fieldText, plain, argOf, ↓reduceIte, List.isEmpty_nil, Bool.and_self,
        Except.ok.injEq] at ht
      exact .inl ⟨rfl, w, rfl, ht.symm, hp.range w rfl⟩
    · rw [h] at hn
      cases hn
      exact .inr ⟨k, c, hk, hc, rfl⟩
  obtain ⟨fp', fc, last, h3, h4⟩ := collect_ok named [] none [] none hent
    ⟨by simp [keys], by simp [keys], by simp [keys], by simp, by simp, .inl rfl⟩
  rw [List.nil_append] at h4
  -- the keys that were found
  have hfound : ∀ k, k ∈ keys fc → k ∈ keys kt := by
    intro k hk
    obtain ⟨c, t, hk1, hc1, hm⟩ := (h4.keys k).1 hk
    obtain ⟨f, hf, hn, -⟩ := hs _ _ hm
    rcases disc_name hD hf with ⟨rfl, h⟩ | ⟨k', hk', c', rfl, hk2, hc2, h⟩
    · rw [h] at hn
      injection hn with hn
      exact absurd (hn ▸ (by simp : '.' ∈ k ++ '.' :: c)) dot_not_ifp
    · rw [h] at hn
      injection hn with hn
      rw [← (dotted_inj hk2 hk1 hn).1]
      exact hk'
  have hcomp : ∀ k cs, get? fc k = some cs → ∃ v, get? pk k = some v ∧ v.cls = cls ∧
      fromComponents cls cs = .ok v := by
    intro k cs hg
    have hk : k ∈ keys kt := hfound k (List.mem_map.2 ⟨_, get?_mem hg, rfl⟩)
    obtain ⟨v, hv⟩ : ∃ v, get? pk k = some v := by
      cases hgv : get? pk k with
      | none => exact absurd ((hp.conforms.same k).2 hk) ((get?_eq_none_iff _ _).1 hgv)
      | some v => exact ⟨v, rfl⟩
    have hcls : v.cls = cls := by
      have := hp.conforms.cls k v (get?_mem hv)
      rw [disc_get hD hk] at this
      exact (Option.some.inj this).symm
    refine ⟨v, hv, hcls, ?_⟩
    obtain ⟨names, hn, hm⟩ := hD.identified k hk
    rw [← hcls]
    refine C24_components_roundtrip v (hp.conforms.valid k v (get?_mem hv)) names
      (by rw [hcls]; exact hn) cs ?_ ?_
    · intro c
      rw [← hm c]
      constructor
      · intro hc
        obtain ⟨⟨c', t⟩, hct, rfl⟩ := List.mem_map.1 hc
        obtain ⟨hk1, hc1, hmem⟩ := h4.sound k cs hg c' t hct
        obtain ⟨f, hf, hfn, -⟩ := hs _ _ hmem
        rcases disc_name hD hf with ⟨rfl, h⟩ | ⟨k', hk', c'', rfl, hk2, hc2, h⟩
        · rw [h] at hfn
          injection hfn with hfn
          exact absurd (hfn ▸ (by simp : '.' ∈ k ++ '.' :: c')) dot_not_ifp
        · rw [h] at hfn
          injection hfn with hfn
          obtain ⟨rfl, rfl⟩ := dotted_inj hk2 hk1 hfn
          exact mentions_of_mem hf
      · intro hc
        obtain ⟨spec, hf⟩ := mentions_mem hc
        rw [disc_strip hD] at hf
        rcases disc_name hD hf with ⟨he, -⟩ | ⟨k', hk', c', he, hk2, hc2, h⟩
        · cases he
        · cases he
          have hin := h2.new _ _ hf h
          obtain ⟨⟨n, t⟩, hnt, he⟩ := List.mem_map.1 hin
          simp only at he
          subst he
          obtain ⟨cs', hg', hc'⟩ := h4.complete k c t hk2 hc2 hnt
          rw [hg] at hg'
          cases hg'
          exact hc'
    · intro c t hct
      obtain ⟨hk1, hc1, hmem⟩ := h4.sound k cs hg c t hct
      obtain ⟨f, hf, hfn, ht⟩ := hs _ _ hmem
      rcases disc_name hD hf with ⟨rfl, h⟩ | ⟨k', hk', c', rfl, hk2, hc2, h⟩
      · rw [h] at hfn
        injection hfn with hfn
        exact absurd (hfn ▸ (by simp : '.' ∈ k ++ '.' :: c)) dot_not_ifp
      · rw [h] at hfn
        injection hfn with hfn
        obtain ⟨rfl, rfl⟩ := dotted_inj hk2 hk1 hfn
        have hne : k' ≠ ifpName := fun he => hD.noIfp (he ▸ hk')
        have ha : argOf fp pk k' = some (.field v) := by
          unfold argOf
          cases fp <;> simp [hne, hv]
        simp only [fieldText, ha] at ht
        cases hcv : component v c' with
        | none => simp [hcv] at ht
        | some cv => exact ⟨cv, [], rfl, by simpa [hcv] using ht⟩
  -- all keys were found
  have hall : ∀ k, k ∈ keys kt → k ∈ keys fc := by
    intro k hk
    obtain ⟨names, hn, hm⟩ := hD.identified k hk
    obtain ⟨c, hc⟩ : ∃ c, c ∈ names.map String.toList := by
      cases names with
      | nil => cases cls <;> simp [identifying] at hn
      | cons c cs => exact ⟨c.toList, by simp⟩
    obtain ⟨spec, hf⟩ := mentions_mem ((hm c).2 hc)
    rw [disc_strip hD] at hf
    rcases disc_name hD hf with ⟨he, -⟩ | ⟨k', hk', c', he, hk2, hc2, h⟩
    · cases he
    · cases he
      obtain ⟨⟨n, t⟩, hnt, he⟩ := List.mem_map.1 (h2.new _ _ hf h)
      simp only at he
      subst he
      exact (h4.keys k).2 ⟨c, t, hk2, hc2, hnt⟩
  let val : Str → FieldVal := fun k => (get? pk k).getD .null
  have hval : ∀ k cs, (k, cs) ∈ fc → fromComponents cls cs = .ok (val k) := by
    intro k cs hm
    obtain ⟨v, hv, -, h⟩ := hcomp k cs (get?_of_mem h4.nodup hm)
    simp only [val, hv, Option.getD_some]
    exact h
  have hb := buildKey_ok (kt := kt) (last := last) fc val
    (by
      rcases h4.last with h | ⟨k, hl, hk⟩
      · exact .inl h
      · exact .inr ⟨k, hl, disc_get hD (hfound k hk)⟩) hval
  have hkeys : keys (fc.map fun p => (p.1, val p.1)) = keys fc := by
    simp [keys, Function.comp_def]
  refine ⟨named, fc.map fun p => (p.1, val p.1), h1, expand_plain (fun e he => by
    obtain ⟨f, hf, hfn, -⟩ := hs e.1 e.2 he
    exact disc_bracket hD hf hfn) h2.nodup, h2.nodup, hs, ?_, ?_, ?_⟩
  · have hss : sameSet (keys fc) (keys kt) = true := by
      rw [sameSet_iff]
      exact fun k => ⟨hfound k, hall k⟩
    have hfp' : fp' = fp := by
      rw [h4.fp]
      by_cases hm : .fld (plain ifpName) ∈ T
      · rw [if_pos (h2.new _ ifpName hm rfl)]
      · have : ifpName ∉ keys named := by
          intro hk
          obtain ⟨⟨n, t⟩, hnt, he⟩ := List.mem_map.1 hk
          simp only at he
          subst he
          obtain ⟨f, hf, hfn, -⟩ := hs _ _ hnt
          rcases disc_name hD hf with ⟨rfl, -⟩ | ⟨k, -, c, -, -, -, h⟩
          · exact hm hf
          · rw [h] at hfn
            injection hfn with hfn
            exact absurd (hfn ▸ (by simp : '.' ∈ k ++ '.' :: c)) dot_not_ifp
        rw [if_neg this]
        cases fp with
        | none => rfl
        | some w => exact absurd (hfp.1 rfl) hm
    simp only [extractPlaceholders, h3, hb, hkeys, hss, ↓reduceIte, hfp']
  · intro k
    by_cases hk : k ∈ keys fc
    · obtain ⟨⟨k', cs⟩, hm, rfl⟩ := List.mem_map.1 hk
      obtain ⟨v, hv, -, -⟩ := hcomp k' cs (get?_of_mem h4.nodup hm)
      rw [get?_of_mem (v := val k') (by rw [hkeys]; exact h4.nodup)
        (List.mem_map.2 ⟨_, hm, rfl⟩), hv]
      simp [val, hv]
    · rw [(get?_eq_none_iff _ _).2 (by rw [hkeys]; exact hk), eq_comm, get?_eq_none_iff,
        hp.conforms.same]
      exact fun h => hk (hall k h)
  · rw [hkeys]; exact h4.nodup

end

theorem Conforms_congr {kt : KeyTypes} {pk pk' : PKey} (hc : Conforms kt pk)
    (h : ∀ k, get? pk' k = get? pk k) (hn : (keys pk').Nodup) : Conforms kt pk' := by
  have hm : ∀ k v, (k, v) ∈ pk' → (k, v) ∈ pk := fun k v hm =>
    get?_mem ((h k).symm.trans (get?_of_mem hn hm))
  refine ⟨hn, fun k => ?_, fun k v hkv => hc.cls k v (hm k v hkv),
    fun k v hkv => hc.valid k v (hm k v hkv)⟩
  rw [← hc.same]
  have := get?_eq_none_iff pk' k
  rw [h k, get?_eq_none_iff] at this
  exact ⟨fun h1 => Classical.byContradiction fun h2 => this.1 h2 h1,
    fun h1 => Classical.byContradiction fun h2 => this.2 h2 h1⟩

end Arti.Fmt
