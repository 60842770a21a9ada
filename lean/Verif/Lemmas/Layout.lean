import Verif.Spec.Layout
import Verif.Lemmas.Literals
import Verif.Lemmas.Discover
import Verif.Props.DefaultTemplate
import Verif.Props.Placement

/-!
# Rendering the default template
-/

namespace Arti.Props
open Arti PyDict Spec Fmt Stg Part

theorem render_append {get : Fld → Except Err Str} {A B : List Tok} {a b : Str}
    (ha : render get A = .ok a) (hb : render get B = .ok b) : render get (A ++ B) = .ok (a ++ b) := by
  induction A generalizing a with
  | nil => simp only [render, Except.ok.injEq] at ha; subst ha; exact hb
  | cons x A ih =>
    cases x with
    | ch c =>
      obtain ⟨r, hr, rfl⟩ := render_cons_ch ha
      simp [render, ih hr, Except.map]
    | fld f =>
      simp only [render] at ha
      split at ha
      · cases ha
      rename_i hf
      cases hg : get f with
      | error e => simp [hg] at ha
      | ok t =>
        cases hr : render get A with
        | error e => simp [hg, hr, Except.map] at ha
        | ok r =>
          simp only [hg, hr, Except.map, Except.ok.injEq] at ha
          subst ha
          simp [render, hf, hg, ih hr, Except.map]

theorem render_one {get : Fld → Except Err Str} {f : Fld} {t : Str} (hn : nameOk f.first = true)
    (h : get f = .ok t) : render get [.fld f] = .ok t := by
  simp only [nameOk, Bool.and_eq_true, Bool.not_eq_true'] at hn
  simp [render, hn.1.1, hn.1.2, h, Except.map]

theorem render_lit (get : Fld → Except Err Str) (s : Str) : render get (lit s) = .ok s :=
  Lit.render_chars get s

theorem strip_lit (s : Str) : (lit s).map stripTok = lit s := by
  simp [lit, stripTok, Function.comp_def]

/-- A placeholder and the separator after it, unless its value is empty. -/
def optSeg (E : List Str) (n : Str) : List Tok := if n ∈ E then [] else [.fld (plain n), .ch '/']

theorem rem_opt (E : List Str) (n : Str) (R : List Tok) :
    rem E false (.fld (plain n) :: .ch '/' :: R) = optSeg E n ++ rem E false R := by
  unfold optSeg
  by_cases h : n ∈ E <;> simp [rem, plain, h]

theorem rem_lit (E : List Str) (s : Str) (R : List Tok) :
    rem E false (lit s ++ R) = lit s ++ rem E false R := by
  induction s with
  | nil => rfl
  | cons c s ih =>
    simp only [lit, List.map_cons, List.cons_append] at ih ⊢
    simp [rem, ih]

theorem rem_nil (b : Bool) (T : List Tok) (hb : b = false) : rem [] b T = T := by
  induction T generalizing b with
  | nil => rfl
  | cons x T ih => cases x <;> simp [rem, ih, hb]

theorem rs_chain {a b c d e f : List Tok} {x : Tok} {B : List Tok}
    (h : (x :: B).getLast? ≠ some sepTok) :
    rs (a ++ (b ++ (c ++ (d ++ (e ++ (f ++ x :: B)))))) =
      a ++ (b ++ (c ++ (d ++ (e ++ (f ++ x :: B))))) := by
  simp only [← List.append_assoc]
  exact rs_append_last (by simp) h

/-- What is left of the default template. -/
theorem cut_default (E : List Str) (dir : Str) (hname : "name".toList ∉ E) :
    cut E (defaultTmpl dir) = lit (dir ++ ['/']) ++ (optSeg E "graph_name".toList ++
      (optSeg E "path_tags".toList ++ (optSeg E "names".toList ++
        (optSeg E "partition_key_spec".toList ++ (optSeg E ifpName ++
          (.fld (plain "name".toList) ::
            if "extension".toList ∈ E then [] else [.fld (plain "extension".toList)])))))) := by
  have hrem : rem E false (defaultTmpl dir) = lit (dir ++ ['/']) ++ (optSeg E "graph_name".toList ++
      (optSeg E "path_tags".toList ++ (optSeg E "names".toList ++
        (optSeg E "partition_key_spec".toList ++ (optSeg E ifpName ++
          (.fld (plain "name".toList) ::
            if "extension".toList ∈ E then [] else [.fld (plain "extension".toList)])))))) := by
    unfold defaultTmpl
    rw [rem_lit, rem_opt, rem_opt, rem_opt, rem_opt]
    have he : rem E false [.fld (plain "input_fingerprint".toList), .ch '/', .fld (plain "name".toList),
        .fld (plain "extension".toList)] = optSeg E ifpName ++ (.fld (plain "name".toList) ::
            if "extension".toList ∈ E then [] else [.fld (plain "extension".toList)]) := by
      rw [rem_opt]
      rw [rem, if_neg (by simpa [plain] using hname)]
      congr 1
    rw [he]
  unfold cut
  by_cases hE : E = []
  · rw [if_pos hE, ← hrem, hE, rem_nil _ _ rfl]
  · rw [if_neg hE, hrem]
    exact rs_chain (by
      by_cases hx : "extension".toList ∈ E
      · rw [if_pos hx]; simp [sepTok]
      · rw [if_neg hx]; simp [sepTok])

section
variable {get : Fld → Except Err Str} {V : PyDict Str (List Tok)}

/-- A placeholder with its separator, rendered. -/
theorem render_seg {n : Str} {U : List Tok} {t : Str} (hnd : (keys V).Nodup) (h : (n, U) ∈ V)
    (hU : render get (U.map stripTok) = .ok t) (hne : t = [] ↔ U = []) :
    render get ((substT (full V) (optSeg (empt V) n)).map stripTok) =
      .ok (if t = [] then [] else t ++ ['/']) := by
  by_cases hu : U = []
  · have hm : n ∈ empt V := by
      simp only [empt, keys, List.mem_map, List.mem_filter]
      exact ⟨(n, U), ⟨h, by simp [hu]⟩, rfl⟩
    simp only [optSeg, hm, if_true, substT, List.flatMap_nil, List.map_nil, render]
    simp [hne.2 hu]
  · obtain ⟨h1, h2⟩ := notIn_empt hnd h hu
    have ht : t ≠ [] := fun h => hu (hne.1 h)
    simp only [optSeg, h1, if_false, substT_fld, plain, h2, Option.getD_some, List.map_append, ht]
    exact render_append hU (by simp [substT, stripTok, render, Except.map])

end

theorem join_below {xs : List Str} (h : xs ≠ []) :
    '/' :: joinWith ['/'] xs = xs.flatMap fun s => '/' :: s := by
  induction xs with
  | nil => exact absurd rfl h
  | cons x xs ih =>
    cases xs with
    | nil => simp [joinWith]
    | cons y ys =>
      rw [List.flatMap_cons, ← ih (by simp)]
      simp [joinWith]

theorem join_below_opt {xs : List Str} (h : ∀ x ∈ xs, x ≠ []) (r : Str) :
    '/' :: ((if joinWith ['/'] xs = [] then [] else joinWith ['/'] xs ++ ['/']) ++ r) =
      (xs.flatMap fun s => '/' :: s) ++ '/' :: r := by
  cases xs with
  | nil => simp [joinWith]
  | cons x xs =>
    have hne : joinWith ['/'] (x :: xs) ≠ [] := by
      have := h x (by simp)
      cases xs <;> simp [joinWith, this]
    rw [if_neg hne, ← join_below (by simp : x :: xs ≠ [])]
    simp

/-- The text of a key component. -/
theorem component_text {fp : Option Fp} {pk : PKey} {k a s : Str} {v : FieldVal} {cv : CompVal}
    {t : Str} (hk : k ≠ ifpName) (hv : get? pk k = some v) (hc : component v a = some cv)
    (ht : formatComp cv s = .ok t) : fieldText fp pk ⟨k, [.attr a], s⟩ = .ok t := by
  have ha : argOf fp pk k = some (.field v) := by
    unfold argOf
    cases fp <;> simp [hk, hv]
  simp only [fieldText, ha, hc, ht]

theorem render_comp {fp : Option Fp} {pk : PKey} {k n a s : Str} {v : FieldVal} {cv : CompVal}
    {t : Str} (hk : keyNameOk k = true) (hv : get? pk k = some v) (hc : component v a = some cv)
    (ht : formatComp cv s = .ok t) :
    render (fieldText fp pk) ((compToks k n a s).map stripTok) = .ok (k ++ '_' :: n ++ ['='] ++ t) := by
  simp only [keyNameOk, Bool.and_eq_true] at hk
  have hne : k ≠ ifpName := by
    rintro rfl
    exact absurd hk.2 (by decide +kernel)
  rw [compToks, List.map_append, strip_lit]
  exact render_append (render_lit _ _)
    (render_one hk.1.1 (by simpa [strip, stripTok] using component_text hne hv hc ht))

/-- The key segments of one field. -/
theorem render_field {fp : Option Fp} {pk : PKey} {k : Str} {v : FieldVal}
    (hk : keyNameOk k = true) (hv : get? pk k = some v) :
    ((defaultToks v.cls).map fun (cn, a, s) => compToks k cn a s).map
        (fun U => render (fieldText fp pk) (U.map stripTok)) = (fieldSegments k v).map .ok := by
  have key := @render_comp fp pk k
  cases v with
  | date y m d =>
    simp only [defaultToks, FieldVal.cls, fieldSegments, List.map_cons, List.map_nil]
    rw [key (n := ['Y']) (a := ['Y']) (s := []) (t := natToStr 10 y) hk hv (cv := .int y) rfl rfl,
      key (n := ['m']) (a := ['m']) (s := ['0', '2']) (t := padNat 2 m) hk hv (cv := .int m) rfl rfl,
      key (n := ['d']) (a := ['d']) (s := ['0', '2']) (t := padNat 2 d) hk hv (cv := .int d) rfl rfl]
    simp
  | int i v =>
    simp only [defaultToks, FieldVal.cls, fieldSegments, List.map_cons, List.map_nil]
    rw [key (n := ['v', 'a', 'l', 'u', 'e']) (a := ['v', 'a', 'l', 'u', 'e']) (s := []) (t := intToStr v) hk hv
      (cv := .int v) rfl rfl]
    simp
  | null =>
    simp only [defaultToks, FieldVal.cls, fieldSegments, List.map_cons, List.map_nil]
    rw [key (n := ['v', 'a', 'l', 'u', 'e']) (a := ['v', 'a', 'l', 'u', 'e']) (s := []) (t := "None".toList) hk hv
      (cv := .text "None".toList) rfl rfl]
    simp

theorem render_joinToks {get : Fld → Except Err Str} {Us : List (List Tok)} {ts : List Str}
    (h : Us.map (fun U => render get (U.map stripTok)) = ts.map .ok) :
    render get ((joinToks Us).map stripTok) = .ok (joinWith ['/'] ts) := by
  induction Us generalizing ts with
  | nil => cases ts with
    | nil => rfl
    | cons t ts => simp at h
  | cons U Us ih => cases ts with
    | nil => simp at h
    | cons t ts =>
      simp only [List.map_cons, List.cons.injEq] at h
      cases Us with
      | nil => cases ts with
        | nil => simpa [joinToks, joinWith] using h.1
        | cons t' ts => simp at h
      | cons U' Us => cases ts with
        | nil => simp at h
        | cons t' ts =>
          have h2 := ih (ts := t' :: ts) h.2
          simp only [joinToks, List.map_append, List.map_cons, joinWith, List.append_assoc]
          refine render_append h.1 ?_
          show render get (.ch '/' :: _) = _
          simp only [render, h2, Except.map]
          rfl

theorem get_of_conforms {kt : KeyTypes} {pk : PKey} (hc : Conforms kt pk) (hnd : (keys kt).Nodup)
    {k : Str} {c : FieldCls} (h : (k, c) ∈ kt) : ∃ v, get? pk k = some v ∧ v.cls = c := by
  have hk : k ∈ keys pk := (hc.same k).2 (List.mem_map.2 ⟨_, h, rfl⟩)
  obtain ⟨⟨k', v⟩, hm, rfl⟩ := List.mem_map.1 hk
  refine ⟨v, get?_of_mem hc.nodup hm, ?_⟩
  have h1 := hc.cls _ _ hm
  rw [get?_of_mem hnd h] at h1
  exact (Option.some.inj h1).symm

theorem render_spec {kt : KeyTypes} {fp : Option Fp} {pk : PKey} (hc : Conforms kt pk)
    (hnd : (keys kt).Nodup) (hk : ∀ n ∈ keys kt, keyNameOk n = true) :
    render (fieldText fp pk) ((joinToks (specToks kt)).map stripTok) =
      .ok (joinWith ['/'] (keySegments kt pk)) := by
  apply render_joinToks
  have : ∀ l : KeyTypes, (∀ p ∈ l, p ∈ kt) →
      (specToks l).map (fun U => render (fieldText fp pk) (U.map stripTok)) =
        (keySegments l pk).map .ok := by
    intro l hl
    induction l with
    | nil => rfl
    | cons p l ih =>
      obtain ⟨k, c⟩ := p
      obtain ⟨v, hv, rfl⟩ := get_of_conforms hc hnd (hl _ List.mem_cons_self)
      have h1 := render_field (fp := fp) (hk k (List.mem_map.2 ⟨_, hl _ List.mem_cons_self, rfl⟩)) hv
      have h2 := ih fun p hp => hl p (List.mem_cons_of_mem _ hp)
      have e1 : specToks ((k, v.cls) :: l) =
          ((defaultToks v.cls).map fun (cn, a, s) => compToks k cn a s) ++ specToks l := rfl
      have e2 : keySegments ((k, v.cls) :: l) pk = fieldSegments k v ++ keySegments l pk := by
        simp only [keySegments, keys, List.map_cons, List.flatMap_cons, hv]
      rw [e1, e2, List.map_append, List.map_append, h1, h2]
  exact this kt fun _ h => h

theorem fieldSegments_ne (k : Str) (v : FieldVal) :
    fieldSegments k v ≠ [] ∧ ∀ s ∈ fieldSegments k v, s ≠ [] := by
  cases v <;> simp [fieldSegments]

theorem keySegments_ne (kt : KeyTypes) (pk : PKey) : ∀ s ∈ keySegments kt pk, s ≠ [] := by
  intro s hs
  simp only [keySegments, List.mem_flatMap] at hs
  obtain ⟨n, -, hs⟩ := hs
  cases hg : get? pk n with
  | none => simp [hg] at hs
  | some v => rw [hg] at hs; exact (fieldSegments_ne n v).2 s hs

end Arti.Props
