import Verif.Spec.Modules
import Verif.Lemmas.Dict
import Verif.Lemmas.Graph
import Mathlib.Data.List.Nodup

/-!
# C73: all modules of a package are imported
-/

namespace Arti.Props
open Arti PyDict Spec Mods

/-! ## Directories -/

mutual
theorem mem_walk {pre rel : List Str} : ∀ {d : Dir}, rel ∈ walk pre d ↔
    ∃ r e, r ≠ [] ∧ rel = pre ++ r ∧ Below d r e ∧ ∀ n ∈ r, '.' ∉ n
  | .mk fs ds => by
    rw [walk, List.mem_append, mem_walkAll]
    constructor
    · rintro (h | ⟨n, d, r, e, hm, hn, h0, h1, h2, h3⟩)
      · obtain ⟨n, hn, rfl⟩ := List.mem_map.1 h
        obtain ⟨hn, hd⟩ := List.mem_filter.1 hn
        obtain ⟨x, hx, rfl⟩ := List.mem_map.1 hn
        refine ⟨[x.1], x.2, by simp, rfl, .there hx (.here _), ?_⟩
        intro n hn
        obtain rfl := List.mem_singleton.1 hn
        simpa using hd
      · refine ⟨n :: r, e, by simp, by simp [h1], .there hm h2, ?_⟩
        intro k hk
        rcases List.mem_cons.1 hk with rfl | hk
        · exact hn
        · exact h3 k hk
    · rintro ⟨r, e, h0, rfl, hb, hd⟩
      cases hb with
      | here => exact absurd rfl h0
      | @there _ e1 _ n r h hb =>
        have hn : '.' ∉ n := hd n (by simp)
        by_cases hr : r = []
        · subst hr
          refine .inl (List.mem_map.2 ⟨n, List.mem_filter.2 ⟨List.mem_map.2 ⟨_, h, rfl⟩, ?_⟩, rfl⟩)
          simpa using hn
        · exact .inr ⟨n, e1, r, e, h, hn, hr, by simp, hb, fun k hk => hd k (by simp [hk])⟩
theorem mem_walkAll {pre rel : List Str} : ∀ {ds : List (Str × Dir)}, rel ∈ walkAll pre ds ↔
    ∃ n d r e, (n, d) ∈ ds ∧ '.' ∉ n ∧ r ≠ [] ∧ rel = pre ++ n :: r ∧ Below d r e ∧
      ∀ k ∈ r, '.' ∉ k
  | [] => by simp [walkAll]
  | (n, d) :: ds => by
    rw [walkAll, List.mem_append, mem_walkAll]
    constructor
    · rintro (h | ⟨n', d', r, e, hm, h⟩)
      · split at h
        · cases h
        · rename_i hn
          rw [mem_walk] at h
          obtain ⟨r, e, h0, rfl, hb, hd⟩ := h
          exact ⟨n, d, r, e, by simp, by simpa using hn, h0, by simp, hb, hd⟩
      · exact ⟨n', d', r, e, by simp [hm], h⟩
    · rintro ⟨n', d', r, e, hm, hn, h0, rfl, hb, hd⟩
      rcases List.mem_cons.1 hm with hm | hm
      · injection hm with h1 h2
        subst h1 h2
        left
        rw [if_neg (by simpa using hn), mem_walk]
        exact ⟨r, e, h0, by simp, hb, hd⟩
      · exact .inr ⟨n', d', r, e, hm, hn, h0, rfl, hb, hd⟩
end

theorem find_dir {ds : List (Str × Dir)} (hn : (ds.map Prod.fst).Nodup) {n : Str} {x : Str × Dir} :
    ds.find? (fun y => y.1 == n) = some x ↔ x ∈ ds ∧ x.1 = n := by
  induction ds with
  | nil => simp
  | cons y ds ih =>
    simp only [List.map_cons, List.nodup_cons] at hn
    rw [List.find?_cons]
    by_cases hy : y.1 = n
    · simp only [hy, beq_self_eq_true, Option.some.injEq, List.mem_cons]
      constructor
      · rintro rfl; exact ⟨.inl rfl, hy⟩
      · rintro ⟨rfl | hx, he⟩
        · rfl
        · exact absurd (List.mem_map.2 ⟨x, hx, he.trans hy.symm⟩) hn.1
    · have : (y.1 == n) = false := by simpa using hy
      rw [this]
      simp only
      rw [ih hn.2, List.mem_cons]
      constructor
      · rintro ⟨h1, h2⟩; exact ⟨.inr h1, h2⟩
      · rintro ⟨rfl | h1, h2⟩
        · exact absurd h2 hy
        · exact ⟨h1, h2⟩

theorem _root_.Arti.Spec.Tree.dirs_nodup {d : Dir} (h : Tree d) : (d.dirs.map Prod.fst).Nodup := by
  cases h with
  | mk hn _ => exact (List.nodup_append.1 hn).2.1

theorem _root_.Arti.Spec.Tree.sub {d : Dir} (h : Tree d) {x : Str × Dir} (hx : x ∈ d.dirs) : Tree x.2 := by
  cases h with
  | mk _ h => exact h x hx

theorem _root_.Arti.Spec.Tree.descend {d e : Dir} {rel : List Str} (h : Tree d) (hb : Below d rel e) : Tree e := by
  induction hb with
  | here => exact h
  | there hx _ ih => exact ih (h.sub hx)

theorem dirAt_iff {rel : List Str} : ∀ {d e : Dir}, Tree d → (dirAt d rel = some e ↔ Below d rel e) := by
  induction rel with
  | nil =>
    intro d e _
    rw [dirAt]
    constructor
    · intro h; injection h with h; subst h; exact .here _
    · intro h; cases h; rfl
  | cons n rel ih =>
    intro d e ht
    rw [dirAt]
    constructor
    · intro h
      split at h
      · rename_i x hx
        obtain ⟨hx', rfl⟩ := (find_dir ht.dirs_nodup).1 hx
        exact .there hx' ((ih (ht.sub hx')).1 h)
      · cases h
    · intro h
      cases h with
      | @there _ e1 _ _ _ h hb =>
        have := (find_dir ht.dirs_nodup (n := n) (x := (n, e1))).2 ⟨h, rfl⟩
        rw [this]
        exact (ih (ht.sub h)).2 hb

/-! ## Names -/

theorem moduleName_iff {sfx : List Str} (hs : Suffixes sfx) {f m : Str} (hm : '.' ∉ m) :
    moduleName sfx f = some m ↔ FileOf sfx m f := by
  unfold moduleName FileOf
  constructor
  · intro h
    obtain ⟨s, h1, h2⟩ := Option.map_eq_some_iff.1 h
    have h3 := List.find?_some h1
    obtain ⟨t, rfl⟩ := List.isSuffixOf_iff_suffix.1 h3
    simp only [List.length_append, Nat.add_sub_cancel, List.take_left'] at h2
    subst h2
    exact ⟨s, List.mem_of_find?_eq_some h1, rfl⟩
  · rintro ⟨s, hmem, rfl⟩
    have hfit : s.isSuffixOf (m ++ s) = true := List.isSuffixOf_iff_suffix.2 ⟨m, rfl⟩
    cases hf : sfx.find? (fun s' => s'.isSuffixOf (m ++ s)) with
    | none =>
      have := List.find?_eq_none.1 hf s hmem
      simp [hfit] at this
    | some s' =>
      obtain ⟨hp, as, bs, he, hall⟩ := List.find?_eq_some_iff_append.1 hf
      have hp := List.isSuffixOf_iff_suffix.1 hp
      have hle : s.length ≤ s'.length := by
        rw [he] at hmem
        rcases List.mem_append.1 hmem with h | h
        · have := hall s h
          simp [hfit] at this
        · rcases List.mem_cons.1 h with rfl | h
          · exact Nat.le_refl _
          · have := hs.sorted
            rw [he, List.pairwise_append] at this
            exact (List.pairwise_cons.1 this.2.1).1 s h
      have hss : s <:+ s' := List.suffix_of_suffix_length_le ⟨m, rfl⟩ hp hle
      obtain ⟨u, rfl⟩ := hss
      obtain ⟨w, hw⟩ := hp
      have hm' : m = w ++ u := by
        rw [← List.append_assoc] at hw
        exact (List.append_cancel_right hw).symm
      have hu : u = [] := by
        cases u with
        | nil => rfl
        | cons c u =>
          obtain ⟨t, ht⟩ := hs.dot _ (List.mem_of_find?_eq_some hf)
          rw [List.cons_append] at ht
          injection ht with hc
          subst hc
          exact absurd (by simp [hm']) hm
      subst hu
      simp

theorem moduleName_none {sfx : List Str} (hs : Suffixes sfx) {f : Str} (hf : '.' ∉ f) :
    moduleName sfx f = none := by
  unfold moduleName
  rw [Option.map_eq_none_iff, List.find?_eq_none]
  intro s hmem h
  obtain ⟨t, rfl⟩ := hs.dot s hmem
  obtain ⟨u, rfl⟩ := List.isSuffixOf_iff_suffix.1 h
  exact hf (by simp)

theorem mem_setUpdate_nil {α : Type} [DecidableEq α] {xs : List α} {x : α} :
    x ∈ setUpdate [] xs ↔ x ∈ xs := by
  have : ∀ (xs s : List α), x ∈ xs.foldl setInsert s ↔ x ∈ s ∨ x ∈ xs := by
    intro xs
    induction xs with
    | nil => simp
    | cons y xs ih =>
      intro s
      rw [List.foldl_cons, ih]
      unfold setInsert
      split
      · rename_i hy
        simp only [List.mem_cons]
        constructor
        · rintro (h | h) <;> simp [h]
        · rintro (h | rfl | h)
          · exact .inl h
          · exact .inl hy
          · exact .inr h
      · simp only [List.mem_append, List.mem_cons, List.not_mem_nil, or_false]
        constructor
        · rintro ((h | h) | h) <;> simp [h]
        · rintro (h | h | h) <;> simp [h]
  simpa [setUpdate] using this xs []

theorem nodup_setUpdate {α : Type} [DecidableEq α] (xs s : List α) (h : s.Nodup) :
    (setUpdate s xs).Nodup := by
  unfold setUpdate
  induction xs generalizing s with
  | nil => exact h
  | cons x xs ih =>
    rw [List.foldl_cons]
    refine ih _ ?_
    unfold setInsert
    split
    · exact h
    · rename_i hx
      exact List.nodup_append.2 ⟨h, by simp, by
        intro a ha b hb
        rw [List.mem_singleton.1 hb]
        rintro rfl
        exact hx ha⟩

theorem mem_iterModules {sfx : List Str} (hs : Suffixes sfx) {d : Dir} (ht : Tree d) {pre n : Str} :
    n ∈ iterModules sfx d pre ↔ ∃ m, HasModule sfx d m ∧ n = pre ++ m := by
  unfold iterModules
  simp only [List.mem_map, mem_setUpdate_nil, List.mem_filterMap]
  have key : ∀ m, (∃ e ∈ d.names, entryName sfx d e = some m) ↔ HasModule sfx d m := by
    intro m
    constructor
    · rintro ⟨e, he, h⟩
      unfold entryName at h
      split at h
      · rename_i m' hm'
        split at h
        · cases h
        · rename_i h1
          split at h
          · cases h
          · rename_i h2
            split at h
            · cases h
            · rename_i h3
              injection h with h
              subst h
              have hd : '.' ∉ m' := by simpa using h3
              exact ⟨by simpa using h2, hd, .inl ⟨by simpa using h1, e, he, (moduleName_iff hs hd).1 hm'⟩⟩
      · rename_i hm'
        split at h
        · cases h
        · rename_i h1
          split at h
          · cases h
          · rename_i h2
            split at h
            · cases h
            · rename_i x hx
              split at h
              · rename_i h3
                injection h with h
                subst h
                obtain ⟨hx', rfl⟩ := (find_dir ht.dirs_nodup).1 hx
                obtain ⟨f, hf, hfe⟩ := List.any_eq_true.1 h3
                refine ⟨by simpa using h2, by simpa using h1, .inr ⟨x.2, hx', f, hf, ?_⟩⟩
                exact (moduleName_iff hs (by decide +kernel)).1 (by simpa using hfe)
              · cases h
    · rintro ⟨h1, h2, ⟨h3, f, hf, hfe⟩ | ⟨e, he, f, hf, hfe⟩⟩
      · refine ⟨f, hf, ?_⟩
        unfold entryName
        rw [(moduleName_iff hs h2).2 hfe]
        simp only
        rw [if_neg (by simpa using h3), if_neg (by simpa using h1), if_neg (by simpa using h2)]
      · refine ⟨m, List.mem_append.2 (.inr (List.mem_map.2 ⟨_, he, rfl⟩)), ?_⟩
        unfold entryName
        rw [moduleName_none hs h2]
        have hx := (find_dir ht.dirs_nodup (n := m) (x := (m, e))).2 ⟨he, rfl⟩
        have hany : (e.names.any fun f => moduleName sfx f == some "__init__".toList) = true :=
          List.any_eq_true.2 ⟨f, hf, by
            rw [(moduleName_iff hs (by decide +kernel)).2 hfe]; simp⟩
        simp only [hx]
        rw [if_neg (by simpa using h2), if_neg (by simpa using h1), if_pos hany]
  constructor
  · rintro ⟨m, h, rfl⟩
    exact ⟨m, (key m).1 h, rfl⟩
  · rintro ⟨m, h, rfl⟩
    exact ⟨m, (key m).2 h, rfl⟩

theorem join_cons {a : Str} {r : List Str} (h : r ≠ []) :
    joinWith ['.'] (a :: r) = a ++ '.' :: joinWith ['.'] r := by
  cases r with
  | nil => exact absurd rfl h
  | cons b r => simp [joinWith]

theorem join_snoc {a : List Str} {m : Str} (h : a ≠ []) :
    joinWith ['.'] (a ++ [m]) = joinWith ['.'] a ++ '.' :: m := by
  induction a with
  | nil => exact absurd rfl h
  | cons x a ih =>
    by_cases ha : a = []
    · subst ha; simp [joinWith]
    · rw [List.cons_append, join_cons (by simp), ih ha, join_cons ha]; simp

theorem excluded_iff {rel : List Str} (h0 : rel ≠ []) (hd : ∀ n ∈ rel, '.' ∉ n) :
    excluded (joinWith ['.'] rel) = true ↔ Hidden rel := by
  unfold excluded Hidden
  rw [Bool.or_eq_true]
  refine or_congr ?_ ?_
  · rw [beq_iff_eq]
    constructor
    · intro h
      have h1 := splitOn_joinWith '.' rel h0 hd
      rw [h] at h1
      rw [← h1]
      decide +kernel
    · rintro rfl; rfl
  · rw [List.isSuffixOf_iff_suffix]
    obtain ⟨a, n, rfl⟩ : ∃ a n, rel = a ++ [n] :=
      ⟨rel.dropLast, rel.getLast h0, (List.dropLast_concat_getLast h0).symm⟩
    rw [List.getLast?_concat]
    have hsub : ∀ s : Str, '.' ∉ s → (s <:+ joinWith ['.'] (a ++ [n]) ↔ s <:+ n) := by
      intro s hs
      by_cases ha : a = []
      · subst ha; simp [joinWith]
      · rw [join_snoc ha]
        constructor
        · intro h
          have hn : n <:+ joinWith ['.'] a ++ '.' :: n := ⟨joinWith ['.'] a ++ ['.'], by simp⟩
          by_cases hl : s.length ≤ n.length
          · exact List.suffix_of_suffix_length_le h hn hl
          · have hn' : '.' :: n <:+ joinWith ['.'] a ++ '.' :: n := ⟨joinWith ['.'] a, rfl⟩
            obtain ⟨u, hu⟩ := List.suffix_of_suffix_length_le hn' h (by simp; omega)
            exact absurd (by simp [← hu]) hs
        · rintro ⟨u, rfl⟩
          exact ⟨joinWith ['.'] a ++ '.' :: u, by simp⟩
    rw [hsub _ (by decide +kernel)]
    simp

/-! ## The directories that are searched -/

theorem mem_findPackages {d : Dir} {p : Str} : p ∈ findPackages d ↔
    ∃ rel e, rel ≠ [] ∧ Below d rel e ∧ (∀ n ∈ rel, '.' ∉ n) ∧ ¬ Hidden rel ∧
      p = joinWith ['.'] rel := by
  unfold findPackages
  rw [List.mem_filter, List.mem_map]
  constructor
  · rintro ⟨⟨rel, hr, rfl⟩, hx⟩
    obtain ⟨r, e, h0, he, hb, hd⟩ := mem_walk.1 hr
    rw [List.nil_append] at he
    subst he
    refine ⟨rel, e, h0, hb, hd, ?_, rfl⟩
    intro hh
    rw [(excluded_iff h0 hd).2 hh] at hx
    cases hx
  · rintro ⟨rel, e, h0, hb, hd, hh, rfl⟩
    refine ⟨⟨rel, mem_walk.2 ⟨rel, e, h0, rfl, hb, hd⟩, rfl⟩, ?_⟩
    cases hx : excluded (joinWith ['.'] rel) with
    | true => exact absurd ((excluded_iff h0 hd).1 hx) hh
    | false => rfl

theorem mem_pathNames {fs : Str → Dir} {path : List Str} {name : Str} {x : (Str × List Str) × Str} :
    x ∈ (pathNames fs path name : List _) ↔ x.1.1 ∈ path ∧ x.2 = joinWith ['.'] (name :: x.1.2) ∧
      ¬ Hidden x.1.2 ∧ (∀ n ∈ x.1.2, '.' ∉ n) ∧ ∃ e, Below (fs x.1.1) x.1.2 e := by
  have hr : ∀ y : (Str × List Str) × Str, y ∈ (PyDict.ofItems (path.map fun p => ((p, []), name)) : List _) ↔
      y.1.1 ∈ path ∧ y.1.2 = [] ∧ y.2 = name := by
    rintro ⟨⟨p, r⟩, v⟩
    constructor
    · intro h
      have := mem_of_mem_ofItems h
      obtain ⟨q, hq, he⟩ := List.mem_map.1 this
      injection he with h1 h2
      injection h1 with h1 h3
      subst h1 h2 h3
      exact ⟨hq, rfl, rfl⟩
    · rintro ⟨h1, h2, h3⟩
      simp only at h1 h2 h3
      subst h2 h3
      refine mem_ofItems_of_unique (List.mem_map.2 ⟨p, h1, rfl⟩) ?_
      intro v' hv
      obtain ⟨q, hq, he⟩ := List.mem_map.1 hv
      injection he with _ h
      exact h.symm
  have hall : ∀ y : (Str × List Str) × Str,
      y ∈ (PyDict.ofItems (path.map fun p => ((p, ([] : List Str)), name)) ++
        (PyDict.ofItems (path.map fun p => ((p, ([] : List Str)), name))).flatMap fun x =>
          (findPackages (fs x.1.1)).map fun n => ((x.1.1, splitOn '.' n), x.2 ++ '.' :: n) : List _) ↔
      y.1.1 ∈ path ∧ y.2 = joinWith ['.'] (name :: y.1.2) ∧
      ¬ Hidden y.1.2 ∧ (∀ n ∈ y.1.2, '.' ∉ n) ∧ ∃ e, Below (fs y.1.1) y.1.2 e := by
    rintro ⟨⟨p, r⟩, v⟩
    rw [List.mem_append, hr, List.mem_flatMap]
    constructor
    · rintro (⟨h1, h2, h3⟩ | ⟨⟨⟨q, r'⟩, w⟩, hq, h⟩)
      · simp only at h1 h2 h3
        subst h2 h3
        exact ⟨h1, by simp [joinWith], by simp [Hidden], by simp, ⟨_, .here _⟩⟩
      · obtain ⟨n, hn, he⟩ := List.mem_map.1 h
        obtain ⟨hq1, hq2, hq3⟩ := (hr _).1 hq
        simp only at hq1 hq2 hq3
        subst hq2 hq3
        obtain ⟨rel, e, h0, hb, hd, hh, rfl⟩ := mem_findPackages.1 hn
        injection he with h1 h2
        injection h1 with h1 h3
        subst h1 h2 h3
        rw [splitOn_joinWith '.' rel h0 hd]
        exact ⟨hq1, by rw [join_cons h0], hh, hd, e, hb⟩
    · rintro ⟨h1, h2, h3, h4, e, hb⟩
      simp only at h1 h2 h3 h4 hb
      by_cases h0 : r = []
      · subst h0
        exact .inl ⟨h1, rfl, by simpa [joinWith] using h2⟩
      · refine .inr ⟨((p, []), name), (hr _).2 ⟨h1, rfl, rfl⟩, List.mem_map.2 ⟨joinWith ['.'] r,
          mem_findPackages.2 ⟨r, e, h0, hb, h4, h3, rfl⟩, ?_⟩⟩
        simp only
        rw [splitOn_joinWith '.' r h0 h4, h2, join_cons h0]
  constructor
  · intro h
    exact (hall x).1 (mem_of_mem_ofItems h)
  · intro h
    obtain ⟨k, v⟩ := x
    refine mem_ofItems_of_unique ((hall _).2 h) ?_
    intro v' hv
    have := (hall _).1 hv
    exact this.2.1.trans h.2.1.symm

theorem mem_requests {sfx : List Str} (hs : Suffixes sfx) {fs : Str → Dir} (ht : ∀ p, Tree (fs p))
    {path : List Str} {name n : Str} :
    n ∈ requests sfx fs path name ↔ Importable sfx fs path name n := by
  unfold requests Importable
  rw [List.mem_flatMap]
  constructor
  · rintro ⟨⟨⟨p, rel⟩, v⟩, hx, h⟩
    obtain ⟨h1, h2, h3, h4, e, hb⟩ := mem_pathNames.1 hx
    simp only at h1 h2 h3 h4 hb h
    rw [(dirAt_iff (ht p)).2 hb] at h
    obtain ⟨m, hm, rfl⟩ := (mem_iterModules hs ((ht p).descend hb)).1 h
    refine ⟨p, h1, rel, e, m, hb, h4, h3, hm, ?_⟩
    rw [join_snoc (by simp), h2]
    simp
  · rintro ⟨p, h1, rel, e, m, hb, h4, h3, hm, rfl⟩
    refine ⟨((p, rel), joinWith ['.'] (name :: rel)), mem_pathNames.2 ⟨h1, rfl, h3, h4, e, hb⟩, ?_⟩
    simp only
    rw [(dirAt_iff (ht p)).2 hb]
    refine (mem_iterModules hs ((ht p).descend hb)).2 ⟨m, hm, ?_⟩
    rw [join_snoc (by simp)]
    simp

theorem importAll_ok {Mod : Type} {imp : Str → Except Err Mod} : ∀ {ns : List Str}
    {ms : List (Str × Mod)}, importAll imp ns = .ok ms →
    ms.map Prod.fst = ns ∧ ∀ x ∈ ms, imp x.1 = .ok x.2
  | [], ms, h => by
    injection h with h
    subst h
    simp
  | n :: ns, ms, h => by
    rw [importAll] at h
    cases h1 : imp n with
    | error e => rw [h1] at h; cases h
    | ok m =>
      cases h2 : importAll imp ns with
      | error e => rw [h1, h2] at h; cases h
      | ok ms' =>
        rw [h1, h2] at h
        injection h with h
        subst h
        obtain ⟨h3, h4⟩ := importAll_ok h2
        refine ⟨by simp [h3], ?_⟩
        intro x hx
        rcases List.mem_cons.1 hx with rfl | hx
        · exact h1
        · exact h4 x hx

theorem importAll_iff {Mod : Type} {imp : Str → Except Err Mod} : ∀ {ns : List Str},
    (∃ ms, importAll imp ns = .ok ms) ↔ ∀ n ∈ ns, ∃ m, imp n = .ok m
  | [] => by simp [importAll]
  | n :: ns => by
    rw [importAll]
    constructor
    · rintro ⟨ms, h⟩
      cases h1 : imp n with
      | error e => rw [h1] at h; cases h
      | ok m =>
        cases h2 : importAll imp ns with
        | error e => rw [h1, h2] at h; cases h
        | ok ms' =>
          intro k hk
          rcases List.mem_cons.1 hk with rfl | hk
          · exact ⟨m, h1⟩
          · exact importAll_iff.1 ⟨ms', h2⟩ k hk
    · intro h
      obtain ⟨m, h1⟩ := h n (by simp)
      obtain ⟨ms, h2⟩ := (importAll_iff (ns := ns)).2 fun k hk => h k (by simp [hk])
      rw [h1, h2]
      exact ⟨_, rfl⟩

/-! ## The theorems -/

section
variable {Mod : Type} {sfx : List Str} (hs : Suffixes sfx) {fs : Str → Dir} (ht : ∀ p, Tree (fs p))
  (imp : Str → Except Err Mod) (path : List Str) (name : Str)
include hs ht

/-- C73: importing the submodules of a package imports exactly the modules in its directories and in
all directories below them, at any depth and with or without `__init__.py`, each under the name that
its place spells, and returns what importing it gives.  Only directories with a dot in the name and the
ones of `Hidden` are left out. -/
theorem C73_exactly_the_modules_are_imported {r : PyDict Str Mod}
    (h : importSubmodules sfx fs imp path name = .ok r) (full : Str) :
    (full ∈ keys r ↔ Importable sfx fs path name full) ∧
    ∀ m, (full, m) ∈ (r : List _) → imp full = .ok m := by
  unfold importSubmodules at h
  cases h1 : importAll imp (requests sfx fs path name) with
  | error e => rw [h1] at h; cases h
  | ok ms =>
    rw [h1] at h
    injection h with h
    subst h
    obtain ⟨h2, h3⟩ := importAll_ok h1
    constructor
    · rw [mem_keys_ofItems, h2, mem_requests hs ht]
    · intro m hm
      exact h3 (full, m) (mem_of_mem_ofItems hm)

/-- C73: it succeeds if and only if each of these modules can be imported: no module can fail
unnoticed, and nothing else can make it fail. -/
theorem C73_succeeds_iff_all_modules_do :
    (∃ r, importSubmodules sfx fs imp path name = .ok r) ↔
      ∀ full, Importable sfx fs path name full → ∃ m, imp full = .ok m := by
  have : (∃ r, importSubmodules sfx fs imp path name = .ok r) ↔
      ∃ ms, importAll imp (requests sfx fs path name) = .ok ms := by
    unfold importSubmodules
    cases h1 : importAll imp (requests sfx fs path name) with
    | error e => simp [bind, Except.bind]
    | ok ms => simp [bind, Except.bind, pure, Except.pure]
  rw [this, importAll_iff]
  exact forall_congr' fun n => by rw [mem_requests hs ht]

/-- C73: no module is asked for twice if the package has one directory. -/
theorem C73_each_module_is_imported_once (p : Str) : (requests sfx fs [p] name).Nodup := by
  unfold requests
  rw [List.nodup_flatMap]
  refine ⟨?_, ?_⟩
  · rintro ⟨⟨q, rel⟩, v⟩ -
    simp only
    split
    · refine List.Nodup.map (fun a b h => List.append_cancel_left h) ?_
      exact nodup_setUpdate _ _ (by simp)
    · simp
  · have hk : (keys (pathNames fs [p] name)).Nodup := nodup_keys_ofItems _
    rw [keys, List.Nodup, List.pairwise_map] at hk
    refine hk.imp_of_mem ?_
    rintro ⟨⟨q, rel⟩, v⟩ ⟨⟨q', rel'⟩, v'⟩ hx hx' hne n hn hn'
    obtain ⟨h1, h2, h3, h4, e, hb⟩ := mem_pathNames.1 hx
    obtain ⟨h1', h2', h3', h4', e', hb'⟩ := mem_pathNames.1 hx'
    simp only [List.mem_singleton] at h1 h2 h3 h4 hb hn h1' h2' h3' h4' hb' hn' hne
    subst h1 h1'
    rw [(dirAt_iff (ht _)).2 hb] at hn
    rw [(dirAt_iff (ht _)).2 hb'] at hn'
    obtain ⟨m, hm, rfl⟩ := (mem_iterModules hs ((ht _).descend hb)).1 hn
    obtain ⟨m', hm', he⟩ := (mem_iterModules hs ((ht _).descend hb')).1 hn'
    have e1 : joinWith ['.'] (name :: (rel ++ [m])) = joinWith ['.'] (name :: (rel' ++ [m'])) := by
      rw [← List.cons_append, ← List.cons_append, join_snoc (by simp), join_snoc (by simp), ← h2, ← h2']
      simpa using he
    rw [join_cons (by simp), join_cons (by simp)] at e1
    have e2 := List.cons.inj (List.append_cancel_left e1)
    have dots : ∀ {rel : List Str} {m : Str}, (∀ n ∈ rel, '.' ∉ n) → '.' ∉ m →
        ∀ n ∈ rel ++ [m], '.' ∉ n := by
      intro rel m h h' n hn
      rcases List.mem_append.1 hn with hn | hn
      · exact h n hn
      · rw [List.mem_singleton.1 hn]; exact h'
    have e3 := congrArg (splitOn '.') e2.2
    rw [splitOn_joinWith '.' _ (by simp) (dots h4 hm.2.1),
      splitOn_joinWith '.' _ (by simp) (dots h4' hm'.2.1)] at e3
    exact hne (by rw [(List.append_inj' e3 rfl).1])

end

namespace Ex73

/-- The suffixes of CPython on Linux. -/
def sfx : List Str :=
  [".cpython-312-x86_64-linux-gnu.so".toList, ".abi3.so".toList, ".pyc".toList, ".py".toList,
    ".so".toList]

theorem suffixes : Suffixes sfx :=
  ⟨by
    intro s hs
    simp only [sfx, List.mem_cons, List.not_mem_nil, or_false] at hs
    rcases hs with rfl | rfl | rfl | rfl | rfl <;> exact ⟨_, rfl⟩,
   by decide +kernel⟩

/-- A package with a module, a directory without `__init__.py` that has a module, a package in it, and
the byte code that Python keeps. -/
def dir : Dir :=
  .mk ["__init__.py".toList, "json.py".toList, "README".toList]
    [("__pycache__".toList, .mk ["json.cpython-312.pyc".toList] []),
     ("cloud".toList, .mk ["gcs.py".toList]
       [("sub".toList, .mk ["__init__.py".toList] [])])]

theorem tree : Tree dir := by
  refine .mk (by decide +kernel) ?_
  intro x hx
  simp only [List.mem_cons, List.not_mem_nil, or_false] at hx
  rcases hx with rfl | rfl
  · exact .mk (by decide +kernel) (by simp)
  · refine .mk (by decide +kernel) ?_
    intro x hx
    simp only [List.mem_cons, List.not_mem_nil, or_false] at hx
    subst hx
    exact .mk (by decide +kernel) (by simp)

example : importSubmodules sfx (fun _ => dir) (fun n => .ok n.length) ["/d".toList] "io".toList =
    .ok [("io.json".toList, 7), ("io.cloud.gcs".toList, 12), ("io.cloud.sub".toList, 12)] := by
  decide +kernel

example : Importable sfx (fun _ => dir) ["/d".toList] "io".toList "io.cloud.gcs".toList :=
  ((C73_exactly_the_modules_are_imported suffixes (fun _ => tree) (fun n => .ok n.length)
    ["/d".toList] "io".toList (r := [("io.json".toList, 7), ("io.cloud.gcs".toList, 12),
      ("io.cloud.sub".toList, 12)]) (by decide +kernel) _).1).1 (by decide +kernel)

end Ex73

end Arti.Props
