import Verif.Lemmas.Disk
import Verif.Examples.World

/-!
# A concrete world over real paths

Templates, keys and paths are those of the code; data are strings.  Used to show that the
hypotheses of the theorems about builds over real paths can be met.
-/

namespace Arti.Spec
open PyDict Props Stg

theorem lead_of_fits {T : List Tok} {path : Str} (h : Fits T path) : lead T <+: path := by
  induction h with
  | nil => exact List.nil_prefix
  | ch c _ ih => exact (List.prefix_cons_inj c).2 ih
  | fld f t _ _ _ => exact List.nil_prefix

/-- The components of a key that a template has. -/
def comps (T : List Tok) (k : Str) : List Str :=
  T.filterMap fun
    | .ch _ => none
    | .fld f => if f.first = k then
        match f.accs with
        | [.attr c] => some c
        | _ => none
      else none

/-- `Discoverable` as a check. -/
def discoverableB (cls : FieldCls) (kt : KeyTypes) (T : List Tok) : Bool :=
  tmplOk T && delimited T && (T.all fun
    | .ch c => !['*', '?', '['].contains c
    | .fld f => f = plain ifpName || match f.accs, f.spec with
      | [.attr _], [] => (keys kt).contains f.first
      | _, _ => false) &&
  (kt.all fun x => x.2 = cls) && !(keys kt).contains ifpName &&
  (keys kt).all fun k => (identifying cls).any fun names =>
    (comps T k).all (fun c => (names.map String.toList).contains c) &&
    (names.map String.toList).all fun c => (comps T k).contains c

theorem discoverable_of {cls : FieldCls} {kt : KeyTypes} {T : List Tok}
    (h : discoverableB cls kt T = true) : Discoverable cls kt T := by
  simp only [discoverableB, Bool.and_eq_true] at h
  obtain ⟨⟨⟨⟨⟨h1, h2⟩, h3⟩, h4⟩, h5⟩, h6⟩ := h
  have hf : ∀ f, .fld f ∈ T → f = plain ifpName ∨ ∃ k ∈ keys kt, ∃ c, f = ⟨k, [.attr c], []⟩ := by
    intro f hf
    have := List.all_eq_true.1 h3 _ hf
    simp only [Bool.or_eq_true, decide_eq_true_eq] at this
    rcases this with h | h
    · exact .inl h
    · obtain ⟨k, accs, spec⟩ := f
      split at h
      · rename_i c e1 e2
        simp only at e1 e2 h
        subst e1; subst e2
        exact .inr ⟨k, by simpa using h, c, rfl⟩
      · simp at h
  refine ⟨h1, h2, ?_, ?_, by simpa using h5, hf, ?_⟩
  · intro c hc
    have := List.all_eq_true.1 h3 _ hc
    simpa using this
  · intro k c hk
    simpa using List.all_eq_true.1 h4 _ hk
  · intro k hk
    have := List.all_eq_true.1 h6 k hk
    obtain ⟨names, hn, h7⟩ := List.any_eq_true.1 this
    simp only [Bool.and_eq_true] at h7
    refine ⟨names, hn, fun c => ?_⟩
    have hm : mentions T k c = true ↔ c ∈ comps T k := by
      unfold mentions comps
      rw [List.any_eq_true, List.mem_filterMap]
      refine exists_congr fun x => and_congr_right fun hx => ?_
      cases x with
      | ch c => simp
      | fld f =>
        simp only [Bool.and_eq_true, beq_iff_eq]
        rcases hf f hx with rfl | ⟨k', -, c', rfl⟩
        · by_cases hk : ifpName = k <;> simp [plain, hk]
        · by_cases hk : k' = k <;> simp [hk]
    rw [hm]
    constructor
    · intro h
      simpa using List.all_eq_true.1 h7.1 c h
    · intro h
      simpa using List.all_eq_true.1 h7.2 c h

end Arti.Spec

namespace Arti.ExDisk
open PyDict World Spec Stg Disk Ex

instance : DecidableEq (PSnap CKey) := instDecidableEqPSnap

/-! ## Iterating sets in a fixed order -/

def encVal : FieldVal → List Int
  | .date y m d => 0 :: (encNat y ++ (encNat m ++ encNat d))
  | .int k v => (match k with | .int8 => 1 | .int16 => 2 | .int32 => 3 | .int64 => 4) :: encInt v
  | .null => [5]

def encPKey : PKey → List Int
  | [] => [0]
  | (k, v) :: pk => 1 :: (encStr k ++ (encVal v ++ encPKey pk))

def encPSnap (s : PSnap CKey) : List Int :=
  encInt s.contentFp ++ (encSto s.part.sto ++ (encOpt encInt s.part.inputFp ++
    (encPKey s.part.key.1 ++ encLoc s.part.loc)))

theorem code_val : Code encVal := by
  intro a b r r' h
  cases a with
  | date y m d =>
    cases b with
    | date y' m' d' =>
      simp only [encVal, List.cons_append, List.cons.injEq, true_and, List.append_assoc] at h
      obtain ⟨rfl, h2⟩ := code_nat _ _ _ _ h
      obtain ⟨rfl, h3⟩ := code_nat _ _ _ _ h2
      obtain ⟨rfl, h4⟩ := code_nat _ _ _ _ h3
      exact ⟨rfl, h4⟩
    | int k v => cases k <;> simp [encVal] at h
    | null => simp [encVal] at h
  | int k v =>
    cases b with
    | date _ _ _ => cases k <;> simp [encVal] at h
    | int k' v' =>
      simp only [encVal, List.cons_append, List.cons.injEq] at h
      obtain ⟨h1, h2⟩ := h
      obtain ⟨rfl, rfl⟩ := code_int _ _ _ _ h2
      cases k <;> cases k' <;> simp_all
    | null => cases k <;> simp [encVal] at h
  | null =>
    cases b with
    | date _ _ _ => simp [encVal] at h
    | int k v => cases k <;> simp [encVal] at h
    | null => simpa [encVal] using h

theorem code_pkey : Code encPKey := by
  intro a
  induction a with
  | nil =>
    intro b r r' h
    cases b with
    | nil => simpa [encPKey] using h
    | cons c b => simp [encPKey] at h
  | cons x a ih =>
    intro b r r' h
    cases b with
    | nil => simp [encPKey] at h
    | cons y b =>
      obtain ⟨k, v⟩ := x
      obtain ⟨k', v'⟩ := y
      simp only [encPKey, List.cons_append, List.cons.injEq, true_and, List.append_assoc] at h
      obtain ⟨rfl, h2⟩ := code_str _ _ _ _ h
      obtain ⟨rfl, h3⟩ := code_val _ _ _ _ h2
      obtain ⟨rfl, h4⟩ := ih _ _ _ h3
      exact ⟨rfl, h4⟩

theorem encPSnap_inj {a b : PSnap CKey} (h : encPSnap a = encPSnap b) : a = b := by
  unfold encPSnap at h
  obtain ⟨h1, h2⟩ := code_int _ _ _ _ h
  obtain ⟨h3, h4⟩ := code_sto _ _ _ _ h2
  obtain ⟨h5, h6⟩ := code_opt code_int _ _ _ _ h4
  obtain ⟨h7, h8⟩ := code_pkey _ _ _ _ h6
  obtain ⟨h9, _⟩ := code_loc _ _ [] [] (by simpa using h8)
  obtain ⟨_, _, _, k, _⟩ := a
  obtain ⟨_, _, _, k', _⟩ := b
  simp only at h1 h3 h5 h7 h9
  have h7 : k = k' := Subtype.ext h7
  subst h1; subst h3; subst h5; subst h7; subst h9
  rfl

def leB (a b : PSnap CKey) : Bool := lexLe (encPSnap a) (encPSnap b)

def sortB (l : List (PSnap CKey)) : List (PSnap CKey) := l.insertionSort fun a b => leB a b = true

theorem sortB_perm (l : List (PSnap CKey)) : (sortB l).Perm l := List.perm_insertionSort _ l

theorem sortB_ext (l l' : List (PSnap CKey)) (h : l.Nodup) (h' : l'.Nodup)
    (he : ∀ x, x ∈ l ↔ x ∈ l') : sortB l = sortB l' := by
  let _ : Std.Total fun a b : PSnap CKey => leB a b = true := ⟨fun a b => lexLe_total _ _⟩
  let _ : IsTrans (PSnap CKey) fun a b => leB a b = true := ⟨fun a b c => lexLe_trans _ _ _⟩
  have hp : l.Perm l' := (List.perm_ext_iff_of_nodup h h').2 he
  have hp' := ((sortB_perm l).trans hp).trans (sortB_perm l').symm
  refine List.Perm.eq_of_pairwise ?_ (List.pairwise_insertionSort _ l)
    (List.pairwise_insertionSort _ l') hp'
  intro a b _ _ h1 h2
  exact encPSnap_inj (lexLe_antisymm _ _ h1 h2)

/-! ## The environment -/

def mapEach (ins : List (Str × List (PSnap CKey))) :
    List (CKey × List (Str × List (PSnap CKey))) :=
  ((get? ins ['x']).getD []).map fun sn => (sn.part.key, [(['x'], [sn])])

def mapAll (ins : List (Str × List (PSnap CKey))) : List (CKey × List (Str × List (PSnap CKey))) :=
  [(⟨[], .nil⟩, [(['x'], (get? ins ['x']).getD [])])]

/-- The producers: `E` makes one partition from each partition, others make one from all. -/
def impl (c : Str) (v : Fp) : PClass CKey Str :=
  let arg (args : List (Str × Str)) : Str := (get? args ['x']).getD []
  let mark : Str := if v = Ex.hash ['2'] then ['2'] else ['1']
  match c with
  | ['E'] => ⟨[(['x'], 0)], [['x']], [0], fun ins => match mapEach ins with
      | [] => .error .valueError
      | l => .ok l, fun args => .ok [arg args ++ mark], fun _ => .ok true⟩
  | _ => ⟨[(['x'], 0)], [['x']], [0], fun ins => .ok (mapAll ins),
      fun args => .ok [arg args ++ mark], fun _ => .ok true⟩

def base : Env CKey Str where
  npKey := ⟨[], .nil⟩
  render _ _ _ := .error .unsupported
  scan _ _ := .error .unsupported
  fileHash := Ex.hash
  strHash := Ex.hash
  nodeFp n := match n with | .art _ => 1 | .pdr p => Ex.hash (p.cls ++ p.ver)
  graphFp g := Ex.hash g.name
  snapFp sn := Ex.hash (((encPKey sn.part.key.1).map intToStr).flatten ++ intToStr sn.contentFp)
  snapshotFp σ := σ.id
  versionFp := Ex.hash
  impl := impl
  enc _ _ d := .ok d
  dec _ _ cs := .ok cs.flatten
  iter := sortB

theorem impl_selects (c : Str) (v : Fp) (ins : List (Str × List (PSnap CKey)))
    (items : List (CKey × List (Str × List (PSnap CKey)))) (h : (impl c v).map ins = .ok items) :
    (∀ pk d, (pk, d) ∈ items → ∀ n ss, (n, ss) ∈ d → ∀ sn ∈ ss,
      ∃ l, get? ins n = some l ∧ sn ∈ l) ∧ items ≠ [] := by
  have hget : ∀ sn, sn ∈ (get? ins ['x']).getD [] → ∃ l, get? ins ['x'] = some l ∧ sn ∈ l := by
    intro sn hsn
    cases hg : get? ins ['x'] with
    | none => rw [hg] at hsn; simp at hsn
    | some l => rw [hg] at hsn; exact ⟨l, rfl, hsn⟩
  unfold impl at h
  simp only at h
  split at h
  · simp only at h
    split at h
    · simp at h
    · rename_i hx
      simp only [Except.ok.injEq] at h
      subst h
      refine ⟨?_, fun he => hx he⟩
      intro pk d hm n ss hd sn hsn
      obtain ⟨sn', h1, h2⟩ := List.mem_map.1 hm
      simp only [Prod.mk.injEq] at h2
      obtain ⟨rfl, rfl⟩ := h2
      simp only [List.mem_singleton, Prod.mk.injEq] at hd
      obtain ⟨rfl, rfl⟩ := hd
      simp only [List.mem_singleton] at hsn
      subst hsn
      exact hget _ h1
  · simp only [Except.ok.injEq] at h
    subst h
    refine ⟨?_, by simp [mapAll]⟩
    intro pk d hm n ss hd sn hsn
    simp only [mapAll, List.mem_singleton, Prod.mk.injEq] at hm
    obtain ⟨rfl, rfl⟩ := hm
    simp only [List.mem_singleton, Prod.mk.injEq] at hd
    obtain ⟨rfl, rfl⟩ := hd
    exact hget sn hsn

theorem impl_one (c : Str) (v : Fp) : (impl c v).outputs.length = 1 ∧
    ∀ (args : List (Str × Str)) (outs : List Str), (impl c v).build args = .ok outs →
      outs.length = 1 := by
  unfold impl
  simp only
  split
  all_goals
    refine ⟨rfl, fun args outs h => ?_⟩
    simp only [Except.ok.injEq] at h
    subst h
    rfl

/-! ## Deciding the conditions on a concrete history -/

section
variable {kt : Str → KeyTypes}

def disciplinedB (g : Graph) : Bool :=
  decide (keys g.arts).Nodup &&
  (madeOf g).all fun (i, p, pos) => i.sto.hasFp &&
    (List.range (pos + 1)).all fun j => (madeOf g).any fun (_, q, k) => q = p && k = j

theorem disciplined_of {base : Env CKey Str} (hi : IterOk (disk base kt))
    (hs : ∀ c v ins items, (base.impl c v).map ins = .ok items →
      (∀ pk d, (pk, d) ∈ items → ∀ n ss, (n, ss) ∈ d → ∀ sn ∈ ss,
        ∃ l, get? ins n = some l ∧ sn ∈ l) ∧ items ≠ [])
    (gl : List Graph) (h : gl.all disciplinedB = true) :
    Disciplined (disk base kt) (· ∈ gl) := by
  refine ⟨hi, ?_, ?_, ?_, ?_, ?_⟩
  · intro g hg
    have h1 := List.all_eq_true.1 h g hg
    simp only [disciplinedB, Bool.and_eq_true, decide_eq_true_eq] at h1
    exact h1.1
  · rintro i p pos ⟨g, hg, hm⟩
    have h1 := List.all_eq_true.1 h g hg
    simp only [disciplinedB, Bool.and_eq_true] at h1
    have h2 := List.all_eq_true.1 h1.2 _ (mem_madeOf.2 hm)
    simp only [Bool.and_eq_true] at h2
    exact h2.1
  · intro g hg k i p pos hm j hj
    have h1 := List.all_eq_true.1 h g hg
    simp only [disciplinedB, Bool.and_eq_true] at h1
    have h2 := List.all_eq_true.1 h1.2 _ (mem_madeOf.2 ⟨k, hm⟩)
    simp only [Bool.and_eq_true] at h2
    have h3 := List.all_eq_true.1 h2.2 j (List.mem_range.2 (by omega))
    obtain ⟨⟨i', q, k'⟩, h4, h5⟩ := List.any_eq_true.1 h3
    simp only [Bool.and_eq_true, decide_eq_true_eq] at h5
    obtain ⟨rfl, rfl⟩ := h5
    obtain ⟨kk, h6⟩ := mem_madeOf.1 h4
    exact ⟨kk, i', h6⟩
  · intro i p pos hm ins items hmap
    exact (hs _ _ _ _ hmap).1
  · intro i p pos hm ins items hmap
    exact (hs _ _ _ _ hmap).2

theorem disciplined (gl : List Graph) (h : gl.all disciplinedB = true) :
    Disciplined (disk base kt) (· ∈ gl) :=
  disciplined_of (base := base) ⟨sortB_perm, sortB_ext⟩ impl_selects gl h

def singleB (g : Graph) : Bool :=
  (madeOf g).all fun (i, p, pos) => (madeOf g).all fun (i', p', pos') =>
    p != p' || (i = i' && pos = pos')

theorem singleOutput (g : Graph) (h : singleB g = true) : SingleOutput (disk base kt) g := by
  constructor
  · intro k i p pos k' i' pos' h1 h2
    have h4 := List.all_eq_true.1 (List.all_eq_true.1 h _ (mem_madeOf.2 ⟨k, h1⟩)) _
      (mem_madeOf.2 ⟨k', h2⟩)
    simpa using h4
  · intro k i p pos hm
    exact impl_one _ _

def oneOwnerB (gl : List Graph) : Bool :=
  (gl.flatMap madeOf).all fun (i1, p1, pos1) => (gl.flatMap madeOf).all fun (i2, p2, pos2) =>
    i1.sto != i2.sto || (p1.cls = p2.cls && pos1 = pos2)

theorem oneOwner (gl : List Graph) (h : oneOwnerB gl = true) :
    OneOwner (disk base kt) (· ∈ gl) := by
  rintro i1 p1 pos1 i2 p2 pos2 ⟨g1, hg1, m1⟩ ⟨g2, hg2, m2⟩ hs
  have := List.all_eq_true.1 (List.all_eq_true.1 h (i1, p1, pos1)
    (List.mem_flatMap.2 ⟨g1, hg1, mem_madeOf.2 m1⟩)) (i2, p2, pos2)
    (List.mem_flatMap.2 ⟨g2, hg2, mem_madeOf.2 m2⟩)
  simp only [hs, bne_self_eq_false, Bool.false_or, Bool.and_eq_true, decide_eq_true_eq] at this
  exact ⟨this.1, this.2, fun _ _ => rfl⟩

def fpUniqueB (log : List (Inv CKey Str)) : Bool :=
  log.all fun e1 => log.all fun e2 =>
    e1.pdr.cls != e2.pdr.cls || e1.fp != e2.fp || e1.key != e2.key ||
      (Ex.hash e1.pdr.ver = Ex.hash e2.pdr.ver && e1.args = e2.args)

theorem fpUnique (log : List (Inv CKey Str)) (h : fpUniqueB log = true) :
    FpUnique (disk base kt) log := by
  intro e1 h1 e2 h2 hc hf hk
  have := List.all_eq_true.1 (List.all_eq_true.1 h e1 h1) e2 h2
  simp only [hc, hf, hk, bne_self_eq_false, Bool.false_or, Bool.and_eq_true,
    decide_eq_true_eq] at this
  exact this

def snapUniqueB (raws : List (Snapshot × PyDict Str (Data CKey))) : Bool :=
  raws.all fun x => raws.all fun y => x.1 != y.1 || decide (x.2 = y.2)

theorem snapUnique (raws : List (Snapshot × PyDict Str (Data CKey)))
    (h : snapUniqueB raws = true) : SnapUnique raws := by
  intro σ r r' h1 h2 i x
  have := List.all_eq_true.1 (List.all_eq_true.1 h _ h1) _ h2
  simp only [bne_self_eq_false, Bool.false_or, decide_eq_true_eq] at this
  rw [this]

/-- The field class and the tokens of templates. -/
abbrev Tmpls := Sto → Option (FieldCls × List Tok)

def templateB (kt : Str → KeyTypes) (tm : Tmpls) (sto : Sto) : Bool :=
  match sto, tm sto with
  | .file t, some (cls, T) => t.text = print T && t.keyed = !(kt t.text).isEmpty &&
      discoverableB cls (kt t.text) T
  | _, _ => false

theorem templateOf {tm : Tmpls} {sto : Sto} (h : templateB kt tm sto = true) :
    ∃ cls T, tm sto = some (cls, T) ∧ TemplateOf kt sto T := by
  unfold templateB at h
  split at h
  · rename_i t cls T he
    simp only [Bool.and_eq_true, decide_eq_true_eq] at h
    exact ⟨cls, T, he, t, cls, rfl, h.1.1, h.1.2, discoverable_of h.2⟩
  · simp at h

def isLit : Sto → Bool
  | .lit _ _ => true
  | .file _ => false

/-- Templates whose fixed beginnings differ. -/
def leadsB (tm : Tmpls) (s1 s2 : Sto) : Bool :=
  match tm s1, tm s2 with
  | some (_, T), some (_, T') => !(lead T).isPrefixOf (lead T') && !(lead T').isPrefixOf (lead T)
  | _, _ => false

def layoutB (kt : Str → KeyTypes) (tm : Tmpls) (gl : List Graph) : Bool :=
  gl.all (fun g => g.arts.all fun (_, a) =>
    match a with
    | .raw i => isLit i.sto || templateB kt tm i.sto
    | .made i _ _ => templateB kt tm i.sto) &&
  (gl.flatMap madeOf).all fun (i, _, _) => gl.all fun g => g.arts.all fun (_, a) =>
    match a with
    | .raw j => isLit j.sto || leadsB tm i.sto j.sto
    | .made j _ _ => i.sto = j.sto || leadsB tm i.sto j.sto

theorem leads_apart {T T' : List Tok} (h : ¬ lead T <+: lead T') (h' : ¬ lead T' <+: lead T)
    {path : Str} (h1 : Fits T path) : ¬ Fits T' path := fun h2 =>
  (List.prefix_or_prefix_of_prefix (lead_of_fits h1) (lead_of_fits h2)).elim h h'

theorem layout {tm : Tmpls} (gl : List Graph) (h : layoutB kt tm gl = true) :
    Layout kt (· ∈ gl) := by
  simp only [layoutB, Bool.and_eq_true] at h
  obtain ⟨h1, h2⟩ := h
  have ht : ∀ g ∈ gl, ∀ k a, (k, a) ∈ g.arts → isLit a.info.sto = true ∨
      templateB kt tm a.info.sto = true := by
    intro g hg k a ha
    have := List.all_eq_true.1 (List.all_eq_true.1 h1 g hg) _ ha
    cases a with
    | raw i => simp only [Bool.or_eq_true] at this; exact this
    | made i p pos => exact .inr this
  refine ⟨?_, ?_, ?_⟩
  · rintro i p pos ⟨g, hg, k, hm⟩
    have := List.all_eq_true.1 (List.all_eq_true.1 h1 g hg) _ hm
    obtain ⟨_, T, _, hT⟩ := templateOf this
    exact ⟨T, hT⟩
  · intro g hg k i hk
    rcases ht g hg k _ hk with h | h
    · change isLit i.sto = true at h
      cases hs : i.sto with
      | lit t v => exact .inl ⟨t, v, rfl⟩
      | file t => rw [hs] at h; simp [isLit] at h
    · obtain ⟨_, T, _, hT⟩ := templateOf h
      exact .inr ⟨T, hT⟩
  · rintro i p pos ⟨g', hg', hm⟩ g hg k a hk hor T T' hT hT' path hfit
    have := List.all_eq_true.1 (List.all_eq_true.1 (List.all_eq_true.1 h2 (i, p, pos)
      (List.mem_flatMap.2 ⟨g', hg', mem_madeOf.2 hm⟩)) g hg) _ hk
    have hnl : isLit a.info.sto = false := by
      obtain ⟨t, _, he, _⟩ := hT'
      rw [he]; rfl
    have hl : leadsB tm i.sto a.info.sto = true := by
      cases a with
      | raw j =>
        simp only [Bool.or_eq_true] at this
        rcases this with h | h
        · rw [show (Art.raw j).info = j from rfl] at hnl; rw [hnl] at h; simp at h
        · exact h
      | made j q pos' =>
        simp only [Bool.or_eq_true, decide_eq_true_eq] at this
        rcases this with h | h
        · rcases hor with ⟨j', hj⟩ | hne
          · simp at hj
          · exact absurd h.symm hne
        · exact h
    obtain ⟨kk, hm⟩ := hm
    have t1 := (ht g' hg' kk _ hm).resolve_left (by
      obtain ⟨t, _, he, _⟩ := hT
      show ¬ isLit i.sto = true
      rw [he]; simp [isLit])
    have t2 := (ht g hg k a hk).resolve_left (by rw [hnl]; simp)
    obtain ⟨_, S, e1, hS⟩ := templateOf t1
    obtain ⟨_, S', e2, hS'⟩ := templateOf t2
    obtain rfl := templateOf_unique hT hS
    obtain rfl := templateOf_unique hT' hS'
    unfold leadsB at hl
    change tm i.sto = _ at e1
    rw [e1, e2] at hl
    simp only [Bool.and_eq_true, Bool.not_eq_true', ← Bool.not_eq_true,
      List.isPrefixOf_iff_prefix] at hl
    exact leads_apart hl.1 hl.2 hfit

/-- The partition of which this is the path. -/
def partOf (kt : KeyTypes) (T : List Tok) (path : Str) : Bool :=
  match lazyMatch T [] path with
  | none => false
  | some named =>
    match expand named >>= extractPlaceholders kt with
    | .error _ => false
    | .ok (fp, pk) => conforms kt (ofPKey pk).1 && inRange fp &&
        genFile ⟨print T, some kt⟩ fp (ofPKey pk).1 = .ok ⟨fp, (ofPKey pk).1, path⟩

theorem partitionAt_of {kt : KeyTypes} {T : List Tok} {path : Str} (h : partOf kt T path = true) :
    ∃ fp pk, PartitionAt kt T fp pk path := by
  unfold partOf at h
  split at h
  · simp at h
  · split at h
    · simp at h
    · simp only [Bool.and_eq_true, decide_eq_true_eq] at h
      exact ⟨_, _, conforms_iff.1 h.1.1, inRange_iff.1 h.1.2, h.2⟩

def tidyB (kt : Str → KeyTypes) (tm : Tmpls) (gl : List Graph) (files : PyDict Str Str) : Bool :=
  gl.all fun g => g.arts.all fun (_, a) => isLit a.info.sto ||
    templateB kt tm a.info.sto && match tm a.info.sto with
      | none => false
      | some (_, T) => (keys files).all fun path =>
          !(lead T).isPrefixOf path || partOf (kt a.info.sto.tmpl.text) T path

theorem tidy {tm : Tmpls} (gl : List Graph) (files : PyDict Str Str)
    (h : tidyB kt tm gl files = true) : Tidy kt (· ∈ gl) files := by
  intro g hg k a hk T hT path hp hfit
  have := List.all_eq_true.1 (List.all_eq_true.1 h g hg) _ hk
  have hnl : isLit a.info.sto = false := by
    obtain ⟨t, _, he, _⟩ := hT
    rw [he]; rfl
  simp only [hnl, Bool.false_or, Bool.and_eq_true] at this
  obtain ⟨_, S, e1, hS⟩ := templateOf this.1
  obtain rfl := templateOf_unique hT hS
  rw [e1] at this
  have hmem : path ∈ keys files := by
    apply Classical.byContradiction
    intro h; exact hp ((get?_eq_none_iff _ _).2 h)
  have := List.all_eq_true.1 this.2 _ hmem
  have hl : (lead T).isPrefixOf path = true := List.isPrefixOf_iff_prefix.2 (lead_of_fits hfit)
  simp only [hl, Bool.not_true, Bool.false_or] at this
  exact partitionAt_of this

end

end Arti.ExDisk
