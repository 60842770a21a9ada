import Verif.Lemmas.Ops
import Mathlib.Data.List.Sort

/-!
# A concrete world

Partition keys are numbers, data are strings, templates are a prefix and maybe
`{input_fingerprint}`.  It is used to show that the hypotheses of the theorems about builds can be
met, and for counterexamples.
-/

namespace Arti.Ex
open PyDict World Spec

/-! ## Iterating sets in a fixed order -/

/-- Lexicographic order. -/
def lexLe : List Int → List Int → Bool
  | [], _ => true
  | _ :: _, [] => false
  | a :: x, b :: y => a < b || (a == b && lexLe x y)

theorem lexLe_total : ∀ x y, lexLe x y = true ∨ lexLe y x = true
  | [], _ => .inl rfl
  | _ :: _, [] => .inr rfl
  | a :: x, b :: y => by
    have := lexLe_total x y
    simp only [lexLe, Bool.or_eq_true, decide_eq_true_eq, Bool.and_eq_true, beq_iff_eq]
    rcases lt_trichotomy a b with h | h | h
    · exact .inl (.inl h)
    · subst h; rcases this with h | h
      · exact .inl (.inr ⟨rfl, h⟩)
      · exact .inr (.inr ⟨rfl, h⟩)
    · exact .inr (.inl h)

theorem lexLe_trans : ∀ x y z, lexLe x y = true → lexLe y z = true → lexLe x z = true
  | [], _, _, _, _ => rfl
  | _ :: _, [], _, h, _ => by simp [lexLe] at h
  | _ :: _, _ :: _, [], _, h => by simp [lexLe] at h
  | a :: x, b :: y, c :: z, h1, h2 => by
    simp only [lexLe, Bool.or_eq_true, decide_eq_true_eq, Bool.and_eq_true, beq_iff_eq] at *
    rcases h1 with h1 | ⟨rfl, h1⟩
    · rcases h2 with h2 | ⟨rfl, h2⟩
      · exact .inl (lt_trans h1 h2)
      · exact .inl h1
    · rcases h2 with h2 | ⟨rfl, h2⟩
      · exact .inl h2
      · exact .inr ⟨rfl, lexLe_trans x y z h1 h2⟩

theorem lexLe_antisymm : ∀ x y, lexLe x y = true → lexLe y x = true → x = y
  | [], [], _, _ => rfl
  | [], _ :: _, _, h => by simp [lexLe] at h
  | _ :: _, [], h, _ => by simp [lexLe] at h
  | a :: x, b :: y, h1, h2 => by
    simp only [lexLe, Bool.or_eq_true, decide_eq_true_eq, Bool.and_eq_true, beq_iff_eq] at *
    rcases h1 with h1 | ⟨rfl, h1⟩
    · rcases h2 with h2 | ⟨rfl, h2⟩
      · exact absurd (lt_trans h1 h2) (lt_irrefl _)
      · exact absurd h1 (lt_irrefl _)
    · rcases h2 with h2 | ⟨_, h2⟩
      · exact absurd h2 (lt_irrefl _)
      · rw [lexLe_antisymm x y h1 h2]

/-- Codes of which none is a proper prefix of another. -/
def Code {α : Type} (f : α → List Int) : Prop :=
  ∀ a b r r', f a ++ r = f b ++ r' → a = b ∧ r = r'

def encInt (i : Int) : List Int := [i]
def encNat (n : Nat) : List Int := [(n : Int)]
def encBool (b : Bool) : List Int := if b then [1] else [0]
def encOpt {α : Type} (f : α → List Int) : Option α → List Int
  | none => [0]
  | some a => 1 :: f a
def encStr : Str → List Int
  | [] => [0]
  | c :: s => 1 :: (c.toNat : Int) :: encStr s
def encSto : Sto → List Int
  | .file t => 0 :: (encStr t.text ++ encBool t.keyed)
  | .lit t v => 1 :: (encStr t.text ++ (encBool t.keyed ++ encOpt encStr v))
def encLoc : Loc → List Int
  | .file p => 0 :: encStr p
  | .lit i v => 1 :: (encStr i ++ encOpt encStr v)
def encSnap (s : PSnap Nat) : List Int :=
  encInt s.contentFp ++ (encSto s.part.sto ++ (encOpt encInt s.part.inputFp ++
    (encNat s.part.key ++ encLoc s.part.loc)))

theorem code_int : Code encInt := by
  intro a b r r' h; simpa [encInt] using h
theorem code_nat : Code encNat := by
  intro a b r r' h; simpa [encNat, Int.ofNat_inj] using h
theorem code_bool : Code encBool := by
  intro a b r r' h; revert h; cases a <;> cases b <;> simp [encBool]
theorem code_opt {α : Type} {f : α → List Int} (hf : Code f) : Code (encOpt f) := by
  intro a b r r' h
  cases a <;> cases b
  · simpa [encOpt] using h
  · simp [encOpt] at h
  · simp [encOpt] at h
  · simp only [encOpt, List.cons_append, List.cons.injEq, true_and] at h
    obtain ⟨rfl, rfl⟩ := hf _ _ _ _ h
    exact ⟨rfl, rfl⟩
theorem code_str : Code encStr := by
  intro a
  induction a with
  | nil =>
    intro b r r' h
    cases b with
    | nil => simpa [encStr] using h
    | cons c b => simp [encStr] at h
  | cons c a ih =>
    intro b r r' h
    cases b with
    | nil => simp [encStr] at h
    | cons d b =>
      simp only [encStr, List.cons_append, List.cons.injEq, true_and] at h
      obtain ⟨h1, h2⟩ := h
      obtain ⟨rfl, rfl⟩ := ih _ _ _ h2
      have : c = d := Char.toNat_inj.1 (Int.ofNat_inj.1 h1)
      subst this
      exact ⟨rfl, rfl⟩
theorem code_sto : Code encSto := by
  intro a b r r' h
  cases a <;> cases b
  · rename_i t u
    simp only [encSto, List.cons_append, List.cons.injEq, true_and, List.append_assoc] at h
    obtain ⟨h1, h2⟩ := code_str _ _ _ _ h
    obtain ⟨h3, h4⟩ := code_bool _ _ _ _ h2
    obtain ⟨_, _⟩ := t
    obtain ⟨_, _⟩ := u
    simp only at h1 h3
    subst h1; subst h3
    exact ⟨rfl, h4⟩
  · simp [encSto] at h
  · simp [encSto] at h
  · rename_i t v u w
    simp only [encSto, List.cons_append, List.cons.injEq, true_and, List.append_assoc] at h
    obtain ⟨h1, h2⟩ := code_str _ _ _ _ h
    obtain ⟨h3, h4⟩ := code_bool _ _ _ _ h2
    obtain ⟨h5, h6⟩ := code_opt code_str _ _ _ _ h4
    obtain ⟨_, _⟩ := t
    obtain ⟨_, _⟩ := u
    simp only at h1 h3
    subst h1; subst h3; subst h5
    exact ⟨rfl, h6⟩
theorem code_loc : Code encLoc := by
  intro a b r r' h
  cases a <;> cases b
  · simp only [encLoc, List.cons_append, List.cons.injEq, true_and] at h
    obtain ⟨rfl, rfl⟩ := code_str _ _ _ _ h
    exact ⟨rfl, rfl⟩
  · simp [encLoc] at h
  · simp [encLoc] at h
  · simp only [encLoc, List.cons_append, List.cons.injEq, true_and, List.append_assoc] at h
    obtain ⟨rfl, h2⟩ := code_str _ _ _ _ h
    obtain ⟨rfl, rfl⟩ := code_opt code_str _ _ _ _ h2
    exact ⟨rfl, rfl⟩
theorem encSnap_inj {a b : PSnap Nat} (h : encSnap a = encSnap b) : a = b := by
  unfold encSnap at h
  obtain ⟨h1, h2⟩ := code_int _ _ _ _ h
  obtain ⟨h3, h4⟩ := code_sto _ _ _ _ h2
  obtain ⟨h5, h6⟩ := code_opt code_int _ _ _ _ h4
  obtain ⟨h7, h8⟩ := code_nat _ _ _ _ h6
  obtain ⟨h9, _⟩ := code_loc _ _ [] [] (by simpa using h8)
  obtain ⟨_, _, _, _, _⟩ := a
  obtain ⟨_, _, _, _, _⟩ := b
  simp only at h1 h3 h5 h7 h9
  subst h1; subst h3; subst h5; subst h7; subst h9
  rfl

def leSnap (a b : PSnap Nat) : Bool := lexLe (encSnap a) (encSnap b)

def insertSnap (x : PSnap Nat) : List (PSnap Nat) → List (PSnap Nat)
  | [] => [x]
  | y :: ys => if leSnap x y then x :: y :: ys else y :: insertSnap x ys

def sortSnaps : List (PSnap Nat) → List (PSnap Nat)
  | [] => []
  | x :: xs => insertSnap x (sortSnaps xs)

theorem insertSnap_perm (x : PSnap Nat) (l : List (PSnap Nat)) :
    (insertSnap x l).Perm (x :: l) := by
  induction l with
  | nil => exact List.Perm.refl _
  | cons y l ih =>
    unfold insertSnap
    split
    · exact List.Perm.refl _
    · exact (ih.cons y).trans (List.Perm.swap ..)

theorem sortSnaps_perm (l : List (PSnap Nat)) : (sortSnaps l).Perm l := by
  induction l with
  | nil => exact List.Perm.refl _
  | cons x l ih => exact (insertSnap_perm x _).trans (ih.cons x)

theorem insertSnap_sorted (x : PSnap Nat) (l : List (PSnap Nat))
    (h : l.Pairwise fun a b => leSnap a b = true) :
    (insertSnap x l).Pairwise fun a b => leSnap a b = true := by
  induction l with
  | nil => simp [insertSnap]
  | cons y l ih =>
    rw [List.pairwise_cons] at h
    unfold insertSnap
    split
    · rename_i hxy
      rw [List.pairwise_cons]
      refine ⟨?_, List.pairwise_cons.2 h⟩
      intro z hz
      rcases List.mem_cons.1 hz with rfl | hz
      · exact hxy
      · exact lexLe_trans _ _ _ hxy (h.1 z hz)
    · rename_i hxy
      rw [List.pairwise_cons]
      refine ⟨?_, ih h.2⟩
      intro z hz
      rcases List.mem_cons.1 ((insertSnap_perm x l).mem_iff.1 hz) with rfl | hz
      · rcases lexLe_total (encSnap z) (encSnap y) with h' | h'
        · exact absurd h' hxy
        · exact h'
      · exact h.1 z hz

theorem sortSnaps_sorted (l : List (PSnap Nat)) :
    (sortSnaps l).Pairwise fun a b => leSnap a b = true := by
  induction l with
  | nil => exact List.Pairwise.nil
  | cons x l ih => exact insertSnap_sorted x _ ih

theorem sortSnaps_ext (l l' : List (PSnap Nat)) (h : l.Nodup) (h' : l'.Nodup)
    (he : ∀ x, x ∈ l ↔ x ∈ l') : sortSnaps l = sortSnaps l' := by
  have hp : l.Perm l' := (List.perm_ext_iff_of_nodup h h').2 he
  have hp' := ((sortSnaps_perm l).trans hp).trans (sortSnaps_perm l').symm
  refine List.Perm.eq_of_pairwise ?_ (sortSnaps_sorted l) (sortSnaps_sorted l') hp'
  intro a b _ _ h1 h2
  exact encSnap_inj (lexLe_antisymm _ _ h1 h2)

/-! ## The environment -/

/-- A hash. -/
def hash (s : Str) : Fp := (s.foldl (fun h c => (h * 31 + c.toNat) % 1000003) 7 : Nat)

/-- The fixed part of a template. -/
def pre (t : Str) : Str := t.takeWhile (· ≠ '{')

def render (t : Str) (fp : Option Fp) (pk : Nat) : Str :=
  pre t ++ (match fp with | some f => '#' :: intToStr f | none => []) ++
    (if pk = 0 then [] else '~' :: natToStr 10 pk)

/-- The number in the rest of a name. -/
def parsePk : Str → Option Nat
  | [] => some 0
  | '~' :: s => Part.digitsVal 10 0 s
  | _ => none

/-- What the rest of a name says. -/
def parseRest (s : Str) : Option (Option Fp × Nat) :=
  match s with
  | '#' :: s =>
    let (a, b) := Fmt.breakOn (· = '~') s
    match Part.pyInt 10 a, parsePk b with
    | .ok f, some k => some (some f, k)
    | _, _ => none
  | s => (parsePk s).map fun k => (none, k)

def scan (t : Tmpl) (names : List Str) : List (Option Fp × Nat) :=
  names.filterMap fun n => (Fmt.dropPrefix? (pre t.text) n).bind parseRest

/-- Each partition of the input `x` by itself. -/
def mapEach (ins : List (Str × List (PSnap Nat))) : List (Nat × List (Str × List (PSnap Nat))) :=
  ((get? ins ['x']).getD []).map fun sn => (sn.part.key, [(['x'], [sn])])

/-- All partitions of the input `x` together. -/
def mapAll (ins : List (Str × List (PSnap Nat))) : List (Nat × List (Str × List (PSnap Nat))) :=
  [(0, [(['x'], (get? ins ['x']).getD [])])]

/-- The producers: `E` makes one partition from each partition, `A` one from all, `T` has two
outputs, `N` selects nothing if a partition is empty, `V` rejects empty outputs, `W` has two
outputs but returns one or three. -/
def impl (c : Str) (v : Fp) : PClass Nat Str :=
  let arg (args : List (Str × Str)) : Str := (get? args ['x']).getD []
  let mark : Str := if v = hash ['2'] then ['2'] else ['1']
  match c with
  | ['E'] => ⟨[(['x'], 0)], [['x']], [0], fun ins => match mapEach ins with
      | [] => .error .valueError
      | l => .ok l, fun args => .ok [arg args ++ mark], fun _ => .ok true⟩
  | ['T'] => ⟨[(['x'], 0)], [['x']], [0, 0], fun ins => .ok (mapAll ins),
      fun args => .ok [arg args ++ mark, arg args ++ ['t']], fun _ => .ok true⟩
  | ['N'] => ⟨[(['x'], 0)], [['x']], [0], fun ins =>
      .ok (if ((get? ins ['x']).getD []).any (fun sn => sn.contentFp = hash []) then []
        else mapAll ins), fun args => .ok [arg args ++ mark], fun _ => .ok true⟩
  | ['V'] => ⟨[(['x'], 0)], [['x']], [0], fun ins => .ok (mapAll ins),
      fun args => .ok [arg args], fun outs => .ok (outs.all fun o => !o.isEmpty)⟩
  | ['W'] => ⟨[(['x'], 0)], [['x']], [0, 0], fun ins => .ok (mapAll ins),
      fun args => .ok (if (arg args).isEmpty then [mark] else [mark, arg args, arg args]),
      fun _ => .ok true⟩
  | _ => ⟨[(['x'], 0)], [['x']], [0], fun ins => .ok (mapAll ins),
      fun args => .ok [arg args ++ mark], fun _ => .ok true⟩

def env : Env Nat Str where
  npKey := 0
  render t fp pk := .ok (render t fp pk)
  scan t names := .ok (scan t names)
  fileHash := hash
  strHash := hash
  nodeFp n := match n with | .art _ => 1 | .pdr p => hash (p.cls ++ p.ver)
  graphFp g := hash g.name
  snapFp sn := hash (natToStr 10 sn.part.key ++ intToStr sn.contentFp)
  snapshotFp σ := σ.id
  versionFp := hash
  impl := impl
  enc _ _ d := .ok d
  dec _ _ cs := .ok cs.flatten
  iter := sortSnaps

theorem iterOk : IterOk env := ⟨sortSnaps_perm, sortSnaps_ext⟩

theorem impl_selects (c : Str) (v : Fp) (ins : List (Str × List (PSnap Nat)))
    (items : List (Nat × List (Str × List (PSnap Nat)))) (h : (impl c v).map ins = .ok items) :
    (∀ pk d, (pk, d) ∈ items → ∀ n ss, (n, ss) ∈ d → ∀ sn ∈ ss,
      ∃ l, get? ins n = some l ∧ sn ∈ l) ∧ (c ≠ ['N'] → items ≠ []) := by
  have hget : ∀ sn, sn ∈ (get? ins ['x']).getD [] → ∃ l, get? ins ['x'] = some l ∧ sn ∈ l := by
    intro sn hsn
    cases hg : get? ins ['x'] with
    | none => rw [hg] at hsn; simp at hsn
    | some l => rw [hg] at hsn; exact ⟨l, rfl, hsn⟩
  have hall : ∀ pk d, (pk, d) ∈ mapAll ins → ∀ n ss, (n, ss) ∈ d → ∀ sn ∈ ss,
      ∃ l, get? ins n = some l ∧ sn ∈ l := by
    intro pk d hm n ss hd sn hsn
    simp only [mapAll, List.mem_singleton, Prod.mk.injEq] at hm
    obtain ⟨rfl, rfl⟩ := hm
    simp only [List.mem_singleton, Prod.mk.injEq] at hd
    obtain ⟨rfl, rfl⟩ := hd
    exact hget sn hsn
  have heach : ∀ pk d, (pk, d) ∈ mapEach ins → ∀ n ss, (n, ss) ∈ d → ∀ sn ∈ ss,
      ∃ l, get? ins n = some l ∧ sn ∈ l := by
    intro pk d hm n ss hd sn hsn
    obtain ⟨sn', h1, h2⟩ := List.mem_map.1 hm
    simp only [Prod.mk.injEq] at h2
    obtain ⟨rfl, rfl⟩ := h2
    simp only [List.mem_singleton, Prod.mk.injEq] at hd
    obtain ⟨rfl, rfl⟩ := hd
    simp only [List.mem_singleton] at hsn
    subst hsn
    exact hget _ h1
  have hne : mapAll ins ≠ [] := by simp [mapAll]
  unfold impl at h
  simp only at h
  split at h
  · simp only at h
    split at h
    · simp at h
    · rename_i hx
      simp only [Except.ok.injEq] at h
      subst h
      exact ⟨heach, fun _ => by intro he; exact hx he⟩
  · simp only [Except.ok.injEq] at h; subst h; exact ⟨hall, fun _ => hne⟩
  · simp only [Except.ok.injEq] at h
    subst h
    refine ⟨?_, fun hc => absurd rfl hc⟩
    split
    · simp
    · exact hall
  · simp only [Except.ok.injEq] at h; subst h; exact ⟨hall, fun _ => hne⟩
  · simp only [Except.ok.injEq] at h; subst h; exact ⟨hall, fun _ => hne⟩
  · simp only [Except.ok.injEq] at h; subst h; exact ⟨hall, fun _ => hne⟩

theorem impl_some (c : Str) (v : Fp) (args : List (Str × Str)) (outs : List Str)
    (h : (impl c v).build args = .ok outs) : outs ≠ [] := by
  unfold impl at h
  simp only at h
  split at h
  all_goals
    simp only [Except.ok.injEq] at h
    subst h
  case h_5 => split <;> simp
  all_goals simp

theorem impl_one (c : Str) (v : Fp) (hc : c ≠ ['T']) (hc' : c ≠ ['W']) : (impl c v).outputs.length = 1 ∧
    ∀ (args : List (Str × Str)) (outs : List Str), (impl c v).build args = .ok outs →
      outs.length = 1 := by
  unfold impl
  simp only
  split
  case h_2 => exact absurd rfl hc
  case h_5 => exact absurd rfl hc'
  all_goals
    refine ⟨rfl, fun args outs h => ?_⟩
    simp only [Except.ok.injEq] at h
    subst h
    rfl

/-! ## Deciding the conditions on a concrete history -/

/-- The produced artifacts of a graph. -/
def madeOf (g : Graph) : List (ArtInfo × Pdr × Nat) :=
  g.arts.filterMap fun x => match x.2 with | .made i p pos => some (i, p, pos) | .raw _ => none

theorem mem_madeOf {g : Graph} {i : ArtInfo} {p : Pdr} {pos : Nat} :
    (i, p, pos) ∈ madeOf g ↔ ∃ k, (k, Art.made i p pos) ∈ g.arts := by
  unfold madeOf
  rw [List.mem_filterMap]
  constructor
  · rintro ⟨⟨k, a⟩, h1, h2⟩
    cases a with
    | raw i => simp at h2
    | made i' p' pos' =>
      simp only [Option.some.injEq, Prod.mk.injEq] at h2
      obtain ⟨rfl, rfl, rfl⟩ := h2
      exact ⟨k, h1⟩
  · rintro ⟨k, h⟩
    exact ⟨_, h, rfl⟩

def disciplinedB (g : Graph) : Bool :=
  decide (keys g.arts).Nodup &&
  (madeOf g).all fun (i, p, pos) => i.sto.hasFp && p.cls != ['N'] &&
    (List.range (pos + 1)).all fun j => (madeOf g).any fun (_, q, k) => q = p && k = j

theorem disciplined (gl : List Graph) (h : gl.all disciplinedB = true) :
    Disciplined env (· ∈ gl) := by
  have hb : ∀ i p pos, Made (· ∈ gl) i p pos → i.sto.hasFp = true ∧ p.cls ≠ ['N'] := by
    rintro i p pos ⟨g, hg, hm⟩
    have h1 := List.all_eq_true.1 h g hg
    simp only [disciplinedB, Bool.and_eq_true] at h1
    have h2 := List.all_eq_true.1 h1.2 _ (mem_madeOf.2 hm)
    simp only [Bool.and_eq_true, bne_iff_ne, ne_eq] at h2
    exact h2.1
  refine ⟨iterOk, ?_, fun i p pos hm => (hb i p pos hm).1, ?_, ?_, ?_⟩
  · intro g hg
    have h1 := List.all_eq_true.1 h g hg
    simp only [disciplinedB, Bool.and_eq_true, decide_eq_true_eq] at h1
    exact h1.1
  · intro g hg k i p pos hm j hj
    have h1 := List.all_eq_true.1 h g hg
    simp only [disciplinedB, Bool.and_eq_true] at h1
    have h2 := List.all_eq_true.1 h1.2 _ (mem_madeOf.2 ⟨k, hm⟩)
    simp only [Bool.and_eq_true] at h2
    have h3 := List.all_eq_true.1 h2.2 j (List.mem_range.2 (by omega))
    obtain ⟨⟨i', q, k'⟩, h4, h5⟩ := List.any_eq_true.1 h3
    simp only [Bool.and_eq_true, decide_eq_true_eq] at h5
    obtain ⟨rfl, rfl⟩ := h5
    obtain ⟨kk, h6⟩ := mem_madeOf.1 h4
    exact ⟨kk, i', h6⟩
  · intro i p pos hm ins items hmap
    exact (impl_selects _ _ _ _ hmap).1
  · intro i p pos hm ins items hmap
    exact (impl_selects _ _ _ _ hmap).2 (hb i p pos hm).2

def singleB (g : Graph) : Bool :=
  (madeOf g).all fun (i, p, pos) => p.cls != ['T'] && p.cls != ['W'] &&
    (madeOf g).all fun (i', p', pos') =>
    p != p' || (i = i' && pos = pos')

theorem singleOutput (g : Graph) (h : singleB g = true) : SingleOutput env g := by
  constructor
  · intro k i p pos k' i' pos' h1 h2
    have h3 := List.all_eq_true.1 h _ (mem_madeOf.2 ⟨k, h1⟩)
    simp only [Bool.and_eq_true] at h3
    have h4 := List.all_eq_true.1 h3.2 _ (mem_madeOf.2 ⟨k', h2⟩)
    simpa using h4
  · intro k i p pos hm
    have h3 := List.all_eq_true.1 h _ (mem_madeOf.2 ⟨k, hm⟩)
    simp only [Bool.and_eq_true, bne_iff_ne, ne_eq] at h3
    exact impl_one _ _ h3.1.1 h3.1.2

theorem someOutput (g : Graph) : SomeOutput env g :=
  fun _ _ _ _ _ args outs h => impl_some _ _ args outs h

def ownB (g : Graph) : Bool :=
  (madeOf g).all fun (i, p, pos) => (madeOf g).all fun (i', p', pos') =>
    i.sto != i'.sto || (i = i' && p = p' && pos = pos')

theorem ownStorage (g : Graph) (h : ownB g = true) : OwnStorage g := by
  intro k i p pos k' i' p' pos' h1 h2 hs
  have h3 := List.all_eq_true.1 h _ (mem_madeOf.2 ⟨k, h1⟩)
  have h4 := List.all_eq_true.1 h3 _ (mem_madeOf.2 ⟨k', h2⟩)
  simp only [hs, bne_self_eq_false, Bool.false_or, Bool.and_eq_true, decide_eq_true_eq] at h4
  rw [h4.1.1, h4.1.2, h4.2]

def samePlaceB (s1 : Sto) (f1 : Fp) (k1 : Nat) (s2 : Sto) (f2 : Fp) (k2 : Nat) : Bool :=
  (s1 = s2 && f1 = f2 && k1 = k2) ||
  match generate env s1 (some f1) k1, generate env s2 (some f2) k2 with
  | .ok p1, .ok p2 =>
    (match p1.loc, p2.loc with
      | .file a, .file b => a = b
      | _, _ => false)
  | _, _ => false

def noClashB (gl : List Graph) (log : List (Inv Nat Str)) : Bool :=
  log.all fun e1 => log.all fun e2 =>
    (gl.flatMap madeOf).all fun (i1, p1, pos1) => (gl.flatMap madeOf).all fun (i2, p2, pos2) =>
      p1 != e1.pdr || p2 != e2.pdr || !samePlaceB i1.sto e1.fp e1.key i2.sto e2.fp e2.key ||
      (e1.pdr.cls = e2.pdr.cls && hash e1.pdr.ver = hash e2.pdr.ver && e1.args = e2.args &&
        pos1 = pos2)

theorem noClash (gl : List Graph) (log : List (Inv Nat Str)) (h : noClashB gl log = true) :
    NoClash env (· ∈ gl) log := by
  rintro e1 h1 e2 h2 i1 pos1 i2 pos2 ⟨g1, hg1, hm1⟩ ⟨g2, hg2, hm2⟩ hs
  have hsb : samePlaceB i1.sto e1.fp e1.key i2.sto e2.fp e2.key = true := by
    rcases hs with ⟨h3, h4, h5⟩ | ⟨p1, p2, path, h3, h4, h5, h6⟩
    · simp [samePlaceB, h3, h4, h5]
    · simp [samePlaceB, h3, h4, h5, h6]
  have := List.all_eq_true.1 (List.all_eq_true.1 (List.all_eq_true.1 (List.all_eq_true.1 h e1 h1)
    e2 h2) (i1, e1.pdr, pos1) (List.mem_flatMap.2 ⟨g1, hg1, mem_madeOf.2 hm1⟩))
    (i2, e2.pdr, pos2) (List.mem_flatMap.2 ⟨g2, hg2, mem_madeOf.2 hm2⟩)
  simp only [bne_self_eq_false, Bool.false_or, hsb, Bool.not_true, Bool.and_eq_true,
    decide_eq_true_eq] at this
  exact ⟨this.1.1.1, this.1.1.2, this.1.2, this.2, fun _ _ => rfl⟩

def snapUniqueB (raws : List (Snapshot × PyDict Str (Data Nat))) : Bool :=
  raws.all fun x => raws.all fun y => x.1 != y.1 || (x.2 = y.2)

theorem snapUnique (raws : List (Snapshot × PyDict Str (Data Nat)))
    (h : snapUniqueB raws = true) : SnapUnique raws := by
  intro σ r r' h1 h2 i x
  have := List.all_eq_true.1 (List.all_eq_true.1 h _ h1) _ h2
  simp only [bne_self_eq_false, Bool.false_or, decide_eq_true_eq] at this
  rw [this]

/-- A path is not one of a produced artifact if it does not begin with a prefix of one. -/
theorem not_produced (gl : List Graph) (path : Str)
    (h : (gl.flatMap madeOf).all (fun x => (Fmt.dropPrefix? (pre x.1.sto.tmpl.text) path).isNone)
      = true) : ¬ ProducedPath env (· ∈ gl) path := by
  rintro ⟨i, p, pos, f, pk, part, ⟨g, hg, hm⟩, h1, h2⟩
  have h3 := List.all_eq_true.1 h (i, p, pos) (List.mem_flatMap.2 ⟨g, hg, mem_madeOf.2 hm⟩)
  simp only at h3
  have hp : ∀ (a b : Str), (Fmt.dropPrefix? a (a ++ b)).isNone = false := by
    intro a b
    induction a with
    | nil => simp [Fmt.dropPrefix?]
    | cons c a ih => simpa [Fmt.dropPrefix?] using ih
  obtain ⟨_, _, _, _, h4⟩ := generate_ok h1
  rcases h4 with ⟨t, path', h5, h6⟩ | ⟨t, v, lid, v', h5, h6, _⟩
  · unfold generate at h1
    simp only [bind, Except.bind] at h1
    split at h1
    · simp at h1
    · rw [h5] at h1
      simp only at h1
      split at h1
      · simp at h1
      · split at h1
        · simp at h1
        · simp only [env, Except.ok.injEq] at h1
          rw [← h1] at h2
          simp only [Loc.file.injEq] at h2
          rw [← h2, h5] at h3
          simp only [render, Sto.tmpl, List.append_assoc, hp] at h3
          simp at h3
  · rw [h6] at h2; simp at h2

end Arti.Ex
