import Verif.Lemmas.ParLogic

/-! Building a producer while others add files. -/

namespace Arti.Par
open PyDict Spec Prog
variable {κ D α : Type} [DecidableEq κ] {env : Env κ D} {gs : Graph → Prop}
  {L : List (Inv κ D)} {I : PyDict Str Str → Prop} {P : St κ D → Prop}
  {E : Snapshot → PyDict Str (Data κ) → Art → PSnap κ → Prop}

/-! ### Reading files -/

theorem FSub.trans {F F' F'' : PyDict Str Str} (h : FSub F F') (h' : FSub F' F'') : FSub F F'' :=
  fun p b hb => h' p b (h p b hb)

theorem snapAll_mono {F F' : PyDict Str Str} (hF : FSub F F') {sto : Sto} :
    ∀ {l : List (Option Fp × κ)} {ss : List (PSnap κ)},
    World.snapAll env F sto l = .ok ss → World.snapAll env F' sto l = .ok ss
  | [], ss, h => h
  | (fp, pk) :: l, ss, h => by
    simp only [World.snapAll, bind, Except.bind] at h ⊢
    cases hg : World.generate env sto fp pk with
    | error e => rw [hg] at h; simp at h
    | ok p =>
      rw [hg] at h
      simp only [World.snap] at h ⊢
      cases hc : World.content F p.loc with
      | none => rw [hc] at h; simp at h
      | some c =>
        rw [hc] at h
        rw [hF.content hc]
        simp only at h ⊢
        cases hr : World.snapAll env F sto l with
        | error e => rw [hr] at h; simp at h
        | ok ss' =>
          rw [hr] at h
          rw [snapAll_mono hF hr]
          exact h

/-- `World.discover` of names that were listed earlier. -/
def discoverFrom (env : Env κ D) (names : List Str) (files : PyDict Str Str) (sto : Sto)
    (ifps : PyDict κ Fp) : Except Err (List (PSnap κ)) :=
  match sto with
  | .file t => do
    let found ← env.scan t names
    World.snapAll env files sto (found.filter fun (fp, pk) => PyDict.get? ifps pk = fp)
  | .lit _ _ => World.discover env files sto ifps

theorem discoverFrom_keys (files : PyDict Str Str) (sto : Sto) (ifps : PyDict κ Fp) :
    discoverFrom env (keys files) files sto ifps = World.discover env files sto ifps := by
  cases sto <;> rfl

theorem discoverFrom_mono {names : List Str} {F F' : PyDict Str Str} (hF : FSub F F') {sto : Sto}
    {ifps : PyDict κ Fp} {ps : List (PSnap κ)}
    (h : discoverFrom env names F sto ifps = .ok ps) :
    discoverFrom env names F' sto ifps = .ok ps := by
  cases sto with
  | file t =>
    simp only [discoverFrom, bind, Except.bind] at h ⊢
    cases hsc : env.scan t names with
    | error e => rw [hsc] at h; simp at h
    | ok found =>
      rw [hsc] at h
      exact snapAll_mono hF h
  | lit t v =>
    simp only [discoverFrom, World.discover] at h ⊢
    split
    · rename_i hc; rw [if_pos hc] at h; exact h
    · rename_i hc
      rw [if_neg hc] at h
      split
      · rename_i hc; rw [if_pos hc] at h; exact h
      · rename_i hc
        rw [if_neg hc] at h
        split
        · rename_i hc; rw [if_pos hc] at h; exact h
        · rename_i hc
          rw [if_neg hc] at h
          exact snapAll_mono hF h

theorem contents_mono {F F' : PyDict Str Str} (hF : FSub F F') :
    ∀ {ss : List (PSnap κ)} {cs : List Str}, World.contents F ss = .ok cs →
      World.contents F' ss = .ok cs
  | [], cs, h => h
  | s :: ss, cs, h => by
    simp only [World.contents] at h ⊢
    cases hc : World.content F s.part.loc with
    | none => rw [hc] at h; simp at h
    | some c =>
      rw [hc] at h
      rw [hF.content hc]
      simp only at h ⊢
      cases hr : World.contents F ss with
      | error e => rw [hr] at h; simp [Except.map] at h
      | ok cs' =>
        rw [hr] at h
        rw [contents_mono hF hr]
        exact h

theorem ioRead_mono {F F' : PyDict Str Str} (hF : FSub F F') {i : ArtInfo} {view : Nat}
    {ss : List (PSnap κ)} {d : D} (h : World.ioRead env F i view ss = .ok d) :
    World.ioRead env F' i view ss = .ok d := by
  simp only [World.ioRead] at h ⊢
  split
  · rename_i hc; rw [if_pos hc] at h; exact h
  · rename_i hc
    rw [if_neg hc] at h
    split
    · rename_i hc; rw [if_pos hc] at h; exact h
    · rename_i hc
      rw [if_neg hc] at h
      simp only [bind, Except.bind] at h ⊢
      cases hr : World.contents F ss with
      | error e => rw [hr] at h; simp at h
      | ok cs =>
        rw [hr] at h
        rw [contents_mono hF hr]
        exact h

theorem readArgs_mono {F F' : PyDict Str Str} (hF : FSub F F') {inputs : List (Str × Art)}
    {deps : List (Str × List (PSnap κ))} : ∀ {l : List (Str × Nat)} {xs : List (Str × D)},
    World.readArgs env F inputs deps l = .ok xs → World.readArgs env F' inputs deps l = .ok xs
  | [], xs, h => h
  | (n, v) :: l, xs, h => by
    simp only [World.readArgs, bind, Except.bind] at h ⊢
    cases hi : get? inputs n with
    | none => rw [hi] at h; simp at h
    | some a =>
      rw [hi] at h
      simp only at h ⊢
      cases hd : get? deps n with
      | none => rw [hd] at h; simp at h
      | some ss =>
        rw [hd] at h
        simp only at h ⊢
        cases hr : World.ioRead env F a.info v ss with
        | error e => rw [hr] at h; simp at h
        | ok d =>
          rw [hr] at h
          rw [ioRead_mono hF hr]
          simp only at h ⊢
          cases hl : World.readArgs env F inputs deps l with
          | error e => rw [hl] at h; simp at h
          | ok xs' =>
            rw [hl] at h
            rw [readArgs_mono hF hl]
            exact h

variable (hI : ∀ F F', I F → Adds env gs F F' → I F')
include hI

theorem ptri_content (hP : Stable env gs L I P) (l : Loc) {g : Str → Prog κ D α}
    {Q : α → St κ D → Prop} {e : Err}
    (h : ∀ c, PTri env gs L I (fun s => P s ∧ World.content s.files l = some c) (g c) Q) :
    PTri env gs L I P (content l >>= fun c => need c e >>= g) Q := by
  refine PTri.bind hI (Q := fun c s => P s ∧ ∀ b, c = some b → World.content s.files l = some b)
    (PTri.atom (E := fun _ => True) (.gets fun _ _ => rfl) hP
      (fun c => hP.and (.sub fun s F hF h b hb => hF.content (h b hb)))
      (M.Tri.gets fun s hs => ⟨hs, fun b hb => hb⟩)) ?_
  intro c
  refine PTri.need_bind fun b hb => (h b).conseq (fun s _ hs => ⟨hs.1, hs.2 b hb⟩) fun _ _ _ => id

theorem ptri_snap (hP : Stable env gs L I P) (p : Prt κ) :
    PTri env gs L I P (snap env p) (fun sn s => P s ∧ World.snap env s.files p = .ok sn) := by
  refine ptri_content hI hP p.loc fun c => PTri.pure (hP.and (.sub ?_)) ?_
  · intro s F hF h
    unfold World.snap at h ⊢
    cases hc : World.content s.files p.loc with
    | none => rw [hc] at h; simp at h
    | some c' => rw [hc] at h; rw [show World.content F p.loc = some c' from hF.content hc]; exact h
  · rintro s _ ⟨h1, h2⟩
    exact ⟨h1, by simp [World.snap, h2]⟩

theorem ptri_snapAll (hP : Stable env gs L I P) (sto : Sto) (l : List (Option Fp × κ)) :
    PTri env gs L I P (snapAll env sto l)
      (fun ss s => P s ∧ World.snapAll env s.files sto l = .ok ss) := by
  induction l generalizing P with
  | nil => exact PTri.pure (hP.and (.const fun _ _ h => h)) fun s _ hs => ⟨hs, rfl⟩
  | cons x l ih =>
    obtain ⟨fp, pk⟩ := x
    unfold snapAll
    refine PTri.lift_bind fun p hp => ?_
    refine PTri.bind hI (ptri_snap hI hP p) fun sn => ?_
    have hst : Stable env gs L I (fun s : St κ D => World.snap env s.files p = .ok sn) := by
      refine .sub fun s F hF h => ?_
      unfold World.snap at h ⊢
      cases hc : World.content s.files p.loc with
      | none => rw [hc] at h; simp at h
      | some c' =>
        rw [hc] at h; rw [show World.content F p.loc = some c' from hF.content hc]; exact h
    refine PTri.bind hI (ih (hP.and hst)) fun ss => ?_
    refine PTri.pure (hP.and (.sub fun s F hF h => snapAll_mono hF h)) ?_
    rintro s _ ⟨⟨h1, h2⟩, h3⟩
    refine ⟨h1, ?_⟩
    simp only [World.snapAll, hp, h2, h3, bind, Except.bind]

/-- Discovering while others act: the names were listed at some moment, the files were read since. -/
theorem ptri_discover_sto (hP : Stable env gs L I P) (sto : Sto) (ifps : PyDict κ Fp) :
    PTri env gs L I P (discover env sto ifps) (fun ps s => P s ∧
      ∃ F, I F ∧ FSub F s.files ∧ discoverFrom env (keys F) s.files sto ifps = .ok ps) := by
  have hst : ∀ ps, Stable env gs L I (fun s : St κ D =>
      ∃ F, I F ∧ FSub F s.files ∧ discoverFrom env (keys F) s.files sto ifps = .ok ps) := fun ps =>
    .sub fun s F hF ⟨F0, h1, h2, h3⟩ => ⟨F0, h1, FSub.trans h2 hF, discoverFrom_mono hF h3⟩
  cases sto with
  | file t =>
    unfold discover
    have hst1 : ∀ names : List Str, Stable env gs L I (fun s : St κ D =>
        ∃ F, I F ∧ FSub F s.files ∧ names = keys F) := fun names =>
      .sub fun s F hF ⟨F0, h1, h2, h3⟩ => ⟨F0, h1, FSub.trans h2 hF, h3⟩
    refine PTri.bind hI (Q := fun names s => P s ∧ ∃ F, I F ∧ FSub F s.files ∧ names = keys F)
      ?_ fun names => ?_
    · intro s hs hp F hF hi
      refine ⟨⟨⟨fun _ _ => id, fun _ h => .inl h⟩, hF.ok⟩, ?_⟩
      rintro a ha F' hF'
      cases ha
      exact ⟨hP (vw L { s with files := F }) F' rfl hF' (hP (vw L s) F rfl hF hp),
        F, hF.inv, hF'.sub, rfl⟩
    · refine PTri.lift_bind fun found hf => ?_
      refine (ptri_snapAll hI (hP.and (hst1 names)) _ _).conseq (fun _ _ => id) ?_
      rintro ps s _ ⟨⟨h1, F, h2, h3, rfl⟩, h4⟩
      refine ⟨h1, F, h2, h3, ?_⟩
      simp only [discoverFrom, hf, bind, Except.bind]
      exact h4
  | lit t v =>
    unfold discover
    simp only
    have key : ∀ l, PTri env gs L I P (snapAll env (.lit t v) l) (fun ps s => P s ∧
        ∃ F, I F ∧ FSub F s.files ∧ World.snapAll env s.files (.lit t v) l = .ok ps) := by
      intro l s hs hp
      refine ((ptri_snapAll hI (P := fun s => P s ∧ ∃ F, I F ∧ FSub F s.files) (hP.and
        (.sub fun s F hF ⟨F0, h1, h2⟩ => ⟨F0, h1, FSub.trans h2 hF⟩)) (.lit t v) l).conseq
        (P' := fun s => P s ∧ ∃ F, I F ∧ FSub F s.files) (fun _ _ => id) ?_) s hs
        ⟨hp, s.files, hs.inv, fun _ _ => id⟩
      rintro ps s _ ⟨⟨h1, F, h2, h3⟩, h4⟩
      exact ⟨h1, F, h2, h3, h4⟩
    split
    · exact PTri.lift (fun ps => hP.and (hst ps)) (by simp)
    · rename_i c1
      split
      · exact PTri.lift (fun ps => hP.and (hst ps)) (by simp)
      · rename_i c2
        split
        · rename_i c3
          intro s hs hp
          refine (PTri.pure (P := fun s => P s ∧ ∃ F, I F ∧ FSub F s.files) (hP.and (hst []))
            ?_) s hs ⟨hp, s.files, hs.inv, fun _ _ => id⟩
          rintro s _ ⟨h1, F, h2, h3⟩
          refine ⟨h1, F, h2, h3, ?_⟩
          simp only [discoverFrom, World.discover]
          rw [if_neg c1, if_neg c2, if_pos c3]
        · rename_i c3
          refine (key _).conseq (fun _ _ => id) ?_
          rintro ps s _ ⟨h1, F, h2, h3, h4⟩
          refine ⟨h1, F, h2, h3, ?_⟩
          simp only [discoverFrom, World.discover]
          rw [if_neg c1, if_neg c2, if_neg c3]
          exact h4

theorem ptri_contents (hP : Stable env gs L I P) (ss : List (PSnap κ)) :
    PTri env gs L I P (contents ss) (fun cs s => P s ∧ World.contents s.files ss = .ok cs) := by
  induction ss generalizing P with
  | nil => exact PTri.pure (hP.and (.const fun _ _ h => h)) fun s _ hs => ⟨hs, rfl⟩
  | cons x ss ih =>
    unfold contents
    refine ptri_content hI hP x.part.loc fun c => ?_
    have hst : Stable env gs L I (fun s : St κ D => World.content s.files x.part.loc = some c) :=
      .sub fun s F hF h => hF.content h
    refine PTri.bind hI (ih (hP.and hst)) fun cs => ?_
    refine PTri.pure (hP.and (.sub fun s F hF h => contents_mono hF h)) ?_
    rintro s _ ⟨⟨h1, h2⟩, h3⟩
    exact ⟨h1, by simp [World.contents, h2, h3, Except.map]⟩

theorem ptri_ioRead (hP : Stable env gs L I P) (i : ArtInfo) (view : Nat) (ss : List (PSnap κ)) :
    PTri env gs L I P (ioRead env i view ss)
      (fun d s => P s ∧ World.ioRead env s.files i view ss = .ok d) := by
  have hst : ∀ d, Stable env gs L I (fun s : St κ D =>
      P s ∧ World.ioRead env s.files i view ss = .ok d) :=
    fun d => hP.and (.sub fun s F hF h => ioRead_mono hF h)
  unfold ioRead
  split
  · exact PTri.lift hst (by simp)
  · rename_i c1
    split
    · exact PTri.lift hst (by simp)
    · rename_i c2
      refine PTri.bind hI (ptri_contents hI hP ss) fun cs => PTri.lift hst ?_
      rintro d hd s _ ⟨h1, h2⟩
      refine ⟨h1, ?_⟩
      simp only [World.ioRead, h2, bind, Except.bind]
      rw [if_neg c1, if_neg c2, hd]

theorem ptri_readArgs (hP : Stable env gs L I P) (inputs : List (Str × Art))
    (deps : List (Str × List (PSnap κ))) (l : List (Str × Nat)) :
    PTri env gs L I P (readArgs env inputs deps l)
      (fun xs s => P s ∧ World.readArgs env s.files inputs deps l = .ok xs) := by
  induction l generalizing P with
  | nil => exact PTri.pure (hP.and (.const fun _ _ h => h)) fun s _ hs => ⟨hs, rfl⟩
  | cons x l ih =>
    obtain ⟨n, v⟩ := x
    unfold readArgs
    refine PTri.need_bind fun a ha => PTri.need_bind fun ss hss => ?_
    refine PTri.bind hI (ptri_ioRead hI hP a.info v ss) fun d => ?_
    refine PTri.bind hI (ih (hP.and (.sub fun s F hF h => ioRead_mono hF h))) fun xs => ?_
    refine PTri.pure (hP.and (.sub fun s F hF h => readArgs_mono hF h)) ?_
    rintro s _ ⟨⟨h1, h2⟩, h3⟩
    exact ⟨h1, by simp [World.readArgs, ha, hss, h2, h3, bind, Except.bind]⟩

end Arti.Par
