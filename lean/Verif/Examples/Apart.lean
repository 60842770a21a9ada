import Verif.Examples.World
import Verif.Spec.Resume
import Verif.Lemmas.Digits

/-! In the example environment, produced files are not mistaken for something else. -/

namespace Arti.World
open PyDict
variable {κ D : Type} [DecidableEq κ] {env : Env κ D}

/-- One partition that is found. -/
def snapOne (env : Env κ D) (files : PyDict Str Str) (sto : Sto) (x : Option Fp × κ) :
    Except Err (PSnap κ) :=
  (generate env sto x.1 x.2).bind (snap env files)

theorem snapAll_cons (files : PyDict Str Str) (sto : Sto) (x : Option Fp × κ)
    (l : List (Option Fp × κ)) : snapAll env files sto (x :: l) =
      (snapOne env files sto x).bind fun s => (snapAll env files sto l).bind fun ss =>
        .ok (s :: ss) := by
  obtain ⟨fp, pk⟩ := x
  simp only [snapAll, snapOne, bind, Except.bind]
  cases generate env sto fp pk <;> rfl

theorem snapAll_ok_iff {files : PyDict Str Str} {sto : Sto} : ∀ {l : List (Option Fp × κ)},
    (∃ ps, snapAll env files sto l = .ok ps) ↔ ∀ x ∈ l, ∃ s, snapOne env files sto x = .ok s
  | [] => by simp [snapAll]
  | x :: l => by
    rw [snapAll_cons, List.forall_mem_cons, ← snapAll_ok_iff (l := l)]
    cases snapOne env files sto x <;> cases snapAll env files sto l <;>
      simp [Except.bind]

theorem mem_snapAll_iff {files : PyDict Str Str} {sto : Sto} : ∀ {l : List (Option Fp × κ)}
    {ps : List (PSnap κ)}, snapAll env files sto l = .ok ps → ∀ sn,
    sn ∈ ps ↔ ∃ x ∈ l, snapOne env files sto x = .ok sn
  | [], ps, h, sn => by
    simp only [snapAll, Except.ok.injEq] at h
    simp [← h]
  | x :: l, ps, h, sn => by
    rw [snapAll_cons] at h
    cases h1 : snapOne env files sto x with
    | error e => rw [h1] at h; simp [Except.bind] at h
    | ok s =>
      cases h2 : snapAll env files sto l with
      | error e => rw [h1, h2] at h; simp [Except.bind] at h
      | ok ss =>
        rw [h1, h2] at h
        simp only [Except.bind, Except.ok.injEq] at h
        subst h
        rw [List.mem_cons, mem_snapAll_iff h2]
        simp [h1, eq_comm]

end Arti.World

namespace Arti.Ex
open PyDict World Spec

theorem dropPrefix_append (a b : Str) : Fmt.dropPrefix? a (a ++ b) = some b := by
  induction a with
  | nil => simp [Fmt.dropPrefix?]
  | cons c a ih => simpa [Fmt.dropPrefix?] using ih

theorem dropPrefix_head {a b r : Str} (h : Fmt.dropPrefix? a b = some r) (ha : a ≠ []) :
    b.head? = a.head? := by
  cases a with
  | nil => exact absurd rfl ha
  | cons c a =>
    cases b with
    | nil => simp [Fmt.dropPrefix?] at h
    | cons d b =>
      simp only [Fmt.dropPrefix?] at h
      split at h
      · rename_i he; simp [he]
      · simp at h

theorem breakOn_append (p : Char → Bool) : ∀ (s t : Str), (∀ c ∈ s, p c = false) →
    (t = [] ∨ ∃ c r, t = c :: r ∧ p c = true) → Fmt.breakOn p (s ++ t) = (s, t)
  | [], t, _, ht => by
    rcases ht with rfl | ⟨c, r, rfl, hc⟩
    · rfl
    · simp [Fmt.breakOn, hc]
  | c :: s, t, hs, ht => by
    simp [Fmt.breakOn, hs c (by simp), breakOn_append p s t (fun d hd => hs d (by simp [hd])) ht]

theorem natToStr_no_tilde (n : Nat) : ∀ c ∈ natToStr 10 n, decide (c = '~') = false := by
  intro c hc
  have := natToStr_chars (b := 10) (by decide) (by decide) n c hc
  apply decide_eq_false
  rintro rfl
  exact absurd this (by decide)

theorem intToStr_no_tilde (i : Int) : ∀ c ∈ intToStr i, decide (c = '~') = false := by
  cases i with
  | ofNat n => exact natToStr_no_tilde n
  | negSucc n =>
    intro c hc
    rcases List.mem_cons.1 hc with rfl | hc
    · decide
    · exact natToStr_no_tilde _ c hc

/-- Names can be parsed. -/
theorem parseRest_render (f : Fp) (pk : Nat) :
    parseRest ('#' :: intToStr f ++ if pk = 0 then [] else '~' :: natToStr 10 pk) =
      some (some f, pk) := by
  simp only [parseRest, List.cons_append]
  rw [breakOn_append _ _ _ (intToStr_no_tilde f)
    (by by_cases h : pk = 0 <;> simp [h])]
  simp only [pyInt_intToStr]
  by_cases h : pk = 0
  · simp [h, parsePk]
  · simp [h, parsePk, digitsVal_natToStr]

/-- The first characters of the templates. -/
def headOf (sto : Sto) : Option Char := (pre sto.tmpl.text).head?

def isFile : Sto → Bool
  | .file _ => true
  | .lit _ _ => false

/-- Produced artifacts are files whose names begin with characters of their own. -/
def apartB (gl : List Graph) (g : Graph) (files : PyDict Str Str) : Bool :=
  let made := (gl.flatMap madeOf).map fun x => x.1.sto
  made.all (fun a => isFile a && (headOf a).isSome &&
    made.all (fun b => headOf a != headOf b || a == b) &&
    (keys files).all (fun n => n.head? != headOf a) &&
    g.arts.all fun x => match x.2 with
      | .raw i => headOf i.sto != headOf a
      | .made _ _ _ => true) &&
  g.arts.all fun x => match x.2 with
    | .raw i => isFile i.sto && (headOf i.sto).isSome
    | .made _ _ _ => true

theorem generate_file {t : Tmpl} {f : Fp} {pk : Nat} {part : Prt Nat} {path : Str}
    (h : generate env (.file t) (some f) pk = .ok part) (hp : part.loc = .file path) :
    path = pre t.text ++ ('#' :: intToStr f ++ if pk = 0 then [] else '~' :: natToStr 10 pk) := by
  unfold generate at h
  simp only [bind, Except.bind] at h
  split at h
  · simp at h
  · split at h
    · simp at h
    · split at h
      · simp at h
      · simp only [env, Except.ok.injEq] at h
        rw [← h] at hp
        simp only [Loc.file.injEq] at hp
        rw [← hp]
        simp [render]

theorem apart (gl : List Graph) (g : Graph) (files0 : PyDict Str Str)
    (h : apartB gl g files0 = true) : Apart env (· ∈ gl) g files0 := by
  simp only [apartB, Bool.and_eq_true, List.all_eq_true] at h
  obtain ⟨h1, h2⟩ := h
  have hmade : ∀ i p pos, Made (· ∈ gl) i p pos →
      (∃ t, i.sto = .file t ∧ pre t.text ≠ []) ∧
      (∀ j q qpos, Made (· ∈ gl) j q qpos → headOf i.sto = headOf j.sto → i.sto = j.sto) ∧
      (∀ n, get? files0 n ≠ none → n.head? ≠ headOf i.sto) ∧
      (∀ k j, (k, Art.raw j) ∈ g.arts → headOf j.sto ≠ headOf i.sto) := by
    have hmem : ∀ i p pos, Made (· ∈ gl) i p pos →
        i.sto ∈ (gl.flatMap madeOf).map fun x => x.1.sto := by
      rintro i p pos ⟨g', hg', hm⟩
      exact List.mem_map.2 ⟨_, List.mem_flatMap.2 ⟨g', hg', mem_madeOf.2 hm⟩, rfl⟩
    intro i p pos hm
    obtain ⟨⟨⟨⟨a1, a2⟩, a3⟩, a4⟩, a5⟩ := h1 _ (hmem i p pos hm)
    refine ⟨?_, ?_, ?_, ?_⟩
    · cases hs : i.sto with
      | file t =>
        refine ⟨t, rfl, ?_⟩
        rw [hs] at a2
        simp only [headOf, Sto.tmpl] at a2
        intro he; rw [he] at a2; simp at a2
      | lit t v => rw [hs] at a1; simp [isFile] at a1
    · intro j q qpos hj he
      have := a3 _ (hmem j q qpos hj)
      simpa [he] using this
    · intro n hn
      have : n ∈ keys files0 := by
        apply Classical.byContradiction
        intro hh; exact hn ((get?_eq_none_iff _ _).2 hh)
      simpa using a4 n this
    · intro k j hj
      simpa using a5 _ hj
  have hprod : ∀ path, ProducedPath env (· ∈ gl) path → ∃ i p pos t f pk part,
      Made (· ∈ gl) i p pos ∧ i.sto = .file t ∧ pre t.text ≠ [] ∧
      generate env i.sto (some f) pk = .ok part ∧ part.loc = .file path ∧
      path = pre t.text ++
        ('#' :: intToStr f ++ if pk = 0 then [] else '~' :: natToStr 10 pk) := by
    rintro path ⟨i, p, pos, f, pk, part, hm, hgen, hloc⟩
    obtain ⟨⟨t, ht, hne⟩, -⟩ := hmade i p pos hm
    exact ⟨i, p, pos, t, f, pk, part, hm, ht, hne, hgen, hloc, generate_file (ht ▸ hgen) hloc⟩
  refine ⟨fun files hadd i => ?_, fun files hnew i p pos hm ifps _ => ?_⟩
  · refine ⟨?_, ?_, ?_⟩
    · simp only [rawNow]; split
      · split
        · exact nodup_keys_ofItems _
        · simp [keys]
      · simp [keys]
    · simp only [rawNow]; split
      · split
        · exact nodup_keys_ofItems _
        · simp [keys]
      · simp [keys]
    · intro x
      simp only [rawNow]
      split
      · rename_i hany
        obtain ⟨⟨k, a⟩, hka, ha⟩ := List.any_eq_true.1 hany
        simp only [decide_eq_true_eq] at ha
        subst ha
        have hi := h2 _ hka
        simp only [Bool.and_eq_true] at hi
        obtain ⟨hfile, hhead⟩ := hi
        cases hs : i.sto with
        | lit t v => rw [hs] at hfile; simp [isFile] at hfile
        | file t =>
          have hne : pre t.text ≠ [] := by
            intro he
            rw [hs] at hhead
            simp [headOf, Sto.tmpl, he] at hhead
          -- the same partitions are found
          have hfound : ∀ y, y ∈ (scan t (keys files0)).filter (fun x =>
              get? ([] : PyDict Nat Fp) x.2 = x.1) ↔ y ∈ (scan t (keys files)).filter (fun x =>
              get? ([] : PyDict Nat Fp) x.2 = x.1) := by
            intro y
            simp only [List.mem_filter, scan, List.mem_filterMap]
            refine and_congr_left fun _ => exists_congr fun n => and_congr_left fun hb => ?_
            have hk : ∀ fs : PyDict Str Str, n ∈ keys fs ↔ get? fs n ≠ none := fun fs => by
              rw [ne_eq, get?_eq_none_iff, Classical.not_not]
            rw [hk, hk]
            constructor
            · intro hn
              cases hg0 : get? files0 n with
              | none => exact absurd hg0 hn
              | some c => rw [hadd.old n c hg0]; simp
            · intro hn
              rcases hadd.new n hn with h3 | h3
              · exact h3
              · exfalso
                obtain ⟨i', p', pos', t', f, pk, part, hm', ht', hne', -, -, hpath⟩ := hprod n h3
                cases hd : Fmt.dropPrefix? (pre t.text) n with
                | none => rw [hd] at hb; simp at hb
                | some r =>
                  have e1 := dropPrefix_head hd hne
                  have e2 : n.head? = (pre t'.text).head? := by
                    rw [hpath]
                    cases hp : pre t'.text with
                    | nil => exact absurd hp hne'
                    | cons => rfl
                  refine (hmade i' p' pos' hm').2.2.2 k i hka ?_
                  rw [hs, ht']
                  simp only [headOf, Sto.tmpl]
                  rw [← e1, e2]
          -- and what is stored for them is the same
          have hone : ∀ y, y ∈ (scan t (keys files0)).filter (fun x =>
              get? ([] : PyDict Nat Fp) x.2 = x.1) →
              snapOne env files0 (.file t) y = snapOne env files (.file t) y ∧
              ∀ sn, snapOne env files0 (.file t) y = .ok sn →
                content files0 sn.part.loc = content files sn.part.loc := by
            intro y hy
            have hy2 : y.1 = none := by
              have := (List.mem_filter.1 hy).2
              simpa [get?, eq_comm] using this
            cases hgen : generate env (.file t) y.1 y.2 with
            | error e => simp [snapOne, hgen, Except.bind]
            | ok part =>
              have hloc : ∃ r, part.loc = .file (pre t.text ++ r) := by
                rw [hy2] at hgen
                unfold generate at hgen
                simp only [bind, Except.bind] at hgen
                split at hgen
                · simp at hgen
                · split at hgen
                  · simp at hgen
                  · split at hgen
                    · simp at hgen
                    · simp only [env, Except.ok.injEq] at hgen
                      rw [← hgen]
                      simp [render]
              obtain ⟨r, hr⟩ := hloc
              have hcont : content files0 part.loc = content files part.loc := by
                rw [hr]
                simp only [content]
                cases hg0 : get? files0 (pre t.text ++ r) with
                | some c => rw [hadd.old _ c hg0]
                | none =>
                  cases hg1 : get? files (pre t.text ++ r) with
                  | none => rfl
                  | some c =>
                    exfalso
                    rcases hadd.new _ (by rw [hg1]; simp) with h3 | h3
                    · exact h3 hg0
                    · obtain ⟨i', p', pos', t', f, pk, part, hm', ht', hne', -, -, hpath⟩ :=
                        hprod _ h3
                      refine (hmade i' p' pos' hm').2.2.2 k i hka ?_
                      rw [hs, ht']
                      simp only [headOf, Sto.tmpl]
                      have := congrArg List.head? hpath
                      rw [List.head?_append_of_ne_nil _ hne,
                        List.head?_append_of_ne_nil _ hne'] at this
                      exact this
              simp only [snapOne, hgen, Except.bind, snap, hcont]
              refine ⟨trivial, fun sn hsn => ?_⟩
              split at hsn
              · simp only [Except.ok.injEq] at hsn
                rw [← hsn]; exact hcont
              · simp at hsn
          have hdisc : ∀ fs, discover env fs (.file t) [] = snapAll env fs (.file t)
              ((scan t (keys fs)).filter fun x => get? ([] : PyDict Nat Fp) x.2 = x.1) :=
            fun fs => rfl
          have hitems : ∀ (fs : PyDict Str Str) (ps : List (PSnap Nat)),
              x ∈ ofItems (ps.filterMap fun sn => (content fs sn.part.loc).map fun c => (sn, c)) ↔
              x.1 ∈ ps ∧ content fs x.1.part.loc = some x.2 := by
            intro fs ps
            have hm : ∀ y : PSnap Nat × Str, y ∈ (ps.filterMap fun sn =>
                (content fs sn.part.loc).map fun c => (sn, c)) ↔
                y.1 ∈ ps ∧ content fs y.1.part.loc = some y.2 := by
              intro y
              rw [List.mem_filterMap]
              constructor
              · rintro ⟨sn, h1, h2⟩
                obtain ⟨c, h3, rfl⟩ := Option.map_eq_some_iff.1 h2
                exact ⟨h1, h3⟩
              · rintro ⟨h1, h2⟩
                exact ⟨y.1, h1, by rw [h2]; rfl⟩
            constructor
            · intro hx
              exact (hm x).1 (mem_of_mem_ofItems hx)
            · intro hx
              refine mem_ofItems_of_unique ((hm x).2 hx) fun v hv => ?_
              have := ((hm _).1 hv).2
              rw [hx.2] at this
              exact (Option.some.inj this).symm
          rw [hdisc, hdisc]
          have hok : (∃ ps, snapAll env files0 (.file t) ((scan t (keys files0)).filter fun x =>
                get? ([] : PyDict Nat Fp) x.2 = x.1) = .ok ps) ↔
              ∃ ps, snapAll env files (.file t) ((scan t (keys files)).filter fun x =>
                get? ([] : PyDict Nat Fp) x.2 = x.1) = .ok ps := by
            rw [snapAll_ok_iff, snapAll_ok_iff]
            constructor
            · intro hh y hy
              have hy' := (hfound y).2 hy
              rw [← (hone y hy').1]; exact hh y hy'
            · intro hh y hy
              rw [(hone y hy).1]; exact hh y ((hfound y).1 hy)
          cases h5 : snapAll env files0 (.file t) ((scan t (keys files0)).filter fun x =>
                get? ([] : PyDict Nat Fp) x.2 = x.1) with
          | error e =>
            cases h6 : snapAll env files (.file t) ((scan t (keys files)).filter fun x =>
                get? ([] : PyDict Nat Fp) x.2 = x.1) with
            | error e => rfl
            | ok ps =>
              obtain ⟨_, h7⟩ := hok.2 ⟨ps, h6⟩
              rw [h5] at h7; simp at h7
          | ok ps =>
            obtain ⟨qs, h6⟩ := hok.1 ⟨ps, h5⟩
            rw [h6]
            simp only
            rw [hitems, hitems, mem_snapAll_iff h5, mem_snapAll_iff h6]
            constructor
            · rintro ⟨⟨y, hy, hsn⟩, hc⟩
              obtain ⟨h7, h8⟩ := hone y hy
              exact ⟨⟨y, (hfound y).1 hy, h7 ▸ hsn⟩, by rw [← h8 _ hsn]; exact hc⟩
            · rintro ⟨⟨y, hy, hsn⟩, hc⟩
              obtain ⟨h7, h8⟩ := hone y ((hfound y).2 hy)
              exact ⟨⟨y, (hfound y).2 hy, h7.trans hsn⟩, by rw [h8 _ (h7.trans hsn)]; exact hc⟩
      · rfl
  · obtain ⟨⟨t, ht, hne⟩, huniq, hold, -⟩ := hmade i p pos hm
    rw [ht]
    simp only [discover, env, bind, Except.bind]
    refine snapAll_ok_iff.2 fun x hx => ?_
    obtain ⟨hx, -⟩ := List.mem_filter.1 hx
    obtain ⟨n, hn, hb⟩ := List.mem_filterMap.1 hx
    have hn' : get? files n ≠ none := by
      rw [ne_eq, get?_eq_none_iff, Classical.not_not]; exact hn
    cases hd : Fmt.dropPrefix? (pre t.text) n with
    | none => rw [hd] at hb; simp at hb
    | some r =>
      rw [hd] at hb
      have e1 := dropPrefix_head hd hne
      rcases hnew n hn' with h3 | h3
      · exfalso
        refine hold n h3 ?_
        rw [ht]; exact e1
      · obtain ⟨i', p', pos', t', f, pk, part, hm', ht', hne', hgen, hloc, hpath⟩ := hprod n h3
        have e2 : n.head? = (pre t'.text).head? := by
          rw [hpath]
          cases hp : pre t'.text with
          | nil => exact absurd hp hne'
          | cons => rfl
        have hst : i.sto = i'.sto := huniq i' p' pos' hm' (by
          rw [ht, ht']; simp only [headOf, Sto.tmpl]; rw [← e1, e2])
        rw [ht, ht'] at hst
        injection hst with hst
        subst hst
        rw [hpath, dropPrefix_append] at hd
        simp only [Option.some.injEq] at hd
        simp only [Option.bind_some, ← hd, parseRest_render, Option.some.injEq] at hb
        subst hb
        rw [ht'] at hgen
        cases hc : get? files n with
        | none => exact absurd hc hn'
        | some c =>
          refine ⟨⟨contentFp env part.loc c, part⟩, ?_⟩
          have hc' : content files part.loc = some c := by rw [hloc]; exact hc
          have : snapOne env files (.file t) (some f, pk) = .ok ⟨contentFp env part.loc c, part⟩ := by
            simp only [snapOne, hgen, Except.bind, snap, hc']
          exact this

/-- Each producer comes after the producers of its inputs. -/
def afterB (g : Graph) : List Nd → List Nd → Bool
  | _, [] => true
  | done, .art a :: rest => afterB g (.art a :: done) rest
  | done, .pdr p :: rest =>
    p.inputs.all (fun x => match x.2 with
      | .made _ q _ => !(g.arts.any fun y => y.2 == x.2) || done.contains (.pdr q)
      | .raw _ => true) && afterB g (.pdr p :: done) rest

theorem after_of {g : Graph} : ∀ (order done : List Nd), afterB g done order = true →
    ∀ l p r, order = l ++ Nd.pdr p :: r → ∀ n i q pos, (n, Art.made i q pos) ∈ p.inputs →
    (∃ k, (k, Art.made i q pos) ∈ g.arts) → Nd.pdr q ∈ done ∨ Nd.pdr q ∈ l
  | [], done, _, l, p, r, he => by simp at he
  | x :: order, done, h, [], p, r, he => by
    simp only [List.nil_append, List.cons.injEq] at he
    obtain ⟨rfl, rfl⟩ := he
    simp only [afterB, Bool.and_eq_true, List.all_eq_true] at h
    intro n i q pos hm ⟨k, hk⟩
    have := h.1 _ hm
    have hany : g.arts.any (fun y => y.2 == Art.made i q pos) = true :=
      List.any_eq_true.2 ⟨_, hk, by simp⟩
    simp only [hany, Bool.not_true, Bool.false_or, List.contains_iff_mem] at this
    exact .inl this
  | x :: order, done, h, y :: l, p, r, he => by
    simp only [List.cons_append, List.cons.injEq] at he
    obtain ⟨rfl, he⟩ := he
    have h' : afterB g (x :: done) order = true := by
      cases x with
      | art a => exact h
      | pdr p => simp only [afterB, Bool.and_eq_true] at h; exact h.2
    intro n i q pos hm hk
    rcases after_of order (x :: done) h' l p r he n i q pos hm hk with h1 | h1
    · rcases List.mem_cons.1 h1 with h2 | h2
      · exact .inr (by simp [h2])
      · exact .inl h2
    · exact .inr (by simp [h1])

def scheduleB (g : Graph) (order : List Nd) : Bool :=
  afterB g [] order && (madeOf g).all (fun x => order.contains (.pdr x.2.1)) &&
    order.all fun n => match n with
      | .pdr p => (madeOf g).any fun x => x.2.1 == p
      | .art _ => true

theorem schedule (g : Graph) (order : List Nd) (h : scheduleB g order = true) :
    IsSchedule g order := by
  simp only [scheduleB, Bool.and_eq_true, List.all_eq_true, List.contains_iff_mem] at h
  obtain ⟨⟨h1, h2⟩, h3⟩ := h
  refine ⟨fun p => ⟨fun hp => ?_, ?_⟩, fun l p r he n i q pos hm hk => ?_⟩
  · obtain ⟨⟨i, q, pos⟩, hx, he⟩ := List.any_eq_true.1 (h3 _ hp)
    simp only [beq_iff_eq] at he
    subst he
    obtain ⟨k, hk⟩ := mem_madeOf.1 hx
    exact ⟨k, i, pos, hk⟩
  · rintro ⟨k, i, pos, hk⟩
    exact h2 (i, p, pos) (mem_madeOf.2 ⟨k, hk⟩)
  · simpa using after_of order [] h1 l p r he n i q pos hm hk

end Arti.Ex
