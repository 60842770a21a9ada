import Verif.Lemmas.Decorator
import Verif.Props.Decorator
import Verif.Props.ProducerClass
import Verif.Lemmas.Graph

/-!
# Which classes are accepted as producers (C53)
-/

namespace Arti.Props
open PyDict Spec PCls

variable {H : Type} [DecidableEq H] {henv : Hints H}

theorem sig_unowned (f : Fn H) : f.sig = unowned f.params := by
  simp only [Fn.sig, unowned]
  congr 1
  funext p
  simp [List.contains_cons, Bool.or_comm]

theorem mem_unowned {ps : List (Param H)} {p : Param H} :
    p ∈ unowned ps ↔ p ∈ ps ∧ ¬ IsOwner p.name := by
  simp [unowned, IsOwner]

theorem mapFits_iff (hps : henv.partitions ≠ henv.snapshots) {inputs : PyDict Str H}
    {m : MapAttr H} :
    (m.bound = true ∧ ∀ p ∈ m.sig henv, p.name ∈ keys inputs ∧ Keyword p ∧
      p.hint = some henv.partitions) ↔ MapFits henv (keys inputs) m := by
  cases m with
  | user g =>
    simp only [MapAttr.bound, MapAttr.sig, MapFits, sig_unowned, mem_unowned, and_imp]
  | gen names =>
    simp only [MapAttr.bound, MapAttr.sig, MapFits, true_and]
    constructor
    · intro h n hn hno
      have := h ⟨n, some (if n = "kwargs".toList then henv.snapshots else henv.partitions), false,
        .kwOnly⟩ (by
          rw [List.mem_filter]
          exact ⟨List.mem_map.2 ⟨n, hn, rfl⟩, by simpa [IsOwner] using hno⟩)
      refine ⟨this.1, fun hk => ?_⟩
      have h2 := this.2.2
      simp only [if_pos hk, Option.some.injEq] at h2
      exact hps h2.symm
    · intro h p hp
      rw [List.mem_filter] at hp
      obtain ⟨hp, hno⟩ := hp
      obtain ⟨n, hn, rfl⟩ := List.mem_map.1 hp
      obtain ⟨h1, h2⟩ := h n hn (by simpa [IsOwner] using hno)
      exact ⟨h1, ⟨rfl, rfl, .inr rfl⟩, by simp only [if_neg h2]⟩

theorem mem_mapSig {m : MapAttr H} {n : Str} :
    n ∈ (m.sig henv).map (·.name) ↔ n ∈ mapNames m ∧ ¬ IsOwner n := by
  cases m with
  | user g =>
    simp only [MapAttr.sig, sig_unowned, mapNames, List.mem_map, mem_unowned]
    constructor
    · rintro ⟨p, ⟨h1, h2⟩, rfl⟩; exact ⟨⟨p, h1, rfl⟩, h2⟩
    · rintro ⟨⟨p, h1, rfl⟩, h2⟩; exact ⟨p, ⟨h1, h2⟩, rfl⟩
  | gen names =>
    simp only [MapAttr.sig, mapNames, List.mem_map, List.mem_filter]
    constructor
    · rintro ⟨p, ⟨⟨n, hn, rfl⟩, h2⟩, rfl⟩
      exact ⟨hn, by simpa [IsOwner] using h2⟩
    · rintro ⟨hn, h2⟩
      exact ⟨_, ⟨⟨n, hn, rfl⟩, by simpa [IsOwner] using h2⟩, rfl⟩

/-- **C53** (exactly). A class that is not abstract is accepted if, and only if, it is a producer:
the rules about fields, parameters, hints, outputs, `validate_outputs` and `map` are all there
is. -/
theorem C53_accepted_iff (hps : henv.partitions ≠ henv.snapshots)
    (hnd : ∀ h v fs, henv.writeView h = .ok v → v.fields = some fs → (keys fs).Nodup)
    {a : Attrs H} (ha : a.abstract = false) (hf : (keys a.fields).Nodup)
    (i : Option (Derived H)) :
    (∃ c, initSubclass henv a i = .ok c) ↔ IsProducer henv a := by
  have hkin : keys (a.fields.map fun nf => (nf.1, nf.2.hint)) = keys a.fields := by simp [keys]
  have hpart : ∀ outs : List (Vw H), outs.any isPartitioned = false ↔ ∀ v ∈ outs, ¬ Partitioned v := by
    intro outs
    rw [List.any_eq_false]
    simp only [partitioned_iff]
  have hget : ∀ n fd, (n, fd) ∈ a.fields →
      get? (a.fields.map fun nf => (nf.1, nf.2.hint)) n = some fd.hint := by
    intro n fd h
    refine get?_of_mem (by rw [hkin]; exact hf) (List.mem_map.2 ⟨_, h, rfl⟩)
  have hbp : ∀ n h nv, buildParam henv (a.fields.map fun nf => (nf.1, nf.2.hint)) n h = .ok nv →
      ∃ fd v, (n, fd) ∈ a.fields ∧ henv.readView h fd.hint = .ok v ∧ v.cls = fd.hint ∧ nv = (n, v) := by
    intro n h nv hb
    simp only [buildParam] at hb
    split at hb
    · cases hb
    · rename_i field hg
      obtain ⟨⟨n', fd⟩, hm, he⟩ := List.mem_map.1 (get?_mem hg)
      simp only [Prod.mk.injEq] at he
      obtain ⟨rfl, rfl⟩ := he
      rw [bind_ok_iff] at hb
      obtain ⟨v, hv, hb⟩ := hb
      split at hb
      · rename_i hc
        cases hb
        exact ⟨fd, v, hm, hv, hc, rfl⟩
      · cases hb
  constructor
  · rintro ⟨c, h⟩
    rw [initSubclass_iff ha] at h
    obtain ⟨inputs, sig, hints, bi, outs, m, msig, names, h1, h2, h3, h4, h5, -⟩ := h
    rw [validateFields_iff] at h1
    obtain ⟨rfl, hfd⟩ := h1
    cases hb : a.build with
    | none => rw [hb] at h2; cases h2
    | some f =>
      rw [hb] at h2
      have hbd : f.bound = true := by
        cases hbd : f.bound with
        | true => rfl
        | false => simp [validateBuild, hbd] at h2
      rw [validateBuild_iff hbd] at h2
      obtain ⟨items, r, outs', ks, hpar, hr, hone, ho, hk, hs, hx⟩ := h2
      simp only [Prod.mk.injEq] at hx
      obtain ⟨rfl, rfl, rfl, rfl⟩ := hx
      rw [validateParams_iff, sig_unowned] at hpar
      obtain ⟨hpn, hit⟩ := hpar
      rw [validateValidate_iff, sig_unowned] at h3
      rw [validateMap_iff] at h4
      obtain ⟨hcm, hmb, hmp, rfl, rfl⟩ := h4
      have hmf := (mapFits_iff hps).1 ⟨hmb, hmp⟩
      rw [hkin] at hmf
      have hndo : ∀ v ∈ outs, ∀ fs, v.fields = some fs → (keys fs).Nodup := by
        intro v hvm fs hfs
        obtain ⟨h, hw⟩ := mem_of_forall₂ ho hvm
        exact hnd h v fs hw hfs
      obtain ⟨hne, hcl, hsch⟩ := (sameScheme_iff hndo).1 ⟨ks, hk, hs⟩
      have hbis : ∀ p ∈ unowned f.params, ∃ fd h v, (p.name, fd) ∈ a.fields ∧
          p.hint = some h ∧ henv.readView h fd.hint = .ok v ∧ v.cls = fd.hint ∧
          (p.name, v) ∈ items := by
        intro p hp
        have : ∀ (l : List (Param H)) (its : List (Str × Vw H)),
            List.Forall₂ (fun p b => ∃ t, p.hint = some t ∧ buildParam henv
              (a.fields.map fun nf => (nf.1, nf.2.hint)) p.name t = .ok b) l its → p ∈ l →
            ∃ b ∈ its, ∃ t, p.hint = some t ∧ buildParam henv
              (a.fields.map fun nf => (nf.1, nf.2.hint)) p.name t = .ok b := by
          intro l its hl hp
          induction hl with
          | nil => cases hp
          | cons hab _ ih =>
            rcases List.mem_cons.1 hp with rfl | hp
            · exact ⟨_, by simp, hab⟩
            · obtain ⟨b, hb, h⟩ := ih hp
              exact ⟨b, List.mem_cons_of_mem _ hb, h⟩
        obtain ⟨b, hb, t, ht, hbt⟩ := this _ _ hit hp
        obtain ⟨fd, v, hm, hv, hc, rfl⟩ := hbp _ _ _ hbt
        exact ⟨fd, t, v, hm, ht, hv, hc, hb⟩
      have hkb : ∀ n, contains (ofItems items) n = true ↔ n ∈ (unowned f.params).map (·.name) := by
        intro n
        rw [contains_iff, mem_keys_ofItems]
        constructor
        · intro hn
          have : ∀ (l : List (Param H)) (its : List (Str × Vw H)),
            List.Forall₂ (fun p b => ∃ t, p.hint = some t ∧ buildParam henv
              (a.fields.map fun nf => (nf.1, nf.2.hint)) p.name t = .ok b) l its →
            keys its = l.map (·.name) := by
            intro l its hl
            induction hl with
            | nil => rfl
            | cons hab _ ih =>
              obtain ⟨t, _, hbt⟩ := hab
              obtain ⟨_, v, _, _, _, rfl⟩ := hbp _ _ _ hbt
              simp only [keys, List.map_cons] at ih ⊢
              rw [ih]
          rw [← this _ _ hit]
          exact hn
        · intro hn
          obtain ⟨p, hp, rfl⟩ := List.mem_map.1 hn
          obtain ⟨_, _, v, _, _, _, _, hi⟩ := hbis p hp
          exact List.mem_map.2 ⟨_, hi, rfl⟩
      refine ⟨hfd, f, r, outs, hb, hbd, hr, fun p hp hno => ?_, hone, ho, hne, hcl, hsch, h3, ?_, ?_, ?_⟩
      · have hpm := mem_unowned.2 ⟨hp, hno⟩
        obtain ⟨fd, h, v, h1, h2, h3, h4, -⟩ := hbis p hpm
        exact ⟨(hpn p hpm).2, fd, h, v, h1, h2, h3, h4⟩
      · intro m' hm'
        rw [hm'] at hcm
        simp only [chooseMap, Except.ok.injEq] at hcm
        rw [hcm]; exact hmf
      · intro hm'
        rw [hm'] at hcm
        simp only [chooseMap] at hcm
        split at hcm
        · cases hcm
        · rename_i hpa
          simp only [Bool.not_eq_true] at hpa
          refine ⟨(hpart outs).1 hpa, fun p hp hk => ?_⟩
          simp only [Except.ok.injEq] at hcm
          subst hcm
          have hno : ¬ IsOwner p.name := by
            rw [hk]; rintro (h | h) <;> exact absurd h (by decide)
          have hpu := mem_unowned.2 ⟨hp, hno⟩
          have hin := (hpn p hpu).1
          exact (hmf p.name (List.mem_filter.2 ⟨hin, (hkb _).2 (List.mem_map_of_mem hpu)⟩) hno).2 hk
      · intro n hn
        simp only [noUnusedFields, hkin] at h5
        split at h5
        · rename_i hall
          rw [List.all_eq_true] at hall
          have := hall n hn
          rw [Bool.or_eq_true, List.contains_iff_mem, List.contains_iff_mem, sig_unowned,
            mem_mapSig] at this
          rcases this with h | ⟨h, hno⟩
          · obtain ⟨p, hp, rfl⟩ := List.mem_map.1 h
            obtain ⟨h1, h2⟩ := mem_unowned.1 hp
            exact ⟨h2, .inl (List.mem_map_of_mem h1)⟩
          · refine ⟨hno, ?_⟩
            cases hm' : a.map with
            | some m' =>
              rw [hm'] at hcm
              simp only [chooseMap, Except.ok.injEq] at hcm
              exact .inr ⟨m', rfl, by rw [hcm]; exact h⟩
            | none =>
              rw [hm'] at hcm
              simp only [chooseMap] at hcm
              split at hcm
              · cases hcm
              · simp only [Except.ok.injEq] at hcm
                subst hcm
                rw [mapNames, List.mem_filter, hkb] at h
                obtain ⟨p, hp, hpe⟩ := List.mem_map.1 h.2
                exact .inl (hpe ▸ List.mem_map_of_mem (mem_unowned.1 hp).1)
        · cases h5
  · rintro ⟨hfd, f, r, outs, hb, hbd, hr, hpar, hone, ho, hne, hcl, hsch, hval, hm1, hm2, hused⟩
    have hndo : ∀ v ∈ outs, ∀ fs, v.fields = some fs → (keys fs).Nodup := by
      intro v hvm fs hfs
      obtain ⟨h, hw⟩ := mem_of_forall₂ ho hvm
      exact hnd h v fs hw hfs
    obtain ⟨ks, hk, hs⟩ := (sameScheme_iff hndo).2 ⟨hne, hcl, hsch⟩
    have hit : ∃ items, List.Forall₂ (fun p b => ∃ t, p.hint = some t ∧ buildParam henv
        (a.fields.map fun nf => (nf.1, nf.2.hint)) p.name t = .ok b) (unowned f.params) items := by
      rw [exists_forall₂]
      intro p hp
      obtain ⟨h1, h2⟩ := mem_unowned.1 hp
      obtain ⟨_, fd, h, v, hm, hh, hv, hc⟩ := hpar p h1 h2
      refine ⟨(p.name, v), h, hh, ?_⟩
      simp only [buildParam, hget _ _ hm, hv, bind, Except.bind, hc, if_true]
    obtain ⟨items, hit⟩ := hit
    have hkeys : keys items = (unowned f.params).map (·.name) := by
      have : ∀ (l : List (Param H)) (its : List (Str × Vw H)),
          List.Forall₂ (fun p b => ∃ t, p.hint = some t ∧ buildParam henv
            (a.fields.map fun nf => (nf.1, nf.2.hint)) p.name t = .ok b) l its →
          keys its = l.map (·.name) := by
        intro l its hl
        induction hl with
        | nil => rfl
        | cons hab _ ih =>
          obtain ⟨t, _, hbt⟩ := hab
          obtain ⟨_, v, _, _, _, rfl⟩ := hbp _ _ _ hbt
          simp only [keys, List.map_cons] at ih ⊢
          rw [ih]
      exact this _ _ hit
    have hpn : ∀ p ∈ unowned f.params, p.name ∈ keys a.fields ∧ Keyword p := by
      intro p hp
      obtain ⟨h1, h2⟩ := mem_unowned.1 hp
      obtain ⟨hkw, fd, h, v, hm, _⟩ := hpar p h1 h2
      exact ⟨List.mem_map.2 ⟨_, hm, rfl⟩, hkw⟩
    have hvp : validateParams (a.fields.map fun nf => (nf.1, nf.2.hint)) f.sig
        (buildParam henv (a.fields.map fun nf => (nf.1, nf.2.hint))) = .ok items := by
      rw [validateParams_iff, sig_unowned, hkin]
      exact ⟨hpn, hit⟩
    have hm : ∃ m, chooseMap (a.fields.map fun nf => (nf.1, nf.2.hint)) (ofItems items) outs a.map =
        .ok m ∧ MapFits henv (keys a.fields) m ∧ ∀ m', a.map = some m' → m = m' := by
      cases hm' : a.map with
      | some m' =>
        exact ⟨m', rfl, hm1 m' hm', fun m'' h => by cases h; rfl⟩
      | none =>
        obtain ⟨h1, h2⟩ := hm2 hm'
        refine ⟨.gen ((keys (a.fields.map fun nf => (nf.1, nf.2.hint))).filter fun n =>
          contains (ofItems items) n), ?_, ?_, fun m'' h => by cases h⟩
        · simp only [chooseMap, (hpart outs).2 h1, Bool.false_eq_true, if_false]
        · intro n hn hno
          rw [List.mem_filter, hkin, contains_iff, mem_keys_ofItems] at hn
          refine ⟨hn.1, fun hk' => ?_⟩
          have : n ∈ keys items := hn.2
          rw [hkeys] at this
          obtain ⟨p, hp, rfl⟩ := List.mem_map.1 this
          exact h2 p (mem_unowned.1 hp).1 hk'
    obtain ⟨m, hcm, hmf, hmm⟩ := hm
    rw [← hkin] at hmf
    obtain ⟨hmb, hmp⟩ := (mapFits_iff hps).2 hmf
    refine ⟨_, (initSubclass_iff ha).2 ⟨_, _, _, _, _, m, _, _, validateFields_iff.2 ⟨rfl, hfd⟩,
      by rw [hb]; exact (validateBuild_iff hbd).2 ⟨items, r, outs, ks, hvp, hr, hone, ho, hk, hs, rfl⟩,
      validateValidate_iff.2 (by rw [sig_unowned]; exact hval),
      validateMap_iff.2 ⟨hcm, hmb, hmp, rfl, rfl⟩, ?_, rfl⟩⟩
    simp only [noUnusedFields, hkin]
    rw [if_pos]
    rw [List.all_eq_true]
    intro n hn
    obtain ⟨hno, h⟩ := hused n hn
    rw [Bool.or_eq_true, List.contains_iff_mem, List.contains_iff_mem, sig_unowned, mem_mapSig]
    rcases h with h | ⟨m', hm', h⟩
    · obtain ⟨p, hp, rfl⟩ := List.mem_map.1 h
      exact .inl (List.mem_map_of_mem (mem_unowned.2 ⟨hp, hno⟩))
    · exact .inr ⟨by rw [hmm m' hm']; exact h, hno⟩

/-- The rules are met by a class with its own map and partitioned outputs. -/
example : IsProducer Ex06.hints (inherit (base 9).attrs Ex06.withMap) := by
  refine (C53_accepted_iff (henv := Ex06.hints) (by decide) ?_ rfl (by decide +kernel) none).1 ?_
  · intro h v fs hw hfs
    simp only [Ex06.hints, Except.ok.injEq] at hw
    subst hw
    simp only at hfs
    split at hfs <;> simp at hfs
    subst hfs
    simp [keys]
  · have : (match initSubclass Ex06.hints (inherit (base 9).attrs Ex06.withMap) none with
      | .ok _ => true
      | .error _ => false) = true := by decide +kernel
    split at this
    · exact ⟨_, ‹_›⟩
    · cases this
/-- They are not met if `map` is a method of the instance. -/
example : ¬ IsProducer Ex06.hints (inherit (base 9).attrs { Ex06.withMap with
    map := some ⟨[⟨"a".toList, some 3, false, .posOrKw⟩], none, false⟩ }) := by
  rintro ⟨-, f, r, outs, -, -, -, -, -, -, -, -, -, -, h, -⟩
  exact Bool.noConfusion (h _ rfl).1

end Arti.Props
