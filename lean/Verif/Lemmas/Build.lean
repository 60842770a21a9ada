import Verif.Spec.History
import Verif.Lemmas.Graph

/-! Builds compute what the evaluator computes: the invariants and their preservation. -/

namespace Arti.Spec
open PyDict World M
variable {κ D : Type} [DecidableEq κ] {env : Env κ D} {gs : Graph → Prop}
  {E : Snapshot → PyDict Str (Data κ) → Art → PSnap κ → Prop}

/-- The content that a logged dependency would give the output at a position. -/
def bytes (env : Env κ D) (e : Inv κ D) (i : ArtInfo) (pos : Nat) : Except Err Str :=
  outBytes env (cls env e.pdr) i pos (runBuild (cls env e.pdr) e.args)

/-- `b` is the content that some logged dependency gives this place. -/
def Correct (env : Env κ D) (gs : Graph → Prop) (log : List (Inv κ D)) (sto : Sto) (f : Fp)
    (pk : κ) (b : Str) : Prop :=
  ∃ e ∈ log, ∃ i pos, Made gs i e.pdr pos ∧
    SamePlace env i.sto e.fp e.key sto f pk ∧ bytes env e i pos = .ok b

theorem Correct.mono {log log' : List (Inv κ D)} {sto : Sto} {f : Fp} {pk : κ} {b : Str}
    (h : Correct env gs log sto f pk b) (hl : ∀ e ∈ log, e ∈ log') :
    Correct env gs log' sto f pk b := by
  obtain ⟨e, he, r⟩ := h
  exact ⟨e, hl e he, r⟩

/-- Under `NoClash` the content is the one of any logged dependency with the same place. -/
theorem Correct.eq {log : List (Inv κ D)} (hn : NoClash env gs log) {b : Str} {e : Inv κ D}
    (he : e ∈ log) {i : ArtInfo} {pos : Nat} (hm : Made gs i e.pdr pos)
    (h : Correct env gs log i.sto e.fp e.key b) : bytes env e i pos = .ok b := by
  obtain ⟨e0, he0, i0, pos0, hm0, hs, hb⟩ := h
  obtain ⟨h1, h2, h3, h4, h5⟩ := hn e0 he0 e he i0 pos0 i pos hm0 hm hs
  rw [← hb]
  unfold bytes World.cls outBytes
  simp only [h1, h2, h3, h4, h5]

/-- A snapshot in a storage that is right. -/
def GoodSnap (env : Env κ D) (gs : Graph → Prop) (files : PyDict Str Str) (log : List (Inv κ D))
    (sto : Sto) (sn : PSnap κ) : Prop :=
  ∃ f part b, generate env sto (some f) sn.part.key = .ok part ∧
    stored env part b = .ok (sn, b) ∧ content files sn.part.loc = some b ∧
    Correct env gs log sto f sn.part.key b

/-- Files persist. -/
def FSub (files files' : PyDict Str Str) : Prop :=
  ∀ p b, get? files p = some b → get? files' p = some b

theorem FSub.content {files files' : PyDict Str Str} (h : FSub files files') {l : Loc} {b : Str}
    (hc : World.content files l = some b) : World.content files' l = some b := by
  cases l with
  | file p => exact h p b hc
  | lit id v => exact hc

theorem GoodSnap.mono {files files' : PyDict Str Str} {log log' : List (Inv κ D)} {sto : Sto}
    {sn : PSnap κ} (h : GoodSnap env gs files log sto sn) (hf : FSub files files')
    (hl : ∀ e ∈ log, e ∈ log') : GoodSnap env gs files' log' sto sn := by
  obtain ⟨f, part, b, h1, h2, h3, h4⟩ := h
  exact ⟨f, part, b, h1, h2, hf.content h3, h4.mono hl⟩

/-- The storage of some produced artifact. -/
def MadeSto (gs : Graph → Prop) (sto : Sto) : Prop := ∃ i p pos, Made gs i p pos ∧ i.sto = sto

/-- Files at places of produced partitions, and the cached snapshots of produced storages, are
right. -/
structure WInv (env : Env κ D) (gs : Graph → Prop) (s : St κ D) : Prop where
  files : ∀ sto, MadeSto gs sto → ∀ f pk part path b,
    generate env sto (some f) pk = .ok part → part.loc = .file path →
    get? s.files path = some b → Correct env gs s.invs sto f pk b
  store : ∀ sto, MadeSto gs sto → ∀ ss, get? s.storage sto = some ss → ∀ sn ∈ ss,
    GoodSnap env gs s.files s.invs sto sn

/-- A linked partition is one that the evaluator gives for that snapshot. -/
def LinkEval (env : Env κ D) (σ : Snapshot) (r : PyDict Str (Data κ)) (a : Art) (sn : PSnap κ) :
    Prop :=
  match a with
  | .raw i => ∃ c, (sn, c) ∈ rawOf σ r i
  | .made i p pos => ∃ rs, evalPdr env (rawOf σ r) p = .ok rs ∧
      ∃ o ∈ rs, ∃ c, place env (cls env p) i pos o = .ok (sn, c)

/-- Of a raw artifact, `E` allows the partitions that were recorded. -/
def RawRel (E : Snapshot → PyDict Str (Data κ) → Art → PSnap κ → Prop) : Prop :=
  ∀ σ r i sn, E σ r (.raw i) sn ↔ ∃ c, (sn, c) ∈ rawOf σ r i

/-- The linked partitions of raw artifacts were recorded; those of produced artifacts are of a
dependency in the log. -/
def LinkLog (log : List (Inv κ D)) (σ : Snapshot) (r : PyDict Str (Data κ)) (a : Art)
    (sn : PSnap κ) : Prop :=
  match a with
  | .raw i => ∃ c, (sn, c) ∈ rawOf σ r i
  | .made _ p _ => ∃ e ∈ log, e.pdr = p ∧ e.key = sn.part.key ∧ sn.part.inputFp = some e.fp

theorem rawRel_linkEval : RawRel (LinkEval env) := fun _ _ _ _ => Iff.rfl
theorem rawRel_linkLog (log : List (Inv κ D)) : RawRel (LinkLog log) := fun _ _ _ _ => Iff.rfl

/-- A link is right: the partition is known, and `E` holds for it and some raw data recorded for the
snapshot. -/
def LinkOk (E : Snapshot → PyDict Str (Data κ) → Art → PSnap κ → Prop) (s : St κ D) (σ : Snapshot) (a : Art) (sn : PSnap κ) : Prop :=
  (∃ ss, get? s.storage a.info.sto = some ss ∧ sn ∈ ss) ∧
  ∃ r, (σ, r) ∈ s.raws ∧ E σ r a sn

/-- Links are right. -/
structure LInv (E : Snapshot → PyDict Str (Data κ) → Art → PSnap κ → Prop) (s : St κ D) : Prop where
  nodup : ∀ σ k ss, get? s.links (σ, k) = some ss → ss.Nodup
  ok : ∀ σ k ss, get? s.links (σ, k) = some ss → ∀ a, σ.graph.keyOf a = some k → ∀ sn ∈ ss,
    LinkOk E s σ a sn

/-- Grows. -/
def DSub {α β : Type} [DecidableEq α] (d d' : PyDict α (List β)) : Prop :=
  ∀ k l, get? d k = some l → ∃ l', get? d' k = some l' ∧ ∀ x ∈ l, x ∈ l'

theorem DSub.refl {α β : Type} [DecidableEq α] (d : PyDict α (List β)) : DSub d d :=
  fun _ l h => ⟨l, h, fun _ => id⟩

theorem DSub.trans {α β : Type} [DecidableEq α] {d d' d'' : PyDict α (List β)} (h : DSub d d')
    (h' : DSub d' d'') : DSub d d'' := by
  intro k l hl
  obtain ⟨l', h1, h2⟩ := h k l hl
  obtain ⟨l'', h3, h4⟩ := h' k l' h1
  exact ⟨l'', h3, fun x hx => h4 x (h2 x hx)⟩

theorem DSub.update {α β : Type} [DecidableEq α] [DecidableEq β] (d : PyDict α (List β)) (k : α)
    (l : List β) : DSub d (PyDict.set d k (setUpdate ((get? d k).getD []) l)) := by
  intro k' l' h
  rw [get?_set]
  by_cases hk : k = k'
  · subst hk
    simp only [↓reduceIte]
    exact ⟨_, rfl, fun x hx => (mem_setUpdate _ _ _).2 (.inl (by rw [h]; exact hx))⟩
  · simp only [hk, ↓reduceIte]
    exact ⟨l', h, fun _ => id⟩

/-- How the state may change while a producer is built. -/
structure Ext (s s' : St κ D) : Prop where
  files : FSub s.files s'.files
  storage : DSub s.storage s'.storage
  links : DSub s.links s'.links
  invs : s'.invs = s.invs
  raws : s'.raws = s.raws

theorem Ext.refl (s : St κ D) : Ext s s :=
  ⟨fun _ _ => id, DSub.refl _, DSub.refl _, rfl, rfl⟩

theorem Ext.trans {s s' s'' : St κ D} (h : Ext s s') (h' : Ext s' s'') : Ext s s'' :=
  ⟨fun p b hb => h'.files p b (h.files p b hb), h.storage.trans h'.storage,
    h.links.trans h'.links, h'.invs.trans h.invs, h'.raws.trans h.raws⟩

theorem LinkOk.mono {s s' : St κ D} (hs : DSub s.storage s'.storage)
    (hr : ∀ x ∈ s.raws, x ∈ s'.raws) {σ : Snapshot} {a : Art}
    {sn : PSnap κ} (h : LinkOk E s σ a sn) : LinkOk E s' σ a sn := by
  obtain ⟨⟨ss, h1, h2⟩, r, h3, h4⟩ := h
  obtain ⟨ss', h5, h6⟩ := hs _ _ h1
  exact ⟨⟨ss', h5, h6 _ h2⟩, r, hr _ h3, h4⟩

/-- The state with more snapshots in a storage. -/
def addStorage (s : St κ D) (sto : Sto) (ps : List (PSnap κ)) : St κ D :=
  { s with storage := PyDict.set s.storage sto (setUpdate ((get? s.storage sto).getD []) ps) }

/-- The state with more links. -/
def addLinks (s : St κ D) (σ : Snapshot) (k : Str) (ps : List (PSnap κ)) : St κ D :=
  { s with links := PyDict.set s.links (σ, k) (setUpdate ((get? s.links (σ, k)).getD []) ps) }

theorem ext_addStorage (s : St κ D) (sto : Sto) (ps : List (PSnap κ)) :
    Ext s (addStorage s sto ps) :=
  ⟨fun _ _ => id, DSub.update _ _ _, DSub.refl _, rfl, rfl⟩

theorem ext_addLinks (s : St κ D) (σ : Snapshot) (k : Str) (ps : List (PSnap κ)) :
    Ext s (addLinks s σ k ps) :=
  ⟨fun _ _ => id, DSub.refl _, DSub.update _ _ _, rfl, rfl⟩

theorem WInv.addStorage {s : St κ D} (h : WInv env gs s) (sto : Sto) (ps : List (PSnap κ))
    (hp : MadeSto gs sto → ∀ sn ∈ ps, GoodSnap env gs s.files s.invs sto sn) :
    WInv env gs (addStorage s sto ps) := by
  refine ⟨h.files, ?_⟩
  intro sto' hm ss hss sn hsn
  simp only [Spec.addStorage, get?_set] at hss
  by_cases hk : sto = sto'
  · subst hk
    simp only [↓reduceIte, Option.some.injEq] at hss
    subst hss
    rcases (mem_setUpdate _ _ _).1 hsn with h1 | h1
    · cases hg : get? s.storage sto with
      | none => rw [hg] at h1; simp at h1
      | some l => rw [hg] at h1; exact h.store sto hm l hg sn h1
    · exact hp hm sn h1
  · simp only [hk, ↓reduceIte] at hss
    exact h.store sto' hm ss hss sn hsn

theorem LInv.addStorage {s : St κ D} (h : LInv E s) (sto : Sto) (ps : List (PSnap κ)) :
    LInv E (addStorage s sto ps) :=
  ⟨h.nodup, fun σ k ss hss a ha sn hsn =>
    (h.ok σ k ss hss a ha sn hsn).mono (ext_addStorage s sto ps).storage fun _ => id⟩

theorem WInv.addLinks {s : St κ D} (h : WInv env gs s) (σ : Snapshot) (k : Str)
    (ps : List (PSnap κ)) : WInv env gs (addLinks s σ k ps) := ⟨h.files, h.store⟩

theorem LInv.addLinks {s : St κ D} (h : LInv E s) (σ : Snapshot) (k : Str)
    (ps : List (PSnap κ)) (hp : ∀ a, σ.graph.keyOf a = some k → ∀ sn ∈ ps, LinkOk E s σ a sn) :
    LInv E (addLinks s σ k ps) := by
  have hmono : ∀ σ a sn, LinkOk E s σ a sn → LinkOk E (Spec.addLinks s σ k ps) σ a sn :=
    fun σ a sn h => h
  constructor
  · intro σ' k' ss hss
    simp only [Spec.addLinks, get?_set] at hss
    by_cases hk : (σ, k) = (σ', k')
    · rw [if_pos hk] at hss
      simp only [Option.some.injEq] at hss
      subst hss
      apply nodup_setUpdate
      cases hg : get? s.links (σ, k) with
      | none => simp
      | some l => exact h.nodup _ _ l hg
    · rw [if_neg hk] at hss
      exact h.nodup σ' k' ss hss
  · intro σ' k' ss hss a ha sn hsn
    show LinkOk E s σ' a sn
    simp only [Spec.addLinks, get?_set] at hss
    by_cases hk : (σ, k) = (σ', k')
    · rw [if_pos hk] at hss
      simp only [Option.some.injEq] at hss
      subst hss
      simp only [Prod.mk.injEq] at hk
      obtain ⟨rfl, rfl⟩ := hk
      rcases (mem_setUpdate _ _ _).1 hsn with h1 | h1
      · cases hg : get? s.links (σ, k) with
        | none => rw [hg] at h1; simp at h1
        | some l => rw [hg] at h1; exact h.ok σ k l hg a ha sn h1
      · exact hp a ha sn h1
    · rw [if_neg hk] at hss
      exact h.ok σ' k' ss hss a ha sn hsn

/-- The invariants together, relative to a starting state. -/
structure J (E : Snapshot → PyDict Str (Data κ) → Art → PSnap κ → Prop) (env : Env κ D)
    (gs : Graph → Prop) (s1 s : St κ D) : Prop where
  w : WInv env gs s
  l : LInv E s
  e : Ext s1 s

theorem J.budget {s1 s : St κ D} (h : J E env gs s1 s) (n : Option Nat) :
    J E env gs s1 { s with budget := n } :=
  ⟨⟨h.w.files, h.w.store⟩, ⟨h.l.nodup, h.l.ok⟩,
    ⟨h.e.files, h.e.storage, h.e.links, h.e.invs, h.e.raws⟩⟩

end Arti.Spec
