import Verif.Spec.Backend
import Verif.Lemmas.Grow
import Verif.Examples.World

/-!
# The backend: tags (C33), partitions (C34), links (C35), warming the cache (C36)
-/

namespace Arti.Props
open PyDict World Spec

variable {κ D : Type} [DecidableEq κ] {env : Env κ D}

/-! ## What calls do to the world -/

omit [DecidableEq κ] in
private theorem effect_none {s : St κ D} (hb : s.budget = none) (f : St κ D → St κ D) :
    M.effect f s = (.ok (), f s) := by unfold M.effect; rw [hb]

/-- The partitions that are returned, given all known ones. -/
private def select (env : Env κ D) (ifps : PyDict κ Fp) (ps : List (PSnap κ)) : List (PSnap κ) :=
  env.iter (if ifps.isEmpty then ps
    else ps.filter fun s => get? ifps s.part.key = s.part.inputFp)

private theorem read_known {s : St κ D} {a : Art} {ps : List (PSnap κ)}
    (h : get? s.storage a.info.sto = some ps) (ifps : PyDict κ Fp) :
    readArtifactPartitions env a ifps s = (.ok (select env ifps ps), s) := by
  have hc : contains s.storage a.info.sto = true := by simp [contains, h]
  simp only [readArtifactPartitions, warm, M.run_bind, M.run_gets, hc, if_true, M.run_pure, h,
    Option.getD_some]
  rfl

private theorem read_unknown {s : St κ D} (hb : s.budget = none) {a : Art}
    (h : get? s.storage a.info.sto = none) (ifps : PyDict κ Fp) :
    readArtifactPartitions env a ifps s = match discover env s.files a.info.sto ifps with
      | .error e => (.error e, s)
      | .ok found => (.ok (select env ifps (setUpdate [] found)),
          { s with storage := set s.storage a.info.sto (setUpdate [] found) }) := by
  have hc : contains s.storage a.info.sto = false := by simp [contains, h]
  simp only [readArtifactPartitions, warm, M.run_bind, M.run_gets, hc, Bool.false_eq_true,
    if_false, M.run_lift]
  cases discover env s.files a.info.sto ifps with
  | error e => rfl
  | ok found =>
    simp only [writeArtifactPartitions, effect_none hb, h, Option.getD_none, get?_set, if_true,
      Option.getD_some, M.run_pure]
    rfl

/-- The world after a call, spelled out. -/
private theorem run_eq (s : St κ D) (hb : s.budget = none) (c : Call κ) :
    c.run env s = match c with
      | .readArtifactPartitions a ifps =>
        match get? s.storage a.info.sto, discover env s.files a.info.sto ifps with
        | none, .ok found => { s with storage := set s.storage a.info.sto (setUpdate [] found) }
        | _, _ => s
      | .writeArtifactPartitions a ps => { s with
          storage := set s.storage a.info.sto
            (setUpdate ((get? s.storage a.info.sto).getD []) ps) }
      | .writeGraph g => { s with graphs := set s.graphs (g.name, env.graphFp g) g }
      | .writeSnapshot σ =>
        { s with snapshots := set s.snapshots (σ.graph.name, env.snapshotFp σ) σ }
      | .writeSnapshotTag σ tag o =>
        if (get? s.tags (σ.graph.name, tag)).isSome && !o then s
        else { s with tags := set s.tags (σ.graph.name, tag) σ }
      | .writeSnapshotPartitions σ key ps => { s with
          links := set s.links (σ, key) (setUpdate ((get? s.links (σ, key)).getD []) ps) }
      | .writeArtifactAndGraphPartitions σ key a ps => { s with
          storage := set s.storage a.info.sto
            (setUpdate ((get? s.storage a.info.sto).getD []) ps)
          links := set s.links (σ, key) (setUpdate ((get? s.links (σ, key)).getD []) ps) }
      | .files fs => { s with files := fs }
      | _ => s := by
  cases c with
  | readArtifactPartitions a ifps =>
    simp only [Call.run]
    cases h : get? s.storage a.info.sto with
    | some ps => rw [read_known h]
    | none =>
      rw [read_unknown hb h]
      cases discover env s.files a.info.sto ifps <;> rfl
  | writeArtifactPartitions a ps => simp only [Call.run, writeArtifactPartitions, effect_none hb]
  | readGraph name fp =>
    simp only [Call.run, readGraph, M.run_bind, M.run_gets, M.need]
    split <;> rfl
  | writeGraph g => simp only [Call.run, writeGraph, effect_none hb]
  | readSnapshot name fp =>
    simp only [Call.run, readSnapshot, M.run_bind, M.run_gets, M.need]
    split <;> rfl
  | writeSnapshot σ => simp only [Call.run, writeSnapshot, effect_none hb]
  | readSnapshotTag name tag =>
    simp only [Call.run, readSnapshotTag, M.run_bind, M.run_gets, M.need]
    split <;> rfl
  | writeSnapshotTag σ tag o =>
    simp only [Call.run, writeSnapshotTag, M.run_bind, M.run_gets, M.raiseIf]
    cases (get? s.tags (σ.graph.name, tag)).isSome && !o with
    | true => rfl
    | false => simp only [Bool.false_eq_true, if_false, effect_none hb]
  | readSnapshotPartitions σ key => rfl
  | writeSnapshotPartitions σ key ps =>
    simp only [Call.run, writeSnapshotPartitions, effect_none hb]
  | writeArtifactAndGraphPartitions σ key a ps =>
    simp only [Call.run, writeArtifactAndGraphPartitions, M.run_bind, writeArtifactPartitions,
      effect_none hb, writeSnapshotPartitions]
    rw [effect_none (by exact hb)]
  | files fs => rfl

private theorem run_budget {s : St κ D} (hb : s.budget = none) (c : Call κ) :
    (c.run env s).budget = none := by
  rw [run_eq s hb]
  cases c with
  | readArtifactPartitions a ifps => simp only; split <;> exact hb
  | writeSnapshotTag σ tag o => simp only; split <;> exact hb
  | _ => exact hb

private theorem runCalls_budget {s : St κ D} (hb : s.budget = none) (cs : List (Call κ)) :
    (runCalls env s cs).budget = none := by
  induction cs generalizing s with
  | nil => exact hb
  | cons c cs ih => exact ih (run_budget hb c)

/-! ## C33 -/

private theorem tags_step {s : St κ D} (hb : s.budget = none) {m : Str → Str → Option Snapshot}
    (h : ∀ n t, get? s.tags (n, t) = m n t) (c : Call κ) (n t : Str) :
    get? (c.run env s).tags (n, t) = tagStep m c n t := by
  rw [run_eq s hb]
  cases c with
  | writeSnapshotTag σ tag o =>
    simp only [tagStep, h]
    by_cases hnt : n = σ.graph.name ∧ t = tag
    · obtain ⟨rfl, rfl⟩ := hnt
      cases ho : o <;> cases hm : m σ.graph.name t <;>
        simp [get?_set, h, hm]
    · have hk : ¬ ((σ.graph.name, tag) = (n, t)) := by
        intro e; simp only [Prod.mk.injEq] at e; exact hnt ⟨e.1.symm, e.2.symm⟩
      rw [if_neg (c := n = σ.graph.name ∧ t = tag ∧ (o = true ∨ m n t = none))
        (fun hc => hnt ⟨hc.1, hc.2.1⟩)]
      split
      · exact h n t
      · simp only [get?_set, if_neg hk, h]
  | readArtifactPartitions a ifps => simp only [tagStep]; split <;> exact h n t
  | _ => exact h n t

private theorem tags_after {s : St κ D} (hb : s.budget = none) {m : Str → Str → Option Snapshot}
    (h : ∀ n t, get? s.tags (n, t) = m n t) (cs : List (Call κ)) (n t : Str) :
    get? (runCalls env s cs).tags (n, t) = cs.foldl tagStep m n t := by
  induction cs generalizing s m with
  | nil => exact h n t
  | cons c cs ih => exact ih (run_budget hb c) (fun n t => tags_step hb h c n t)

/-- **C33.** After any calls of methods of the backend, reading a tag returns the snapshot of the
last accepted write of that tag, and raises if there is none; it changes nothing. -/
theorem C33_read_returns_last_accepted_write (files : PyDict Str Str) (cs : List (Call κ))
    (name tag : Str) :
    let s : St κ D := runCalls env (fresh files) cs
    readSnapshotTag name tag s = match tagsAfter cs name tag with
      | some σ => (.ok σ, s)
      | none => (.error .valueError, s) := by
  intro s
  have h : get? s.tags (name, tag) = tagsAfter cs name tag :=
    tags_after rfl (fun _ _ => rfl) cs name tag
  simp only [readSnapshotTag, M.run_bind, M.run_gets, h, M.need]
  cases tagsAfter cs name tag <;> rfl

/-- **C33.** Writing a tag is refused, with a `ValueError`, exactly if the tag exists and is not to
be overwritten; otherwise it is accepted. -/
theorem C33_write_refused_iff (files : PyDict Str Str) (cs : List (Call κ)) (σ : Snapshot)
    (tag : Str) (overwrite : Bool) :
    let s : St κ D := runCalls env (fresh files) cs
    ((writeSnapshotTag σ tag overwrite s).1 = .error .valueError ↔
      (∃ τ, tagsAfter cs σ.graph.name tag = some τ) ∧ overwrite = false) ∧
    ((writeSnapshotTag σ tag overwrite s).1 = .ok () ↔
      ¬ ((∃ τ, tagsAfter cs σ.graph.name tag = some τ) ∧ overwrite = false)) := by
  intro s
  have h : get? s.tags (σ.graph.name, tag) = tagsAfter cs σ.graph.name tag :=
    tags_after rfl (fun _ _ => rfl) cs _ tag
  have hb : s.budget = none := runCalls_budget rfl cs
  simp only [writeSnapshotTag, M.run_bind, M.run_gets, h, M.raiseIf]
  cases tagsAfter cs σ.graph.name tag <;> cases overwrite <;> simp [effect_none hb]

omit [DecidableEq κ] in
/-- **C33.** What last accepted means: a write of another tag or of a graph with another name
changes nothing, nor does any other call. -/
theorem C33_other_calls_do_not_matter (cs : List (Call κ)) (c : Call κ) (name tag : Str)
    (h : ∀ σ o, c ≠ .writeSnapshotTag σ tag o ∨ σ.graph.name ≠ name) :
    tagsAfter (cs ++ [c]) name tag = tagsAfter cs name tag := by
  simp only [tagsAfter, List.foldl_append, List.foldl_cons, List.foldl_nil]
  cases c with
  | writeSnapshotTag σ t o =>
    simp only [tagStep]
    rw [if_neg]
    rintro ⟨h1, h2, _⟩
    subst h1; subst h2
    rcases h σ o with h | h <;> exact h rfl
  | _ => rfl

/-! ## C35 -/

private theorem links_step {s : St κ D} (hb : s.budget = none) (c : Call κ) (σ : Snapshot)
    (key : Str) (x : PSnap κ) :
    x ∈ linksOf (c.run env s) σ key ↔ x ∈ linksOf s σ key ∨ Links σ key x c := by
  rw [run_eq s hb]
  cases c with
  | readArtifactPartitions a ifps => simp only [Links, or_false]; split <;> exact Iff.rfl
  | writeSnapshotTag σ tag o => simp only [Links, or_false]; split <;> exact Iff.rfl
  | writeSnapshotPartitions σ' key' ps =>
    simp only [Links, linksOf, get?_set]
    split
    · rename_i he
      simp only [Prod.mk.injEq] at he
      obtain ⟨rfl, rfl⟩ := he
      simp [mem_setUpdate]
    · rename_i he
      simp only [Prod.mk.injEq, not_and] at he
      constructor
      · exact .inl
      · rintro (h | ⟨rfl, rfl, _⟩)
        · exact h
        · exact absurd rfl (he rfl)
  | writeArtifactAndGraphPartitions σ' key' a ps =>
    simp only [Links, linksOf, get?_set]
    split
    · rename_i he
      simp only [Prod.mk.injEq] at he
      obtain ⟨rfl, rfl⟩ := he
      simp [mem_setUpdate]
    · rename_i he
      simp only [Prod.mk.injEq, not_and] at he
      constructor
      · exact .inl
      · rintro (h | ⟨rfl, rfl, _⟩)
        · exact h
        · exact absurd rfl (he rfl)
  | _ => simp only [Links, or_false] <;> exact Iff.rfl

private theorem links_after {s : St κ D} (hb : s.budget = none) (cs : List (Call κ))
    (σ : Snapshot) (key : Str) (x : PSnap κ) :
    x ∈ linksOf (runCalls env s cs) σ key ↔ x ∈ linksOf s σ key ∨ ∃ c ∈ cs, Links σ key x c := by
  induction cs generalizing s with
  | nil => simp [runCalls]
  | cons c cs ih =>
    show x ∈ linksOf (runCalls env (c.run env s) cs) σ key ↔ _
    rw [ih (run_budget hb c), links_step hb]
    simp only [List.mem_cons, exists_eq_or_imp, or_assoc]

/-- **C35.** After any calls, reading the partitions of a key of a snapshot returns exactly those
that were written for this key of this snapshot. -/
theorem C35_read_returns_exactly_what_was_linked (hi : IterOk env) (files : PyDict Str Str)
    (cs : List (Call κ)) (σ : Snapshot) (key : Str) :
    let s : St κ D := runCalls env (fresh files) cs
    ∃ ps, readSnapshotPartitions env σ key s = (.ok ps, s) ∧
      ∀ x, x ∈ ps ↔ ∃ c ∈ cs, Links σ key x c := by
  intro s
  refine ⟨_, rfl, fun x => ?_⟩
  rw [(hi.perm _).mem_iff]
  have := links_after (env := env) (s := fresh files) rfl cs σ key x
  unfold linksOf at this
  rw [this]
  simp [fresh]

/-! ## C34 -/

/-- The backend knows the same partitions as the ideal one. -/
private def Agree (s : St κ D) (m : Known κ) : Prop :=
  ∀ sto, match get? s.storage sto, m sto with
    | none, none => True
    | some ps, some P => ∀ x, x ∈ ps ↔ P x
    | _, _ => False

private theorem agree_add {s : St κ D} {m : Known κ} (h : Agree s m) (sto : Sto)
    (ps : List (PSnap κ)) :
    Agree { s with storage := set s.storage sto (setUpdate ((get? s.storage sto).getD []) ps) }
      (m.add sto ps) := by
  intro t
  simp only [get?_set, Known.add]
  by_cases ht : t = sto
  · subst ht
    simp only [if_true]
    intro x
    have := h t
    rw [mem_setUpdate]
    refine or_congr ?_ Iff.rfl
    cases hg : get? s.storage t <;> cases hm : m t <;> rw [hg, hm] at this
    · simp
    · exact this.elim
    · exact this.elim
    · simp [this x]
  · rw [if_neg (Ne.symm ht), if_neg ht]
    exact h t

private theorem agree_step {s : St κ D} (hb : s.budget = none) {m : Known κ} (h : Agree s m)
    (c : Call κ) : Agree (c.run env s) (knownStep env s m c) := by
  rw [run_eq s hb]
  cases c with
  | readArtifactPartitions a ifps =>
    simp only [knownStep]
    have ha := h a.info.sto
    cases hg : get? s.storage a.info.sto <;> cases hm : m a.info.sto <;> rw [hg, hm] at ha
    · cases discover env s.files a.info.sto ifps with
      | error e => exact h
      | ok found =>
        have := agree_add h a.info.sto found
        rw [hg, Option.getD_none] at this
        exact this
    · exact ha.elim
    · exact ha.elim
    · exact h
  | writeArtifactPartitions a ps => exact agree_add h _ _
  | writeArtifactAndGraphPartitions σ key a ps => exact agree_add h _ _
  | writeSnapshotTag σ tag o => simp only [knownStep]; split <;> exact h
  | _ => exact h

private theorem agree_after {s : St κ D} (hb : s.budget = none) {m : Known κ} (h : Agree s m)
    (cs : List (Call κ)) : Agree (runCalls env s cs) (knownAfter env s m cs) := by
  induction cs generalizing s m with
  | nil => exact h
  | cons c cs ih => exact ih (run_budget hb c) (agree_step hb h c)

private theorem mem_select (hi : IterOk env) (ifps : PyDict κ Fp) (ps : List (PSnap κ))
    (x : PSnap κ) : x ∈ select env ifps ps ↔ x ∈ ps ∧ Wanted ifps x := by
  unfold select Wanted
  rw [(hi.perm _).mem_iff]
  cases ifps with
  | nil => simp
  | cons y ys => simp

/-- **C34.** After any calls, reading the partitions of an artifact whose storage was read or
written before returns exactly the partitions that the ideal backend knows for the storage,
restricted to those asked for; if the storage was neither read nor written, it returns those that
are discovered now, or raises if discovery raises. -/
theorem C34_read_returns_exactly_what_is_known (hi : IterOk env) (files : PyDict Str Str)
    (cs : List (Call κ)) (a : Art) (ifps : PyDict κ Fp) :
    let s : St κ D := runCalls env (fresh files) cs
    match knownAfter env (fresh files) (fun _ => none) cs a.info.sto with
    | some P => ∃ ps, readArtifactPartitions env a ifps s = (.ok ps, s) ∧
        ∀ x, x ∈ ps ↔ P x ∧ Wanted ifps x
    | none => match discover env s.files a.info.sto ifps with
      | .error e => readArtifactPartitions env a ifps s = (.error e, s)
      | .ok found => ∃ ps, (readArtifactPartitions env a ifps s).1 = .ok ps ∧
        ∀ x, x ∈ ps ↔ x ∈ found ∧ Wanted ifps x := by
  intro s
  have hb : s.budget = none := runCalls_budget rfl cs
  have h := agree_after (env := env) (s := fresh files) rfl (m := fun _ => none)
    (fun sto => trivial) cs a.info.sto
  cases hm : knownAfter env (fresh files) (fun _ => none) cs a.info.sto with
  | some P =>
    rw [hm] at h
    cases hg : get? s.storage a.info.sto with
    | none => rw [show get? (runCalls env (fresh files) cs).storage _ = _ from hg] at h; exact h.elim
    | some ps =>
      rw [show get? (runCalls env (fresh files) cs).storage _ = _ from hg] at h
      refine ⟨_, read_known hg ifps, fun x => ?_⟩
      rw [mem_select hi, h x]
  | none =>
    rw [hm] at h
    cases hg : get? s.storage a.info.sto with
    | some ps =>
      rw [show get? (runCalls env (fresh files) cs).storage _ = _ from hg] at h; exact h.elim
    | none =>
      simp only [read_unknown hb hg]
      cases discover env s.files a.info.sto ifps with
      | error e => rfl
      | ok found =>
        refine ⟨_, rfl, fun x => ?_⟩
        rw [mem_select hi, mem_setUpdate]
        simp

/-! ## Builds only add (C33, C34, C35) -/

/-- A predicate that is kept by each effect of taking a snapshot. -/
private structure Grows (P : St κ D → Prop) : Prop where
  grow : ∀ σ, Grow σ P
  graphs : ∀ s x, P s → P { s with graphs := x }
  snapshots : ∀ s x, P s → P { s with snapshots := x }
  raws : ∀ s x, P s → P { s with raws := x }
  invs : ∀ s x, P s → P { s with invs := s.invs ++ x }

private theorem keeps_linkAll {P : St κ D → Prop} (h : Grows P) (σ : Snapshot)
    (known : PyDict Str (List (PSnap κ))) : M.Keeps P (linkAll σ known) := by
  induction known with
  | nil => exact M.Keeps.pure _
  | cons x known ih =>
    exact M.Keeps.bind (M.Keeps.need _ _) fun _ => M.Keeps.bind
      (M.Keeps.bind ((h.grow σ).writeArtifactPartitions _ _) fun _ =>
        (h.grow σ).writeSnapshotPartitions _ _) fun _ => ih

private theorem keeps_fromGraph {P : St κ D → Prop} (h : Grows P) (g : Graph) :
    M.Keeps P (fromGraph env g) :=
  M.Keeps.bind (M.Keeps.gets _) fun _ => M.Keeps.bind (M.Keeps.lift _) fun _ =>
    M.Keeps.bind (M.Keeps.ghost fun s hs => h.raws s _ hs) fun _ =>
    M.Keeps.bind (M.Keeps.effect (fun s hs => h.graphs s _ hs) (h.grow ⟨0, g⟩).budget) fun _ =>
    M.Keeps.bind (M.Keeps.effect (fun s hs => h.snapshots s _ hs) (h.grow ⟨0, g⟩).budget) fun _ =>
    M.Keeps.bind (keeps_linkAll h _ _) fun _ => M.Keeps.pure _

private theorem keeps_op {P : St κ D → Prop} (h : Grows P)
    (hf : ∀ s x, P s → P { s with files := x })
    (ht : ∀ s n t σ, P s → P { s with tags := set s.tags (n, t) σ })
    (op : HOp κ D) (hr : ∀ keep, op ≠ .restart keep) (s : St κ D) (hs : P s) :
    P (op.run env s) := by
  have hb := (h.grow ⟨0, ⟨[], [], []⟩⟩).budget
  cases op with
  | put path c => exact hf _ _ hs
  | del path => exact hf _ _ hs
  | writeRaw g i d pk view b =>
    exact (h.grow ⟨0, g⟩).write g (.inl rfl) _ _ _ _ _ _ (hb _ _ hs)
  | lookup a ifps => exact (h.grow ⟨0, ⟨[], [], []⟩⟩).readArtifactPartitions _ _ _ (hb _ _ hs)
  | snapshot g b => exact keeps_fromGraph h g _ (hb _ _ hs)
  | build g b =>
    exact M.Keeps.bind (keeps_fromGraph h g) (fun σ => M.Keeps.bind
      ((h.grow σ).build h.invs) fun _ => M.Keeps.pure _) _ (hb _ _ hs)
  | rebuild σ b => exact (h.grow σ).build h.invs _ (hb _ _ hs)
  | tag σ name o =>
    exact M.Keeps.bind (M.Keeps.gets _) (fun _ => M.Keeps.bind (M.Keeps.raiseIf _ _) fun _ =>
      M.Keeps.effect (fun s hs => ht s _ _ _ hs) hb) _ (hb _ _ hs)
  | restart keep => exact absurd rfl (hr keep)

private theorem mem_update {α β : Type} [DecidableEq α] [DecidableEq β] (d : PyDict α (List β))
    (k k' : α) (l : List β) (x : β) (h : x ∈ (get? d k').getD []) :
    x ∈ (get? (set d k (setUpdate ((get? d k).getD []) l)) k').getD [] := by
  rw [get?_set]
  split
  · rename_i he
    subst he
    exact (mem_setUpdate _ _ _).2 (.inl h)
  · exact h

/-- **C34.** Nothing that can happen while the backend lives, be it a write, a build, a snapshot or
an interruption, removes a partition from what is known of a storage. -/
theorem C34_nothing_is_removed (op : HOp κ D) (hr : ∀ keep, op ≠ .restart keep) (s : St κ D)
    (sto : Sto) (x : PSnap κ) (hx : x ∈ (get? s.storage sto).getD []) :
    x ∈ (get? (op.run env s).storage sto).getD [] := by
  refine keeps_op (P := fun s => x ∈ (get? s.storage sto).getD [])
    ⟨fun σ => ⟨fun _ _ => id, fun s t ps h => mem_update _ _ _ _ _ h, fun _ _ _ => id,
      fun _ _ _ => id, fun _ _ => id⟩, fun _ _ => id, fun _ _ => id, fun _ _ => id,
      fun _ _ => id⟩ (fun _ _ => id) (fun _ _ _ _ => id) op hr s hx

/-- **C35.** Nor does it remove a link. -/
theorem C35_nothing_is_unlinked (op : HOp κ D) (hr : ∀ keep, op ≠ .restart keep) (s : St κ D)
    (σ : Snapshot) (key : Str) (x : PSnap κ) (hx : x ∈ linksOf s σ key) :
    x ∈ linksOf (op.run env s) σ key := by
  refine keeps_op (P := fun s => x ∈ linksOf s σ key)
    ⟨fun σ => ⟨fun _ _ => id, fun _ _ _ => id, fun s t ps h => mem_update _ _ _ _ _ h,
      fun _ _ _ => id, fun _ _ => id⟩, fun _ _ => id, fun _ _ => id, fun _ _ => id,
      fun _ _ => id⟩ (fun _ _ => id) (fun _ _ _ _ => id) op hr s hx

/-- **C35.** Building a snapshot, even if it is interrupted or raises, does not change the links of
another snapshot. -/
theorem C35_other_snapshots_are_unaffected (s : St κ D) (σ τ : Snapshot) (hne : τ ≠ σ)
    (key : Str) : linksOf (World.build env σ s).2 τ key = linksOf s τ key := by
  refine Grow.build (P := fun s' => linksOf s' τ key = linksOf s τ key) (σ := σ)
    ⟨fun _ _ => id, fun _ _ _ => id, ?_, fun _ _ _ => id, fun _ _ => id⟩ (fun _ _ => id) s rfl
  intro s' k ps h
  rw [← h]
  unfold linksOf
  rw [get?_set, if_neg]
  intro he
  exact hne (Prod.mk.inj he).1.symm

/-- **C33.** Only tagging changes tags: not writes, snapshots, builds or interruptions. -/
theorem C33_only_tagging_changes_tags (op : HOp κ D) (hr : ∀ keep, op ≠ .restart keep)
    (ht : ∀ σ name o, op ≠ .tag σ name o) (s : St κ D) : (op.run env s).tags = s.tags := by
  have hg : Grows (κ := κ) (D := D) (fun s' => s'.tags = s.tags) :=
    ⟨fun σ => ⟨fun _ _ => id, fun _ _ _ => id, fun _ _ _ => id,
      fun _ _ _ => id, fun _ _ => id⟩, fun _ _ => id, fun _ _ => id, fun _ _ => id,
      fun _ _ => id⟩
  cases op with
  | tag σ name o => exact absurd rfl (ht σ name o)
  | put path c => rfl
  | del path => rfl
  | writeRaw g i d pk view b =>
    exact (hg.grow ⟨0, g⟩).write g (.inl rfl) d _ _ _ view { s with budget := b } rfl
  | lookup a ifps =>
    exact (hg.grow ⟨0, ⟨[], [], []⟩⟩).readArtifactPartitions a ifps { s with budget := none } rfl
  | snapshot g b => exact keeps_fromGraph hg g { s with budget := b } rfl
  | build g b =>
    exact M.Keeps.bind (keeps_fromGraph hg g) (fun σ => M.Keeps.bind
      ((hg.grow σ).build hg.invs) fun _ => M.Keeps.pure _) { s with budget := b } rfl
  | rebuild σ b => exact (hg.grow σ).build hg.invs { s with budget := b } rfl
  | restart keep => exact absurd rfl (hr keep)

/-! ## C36 -/

private theorem untouched {s : St κ D} {m : Known κ} {sto : Sto} (hm : m sto = none)
    (cs : List (Call κ)) (h : ∀ c ∈ cs, ¬ Touches sto c) : knownAfter env s m cs sto = none := by
  induction cs generalizing s m with
  | nil => exact hm
  | cons c cs ih =>
    refine ih ?_ fun c' hc' => h c' (List.mem_cons_of_mem _ hc')
    have hc := h c (by simp)
    cases c with
    | readArtifactPartitions a ifps =>
      rw [show knownStep env s m (.readArtifactPartitions a ifps) =
        match m a.info.sto, discover env s.files a.info.sto ifps with
        | none, .ok found => m.add a.info.sto found
        | _, _ => m from rfl]
      cases m a.info.sto <;> cases discover env s.files a.info.sto ifps <;>
        first
        | exact hm
        | (simp only [Known.add]; rw [if_neg (fun e => hc e.symm)]; exact hm)
    | writeArtifactPartitions a ps =>
      simp only [knownStep, Known.add]; rw [if_neg (fun e => hc e.symm)]; exact hm
    | writeArtifactAndGraphPartitions σ key a ps =>
      simp only [knownStep, Known.add]; rw [if_neg (fun e => hc e.symm)]; exact hm
    | _ => exact hm

/-- **C36**, for the first look at a storage since the backend was created: all partitions on disk
with the requested fingerprints are found.  Missing: later reads, for which it does not hold
(`C36_violated_after_another_read`, `C36_violated_by_a_needless_build`). -/
theorem C36_first_read_finds_existing_output_partial (hi : IterOk env) (files : PyDict Str Str)
    (cs : List (Call κ)) (a : Art) (ifps : PyDict κ Fp)
    (hfirst : ∀ c ∈ cs, ¬ Touches a.info.sto c) (found : List (PSnap κ))
    (hd : discover env (runCalls env (fresh files) cs : St κ D).files a.info.sto ifps = .ok found) :
    ∃ ps, (readArtifactPartitions env a ifps (runCalls env (fresh files) cs)).1 = .ok ps ∧
      ∀ x, x ∈ ps ↔ x ∈ found ∧ Wanted ifps x := by
  have := C34_read_returns_exactly_what_is_known (D := D) hi files cs a ifps
  have hn := untouched (env := env) (s := (fresh files : St κ D)) (m := fun _ => none) rfl cs hfirst
  rw [hn] at this
  simp only [hd] at this
  exact this

namespace Ex36
open Ex

def a : Art := .raw ⟨0, false, .file ⟨['a'], false⟩⟩
def b : Art := .made ⟨0, false, .file ⟨"b{input_fingerprint}".toList, false⟩⟩
  (.mk ['A'] ['1'] (.cons ['x'] a .nil)) 0
def g : Graph := ⟨['g'], [(['a'], a), (['b'], b)], []⟩

def files : PyDict Str Str := [("b#5".toList, ['u']), ("b#6".toList, ['v'])]

/-- The partition on disk for the fingerprint 6. -/
def sn : PSnap Nat := ⟨hash ['v'], ⟨b.info.sto, some 6, 0, .file "b#6".toList⟩⟩

/-- Build for one content of the raw file, build for another, restart, build again for the first
and go back to the second. -/
def s : St Nat Str := runOps Ex.env (fresh [(['a'], ['u'])])
  [.build g none, .put ['a'] ['w'], .build g none, .restart fun _ => true, .put ['a'] ['u'],
    .build g none, .put ['a'] ['w']]

end Ex36

/-- **C36** does not hold: after a read with the fingerprint 5, a read with the fingerprint 6 does
not find the partition that discovery finds on disk. -/
theorem C36_violated_after_another_read :
    let s : St Nat Str :=
      runCalls Ex.env (fresh Ex36.files) [.readArtifactPartitions Ex36.b [(0, 5)]]
    discover Ex.env s.files Ex36.b.info.sto [(0, 6)] = .ok [Ex36.sn] ∧
    (readArtifactPartitions Ex.env Ex36.b [(0, 6)] s).1 = .ok [] ∧
    (readArtifactPartitions Ex.env Ex36.b [(0, 6)] (fresh Ex36.files : St Nat Str)).1 =
      .ok [Ex36.sn] := by
  decide +kernel

/-- **C36** does not hold: in this history the last build calls `Producer.build` again although its
result is on disk: the build leaves the files as they were. -/
theorem C36_violated_by_a_needless_build :
    let r := graphBuild Ex.env Ex36.g Ex36.s
    r.1.isOk ∧ r.2.calls.length = Ex36.s.calls.length + 1 ∧ r.2.files = Ex36.s.files := by
  decide +kernel

/-! ### Concrete cases -/

/-- A tag is written, a second write is refused, a third overwrites. -/
example : let σ : Snapshot := ⟨1, Ex36.g⟩
    let τ : Snapshot := ⟨2, Ex36.g⟩
    let cs (o : Bool) : List (Call Nat) := [.writeSnapshotTag σ ['t'] false,
      .readSnapshotTag ['g'] ['u'], .writeSnapshotTag τ ['t'] o]
    (readSnapshotTag ['g'] ['t'] (runCalls Ex.env (fresh []) (cs false))).1 = .ok σ ∧
    (readSnapshotTag ['g'] ['t'] (runCalls Ex.env (fresh []) (cs true))).1 = .ok τ ∧
    tagsAfter (cs false) ['g'] ['t'] = some σ ∧ tagsAfter (cs true) ['g'] ['t'] = some τ := by
  decide +kernel

/-- The first read of a storage finds both partitions on disk. -/
example : ∃ ps, (readArtifactPartitions Ex.env Ex36.b [(0, 6)]
      (runCalls Ex.env (fresh Ex36.files) [.readSnapshotTag [] []] : St Nat Str)).1 = .ok ps ∧
    ∀ x, x ∈ ps ↔ x ∈ [Ex36.sn] ∧ Wanted [(0, 6)] x :=
  C36_first_read_finds_existing_output_partial Ex.iterOk _ _ _ _
    (by intro c hc; rw [List.mem_singleton.1 hc]; exact id) _ (by decide +kernel)

end Arti.Props
