import Verif.Lemmas.Par

/-! Reasoning about a program while other programs add files. -/

namespace Arti.Par
open PyDict Spec Prog
variable {κ D α β : Type} [DecidableEq κ]

/-! ### Steps that do not access the files -/

/-- The code does not depend on the log and changes neither the log nor the files. -/
structure Calm (m : M κ D α) : Prop where
  blind : ∀ s l, m { s with invs := l } = ((m s).1, { (m s).2 with invs := l })
  files : ∀ s, (m s).2.files = s.files

omit [DecidableEq κ] in
theorem Calm.invs {m : M κ D α} (h : Calm m) (s : St κ D) : (m s).2.invs = s.invs := by
  have := congrArg (fun x => x.2.invs) (h.blind s s.invs)
  exact this

omit [DecidableEq κ] in
theorem Calm.pure (a : α) : Calm (pure a : M κ D α) := ⟨fun _ _ => rfl, fun _ => rfl⟩

omit [DecidableEq κ] in
theorem Calm.need (x : Option α) (e : Err) : Calm (M.need x e : M κ D α) := by
  cases x <;> exact ⟨fun _ _ => rfl, fun _ => rfl⟩

omit [DecidableEq κ] in
theorem Calm.gets {f : St κ D → α} (h : ∀ s l, f { s with invs := l } = f s) :
    Calm (M.gets f) := ⟨fun s l => by simp only [M.gets, h], fun _ => rfl⟩

omit [DecidableEq κ] in
theorem Calm.ghost {f : St κ D → St κ D}
    (h : ∀ s l, f { s with invs := l } = { f s with invs := l }) (hf : ∀ s, (f s).files = s.files) :
    Calm (M.ghost f) := ⟨fun s l => by unfold M.ghost; rw [h], hf⟩

omit [DecidableEq κ] in
theorem Calm.effect {f : St κ D → St κ D}
    (h : ∀ s l, f { s with invs := l } = { f s with invs := l }) (hf : ∀ s, (f s).files = s.files) :
    Calm (M.effect f) := by
  constructor
  · intro s l
    unfold M.effect
    rw [h]
    obtain ⟨_, _, _, _, _, _, b, _, _, _⟩ := s
    cases b with
    | none => rfl
    | some n => cases n <;> rfl
  · intro s
    simp only [M.effect]
    cases s.budget with
    | none => exact hf s
    | some n =>
      cases n with
      | zero => rfl
      | succ n => exact hf s

omit [DecidableEq κ] in
theorem Calm.bind {m : M κ D α} {g : α → M κ D β} (h : Calm m) (hg : ∀ a, Calm (g a)) :
    Calm (m >>= g) := by
  constructor
  · intro s l
    rw [M.run_bind, M.run_bind, h.blind]
    cases m s with
    | mk r s' =>
      cases r with
      | ok a => exact (hg a).blind s' l
      | error e => rfl
  · intro s
    rw [M.run_bind]
    have := h.files s
    revert this
    cases m s with
    | mk r s' =>
      intro h'
      cases r with
      | ok a => exact ((hg a).files s').trans h'
      | error e => exact h'

theorem calm_writeArtifactPartitions (a : Art) (ps : List (PSnap κ)) :
    Calm (World.writeArtifactPartitions a ps : M κ D Unit) :=
  .effect (fun _ _ => rfl) fun _ => rfl

theorem calm_writeSnapshotPartitions (σ : Snapshot) (k : Str) (ps : List (PSnap κ)) :
    Calm (World.writeSnapshotPartitions σ k ps : M κ D Unit) :=
  .effect (fun _ _ => rfl) fun _ => rfl

omit [DecidableEq κ] in
theorem calm_writeGraph (env : Env κ D) (g : Graph) : Calm (World.writeGraph env g) :=
  .effect (fun _ _ => rfl) fun _ => rfl

omit [DecidableEq κ] in
theorem calm_writeSnapshot (env : Env κ D) (σ : Snapshot) : Calm (World.writeSnapshot env σ) :=
  .effect (fun _ _ => rfl) fun _ => rfl

theorem calm_linkWritten (σ : Option Snapshot) (k : Str) (sn : PSnap κ) :
    Calm (World.linkWritten σ k sn : M κ D Unit) := by
  cases σ with
  | none => exact .pure ()
  | some σ => exact calm_writeSnapshotPartitions σ k [sn]

theorem calm_linkAll (σ : Snapshot) (l : PyDict Str (List (PSnap κ))) :
    Calm (World.linkAll σ l : M κ D Unit) := by
  induction l with
  | nil => exact .pure ()
  | cons x l ih =>
    exact .bind (.need _ _) fun a => .bind (.bind (calm_writeArtifactPartitions _ _) fun _ =>
      calm_writeSnapshotPartitions _ _ _) fun _ => ih

theorem calm_linkOutputs (σ : Snapshot) (l : List (Art × List (PSnap κ))) :
    Calm (World.linkOutputs σ l : M κ D Unit) := by
  induction l with
  | nil => exact .pure ()
  | cons x l ih =>
    exact .bind (.need _ _) fun a => .bind (calm_writeSnapshotPartitions _ _ _) fun _ => ih

omit [DecidableEq κ] in
theorem calm_getInputs (env : Env κ D) (σ : Snapshot) (l : List (Str × Art)) :
    Calm (World.getInputs env σ l) := by
  induction l with
  | nil => exact .pure _
  | cons x l ih =>
    exact .bind (.need _ _) fun a => .bind (.gets fun _ _ => rfl) fun _ => .bind ih fun _ => .pure _

/-! ### What others may do, and what this program may do -/

variable (env : Env κ D) (gs : Graph → Prop) (L : List (Inv κ D)) (I : PyDict Str Str → Prop)

/-- Produced files have the content that some dependency of the log gives. -/
def FilesOk (F : PyDict Str Str) : Prop :=
  ∀ sto, MadeSto gs sto → ∀ f pk part path b, World.generate env sto (some f) pk = .ok part →
    part.loc = .file path → get? F path = some b → Correct env gs L sto f pk b

/-- What others may do to the files. -/
structure Rely (F F' : PyDict Str Str) : Prop where
  sub : FSub F F'
  ok : FilesOk env gs L F'
  inv : I F'

/-- What a program may do to the files. -/
structure Guar (F F' : PyDict Str Str) : Prop where
  adds : Adds env gs F F'
  ok : FilesOk env gs L F'

/-- A state with the log of all programs. -/
def vw (s : St κ D) : St κ D := { s with invs := L }

/-- Whatever others do between the steps of the program, it only does what it may, and its result is
as claimed. -/
def Safe (Q : α → St κ D → Prop) : Prog κ D α → St κ D → Prop
  | .ret r, s => ∀ a, r = .ok a → ∀ F, Rely env gs L I s.files F → Q a (vw L { s with files := F })
  | .act f k, s => ∀ F, Rely env gs L I s.files F → (∀ e ∈ (f { s with files := F }).invs, e ∈ L) →
      Guar env gs L F (f { s with files := F }).files ∧
      Safe Q (k { s with files := F }) (f { s with files := F })

/-- A state in which a program may be. -/
structure Ok (s : St κ D) : Prop where
  invs : ∀ e ∈ s.invs, e ∈ L
  files : FilesOk env gs L s.files
  inv : I s.files

/-- If the precondition holds then the program is safe. -/
def PTri (P : St κ D → Prop) (p : Prog κ D α) (Q : α → St κ D → Prop) : Prop :=
  ∀ s, Ok env gs L I s → P (vw L s) → Safe env gs L I Q p s

/-- The predicate is kept when others act. -/
def Stable (P : St κ D → Prop) : Prop :=
  ∀ s F, s.invs = L → Rely env gs L I s.files F → P s → P { s with files := F }

variable {env gs L I}

theorem Ok.rely {s : St κ D} (h : Ok env gs L I s) : Rely env gs L I s.files s.files :=
  ⟨fun _ _ => id, h.files, h.inv⟩

theorem Rely.trans {F F' F'' : PyDict Str Str} (h : Rely env gs L I F F')
    (h' : Rely env gs L I F' F'') : Rely env gs L I F F'' :=
  ⟨fun p b hb => h'.sub p b (h.sub p b hb), h'.ok, h'.inv⟩

theorem Safe.rely {Q : α → St κ D → Prop} {p : Prog κ D α} {s : St κ D}
    (h : Safe env gs L I Q p s) {F : PyDict Str Str} (hF : Rely env gs L I s.files F) :
    Safe env gs L I Q p { s with files := F } := by
  cases p with
  | ret r => intro a ha F' hF'; exact h a ha F' (hF.trans hF')
  | act f k => intro F' hF' hi; exact h F' (hF.trans hF') hi

theorem Safe.bind (hI : ∀ F F', I F → Adds env gs F F' → I F') {Q : α → St κ D → Prop}
    {R : β → St κ D → Prop} {g : α → Prog κ D β}
    (hg : ∀ a s, Ok env gs L I s → Q a (vw L s) → Safe env gs L I R (g a) s) {p : Prog κ D α}
    {s : St κ D} (hs : Ok env gs L I s) (h : Safe env gs L I Q p s) :
    Safe env gs L I R (p >>= g) s := by
  show Safe env gs L I R (Prog.bind p g) s
  induction p generalizing s with
  | ret r =>
    cases r with
    | ok a => exact hg a s hs (h a rfl s.files hs.rely)
    | error e => intro a ha; cases ha
  | act f k ih =>
    intro F hF hi
    obtain ⟨h1, h2⟩ := h F hF hi
    exact ⟨h1, ih _ ⟨hi, h1.ok, hI F _ hF.inv h1.adds⟩ h2⟩

section
variable {P P' : St κ D → Prop} {Q : α → St κ D → Prop} {R : β → St κ D → Prop}

theorem PTri.bind (hI : ∀ F F', I F → Adds env gs F F' → I F') {p : Prog κ D α}
    {g : α → Prog κ D β} (h : PTri env gs L I P p Q) (hg : ∀ a, PTri env gs L I (Q a) (g a) R) :
    PTri env gs L I P (p >>= g) R :=
  fun s hs hp => Safe.bind hI (fun a s => hg a s) hs (h s hs hp)

theorem PTri.pure {a : α} (hQ : Stable env gs L I (Q a)) (h : ∀ s, s.invs = L → P s → Q a s) :
    PTri env gs L I P (pure a) Q := by
  intro s hs hp b hb F hF
  cases hb
  exact hQ (vw L s) F rfl hF (h _ rfl hp)

theorem PTri.lift_bind {x : Except Err α} {g : α → Prog κ D β}
    (h : ∀ a, x = .ok a → PTri env gs L I P (g a) R) : PTri env gs L I P (lift x >>= g) R := by
  cases x with
  | ok a => exact h a rfl
  | error e => intro s hs hp b hb; cases hb

theorem PTri.lift {x : Except Err α} (hQ : ∀ a, Stable env gs L I (Q a))
    (h : ∀ a, x = .ok a → ∀ s, s.invs = L → P s → Q a s) : PTri env gs L I P (lift x) Q := by
  cases x with
  | ok a => exact PTri.pure (hQ a) (h a rfl)
  | error e => intro s hs hp b hb; cases hb

theorem PTri.need_bind {x : Option α} {e : Err} {g : α → Prog κ D β}
    (h : ∀ a, x = some a → PTri env gs L I P (g a) R) : PTri env gs L I P (need x e >>= g) R := by
  cases x with
  | some a => exact h a rfl
  | none => intro s hs hp b hb; cases hb

theorem PTri.raiseIf_bind {b : Bool} {e : Err} {g : Unit → Prog κ D β}
    (h : b = false → PTri env gs L I P (g ()) R) : PTri env gs L I P (raiseIf b e >>= g) R := by
  cases b with
  | false => exact h rfl
  | true => intro s hs hp b hb; cases hb

theorem PTri.atom {E : St κ D → Prop} {m : M κ D α} (hc : Calm m) (hP : Stable env gs L I P)
    (hQ : ∀ a, Stable env gs L I (Q a)) (h : M.Tri P m Q E) : PTri env gs L I P (atom m) Q := by
  intro s hs hp F hF hi
  have hf := hc.files { s with files := F }
  have hp' := hP (vw L s) F rfl hF hp
  have h' := h _ hp'
  have hb := hc.blind { s with files := F } L
  have heq : (vw L { s with files := F } : St κ D) = { vw L s with files := F } := rfl
  refine ⟨?_, ?_⟩
  · show Guar env gs L F (m { s with files := F }).2.files
    rw [hf]
    exact ⟨⟨fun _ _ => id, fun _ h => .inl h⟩, hF.ok⟩
  · intro a ha F' hF'
    have hF'' : Rely env gs L I (vw L (m { s with files := F }).2).files F' := hF'
    refine hQ a (vw L (m { s with files := F }).2) F' rfl hF'' ?_
    rw [← heq, show vw L { s with files := F } = { ({ s with files := F } : St κ D) with invs := L }
      from rfl, hb] at h'
    rw [show (m { s with files := F }).1 = .ok a from ha] at h'
    exact h'

theorem PTri.conseq {Q' : α → St κ D → Prop} {p : Prog κ D α} (h : PTri env gs L I P p Q)
    (hp : ∀ s, s.invs = L → P' s → P s) (hq : ∀ a s, s.invs = L → Q a s → Q' a s) :
    PTri env gs L I P' p Q' := by
  intro s hs hp'
  have := h s hs (hp _ rfl hp')
  clear hp' hs h
  induction p generalizing s with
  | ret r => intro a ha F hF; exact hq a _ rfl (this a ha F hF)
  | act f k ih =>
    intro F hF hi
    obtain ⟨h1, h2⟩ := this F hF hi
    exact ⟨h1, ih _ _ h2⟩

/-- Continue relative to the state that was reached. -/
theorem PTri.base {R' : St κ D → St κ D → Prop} {p : Prog κ D α}
    (h : ∀ s, s.invs = L → P s → PTri env gs L I (R' s) p Q) (hr : ∀ s, P s → R' s s) :
    PTri env gs L I P p Q :=
  fun s hs hp => h (vw L s) rfl hp s hs (hr _ hp)

theorem Stable.and {P' : St κ D → Prop} (h : Stable env gs L I P) (h' : Stable env gs L I P') :
    Stable env gs L I fun s => P s ∧ P' s :=
  fun s F hi hF hp => ⟨h s F hi hF hp.1, h' s F hi hF hp.2⟩

/-- What does not depend on the files is stable. -/
theorem Stable.const (h : ∀ s F, P s → P { s with files := F }) : Stable env gs L I P :=
  fun s F _ _ hp => h s F hp

/-- What is kept when files are added is stable. -/
theorem Stable.sub (h : ∀ s F, FSub s.files F → P s → P { s with files := F }) :
    Stable env gs L I P := fun s F _ hF hp => h s F hF.sub hp

theorem Stable.winv : Stable env gs L I (WInv env gs) := by
  intro s F hi hF h
  refine ⟨?_, ?_⟩
  · intro sto hm f pk part path b h1 h2 h3
    show Correct env gs s.invs sto f pk b
    rw [hi]
    exact hF.ok sto hm f pk part path b h1 h2 h3
  · intro sto hm ss hss sn hsn
    exact (h.store sto hm ss hss sn hsn).mono hF.sub fun _ => id

theorem Stable.linv {E : Snapshot → PyDict Str (Data κ) → Art → PSnap κ → Prop} :
    Stable env gs L I (LInv E : St κ D → Prop) := .const fun _ _ h => ⟨h.nodup, h.ok⟩

theorem Stable.j {E : Snapshot → PyDict Str (Data κ) → Art → PSnap κ → Prop} {s1 : St κ D} :
    Stable env gs L I (J E env gs s1) := fun s F hi hF h =>
  ⟨Stable.winv s F hi hF h.w, Stable.linv s F hi hF h.l,
    ⟨fun p b hb => hF.sub p b (h.e.files p b hb), h.e.storage, h.e.links, h.e.invs, h.e.raws⟩⟩

/-- Logging dependencies. -/
theorem PTri.log (hP : Stable env gs L I P) {f : St κ D → List (Inv κ D)}
    (hf : ∀ s l, f { s with invs := l } = f s) :
    PTri env gs L I P (Prog.atom (M.ghost fun s => { s with invs := s.invs ++ f s }))
      (fun _ s => P s ∧ ∃ s0, P s0 ∧ FSub s0.files s.files ∧ ∀ e ∈ f s0, e ∈ L) := by
  intro s hs hp F hF hi
  have hp' := hP (vw L s) F rfl hF hp
  refine ⟨⟨⟨fun _ _ => id, fun _ h => .inl h⟩, hF.ok⟩, ?_⟩
  intro a ha F' hF'
  refine ⟨hP { vw L s with files := F } F' rfl hF' hp', { vw L s with files := F }, hp', hF'.sub, ?_⟩
  intro e he
  refine hi e (List.mem_append.2 (.inr ?_))
  have := hf { s with files := F } L
  rw [show ({ vw L s with files := F } : St κ D) =
    { ({ s with files := F } : St κ D) with invs := L } from rfl, this] at he
  exact he

end
end Arti.Par
