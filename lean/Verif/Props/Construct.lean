import Verif.Lemmas.Construct
import Verif.Props.Layout

/-!
# Making artifacts (C61)
-/

namespace Arti.Props
open Arti PyDict Spec Fmt Stg Part Make Typ

theorem collected_some {α : Type} {x : Except Err α} {a : α} :
    collected x = .ok (some a) ↔ x = .ok a := by
  cases x with
  | ok b => simp [collected]
  | error e => cases e <;> simp [collected]

theorem resolveFields_two {v w : List (Str × Str)} : ∀ {fs gs : List (Str × Option Str)},
    (resolveFields v fs >>= resolveFields w) = .ok gs ↔
      List.Forall₂ (fun x y => x.1 = y.1 ∧ ((x.2 = none ∧ y.2 = none) ∨
        ∃ s s', x.2 = some s ∧ y.2 = some s' ∧ resolveAll s [v, w] = .ok s')) fs gs
  | [], gs => by
    rw [List.forall₂_nil_left_iff]
    exact ⟨fun h => by cases h; rfl, fun h => by rw [h]; rfl⟩
  | (n, none) :: fs, gs => by
    have ih := @resolveFields_two v w fs
    rw [resolveFields]
    constructor
    · intro h
      cases h1 : resolveFields v fs with
      | error _ => rw [h1] at h; cases h
      | ok fs' =>
        rw [h1] at h ih
        change resolveFields w ((n, none) :: fs') = _ at h
        rw [resolveFields] at h
        cases h2 : resolveFields w fs' with
        | error _ => rw [h2] at h; cases h
        | ok fs'' =>
          rw [h2] at h
          cases h
          exact .cons ⟨rfl, .inl ⟨rfl, rfl⟩⟩ (ih.1 h2)
    · intro h
      cases h with
      | @cons _ y _ ys h1 h2 =>
        obtain ⟨n', o⟩ := y
        obtain ⟨rfl, h1⟩ := h1
        rcases h1 with ⟨-, rfl⟩ | ⟨s, s', hs, -⟩
        · have := ih.2 h2
          cases h1 : resolveFields v fs with
          | error _ => rw [h1] at this; cases this
          | ok fs' =>
            rw [h1] at this
            change resolveFields w fs' = _ at this
            change resolveFields w ((_, none) :: fs') = _
            rw [resolveFields, this]
            rfl
        · cases hs
  | (n, some t) :: fs, gs => by
    have ih := @resolveFields_two v w fs
    rw [resolveFields]
    have e : ∀ t, resolveAll t [v, w] = (resolveField v t >>= resolveField w) := by
      intro t
      simp only [resolveAll]
      cases resolveField v t with
      | error _ => rfl
      | ok t' => cases h : resolveField w t' <;> simp [bind, Except.bind, h]
    constructor
    · intro h
      cases ht : resolveField v t with
      | error _ => rw [ht] at h; cases h
      | ok t' =>
        rw [ht] at h
        cases h1 : resolveFields v fs with
        | error _ => rw [h1] at h; cases h
        | ok fs' =>
          rw [h1] at h ih
          change resolveFields w ((n, some t') :: fs') = _ at h
          rw [resolveFields] at h
          cases ht' : resolveField w t' with
          | error _ => rw [ht'] at h; cases h
          | ok t'' =>
            rw [ht'] at h
            cases h2 : resolveFields w fs' with
            | error _ => rw [h2] at h; cases h
            | ok fs'' =>
              rw [h2] at h
              cases h
              exact .cons ⟨rfl, .inr ⟨t, t'', rfl, rfl, by rw [e, ht]; exact ht'⟩⟩ (ih.1 h2)
    · intro h
      cases h with
      | @cons _ y _ ys h1 h2 =>
        obtain ⟨n', o⟩ := y
        obtain ⟨rfl, h1⟩ := h1
        rcases h1 with ⟨hs, -⟩ | ⟨s, s', hs, rfl, hr⟩
        · cases hs
        · cases hs
          have := ih.2 h2
          rw [e] at hr
          cases ht : resolveField v t with
          | error _ => rw [ht] at hr; cases hr
          | ok t' =>
            rw [ht] at hr
            change resolveField w t' = _ at hr
            cases h1 : resolveFields v fs with
            | error _ => rw [h1] at this; cases this
            | ok fs' =>
              rw [h1] at this
              change resolveFields w fs' = _ at this
              change resolveFields w ((_, some t') :: fs') = _
              rw [resolveFields, hr, this]
              rfl

theorem fieldMade_iff {kt : KeyTypes} {ext : Str} {x y : Str × Option Str} :
    (x.1 = y.1 ∧ ((x.2 = none ∧ y.2 = none) ∨
        ∃ s s', x.2 = some s ∧ y.2 = some s' ∧
          resolveAll s [typeValues kt, formatValues ext] = .ok s')) ↔ FieldMade kt ext x y := by
  obtain ⟨n, a⟩ := x
  obtain ⟨n', b⟩ := y
  constructor
  · rintro ⟨h, h' | ⟨s, s', h1, h2, hr⟩⟩
    · obtain ⟨h1, h2⟩ := h'
      simp only at h h1 h2
      subst h h1 h2
      exact .other _
    · simp only at h h1 h2
      subst h h1 h2
      exact .text hr
  · intro h
    cases h with
    | other => exact ⟨rfl, .inl ⟨rfl, rfl⟩⟩
    | text h => exact ⟨rfl, .inr ⟨_, _, rfl, rfl, h⟩⟩

theorem validateStorage_iff {t : Ty} (hv : Valid t) {f : Make.Format} {s s' : Make.Storage} :
    validateStorage t (some f) s = .ok s' ↔
      ∃ kt, KeyTypesOf t kt ∧ s'.keyTypes = some kt ∧
        List.Forall₂ (FieldMade kt f.extension) s.fields s'.fields := by
  have two : ∀ kt, List.Forall₂ (FieldMade kt f.extension) s.fields s'.fields ↔
      (resolveFields (typeValues kt) s.fields >>= resolveFields (formatValues f.extension)) =
        .ok s'.fields := by
    intro kt
    rw [resolveFields_two]
    constructor
    · exact List.Forall₂.imp fun _ _ => fieldMade_iff.2
    · exact List.Forall₂.imp fun _ _ => fieldMade_iff.1
  have hform : validateStorage t (some f) s = (typesFrom t >>= fun kt =>
      (resolveFields (typeValues kt) s.fields >>= resolveFields (formatValues f.extension)) >>=
        fun fields => .ok ⟨fields, some kt⟩) := by
    unfold validateStorage Storage.visitType Storage.visitFormat Storage.resolve
    cases typesFrom t with
    | error _ => rfl
    | ok kt =>
      simp only [bind, Except.bind]
      cases resolveFields (typeValues kt) s.fields with
      | error _ => rfl
      | ok fs =>
        simp only [pure, Except.pure]
  rw [hform]
  constructor
  · intro h
    cases hk : typesFrom t with
    | error _ => rw [hk] at h; cases h
    | ok kt =>
      rw [hk] at h
      change ((resolveFields (typeValues kt) s.fields >>= resolveFields (formatValues f.extension))
        >>= fun fields => (.ok ⟨fields, some kt⟩ : Except Err Make.Storage)) = _ at h
      cases hr : (resolveFields (typeValues kt) s.fields >>=
        resolveFields (formatValues f.extension)) with
      | error _ => rw [hr] at h; cases h
      | ok fields =>
        rw [hr] at h
        cases h
        exact ⟨kt, (typesFrom_iff hv).1 hk, rfl, (two kt).2 hr⟩
  · rintro ⟨kt, hk, hs, hf⟩
    rw [(typesFrom_iff hv).2 hk]
    change ((resolveFields (typeValues kt) s.fields >>= resolveFields (formatValues f.extension))
        >>= fun fields => (.ok ⟨fields, some kt⟩ : Except Err Make.Storage)) = _
    rw [(two kt).1 hf]
    obtain ⟨fields, k⟩ := s'
    simp only at hs
    subst hs
    rfl

/-- An artifact is made exactly if its format accepts its type, the type can be partitioned as it
says and the texts of the storage resolve; its storage then has the key types of its type and the
resolved texts, and everything else is what was given, with the annotations and statistics of the
class before the given ones. -/
theorem C61_accepted_iff {A S : Type} (c : Cls A S) (t : Ty) (hv : Valid t) (f : Make.Format)
    (s : Make.Storage) (annotations : List A) (statistics : List S) (a : Artifact A S) :
    make c t f s (some annotations) (some statistics) = .ok a ↔
      f.accepts t = .ok () ∧ a.type = t ∧ a.format = f ∧
      (∃ kt, KeyTypesOf t kt ∧ a.storage.keyTypes = some kt ∧
        List.Forall₂ (FieldMade kt f.extension) s.fields a.storage.fields) ∧
      a.annotations = c.annotations ++ annotations ∧ a.statistics = c.statistics ++ statistics := by
  unfold make
  constructor
  · intro h
    cases hf : collected (validateFormat t f) with
    | error _ => rw [hf] at h; cases h
    | ok of =>
      rw [hf] at h
      simp only [bind, Except.bind] at h
      cases hs : collected (validateStorage t of s) with
      | error _ => rw [hs] at h; cases h
      | ok os =>
        rw [hs] at h
        cases of with
        | none => cases h
        | some f' =>
          cases os with
          | none => cases h
          | some s' =>
            cases h
            have h1 := collected_some.1 hf
            have h2 := collected_some.1 hs
            unfold validateFormat at h1
            cases ha : f.accepts t with
            | error _ => rw [ha] at h1; cases h1
            | ok u =>
              rw [ha] at h1
              cases h1
              exact ⟨rfl, rfl, rfl, (validateStorage_iff hv).1 h2, rfl, rfl⟩
  · rintro ⟨h1, h2, h3, h4, h5, h6⟩
    have hf : validateFormat t f = .ok f := by unfold validateFormat; rw [h1]; rfl
    rw [collected_some.2 hf]
    change (collected (validateStorage t (some f) s) >>= _) = _
    rw [collected_some.2 ((validateStorage_iff hv).2 h4)]
    obtain ⟨t', f', s', an, st⟩ := a
    simp only at h2 h3 h5 h6
    subst h2 h3 h5 h6
    rfl

/-- The types that can be partitioned as they say: those whose partition fields are dates, signed
integers or null. -/
theorem C61_partitionable_iff (t : Ty) (hv : Valid t) :
    (∃ kt, KeyTypesOf t kt) ↔ Partitionable t := by
  constructor
  · rintro ⟨kt, h⟩
    cases h with
    | plain h =>
      cases t with
      | collection n e p c m => exact absurd rfl (h _ _ _ _ _)
      | _ => trivial
    | collection h1 h2 =>
      intro x hx
      rw [← firsts_mem, ← h1] at hx
      obtain ⟨⟨x', cls⟩, hm, rfl⟩ := List.mem_map.1 hx
      obtain ⟨t, ht, hp⟩ := h2 _ _ hm
      exact ⟨t, cls, ht, hp⟩
  · intro h
    cases t with
    | collection n e p c m =>
      cases e with
      | struct sn fs sm =>
        have hall : ∀ x ∈ firsts p, ∃ t cls, (x, t) ∈ fs ∧ PartitionedBy t cls :=
          fun x hx => h x (firsts_mem.1 hx)
        have : ∀ l : List Str, (∀ x ∈ l, ∃ t cls, (x, t) ∈ fs ∧ PartitionedBy t cls) →
            ∃ kt : KeyTypes, keys kt = l ∧
              ∀ x cls, (x, cls) ∈ kt → ∃ t, (x, t) ∈ fs ∧ PartitionedBy t cls := by
          intro l
          induction l with
          | nil => exact fun _ => ⟨[], rfl, by simp⟩
          | cons y l ih =>
            intro hl
            obtain ⟨kt, h1, h2⟩ := ih fun x hx => hl x (List.mem_cons_of_mem _ hx)
            obtain ⟨t, cls, ht, hp⟩ := hl y List.mem_cons_self
            refine ⟨(y, cls) :: kt, by rw [← h1]; rfl, fun x c hx => ?_⟩
            rcases List.mem_cons.1 hx with he | hx
            · cases he; exact ⟨t, ht, hp⟩
            · exact h2 x c hx
        obtain ⟨kt, h1, h2⟩ := this _ hall
        exact ⟨kt, .collection h1 h2⟩
      | _ => exact absurd h id
    | _ => exact ⟨[], .plain (by simp)⟩

/-- A type has one tuple of key types. -/
theorem C61_key_types_unique (t : Ty) (hv : Valid t) (kt kt' : KeyTypes) (h : KeyTypesOf t kt)
    (h' : KeyTypesOf t kt') : kt = kt' := by
  have h1 := (typesFrom_iff hv).2 h
  have h2 := (typesFrom_iff hv).2 h'
  rw [h1] at h2
  cases h2
  rfl

theorem typesFrom_error {t : Ty} (hv : Valid t) {e : Err} (h : typesFrom t = .error e) :
    e = .keyError := by
  have hc : ∀ {items : List (Str × Ty)} {e : Err}, classItems items = .error e → e = .keyError := by
    intro items
    induction items with
    | nil => intro e h; cases h
    | cons x items ih =>
      intro e h
      obtain ⟨n, t⟩ := x
      rw [classItems] at h
      cases hx : classFor t with
      | error e' =>
        rw [hx] at h
        cases h
        cases t with
        | scalar s m => cases s <;> simp_all [classFor]
        | _ => simpa [classFor, eq_comm] using hx
      | ok c =>
        rw [hx] at h
        cases hr : classItems items with
        | error e' =>
          rw [hr] at h
          cases h
          exact ih hr
        | ok r => rw [hr] at h; cases h
  cases t with
  | collection n el p c m =>
    cases el with
    | struct sn fs sm =>
      simp only [Valid] at hv
      obtain ⟨items, hi⟩ := partitionItems_total hv.2.2.1
      change (partitionItems fs p >>= fun items => classItems (ofItems items)) = _ at h
      rw [hi] at h
      exact hc h
    | _ => simp [Valid] at hv
  | _ => cases h

/-- A type that is partitioned by a field of another type is not a validation error but a `KeyError`,
unless the format rejects it in another way first. -/
theorem C61_unpartitionable_is_a_key_error {A S : Type} (c : Cls A S) (t : Ty) (hv : Valid t)
    (ht : ¬ Partitionable t) (f : Make.Format)
    (hf : f.accepts t = .ok () ∨ f.accepts t = .error .valueError) (s : Make.Storage)
    (annotations : Option (List A)) (statistics : Option (List S)) :
    make c t f s annotations statistics = .error .keyError := by
  have hk : typesFrom t = .error .keyError := by
    cases h : typesFrom t with
    | ok kt => exact absurd ((C61_partitionable_iff t hv).1 ⟨kt, (typesFrom_iff hv).1 h⟩) ht
    | error e => rw [typesFrom_error hv h]
  have hs : ∀ o, validateStorage t o s = .error .keyError := by
    intro o
    unfold validateStorage Storage.visitType
    rw [hk]
    rfl
  unfold make validateFormat
  rcases hf with h | h <;> simp only [h, bind, Except.bind, pure, Except.pure, collected, hs]

/-- An artifact of a type that its format refuses cannot be made, and neither is the error of a format
whose type system does not know the type a validation error. -/
theorem C61_refused_formats {A S : Type} (c : Cls A S) (t : Ty) (f : Make.Format)
    (e : Err) (hf : f.accepts t = .error e) (s : Make.Storage) (annotations : Option (List A))
    (statistics : Option (List S)) :
    (∃ e', make c t f s annotations statistics = .error e') ∧
      (e ≠ .valueError → e ≠ .assertion → make c t f s annotations statistics = .error e) := by
  constructor
  · unfold make validateFormat
    rw [hf]
    simp only [bind, Except.bind]
    cases hc : collected (.error e : Except Err Make.Format) with
    | error e' => exact ⟨_, rfl⟩
    | ok o =>
      have ho : o = none := by
        cases e <;> simp [collected] at hc <;> exact hc.symm
      subst ho
      simp only
      cases collected (validateStorage t none s) with
      | error e' => exact ⟨_, rfl⟩
      | ok o => cases o <;> exact ⟨_, rfl⟩
  · intro h1 h2
    unfold make validateFormat
    rw [hf]
    have hc : collected (.error e : Except Err Make.Format) = .error e := by
      cases e <;> first | rfl | contradiction
    simp only [bind, Except.bind, hc]

/-! ## Using the same storage again -/

theorem step_again {V : PyDict Str (List Tok)} {N : List Str} (hN : ∀ n ∈ keys V, n ∈ N)
    (hnd : (keys V).Nodup) (hv : ∀ p ∈ V, valueOk N p.2 = true) {T U : List Tok}
    (h : step V T = .ok U) : step V U = .ok U := by
  have hV := vals_full (V := V) (N := N) hv
  unfold step at h
  split at h
  · cases h
  · rename_i hne
    injection h with h
    -- the template has none of the names any more
    have ha : avoids (keys V) U = true := by
      rw [← h]
      have hc := avoids_cut (empt V) T
      generalize cut (empt V) T = X at hc
      induction X with
      | nil => rfl
      | cons x X ih =>
        simp only [avoids, List.all_cons, Bool.and_eq_true] at hc
        have ih := ih hc.2
        cases x with
        | ch c =>
          rw [substT_ch]
          simpa [avoids] using ih
        | fld f =>
          rw [substT_fld]
          simp only [avoids, List.all_append, Bool.and_eq_true]
          refine ⟨?_, ih⟩
          cases hg : get? (full V) f.first with
          | some W =>
            exact avoids_mono (hV _ (get?_mem hg)).2.2.2.2.2 hN
          | none =>
            have hf : f.first ∉ empt V := by simpa using hc.1
            rw [get?_full hnd hf] at hg
            have := (get?_eq_none_iff _ _).1 hg
            simpa [avoids] using this
    have he : cut (empt V) U = U := by
      unfold cut
      split
      · rfl
      · rename_i hE
        rw [rem_avoids (avoids_mono ha fun n hn => mem_empt hn), ← h, rs_substT hV]
        congr 1
        unfold cut
        rw [if_neg hE, rs_rs]
    have hU : ¬ (empt V ≠ [] ∧ cut (empt V) U = []) := by
      rintro ⟨h1, h2⟩
      rw [he, ← h, substT_eq_nil hV] at h2
      exact hne ⟨h1, h2⟩
    unfold step
    rw [if_neg hU, he, substT_avoids]
    refine avoids_mono ha fun n hn => ?_
    exact (List.filter_sublist.map _).subset hn

/-- The storage of an artifact can be used for another artifact of the same type and format: it stays
as it is. -/
theorem C61_same_storage {A S A' S' : Type} (c : Cls A S) (c' : Cls A' S') (t : Ty) (hv : Valid t)
    (f : Make.Format) (s : Make.Storage) (an : List A) (st : List S) (an' : List A')
    (st' : List S') (a : Artifact A S)
    (hT : ∀ n path, (n, some path) ∈ s.fields →
      ∃ T, path = print T ∧ resolvable placeholderNames T = true)
    (hext : textOk f.extension = true)
    (hkeys : ∀ kt, KeyTypesOf t kt → ∀ n ∈ keys kt, keyNameOk n = true)
    (h : make c t f s (some an) (some st) = .ok a) :
    ∃ a', make c' t f a.storage (some an') (some st') = .ok a' ∧ a'.storage = a.storage := by
  obtain ⟨h1, h2, h3, ⟨kt, hkt, h4, h5⟩, h6, h7⟩ := (C61_accepted_iff c t hv f s an st a).1 h
  refine ⟨⟨t, f, a.storage, c'.annotations ++ an', c'.statistics ++ st'⟩,
    (C61_accepted_iff c' t hv f a.storage an' st' _).2 ⟨h1, rfl, rfl, ⟨kt, hkt, h4, ?_⟩, rfl, rfl⟩, rfl⟩
  have hnd : (keys kt).Nodup := by
    cases hkt with
    | plain => simp [keys]
    | collection hn _ => rw [hn]; exact firsts_nodup _
  obtain ⟨vs, g1, g2, g3, g4, -⟩ := resolutions_toks (kt := kt) (extension := f.extension)
    (graphName := []) (pathTags := []) (names := [])
    ⟨by simp, by decide, by simp, hext, hkeys kt hkt, hnd⟩ false
  have hsub : List.Sublist (vs.take 2).flatten vs.flatten := by
    have he : vs.flatten = (vs.take 2).flatten ++ (vs.drop 2).flatten := by
      rw [← List.flatten_append, List.take_append_drop]
    rw [he]
    exact List.sublist_append_left _ _
  have g1' : [typeValues kt, formatValues f.extension] = (vs.take 2).map texts := by
    rw [List.map_take, ← g1]
    rfl
  have g2' : (keys (vs.take 2).flatten).Nodup := (hsub.map Prod.fst).nodup g2
  have g3' : ∀ n ∈ keys (vs.take 2).flatten, n ∈ placeholderNames :=
    fun n hn => g3 n ((hsub.map Prod.fst).subset hn)
  have g4' : ∀ p ∈ (vs.take 2).flatten, valueOk placeholderNames p.2 = true :=
    fun p hp => g4 p (hsub.subset hp)
  have hnames : ∀ n ∈ placeholderNames, nameOk n = true := by decide +kernel
  have key : ∀ {x y}, x ∈ s.fields → FieldMade kt f.extension x y → FieldMade kt f.extension y y := by
    intro x y hx hxy
    cases hxy with
    | other => exact .other _
    | @text n path path' hr =>
      obtain ⟨T, rfl, hT⟩ := hT n path hx
      refine .text ?_
      rw [g1', resolveAll_print _ T placeholderNames g3' (fun n hn => hnames n (g3' n hn)) g2' hT g4']
        at hr
      cases hs : step (vs.take 2).flatten T with
      | error e => rw [hs] at hr; cases hr
      | ok U =>
        rw [hs] at hr
        simp only [Except.map, Except.ok.injEq] at hr
        subst hr
        rw [g1', resolveAll_print _ U placeholderNames g3' (fun n hn => hnames n (g3' n hn)) g2'
          (step_resolvable hT g4' hs) g4', step_again g3' g2' g4' hs]
        rfl
  have fin : ∀ {xs ys : List (Str × Option Str)}, (∀ x ∈ xs, x ∈ s.fields) →
      List.Forall₂ (FieldMade kt f.extension) xs ys →
      List.Forall₂ (FieldMade kt f.extension) ys ys := by
    intro xs ys hm h
    induction h with
    | nil => exact .nil
    | cons hxy _ ih =>
      exact .cons (key (hm _ List.mem_cons_self) hxy) (ih fun x hx => hm x (List.mem_cons_of_mem _ hx))
  exact fin (fun _ hx => hx) h5

/-! ## Where the files of an artifact are -/

/-- The values that the storage of an artifact is resolved with when the artifact is added to a graph
(`graphs/__init__.py:63-72`). -/
def addedWith (graphName : Str) (pathTags : PyDict Str Str) (names : List Str) (raw : Bool) :
    List (List (Str × Str)) :=
  [graphValues graphName pathTags, namesValues names] ++ if raw then [ifpValues none] else []

theorem resolveAll_append (s : Str) (v w : List (PyDict Str Str)) :
    resolveAll s (v ++ w) = (resolveAll s v >>= fun s => resolveAll s w) := by
  induction v generalizing s with
  | nil => rfl
  | cons x v ih =>
    simp only [List.cons_append, resolveAll]
    cases resolveField x s with
    | error _ => rfl
    | ok s' => exact ih s'

theorem foldlM_resolve {n path path' : Str} {kt : Option KeyTypes} (vs : List (List (Str × Str)))
    (h : resolveAll path vs = .ok path') :
    vs.foldlM Storage.resolve ⟨[(n, some path)], kt⟩ = .ok ⟨[(n, some path')], kt⟩ := by
  induction vs generalizing path with
  | nil => cases h; rfl
  | cons v vs ih =>
    rw [resolveAll] at h
    rw [List.foldlM_cons]
    cases hr : resolveField v path with
    | error _ => rw [hr] at h; cases h
    | ok p =>
      rw [hr] at h
      have : Storage.resolve ⟨[(n, some path)], kt⟩ v = .ok ⟨[(n, some p)], kt⟩ := by
        simp only [Storage.resolve, resolveFields, hr]
        rfl
      rw [this]
      exact ih h

/-- An artifact with `LocalFile`'s default template, of a type that can be partitioned as it says,
is made, can be added to every graph, and then has the file of each of its partitions where the
specification says. -/
theorem C61_default_location {A S : Type} (c : Cls A S) (t : Ty) (hv : Valid t) (kt : KeyTypes)
    (hkt : KeyTypesOf t kt) (f : Make.Format) (hf : f.accepts t = .ok ()) (dir : Str)
    (hdir : resolvable placeholderNames (defaultTmpl dir) = true) (an : List A) (st : List S)
    (graphName : Str) (pathTags : PyDict Str Str) (names : List Str)
    (h : TextsOk kt f.extension graphName pathTags names) (hg : graphName ≠ []) (hn : names ≠ [])
    (fp : Option Fp) (pk : PKey) (hc : Conforms kt pk) :
    ∃ a path,
      make c t f ⟨[("path".toList, some (dir ++
        ("/{graph_name}/{path_tags}/{names}/{partition_key_spec}/" ++
        "{input_fingerprint}/{name}{extension}").toList))], none⟩ (some an) (some st) = .ok a ∧
      (addedWith graphName pathTags names fp.isNone).foldlM Storage.resolve a.storage =
        .ok ⟨[("path".toList, some path)], some kt⟩ ∧
      genFile ⟨path, some kt⟩ fp pk = .ok ⟨fp, pk,
        below dir (segments graphName pathTags names kt pk fp f.extension)⟩ := by
  obtain ⟨path, h1, h2⟩ := C59_default_location dir hdir kt f.extension graphName pathTags names h hg
    hn fp pk hc
  have hsplit : resolutions kt f.extension graphName pathTags names fp.isNone =
      [typeValues kt, formatValues f.extension] ++ addedWith graphName pathTags names fp.isNone := rfl
  rw [hsplit, resolveAll_append] at h1
  cases hr : resolveAll (dir ++ ("/{graph_name}/{path_tags}/{names}/{partition_key_spec}/" ++
        "{input_fingerprint}/{name}{extension}").toList)
      [typeValues kt, formatValues f.extension] with
  | error _ => rw [hr] at h1; cases h1
  | ok p =>
    rw [hr] at h1
    refine ⟨⟨t, f, ⟨[("path".toList, some p)], some kt⟩, c.annotations ++ an, c.statistics ++ st⟩,
      path, ?_, foldlM_resolve _ h1, h2⟩
    exact (C61_accepted_iff c t hv f _ an st _).2 ⟨hf, rfl, rfl,
      ⟨kt, hkt, rfl, .cons (.text hr) .nil⟩, rfl, rfl⟩

/-! ## Annotations that are left out -/

/-- C61 is false for annotations that are left out: an artifact of a class with annotations of its
own then has them twice.  (The validator that puts those of the class in front also sees the default
value.) -/
theorem C61_violated_by_omitted_annotations {A S : Type} (c : Cls A S) (t : Ty) (f : Make.Format)
    (s : Make.Storage) (st : Option (List S)) (a : Artifact A S) (hc : c.annotations ≠ [])
    (h : make c t f s none st = .ok a) :
    a.annotations = c.annotations ++ c.annotations ∧ a.annotations ≠ c.annotations ∧
      ∃ a', make c t f s (some []) st = .ok a' ∧ a'.annotations = c.annotations := by
  unfold make at h ⊢
  cases hf : collected (validateFormat t f) with
  | error _ => rw [hf] at h; cases h
  | ok of =>
    rw [hf] at h
    simp only [bind, Except.bind] at h ⊢
    cases hs : collected (validateStorage t of s) with
    | error _ => rw [hs] at h; cases h
    | ok os =>
      rw [hs] at h
      cases of with
      | none => cases h
      | some f' =>
        cases os with
        | none => cases h
        | some s' =>
          cases h
          refine ⟨rfl, ?_, _, rfl, ?_⟩
          · simp [merged, hc]
          · simp [merged]

/-- Likewise, an artifact that is made with the annotations of another one of the class has those of
the class twice. -/
theorem C61_violated_by_copied_annotations {A S : Type} (c : Cls A S) (t : Ty) (hv : Valid t)
    (f : Make.Format) (s : Make.Storage) (an : List A) (st : List S) (a a' : Artifact A S)
    (h : make c t f s (some an) (some st) = .ok a)
    (h' : make c t f s (some a.annotations) (some st) = .ok a') :
    a'.annotations = c.annotations ++ (c.annotations ++ an) := by
  obtain ⟨-, -, -, -, h1, -⟩ := (C61_accepted_iff c t hv f s an st a).1 h
  obtain ⟨-, -, -, -, h2, -⟩ := (C61_accepted_iff c t hv f s a.annotations st a').1 h'
  rw [h2, h1]

/-! ## A storage that was already used -/

namespace Ex61

def m0 : Meta := {}
def fmt : Make.Format := ⟨fun _ => .ok (), ".json".toList⟩
def cls : Cls Nat Nat := ⟨[1, 2], []⟩
def store : Make.Storage := ⟨[("path".toList, some ("/tmp".toList ++
  ("/{graph_name}/{path_tags}/{names}/{partition_key_spec}/" ++
    "{input_fingerprint}/{name}{extension}").toList))], none⟩

def plainTy : Ty := .scalar .int64 m0
def byDate : Ty := .collection "c".toList (.struct "s".toList
  [("date".toList, .scalar .date m0), ("x".toList, .scalar .string m0)] m0)
  ["date".toList] [] m0

theorem valid : Valid byDate := by
  simp only [byDate, Valid]
  refine ⟨⟨by decide +kernel, ?_⟩, ?_, by decide +kernel, by simp, by simp⟩
  · simp [DistinctNamesF, DistinctNames]
  · simp [NoCollectionF, NoCollection]

def kt : KeyTypes := [("date".toList, .date)]

theorem types : KeyTypesOf byDate kt :=
  .collection (by decide +kernel) fun x c h => by
    simp only [kt, List.mem_singleton, Prod.mk.injEq] at h
    obtain ⟨rfl, rfl⟩ := h
    exact ⟨_, List.mem_cons_self, .date _⟩

/-- The storage of an artifact that is not partitioned. -/
def used : Make.Storage := ⟨[("path".toList, some
  "/tmp/{graph_name}/{path_tags}/{names}/{input_fingerprint}/{name}.json".toList)], some []⟩

theorem made : ∃ a, make cls plainTy fmt store (some []) (some []) = .ok a ∧ a.storage = used :=
  ⟨⟨plainTy, fmt, used, [1, 2], []⟩, (C61_accepted_iff cls plainTy (by simp [plainTy, Valid,
      DistinctNames, NoCollection]) fmt store [] [] _).2
    ⟨rfl, rfl, rfl, ⟨[], .plain (by simp [plainTy]), rfl, .cons (.text (by decide +kernel)) .nil⟩,
      rfl, rfl⟩, rfl⟩

theorem remade : ∃ a, make cls byDate fmt used (some []) (some []) = .ok a ∧
    a.storage = ⟨used.fields, some kt⟩ :=
  ⟨⟨byDate, fmt, ⟨used.fields, some kt⟩, [1, 2], []⟩, (C61_accepted_iff cls byDate valid fmt used [] []
    _).2 ⟨rfl, rfl, rfl, ⟨kt, types, rfl, .cons (.text (by decide +kernel)) .nil⟩, rfl, rfl⟩, rfl⟩

end Ex61

/-- C61 is false for storages that an artifact of another type was made with: the storage of an
artifact that is not partitioned is accepted for one that is partitioned by date, whose partitions
then all have the same file. -/
theorem C61_violated_by_reused_storage :
    ∃ (a b : Artifact Nat Nat) (path : Str),
      make Ex61.cls Ex61.plainTy Ex61.fmt Ex61.store (some []) (some []) = .ok a ∧
      make Ex61.cls Ex61.byDate Ex61.fmt a.storage (some []) (some []) = .ok b ∧
      (addedWith "g".toList [] ["y".toList] true).foldlM Storage.resolve b.storage =
        .ok ⟨[("path".toList, some path)], some Ex61.kt⟩ ∧
      ∀ pk, Conforms Ex61.kt pk →
        genFile ⟨path, some Ex61.kt⟩ none pk = .ok ⟨none, pk, "/tmp/g/y/y.json".toList⟩ := by
  obtain ⟨a, h1, h2⟩ := Ex61.made
  obtain ⟨b, h3, h4⟩ := Ex61.remade
  refine ⟨a, b, "/tmp/g/y/y.json".toList, h1, h2 ▸ h3, ?_, fun pk hpk => ?_⟩
  · rw [h4]
    exact foldlM_resolve _ (by decide +kernel)
  · have hl : "/tmp/g/y/y.json".toList = print (lit "/tmp/g/y/y.json".toList) := by decide +kernel
    rw [hl]
    refine genFile_of (by decide +kernel) (conforms_nil hpk) ?_ ?_
    · constructor
      · intro h; cases h
      · intro h
        simp [lit] at h
    · rw [strip_lit, render_lit]
      rfl

/-! ## Examples -/

namespace Ex61

theorem keysOk : ∀ kt', KeyTypesOf byDate kt' → ∀ n ∈ keys kt', keyNameOk n = true := by
  intro kt' h
  rw [C61_key_types_unique byDate valid kt' kt h types]
  decide +kernel

theorem storeOk : ∀ n path, (n, some path) ∈ store.fields →
    ∃ T, path = print T ∧ resolvable placeholderNames T = true := by
  intro n path h
  simp only [store, List.mem_singleton, Prod.mk.injEq, Option.some.injEq] at h
  exact ⟨defaultTmpl "/tmp".toList, by rw [defaultTmpl_print]; exact h.2, by decide +kernel⟩

theorem textsOk : TextsOk kt ".json".toList "g".toList [] ["y".toList] :=
  ⟨by decide +kernel, by decide +kernel, by simp, by decide +kernel, by decide +kernel, by decide +kernel⟩

def pk : PKey := [("date".toList, .date 2021 1 9)]

theorem conf : Conforms kt pk where
  nodup := by decide +kernel
  same := by simp [kt, pk, keys]
  cls := by
    intro k v h
    simp only [pk, List.mem_singleton, Prod.mk.injEq] at h
    obtain ⟨rfl, rfl⟩ := h
    decide +kernel
  valid := by
    intro k v h
    simp only [pk, List.mem_singleton, Prod.mk.injEq] at h
    obtain ⟨rfl, rfl⟩ := h
    show validDate 2021 1 9 = true
    decide

/-- An artifact that is partitioned by date is made, and its storage can be used again. -/
example : ∃ a a' : Artifact Nat Nat, make cls byDate fmt store (some [7]) (some []) = .ok a ∧
    a.annotations = [1, 2, 7] ∧
    make cls byDate fmt a.storage (some []) (some []) = .ok a' ∧ a'.storage = a.storage := by
  obtain ⟨a, path, h, -⟩ := C61_default_location cls byDate valid kt types fmt rfl "/tmp".toList
    (by decide +kernel) [7] [] "g".toList [] ["y".toList] textsOk (by decide) (by decide) none pk conf
  obtain ⟨a', h1, h2⟩ := C61_same_storage cls cls byDate valid fmt store [7] [] [] [] a storeOk
    (by decide +kernel) keysOk h
  exact ⟨a, a', h, ((C61_accepted_iff cls byDate valid fmt store [7] [] a).1 h).2.2.2.2.1, h1, h2⟩

/-- Its partition for 2021-01-09. -/
example : ∃ (a : Artifact Nat Nat) (path : Str),
    make cls byDate fmt store (some []) (some []) = .ok a ∧
    (addedWith "g".toList [] ["y".toList] false).foldlM Storage.resolve a.storage =
      .ok ⟨[("path".toList, some path)], some kt⟩ ∧
    genFile ⟨path, some kt⟩ (some 42) pk = .ok ⟨some 42, pk,
      "/tmp/g/y/date_Y=2021/date_m=01/date_d=09/42/y.json".toList⟩ := by
  obtain ⟨a, path, h1, h2, h3⟩ := C61_default_location cls byDate valid kt types fmt rfl "/tmp".toList
    (by decide +kernel) [] [] "g".toList [] ["y".toList] textsOk (by decide) (by decide) (some 42) pk conf
  refine ⟨a, path, h1, h2, ?_⟩
  rw [h3]
  decide +kernel

/-- Without annotations it has those of its class twice. -/
example (a : Artifact Nat Nat) (h : make cls byDate fmt store none (some []) = .ok a) :
    a.annotations = [1, 2, 1, 2] :=
  (C61_violated_by_omitted_annotations cls byDate fmt store (some []) a (by decide) h).1

/-- A collection that is partitioned by a text. -/
def byText : Ty := .collection "c".toList (.struct "s".toList
  [("x".toList, .scalar .string m0)] m0) ["x".toList] [] m0

example : make cls byText fmt store (some []) none = .error .keyError := by
  refine C61_unpartitionable_is_a_key_error cls byText ?_ ?_ fmt (.inl rfl) store _ _
  · simp only [byText, Valid]
    refine ⟨⟨by decide +kernel, ?_⟩, ?_, by decide +kernel, by simp, by simp⟩
    · simp [DistinctNamesF, DistinctNames]
    · simp [NoCollectionF, NoCollection]
  · intro h
    obtain ⟨t, c, h1, h2⟩ := h "x".toList (by simp)
    simp only [List.mem_singleton, Prod.mk.injEq, true_and] at h1
    subst h1
    cases h2

/-- A format whose type system does not know the type. -/
example : make cls byDate ⟨fun _ => .error .notImplemented, []⟩ store (some []) none =
    .error .notImplemented :=
  (C61_refused_formats cls byDate _ .notImplemented rfl store _ _).2 (by decide) (by decide)

end Ex61

end Arti.Props
