import Verif.Lemmas.ThreadSys

/-!
# C74: threads that share a backend

Threads `calls1` use a new memory backend; later, threads `calls2` use it.  Both sets of threads may be
of any size (with `calls1 = []` the second threads use a new backend), each thread may make any calls,
and the steps of the calls may be interleaved in any order.
-/

namespace Arti.Props
open Arti PyDict Spec Thr

section
variable {K P V : Type} [DecidableEq K] [DecidableEq P]
  {calls1 calls2 : List (List (Call K P V))} {sched1 sched2 : List Nat} {s1 s2 : Sys K P V}
  {i j n : Nat} {c : Call K P V} {r : Res P V}

private theorem slotPath_inj {x y : Slot K} (h : slotPath x = slotPath y) : x = y := by
  cases x <;> cases y <;> simp_all [slotPath]

/-- C74: whatever a read returns matches the filter, and somebody had begun to write it for the same
storage (or the same artifact of the same snapshot), or had found it in the storage, before the read
returned. -/
theorem C74_reads_return_only_what_was_written
    (h1 : run (start fresh calls1) sched1 = s1) (h2 : run (start s1.heap calls2) sched2 = s2)
    {l : List P} (hj : s2.log[j]? = some (.returned i c n (.found l)))
    {x : Slot K} {f : P → Bool} (hx : Reads c x f) :
    ∀ p ∈ l, f p = true ∧ Offered (s1.log ++ s2.log.take j) x p := by
  intro p hp
  obtain ⟨-, w0, w', -, hA, -, hpost⟩ := (inv_two h1 h2).rets j i c n _ hj
  rcases hpost.reads x f hx with ⟨h, -⟩ | ⟨l', h, hl, -⟩
  · cases h
  · cases h
    refine ⟨(hl p hp).1, ?_⟩
    have := (hl p hp).2
    rw [hA] at this
    obtain ⟨y, hy, ho⟩ := this
    exact slotPath_inj hy ▸ ho

/-- C74, if the backend knows the storage (or the artifact of the snapshot) when the threads are
started: a read returns all matching partitions that were there then, and all matching ones that
were written by calls that returned before the read began.  Without the hypothesis this is false, see
`C74_violated_by_first_writes`. -/
theorem C74_reads_find_what_was_written_partial
    (h1 : run (start fresh calls1) sched1 = s1) (h2 : run (start s1.heap calls2) sched2 = s2)
    {l : List P} (hj : s2.log[j]? = some (.returned i c n (.found l)))
    {x : Slot K} {f : P → Bool} (hx : Reads c x f) {ps : List P} (hk : contents s1.heap x = some ps) :
    ∀ p, (p ∈ ps ∨ Written (s2.log.take n) x p) → f p = true → p ∈ l := by
  intro p hp hf
  obtain ⟨-, w0, w', hb, -, -, hpost⟩ := (inv_two h1 h2).rets j i c n _ hj
  rw [knownRef_iff, Option.map_eq_some_iff] at hk
  obtain ⟨q, hq, rfl⟩ := hk
  rcases hpost.reads x f hx with ⟨h, -⟩ | ⟨l', h, -, hl⟩
  · cases h
  · cases h
    exact hl q hq p (hb.sets x q hq p hp) hf

/-- C74: writing partitions always succeeds; reading them succeeds, too, unless it is asked for some
input fingerprints only. -/
theorem C74_calls_succeed_partial
    (h1 : run (start fresh calls1) sched1 = s1) (h2 : run (start s1.heap calls2) sched2 = s2)
    (hj : s2.log[j]? = some (.returned i c n r)) :
    (∀ x ps, Writes c x ps → r = .done) ∧
    (∀ x f, Reads c x f → (∃ l, r = .found l) ∨
      r = .runtimeError ∧ ∃ sto found g, c = .readArtifact sto found (some g)) := by
  obtain ⟨-, w0, w', -, -, -, hpost⟩ := (inv_two h1 h2).rets j i c n _ hj
  refine ⟨fun x ps hx => (hpost.writes x ps hx).1, fun x f hx => ?_⟩
  rcases hpost.reads x f hx with h | ⟨l, h, -⟩
  · exact .inr h
  · exact .inl ⟨l, h⟩

private theorem place_inj {y z : Place K} (h : (rootOf y, [nameOf y]) = (rootOf z, [nameOf z]))
    (hk : keyOf y = keyOf z) : y = z := by
  cases y <;> cases z <;> simp_all [rootOf, nameOf, keyOf]

/-- C74: a graph, a snapshot or a tagged snapshot that is read was put at that very place by somebody;
putting something is refused only for a tag that somebody had begun to set, if the call does not
overwrite. -/
theorem C74_what_is_read_was_put_there
    (h1 : run (start fresh calls1) sched1 = s1) (h2 : run (start s1.heap calls2) sched2 = s2)
    (hj : s2.log[j]? = some (.returned i c n r)) {y : Place K} :
    (∀ v, Gets c y → r = .got v → PutBegun (s1.log ++ s2.log.take j) y v) ∧
    (∀ v, Puts c y v → r = .done ∨
      r = .valueError ∧ (∃ name tag, c = .writeTag name tag v false) ∧
        ∃ v', PutBegun (s1.log ++ s2.log.take j) y v') := by
  obtain ⟨-, w0, w', -, -, hB, hpost⟩ := (inv_two h1 h2).rets j i c n _ hj
  have key : ∀ v, w'.B (rootOf y, [nameOf y]) (keyOf y) v → PutBegun (s1.log ++ s2.log.take j) y v := by
    intro v hv
    rw [hB] at hv
    obtain ⟨z, hz, hk, hp⟩ := hv
    exact place_inj hz hk ▸ hp
  refine ⟨fun v hc hr => ?_, fun v hc => ?_⟩
  · rcases hpost.gets y hc with ⟨v', h, hv⟩ | ⟨h | h, -⟩
    · cases hr.symm.trans h
      exact key v hv
    · cases hr.symm.trans h
    · cases hr.symm.trans h
  · rcases hpost.puts y v hc with ⟨h, -⟩ | ⟨h, ho, v', hv⟩
    · exact .inl h
    · exact .inr ⟨h, ho, v', key v' hv⟩

/-- C74, if the backend knows the graph's name when the threads are started: what was put at a place
before, or by a call that returned before the read began, is found. -/
theorem C74_what_was_put_is_found_partial
    (h1 : run (start fresh calls1) sched1 = s1) (h2 : run (start s1.heap calls2) sched2 = s2)
    (hj : s2.log[j]? = some (.returned i c n r)) {y : Place K} (hy : Gets c y) (hk : knows s1.heap y)
    (hp : (at? s1.heap y).isSome ∨ PutDone (s2.log.take n) y) : ∃ v, r = .got v := by
  obtain ⟨-, w0, w', hb, -, -, hpost⟩ := (inv_two h1 h2).rets j i _ n _ hj
  obtain ⟨q, hq, ha⟩ : ∃ q, entry s1.heap (rootOf y) (nameOf y) = some q ∧
      at? s1.heap y = value s1.heap q (keyOf y) := by
    cases y with
    | tag a b =>
      obtain ⟨q, hq⟩ := Option.isSome_iff_exists.1 hk
      exact ⟨q, hq, by rw [at?, hq]; rfl⟩
    | graph a b =>
      obtain ⟨q, hq⟩ := Option.isSome_iff_exists.1 hk
      exact ⟨q, hq, by rw [at?, hq]; rfl⟩
    | snapshot a b =>
      obtain ⟨q, hq⟩ := Option.isSome_iff_exists.1 hk
      exact ⟨q, hq, by rw [at?, hq]; rfl⟩
  rw [ha] at hp
  rcases hpost.gets y hy with ⟨v, h, -⟩ | ⟨-, h⟩
  · exact ⟨v, h⟩
  · have := hb.places y q hq hp
    rw [h q hq] at this
    cases this

end

/-! ## What can go wrong -/

/-- Two threads write the first partitions of a storage.  One of them makes the set of partitions
after the other one has looked for it, and puts it in place of the other one's set. -/
theorem C74_violated_by_first_writes :
    ∃ (calls : List (List (Call Nat Nat Nat))) (sched : List Nat) (s : Sys Nat Nat Nat)
      (i j n p : Nat) (c : Call Nat Nat Nat) (l : List Nat) (x : Slot Nat) (f : Nat → Bool),
      run (start fresh calls) sched = s ∧ s.log[j]? = some (.returned i c n (.found l)) ∧
      Reads c x f ∧ Written (s.log.take n) x p ∧ f p = true ∧ p ∉ l :=
  ⟨[[.writeArtifact 0 [1]], [.writeArtifact 0 [2], .readArtifact 0 [] none]],
    [0, 0, 1, 1, 1, 1, 1, 1, 0, 0, 0, 0, 1, 1, 1, 1, 1], _, 1, 5, 4, 2, .readArtifact 0 [] none, [1],
    .storage 0, fun _ => true, rfl, rfl, .all 0 [],
    ⟨1, .writeArtifact 0 [2], 1, [2], .tail _ (.tail _ (.head _)), .artifact 0 [2], by simp⟩, rfl,
    by simp⟩

/-- Two threads set the same tag to different snapshots, without overwriting, and both succeed. -/
theorem C74_violated_by_tags_that_are_set_at_once :
    ∃ (calls : List (List (Call Nat Nat Nat))) (sched : List Nat) (i i' n n' v v' : Nat),
      i ≠ i' ∧ v ≠ v' ∧
      .returned i (.writeTag 0 0 v false) n .done ∈ (run (start fresh calls) sched).log ∧
      .returned i' (.writeTag 0 0 v' false) n' .done ∈ (run (start fresh calls) sched).log :=
  ⟨[[.writeTag 0 0 7 false], [.writeTag 0 0 8 false]],
    [0, 0, 0, 0, 0, 1, 1, 1, 1, 1, 1, 0, 0, 0], 1, 0, 1, 0, 8, 7, by decide, by decide,
    .tail _ (.tail _ (.head _)), .tail _ (.tail _ (.tail _ (.head _)))⟩

/-- Two threads write the first graphs of a name, and one of them is lost: reading it raises
`KeyError`. -/
theorem C74_violated_by_first_graphs :
    ∃ (calls : List (List (Call Nat Nat Nat))) (sched : List Nat) (s : Sys Nat Nat Nat)
      (i j n : Nat) (c : Call Nat Nat Nat) (y : Place Nat),
      run (start fresh calls) sched = s ∧ s.log[j]? = some (.returned i c n .keyError) ∧
      Gets c y ∧ PutDone (s.log.take n) y :=
  ⟨[[.writeGraph 0 1 7], [.writeGraph 0 2 8, .readGraph 0 2]],
    [0, 0, 1, 1, 1, 1, 1, 1, 0, 0, 0, 0, 1, 1, 1, 1], _, 1, 5, 4, .readGraph 0 2, .graph 0 2, rfl, rfl,
    .graph 0 2, 1, .writeGraph 0 2 8, 1, 8, .tail _ (.tail _ (.head _)), .graph 0 2 8⟩

/-- A read that is asked for some input fingerprints raises `RuntimeError` because another thread
adds a partition. -/
theorem C74_violated_by_a_write_during_a_read :
    ∃ (calls : List (List (Call Nat Nat Nat))) (sched : List Nat) (i n : Nat) (f : Nat → Bool),
      .returned i (.readArtifact 0 [] (some f)) n .runtimeError ∈
        (run (start fresh calls) sched).log :=
  ⟨[[.readArtifact 0 [] (some fun _ => true)], [.writeArtifact 0 [2]]],
    [0, 0, 0, 0, 0, 0, 0, 1, 1, 1, 1, 0, 0], 0, 0, fun _ => true,
    .tail _ (.tail _ (.tail _ (.head _)))⟩

/-! ## Examples -/

/-- A storage that is known; then two threads write to it while a third one, which begins when the
first is done, reads. -/
example : ∃ (s1 s2 : Sys Nat Nat Nat) (ps l : List Nat),
    run (start fresh [[.writeArtifact 0 [1]]]) [0, 0, 0, 0, 0, 0] = s1 ∧
    run (start s1.heap [[.writeArtifact 0 [2, 3]], [.writeArtifact 0 [4, 5]],
      [.readArtifact 0 [] (some fun p => p != 3)]])
      [0, 0, 1, 1, 0, 1, 0, 0, 2, 2, 2, 2, 2, 2, 1, 1] = s2 ∧
    contents s1.heap (.storage 0) = some ps ∧ ps = [1] ∧
    s2.log[4]? = some (.returned 2 (.readArtifact 0 [] (some fun p => p != 3)) 3 (.found l)) ∧
    l = [1, 2, 4] ∧ Written (s2.log.take 3) (.storage 0) 2 :=
  ⟨_, _, [1], [1, 2, 4], rfl, rfl, rfl, rfl, rfl, rfl,
    ⟨0, .writeArtifact 0 [2, 3], 0, [2, 3], .tail _ (.tail _ (.head _)), .artifact 0 [2, 3], by simp⟩⟩

/-- A tag that is set and read. -/
example : ∃ (s1 s2 : Sys Nat Nat Nat),
    run (start fresh [[.readTag 0 0]]) [0, 0, 0, 0, 0, 0] = s1 ∧
    run (start s1.heap [[.writeTag 0 0 7 false], [.readTag 0 0]])
      [0, 0, 0, 0, 0, 0, 1, 1, 1, 1, 1, 1] = s2 ∧
    knows s1.heap (.tag 0 0) ∧
    s2.log[3]? = some (.returned 1 (.readTag 0 0) 2 (.got 7)) ∧
    PutDone (s2.log.take 2) (.tag 0 0) :=
  ⟨_, _, rfl, rfl, rfl, rfl, 0, _, 0, 7, .tail _ (.head _), .tag 0 0 7 false⟩

/-- A snapshot that is there, while another one of the same graph is written. -/
example : ∃ (s1 s2 : Sys Nat Nat Nat),
    run (start fresh [[.writeSnapshot 0 1 7]]) [0, 0, 0, 0, 0, 0] = s1 ∧
    run (start s1.heap [[.writeSnapshot 0 2 8], [.readSnapshot 0 1]]) [0, 1, 0, 1, 0, 1, 1, 0] = s2 ∧
    knows s1.heap (.snapshot 0 1) ∧ at? s1.heap (.snapshot 0 1) = some 7 ∧
    s2.log[2]? = some (.returned 1 (.readSnapshot 0 1) 1 (.got 7)) :=
  ⟨_, _, rfl, rfl, rfl, rfl, rfl⟩

end Arti.Props
