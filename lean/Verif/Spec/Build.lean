import Verif.Model.World

/-!
# What a build is supposed to compute

An evaluator that computes the partitions of an artifact and their contents from the raw data
alone: no backend, no cache, no existing files, no executor.  It runs every producer on the
complete evaluation of its inputs.
-/

namespace Arti.Spec
variable {κ D : Type} [DecidableEq κ] (env : Env κ D)

/-- The partitions of an artifact with their contents. -/
abbrev Data (κ : Type) := List (PSnap κ × Str)

/-- What one partition of a producer comes to: its key, its input fingerprint and the validated
outputs, or the error that `build` or `validate_outputs` leads to. -/
structure Outcome (κ D : Type) where
  key : κ
  fp : Fp
  outs : Except Err (List D)

/-- A value or an error. -/
def orElse {α : Type} (x : Option α) (e : Err) : Except Err α :=
  match x with
  | some a => .ok a
  | none => .error e

/-- The contents of the given partitions. -/
def lookAll (l : Data κ) : List (PSnap κ) → Except Err (List Str)
  | [] => .ok []
  | s :: ss => do
    let c ← orElse (PyDict.get? l s) .fileNotFound
    let cs ← lookAll l ss
    .ok (c :: cs)

/-- The value of some partitions of an artifact: there must be at least one, and only one if the
artifact is not partitioned. -/
def readData (i : ArtInfo) (view : Nat) (l : Data κ) (ss : List (PSnap κ)) : Except Err D :=
  if ss.isEmpty then .error .fileNotFound
  else if 1 < ss.length && !i.partitioned then .error .valueError
  else do
    let cs ← lookAll l ss
    env.dec i view cs

/-- The arguments of `build`, given the evaluated inputs and the partitions chosen by `map`. -/
def argsOf (xs : List (Str × (ArtInfo × Data κ))) (d : List (Str × List (PSnap κ))) :
    List (Str × Nat) → Except Err (List (Str × D))
  | [] => .ok []
  | (name, view) :: rest => do
    let x ← orElse (PyDict.get? xs name) .keyError
    let ss ← orElse (PyDict.get? d name) .keyError
    let v ← readData env x.1 view x.2 ss
    let r ← argsOf xs d rest
    .ok ((name, v) :: r)

/-- Run `build` and `validate_outputs`. -/
def runBuild (c : PClass κ D) (args : Except Err (List (Str × D))) : Except Err (List D) := do
  let args ← args
  let outs ← c.build args
  let passed ← c.validate outs
  if passed then .ok outs else .error .valueError

/-- The outcome of each partition that `map` asks for. -/
def outcomes (p : Pdr) (xs : List (Str × (ArtInfo × Data κ))) :
    List (κ × List (Str × List (PSnap κ))) → Except Err (List (Outcome κ D))
  | [] => .ok []
  | (pk, d) :: rest => do
    let fp ← World.computeInputFingerprint env p d
    let r ← outcomes p xs rest
    let c := env.impl p.cls (env.versionFp p.ver)
    .ok (⟨pk, fp, runBuild c (argsOf env xs d c.buildInputs)⟩ :: r)

/-- Run a producer on evaluated inputs. -/
def evalProducer (p : Pdr) (xs : List (Str × (ArtInfo × Data κ))) :
    Except Err (List (Outcome κ D)) := do
  let c := env.impl p.cls (env.versionFp p.ver)
  let ins := xs.map fun x => (x.1, env.iter (x.2.2.map Prod.fst))
  let items ← c.map (ins.filter fun x => c.mapInputs.contains x.1)
  outcomes env p xs (PyDict.ofItems items)

/-- A partition in which the content has been stored.  The value of a literal that already has
one cannot be set. -/
def stored (part : Prt κ) (c : Str) : Except Err (PSnap κ × Str) :=
  match part.loc with
  | .file _ => .ok (⟨env.fileHash c, part⟩, c)
  | .lit id none => .ok (⟨env.strHash c, { part with loc := .lit id (some c) }⟩, c)
  | .lit _ (some _) => .error .valueError

/-- The content of the output at a position. -/
def outBytes (c : PClass κ D) (i : ArtInfo) (pos : Nat) (outs : Except Err (List D)) :
    Except Err Str := do
  let outs ← outs
  let d ← orElse outs[pos]? .indexError
  let view ← orElse c.outputs[pos]? .indexError
  env.enc i view d

/-- The partition and the content of the output at a position. -/
def place (c : PClass κ D) (i : ArtInfo) (pos : Nat) (r : Outcome κ D) :
    Except Err (PSnap κ × Str) := do
  let b ← outBytes env c i pos r.outs
  let part ← World.generate env i.sto (some r.fp) r.key
  stored env part b

/-- All of them. -/
def placeAll (c : PClass κ D) (i : ArtInfo) (pos : Nat) :
    List (Outcome κ D) → Except Err (Data κ)
  | [] => .ok []
  | r :: rs => do
    let x ← place env c i pos r
    let xs ← placeAll c i pos rs
    .ok (x :: xs)

mutual
/-- The partitions of an artifact and their contents, from the raw data. -/
def evalArt (raw : ArtInfo → Data κ) : Art → Except Err (Data κ)
  | .raw i => .ok (raw i)
  | .made i p pos => do
    let rs ← evalPdr raw p
    placeAll env (env.impl p.cls (env.versionFp p.ver)) i pos rs
/-- The outcomes of a producer, from the raw data. -/
def evalPdr (raw : ArtInfo → Data κ) : Pdr → Except Err (List (Outcome κ D))
  | .mk cls ver ins => do
    let xs ← evalIns raw ins
    evalProducer env (.mk cls ver ins) xs
/-- The inputs of a producer, from the raw data. -/
def evalIns (raw : ArtInfo → Data κ) : Ins → Except Err (List (Str × (ArtInfo × Data κ)))
  | .nil => .ok []
  | .cons n a rest => do
    let x ← evalArt raw a
    let xs ← evalIns raw rest
    .ok ((n, (a.info, x)) :: xs)
end

end Arti.Spec
