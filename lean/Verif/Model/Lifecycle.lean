import Verif.Model.Graph
import Verif.Model.TypedBox

/-!
# Defining graphs (`src/arti/graphs/__init__.py:46-200`, `src/arti/__init__.py:70-76`)

Graph objects are numbered.  The state of a process (one thread: `arti.context` is thread local)
is the context, the graph objects, and the snapshots that were taken.  `Artifact.cast` of producers
and literals is not part of this model: the values assigned to a graph are artifacts.
-/

namespace Arti
namespace Life
open PyDict

/-! ## `ArtifactBox._cast_value` -/

/-- `Storage.resolve` (`storage/__init__.py:239-248`): every string field is resolved. -/
def resolveSto (values : List (Str × Str)) : Sto → Except Err Sto
  | .file t => do
    let text ← Stg.resolveField values t.text
    .ok (.file { t with text })
  | .lit t none => do
    let text ← Stg.resolveField values t.text
    .ok (.lit { t with text } none)
  | .lit t (some v) => do
    let text ← Stg.resolveField values t.text
    let v ← Stg.resolveField values v
    .ok (.lit { t with text } (some v))

/-- `artifact.model_copy(update={"storage": storage})`. -/
def withSto (s : Sto) : Art → Art
  | .raw i => .raw { i with sto := s }
  | .made i p pos => .made { i with sto := s } p pos

/-- `ArtifactBox._cast_value` (`graphs/__init__.py:56-78`) on an artifact; `graph` is the name and
the path tags of `arti.context.graph`. -/
def castValue (graph : Option (Str × PyDict Str Str)) (ns : List Str) (key : Str) (a : Art) :
    Except Err Art := do
  let sto ← match graph with
    | some (name, tags) => do
      let sto ← resolveSto (Stg.graphValues name tags) a.info.sto
      resolveSto (Stg.namesValues (ns ++ [key])) sto
    | none => .ok a.info.sto
  match a.out with
  | none => do
    let sto ← resolveSto (Stg.ifpValues none) sto
    .ok (withSto sto a)
  | some _ => if sto.hasFp then .ok (withSto sto a) else .error .valueError

/-! ## Graph objects -/

/-- `STATUS` (`graphs/__init__.py:39-41`). -/
inductive Status
  | opn
  | closed
  deriving DecidableEq, Repr

/-- A `Graph` object (`graphs/__init__.py:93-109`).  `data` is the content of the artifact box,
`boxOpen` its status; `deps` and `outs` are the values of the cached properties `dependencies` and
`producer_outputs`, if they have been computed. -/
structure GObj where
  name : Str
  tags : PyDict Str Str
  status : Option Status
  data : BoxData Art
  boxOpen : Bool
  keyOf : PyDict Art Str
  deps : Option (List (Nd × List Nd))
  outs : Option (PyDict Pdr (List Art))

/-- The graph as a value. -/
def GObj.graph (g : GObj) : Graph := ⟨g.name, Box.walk g.data, g.tags⟩

/-- `_toggle` (`graphs/__init__.py:135-141`). -/
def GObj.toggle (g : GObj) (s : Status) : GObj :=
  { g with
    boxOpen := decide (s = .opn), status := some s
    keyOf := ofItems ((Box.walk g.data).map fun (k, a) => (a, k)) }

/-- `requires_sealed` (`graphs/__init__.py:46-53`). -/
def GObj.sealed (g : GObj) : Except Err Unit :=
  if g.status = some .closed then .ok () else .error .valueError

/-- `graph.dependencies` (`graphs/__init__.py:164-181`): a cached property, so the status is only
checked when it is computed. -/
def GObj.dependencies (g : GObj) : GObj × Except Err (List (Nd × List Nd)) :=
  match g.deps with
  | some d => (g, .ok d)
  | none =>
    match g.sealed with
    | .error e => (g, .error e)
    | .ok _ => ({ g with deps := some g.graph.dependencies }, .ok g.graph.dependencies)

/-- All producers with their outputs (`graphs/__init__.py:188-200`). -/
def allOutputs (g : Graph) : PyDict Pdr (List Art) :=
  (ofItems (g.arts.filterMap fun (_, a) => a.out.map fun (p, _) => (p, ()))).map fun (p, _) =>
    (p, (Graph.sortPos (g.outputsByPos p)).map Prod.snd)

/-- `graph.producer_outputs` (`graphs/__init__.py:188-200`), also cached. -/
def GObj.producerOutputs (g : GObj) : GObj × Except Err (PyDict Pdr (List Art)) :=
  match g.outs with
  | some o => (g, .ok o)
  | none =>
    match g.sealed with
    | .error e => (g, .error e)
    | .ok _ => ({ g with outs := some (allOutputs g.graph) }, .ok (allOutputs g.graph))

/-! ## Processes -/

/-- The state: `arti.context.graph`, the graph objects, and the graphs of which there are
snapshots. -/
structure Proc where
  ctx : Option Nat
  objs : PyDict Nat GObj
  snaps : List Nat

def Proc.init : Proc := ⟨none, [], []⟩

/-- What a program can do.  `rest` is the outcome of what a call does after the checks modelled
here. -/
inductive Ev
  /-- `Graph(name=name, artifacts=items, path_tags=tags)` -/
  | new (id : Nat) (name : Str) (tags : PyDict Str Str) (items : InpItems Art)
  /-- `graph.__enter__()` -/
  | enter (id : Nat)
  /-- `graph.__exit__(...)` -/
  | leave (id : Nat)
  /-- an operation on `graph.artifacts` -/
  | box (id : Nat) (op : Box.Op Art)
  /-- `graph.read(...)` -/
  | read (id : Nat) (rest : Option Err)
  /-- `graph.write(...)` -/
  | write (id : Nat) (rest : Option Err)
  /-- `graph.build(...)` -/
  | build (id : Nat) (rest : Option Err)
  /-- `graph.snapshot()` -/
  | snapshot (id : Nat) (rest : Option Err)
  /-- `GraphSnapshot.from_graph(graph)` -/
  | fromGraph (id : Nat) (rest : Option Err)
  /-- `snapshot.build(...)` of a snapshot of the graph -/
  | snapBuild (id : Nat) (rest : Option Err)
  /-- `snapshot.tag(...)` of a snapshot of the graph -/
  | snapTag (id : Nat) (rest : Option Err)
  /-- `snapshot.read(...)` of a snapshot of the graph -/
  | snapRead (id : Nat) (rest : Option Err)
  /-- `snapshot.write(...)` of a snapshot of the graph -/
  | snapWrite (id : Nat) (rest : Option Err)
  /-- `graph.dependencies` -/
  | dependencies (id : Nat)
  /-- `graph.producer_outputs` -/
  | outputs (id : Nat)

/-- The name and tags of `arti.context.graph`. -/
def Proc.ctxGraph (s : Proc) : Option (Str × PyDict Str Str) :=
  s.ctx.bind fun i => (get? s.objs i).map fun g => (g.name, g.tags)

/-- The effect on an object. -/
def Proc.put (s : Proc) (id : Nat) (g : GObj) : Proc := { s with objs := PyDict.set s.objs id g }

/-- The checks and effects of `GraphSnapshot.from_graph` (`graphs/__init__.py:317-360`) that concern
the lifecycle: it uses the dependencies, and if all goes well there is a snapshot. -/
def Proc.fromGraph (s : Proc) (id : Nat) (g : GObj) (rest : Option Err) : Proc × Option Err :=
  match g.dependencies with
  | (g', .error e) => (s.put id g', some e)
  | (g', .ok _) =>
    match rest with
    | some e => (s.put id g', some e)
    | none => ({ s.put id g' with snaps := id :: s.snaps }, none)

/-- What executors do with a snapshot (`executors/local.py:22-48`): they use the dependencies
(`executors/local.py:25`) and, if there are producers, their outputs (`executors/__init__.py:49` and
`101`).  `rest` is the outcome of everything else. -/
def Proc.runBuild (s : Proc) (id : Nat) (g : GObj) (rest : Option Err) : Proc × Option Err :=
  match g.dependencies with
  | (g', .error e) => (s.put id g', some e)
  | (g', .ok d) =>
    if d.any fun (n, _) => match n with | .pdr _ => true | .art _ => false then
      match g'.producerOutputs with
      | (g'', .error e) => (s.put id g'', some e)
      | (g'', .ok _) => (s.put id g'', rest)
    else (s.put id g', rest)

/-- A method that is decorated with `requires_sealed` and has no further effects here. -/
def Proc.guarded (s : Proc) (g : GObj) (rest : Option Err) : Proc × Option Err :=
  match g.sealed with
  | .error e => (s, some e)
  | .ok _ => (s, rest)

/-- One event on an existing graph. -/
def Proc.onGraph (s : Proc) (g : GObj) : Ev → Proc × Option Err
  | .new _ _ _ _ => (s, some .unsupported)
  -- `graphs/__init__.py:117-122`
  | .enter id =>
    if s.ctx.isSome then (s, some .valueError)
    else ({ s.put id (g.toggle .opn) with ctx := some id }, none)
  -- `graphs/__init__.py:124-133`
  | .leave id =>
    match (g.toggle .closed).dependencies with
    | (g', .error e) => ({ s.put id g' with ctx := none }, some e)
    | (g', .ok d) => ({ s.put id g' with ctx := none },
        match Topo.staticOrder d with | .ok _ => none | .error e => some e)
  | .box id op =>
    let (d, r) := Box.step (castValue s.ctxGraph) g.boxOpen g.data op
    (s.put id { g with data := d }, r)
  -- `graphs/__init__.py:205`, `249`
  | .read _ rest | .write _ rest => s.guarded g rest
  -- `graphs/__init__.py:147-162`
  | .snapshot id rest =>
    match g.sealed with
    | .error e => (s, some e)
    | .ok _ => s.fromGraph id g rest
  -- `graphs/__init__.py:147-149`: the data may be missing, then nothing is built
  | .build id rest =>
    match g.sealed with
    | .error e => (s, some e)
    | .ok _ =>
      match s.fromGraph id g rest with
      | (s', some e) => (s', some e)
      | (s', none) =>
        match get? s'.objs id with
        | none => (s', some .unsupported)
        | some g' => s'.runBuild id g' none
  | .fromGraph id rest => s.fromGraph id g rest
  -- `graphs/__init__.py:362-390`: snapshots refer to the graph, methods without a check
  | .snapBuild id rest => if id ∈ s.snaps then s.runBuild id g rest else (s, some .unsupported)
  | .snapTag id rest => if id ∈ s.snaps then (s, rest) else (s, some .unsupported)
  -- `graphs/__init__.py:387-420`: these call the methods of the graph
  | .snapRead id rest | .snapWrite id rest =>
    if id ∈ s.snaps then s.guarded g rest else (s, some .unsupported)
  | .dependencies id =>
    let (g', r) := g.dependencies
    (s.put id g', match r with | .ok _ => none | .error e => some e)
  | .outputs id =>
    let (g', r) := g.producerOutputs
    (s.put id g', match r with | .ok _ => none | .error e => some e)

/-- The graph that an event is about. -/
def Ev.id : Ev → Nat
  | .new i _ _ _ | .enter i | .leave i | .box i _ | .read i _ | .write i _ | .build i _
  | .snapshot i _ | .fromGraph i _ | .snapBuild i _ | .snapTag i _ | .snapRead i _
  | .snapWrite i _ | .dependencies i | .outputs i => i

/-- One event: the state after it, and the exception if it raised.  Programs hold no reference to
graphs that were not created and to snapshots that were not taken; such events are
`unsupported`. -/
def Proc.step (s : Proc) (e : Ev) : Proc × Option Err :=
  match e with
  | .new id name tags items =>
    match get? s.objs id with
    | some _ => (s, some .unsupported)
    | none =>
      match Box.construct (castValue s.ctxGraph) items with
      | .error e => (s, some e)
      | .ok d => (s.put id ⟨name, tags, none, d, false, [], none, none⟩, none)
  | e =>
    match get? s.objs e.id with
    | none => (s, some .unsupported)
    | some g => s.onGraph g e

/-- A program, whose exceptions are caught: the final state and the events with their outcomes. -/
def Proc.run (s : Proc) : List Ev → Proc × List (Ev × Option Err)
  | [] => (s, [])
  | e :: es =>
    let (s1, r) := s.step e
    let (s2, t) := s1.run es
    (s2, (e, r) :: t)

end Life
end Arti
