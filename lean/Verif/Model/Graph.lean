import Verif.Model.Topo
import Verif.Model.Storage

/-!
# Artifacts, producers and graphs
(`src/arti/artifacts/__init__.py`, `src/arti/producers/__init__.py`, `src/arti/graphs/__init__.py`)

Artifacts and producers are frozen pydantic models that refer to each other: an artifact to the
producer that makes it and the position of the output, a producer to its input artifacts.  They
compare by value, so they are values here too.
-/

namespace Arti

/-- The template string of a storage (`LocalFile.path` or `StringLiteral.id`) and whether its
`key_types` are non-empty. -/
structure Tmpl where
  text : Str
  keyed : Bool
  deriving DecidableEq, Repr

/-- A `Storage` instance: `LocalFile` (`storage/local.py:32-45`) or `StringLiteral`
(`storage/literal.py:26-30`). -/
inductive Sto
  | file (t : Tmpl)
  | lit (t : Tmpl) (value : Option Str)
  deriving DecidableEq, Repr

def Sto.tmpl : Sto → Tmpl
  | .file t => t
  | .lit t _ => t

/-- `Storage.includes_input_fingerprint_template` (`storage/__init__.py:160-162`). -/
def Sto.hasFp : Sto → Bool
  | .file t => Fmt.isInfix Stg.ifpTmpl t.text
  | .lit t v => Fmt.isInfix Stg.ifpTmpl t.text || v.any (Fmt.isInfix Stg.ifpTmpl)

/-- The fields of an `Artifact` (`artifacts/__init__.py:40-64`) other than `producer_output`:
`desc` stands for the type, format, annotations and statistics, `partitioned` is
`is_partitioned(type)`. -/
structure ArtInfo where
  desc : Nat
  partitioned : Bool
  sto : Sto
  deriving DecidableEq, Repr

mutual
/-- An `Artifact`: raw (`producer_output is None`) or made by a producer, as the output at a
position (`producers/__init__.py:464-466`). -/
inductive Art
  | raw (i : ArtInfo)
  | made (i : ArtInfo) (p : Pdr) (pos : Nat)
  deriving DecidableEq, Repr
/-- A `Producer` instance: its class (`_arti_type_key_`), its version and its input artifacts. -/
inductive Pdr
  | mk (cls ver : Str) (ins : Ins)
  deriving DecidableEq, Repr
/-- The input artifacts of a producer by field name. -/
inductive Ins
  | nil
  | cons (name : Str) (a : Art) (rest : Ins)
  deriving DecidableEq, Repr
end

def Art.info : Art → ArtInfo
  | .raw i => i
  | .made i _ _ => i

/-- `artifact.producer_output`. -/
def Art.out : Art → Option (Pdr × Nat)
  | .raw _ => none
  | .made _ p pos => some (p, pos)

def Ins.toList : Ins → List (Str × Art)
  | .nil => []
  | .cons n a r => (n, a) :: r.toList

def Pdr.cls : Pdr → Str
  | .mk c _ _ => c

def Pdr.ver : Pdr → Str
  | .mk _ v _ => v

/-- `Producer.inputs` (`producers/__init__.py:369-371`). -/
def Pdr.inputs : Pdr → List (Str × Art)
  | .mk _ _ i => i.toList

/-- A sealed `Graph` (`graphs/__init__.py:94-112`): its name, its artifacts in the order of
`artifacts.walk()`, its path tags.  The backend is part of the state of the world. -/
structure Graph where
  name : Str
  arts : List (Str × Art)
  tags : List (Str × Str)
  deriving DecidableEq, Repr

/-- A node of the dependency graph (`graphs/__init__.py:90`). -/
inductive Nd
  | art (a : Art)
  | pdr (p : Pdr)
  deriving DecidableEq, Repr

namespace Graph

/-- `Graph.artifact_to_key` (`graphs/__init__.py:139-145`): of equal artifacts under several keys
the last key wins. -/
def keyOf (g : Graph) (a : Art) : Option Str :=
  PyDict.get? (PyDict.ofItems (g.arts.map fun (k, a) => (a, k))) a

/-- `Graph.dependencies` (`graphs/__init__.py:164-181`). -/
def dependencies (g : Graph) : List (Nd × List Nd) :=
  PyDict.ofItems ((g.arts.map fun (_, a) =>
      (Nd.art a, match a.out with | some (p, _) => [Nd.pdr p] | none => []))
    ++ (g.arts.filterMap fun (_, a) => a.out.map fun (p, _) =>
      (Nd.pdr p, p.inputs.map fun (_, i) => Nd.art i)))

/-- The outputs of a producer by position in `Graph.producer_outputs`
(`graphs/__init__.py:190-196`). -/
def outputsByPos (g : Graph) (p : Pdr) : PyDict Nat Art :=
  PyDict.ofItems (g.arts.filterMap fun (_, a) =>
    match a.out with
    | some (q, pos) => if q = p then some (pos, a) else none
    | none => none)

/-- Insert into a list sorted by position. -/
def insertPos (x : Nat × Art) : List (Nat × Art) → List (Nat × Art)
  | [] => [x]
  | y :: ys => if x.1 ≤ y.1 then x :: y :: ys else y :: insertPos x ys

/-- `sorted` by position. -/
def sortPos : List (Nat × Art) → List (Nat × Art)
  | [] => []
  | x :: xs => insertPos x (sortPos xs)

/-- `Graph.producer_outputs[producer]` (`graphs/__init__.py:188-200`): in order of position, but
without gaps; `KeyError` if the graph holds no output of the producer. -/
def producerOutputs (g : Graph) (p : Pdr) : Except Err (List Art) :=
  match g.outputsByPos p with
  | [] => .error .keyError
  | d => .ok ((sortPos d).map Prod.snd)

/-- `snapshot.artifacts[key]`. -/
def artAt (g : Graph) (k : Str) : Option Art := PyDict.get? g.arts k

end Graph

/-- `GraphSnapshot` (`graphs/__init__.py:294-303`). -/
structure Snapshot where
  id : Fp
  graph : Graph
  deriving DecidableEq, Repr

end Arti
