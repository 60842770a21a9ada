import Verif.Model.Disk
import Verif.Spec.Discovery
import Verif.Spec.Resume

/-!
# Storages of the artifacts of some graphs in one file system
-/

namespace Arti.Spec
open PyDict

/-- The storage is a file storage with this template, from whose paths partitions can be
recovered. -/
def TemplateOf (kt : Str → KeyTypes) (sto : Sto) (T : List Tok) : Prop :=
  ∃ t cls, sto = .file t ∧ t.text = print T ∧ t.keyed = !(kt t.text).isEmpty ∧
    Discoverable cls (kt t.text) T

/-- The storages of the graphs do not get in each other's way: produced artifacts are in files with
recoverable paths; raw artifacts are too, or they are literals; and no path has the form of two
templates of which one is of a produced artifact. -/
structure Layout (kt : Str → KeyTypes) (gs : Graph → Prop) : Prop where
  made : ∀ i p pos, Made gs i p pos → ∃ T, TemplateOf kt i.sto T
  raw : ∀ g, gs g → ∀ k i, (k, Art.raw i) ∈ g.arts →
    (∃ t v, i.sto = .lit t v) ∨ ∃ T, TemplateOf kt i.sto T
  apart : ∀ i p pos, Made gs i p pos → ∀ g, gs g → ∀ k a, (k, a) ∈ g.arts →
    (∃ j, a = .raw j) ∨ a.info.sto ≠ i.sto → ∀ T T', TemplateOf kt i.sto T →
    TemplateOf kt a.info.sto T' → ∀ path, Fits T path → ¬ Fits T' path

/-- No stray files: every file of the form of a template is the file of one of its partitions. -/
def Tidy (kt : Str → KeyTypes) (gs : Graph → Prop) (files : PyDict Str Str) : Prop :=
  ∀ g, gs g → ∀ k a, (k, a) ∈ g.arts → ∀ T, TemplateOf kt a.info.sto T →
    ∀ path, get? files path ≠ none → Fits T path →
      ∃ fp pk, PartitionAt (kt a.info.sto.tmpl.text) T fp pk path

/-- A storage is used by outputs of one producer class, at one position, that are serialised in
the same way. -/
def OneOwner {κ D : Type} (env : Env κ D) (gs : Graph → Prop) : Prop :=
  ∀ i1 p1 pos1 i2 p2 pos2, Made gs i1 p1 pos1 → Made gs i2 p2 pos2 → i1.sto = i2.sto →
    p1.cls = p2.cls ∧ pos1 = pos2 ∧ ∀ v d, env.enc i1 v d = env.enc i2 v d

/-- Input fingerprints do not collide on what occurred: equal fingerprints were computed for the
same version of the code and the same arguments. -/
def FpUnique {κ D : Type} (env : Env κ D) (log : List (Inv κ D)) : Prop :=
  ∀ e1 ∈ log, ∀ e2 ∈ log, e1.pdr.cls = e2.pdr.cls → e1.fp = e2.fp → e1.key = e2.key →
    env.versionFp e1.pdr.ver = env.versionFp e2.pdr.ver ∧ e1.args = e2.args

/-- The text of a template before its first placeholder. -/
def lead : List Tok → Str
  | [] => []
  | .ch c :: T => c :: lead T
  | .fld _ :: _ => []

end Arti.Spec
