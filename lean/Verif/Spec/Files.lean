import Verif.Model.Files
import Verif.Props.Og

/-!
# What was written to a file
-/

namespace F3D
namespace Files
open Ogawa Og FieldIO
open Props (groupKids plainName)
open MappingIO (kMapping)
open Metadata (Meta readMeta)

variable {M L : Type}

/-- Writing one file: between `create` and `close` only layers and the metadata of the file are written. -/
def Session (cs : List (Call M)) : Prop := ∀ c ∈ cs, (∃ w, c = .write w) ∨ ∃ es, c = .global es

/-- The layers for which `writeLayer` returned true, in the order of the calls. -/
def stored : List (Call M) → List Ret → List (Write M)
  | .write w :: cs, .written :: rs => w :: stored cs rs
  | _ :: cs, _ :: rs => stored cs rs
  | _, _ => []

/-- A file was made, the calls `cs` were answered `rs`, and the object is now `o`. -/
def Wrote (C : MapIO M) (o₀ : Out M) (cs : List (Call M)) (rs : List Ret) (o : Out M) : Prop :=
  Session cs ∧ Out.run C (o₀.create true) cs = some (rs, o)

/-- The layer is in the file, in the partition numbered `k` of its name. -/
def At (o : Out M) (w : Write M) (k : Nat) : Prop :=
  ∃ pk lk, find .group (intName w.part k) (rootKids o.entries) = some (some pk) ∧
    find .group w.layer pk = some (some lk) ∧ (Entry.group w.layer (layerGroup w)).encode = .group lk

open Classical in
/-- Selects the writes with the names and the mapping. -/
noncomputable def same (u l : Name) (m : M) (w : Write M) : Bool := decide (w.part = u ∧ w.layer = l ∧ w.mapping = m)

/-- What a reader needs: names without NUL, layer names not empty. -/
structure Plain (cs : List (Call M)) : Prop where
  part : ∀ w, Call.write w ∈ cs → (0 : UInt8) ∉ w.part
  layer : ∀ w, Call.write w ∈ cs → plainName w.layer

/-- The mapping that reading gives for a stored mapping. -/
def mapBack (C : MapIO M) (readMap : List Tree → Res L) (m : M) : Option L :=
  match readMap (groupKids kMapping (C.write m).2) with
  | .ok x => some x
  | _ => none

/-- Stored mappings and global metadata can be read: mappings of classes that are not known give a null pointer. -/
structure Readable (C : MapIO M) (readMap : List Tree → Res L) (cs : List (Call M)) : Prop where
  mapping : ∀ w, Call.write w ∈ cs → (∃ x, readMap (groupKids kMapping (C.write w.mapping).2) = .ok x) ∨
    readMap (groupKids kMapping (C.write w.mapping).2) = .null
  global : ∀ es, Call.global es ∈ cs → (readMeta (groupKids kGlobal es) Meta.empty).isSome

/-- `l` is sorted and nothing occurs twice. -/
def StrictlySorted (l : List Name) : Prop := l.Pairwise fun a b => Metadata.nameLt a b = true

end Files
end F3D
