import Verif.Props.Hdf5FilesFields
import Verif.Props.WholeFile
import Verif.Spec.Hdf5Mapping

/-!
# MIP fields that programs write to HDF5 files
-/

namespace F3D
namespace Hdf5
open Ogawa Og FieldIO
open MappingIO (kMapping Loaded)
open Metadata (Meta)
open MipIO (Lazy denseClass sparseClass)
open MipField (kMipOffset)
open Props (HeldByFormat Shrinks lookup inFile MKind MVal offsetIn)

variable {α : Type} {k : Rat}

/-- With compression a dense field of one value is not written. -/
def Lost (gzip : Bool) (e : Elem α) : AnyField α → Prop
  | .dense f => gzip = true ∧ f.dw.nx * f.dw.ny * f.dw.nz * dims e.type = 1
  | .sparse _ => False

/-- A MIP field that can be written: it has levels, all of the class, which shrink (`setup` checks this). -/
structure HeldMip [DecidableEq α] (e : Elem α) (zero : α) (cls : Name) (levels : List (AnyField α)) : Prop where
  held : ∀ x ∈ levels, HeldByFormat false e zero x ∧ x.cls = cls
  few : levels.length < 2 ^ 31
  shrinks : ∃ l ls, levels = l :: ls ∧ Shrinks l.extents.size (ls.map fun x => x.extents.size)

/-- A MIP field that was read is the one that was written: the class and voxel type, the windows of level 0, the number of
levels and their resolutions; and every level, when it is loaded from the file with these contents, is the field that was
written, if it is not lost. Loading a level that was lost gives an exception. There are no other levels. -/
structure SameHdf5Mip (conv : HType → HType → List UInt8 → List UInt8) (gzip : Bool) (maxMem : Nat) (e : Elem α)
    (zero dflt : α) (root : Obj) (cls : Name) (levels : List (AnyField α)) (m : Lazy) : Prop where
  cls : m.cls = cls
  type : m.type = e.type
  windows : ∀ l, levels.head? = some l → m.extents = l.extents ∧ m.dw = l.dw
  res : List.Forall₂ (fun l (r : V3i) => r.x = l.extents.size.x + 1 ∧ r.y = l.extents.size.y + 1 ∧
    r.z = l.extents.size.z + 1) levels m.res
  level : ∀ i x, levels[i]? = some x → ¬ Lost gzip e x → loadLevel conv maxMem e zero dflt root m i = some (.ok x)
  lost : ∀ i x, levels[i]? = some x → Lost gzip e x → loadLevel conv maxMem e zero dflt root m i = some .exception
  only : ∀ i, levels.length ≤ i → loadLevel conv maxMem e zero dflt root m i = none

/-- Contents that a program can write. -/
def HeldContent [DecidableEq α] (gzip : Bool) (e : Elem α) (zero : α) : Content α → Prop
  | .single f => HeldByFormat gzip e zero f
  | .mip cls levels => HeldMip e zero cls levels

/-- A field that was read from a file with these contents is the one that was written; a MIP field has this offset. -/
def SameContent (conv : HType → HType → List UInt8 → List UInt8) (gzip : Bool) (maxMem : Nat) (e : Elem α) (zero dflt : α)
    (root : Obj) (off : V3i) : Content α → LayerIO.AnyField α → Prop
  | .single (.dense f), x => x = .dense f
  | .single (.sparse f), x => x = .sparse f
  | .mip cls levels, x => ∃ m, x = .mip m off ∧ SameHdf5Mip conv gzip maxMem e zero dflt root cls levels m

/-- The metadata of a field that was read: strings end at their first NUL, and a MIP field always has an offset. -/
def MetaBack (c : Content α) (m m' : Meta) : Prop :=
  ∀ n kd, lookup m' n kd =
    match c with
    | .single _ => (lookup m n kd).map inFile
    | .mip _ _ => if kMipOffset = n ∧ MKind.vecInt = kd then some (.vecInt (offsetIn m)) else (lookup m n kd).map inFile

/-- A layer that was read is the one that was written; its mapping is that of a field in a partition of the same name, which
the library takes for identical. -/
structure SameContentLayer (R : Identical.Reals) (conv : HType → HType → List UInt8 → List UInt8) (gzip : Bool) (maxMem : Nat)
    (e : Elem α) (zero dflt : α) (root : Obj) (cs : List (Call (FileMap k))) (content : Write (FileMap k) → Content α)
    (w : Write (FileMap k)) (r : Files.Loaded Loaded (LayerIO.AnyField α)) : Prop where
  name : r.name = w.part
  attr : r.attr = w.layer
  info : MetaBack (content w) w.info r.info
  data : SameContent conv gzip maxMem e zero dflt root (offsetIn w.info) (content w) r.data
  mapping : ∃ w' x, .write w' ∈ cs ∧ w'.part = w.part ∧ (libraryMaps R k).ident w.mapping w'.mapping = true ∧
    r.mapping = some x ∧ SameMapping w'.mapping x

/-- What a program writes: dense, sparse and MIP fields of one voxel type that the format can hold, under names that are
single steps of a path, with mappings that can be written. -/
structure WritableContent [DecidableEq α] (gzip : Bool) (e : Elem α) (zero : α) (content : Write (FileMap k) → Content α)
    (w : Write (FileMap k)) : Prop where
  held : HeldContent gzip e zero (content w)
  cls : w.cls = (content w).cls
  body : w.body = (content w).write gzip e
  kind : w.isVec = decide (dims e.type = 3)
  part : (47 : UInt8) ∉ w.part ∧ (0 : UInt8) ∉ w.part
  layer : OneStep w.layer
  notMapping : w.layer ≠ kMapping
  info : NamesFit w.info
  mapping : w.mapping.Held

end Hdf5
end F3D
