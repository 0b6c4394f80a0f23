import Verif.Model.Hdf5Files
import Verif.Props.Hdf5
import Verif.Props.Metadata

/-!
# What was written to an HDF5 file
-/

namespace F3D
namespace Hdf5
open Ogawa Og FieldIO
open MappingIO (kMapping)
open Metadata (Meta)
open Props (MKind lookup inFile InOrder PlainNames FreshLayer LayerKept)
open Files (kClassType intName FieldClass Loaded)

variable {M L F : Type}

/-- Writing one file: between `create` and `close` only layers and the metadata of the file are written. -/
def Session (cs : List (Call M)) : Prop := ∀ c ∈ cs, (∃ w, c = .write w) ∨ ∃ m, c = .global m

/-- The layers for which `writeLayer` returned true, in the order of the calls. -/
def stored : List (Call M) → List Ret → List (Write M)
  | .write w :: cs, .ok :: rs => w :: stored cs rs
  | _ :: cs, _ :: rs => stored cs rs
  | _, _ => []

/-- The metadata of the file: that of the first call. -/
def globals : List (Call M) → Option Meta
  | [] => none
  | .global m :: _ => some m
  | _ :: cs => globals cs

/-- The names of metadata: not empty, without NUL, each used in one kind only, and the dictionaries are in order (as
setters make them, see C45). -/
structure NamesFit (m : Meta) : Prop where
  order : InOrder m
  plain : PlainNames m
  kind : ∀ n k k' v v', lookup m n k = some v → lookup m n k' = some v' → k = k'

/-- Names that are one step of a path: not empty, not ".", without slash and NUL. -/
structure OneStep (s : Name) : Prop where
  ne : s ≠ []
  dot : s ≠ [46]
  slash : (47 : UInt8) ∉ s
  nul : (0 : UInt8) ∉ s

/-- A call of `writeLayer` as the file format allows it. The mapping can be written, and its group is not marked as a
layer. The field can be written to a new group of a layer, keeps what is there, and says how many components it has. -/
structure Fits (C : MapIO M) (w : Write M) : Prop where
  part : (47 : UInt8) ∉ w.part ∧ (0 : UInt8) ∉ w.part
  layer : OneStep w.layer
  cls : (0 : UInt8) ∉ w.cls
  info : NamesFit w.info
  mapping : ∃ g, C.write w.mapping .new = (.ok, g) ∧ g.isGroup = true ∧ named kClassType g.attrs = none
  body : ∀ g, FreshLayer g → ∃ g', w.body g = (.ok, g') ∧ g'.isGroup = true ∧ LayerKept g g' ∧
    getInt kComponents g' = .ok (if w.isVec then 3 else 1)

/-- The reader of mappings makes `back m` of the group that was written for `m`. -/
def MapsBack (C : MapIO M) (readMap : Obj → Res L) (back : M → L) (cs : List (Call M)) : Prop :=
  ∀ w, Call.write w ∈ cs → readMap (C.write w.mapping .new).2 = .ok (back w.mapping)

/-- What the readers of fields make of the groups that were written: `none` if they are of another class or type. -/
def BodiesBack (readField : Name → Name → Obj → Res F) (val : Name → Write M → Option F) (cs : List (Call M)) : Prop :=
  ∀ path w g, Call.write w ∈ cs → FreshLayer g → readField path w.cls (w.body g).2 =
    match val path w with
    | some f => .ok f
    | none => .null

/-- Every link and attribute is visited once. -/
structure Visits (ord : Order) : Prop where
  links : ∀ l, (ord.links l).Perm l
  attrs : ∀ l, (ord.attrs l).Perm l

/-- What `m` is after metadata `w` was read into `m0`: strings end at their first NUL. -/
def Over (w m0 m : Meta) : Prop := ∀ n k, lookup m n k = ((lookup w n k).map inFile).or (lookup m0 n k)

end Hdf5
end F3D
