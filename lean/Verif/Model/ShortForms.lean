import Verif.Model.FileObject

/-!
# The forms of the calls that write a layer

Models the overloads of `writeScalarLayer` and `writeVectorLayer` of `Field3DOutputFile`, export/Field3DFile.h, and of
`Field3DOutputFileHDF5`, export/Field3DFileHDF5.h. What they end in is in `Verif.Model.Files` and `Verif.Model.Hdf5Files`.
-/

namespace F3D
namespace ShortForms
open Ogawa Og FieldIO FileObject
open Metadata (Meta)

variable {M : Type}

/-- "default". -/
def kDefault : Name := ascii ['d', 'e', 'f', 'a', 'u', 'l', 't']

/-- A field: its members `name` and `attribute`, export/Field.h:169-173, whether its voxels are vectors, and what the two
formats make of its mapping, metadata and contents (see `Files.Write` and `Hdf5.Write`). -/
structure Field (M : Type) where
  name : Name
  attr : Name
  isVec : Bool
  mapping : M
  mdata : List Entry
  entries : List Entry
  info : Meta
  cls : Name
  body : Hdf5.W

/-- The three overloads: partition and layer are named, the layer alone, or neither. -/
inductive Form where
  | full (part layer : Name)
  | named (layer : Name)
  | bare
deriving DecidableEq

/-- A call. -/
structure Call (M : Type) where
  form : Form
  field : Field M

/-- `writeLayer(partition, layer, field)` for an Ogawa file. -/
def toOgawa (p l : Name) (f : Field M) : Files.Write M := ⟨p, l, f.mapping, f.mdata, f.entries⟩
/-- `writeLayer(partition, layer, isVector, field)` for an HDF5 file. -/
def toHdf5 (p l : Name) (f : Field M) : Hdf5.Write M := ⟨p, l, f.isVec, f.mapping, f.info, f.cls, f.body⟩

/-- The overloads of `Field3DOutputFile` without HDF5 object, export/Field3DFile.h:684-706, 714-775. -/
def ogawaWrite (c : Call M) : Files.Write M :=
  match c.form with
  | .full p l => toOgawa p l c.field
  | .named l => toOgawa kDefault l c.field
  | .bare => toOgawa c.field.name c.field.attr c.field

/-- The overloads of `Field3DOutputFileHDF5`, export/Field3DFileHDF5.h:793-803, 1577-1636: `none` if the call returns false at
once. -/
def hdf5Write (c : Call M) : Option (Hdf5.Write M) :=
  match c.form with
  | .full p l => some (toHdf5 p l c.field)
  | .named l => some (toHdf5 l kDefault c.field)
  | .bare =>
    if c.field.name.length = 0 then none
    else if c.field.attr.length = 0 then none
    else some (toHdf5 c.field.name c.field.attr c.field)

/-- The overloads of `Field3DOutputFile`, export/Field3DFile.h:714-775. -/
def write (C : Formats M) (s : FileObject.Out M) (c : Call M) : Files.Ret × FileObject.Out M :=
  match s.hdf5 with
  | some o =>
    match hdf5Write c with
    | none => (.failed, s)
    | some h =>
      let r := Hdf5.writeLayer C.hdf5 h o
      (retOf r.1, { s with hdf5 := some r.2 })
  | none => s.writeTyped C (ogawaWrite c)

/-- The results of calls, one after the other; `none` after a crash. -/
def run (C : Formats M) (s : FileObject.Out M) : List (Call M) → Option (List Files.Ret × FileObject.Out M)
  | [] => some ([], s)
  | c :: cs =>
    match write C s c with
    | (.crash, _) => none
    | (r, s) => (run C s cs).map fun x => (r :: x.1, x.2)

end ShortForms
end F3D
