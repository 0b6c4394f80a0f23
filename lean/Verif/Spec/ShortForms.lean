import Verif.Model.ShortForms
import Verif.Spec.Files
import Verif.Spec.Hdf5Files

/-!
# Where layers go that are written with fewer names
-/

namespace F3D
namespace ShortForms
open Ogawa Og FieldIO

variable {M : Type}

/-- The text "default". -/
def defaultName : Name := [100, 101, 102, 97, 117, 108, 116]

/-- A field with all that belongs to it, as a layer of an Ogawa file. -/
def inOgawa (part layer : Name) (f : Field M) : Files.Write M :=
  { part := part, layer := layer, mapping := f.mapping, mdata := f.mdata, body := f.entries }

/-- … and as a layer of an HDF5 file. -/
def inHdf5 (part layer : Name) (f : Field M) : Hdf5.Write M :=
  { part := part, layer := layer, isVec := f.isVec, mapping := f.mapping, info := f.info, cls := f.cls, body := f.body }

/-- Partition and layer as documented, export/Field3DFile.h:714-772 and export/Field3DFileHDF5.h:793-826: without a
partition that of the name "default"; without names those of the field. -/
def place (c : Call M) : Name × Name :=
  match c.form with
  | .full p l => (p, l)
  | .named l => (defaultName, l)
  | .bare => (c.field.name, c.field.attr)

/-- The calls that returned true. -/
def stored : List (Call M) → List Files.Ret → List (Call M)
  | c :: cs, .written :: rs => c :: stored cs rs
  | _ :: cs, _ :: rs => stored cs rs
  | _, _ => []

/-- The calls as calls with both names on an Ogawa file. -/
def asOgawa (cs : List (Call M)) : List (Files.Call M) := cs.map fun c => .write (inOgawa (place c).1 (place c).2 c.field)

/-- The calls as calls with both names on an HDF5 file. -/
def asHdf5 (cs : List (Call M)) : List (Hdf5.Call M) := cs.map fun c => .write (inHdf5 (place c).1 (place c).2 c.field)

end ShortForms
end F3D
