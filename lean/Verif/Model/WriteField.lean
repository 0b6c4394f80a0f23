import Verif.Model.Files

/-!
# Writing the contents of a layer

`writeField` with the table of IO classes, and the call of it in `writeLayer`.
-/

namespace F3D
namespace WriteField
open Og Files

/-- The IO classes by the name of the field class, and what `write` of each returns and adds for a field. -/
abbrev Table (F : Type) := Name → Option (F → Bool × List Entry)

/-- `writeField`, src/Field3DFile.cpp:223-241, with `createFieldIO`, src/ClassFactory.cpp:165-173, in a build without
assertions: the result and the entries. -/
def writeField {F : Type} (t : Table F) (cls : Name) (f : F) : Bool × List Entry :=
  match t cls with
  | none => (false, [])
  | some w => let r := w f; (r.1, .attribute kClassName .string cls :: r.2)

/-- A call of `writeLayer` with a field, src/Field3DFile.cpp:1484-1508: the result of `writeField` is not looked at. -/
def call {M F : Type} (t : Table F) (part layer : Name) (m : M) (mdata : List Entry) (cls : Name) (f : F) : Write M :=
  ⟨part, layer, m, mdata, (writeField t cls f).2⟩

end WriteField
end F3D
