import Verif.Model.Merge

/-!
# The program that lists files

Models `f3dinfo`, apps/f3dinfo/main.cpp, for Ogawa files: which entries it prints, in which order, and how it ends. Reading is
that of `Verif.Model.Files`. An entry stands for the lines that are printed for it: the text of numbers and the parsing of
the command line are left out. The mapping of a field is never null: `setMapping` refuses a null pointer, export/Field.h:347-360.
-/

namespace F3D
namespace Info
open Ogawa Og FieldIO Files
open Merge (Voxel scalars vectors)
open Metadata (Meta)

/-- `Options::names` and `Options::attributes`, apps/f3dinfo/main.cpp:64-65. -/
structure Options where
  names : List Name
  attributes : List Name

/-- `matchString`, apps/f3dinfo/main.cpp:222-239: `re p s` tells whether all of `s` matches the regular expression `p`. -/
def matchString (re : Name → Name → Bool) (str : Name) (patterns : List Name) : Bool :=
  if patterns.length = 0 then true else patterns.any fun p => re p str

/-- The calls of `readScalarLayers` and `readVectorLayers` of `printFileInfo`, apps/f3dinfo/main.cpp:261-327, in order. For
Ogawa files both lists of names have all layers. -/
def requests (re : Name → Name → Bool) (opt : Options) (ps : Listing) : List (Voxel × Name × Name) :=
  (ps.partitionNames.filter fun u => matchString re u opt.names).flatMap fun u =>
    (((ps.layerNames u).filter fun l => matchString re l opt.attributes).flatMap fun l =>
      scalars.map fun t => (t, u, l)) ++
    (((ps.layerNames u).filter fun l => matchString re l opt.attributes).flatMap fun l =>
      vectors.map fun t => (t, u, l))

/-- What is printed: the head of a file (apps/f3dinfo/main.cpp:254-256), a field (`printFieldInfo`, 188-216), the metadata of a
file (330-342), the message about a file that cannot be opened (249-252). -/
inductive Printed (L F : Type) where
  | head (file : Name)
  | field (t : Voxel) (f : Loaded L F)
  | global (info : Meta)
  | error (file : Name)

/-- How the program goes on: with the next file, or it ends with an exit code, by an exception or in undefined behaviour. -/
inductive Status where
  | fine
  | exit (code : Nat)
  | threw
  | crash
deriving DecidableEq

variable {L F : Type} [FieldClass F]

/-- The reads and the lines printed after each, apps/f3dinfo/main.cpp:261-327. -/
def printFields (readers : Voxel → Name → Name → List Tree → Res F) (i : In L) :
    List (Voxel × Name × Name) → List (Printed L F) × Status
  | [] => ([], .fine)
  | (t, u, l) :: rs =>
    match i.readLayers (readers t) u l with
    | .ok fs =>
      let r := printFields readers i rs
      (fs.map (Printed.field t) ++ r.1, r.2)
    | .exception => ([], .threw)
    | _ => ([], .crash)

/-- `printFileInfo`, apps/f3dinfo/main.cpp:243-344. `none` is a file that cannot be opened. -/
def printFile (readers : Voxel → Name → Name → List Tree → Res F) (re : Name → Name → Bool) (opt : Options)
    (file : Name × Option (In L)) : List (Printed L F) × Status :=
  match file.2 with
  | none => ([.error file.1], .exit 1)
  | some i =>
    let r := printFields readers i (requests re opt i.listing)
    match r.2 with
    | .fine => (.head file.1 :: r.1 ++ [.global i.info], .fine)
    | s => (.head file.1 :: r.1, s)

/-- `main`, apps/f3dinfo/main.cpp:99-108. -/
def main (readers : Voxel → Name → Name → List Tree → Res F) (re : Name → Name → Bool) (opt : Options) :
    List (Name × Option (In L)) → List (Printed L F) × Status
  | [] => ([], .exit 0)
  | f :: fs =>
    let r := printFile readers re opt f
    match r.2 with
    | .fine =>
      let rs := main readers re opt fs
      (r.1 ++ rs.1, rs.2)
    | s => (r.1, s)

end Info
end F3D
