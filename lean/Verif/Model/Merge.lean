import Verif.Model.Files
import Verif.Model.PatternMatch

/-!
# Merging files

Models the program `f3dmerge`, apps/f3dmerge/main.cpp, for Ogawa input files: which layers it reads, in which order, and
what it writes. Reading and writing are those of `Verif.Model.Files`. Left out: the parsing of the command line,
HDF5 input and output files, an output file that is also an input file, the text on the
console. All layers of a file are read before the first one is written: the files are different ones, so that the
order of reads and writes cannot be seen unless the program ends in between.
-/

namespace F3D
namespace Merge
open Ogawa Og FieldIO Files

/-- The six types of voxels, apps/f3dmerge/main.cpp:245-287. -/
inductive Voxel
  | half
  | float
  | double
  | v3h
  | v3f
  | v3d
deriving DecidableEq

/-- The order of the reads of the first loop, apps/f3dmerge/main.cpp:245-261. -/
def scalars : List Voxel := [.half, .float, .double]

/-- The order of the reads of the second loop, apps/f3dmerge/main.cpp:271-287. -/
def vectors : List Voxel := [.v3h, .v3f, .v3d]

/-- `Options::names` and `Options::attributes`, apps/f3dmerge/main.cpp:66-67. -/
structure Options where
  names : List (List Char)
  attributes : List (List Char)

/-- `match(name, patterns)` with the default flag `MatchEmptyPattern`, apps/f3dmerge/main.cpp:231, 241 and 267 and
export/PatternMatch.h:96-98. -/
def accepts (glob : List Char → List Char → Bool) (patterns : List (List Char)) (n : Name) : Bool :=
  PatternMatch.matchAttribute glob (n.map fun b => Char.ofNat b.toNat) patterns 1

/-- The calls of `readScalarLayers` and `readVectorLayers` of `writeOutput`, apps/f3dmerge/main.cpp:226-290, in order, with
the type asked for. For Ogawa files both lists of names have all layers. -/
def requests (glob : List Char → List Char → Bool) (opt : Options) (ps : Listing) : List (Voxel × Name × Name) :=
  (ps.partitionNames.filter fun u => accepts glob opt.names u).flatMap fun u =>
    (((ps.layerNames u).filter fun l => accepts glob opt.attributes l).flatMap fun l =>
      scalars.map fun t => (t, u, l)) ++
    (((ps.layerNames u).filter fun l => accepts glob opt.attributes l).flatMap fun l =>
      vectors.map fun t => (t, u, l))

variable {M L F : Type} [FieldClass F]

/-- The fields read by these calls, in order, with their types. For Ogawa files `readScalarLayers<T>` is `readLayers<T>` and
`readVectorLayers<T>` is `readLayers<V3<T>>`, export/Field3DFile.h:470-507. -/
def readRequests (readers : Voxel → Name → Name → List Tree → Res F) (i : In L) :
    List (Voxel × Name × Name) → Res (List (Voxel × Loaded L F))
  | [] => .ok []
  | (t, u, l) :: rs =>
    (i.readLayers (readers t) u l).bind fun fs =>
    (readRequests readers i rs).bind fun gs => .ok (fs.map (fun f => (t, f)) ++ gs)

/-- What writing a field needs from its class: its mapping, and the entries made by `writeMetadata` and `writeField`. -/
structure Saver (M L F : Type) where
  mapping : Option L → M
  mdata : Voxel → Loaded L F → List Entry
  body : Voxel → Loaded L F → List Entry

/-- `writeField`, apps/f3dmerge/main.cpp:195-208: for an Ogawa file all forms end in `writeLayer(field)`, which uses the
name and the attribute of the field, export/Field3DFile.h:702-707, 739-746 and 774-781. (The calls for vector fields give
the voxel type itself as the template argument, so that the second form is called for them, too.) -/
def toWrite (S : Saver M L F) (x : Voxel × Loaded L F) : Write M :=
  ⟨x.2.name, x.2.attr, S.mapping x.2.mapping, S.mdata x.1 x.2, S.body x.1 x.2⟩

/-- How the program ends: undefined behaviour, an exception that is not caught, exit code 1 because a file could not be
created or opened (apps/f3dmerge/main.cpp:110-114, 219-222), or with the output file. -/
inductive End (M : Type) where
  | crash
  | threw
  | exit
  | done (o : Out M)

/-- The calls of `writeField` one after the other. Their results are not looked at, apps/f3dmerge/main.cpp:199 and 207. -/
def writeAll (C : MapIO M) : List (Write M) → Out M → End M
  | [], o => .done o
  | w :: ws, o =>
    match writeLayer C w o with
    | (.crash, _) => .crash
    | (.threw, _) => .threw
    | (_, o) => writeAll C ws o

/-- `writeOutput`, apps/f3dmerge/main.cpp:212-292. `none` is a file that cannot be opened. -/
def writeOutput (C : MapIO M) (S : Saver M L F) (readers : Voxel → Name → Name → List Tree → Res F)
    (glob : List Char → List Char → Bool) (opt : Options) (file : Option (In L)) (o : Out M) : End M :=
  match file with
  | none => .exit
  | some i =>
    match readRequests readers i (requests glob opt i.listing) with
    | .ok fs => writeAll C (fs.map (toWrite S)) o
    | .exception => .threw
    | _ => .crash

/-- The loop over the input files, apps/f3dmerge/main.cpp:118-120. -/
def writeOutputs (C : MapIO M) (S : Saver M L F) (readers : Voxel → Name → Name → List Tree → Res F)
    (glob : List Char → List Char → Bool) (opt : Options) : List (Option (In L)) → Out M → End M
  | [], o => .done o
  | f :: fs, o =>
    match writeOutput C S readers glob opt f o with
    | .done o => writeOutputs C S readers glob opt fs o
    | e => e

/-- `main`, apps/f3dmerge/main.cpp:87-121, with an Ogawa output file; `created` tells whether it could be created. -/
def main (C : MapIO M) (S : Saver M L F) (readers : Voxel → Name → Name → List Tree → Res F)
    (glob : List Char → List Char → Bool) (opt : Options) (created : Bool) (files : List (Option (In L))) : End M :=
  if created then writeOutputs C S readers glob opt files (Out.new.create true) else .exit

end Merge
end F3D
