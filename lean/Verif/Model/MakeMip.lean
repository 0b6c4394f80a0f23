import Verif.Model.Merge

/-!
# Making MIP fields for a file

Models the program `f3dmakemip`, apps/f3dmakemip/main.cpp, for Ogawa files: which layers it reads, which of them it filters,
and what it writes. Reading and writing are those of `Verif.Model.Files`; the filtering itself (`makeMIP`, `makeMinMax`,
`Verif.Model.Resample` and `Verif.Model.MinMax`) is a given function. Left out: the parsing of the command line, HDF5
files, an output file that is also an input file, the text on the console. As in `Verif.Model.Merge` all layers of a file are
read before the first one is written.
-/

namespace F3D
namespace MakeMip
open Ogawa Og FieldIO Files
open Merge (Voxel End writeAll readRequests)
open Metadata (Meta)

/-- The classes that `makeMIP` tells apart by casts, apps/f3dmakemip/main.cpp:258, 279, 300 and 321. -/
inductive Shape
  | dense
  | sparse
  | mipDense
  | mipSparse
  | other
deriving DecidableEq

/-- The three fields that are made: with `TriangleFilter`, `MinFilter` and `MaxFilter`. -/
inductive Job
  | mip
  | min
  | max
deriving DecidableEq

/-- What is added to the attribute, apps/f3dmakemip/main.cpp:270-271, with src/MinMaxUtil.cpp:55-56: "_min", "_max". -/
def Job.suffix : Job → Name
  | .mip => []
  | .min => [95, 109, 105, 110]
  | .max => [95, 109, 97, 120]

/-- What making a field can end with: undefined behaviour, an exception, a null pointer, or a MIP field: what is written for
it. -/
inductive Made (M : Type) where
  | crash
  | threw
  | null
  | made (mapping : M) (mdata body : List Entry)

variable {M L F : Type}

/-- What the program needs from fields: their class, the finest level of a MIP field (`concreteMipLevel(0)`), and the filtering
of a dense or sparse field. The offset is computed from the mapping, src/MIPUtil.cpp:157-168. The finest level of a MIP field has
the name, the attribute and the metadata of the field (export/MIPField.h:660-671) and its mapping. -/
structure Maker (M L F : Type) where
  shape : F → Shape
  level0 : F → F
  make : Job → Voxel → Option L → Meta → F → Made M

/-- What is filtered, apps/f3dmakemip/main.cpp:260-262, 281-283, 302-304 and 323-324. -/
def Maker.base (K : Maker M L F) (f : F) : F :=
  match K.shape f with
  | .mipDense | .mipSparse => K.level0 f
  | _ => f

/-- One of the calls of `makeMIP` or one half of a call of `makeMinMax`. -/
def Maker.run (K : Maker M L F) (j : Job) (x : Voxel × Loaded L F) : Made M :=
  K.make j x.1 x.2.mapping x.2.info (K.base x.2.data)

/-- The layer written by `writeField`, apps/f3dmakemip/main.cpp:224-239: with the name and the attribute of the field that was
filtered (export/MIPUtil.h:536-537, export/Resample.h:543-544) and the suffix. -/
def layer (j : Job) (x : Voxel × Loaded L F) (m : M) (mdata body : List Entry) : Write M :=
  ⟨x.2.name, x.2.attr ++ j.suffix, m, mdata, body⟩

/-- The min/max fields, apps/f3dmakemip/main.cpp:265-274 (and 286-295, 307-316, 327-336): both are made, then both are renamed,
then both are written. A null pointer is dereferenced. -/
def makeMinMax (C : MapIO M) (K : Maker M L F) (x : Voxel × Loaded L F) (o : Out M) : End M :=
  match K.run .min x with
  | .crash => .crash
  | .threw => .threw
  | p =>
    match K.run .max x with
    | .crash => .crash
    | .threw => .threw
    | q =>
      match p, q with
      | .made m1 d1 b1, .made m2 d2 b2 => writeAll C [layer .min x m1 d1 b1, layer .max x m2 d2 b2] o
      | _, _ => .crash

/-- `makeMIP` for one field, apps/f3dmakemip/main.cpp:243-340: the four cases do the same. `writeField` dereferences the
pointer that the library function `makeMIP` returned, also if it is null. Other classes are left out. -/
def makeMIP (C : MapIO M) (K : Maker M L F) (doMinMax : Bool) (x : Voxel × Loaded L F) (o : Out M) : End M :=
  match K.shape x.2.data with
  | .other => .done o
  | _ =>
    match K.run .mip x with
    | .crash => .crash
    | .threw => .threw
    | .null => .crash
    | .made m d b =>
      match writeAll C [layer .mip x m d b] o with
      | .done o => if doMinMax then makeMinMax C K x o else .done o
      | e => e

/-- The loops over the fields that were read, apps/f3dmakemip/main.cpp:383-399 and 409-425. -/
def makeAll (C : MapIO M) (K : Maker M L F) (doMinMax : Bool) : List (Voxel × Loaded L F) → Out M → End M
  | [], o => .done o
  | x :: xs, o =>
    match makeMIP C K doMinMax x o with
    | .done o => makeAll C K doMinMax xs o
    | e => e

variable [FieldClass F]

/-- `makeMIP` for a file, apps/f3dmakemip/main.cpp:344-430. The requests are those of `f3dmerge`: the test for attributes that
contain "_min" or "_max", lines 377-381, prints that they are skipped, but nothing else. -/
def makeFile (C : MapIO M) (K : Maker M L F) (readers : Voxel → Name → Name → List Tree → Res F)
    (glob : List Char → List Char → Bool) (opt : Merge.Options) (doMinMax : Bool) (file : Option (In L)) (o : Out M) : End M :=
  match file with
  | none => .exit
  | some i =>
    match readRequests readers i (Merge.requests glob opt i.listing) with
    | .ok fs => makeAll C K doMinMax fs o
    | .exception => .threw
    | _ => .crash

/-- The loop over the input files, apps/f3dmakemip/main.cpp:125-127. -/
def makeFiles (C : MapIO M) (K : Maker M L F) (readers : Voxel → Name → Name → List Tree → Res F)
    (glob : List Char → List Char → Bool) (opt : Merge.Options) (doMinMax : Bool) : List (Option (In L)) → Out M → End M
  | [], o => .done o
  | f :: fs, o =>
    match makeFile C K readers glob opt doMinMax f o with
    | .done o => makeFiles C K readers glob opt doMinMax fs o
    | e => e

/-- `main`, apps/f3dmakemip/main.cpp:96-128, with an Ogawa output file; `created` tells whether it could be created. -/
def main (C : MapIO M) (K : Maker M L F) (readers : Voxel → Name → Name → List Tree → Res F)
    (glob : List Char → List Char → Bool) (opt : Merge.Options) (doMinMax : Bool) (created : Bool)
    (files : List (Option (In L))) : End M :=
  if created then makeFiles C K readers glob opt doMinMax files (Out.new.create true) else .exit

end MakeMip
end F3D
