import Verif.Model.Hdf5Mapping
import Verif.Props.Identical
import Verif.Props.WholeFile
import Verif.Spec.Hdf5Files

/-!
# Mappings that programs write to HDF5 files
-/

namespace F3D
namespace Hdf5
open Ogawa Og FieldIO Mapping
open MappingIO (BSample curveVal Loaded)
open LayerIO (MatrixMap)
open Props (runCalls SameMatrix SameFrustum SameParts)

/-- A frustum mapping after any calls of `setTransforms`, and `setZDistribution`, with the bytes of its samples. `k` is the
cotangent used by the default frustum. -/
structure FrustumMap (k : Rat) where
  start : Frustum
  obj : Frustum
  calls : List (Rat × M44 × M44)
  new : Frustum.new k = some start
  run : runCalls start calls = some obj
  dist : ZDist
  screen : List BSample
  camera : List BSample
  sameScreen : curveVal screen = some obj.ssToWsCurve
  sameCamera : curveVal camera = some obj.csToWsCurve
  count : screen.length < 2 ^ 31

/-- A mapping of one of the classes of the library. -/
inductive FileMap (k : Rat) where
  | null
  | matrix (m : MatrixMap)
  | frustum (m : FrustumMap k)

variable {k : Rat}

/-- What the IO classes look at. -/
def FileMap.bits : FileMap k → MapBits
  | .null => .null
  | .matrix m => .matrix m.samples
  | .frustum m => .frustum m.screen m.camera m.dist

/-- The object. -/
def FileMap.obj : FileMap k → Identical.Map
  | .null => .null
  | .matrix m => .matrix (Matrix.run m.frame m.ops)
  | .frustum m => .frustum (m.obj.setZDistribution m.dist)

/-- Writing the mapping is defined: a frustum has its transforms of the constructor, or some were given for time 0. -/
def FileMap.Held : FileMap k → Prop
  | .frustum m => m.calls = [] ∨ ∃ c ∈ m.calls, c.1 = 0
  | _ => True

/-- A mapping that was read is the one that was written. -/
def SameMapping : FileMap k → Loaded → Prop
  | .null, x => x = .null
  | .matrix m, x => ∃ m', x = .matrix m' ∧ SameMatrix (Matrix.run m.frame m.ops) m'
  | .frustum m, x => ∃ m', x = .frustum m' ∧ SameFrustum (m.obj.setZDistribution m.dist) m'

/-- The mappings of the library, compared as when files are written, src/Field3DFileHDF5.cpp (without tolerance). -/
def libraryMaps (R : Identical.Reals) (k : Rat) : MapIO (FileMap k) where
  ident a b := (Identical.isIdentical R 0 a.obj b.obj).getD false
  write m := writeMapBits m.bits

/-- The matrices by which the comparison tells mappings apart, with their times. -/
def FileMap.samples : FileMap k → List (Rat × M44)
  | .null => []
  | .matrix m => (Matrix.run m.frame m.ops).lsToWsCurve
  | .frustum m => m.obj.lpsToWsCurve
def FileMap.cameras : FileMap k → List (Rat × M44)
  | .frustum m => m.obj.csToWsCurve
  | _ => []

/-- No matrices of the two mappings, at the same time, differ in nothing but shear and last column. -/
def NoShear (R : Identical.Reals) (a b : FileMap k) : Prop :=
  (∀ x ∈ a.samples, ∀ y ∈ b.samples, x.1 = y.1 → SameParts R x.2 y.2 → x.2 = y.2) ∧
  ∀ x ∈ a.cameras, ∀ y ∈ b.cameras, x.1 = y.1 → SameParts R x.2 y.2 → x.2 = y.2

end Hdf5
end F3D
