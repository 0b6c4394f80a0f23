import Verif.Model.CopyFrom
import Verif.Model.CoordSys
import Verif.Model.MipInterp

/-!
# The mappings of MIP levels

Models `adjustedMIPFieldMapping` and `computeOffset`, src/MIPUtil.cpp, and `MIPField::mappingChanged`,
export/MIPField.h, in exact arithmetic: the conversion of the voxel size to `float` is left out. The square root is a
parameter.
-/

namespace F3D
namespace MipMapping
open Identical (Map)
open Mapping Copy

/-- `Vec3::normalized` (Imath), src/MIPUtil.cpp:126-128: the zero vector stays zero. -/
def normalized (root : Rat → Rat) (v : V3q) : V3q :=
  let l := root (v.x * v.x + v.y * v.y + v.z * v.z)
  if l = 0 then ⟨0, 0, 0⟩ else ⟨v.x / l, v.y / l, v.z / l⟩

def minus (a b : V3q) : V3q := ⟨a.x - b.x, a.y - b.y, a.z - b.z⟩
def plus (a b : V3q) : V3q := ⟨a.x + b.x, a.y + b.y, a.z + b.z⟩
def times (a : V3q) (k : Rat) : V3q := ⟨a.x * k, a.y * k, a.z * k⟩

/-- One component of `diff`, src/MIPUtil.cpp:96-102. The shifts of the `int` offset are a floor division and a
multiplication by `2^level`. -/
def diff1 (off : Int) (level : Nat) : Rat := ((off / 2 ^ level * 2 ^ level - off : Int) : Rat)

/-- The matrix of one time sample, src/MIPUtil.cpp:119-138: `s` is `wsBaseVoxelSize`, `res` the resolution of the
level. `none`: a position is not finite. -/
def sampleMatrix (root : Rat → Rat) (m : Matrix) (s : V3q) (off : V3i) (level : Nat) (res : V3i) (t : Rat) :
    Option M44 :=
  match m.localToWorldAt ⟨0, 0, 0⟩ t, m.localToWorldAt ⟨1, 0, 0⟩ t, m.localToWorldAt ⟨0, 1, 0⟩ t,
    m.localToWorldAt ⟨0, 0, 1 / 10⟩ t with
  | some o, some x, some y, some z =>
    let wsX := normalized root (minus x o)
    let wsY := normalized root (minus y o)
    let wsZ := normalized root (minus z o)
    let o := plus o (times (times wsX s.x) (diff1 off.x level))
    let o := plus o (times (times wsY s.y) (diff1 off.y level))
    let o := plus o (times (times wsZ s.z) (diff1 off.z level))
    some (CoordSys.ofBasis (times wsX (s.x * 2 ^ level * res.x)) (times wsY (s.y * 2 ^ level * res.y))
      (times wsZ (s.z * 2 ^ level * res.z)) o)
  | _, _, _, _ => none

/-- The loop over the samples, src/MIPUtil.cpp:117-141, from the mapping made so far. -/
def addSamples (root : Rat → Rat) (m : Matrix) (s : V3q) (off : V3i) (level : Nat) (res : V3i) :
    List Rat → Matrix → Option Matrix
  | [], new => some new
  | t :: l, new =>
    (sampleMatrix root m s off level res t).bind fun x => addSamples root m s off level res l (new.setLocalToWorldAt t x)

/-- `adjustedMIPFieldMapping` of a matrix mapping, src/MIPUtil.cpp:104-143: the voxel size is that at time 0. -/
def adjustedMatrix (root : Rat → Rat) (m : Matrix) (off : V3i) (extents : Box3i) (level : Nat) : Option Matrix :=
  m.wsVoxelSizeSq.bind fun sq =>
    addSamples root m ⟨root sq.x, root sq.y, root sq.z⟩ off level (extents.size + V3i.all 1)
      (m.lsToWsCurve.map (·.1)) (Matrix.new Frame.default)

/-- `adjustedMIPFieldMapping`, src/MIPUtil.cpp:82-149: other mappings are returned as they are. -/
def adjusted (root : Rat → Rat) (m : Map) (off : V3i) (extents : Box3i) (level : Nat) : Option Map :=
  match m with
  | .matrix m => (adjustedMatrix root m off extents level).map .matrix
  | m => some m

/-- The mapping of level `level` with the given extents after the mapping of the MIP field became `m`,
`mappingChanged`, export/MIPField.h:548-567, and `setMapping` of the level, export/Field.h:347-360. It is the same
when the level is loaded later, export/MIPField.h:704-710, except that level 0 is then also adjusted. -/
def levelMapping (root : Rat → Rat) (m : Map) (off : V3i) (extents : Box3i) (level : Nat) : Option Map :=
  if level = 0 then setExtents m extents
  else (adjusted root m off extents level).bind fun m => setExtents m extents

/-- The mapping of a level that is loaded later, `loadLevelFromDisk`, export/MIPField.h:704-710. -/
def loadedMapping (root : Rat → Rat) (m : Map) (off : V3i) (extents : Box3i) (level : Nat) : Option Map :=
  (adjusted root m off extents level).bind fun m => setExtents m extents

/-- One component of the offset, src/MIPUtil.cpp:163-165; a conversion or negation outside of `int` is `none`. -/
def offset1 (p : Rat) : Option Int := (Cont.toInt (p + 1 / 2).floor).bind fun n => Cont.toInt (-n)

/-- `computeOffset`, src/MIPUtil.cpp:157-168, of a field with a matrix mapping. -/
def computeOffset (m : Matrix) : Option V3i := do
  let p ← m.worldToVoxel ⟨0, 0, 0⟩
  let x ← offset1 p.x
  let y ← offset1 p.y
  let z ← offset1 p.z
  some ⟨x, y, z⟩

end MipMapping
end F3D
