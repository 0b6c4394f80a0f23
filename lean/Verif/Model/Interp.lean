import Verif.Model.Mac
import Verif.Model.Sparse

/-!
# Interpolators

Models `export/FieldInterp.h` and the sparse interpolator of `export/SparseField.h`. `double` is
modelled by exact rationals and voxel values are rationals (the vector versions work per component).
A field is given by its data window and its `value` function `rd` (`none` is an access the field does
not support: undefined behaviour).
-/

namespace F3D
namespace Interp

def sub (p : V3q) (a : Rat) : V3q := ⟨p.x - a, p.y - a, p.z - a⟩

/-- `V3i c(floor(p.x), floor(p.y), floor(p.z))`. -/
def floor3 (p : V3q) : V3i := ⟨p.x.floor, p.y.floor, p.z.floor⟩

/-- `V3d(c) - p`. -/
def diff (c : V3i) (p : V3q) : V3q := ⟨c.x - p.x, c.y - p.y, c.z - p.z⟩

/-- `std::max(lo, std::min(c, hi))`. -/
def clampMM (lo hi c : Int) : Int := max lo (min c hi)

/-- `std::min(hi, std::max(lo, c))`. -/
def clampLM (lo hi c : Int) : Int := min hi (max lo c)

/-- The trilinear expression, export/FieldInterp.h:636-644 (and 796-804, 863-871, ...). -/
def tri (rd : V3i → Option Rat) (c1 c2 : V3i) (f1 f2 : V3q) : Option Rat := do
  let v111 ← rd ⟨c1.x, c1.y, c1.z⟩
  let v112 ← rd ⟨c1.x, c1.y, c2.z⟩
  let v121 ← rd ⟨c1.x, c2.y, c1.z⟩
  let v122 ← rd ⟨c1.x, c2.y, c2.z⟩
  let v211 ← rd ⟨c2.x, c1.y, c1.z⟩
  let v212 ← rd ⟨c2.x, c1.y, c2.z⟩
  let v221 ← rd ⟨c2.x, c2.y, c1.z⟩
  let v222 ← rd ⟨c2.x, c2.y, c2.z⟩
  some (f1.x * (f1.y * (f1.z * v111 + f2.z * v112) +
                f2.y * (f1.z * v121 + f2.z * v122)) +
        f2.x * (f1.y * (f1.z * v211 + f2.z * v212) +
                f2.y * (f1.z * v221 + f2.z * v222)))

/-- `LinearFieldInterp::sample`, export/FieldInterp.h:604-646. -/
def linear (dw : Box3i) (rd : V3i → Option Rat) (vsP : V3q) : Option Rat :=
  let p := sub vsP (1 / 2)
  let c1 := floor3 p
  let c2 := c1 + V3i.all 1
  let f1 := diff c2 p
  let f2 : V3q := ⟨1 - f1.x, 1 - f1.y, 1 - f1.z⟩
  let d1 : V3i := ⟨clampMM dw.min.x dw.max.x c1.x, clampMM dw.min.y dw.max.y c1.y,
    clampMM dw.min.z dw.max.z c1.z⟩
  let d2 : V3i := ⟨clampMM dw.min.x dw.max.x c2.x, clampMM dw.min.y dw.max.y c2.y,
    clampMM dw.min.z dw.max.z c2.z⟩
  tri rd d1 d2 f1 f2

/-- `LinearGenericFieldInterp::sample`, export/FieldInterp.h:766-806 (`rd` is `fastValue`). -/
def linearGeneric (dw : Box3i) (rd : V3i → Option Rat) (vsP : V3q) : Option Rat :=
  let p := sub vsP (1 / 2)
  let c1 := floor3 p
  let c2 := c1 + V3i.all 1
  let f1 := diff c2 p
  let f2 : V3q := ⟨1 - f1.x, 1 - f1.y, 1 - f1.z⟩
  let d1 : V3i := ⟨clampLM dw.min.x dw.max.x c1.x, clampLM dw.min.y dw.max.y c1.y,
    clampLM dw.min.z dw.max.z c1.z⟩
  let d2 : V3i := ⟨clampLM dw.min.x dw.max.x c2.x, clampLM dw.min.y dw.max.y c2.y,
    clampLM dw.min.z dw.max.z c2.z⟩
  tri rd d1 d2 f1 f2

/-- `LinearSparseFieldInterp::sample`, export/SparseField.h:112-196, for a field in memory
(`isDynamicLoad()` is false). `blockData(bi,bj,bk)` is the data pointer of the block; pointers into it
are offsets, and reading outside the block's data is `none`. -/
def sparse (f : Sparse Rat) (vsP : V3q) : Option Rat :=
  let dw := f.dw
  let p := sub vsP (1 / 2)
  let c1 := floor3 p
  let c2 := c1 + V3i.all 1
  let f1 := diff c2 p
  let f2 : V3q := ⟨1 - f1.x, 1 - f1.y, 1 - f1.z⟩
  let d1 : V3i := ⟨clampLM dw.min.x dw.max.x c1.x, clampLM dw.min.y dw.max.y c1.y,
    clampLM dw.min.z dw.max.z c1.z⟩
  let d2 : V3i := ⟨clampLM dw.min.x dw.max.x c2.x, clampLM dw.min.y dw.max.y c2.y,
    clampLM dw.min.z dw.max.z c2.z⟩
  let q := f.offsetCoord d1
  let v := f.voxelInBlock q
  let b := f.blockCoord q
  let bs : Int := (2 ^ f.order : Nat)
  if v.x < bs - 1 ∧ v.y < bs - 1 ∧ v.z < bs - 1 then
    match f.blockIsAllocated b with
    | none => none
    | some true =>
      match f.block? (f.blockId b) with
      | none => none
      | some blk => do
        let c111 := v.x + v.y * bs + v.z * bs * bs
        let c121 := c111 + bs * (d2.y - d1.y)
        let c112 := c111 + bs * bs * (d2.z - d1.z)
        let c122 := c112 + bs * (d2.y - d1.y)
        let xInc := d2.x - d1.x
        let v111 ← blk.read c111
        let v112 ← blk.read c112
        let v121 ← blk.read c121
        let v122 ← blk.read c122
        let v211 ← blk.read (c111 + xInc)
        let v212 ← blk.read (c112 + xInc)
        let v221 ← blk.read (c121 + xInc)
        let v222 ← blk.read (c122 + xInc)
        some (f1.x * (f1.y * (f1.z * v111 + f2.z * v112) +
                      f2.y * (f1.z * v121 + f2.z * v122)) +
              f2.x * (f1.y * (f1.z * v211 + f2.z * v212) +
                      f2.y * (f1.z * v221 + f2.z * v222)))
    | some false => f.getBlockEmptyValue b
  else tri f.value d1 d2 f1 f2

/-- The sample position of a component: faces are centered in the two other directions only,
export/FieldInterp.h:825, 875, 915 and 981, 1015, 1049. -/
def macPos (c : MacComp) (vsP : V3q) : V3q :=
  match c with
  | .u => ⟨vsP.x, vsP.y - 1 / 2, vsP.z - 1 / 2⟩
  | .v => ⟨vsP.x - 1 / 2, vsP.y, vsP.z - 1 / 2⟩
  | .w => ⟨vsP.x - 1 / 2, vsP.y - 1 / 2, vsP.z⟩

/-- The upper clamp limit of a component, export/FieldInterp.h:845-850, 893-898, 933-938. -/
def macMax (dw : Box3i) : MacComp → V3i
  | .u => ⟨dw.max.x + 1, dw.max.y, dw.max.z⟩
  | .v => ⟨dw.max.x, dw.max.y + 1, dw.max.z⟩
  | .w => ⟨dw.max.x, dw.max.y, dw.max.z + 1⟩

/-- `LinearMACFieldInterp::sample(data, comp, vsP)`, export/FieldInterp.h:953-1073: the three cases
differ in the position, the clamp limits and the accessor only. -/
def macComp (f : Mac) (c : MacComp) (vsP : V3q) : Option Rat :=
  let p := macPos c vsP
  let c1 := floor3 p
  let c2 : V3i := ⟨c1.x + 1, c1.y + 1, c1.z + 1⟩
  let f1 := diff c2 p
  let f2 : V3q := ⟨1 - f1.x, 1 - f1.y, 1 - f1.z⟩
  let hi := macMax f.dw c
  let d1 : V3i := ⟨clampLM f.dw.min.x hi.x c1.x, clampLM f.dw.min.y hi.y c1.y,
    clampLM f.dw.min.z hi.z c1.z⟩
  let d2 : V3i := ⟨clampLM f.dw.min.x hi.x c2.x, clampLM f.dw.min.y hi.y c2.y,
    clampLM f.dw.min.z hi.z c2.z⟩
  tri (f.face c) d1 d2 f1 f2

/-- `LinearMACFieldInterp::sample(data, vsP)`, export/FieldInterp.h:813-951: one block per component
(819-871, 873-911, 913-949). -/
def macVec (f : Mac) (vsP : V3q) : Option V3q := do
  -- X component
  let p : V3q := ⟨vsP.x, vsP.y - 1 / 2, vsP.z - 1 / 2⟩
  let c1 := floor3 p
  let c2 := c1 + V3i.all 1
  let f1 := diff c2 p
  let f2 : V3q := ⟨1 - f1.x, 1 - f1.y, 1 - f1.z⟩
  let x ← tri (f.face .u)
    ⟨clampLM f.dw.min.x (f.dw.max.x + 1) c1.x, clampLM f.dw.min.y f.dw.max.y c1.y,
      clampLM f.dw.min.z f.dw.max.z c1.z⟩
    ⟨clampLM f.dw.min.x (f.dw.max.x + 1) c2.x, clampLM f.dw.min.y f.dw.max.y c2.y,
      clampLM f.dw.min.z f.dw.max.z c2.z⟩ f1 f2
  -- Y component
  let p : V3q := ⟨vsP.x - 1 / 2, vsP.y, vsP.z - 1 / 2⟩
  let c1 := floor3 p
  let c2 : V3i := ⟨c1.x + 1, c1.y + 1, c1.z + 1⟩
  let f1 := diff c2 p
  let f2 : V3q := ⟨1 - f1.x, 1 - f1.y, 1 - f1.z⟩
  let y ← tri (f.face .v)
    ⟨clampLM f.dw.min.x f.dw.max.x c1.x, clampLM f.dw.min.y (f.dw.max.y + 1) c1.y,
      clampLM f.dw.min.z f.dw.max.z c1.z⟩
    ⟨clampLM f.dw.min.x f.dw.max.x c2.x, clampLM f.dw.min.y (f.dw.max.y + 1) c2.y,
      clampLM f.dw.min.z f.dw.max.z c2.z⟩ f1 f2
  -- Z component
  let p : V3q := ⟨vsP.x - 1 / 2, vsP.y - 1 / 2, vsP.z⟩
  let c1 := floor3 p
  let c2 : V3i := ⟨c1.x + 1, c1.y + 1, c1.z + 1⟩
  let f1 := diff c2 p
  let f2 : V3q := ⟨1 - f1.x, 1 - f1.y, 1 - f1.z⟩
  let z ← tri (f.face .w)
    ⟨clampLM f.dw.min.x f.dw.max.x c1.x, clampLM f.dw.min.y f.dw.max.y c1.y,
      clampLM f.dw.min.z (f.dw.max.z + 1) c1.z⟩
    ⟨clampLM f.dw.min.x f.dw.max.x c2.x, clampLM f.dw.min.y f.dw.max.y c2.y,
      clampLM f.dw.min.z (f.dw.max.z + 1) c2.z⟩ f1 f2
  some ⟨x, y, z⟩

/-- `monotonicCubicInterpolant`, export/FieldInterp.h:1565-1588 (and per component 1596-1624). -/
def mono (f1 f2 f3 f4 t : Rat) : Rat :=
  let delta := f3 - f2
  let dk := if delta = 0 then 0 else 1 / 2 * (f3 - f1)
  let dk1 := if delta = 0 then 0 else 1 / 2 * (f4 - f2)
  let a0 := f2
  let a1 := dk
  let a2 := 3 * delta - 2 * dk - dk1
  let a3 := dk + dk1 - 2 * delta
  a3 * (t * t * t) + a2 * (t * t) + a1 * t + a0

/-- The four lookups of one line. -/
def line4 (rd : Int → Option Rat) (m1 m p1 p2 : Int) (t : Rat) : Option Rat := do
  let a ← rd m1
  let b ← rd m
  let c ← rd p1
  let d ← rd p2
  some (mono a b c d t)

/-- The 16 lines in z, 4 lines in y and the line in x, export/FieldInterp.h:692-762, with the
coordinate clamping of lines 673-690: `lo`, `hi` are the clamp limits, `c` the lower left corner, `t`
the fractions. -/
def cubicLines (lo hi : V3i) (rd : V3i → Option Rat) (c : V3i) (t : V3q) : Option Rat :=
  let im := clampMM lo.x hi.x c.x
  let jm := clampMM lo.y hi.y c.y
  let km := clampMM lo.z hi.z c.z
  let im_1 := clampMM lo.x hi.x (im - 1)
  let jm_1 := clampMM lo.y hi.y (jm - 1)
  let km_1 := clampMM lo.z hi.z (km - 1)
  let im1 := clampMM lo.x hi.x (im + 1)
  let jm1 := clampMM lo.y hi.y (jm + 1)
  let km1 := clampMM lo.z hi.z (km + 1)
  let im2 := clampMM lo.x hi.x (im + 2)
  let jm2 := clampMM lo.y hi.y (jm + 2)
  let km2 := clampMM lo.z hi.z (km + 2)
  line4 (fun i => line4 (fun j => line4 (fun k => rd ⟨i, j, k⟩) km_1 km km1 km2 t.z)
    jm_1 jm jm1 jm2 t.y) im_1 im im1 im2 t.x

/-- `std::max(0.5, v)`. -/
def maxHalf (v : Rat) : Rat := if 1 / 2 < v then v else 1 / 2

/-- `CubicFieldInterp::sample`, export/FieldInterp.h:650-764, and
`CubicGenericFieldInterp::sample`, 1081-1200. -/
def cubic (dw : Box3i) (rd : V3i → Option Rat) (vsP : V3q) : Option Rat :=
  let clamped : V3q := ⟨maxHalf vsP.x, maxHalf vsP.y, maxHalf vsP.z⟩
  let p := sub clamped (1 / 2)
  let c := floor3 p
  let t : V3q := ⟨p.x - c.x, p.y - c.y, p.z - c.z⟩
  cubicLines dw.min dw.max rd c t

/-- One component of `CubicMACFieldInterp::sample`, export/FieldInterp.h:1204-1540: the coordinate
along the face direction is not shifted (1222-1224, 1329, 1430). -/
def cubicMac (f : Mac) (c : MacComp) (vsP : V3q) : Option Rat :=
  let clamped : V3q := ⟨maxHalf vsP.x, maxHalf vsP.y, maxHalf vsP.z⟩
  let p : V3q := match c with
    | .u => ⟨vsP.x, clamped.y - 1 / 2, clamped.z - 1 / 2⟩
    | .v => ⟨clamped.x - 1 / 2, vsP.y, clamped.z - 1 / 2⟩
    | .w => ⟨clamped.x - 1 / 2, clamped.y - 1 / 2, vsP.z⟩
  let i := floor3 p
  let t : V3q := ⟨p.x - i.x, p.y - i.y, p.z - i.z⟩
  cubicLines f.dw.min (macMax f.dw c) (f.face c) i t

end Interp
end F3D
