import Verif.Model.Xform
import Verif.Model.Curve

/-!
# Field mappings

Models src/FieldMapping.cpp and export/FieldMapping.h, in exact arithmetic. A result that is not finite (division
by zero) is `none`.
-/

namespace F3D
namespace Mapping

open Cont (discToCont)

/-! ## The base class -/

/-- `m_origin` and `m_res`, export/FieldMapping.h:194-199. -/
structure Frame where
  origin : V3q
  res : V3q
deriving DecidableEq, Repr

/-- The default constructor, src/FieldMapping.cpp:112-118. -/
def Frame.default : Frame := ⟨⟨0, 0, 0⟩, ⟨1, 1, 1⟩⟩

/-- `setExtents`, src/FieldMapping.cpp:145-150. The `int` subtraction is assumed not to overflow. -/
def Frame.ofExtents (e : Box3i) : Frame :=
  ⟨⟨(e.min.x : Int), (e.min.y : Int), (e.min.z : Int)⟩,
   ⟨(e.max.x - e.min.x + 1 : Int), (e.max.y - e.min.y + 1 : Int), (e.max.z - e.min.z + 1 : Int)⟩⟩

/-- `localToVoxel`, src/FieldMapping.cpp:154-157. -/
def Frame.localToVoxel (f : Frame) (p : V3q) : V3q :=
  ⟨f.origin.x + p.x * f.res.x, f.origin.y + p.y * f.res.y, f.origin.z + p.z * f.res.z⟩

/-- `voxelToLocal`, src/FieldMapping.cpp:161-166. -/
def Frame.voxelToLocal (f : Frame) (p : V3q) : V3q :=
  ⟨Curve.lerpfactor p.x f.origin.x (f.origin.x + f.res.x), Curve.lerpfactor p.y f.origin.y (f.origin.y + f.res.y),
   Curve.lerpfactor p.z f.origin.z (f.origin.z + f.res.z)⟩

/-- `getLocalToVoxelMatrix`, src/FieldMapping.cpp:401-409. -/
def Frame.localToVoxelMatrix (f : Frame) : M44 := (M44.setScale f.res).mul (M44.setTranslation f.origin)

/-! ## Matrix mappings -/

/-- The members of `MatrixFieldMapping`, export/FieldMapping.h:480-508 (voxel size squared). -/
structure Matrix where
  frame : Frame
  lsToWsCurve : Curve M44
  vsToWsCurve : Curve M44
  isTimeVarying : Bool
  lsToWs : M44
  wsToLs : M44
  vsToWs : M44
  wsToVs : M44
  wsVoxelSizeSq : Option V3q

/-- `linear` of a matrix curve: the default value is the identity, export/Curve.h:253-260. -/
def sampleM (c : Curve M44) (t : Rat) : M44 := Curve.linear M44.lerp M44.one c t

/-- The squared distance of two points. -/
def distSq (a b : V3q) : Rat :=
  (a.x - b.x) * (a.x - b.x) + (a.y - b.y) * (a.y - b.y) + (a.z - b.z) * (a.z - b.z)

/-- The voxel size, src/FieldMapping.cpp:388-396 (its square). -/
def voxelSizeSq (vsToWs : M44) : Option V3q := do
  let o ← vsToWs.multVec ⟨0, 0, 0⟩
  let x ← vsToWs.multVec ⟨1, 0, 0⟩
  let y ← vsToWs.multVec ⟨0, 1, 0⟩
  let z ← vsToWs.multVec ⟨0, 0, 1⟩
  some ⟨distSq x o, distSq y o, distSq z o⟩

/-- `updateTransform`, src/FieldMapping.cpp:359-397. -/
def Matrix.update (m : Matrix) : Matrix :=
  let vsToLs := m.frame.localToVoxelMatrix.inverse
  let lsToWs := sampleM m.lsToWsCurve 0
  let vsToWs := vsToLs.mul lsToWs
  { frame := m.frame
    lsToWsCurve := m.lsToWsCurve
    vsToWsCurve := m.lsToWsCurve.foldl (fun c s => Curve.addSample c s.1 (vsToLs.mul s.2)) []
    isTimeVarying := decide (m.lsToWsCurve.length > 1)
    lsToWs := lsToWs
    wsToLs := lsToWs.inverse
    vsToWs := vsToWs
    wsToVs := vsToWs.inverse
    wsVoxelSizeSq := voxelSizeSq vsToWs }

/-- `makeIdentity`, src/FieldMapping.cpp:282-286. -/
def Matrix.makeIdentity (m : Matrix) : Matrix := Matrix.update { m with lsToWsCurve := [] }

/-- `setLocalToWorld(t, lsToWs)`, src/FieldMapping.cpp:274-278. -/
def Matrix.setLocalToWorldAt (m : Matrix) (t : Rat) (x : M44) : Matrix :=
  Matrix.update { m with lsToWsCurve := Curve.addSample m.lsToWsCurve t x }

/-- `setLocalToWorld(lsToWs)`, src/FieldMapping.cpp:264-270. -/
def Matrix.setLocalToWorld (m : Matrix) (x : M44) : Matrix :=
  Matrix.setLocalToWorldAt (if m.lsToWsCurve.length > 0 then m.makeIdentity else m) 0 x

/-- `setExtents` of a matrix mapping, src/FieldMapping.cpp:145-150 and 290-293. -/
def Matrix.setExtents (m : Matrix) (e : Box3i) : Matrix := Matrix.update { m with frame := Frame.ofExtents e }

/-- The constructors, src/FieldMapping.cpp:248-260: members before `makeIdentity` are irrelevant. -/
def Matrix.new (f : Frame) : Matrix :=
  Matrix.makeIdentity ⟨f, [], [], false, M44.one, M44.one, M44.one, M44.one, none⟩

/-- The calls that change a matrix mapping. -/
inductive Op where
  | setExtents (e : Box3i)
  | setLocalToWorld (x : M44)
  | setLocalToWorldAt (t : Rat) (x : M44)
  | makeIdentity

def Matrix.apply (m : Matrix) : Op → Matrix
  | .setExtents e => m.setExtents e
  | .setLocalToWorld x => m.setLocalToWorld x
  | .setLocalToWorldAt t x => m.setLocalToWorldAt t x
  | .makeIdentity => m.makeIdentity

/-- `worldToVoxel(wsP, vsP)`, export/FieldMapping.h:395-396. -/
def Matrix.worldToVoxel (m : Matrix) (p : V3q) : Option V3q := m.wsToVs.multVec p
/-- `worldToVoxel(wsP, vsP, time)`, export/FieldMapping.h:397-405. -/
def Matrix.worldToVoxelAt (m : Matrix) (p : V3q) (t : Rat) : Option V3q :=
  if !m.isTimeVarying then m.wsToVs.multVec p else (sampleM m.vsToWsCurve t).inverse.multVec p
/-- `worldToVoxel(time)`, export/FieldMapping.h:355-362. -/
def Matrix.worldToVoxelMatrix (m : Matrix) (t : Rat) : M44 :=
  if !m.isTimeVarying then m.wsToVs else (sampleM m.vsToWsCurve t).inverse
/-- `voxelToWorld(vsP, wsP)`, export/FieldMapping.h:407-408. -/
def Matrix.voxelToWorld (m : Matrix) (p : V3q) : Option V3q := m.vsToWs.multVec p
/-- `voxelToWorld(vsP, wsP, time)`, export/FieldMapping.h:409-417. -/
def Matrix.voxelToWorldAt (m : Matrix) (p : V3q) (t : Rat) : Option V3q :=
  if !m.isTimeVarying then m.vsToWs.multVec p else (sampleM m.vsToWsCurve t).multVec p
/-- `worldToLocal(wsP, lsP)`, export/FieldMapping.h:419-420. -/
def Matrix.worldToLocal (m : Matrix) (p : V3q) : Option V3q := m.wsToLs.multVec p
/-- `worldToLocal(wsP, lsP, time)`, export/FieldMapping.h:421-430. -/
def Matrix.worldToLocalAt (m : Matrix) (p : V3q) (t : Rat) : Option V3q :=
  if !m.isTimeVarying then m.wsToLs.multVec p else (sampleM m.lsToWsCurve t).inverse.multVec p
/-- `localToWorld(lsP, wsP)`, export/FieldMapping.h:432-433. -/
def Matrix.localToWorld (m : Matrix) (p : V3q) : Option V3q := m.lsToWs.multVec p
/-- `localToWorld(lsP, wsP, time)`, export/FieldMapping.h:434-442. -/
def Matrix.localToWorldAt (m : Matrix) (p : V3q) (t : Rat) : Option V3q :=
  if !m.isTimeVarying then m.lsToWs.multVec p else (sampleM m.lsToWsCurve t).multVec p

/-! ## Frustum mappings -/

/-- `ZDistribution`, export/FieldMapping.h:562-565. -/
inductive ZDist where
  | perspective | uniform
deriving DecidableEq, Repr

/-- The members of `FrustumFieldMapping`, export/FieldMapping.h:706-738. An uninitialised member is `none`. -/
structure Frustum where
  frame : Frame
  zDist : Option ZDist
  ssToWsCurve : Curve M44
  csToWsCurve : Curve M44
  lpsToWsCurve : Curve M44
  nearCurve : Curve Rat
  farCurve : Curve Rat
  wsVoxelSizeSq : List V3q
  defaultState : Option Bool
deriving DecidableEq, Repr

/-- `linear` of a number curve: the default value is 0, export/Curve.h:146-147. -/
def sampleQ (c : Curve Rat) (t : Rat) : Rat := Curve.linear Curve.lerpQ 0 c t

/-- `worldToLocal(wsP, lsP, time)`, src/FieldMapping.cpp:585-611. A switch over an uninitialised member is
undefined. -/
def Frustum.worldToLocalAt (m : Frustum) (p : V3q) (t : Rat) : Option V3q :=
  match m.zDist with
  | none => none
  | some .uniform => do
    let lpsP ← (sampleM m.lpsToWsCurve t).inverse.multVec p
    let csP ← (sampleM m.csToWsCurve t).inverse.multVec p
    let near := sampleQ m.nearCurve t
    let far := sampleQ m.farCurve t
    some ⟨lpsP.x, lpsP.y, Curve.lerpfactor (-csP.z) near far⟩
  | some .perspective => (sampleM m.lpsToWsCurve t).inverse.multVec p

/-- `localToWorld(lsP, wsP, time)`, src/FieldMapping.cpp:622-655. -/
def Frustum.localToWorldAt (m : Frustum) (p : V3q) (t : Rat) : Option V3q :=
  match m.zDist with
  | none => none
  | some .uniform => do
    let near := sampleQ m.nearCurve t
    let far := sampleQ m.farCurve t
    let depth := Curve.lerpQ near far p.z
    let wsCenterP ← (sampleM m.csToWsCurve t).multVec ⟨0, 0, -depth⟩
    let lpsCenterP ← (sampleM m.lpsToWsCurve t).inverse.multVec wsCenterP
    (sampleM m.lpsToWsCurve t).multVec ⟨p.x, p.y, lpsCenterP.z⟩
  | some .perspective => (sampleM m.lpsToWsCurve t).multVec p

/-- `worldToVoxel(wsP, vsP, time)`, src/FieldMapping.cpp:554-559. -/
def Frustum.worldToVoxelAt (m : Frustum) (p : V3q) (t : Rat) : Option V3q :=
  (m.worldToLocalAt p t).map m.frame.localToVoxel

/-- `voxelToWorld(vsP, wsP, time)`, src/FieldMapping.cpp:570-575. -/
def Frustum.voxelToWorldAt (m : Frustum) (p : V3q) (t : Rat) : Option V3q :=
  m.localToWorldAt (m.frame.voxelToLocal p) t

/-- The size of the voxels of slice `k` in `computeVoxelSize`, src/FieldMapping.cpp:745-759 (its square). -/
def Frustum.sliceSq (m : Frustum) (i j k : Int) : Option V3q := do
  let p ← m.voxelToWorldAt ⟨discToCont i, discToCont j, discToCont k⟩ 0
  let x ← m.voxelToWorldAt ⟨discToCont (i + 1), discToCont j, discToCont k⟩ 0
  let y ← m.voxelToWorldAt ⟨discToCont i, discToCont (j + 1), discToCont k⟩ 0
  let z ← m.voxelToWorldAt ⟨discToCont i, discToCont j, discToCont (k + 1)⟩ 0
  some ⟨distSq x p, distSq y p, distSq z p⟩

/-- `m_wsVoxelSize.resize(n, 0)`. -/
def resizeTo (l : List V3q) (n : Nat) : List V3q := l.take n ++ List.replicate (n - l.length) ⟨0, 0, 0⟩

/-- `computeVoxelSize`, src/FieldMapping.cpp:729-770. A slice whose size is not finite makes the result `none`. -/
def Frustum.computeVoxelSize (m : Frustum) : Option Frustum := do
  let n := (Cont.trunc m.frame.res.z).toNat
  let sizes := resizeTo m.wsVoxelSizeSq n
  let i := Cont.trunc (m.frame.origin.x + m.frame.res.x / 2)
  let j := Cont.trunc (m.frame.origin.y + m.frame.res.y / 2)
  let zMin := Cont.trunc m.frame.origin.z
  let computed ← (List.range (n - 1)).mapM fun (d : Nat) => m.sliceSq i j (zMin + d)
  let sizes := computed ++ sizes.drop (n - 1)
  some { m with wsVoxelSizeSq := if n ≥ 2 then sizes.set (n - 1) (sizes.getD (n - 2) ⟨0, 0, 0⟩) else sizes }

/-- `wsVoxelSize(i, j, k)`, src/FieldMapping.cpp:720-725 (squared); an index outside the vector is undefined. -/
def Frustum.wsVoxelSize (m : Frustum) (k : Int) : Option V3q :=
  let k := min (max k (Cont.trunc m.frame.origin.z)) (Cont.trunc (m.frame.origin.z + m.frame.res.z - 1))
  let idx := k - Cont.trunc m.frame.origin.z
  if 0 ≤ idx then m.wsVoxelSizeSq[idx.toNat]? else none

/-- `clearCurves`, src/FieldMapping.cpp:785-791: the screen to world curve is not cleared. -/
def Frustum.clearCurves (m : Frustum) : Frustum :=
  { m with lpsToWsCurve := [], csToWsCurve := [], nearCurve := [], farCurve := [] }

/-- `lsToSs`, src/FieldMapping.cpp:451-455. -/
def lsToSs : M44 := (M44.setScale ⟨2, 2, 1⟩).mul (M44.setTranslation ⟨-1, -1, 0⟩)

/-- The near and far planes, src/FieldMapping.cpp:463-479, computed from the local perspective and camera
transforms. -/
def planes (lpsToWs csToWs : M44) : Option (Rat × Rat) := do
  let wsNearP ← lpsToWs.multVec ⟨1 / 2, 1 / 2, 0⟩
  let wsFarP ← lpsToWs.multVec ⟨1 / 2, 1 / 2, 1⟩
  let csNearP ← csToWs.inverse.multVec wsNearP
  let csFarP ← csToWs.inverse.multVec wsFarP
  some (-csNearP.z, -csFarP.z)

/-- `setTransforms(t, ssToWs, csToWs)`, src/FieldMapping.cpp:440-490. `none`: a value is not finite (the code
throws an exception for NaN, after having added the matrices to the curves). Reading `m_defaultState` before it is
initialised is undefined. -/
def Frustum.setTransformsAt (m : Frustum) (t : Rat) (ssToWs csToWs : M44) : Option Frustum :=
  match m.defaultState with
  | none => none
  | some d =>
    let m := if d then { m.clearCurves with defaultState := some false } else m
    let lpsToWs := lsToSs.mul ssToWs
    match planes lpsToWs csToWs with
    | none => none
    | some (near, far) =>
      Frustum.computeVoxelSize
        { m with
          ssToWsCurve := Curve.addSample m.ssToWsCurve t ssToWs
          lpsToWsCurve := Curve.addSample m.lpsToWsCurve t lpsToWs
          csToWsCurve := Curve.addSample m.csToWsCurve t csToWs
          nearCurve := Curve.addSample m.nearCurve t near
          farCurve := Curve.addSample m.farCurve t far }

/-- `setTransforms(ssToWs, csToWs)`, src/FieldMapping.cpp:433-436. -/
def Frustum.setTransforms (m : Frustum) (ssToWs csToWs : M44) : Option Frustum := m.setTransformsAt 0 ssToWs csToWs

/-- The default screen to world matrix, src/FieldMapping.cpp:503-529; `invTan` is `1 / tan(22.5°)`, irrational and
therefore a parameter. -/
def standardSsToWs (invTan : Rat) : M44 :=
  let csToSs := ((M44.setScale ⟨1, 1, -1⟩).mul ⟨⟨1, 0, 0, 0⟩, ⟨0, 1, 0, 0⟩, ⟨0, 0, 2 / (2 - 1), 1⟩,
    ⟨0, 0, (-2 * 1) / (2 - 1), 0⟩⟩).mul (M44.setScale ⟨invTan / 1, invTan, 1⟩)
  csToSs.inverse.mul M44.one

/-- `reset`, src/FieldMapping.cpp:494-539. -/
def Frustum.reset (m : Frustum) (invTan : Rat) : Option Frustum := do
  let m ← m.clearCurves.setTransforms (standardSsToWs invTan) M44.one
  { m with defaultState := some true }.computeVoxelSize

/-- `FrustumFieldMapping()`, src/FieldMapping.cpp:415-421. -/
def Frustum.new (invTan : Rat) : Option Frustum :=
  Frustum.reset ⟨Frame.default, some .perspective, [], [], [], [], [], [], some true⟩ invTan

/-- `FrustumFieldMapping(extents)`, src/FieldMapping.cpp:425-429: neither `m_zDistribution` nor `m_defaultState` is
initialised. -/
def Frustum.newExtents (e : Box3i) (invTan : Rat) : Option Frustum :=
  Frustum.reset ⟨Frame.ofExtents e, none, [], [], [], [], [], [], none⟩ invTan

/-- `setExtents` of a frustum mapping, src/FieldMapping.cpp:145-150 and 543-546. -/
def Frustum.setExtents (m : Frustum) (e : Box3i) : Option Frustum :=
  { m with frame := Frame.ofExtents e }.computeVoxelSize

def Frustum.setZDistribution (m : Frustum) (d : ZDist) : Frustum := { m with zDist := some d }

end Mapping
end F3D
