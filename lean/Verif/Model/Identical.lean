import Verif.Model.LayerIO

/-!
# Comparing mappings

Models `isIdentical` of the mappings, src/FieldMapping.cpp, in exact arithmetic. Imath is not part of the repository:
its `equalWithRelError`, `equalWithAbsError` and `extractSHRT` (ImathMath.h, ImathVec.h, ImathMatrixAlgo.h) are
modelled as that library is documented. The square root and the angles of an orthonormal basis are parameters.
-/

namespace F3D
namespace Identical
open Mapping

/-- Absolute value, in the relative comparisons at src/FieldMapping.cpp:88-103. -/
def absQ (x : Rat) : Rat := if 0 < x then x else -x

/-- `equalWithRelError(x1, x2, e)` of numbers (Imath), used at src/FieldMapping.cpp:88-103. -/
def relEq (tol a b : Rat) : Bool := decide ((if b < a then a - b else b - a) ≤ tol * absQ a)

/-- `equalWithAbsError(x1, x2, e)` of numbers (Imath), used at src/FieldMapping.cpp:100. -/
def absEq (tol a b : Rat) : Bool := decide ((if b < a then a - b else b - a) ≤ tol)

/-- `equalWithRelError` of `V3d`, src/FieldMapping.cpp:99, 101. -/
def relEq3 (tol : Rat) (a b : V3q) : Bool := relEq tol a.x b.x && relEq tol a.y b.y && relEq tol a.z b.z
/-- `equalWithAbsError` of `V3d`, src/FieldMapping.cpp:100. -/
def absEq3 (tol : Rat) (a b : V3q) : Bool := absEq tol a.x b.x && absEq tol a.y b.y && absEq tol a.z b.z
/-- A row of `Matrix44::equalWithRelError`, src/FieldMapping.cpp:88. -/
def relEq4 (tol : Rat) (a b : V4q) : Bool :=
  relEq tol a.x b.x && relEq tol a.y b.y && relEq tol a.z b.z && relEq tol a.w b.w

/-- `Matrix44::equalWithRelError`, src/FieldMapping.cpp:88. -/
def relEqM (tol : Rat) (a b : M44) : Bool :=
  relEq4 tol a.r0 b.r0 && relEq4 tol a.r1 b.r1 && relEq4 tol a.r2 b.r2 && relEq4 tol a.r3 b.r3

/-- Operations on `V3d` in `extractSHRT` (Imath), src/FieldMapping.cpp:92-97. -/
def dot (a b : V3q) : Rat := a.x * b.x + a.y * b.y + a.z * b.z
def cross (a b : V3q) : V3q := ⟨a.y * b.z - a.z * b.y, a.z * b.x - a.x * b.z, a.x * b.y - a.y * b.x⟩
def quot (a : V3q) (k : Rat) : V3q := ⟨a.x / k, a.y / k, a.z / k⟩
def times (k : Rat) (a : V3q) : V3q := ⟨k * a.x, k * a.y, k * a.z⟩
def minus (a b : V3q) : V3q := ⟨a.x - b.x, a.y - b.y, a.z - b.z⟩

/-- The largest `double`. -/
def doubleMax : Rat := (2 ^ 53 - 1) * 2 ^ 971

/-- `checkForZeroScaleInRow(scl, row)`, without exceptions. -/
def rowOk (scl : Rat) (row : V3q) : Bool :=
  !(decide (absQ scl < 1) && (decide (doubleMax * absQ scl ≤ absQ row.x) || decide (doubleMax * absQ scl ≤ absQ row.y) ||
    decide (doubleMax * absQ scl ≤ absQ row.z)))

/-- The functions of real numbers that are used: the square root, and the angles of `extractEulerXYZ`. -/
structure Reals where
  sqrt : Rat → Rat
  angles : V3q → V3q → V3q → V3q

def length (R : Reals) (a : V3q) : Rat := R.sqrt (dot a a)

/-- The entry of the rows with the largest absolute value. -/
def maxEntry (a b c : V3q) : Rat :=
  [a.x, a.y, a.z, b.x, b.y, b.z, c.x, c.y, c.z].foldl (fun m x => if m < absQ x then absQ x else m) 0

/-- Scale, shear, rotation, translation. -/
structure Shrt where
  scale : V3q
  shear : V3q
  rot : V3q
  trans : V3q

/-- The orthonormalisation in `extractAndRemoveScalingAndShear`, for rows that were divided by the largest entry `k`. -/
def orthonormalise (R : Reals) (k : Rat) (a b c t : V3q) : Option Shrt :=
  let sx := length R a
  if rowOk sx a then
    let a := quot a sx
    let h0 := dot a b
    let b := minus b (times h0 a)
    let sy := length R b
    if rowOk sy b then
      let b := quot b sy
      let h1 := dot a c
      let c := minus c (times h1 a)
      let h2 := dot b c
      let c := minus c (times h2 b)
      let sz := length R c
      if rowOk sz c then
        let c := quot c sz
        if dot a (cross b c) < 0 then
          some ⟨times (-k) ⟨sx, sy, sz⟩, ⟨h0 / sy, h1 / sz, h2 / sz⟩, R.angles (times (-1) a) (times (-1) b) (times (-1) c), t⟩
        else
          some ⟨times k ⟨sx, sy, sz⟩, ⟨h0 / sy, h1 / sz, h2 / sz⟩, R.angles a b c, t⟩
      else none
    else none
  else none

/-- `extractSHRT(mat, s, h, r, t, false)` (Imath; `FIELD3D_EXTRACT_SHRT`, export/StdMathLib.h), src/FieldMapping.cpp:92-97. -/
def extractSHRT (R : Reals) (m : M44) : Option Shrt :=
  let a : V3q := ⟨m.r0.x, m.r0.y, m.r0.z⟩
  let b : V3q := ⟨m.r1.x, m.r1.y, m.r1.z⟩
  let c : V3q := ⟨m.r2.x, m.r2.y, m.r2.z⟩
  let t : V3q := ⟨m.r3.x, m.r3.y, m.r3.z⟩
  let k := maxEntry a b c
  if k = 0 then orthonormalise R k a b c t
  else if rowOk k a && rowOk k b && rowOk k c then orthonormalise R k (quot a k) (quot b k) (quot c k) t
  else none

/-- `checkMatricesIdentical`, src/FieldMapping.cpp:84-106: the shear is not compared. -/
def sameMatrix (R : Reals) (tol : Rat) (m1 m2 : M44) : Bool :=
  relEqM tol m1 m2 ||
    match extractSHRT R m1, extractSHRT R m2 with
    | some x, some y => relEq3 tol x.scale y.scale && absEq3 tol x.rot y.rot && relEq3 tol x.trans y.trans
    | _, _ => false

/-- The loop over samples, src/FieldMapping.cpp:339-351 and 704-717: `a` and `b` have the same length; `none` if one of
the other two curves is too short. -/
def sameSamples (R : Reals) (tol : Rat) : Curve M44 → Curve M44 → Curve M44 → Curve M44 → Option Bool
  | [], _, _, _ => some true
  | _ :: _, [], _, _ => none
  | x :: a, y :: b, a', b' =>
    if x.1 ≠ y.1 then some false
    else if sameMatrix R tol x.2 y.2 then
      match a', b' with
      | x' :: a', y' :: b' => if sameMatrix R tol x'.2 y'.2 then sameSamples R tol a b a' b' else some false
      | _, _ => none
    else some false

/-- `MatrixFieldMapping::isIdentical` with another matrix mapping, src/FieldMapping.cpp:309-358. -/
def sameMatrixMapping (R : Reals) (tol : Rat) (m1 m2 : Matrix) : Option Bool :=
  if m1.lsToWsCurve.length ≠ m2.lsToWsCurve.length then some false
  else sameSamples R tol m1.lsToWsCurve m2.lsToWsCurve m1.vsToWsCurve m2.vsToWsCurve

/-- `FrustumFieldMapping::isIdentical` with another frustum mapping, src/FieldMapping.cpp:669-722. Comparing an
uninitialised distribution is undefined. -/
def sameFrustumMapping (R : Reals) (tol : Rat) (m1 m2 : Frustum) : Option Bool :=
  match m1.zDist, m2.zDist with
  | some d1, some d2 =>
    if d1 ≠ d2 then some false
    else if m1.lpsToWsCurve.length ≠ m2.lpsToWsCurve.length then some false
    else sameSamples R tol m1.lpsToWsCurve m2.lpsToWsCurve m1.csToWsCurve m2.csToWsCurve
  | _, _ => none

/-- A mapping of one of the classes of the library. -/
inductive Map where
  | null
  | matrix (m : Matrix)
  | frustum (m : Frustum)

/-- `isIdentical`, src/FieldMapping.cpp:233-240, 309-358 and 669-722: false for mappings of different classes. -/
def isIdentical (R : Reals) (tol : Rat) : Map → Map → Option Bool
  | .null, .null => some true
  | .matrix a, .matrix b => sameMatrixMapping R tol a b
  | .frustum a, .frustum b => sameFrustumMapping R tol a b
  | _, _ => some false

/-- The mapping as an object. -/
def mapOf : LayerIO.AnyMap → Map
  | .null => .null
  | .matrix m => .matrix (Matrix.run m.frame m.ops)

/-- The comparison made when files are written, src/Field3DFile.cpp:430 and 1472: without tolerance. Undefined
comparisons do not occur (`C71_defined`). -/
def fileIdent (R : Reals) (a b : LayerIO.AnyMap) : Bool := (isIdentical R 0 (mapOf a) (mapOf b)).getD false

end Identical
end F3D
