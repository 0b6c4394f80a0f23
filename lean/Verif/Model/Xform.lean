import Verif.Model.Cont

/-!
# Matrices and bounding boxes

4×4 matrices acting on row vectors, as in Imath, in exact arithmetic. Imath is not part of the repository; the
operations used are modelled by their mathematical meaning.
-/

namespace F3D

open Cont (Box3q)

structure V4q where
  x : Rat
  y : Rat
  z : Rat
  w : Rat
deriving DecidableEq, Repr

/-- `M44d`: four rows. -/
structure M44 where
  r0 : V4q
  r1 : V4q
  r2 : V4q
  r3 : V4q
deriving DecidableEq, Repr

namespace M44

def one : M44 := ⟨⟨1, 0, 0, 0⟩, ⟨0, 1, 0, 0⟩, ⟨0, 0, 1, 0⟩, ⟨0, 0, 0, 1⟩⟩

/-- Row vector times matrix. -/
def rowMul (v : V4q) (m : M44) : V4q :=
  ⟨v.x * m.r0.x + v.y * m.r1.x + v.z * m.r2.x + v.w * m.r3.x,
   v.x * m.r0.y + v.y * m.r1.y + v.z * m.r2.y + v.w * m.r3.y,
   v.x * m.r0.z + v.y * m.r1.z + v.z * m.r2.z + v.w * m.r3.z,
   v.x * m.r0.w + v.y * m.r1.w + v.z * m.r2.w + v.w * m.r3.w⟩

/-- `operator*`. -/
def mul (a b : M44) : M44 := ⟨rowMul a.r0 b, rowMul a.r1 b, rowMul a.r2 b, rowMul a.r3 b⟩

/-- `multVecMatrix`: the point is extended by 1 and the result divided by its last component; `none` if that is 0
(not a finite result). -/
def multVec (m : M44) (p : V3q) : Option V3q :=
  let r := rowMul ⟨p.x, p.y, p.z, 1⟩ m
  if r.w = 0 then none else some ⟨r.x / r.w, r.y / r.w, r.z / r.w⟩

/-- `multDirMatrix`: no translation. -/
def multDir (m : M44) (p : V3q) : V3q :=
  let r := rowMul ⟨p.x, p.y, p.z, 0⟩ m
  ⟨r.x, r.y, r.z⟩

def setScale (s : V3q) : M44 := ⟨⟨s.x, 0, 0, 0⟩, ⟨0, s.y, 0, 0⟩, ⟨0, 0, s.z, 0⟩, ⟨0, 0, 0, 1⟩⟩
def setTranslation (t : V3q) : M44 := ⟨⟨1, 0, 0, 0⟩, ⟨0, 1, 0, 0⟩, ⟨0, 0, 1, 0⟩, ⟨t.x, t.y, t.z, 1⟩⟩

/-- A 3×3 determinant. -/
def det3 (a b c d e f g h i : Rat) : Rat := a * (e * i - f * h) - b * (d * i - f * g) + c * (d * h - e * g)

def det (m : M44) : Rat :=
  m.r0.x * det3 m.r1.y m.r1.z m.r1.w m.r2.y m.r2.z m.r2.w m.r3.y m.r3.z m.r3.w
  - m.r0.y * det3 m.r1.x m.r1.z m.r1.w m.r2.x m.r2.z m.r2.w m.r3.x m.r3.z m.r3.w
  + m.r0.z * det3 m.r1.x m.r1.y m.r1.w m.r2.x m.r2.y m.r2.w m.r3.x m.r3.y m.r3.w
  - m.r0.w * det3 m.r1.x m.r1.y m.r1.z m.r2.x m.r2.y m.r2.z m.r3.x m.r3.y m.r3.z

/-- The transposed matrix of cofactors. -/
def adj (m : M44) : M44 :=
  ⟨⟨det3 m.r1.y m.r1.z m.r1.w m.r2.y m.r2.z m.r2.w m.r3.y m.r3.z m.r3.w,
    -det3 m.r0.y m.r0.z m.r0.w m.r2.y m.r2.z m.r2.w m.r3.y m.r3.z m.r3.w,
    det3 m.r0.y m.r0.z m.r0.w m.r1.y m.r1.z m.r1.w m.r3.y m.r3.z m.r3.w,
    -det3 m.r0.y m.r0.z m.r0.w m.r1.y m.r1.z m.r1.w m.r2.y m.r2.z m.r2.w⟩,
   ⟨-det3 m.r1.x m.r1.z m.r1.w m.r2.x m.r2.z m.r2.w m.r3.x m.r3.z m.r3.w,
    det3 m.r0.x m.r0.z m.r0.w m.r2.x m.r2.z m.r2.w m.r3.x m.r3.z m.r3.w,
    -det3 m.r0.x m.r0.z m.r0.w m.r1.x m.r1.z m.r1.w m.r3.x m.r3.z m.r3.w,
    det3 m.r0.x m.r0.z m.r0.w m.r1.x m.r1.z m.r1.w m.r2.x m.r2.z m.r2.w⟩,
   ⟨det3 m.r1.x m.r1.y m.r1.w m.r2.x m.r2.y m.r2.w m.r3.x m.r3.y m.r3.w,
    -det3 m.r0.x m.r0.y m.r0.w m.r2.x m.r2.y m.r2.w m.r3.x m.r3.y m.r3.w,
    det3 m.r0.x m.r0.y m.r0.w m.r1.x m.r1.y m.r1.w m.r3.x m.r3.y m.r3.w,
    -det3 m.r0.x m.r0.y m.r0.w m.r1.x m.r1.y m.r1.w m.r2.x m.r2.y m.r2.w⟩,
   ⟨-det3 m.r1.x m.r1.y m.r1.z m.r2.x m.r2.y m.r2.z m.r3.x m.r3.y m.r3.z,
    det3 m.r0.x m.r0.y m.r0.z m.r2.x m.r2.y m.r2.z m.r3.x m.r3.y m.r3.z,
    -det3 m.r0.x m.r0.y m.r0.z m.r1.x m.r1.y m.r1.z m.r3.x m.r3.y m.r3.z,
    det3 m.r0.x m.r0.y m.r0.z m.r1.x m.r1.y m.r1.z m.r2.x m.r2.y m.r2.z⟩⟩

def rowScale (k : Rat) (v : V4q) : V4q := ⟨k * v.x, k * v.y, k * v.z, k * v.w⟩
def scale (k : Rat) (m : M44) : M44 := ⟨rowScale k m.r0, rowScale k m.r1, rowScale k m.r2, rowScale k m.r3⟩

/-- `inverse()`: the identity for a singular matrix (Imath's default, no exception). -/
def inverse (m : M44) : M44 := if m.det = 0 then one else scale (1 / m.det) m.adj

def rowLerp (a b : V4q) (t : Rat) : V4q :=
  ⟨a.x * (1 - t) + b.x * t, a.y * (1 - t) + b.y * t, a.z * (1 - t) + b.z * t, a.w * (1 - t) + b.w * t⟩

/-- `Imath::lerp` of matrices. -/
def lerp (a b : M44) (t : Rat) : M44 :=
  ⟨rowLerp a.r0 b.r0 t, rowLerp a.r1 b.r1 t, rowLerp a.r2 b.r2 t, rowLerp a.r3 b.r3 t⟩

end M44

/-- `makeEmpty` followed by `extendBy` for each point. The extreme values of the empty box are the largest and
smallest `double`, so the first point replaces them. -/
def extendBy (b : Box3q) (p : V3q) : Box3q :=
  ⟨⟨min b.min.x p.x, min b.min.y p.y, min b.min.z p.z⟩, ⟨max b.max.x p.x, max b.max.y p.y, max b.max.z p.z⟩⟩

/-- `Box::intersects(point)`: bounds inclusive. -/
def Cont.Box3q.contains (b : Box3q) (p : V3q) : Bool :=
  decide (b.min.x ≤ p.x) && decide (p.x ≤ b.max.x) && decide (b.min.y ≤ p.y) && decide (p.y ≤ b.max.y) &&
    decide (b.min.z ≤ p.z) && decide (p.z ≤ b.max.z)

/-- `wsVerts`, src/FieldMapping.cpp:174-183, and `verts`, 198-207. -/
def corners (b : Box3q) : List V3q :=
  [⟨b.min.x, b.min.y, b.min.z⟩, ⟨b.max.x, b.min.y, b.min.z⟩, ⟨b.min.x, b.max.y, b.min.z⟩, ⟨b.max.x, b.max.y, b.min.z⟩,
   ⟨b.min.x, b.min.y, b.max.z⟩, ⟨b.max.x, b.min.y, b.max.z⟩, ⟨b.min.x, b.max.y, b.max.z⟩, ⟨b.max.x, b.max.y, b.max.z⟩]

/-- The box of a non-empty list of points; `none` if one is not finite. -/
def boundsOf : List (Option V3q) → Option Box3q
  | [] => none
  | [p] => p.map fun p => ⟨p, p⟩
  | p :: ps => do
    let p ← p
    let b ← boundsOf ps
    some (extendBy b p)

/-- The loop of `worldToVoxel(mapping, wsBounds, vsBounds)`, src/FieldMapping.cpp:167-190, and of
`transformBounds`, 194-214, for the point transform `f`. (The order in which points are added is immaterial; here
the last comes first.) -/
def boundsThrough (f : V3q → Option V3q) (b : Box3q) : Option Box3q := boundsOf ((corners b).map f)

/-- `transformBounds`, src/FieldMapping.cpp:194-214. -/
def transformBounds (m : M44) (b : Box3q) : Option Box3q := boundsThrough m.multVec b

end F3D
