import Verif.Model.Interp

/-!
# Interpolation of vector fields

The interpolators of `export/FieldInterp.h` instantiated for three-component voxels, with the arithmetic on vectors that the
code uses: Imath's component-wise `+`, `-` and `* scalar`, and the `scalar * vector` of the library. Components are exact
rationals, as in `Verif.Model.Interp`.
-/

namespace F3D
namespace InterpVec
open Interp (sub floor3 diff clampMM clampLM maxHalf)

/-- `a + b` (Imath). -/
def add (a b : V3q) : V3q := ⟨a.x + b.x, a.y + b.y, a.z + b.z⟩

/-- `a - b` (Imath). -/
def minus (a b : V3q) : V3q := ⟨a.x - b.x, a.y - b.y, a.z - b.z⟩

/-- `operator * (S s, Vec3 vec)`, export/FieldInterp.h:1556-1561. -/
def scaled (s : Rat) (v : V3q) : V3q := ⟨v.x * s, v.y * s, v.z * s⟩

/-- `v * s` (Imath). -/
def times (v : V3q) (s : Rat) : V3q := ⟨v.x * s, v.y * s, v.z * s⟩

/-- The trilinear expression for vectors, export/FieldInterp.h:636-644, 796-804. -/
def tri (rd : V3i → Option V3q) (c1 c2 : V3i) (f1 f2 : V3q) : Option V3q := do
  let v111 ← rd ⟨c1.x, c1.y, c1.z⟩
  let v112 ← rd ⟨c1.x, c1.y, c2.z⟩
  let v121 ← rd ⟨c1.x, c2.y, c1.z⟩
  let v122 ← rd ⟨c1.x, c2.y, c2.z⟩
  let v211 ← rd ⟨c2.x, c1.y, c1.z⟩
  let v212 ← rd ⟨c2.x, c1.y, c2.z⟩
  let v221 ← rd ⟨c2.x, c2.y, c1.z⟩
  let v222 ← rd ⟨c2.x, c2.y, c2.z⟩
  some (add
    (scaled f1.x (add (scaled f1.y (add (scaled f1.z v111) (scaled f2.z v112)))
      (scaled f2.y (add (scaled f1.z v121) (scaled f2.z v122)))))
    (scaled f2.x (add (scaled f1.y (add (scaled f1.z v211) (scaled f2.z v212)))
      (scaled f2.y (add (scaled f1.z v221) (scaled f2.z v222))))))

/-- `LinearFieldInterp<Vec>::sample`, export/FieldInterp.h:604-646. -/
def linear (dw : Box3i) (rd : V3i → Option V3q) (vsP : V3q) : Option V3q :=
  let p := sub vsP (1 / 2)
  let c1 := floor3 p
  let c2 := c1 + V3i.all 1
  let f1 := diff c2 p
  let f2 : V3q := ⟨1 - f1.x, 1 - f1.y, 1 - f1.z⟩
  let d1 : V3i := ⟨clampMM dw.min.x dw.max.x c1.x, clampMM dw.min.y dw.max.y c1.y,
    clampMM dw.min.z dw.max.z c1.z⟩
  let d2 : V3i := ⟨clampMM dw.min.x dw.max.x c2.x, clampMM dw.min.y dw.max.y c2.y,
    clampMM dw.min.z dw.max.z c2.z⟩
  tri rd d1 d2 f1 f2

/-- `LinearGenericFieldInterp::sample` for vectors, export/FieldInterp.h:766-806. -/
def linearGeneric (dw : Box3i) (rd : V3i → Option V3q) (vsP : V3q) : Option V3q :=
  let p := sub vsP (1 / 2)
  let c1 := floor3 p
  let c2 := c1 + V3i.all 1
  let f1 := diff c2 p
  let f2 : V3q := ⟨1 - f1.x, 1 - f1.y, 1 - f1.z⟩
  let d1 : V3i := ⟨clampLM dw.min.x dw.max.x c1.x, clampLM dw.min.y dw.max.y c1.y,
    clampLM dw.min.z dw.max.z c1.z⟩
  let d2 : V3i := ⟨clampLM dw.min.x dw.max.x c2.x, clampLM dw.min.y dw.max.y c2.y,
    clampLM dw.min.z dw.max.z c2.z⟩
  tri rd d1 d2 f1 f2

/-- One round of the loop over the components, export/FieldInterp.h:1607-1612, for both slopes. -/
def flat (delta dk dk1 : Rat) : Rat × Rat := if delta = 0 then (0, 0) else (dk, dk1)

/-- `monotonicCubicInterpolantVec`, export/FieldInterp.h:1596-1624, which the specializations for the three vector types
call, 1630-1655. -/
def mono (f1 f2 f3 f4 : V3q) (t : Rat) : V3q :=
  let dk := scaled (1 / 2) (minus f3 f1)
  let dk1 := scaled (1 / 2) (minus f4 f2)
  let delta := minus f3 f2
  let x := flat delta.x dk.x dk1.x
  let y := flat delta.y dk.y dk1.y
  let z := flat delta.z dk.z dk1.z
  let dk : V3q := ⟨x.1, y.1, z.1⟩
  let dk1 : V3q := ⟨x.2, y.2, z.2⟩
  let a0 := f2
  let a1 := dk
  let a2 := minus (minus (times delta 3) (times dk 2)) dk1
  let a3 := minus (add dk dk1) (times delta 2)
  let t2 := t * t
  let t3 := t2 * t
  add (add (add (times a3 t3) (times a2 t2)) (times a1 t)) a0

/-- The four lookups of one line. -/
def line4 (rd : Int → Option V3q) (m1 m p1 p2 : Int) (t : Rat) : Option V3q := do
  let a ← rd m1
  let b ← rd m
  let c ← rd p1
  let d ← rd p2
  some (mono a b c d t)

/-- The 21 lines of `CubicFieldInterp<Vec>::sample`, export/FieldInterp.h:673-762. -/
def cubicLines (lo hi : V3i) (rd : V3i → Option V3q) (c : V3i) (t : V3q) : Option V3q :=
  let im := clampMM lo.x hi.x c.x
  let jm := clampMM lo.y hi.y c.y
  let km := clampMM lo.z hi.z c.z
  let im_1 := clampMM lo.x hi.x (im - 1)
  let jm_1 := clampMM lo.y hi.y (jm - 1)
  let km_1 := clampMM lo.z hi.z (km - 1)
  let im1 := clampMM lo.x hi.x (im + 1)
  let jm1 := clampMM lo.y hi.y (jm + 1)
  let km1 := clampMM lo.z hi.z (km + 1)
  let im2 := clampMM lo.x hi.x (im + 2)
  let jm2 := clampMM lo.y hi.y (jm + 2)
  let km2 := clampMM lo.z hi.z (km + 2)
  line4 (fun i => line4 (fun j => line4 (fun k => rd ⟨i, j, k⟩) km_1 km km1 km2 t.z)
    jm_1 jm jm1 jm2 t.y) im_1 im im1 im2 t.x

/-- `CubicFieldInterp<Vec>::sample`, export/FieldInterp.h:650-764, and `CubicGenericFieldInterp::sample`, 1081-1200. -/
def cubic (dw : Box3i) (rd : V3i → Option V3q) (vsP : V3q) : Option V3q :=
  let clamped : V3q := ⟨maxHalf vsP.x, maxHalf vsP.y, maxHalf vsP.z⟩
  let p := sub clamped (1 / 2)
  let c := floor3 p
  let t : V3q := ⟨p.x - c.x, p.y - c.y, p.z - c.z⟩
  cubicLines dw.min dw.max rd c t

end InterpVec
end F3D
