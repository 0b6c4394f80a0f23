import Verif.Model.Mapping

/-!
# Bounds of groups of fields, and their intersections with rays

Models the remaining queries of export/FieldGroup.h, in exact arithmetic. The step lengths of the intervals are not
modelled.
-/

namespace F3D
namespace FieldGroup

open Cont (Box3q)
open Mapping (Matrix Frustum sampleM)

structure Ray where
  pos : V3q
  dir : V3q
deriving DecidableEq, Repr

/-- The point of the ray at `t`. -/
def Ray.at (r : Ray) (t : Rat) : V3q := ⟨r.pos.x + t * r.dir.x, r.pos.y + t * r.dir.y, r.pos.z + t * r.dir.z⟩

/-- `epsilon`, export/FieldGroup.h:249. -/
def epsilon : Rat := 10 / 2 ^ 52

/-- `tNear` and `tFar`; `none` is the initial value, the smallest or largest `double`. -/
abbrev Limits := Option Rat × Option Rat

/-- `std::max(tNear, t)` and `std::min(tFar, t)`. -/
def maxLim : Option Rat → Rat → Option Rat
  | none, t => some t
  | some a, t => some (if a < t then t else a)
def minLim : Option Rat → Rat → Option Rat
  | none, t => some t
  | some a, t => some (if t < a then t else a)

/-- The tests `tNear > tFar` and `tFar < 0`, export/FieldGroup.h:266-271. -/
def misses (l : Limits) : Bool :=
  (match l with | (some n, some f) => decide (n > f) | _ => false) ||
  (match l.2 with | some f => decide (f < 0) | none => false)

/-- One axis, export/FieldGroup.h:252-271; `none` is `return false`. A direction of exactly 0 gives infinite or
undefined (not a number) quotients, which change neither limit (for a positive zero). -/
def axis (pos dir lo hi : Rat) (l : Limits) : Option Limits :=
  if (-epsilon < dir ∧ dir < epsilon) ∧ (pos < lo ∨ pos > hi) then none
  else
    let l' : Limits := if dir = 0 then l else
      let t0 := (lo - pos) / dir
      let t1 := (hi - pos) / dir
      let (t0, t1) := if t0 > t1 then (t1, t0) else (t0, t1)
      (maxLim l.1 t0, minLim l.2 t1)
    if misses l' then none else some l'

/-- `intersect`, export/FieldGroup.h:244-276. -/
def intersect (r : Ray) (b : Box3q) : Option Limits := do
  let l ← axis r.pos.x r.dir.x b.min.x b.max.x (none, none)
  let l ← axis r.pos.y r.dir.y b.min.y b.max.y l
  axis r.pos.z r.dir.z b.min.z b.max.z l

/-- The unit box. -/
def unitBox : Box3q := ⟨⟨0, 0, 0⟩, ⟨1, 1, 1⟩⟩

/-- `intersectMatrixMapping`, export/FieldGroup.h:1215-1238: the outer option is undefined (not finite), the inner one
is no intersection. -/
def intersectMatrix (m : Matrix) (r : Ray) : Option (Option Limits) :=
  (m.worldToLocalAt r.pos 0).map fun pos => intersect ⟨pos, m.wsToLs.multDir r.dir⟩ unitBox

/-- The vector operations of Imath. -/
def vsub (a b : V3q) : V3q := ⟨a.x - b.x, a.y - b.y, a.z - b.z⟩
def cross (a b : V3q) : V3q := ⟨a.y * b.z - a.z * b.y, a.z * b.x - a.x * b.z, a.x * b.y - a.y * b.x⟩
def dot (a b : V3q) : Rat := a.x * b.x + a.y * b.y + a.z * b.z

/-- `Plane3d`: the normal (not made a unit vector, which changes none of the results below) and the distance. -/
structure Plane where
  normal : V3q
  distance : Rat
deriving DecidableEq, Repr

/-- Imath's `Plane3(p1, p2, p3)`. -/
def Plane.of (p1 p2 p3 : V3q) : Plane :=
  let n := cross (vsub p2 p1) (vsub p3 p1)
  ⟨n, dot n p1⟩

/-- Imath's `Plane3::intersectT`; `none` if the ray is parallel to the plane. -/
def Plane.intersectT (p : Plane) (r : Ray) : Option Rat :=
  if dot p.normal r.dir = 0 then none else some (-(dot p.normal r.pos - p.distance) / dot p.normal r.dir)

/-- The planes of the faces, export/FieldGroup.h:1261-1267. -/
def facePlanes (c : List V3q) : Option (List Plane) := do
  let c0 ← c[0]?
  let c1 ← c[1]?
  let c2 ← c[2]?
  let c3 ← c[3]?
  let c4 ← c[4]?
  let c5 ← c[5]?
  let c6 ← c[6]?
  let c7 ← c[7]?
  some [Plane.of c4 c0 c6, Plane.of c1 c5 c3, Plane.of c4 c5 c0, Plane.of c2 c3 c6, Plane.of c0 c1 c2,
    Plane.of c5 c4 c7]

/-- The loop over the planes, export/FieldGroup.h:1270-1284. -/
def clip (r : Ray) (ps : List Plane) : Limits :=
  ps.foldl (fun (l : Limits) p =>
    match p.intersectT r with
    | none => l
    | some t => if dot r.dir p.normal > 0 then (l.1, minLim l.2 t) else (maxLim l.1 t, l.2)) (none, none)

/-- `t0 < t1`. -/
def ordered : Limits → Bool
  | (some a, some b) => decide (a < b)
  | _ => true

/-- `intersectFrustumMapping`, export/FieldGroup.h:1240-1292. -/
def intersectFrustum (m : Frustum) (r : Ray) : Option (Option Limits) := do
  let c ← (corners unitBox).mapM fun p => m.localToWorldAt p 0
  let ps ← facePlanes c
  let l := clip r ps
  some (if ordered l then some (maxLim l.1 0, l.2) else none)

/-- The mapping of a field. -/
inductive AnyMap where
  | matrix (m : Matrix)
  | frustum (m : Frustum)
  | none

/-- A field of the group: its mapping, and `osToWs`, `wsToOs` if `doOsToWs`. -/
structure Member where
  map : AnyMap
  osToWs : Option (M44 × M44)

/-- The ray in the space of the object, export/FieldGroup.h:1300-1304. -/
def Member.ray (f : Member) (r : Ray) : Option Ray :=
  match f.osToWs with
  | some (_, wsToOs) => (wsToOs.multVec r.pos).map fun pos => ⟨pos, wsToOs.multDir r.dir⟩
  | Option.none => some r

/-- The interval of one field, export/FieldGroup.h:1300-1316. -/
def Member.interval (f : Member) (r : Ray) : Option (Option Limits) :=
  (f.ray r).bind fun r =>
    match f.map with
    | .matrix m => intersectMatrix m r
    | .frustum m => intersectFrustum m r
    | .none => some Option.none

/-- `getIntersections`, export/FieldGroup.h:838-849 and 1295-1318. -/
def getIntersections (fs : List Member) (r : Ray) : Option (List Limits) :=
  (fs.mapM fun (f : Member) => f.interval r).map fun l => l.filterMap id

/-- `mapping->localToWorld(lsP, wsP)` followed by the object transform, export/FieldGroup.h:1185-1194. -/
def Member.localToWorld (f : Member) (p : V3q) : Option V3q :=
  let q := match f.map with
    | .matrix m => m.localToWorld p
    | .frustum m => m.localToWorldAt p 0
    | .none => Option.none
  match f.osToWs with
  | some (osToWs, _) => q.bind osToWs.multVec
  | Option.none => q

/-- The corners of all fields with a mapping, export/FieldGroup.h:1178-1197. -/
def boundsPoints (fs : List Member) : List (Option V3q) :=
  fs.flatMap fun f => match f.map with
    | .none => []
    | _ => (corners unitBox).map f.localToWorld

/-- `wsBounds`, export/FieldGroup.h:809-820, of a group with at least one mapping. -/
def wsBounds (fs : List Member) : Option Box3q := boundsOf (boundsPoints fs)

end FieldGroup
end F3D
