import Verif.Model.Mac
import Verif.Model.Loops
import Verif.Model.Xform

/-!
# Conversion between MAC and cell-centred fields

Models export/MACFieldUtil.h. Of the mapping only the rotation that `extractSHRT` (Imath) finds in its local to world
matrix matters: it is a parameter. Angles are given by their cosine and sine.
-/

namespace F3D
namespace MacUtil

/-- An angle: cosine and sine. -/
structure Angle where
  c : Rat
  s : Rat
deriving DecidableEq, Repr

def Angle.neg (a : Angle) : Angle := ⟨a.c, -a.s⟩

/-- The rotation angles `rot` about the three axes. -/
structure Rot where
  x : Angle
  y : Angle
  z : Angle
deriving DecidableEq, Repr

def Rot.neg (r : Rot) : Rot := ⟨r.x.neg, r.y.neg, r.z.neg⟩

/-- Imath's `Matrix44::rotate(r)` applied to the identity. -/
def rotate (r : Rot) : M44 :=
  ⟨⟨r.z.c * r.y.c, r.z.s * r.y.c, -r.y.s, 0⟩,
   ⟨-r.z.s * r.x.c + r.z.c * r.y.s * r.x.s, r.z.c * r.x.c + r.z.s * r.y.s * r.x.s, r.y.c * r.x.s, 0⟩,
   ⟨-r.z.s * -r.x.s + r.z.c * r.y.s * r.x.c, r.z.c * -r.x.s + r.z.s * r.y.s * r.x.c, r.y.c * r.x.c, 0⟩,
   ⟨0, 0, 0, 1⟩⟩

/-- What is found out about the mapping, export/MACFieldUtil.h:103-112 and 155-163: `none` if it is not a matrix
mapping or `extractSHRT` fails; `tiny` is `rot.length2() <= FLT_EPSILON`. -/
structure Rotation where
  rot : Rot
  tiny : Bool

/-- `v * m`. -/
def turn (m : Option M44) (v : V3q) : Option V3q :=
  match m with
  | none => some v
  | some m => m.multVec v

/-- The matrix used from MAC to cells, export/MACFieldUtil.h:101-113. -/
def toWorld : Option Rotation → Option M44
  | none => none
  | some r => if r.tiny then none else some (rotate r.rot)

/-- The matrix used from cells to MAC, export/MACFieldUtil.h:153-164. -/
def toSim : Option Rotation → Option M44
  | none => none
  | some r => some (rotate r.rot.neg)

/-- Matching the windows of the cell-centred target, export/MACFieldUtil.h:81-86; `none` is the exception. -/
def matchCells (mac : Mac) (cc : Dense V3q) (dflt : V3q) : Option (Dense V3q) :=
  if cc.extents ≠ mac.extents ∨ cc.dw ≠ mac.dw then
    match Dense.setSize dflt mac.extents mac.dw with
    | .ok f => some f
    | _ => none
  else some cc

/-- The cell-centred target of `convertMACToCellCentered`, export/MACFieldUtil.h:76-129, a dense field: the loop over
the voxels in iteration order (117-128), each voxel being written once. -/
def macToCells (mac : Mac) (rot : Option Rotation) (cc : Dense V3q) (dflt : V3q) : Option (Dense V3q) := do
  let cc ← matchCells mac cc dflt
  (boxLoop cc.dw).foldlM (fun cc p => do
    let v ← mac.value p
    let v ← turn (toWorld rot) v
    cc.write p v) cc

/-- A field to read from: its windows, and its `value`. -/
structure Cells where
  extents : Box3i
  dw : Box3i
  value : V3i → Option V3q

/-- `src`, export/MACFieldUtil.h:171-188: the field itself, or a copy with rotated values. -/
def source (cc : Cells) (rot : Option Rotation) (p : V3i) : Option V3q := (cc.value p).bind (turn (toSim rot))

/-- One assignment to a face. -/
structure Assign where
  comp : MacComp
  pos : V3i
  val : Option Rat

/-- Export/MACFieldUtil.h:190-196. -/
def uEdges (d : Box3i) (src : V3i → Option V3q) : List Assign :=
  (forRange d.min.z d.max.z).flatMap fun k => (forRange d.min.y d.max.y).flatMap fun j =>
    [⟨.u, ⟨d.min.x, j, k⟩, (src ⟨d.min.x, j, k⟩).map (·.x)⟩, ⟨.u, ⟨d.max.x + 1, j, k⟩, (src ⟨d.max.x, j, k⟩).map (·.x)⟩]

/-- Export/MACFieldUtil.h:198-204. -/
def vEdges (d : Box3i) (src : V3i → Option V3q) : List Assign :=
  (forRange d.min.z d.max.z).flatMap fun k => (forRange d.min.x d.max.x).flatMap fun i =>
    [⟨.v, ⟨i, d.min.y, k⟩, (src ⟨i, d.min.y, k⟩).map (·.y)⟩, ⟨.v, ⟨i, d.max.y + 1, k⟩, (src ⟨i, d.max.y, k⟩).map (·.y)⟩]

/-- Export/MACFieldUtil.h:206-212. -/
def wEdges (d : Box3i) (src : V3i → Option V3q) : List Assign :=
  (forRange d.min.y d.max.y).flatMap fun j => (forRange d.min.x d.max.x).flatMap fun i =>
    [⟨.w, ⟨i, j, d.min.z⟩, (src ⟨i, j, d.min.z⟩).map (·.z)⟩, ⟨.w, ⟨i, j, d.max.z + 1⟩, (src ⟨i, j, d.max.z⟩).map (·.z)⟩]

/-- `(a + b) * 0.5`. -/
def mean (a b : Option Rat) : Option Rat := do
  let a ← a
  let b ← b
  some ((a + b) * (1 / 2))

/-- Export/MACFieldUtil.h:214-222. -/
def uInner (d : Box3i) (src : V3i → Option V3q) : List Assign :=
  (forRange d.min.z d.max.z).flatMap fun k => (forRange d.min.y d.max.y).flatMap fun j =>
    (forRange (d.min.x + 1) d.max.x).map fun i =>
      ⟨.u, ⟨i, j, k⟩, mean ((src ⟨i, j, k⟩).map (·.x)) ((src ⟨i - 1, j, k⟩).map (·.x))⟩

/-- Export/MACFieldUtil.h:224-232. -/
def vInner (d : Box3i) (src : V3i → Option V3q) : List Assign :=
  (forRange d.min.z d.max.z).flatMap fun k => (forRange (d.min.y + 1) d.max.y).flatMap fun j =>
    (forRange d.min.x d.max.x).map fun i =>
      ⟨.v, ⟨i, j, k⟩, mean ((src ⟨i, j, k⟩).map (·.y)) ((src ⟨i, j - 1, k⟩).map (·.y))⟩

/-- Export/MACFieldUtil.h:234-242. -/
def wInner (d : Box3i) (src : V3i → Option V3q) : List Assign :=
  (forRange (d.min.z + 1) d.max.z).flatMap fun k => (forRange d.min.y d.max.y).flatMap fun j =>
    (forRange d.min.x d.max.x).map fun i =>
      ⟨.w, ⟨i, j, k⟩, mean ((src ⟨i, j, k⟩).map (·.z)) ((src ⟨i, j, k - 1⟩).map (·.z))⟩

/-- All assignments, in program order. -/
def assigns (d : Box3i) (src : V3i → Option V3q) : List Assign :=
  uEdges d src ++ vEdges d src ++ wEdges d src ++ uInner d src ++ vInner d src ++ wInner d src

/-- Executes one assignment. -/
def exec (mac : Mac) (a : Assign) : Option Mac := a.val.bind (mac.write a.comp a.pos ·)

/-- Matching the windows of the MAC field, export/MACFieldUtil.h:137-142. -/
def matchMac (cc : Cells) (mac : Mac) : Option Mac :=
  if mac.extents ≠ cc.extents ∨ mac.dw ≠ cc.dw then mac.setSize cc.extents cc.dw else some mac

/-- `convertCellCenteredToMAC`, export/MACFieldUtil.h:133-243. -/
def cellsToMac (cc : Cells) (rot : Option Rotation) (mac : Mac) : Option Mac := do
  let mac ← matchMac cc mac
  (assigns mac.dw (source cc rot)).foldlM exec mac

end MacUtil
end F3D
