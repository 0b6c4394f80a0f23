import Verif.Model.Dense

/-!
# MACField

Models `export/MACField.h`: three face buffers, one voxel larger than the data window along their
own axis. `real_t` is modelled by exact rationals. An access outside a buffer is `none`.
-/

namespace F3D

/-- `enum MACComponent`, export/MACField.h:71-75. -/
inductive MacComp where
  | u | v | w
deriving DecidableEq, Repr

/-- `Vec3<real_t>` values of the field (`Data_T`). -/
structure V3q where
  x : Rat
  y : Rat
  z : Rat
deriving DecidableEq, Repr

namespace Mac

/-- Storage of one component: m_u, m_uSize, m_uSizeXY (and v, w), export/MACField.h:300-318. -/
structure Comp where
  size : V3i
  sizeXY : Int
  data : List Rat
deriving DecidableEq, Repr

end Mac

/-- State of a `MACField` (windows of `FieldRes` and the three component stores). -/
structure Mac where
  extents : Box3i
  dw : Box3i
  cu : Mac.Comp
  cv : Mac.Comp
  cw : Mac.Comp
deriving DecidableEq, Repr

namespace Mac

/-- `makeDataWindowForComponent`, export/MACField.h:586-602. -/
def compWindow (dw : Box3i) : MacComp → Box3i
  | .u => ⟨dw.min, dw.max + ⟨1, 0, 0⟩⟩
  | .v => ⟨dw.min, dw.max + ⟨0, 1, 0⟩⟩
  | .w => ⟨dw.min, dw.max + ⟨0, 0, 1⟩⟩

/-- Which member a component argument selects, export/MACField.h:436-450. -/
def comp (f : Mac) : MacComp → Comp
  | .u => f.cu
  | .v => f.cv
  | .w => f.cw

def setComp (f : Mac) (c : MacComp) (d : Comp) : Mac :=
  match c with
  | .u => { f with cu := d }
  | .v => { f with cv := d }
  | .w => { f with cw := d }

/-- A default-constructed field: `FieldRes()` has extents and data window `(0,0,0)..(-1,-1,-1)`
(export/Field.h:325-331), empty component vectors. The uninitialised sizes are set to zero. -/
def fresh : Mac :=
  let w : Box3i := ⟨V3i.all 0, V3i.all (-1)⟩
  let c : Comp := ⟨V3i.all 0, 0, []⟩
  ⟨w, w, c, c, c⟩

/-- `std::vector::resize(n)`: keeps the first elements, value-initialises added ones. -/
def resizeVec (l : List Rat) (n : Nat) : List Rat :=
  l.take n ++ List.replicate (n - l.length) 0

/-- Resizing of one component in `sizeChanged`, export/MACField.h:671-684. -/
def resizeComp (c : Comp) (size : V3i) : Comp :=
  ⟨size, size.x * size.y, resizeVec c.data (size.x * size.y * size.z).toNat⟩

/-- `MACField::sizeChanged`, export/MACField.h:658-692, after
`ResizableField::setSize(extents, dataWindow)`, export/Field.h:940-948. `none` is the
`ResizeException` (lines 666-669: only negative sizes are refused). The allocation failure branch
is not modelled. -/
def setSize (f : Mac) (extents dw : Box3i) : Option Mac :=
  let base := dw.max - dw.min + V3i.all 1
  if min (min base.x base.y) base.z < 0 then none
  else some { extents, dw,
              cu := resizeComp f.cu (base + ⟨1, 0, 0⟩),
              cv := resizeComp f.cv (base + ⟨0, 1, 0⟩),
              cw := resizeComp f.cw (base + ⟨0, 0, 1⟩) }

/-- `clear`, export/MACField.h:620-625. -/
def clear (f : Mac) (val : V3q) : Mac :=
  { f with cu := { f.cu with data := f.cu.data.map (fun _ => val.x) },
           cv := { f.cv with data := f.cv.data.map (fun _ => val.y) },
           cw := { f.cw with data := f.cw.data.map (fun _ => val.z) } }

/-- Buffer index computed by `u`/`v`/`w` and `uPtr`/`vPtr`/`wPtr`, export/MACField.h:697-806,
917-1000: the six functions differ only in the member they use. -/
def index (f : Mac) (c : MacComp) (p : V3i) : Int :=
  (p.x - f.dw.min.x) + (p.y - f.dw.min.y) * (f.comp c).size.x + (p.z - f.dw.min.z) * (f.comp c).sizeXY

/-- Dereferencing a pointer into a component buffer. -/
def readAt (f : Mac) (c : MacComp) (i : Int) : Option Rat :=
  if 0 ≤ i then (f.comp c).data[i.toNat]? else none

/-- `u(i,j,k)`, `v(i,j,k)`, `w(i,j,k)`, export/MACField.h:697-806. -/
def face (f : Mac) (c : MacComp) (p : V3i) : Option Rat := f.readAt c (f.index c p)

/-- Assignment through the non-const `u`, `v`, `w`, export/MACField.h:714-730, 751-767, 789-806. -/
def write (f : Mac) (c : MacComp) (p : V3i) (x : Rat) : Option Mac :=
  let i := f.index c p
  if 0 ≤ i ∧ i.toNat < (f.comp c).data.length then
    some (f.setComp c { f.comp c with data := (f.comp c).data.set i.toNat x })
  else none

/-- `uCenter`, export/MACField.h:233-236. -/
def uCenter (f : Mac) (p : V3i) : Option Rat := do
  let a ← f.face .u p
  let b ← f.face .u ⟨p.x + 1, p.y, p.z⟩
  some ((a + b) * (1 / 2))

/-- `vCenter`, export/MACField.h:238-241. -/
def vCenter (f : Mac) (p : V3i) : Option Rat := do
  let a ← f.face .v p
  let b ← f.face .v ⟨p.x, p.y + 1, p.z⟩
  some ((a + b) * (1 / 2))

/-- `wCenter`, export/MACField.h:243-246. -/
def wCenter (f : Mac) (p : V3i) : Option Rat := do
  let a ← f.face .w p
  let b ← f.face .w ⟨p.x, p.y, p.z + 1⟩
  some ((a + b) * (1 / 2))

/-- `value`, export/MACField.h:629-633. -/
def value (f : Mac) (p : V3i) : Option V3q := do
  let a ← f.uCenter p
  let b ← f.vCenter p
  let c ← f.wCenter p
  some ⟨a, b, c⟩

/-- `lvalue(i,j,k) = x`, export/MACField.h:649-653: the value is copied to a dummy member and the
dummy is what the caller writes to; the field itself is left as it is. -/
def writeLvalue (f : Mac) (p : V3i) (_x : V3q) : Option Mac := do
  let _ ← f.value p
  some f

/-- `copyMAC`, export/MACField.h:250-256: `matchDefinition` (export/Field.h:1003-1011) resizes to the
other field's windows, then three `std::copy`s; writing past the end of the destination is `none`. -/
def copyMAC (f other : Mac) : Option Mac := do
  let g ← f.setSize other.extents other.dw
  if other.cu.data.length ≤ g.cu.data.length ∧ other.cv.data.length ≤ g.cv.data.length ∧
     other.cw.data.length ≤ g.cw.data.length then
    some { g with
      cu := { g.cu with data := other.cu.data ++ g.cu.data.drop other.cu.data.length },
      cv := { g.cv with data := other.cv.data ++ g.cv.data.drop other.cv.data.length },
      cw := { g.cw with data := other.cw.data ++ g.cw.data.drop other.cw.data.length } }
  else none

/-- `(const_)mac_comp_iterator` state, export/MACField.h:427, 455-456: position and pointer
(`none` is NULL). -/
structure Iter where
  pos : V3i
  ptr : Option Int
deriving DecidableEq, Repr

/-- Iterator constructor, export/MACField.h:369-380, 479-487. -/
def iterMake (f : Mac) (c : MacComp) (w : Box3i) (p : V3i) : Iter :=
  ⟨p, if w.contains p then some (f.index c p) else none⟩

/-- `operator++`, export/MACField.h:384-405, 491-512. -/
def iterNext (f : Mac) (c : MacComp) (w : Box3i) (s : Iter) : Iter :=
  if s.pos.x = w.max.x then
    if s.pos.y = w.max.y then
      if s.pos.z = w.max.z then
        ⟨s.pos, none⟩
      else
        let p : V3i := ⟨w.min.x, w.min.y, s.pos.z + 1⟩
        ⟨p, some (f.index c p)⟩
    else
      let p : V3i := ⟨w.min.x, s.pos.y + 1, s.pos.z⟩
      ⟨p, some (f.index c p)⟩
  else
    ⟨⟨s.pos.x + 1, s.pos.y, s.pos.z⟩, s.ptr.map (· + 1)⟩

/-- `cend_comp(comp)` (`sub = dataWindow`) and `cend_comp(comp, subset)`, export/MACField.h:838-863,
893-914. -/
def iterEnd (f : Mac) (c : MacComp) (sub : Box3i) : Iter :=
  let w := compWindow sub c
  f.iterMake c w ⟨w.min.x, w.min.y, w.max.z + 1⟩

/-- `cbegin_comp(comp, subset)`, export/MACField.h:824-834, 880-889. -/
def iterBegin (f : Mac) (c : MacComp) (sub : Box3i) : Iter :=
  if sub.isEmpty then f.iterEnd c sub else f.iterMake c (compWindow sub c) sub.min

/-- `cbegin_comp(comp)`, export/MACField.h:810-820, 867-876. -/
def iterBeginAll (f : Mac) (c : MacComp) : Iter :=
  if f.dw.res = V3i.all 0 then f.iterEnd c f.dw
  else f.iterMake c (compWindow f.dw c) (compWindow f.dw c).min

/-- `operator==` with the end iterator, export/MACField.h:407-411. -/
def iterAtEnd (f : Mac) (c : MacComp) (sub : Box3i) (s : Iter) : Bool :=
  decide (s.ptr = (f.iterEnd c sub).ptr)

/-- `operator*`, export/MACField.h:419-422. -/
def iterDeref (f : Mac) (c : MacComp) (s : Iter) : Option Rat := s.ptr.bind (f.readAt c)

end Mac
end F3D
