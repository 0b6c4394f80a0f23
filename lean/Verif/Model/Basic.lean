/-!
# Basic integer vectors and boxes

Models the parts of Imath's `V3i`/`Box3i` that Field3D uses, and the index helpers of
`export/Field.h`. C++ `int` is modelled by unbounded `Int` (see DESIGN.md, section 2).
-/

namespace F3D

/-- `Imath::V3i` (typedef at export/StdMathLib.h:65). -/
structure V3i where
  x : Int
  y : Int
  z : Int
deriving DecidableEq, Repr

namespace V3i

/-- Component-wise `operator+` of Imath `Vec3`. -/
instance : Add V3i := ⟨fun a b => ⟨a.x + b.x, a.y + b.y, a.z + b.z⟩⟩
/-- Component-wise `operator-` of Imath `Vec3`. -/
instance : Sub V3i := ⟨fun a b => ⟨a.x - b.x, a.y - b.y, a.z - b.z⟩⟩

/-- `V3i(int a)`: all components equal. -/
def all (a : Int) : V3i := ⟨a, a, a⟩

@[simp] theorem add_x (a b : V3i) : (a + b).x = a.x + b.x := rfl
@[simp] theorem add_y (a b : V3i) : (a + b).y = a.y + b.y := rfl
@[simp] theorem add_z (a b : V3i) : (a + b).z = a.z + b.z := rfl
@[simp] theorem sub_x (a b : V3i) : (a - b).x = a.x - b.x := rfl
@[simp] theorem sub_y (a b : V3i) : (a - b).y = a.y - b.y := rfl
@[simp] theorem sub_z (a b : V3i) : (a - b).z = a.z - b.z := rfl
@[simp] theorem all_x (a : Int) : (all a).x = a := rfl
@[simp] theorem all_y (a : Int) : (all a).y = a := rfl
@[simp] theorem all_z (a : Int) : (all a).z = a := rfl

theorem ext' {a b : V3i} (hx : a.x = b.x) (hy : a.y = b.y) (hz : a.z = b.z) : a = b := by
  cases a; cases b; simp_all

end V3i

/-- `Imath::Box3i` (typedef at export/StdMathLib.h:69): inclusive integer box. -/
structure Box3i where
  min : V3i
  max : V3i
deriving DecidableEq, Repr

namespace Box3i

/-- `Box::isEmpty`: some `max` component is below `min`. -/
def isEmpty (b : Box3i) : Bool :=
  decide (b.max.x < b.min.x) || decide (b.max.y < b.min.y) || decide (b.max.z < b.min.z)

/-- `Box::intersects(point)`: inclusive containment. -/
def contains (b : Box3i) (p : V3i) : Bool :=
  decide (b.min.x ≤ p.x) && decide (p.x ≤ b.max.x) &&
  decide (b.min.y ≤ p.y) && decide (p.y ≤ b.max.y) &&
  decide (b.min.z ≤ p.z) && decide (p.z ≤ b.max.z)

/-- `Box::size()`: Imath returns `V3i(0)` for an empty box and `max - min` otherwise. -/
def size (b : Box3i) : V3i := if b.isEmpty then V3i.all 0 else b.max - b.min

/-- `FieldRes::dataResolution()`, export/Field.h:256-257:
`m_dataWindow.max - m_dataWindow.min + V3i(1)`. -/
def res (b : Box3i) : V3i := b.max - b.min + V3i.all 1

end Box3i

/-- export/Field.h:1145-1155 `clipBounds`: component-wise max of mins and min of maxes. -/
def clipBounds (bbox bounds : Box3i) : Box3i where
  min := ⟨max bbox.min.x bounds.min.x, max bbox.min.y bounds.min.y, max bbox.min.z bounds.min.z⟩
  max := ⟨min bbox.max.x bounds.max.x, min bbox.max.y bounds.max.y, min bbox.max.z bounds.max.z⟩

/-- export/Field.h:1187-1193 `indexToCoord`. `idx` is a `size_t`; `res` components are converted
to unsigned in `idx % res.x`, which is the natural-number remainder for `res.x ≥ 0`; the
components of `res` are therefore taken as naturals here. -/
def indexToCoord (idx : Nat) (rx ry : Nat) : V3i :=
  ⟨((idx % rx : Nat) : Int), (((idx / rx) % ry : Nat) : Int), ((idx / (rx * ry) : Nat) : Int)⟩

end F3D
