import Verif.Model.Iterate

/-!
# DenseField

Models `export/DenseField.h` and the `setSize` overloads of `export/Field.h`. A field is its two
windows, the strides computed by `sizeChanged` and the element buffer. An access outside the
buffer (undefined behaviour in C++) is the outcome `none`.
-/

namespace F3D

/-- State of a `DenseField<Data_T>` (members used: m_extents, m_dataWindow of `FieldRes`,
m_memSize.x, m_memSizeXY and m_data of `DenseField`, export/DenseField.h:219-224). -/
structure Dense (α : Type) where
  extents : Box3i
  dw : Box3i
  memX : Int
  memXY : Int
  data : List α

namespace Dense
variable {α : Type}

/-- Result of `setSize`: either the resized field or the `ResizeException` of
export/DenseField.h:654-662. -/
inductive Resized (α : Type) where
  | ok (f : Dense α)
  | resizeException

/-- `DenseField::sizeChanged`, export/DenseField.h:643-673, after
`ResizableField::setSize(extents, dataWindow)`, export/Field.h:940-948. `dflt` is `Data_T()`.
The allocation failure branch (lines 669-672) is not modelled. -/
def setSize (dflt : α) (extents dw : Box3i) : Resized α :=
  let memSize := dw.max - dw.min + V3i.all 1
  if dw.max.x < dw.min.x ∨ dw.max.y < dw.min.y ∨ dw.max.z < dw.min.z then
    .resizeException
  else
    .ok { extents, dw, memX := memSize.x, memXY := memSize.x * memSize.y,
          data := List.replicate (memSize.x * memSize.y * memSize.z).toNat dflt }

/-- Buffer index computed by `fastValue`/`fastLValue`/`ptr`, export/DenseField.h:528-532,
547-551, 681-685, 694-698. -/
def index (f : Dense α) (p : V3i) : Int :=
  (p.x - f.dw.min.x) + (p.y - f.dw.min.y) * f.memX + (p.z - f.dw.min.z) * f.memXY

/-- Reading element `i` of the buffer; outside the buffer is undefined behaviour (`none`). -/
def readAt (f : Dense α) (i : Int) : Option α :=
  if 0 ≤ i then f.data[i.toNat]? else none

/-- `value`/`fastValue`, export/DenseField.h:492-496, 518-533. -/
def value (f : Dense α) (p : V3i) : Option α := f.readAt (f.index p)

/-- `lvalue(i,j,k) = v`, `fastLValue`, export/DenseField.h:510-514, 537-552. -/
def write (f : Dense α) (p : V3i) (v : α) : Option (Dense α) :=
  let i := f.index p
  if 0 ≤ i ∧ i.toNat < f.data.length then
    some { f with data := f.data.set i.toNat v }
  else none

/-- `clear`, export/DenseField.h:455-459. -/
def clear (f : Dense α) (v : α) : Dense α :=
  { f with data := f.data.map (fun _ => v) }

/-- `DenseField::const_iterator`/`iterator` state: position and element pointer
(index into the buffer; `none` is the null pointer), export/DenseField.h:331-343, 426-438. -/
structure Iter where
  pos : V3i
  ptr : Option Int
deriving DecidableEq, Repr

/-- Iterator constructor, export/DenseField.h:275-284, 370-379. -/
def iterMake (f : Dense α) (w : Box3i) (p : V3i) : Iter :=
  ⟨p, if w.contains p then some (f.index p) else none⟩

/-- `operator++`, export/DenseField.h:288-305, 383-400. -/
def iterNext (f : Dense α) (w : Box3i) (s : Iter) : Iter :=
  if s.pos.x = w.max.x then
    if s.pos.y = w.max.y then
      if s.pos.z = w.max.z then
        ⟨s.pos, none⟩
      else
        let p : V3i := ⟨w.min.x, w.min.y, s.pos.z + 1⟩
        ⟨p, some (f.index p)⟩
    else
      let p : V3i := ⟨w.min.x, s.pos.y + 1, s.pos.z⟩
      ⟨p, some (f.index p)⟩
  else
    ⟨⟨s.pos.x + 1, s.pos.y, s.pos.z⟩, s.ptr.map (· + 1)⟩

/-- `cend(subset)`, export/DenseField.h:590-596, 633-639. -/
def iterEnd (f : Dense α) (w : Box3i) : Iter :=
  f.iterMake w ⟨w.min.x, w.min.y, w.max.z + 1⟩

/-- `cbegin(subset)`, export/DenseField.h:567-574, 610-617. -/
def iterBegin (f : Dense α) (w : Box3i) : Iter :=
  if w.isEmpty then f.iterEnd w else f.iterMake w w.min

/-- `cbegin()`, export/DenseField.h:556-563, 600-606. -/
def iterBeginAll (f : Dense α) : Iter :=
  if f.dw.res = V3i.all 0 then f.iterEnd f.dw else f.iterMake f.dw f.dw.min

/-- `operator==` with the end iterator compares element pointers,
export/DenseField.h:307-311, 402-406. -/
def iterAtEnd (f : Dense α) (w : Box3i) (s : Iter) : Bool := decide (s.ptr = (f.iterEnd w).ptr)

/-- `operator*`, export/DenseField.h:319-322, 414-417. -/
def iterDeref (f : Dense α) (s : Iter) : Option α := s.ptr.bind f.readAt

/-- `numGrains`, export/DenseField.h:463-470. -/
def numGrains (f : Dense α) : Int :=
  (f.dw.size + V3i.all 1).y * (f.dw.size + V3i.all 1).z

/-- `getGrainBounds`, export/DenseField.h:474-488 (`idx` is a `size_t`; `res.y ≥ 1`). -/
def getGrainBounds (f : Dense α) (idx : Nat) : Box3i :=
  let res := f.dw.size + V3i.all 1
  let y : Int := (idx : Int) % res.y
  let z : Int := (idx : Int) / res.y
  let start := f.dw.min + ⟨0, y, z⟩
  let stop := f.dw.min + ⟨res.x, y, z⟩
  clipBounds ⟨start, stop⟩ f.dw

end Dense

/-- The windows given by the four `setSize` overloads, export/Field.h:912-962. -/
inductive SizeArg where
  | size (s : V3i)
  | extents (e : Box3i)
  | both (e dw : Box3i)
  | padded (s : V3i) (padding : Int)
deriving Repr

/-- Extents and data window set by each overload: lines 919-921, 932-933, 944-945, 960-961. -/
def SizeArg.windows : SizeArg → Box3i × Box3i
  | .size s => (⟨V3i.all 0, s - V3i.all 1⟩, ⟨V3i.all 0, s - V3i.all 1⟩)
  | .extents e => (e, e)
  | .both e dw => (e, dw)
  | .padded s p => (⟨V3i.all 0, s - V3i.all 1⟩, ⟨V3i.all (-p), s + V3i.all (p - 1)⟩)

end F3D
