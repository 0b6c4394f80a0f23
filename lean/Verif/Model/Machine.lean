import Verif.Model.Mac
import Verif.Model.Sparse

/-!
# Index arithmetic in machine integers

The other modules use unbounded integers for C++ `int` and naturals for `size_t`. This one models
the same index computations with the types they have in the source: 32-bit signed `int`, where an
operation whose result does not fit is undefined, and 64-bit unsigned `size_t`, which wraps.

`ov` is what the machine does with a signed result that does not fit: `none` is undefined
behaviour; a compiler that wraps is the function `wrapping`. Theorems that hold for every `ov`
say that no operation overflows.
-/

namespace F3D.Machine

/-- The range of a 32-bit `int`. -/
def inInt (n : Int) : Bool := decide (-2147483648 ≤ n) && decide (n ≤ 2147483647)

/-- Overflow is undefined: no result. -/
def undefinedOv : Int → Option Int := fun _ => none

/-- Overflow wraps around, which most compilers produce without promising it. -/
def wrapping : Int → Option Int := fun n =>
  some ((n + 2147483648) % 4294967296 - 2147483648)

/-- The result of a signed 32-bit operation with mathematical result `n`. -/
def int (ov : Int → Option Int) (n : Int) : Option Int := if inInt n then some n else ov n

/-- Conversion of an `int` to `size_t`, and the result of a `size_t` operation: modulo `2^64`. -/
def size (n : Int) : Nat := (n % 18446744073709551616).toNat

/-- Conversion of a `size_t` to `int` (implementation-defined modulo `2^32` when out of range). -/
def toInt (n : Nat) : Int := ((n : Int) + 2147483648) % 4294967296 - 2147483648

/-- `a - b` on `V3i` (Imath's component-wise operators). -/
def sub3 (ov : Int → Option Int) (a b : V3i) : Option V3i :=
  (int ov (a.x - b.x)).bind fun x => (int ov (a.y - b.y)).bind fun y =>
    (int ov (a.z - b.z)).map fun z => ⟨x, y, z⟩

/-- `a + b` on `V3i`. -/
def add3 (ov : Int → Option Int) (a b : V3i) : Option V3i :=
  (int ov (a.x + b.x)).bind fun x => (int ov (a.y + b.y)).bind fun y =>
    (int ov (a.z + b.z)).map fun z => ⟨x, y, z⟩

/-- `a.x * a.y * a.z` on `int`s. -/
def volume (ov : Int → Option Int) (a : V3i) : Option Int :=
  (int ov (a.x * a.y)).bind fun xy => int ov (xy * a.z)

/-- `m_dataWindow.max - m_dataWindow.min + V3i(1)`: export/DenseField.h:650, MACField.h:663-664,
`FieldRes::dataResolution`, export/Field.h:256-257. -/
def sides (ov : Int → Option Int) (dw : Box3i) : Option V3i :=
  (sub3 ov dw.max dw.min).bind fun d => add3 ov d (V3i.all 1)

/-- `m_dataWindow.size() + V3i(1)` with Imath's `Box::size`, which is zero for an empty box. -/
def sizePlus (ov : Int → Option Int) (dw : Box3i) : Option V3i :=
  if dw.isEmpty then some (V3i.all 1) else sides ov dw

/-! ## Dense fields -/

/-- How `DenseField::setSize` ends. -/
inductive Resized (α : Type) where
  | ok (f : Dense α)
  | resizeException
  /-- `std::length_error` of `vector::resize`, which the handler for `std::bad_alloc` at
  export/DenseField.h:669 does not catch. -/
  | lengthError
  | memoryException
  | undefined

/-- `DenseField::sizeChanged`, export/DenseField.h:643-673, after
`ResizableField::setSize(extents, dataWindow)`. `m_memSize` is a vector of `size_t` and
`m_memSizeXY` a `size_t`, so the products wrap modulo `2^64`. `most` is `vector::max_size()` and
`granted n` says whether the allocator supplies `n` elements. -/
def denseSetSize {α : Type} (ov : Int → Option Int) (most : Nat) (granted : Nat → Bool)
    (dflt : α) (extents dw : Box3i) : Resized α :=
  match sides ov dw with
  | none => .undefined
  | some s =>
    let xy := size (size s.x * size s.y : Nat)
    if dw.max.x < dw.min.x ∨ dw.max.y < dw.min.y ∨ dw.max.z < dw.min.z then .resizeException
    else
      let n := size (size (size s.x * size s.y : Nat) * size s.z : Nat)
      if most < n then .lengthError
      else if granted n then
        .ok { extents, dw, memX := size s.x, memXY := xy, data := List.replicate n dflt }
      else .memoryException

/-- The offsets from the data window's corner: `i -= m_dataWindow.min.x` and so on,
export/DenseField.h:528-530, export/SparseField.h:455-460. -/
def offset (ov : Int → Option Int) (dw : Box3i) (p : V3i) : Option V3i := sub3 ov p dw.min

/-- `i + j * m_memSize.x + k * m_memSizeXY` as `size_t`, export/DenseField.h:532, 551, 685, 698. -/
def denseIndex {α : Type} (ov : Int → Option Int) (f : Dense α) (p : V3i) : Option Nat :=
  (offset ov f.dw p).map fun q =>
    size (size (size q.x + size (size q.y * f.memX.toNat : Nat) : Nat) +
      size (size q.z * f.memXY.toNat : Nat) : Nat)

/-- `value`/`fastValue`, export/DenseField.h:492-496, 518-533. -/
def denseValue {α : Type} (ov : Int → Option Int) (f : Dense α) (p : V3i) : Option α :=
  (denseIndex ov f p).bind fun i => f.data[i]?

/-- `lvalue(p) = v`, export/DenseField.h:510-514, 537-552. -/
def denseWrite {α : Type} (ov : Int → Option Int) (f : Dense α) (p : V3i) (v : α) :
    Option (Dense α) :=
  (denseIndex ov f p).bind fun i =>
    if i < f.data.length then some { f with data := f.data.set i v } else none

/-- `FieldRes::voxelCount`, export/Field.h:289-293: an `int` product returned as `size_t`. -/
def voxelCount (ov : Int → Option Int) (dw : Box3i) : Option Nat :=
  (sizePlus ov dw).bind fun r => (volume ov r).map size

/-- `DenseField::numGrains`, export/DenseField.h:463-470: an `int` product. -/
def denseGrains (ov : Int → Option Int) (dw : Box3i) : Option Nat :=
  (sizePlus ov dw).bind fun r => (int ov (r.y * r.z)).map size

/-- The number of elements `DenseFieldIO::writeInternal` writes, src/DenseFieldIO.cpp:485, 509:
`memSize` is bound to a temporary `V3i` made from the vector of `size_t`, and `length` is a product
of `int`s. -/
def denseFileLength (ov : Int → Option Int) (dw : Box3i) : Option Nat :=
  (sides ov dw).bind fun s =>
    (volume ov ⟨toInt (size s.x), toInt (size s.y), toInt (size s.z)⟩).map size

/-! ## MAC fields -/

/-- How `MACField::setSize` ends. -/
inductive MacResized where
  | ok (f : Mac)
  | resizeException
  | lengthError
  | undefined

/-- Resizing of one component, export/MACField.h:671-685: all products are `int`. -/
def macComp (ov : Int → Option Int) (c : Mac.Comp) (base add : V3i) : Option (Mac.Comp × Nat) :=
  (add3 ov base add).bind fun s => (int ov (s.x * s.y)).bind fun xy => (volume ov s).map fun n =>
    (⟨s, xy, Mac.resizeVec c.data (size n)⟩, size n)

/-- `MACField::sizeChanged`, export/MACField.h:658-692. `most` is `vector::max_size()`; allocation
is assumed to succeed below it. -/
def macSetSize (ov : Int → Option Int) (most : Nat) (f : Mac) (extents dw : Box3i) : MacResized :=
  match sides ov dw with
  | none => .undefined
  | some base =>
    if min (min base.x base.y) base.z < 0 then .resizeException
    else match macComp ov f.cu base ⟨1, 0, 0⟩, macComp ov f.cv base ⟨0, 1, 0⟩,
        macComp ov f.cw base ⟨0, 0, 1⟩ with
      | some (u, nu), some (v, nv), some (w, nw) =>
        if most < nu ∨ most < nv ∨ most < nw then .lengthError
        else .ok { extents, dw, cu := u, cv := v, cw := w }
      | _, _, _ => .undefined

/-- `i + j * m_uSize.x + k * m_uSizeXY` as `int`, export/MACField.h:706-710 and its copies. -/
def macIndex (ov : Int → Option Int) (f : Mac) (c : MacComp) (p : V3i) : Option Int :=
  (offset ov f.dw p).bind fun q =>
    (int ov (q.y * (f.comp c).size.x)).bind fun a => (int ov (q.x + a)).bind fun b =>
      (int ov (q.z * (f.comp c).sizeXY)).bind fun d => int ov (b + d)

/-- `u(i,j,k)` and its siblings, export/MACField.h:697-806: the `int` index is converted to the
vector's `size_t`. -/
def macFace (ov : Int → Option Int) (f : Mac) (c : MacComp) (p : V3i) : Option Rat :=
  (macIndex ov f c p).bind fun i => (f.comp c).data[size i]?

/-- Assignment through the non-const `u`, `v`, `w`, export/MACField.h:714-730, 751-767, 789-806. -/
def macWrite (ov : Int → Option Int) (f : Mac) (c : MacComp) (p : V3i) (x : Rat) : Option Mac :=
  (macIndex ov f c p).bind fun i =>
    if size i < (f.comp c).data.length then
      some (f.setComp c { f.comp c with data := (f.comp c).data.set (size i) x })
    else none

/-! ## Sparse fields -/

/-- `a << n` on `int`: undefined for a shift of 32 or more, for negative `a` and when the result
does not fit. -/
def shl (ov : Int → Option Int) (a : Int) (n : Nat) : Option Int :=
  if n < 32 ∧ 0 ≤ a then int ov (a * 2 ^ n) else none

/-- The number of blocks along an axis, export/SparseField.h:1861-1869: the resolution goes through
a `float`, is divided by the block side, rounded up and cast to `int` (undefined when it does not
fit). -/
def blockCount (ov : Int → Option Int) (order : Nat) (res : Int) : Option Int :=
  (shl ov 1 order).bind fun _ =>
    if inInt (Sparse.blockCount order res) then some (Sparse.blockCount order res) else none

/-- `setupBlocks`, export/SparseField.h:1857-1876, after `setSize(extents, dataWindow)`:
`m_blockXYSize` and `m_numBlocks` are computed as `int` products. -/
def sparseSetSize {α : Type} (ov : Int → Option Int) (zero : α) (f : Sparse α)
    (extents dw : Box3i) : Option (Sparse α) :=
  (sizePlus ov dw).bind fun res =>
    (blockCount ov f.order res.x).bind fun bx => (blockCount ov f.order res.y).bind fun by' =>
      (blockCount ov f.order res.z).bind fun bz =>
        (int ov (bx * by')).bind fun xy => (volume ov ⟨bx, by', bz⟩).map fun n =>
          { f with extents, dw, bres := ⟨bx, by', bz⟩, bxy := xy,
                   blocks := List.replicate (size n) (Block.fresh zero) }

/-- `blockId`, export/SparseField.h:1880-1884. -/
def blockId {α : Type} (ov : Int → Option Int) (f : Sparse α) (b : V3i) : Option Int :=
  (int ov (b.z * f.bxy)).bind fun a => (int ov (b.y * f.bres.x)).bind fun c =>
    (int ov (a + c)).bind fun d => int ov (d + b.x)

/-- `(k << blockOrder << blockOrder) + (j << blockOrder) + i`, export/SparseField.h:250-257. -/
def blockOffset (ov : Int → Option Int) (order : Nat) (v : V3i) : Option Int :=
  ((shl ov v.z order).bind fun a => shl ov a order).bind fun a =>
    (shl ov v.y order).bind fun b => (int ov (a + b)).bind fun c => int ov (c + v.x)

/-- `1 << m_blockOrder << m_blockOrder << m_blockOrder`, export/SparseField.h:1685, 1369, 1729. -/
def blockVoxels (ov : Int → Option Int) (order : Nat) : Option Nat :=
  (((shl ov 1 order).bind fun a => shl ov a order).bind fun a => shl ov a order).map size

/-- `1 << (m_blockOrder * 3)`, src/SparseFieldIO.cpp:747-748, 862, 1056. -/
def fileBlockVoxels (ov : Int → Option Int) (order : Nat) : Option Nat :=
  (shl ov 1 (order * 3)).map size

/-- Where `fastValue` and `fastLValue` find a voxel, export/SparseField.h:1623-1634, 1669-1680:
the block number and the offset in the block. Shifting right and masking by
`(1 << m_blockOrder) - 1` need the shift to be defined. -/
def sparseAddress {α : Type} (ov : Int → Option Int) (f : Sparse α) (p : V3i) :
    Option (Int × Int) :=
  (offset ov f.dw p).bind fun q => (shl ov 1 f.order).bind fun _ =>
    (blockId ov f (f.blockCoord q)).bind fun id =>
      (blockOffset ov f.order (f.voxelInBlock q)).map fun off => (id, off)

/-- `value`/`fastValue`, export/SparseField.h:1613-1647 (branch without manager). -/
def sparseValue {α : Type} (ov : Int → Option Int) (f : Sparse α) (p : V3i) : Option α :=
  (sparseAddress ov f p).bind fun a => (f.block? a.1).bind fun b =>
    if b.isAllocated then b.read a.2 else some b.emptyValue

/-- `lvalue(p) = v`, export/SparseField.h:1652-1689 (branch without manager). -/
def sparseWrite {α : Type} (ov : Int → Option Int) (f : Sparse α) (p : V3i) (v : α) :
    Option (Sparse α) :=
  (sparseAddress ov f p).bind fun a => (f.block? a.1).bind fun b =>
    if b.isAllocated then f.store a.1 a.2 v
    else (blockVoxels ov f.order).bind fun n =>
      (f.setBlock a.1 (b.resize n)).store a.1 a.2 v

/-- `clear`, export/SparseField.h:1451-1461: sets the blocks up again and gives each the value. -/
def sparseClear {α : Type} (ov : Int → Option Int) (zero : α) (f : Sparse α) (v : α) :
    Option (Sparse α) :=
  (sparseSetSize ov zero f f.extents f.dw).map fun g =>
    { g with blocks := g.blocks.map (fun b => { b with emptyValue := v }) }

/-- `setBlockOrder`, export/SparseField.h:1465-1470. -/
def sparseSetBlockOrder {α : Type} (ov : Int → Option Int) (zero : α) (f : Sparse α) (o : Nat) :
    Option (Sparse α) := sparseSetSize ov zero { f with order := o } f.extents f.dw

/-- `setBlockEmptyValue`, export/SparseField.h:1518-1528. -/
def sparseSetBlockEmptyValue {α : Type} (ov : Int → Option Int) (f : Sparse α) (b : V3i) (v : α) :
    Option (Sparse α) :=
  (blockId ov f b).bind fun id => (f.block? id).map fun blk =>
    f.setBlock id (if blk.isAllocated then Sparse.deallocBlock blk v else { blk with emptyValue := v })

/-- The `int` computations of `releaseBlocks` and its checks, export/SparseField.h:1559-1583,
727, 832: the resolution, the low corner of the last block along each axis, the number of voxels in
that block, and the number of voxels in a block. The loops themselves are those of
`Sparse.releaseBlocks`. -/
def sparseRelease {α : Type} (ov : Int → Option Int) (bad : α → α → Bool) (f : Sparse α) :
    Option (Sparse α × Nat) :=
  (sides ov f.dw).bind fun r => (shl ov 1 f.order).bind fun s =>
    (int ov ((f.bres.x - 1) * s)).bind fun x => (int ov (r.x - x)).bind fun _ =>
      (int ov ((f.bres.y - 1) * s)).bind fun y => (int ov (r.y - y)).bind fun _ =>
        (int ov ((f.bres.z - 1) * s)).bind fun z => (int ov (r.z - z)).bind fun _ =>
          (volume ov (V3i.all s)).bind fun _ => f.releaseBlocks bad

/-- `indexToCoord`, export/Field.h:1187-1193: the divisions are on `size_t`, `res.x * res.y` is an
`int` product, and the results are converted to `int`. Division by zero is undefined. -/
def indexToCoord (ov : Int → Option Int) (idx : Nat) (res : V3i) : Option V3i :=
  (int ov (res.x * res.y)).bind fun xy =>
    if size res.x = 0 ∨ size res.y = 0 ∨ size xy = 0 then none
    else some ⟨toInt (idx % size res.x), toInt (idx / size res.x % size res.y),
               toInt (idx / size xy)⟩

/-- `SparseField::getGrainBounds`, export/SparseField.h:1950-1965: `bCoord * blockSide` is a product
of `int`s (`blockSide` is converted to the vector's element type). -/
def sparseGrain {α : Type} (ov : Int → Option Int) (f : Sparse α) (idx : Nat) : Option Box3i :=
  (shl ov 1 f.order).bind fun s => (indexToCoord ov idx f.bres).bind fun c =>
    (int ov (c.x * s)).bind fun x => (int ov (c.y * s)).bind fun y =>
      (int ov (c.z * s)).bind fun z => (add3 ov ⟨x, y, z⟩ f.dw.min).bind fun start =>
        (add3 ov start (V3i.all (s - 1))).map fun stop => clipBounds ⟨start, stop⟩ f.dw

/-- `DenseField::getGrainBounds`, export/DenseField.h:474-488. -/
def denseGrain (ov : Int → Option Int) (dw : Box3i) (idx : Nat) : Option Box3i :=
  (sizePlus ov dw).bind fun res =>
    if size res.y = 0 then none
    else
      let y := toInt (idx % size res.y)
      let z := toInt (idx / size res.y)
      (add3 ov dw.min ⟨0, y, z⟩).bind fun start => (add3 ov dw.min ⟨res.x, y, z⟩).map fun stop =>
        clipBounds ⟨start, stop⟩ dw

/-- The position of the end iterator over a window, export/DenseField.h:590-596,
export/SparseField.h:1801-1812: `V3i(min.x, min.y, max.z + 1)`. -/
def endPosition (ov : Int → Option Int) (w : Box3i) : Option V3i :=
  (int ov (w.max.z + 1)).map fun z => ⟨w.min.x, w.min.y, z⟩

end F3D.Machine
