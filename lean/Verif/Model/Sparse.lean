import Verif.Model.Iterate

/-!
# SparseField (in memory)

Models `export/SparseField.h` for fields without a file manager (`m_fileManager == NULL`); the
dynamically loaded case is in `Verif.Model.Cache`. Undefined behaviour (index outside the block
table, null block data, offset outside the block data) is the outcome `none`.
-/

namespace F3D

/-- Conversion `int -> float` of a non-negative integer (round to nearest, ties to even, 24 bit
significand), as used for `V3f res(...)` in export/SparseField.h:1861. -/
def toFloat32 (n : Nat) : Nat :=
  let k := n.log2
  if k < 24 then n
  else
    let u := 2 ^ (k - 23)
    let q := n / u
    let r := n % u
    if 2 * r < u then q * u
    else if u < 2 * r then (q + 1) * u
    else if q % 2 = 0 then q * u else (q + 1) * u

/-- `Sparse::SparseBlock`, export/SparseField.h:225-327. `data = none` is the null pointer. -/
structure Block (α : Type) where
  isAllocated : Bool
  emptyValue : α
  data : Option (List α)
deriving DecidableEq

namespace Block
variable {α : Type}

/-- Constructor, export/SparseField.h:231-235; `zero` is `static_cast<Data_T>(0)`. -/
def fresh (zero : α) : Block α := ⟨false, zero, none⟩

/-- Element index used by `value`, export/SparseField.h:248-256:
`(k << o << o) + (j << o) + i`. -/
def offset (o : Nat) (v : V3i) : Int := v.z * (2 ^ o * 2 ^ o : Nat) + v.y * (2 ^ o : Nat) + v.x

/-- Reading through `value(i,j,k,order)`: null data or an offset outside the data is undefined. -/
def read (b : Block α) (off : Int) : Option α :=
  match b.data with
  | none => none
  | some d => if 0 ≤ off then d[off.toNat]? else none

/-- Writing through `value(i,j,k,order)`. -/
def write (b : Block α) (off : Int) (v : α) : Option (Block α) :=
  match b.data with
  | none => none
  | some d => if 0 ≤ off ∧ off.toNat < d.length then
      some { b with data := some (d.set off.toNat v) } else none

/-- `resize(n)`, export/SparseField.h:259-270. -/
def resize (b : Block α) (n : Nat) : Block α :=
  { b with isAllocated := true, data := some (List.replicate n b.emptyValue) }

/-- `clear()`, export/SparseField.h:273-282. -/
def clear (b : Block α) : Block α := { b with data := none }

end Block

/-- State of an in-memory `SparseField`, export/SparseField.h:609-628. -/
structure Sparse (α : Type) where
  extents : Box3i
  dw : Box3i
  order : Nat
  bres : V3i
  bxy : Int
  blocks : List (Block α)

namespace Sparse
variable {α : Type}

/-- `ceil` of `float(res) / (1 << order)`: export/SparseField.h:1861-1868. The division by a power
of two and the ceiling are exact in binary floating point. -/
def blockCount (order : Nat) (res : Int) : Int :=
  (((toFloat32 res.toNat) + (2 ^ order - 1)) / 2 ^ order : Nat)

/-- `setupBlocks`, export/SparseField.h:1857-1876. -/
def setupBlocks (zero : α) (f : Sparse α) : Sparse α :=
  let res := f.dw.size + V3i.all 1
  let bres : V3i := ⟨blockCount f.order res.x, blockCount f.order res.y, blockCount f.order res.z⟩
  { f with bres := bres, bxy := bres.x * bres.y,
           blocks := List.replicate (bres.x * bres.y * bres.z).toNat (Block.fresh zero) }

/-- `setSize(extents, dataWindow)` followed by `sizeChanged`, export/Field.h:940-948,
export/SparseField.h:587-592. -/
def setSize (zero : α) (f : Sparse α) (extents dw : Box3i) : Sparse α :=
  setupBlocks zero { f with extents, dw }

/-- Default constructor, export/SparseField.h:1286-1294 with `FieldRes::FieldRes`,
export/Field.h:325-331 (`BLOCK_ORDER` is 4). -/
def empty (zero : α) : Sparse α :=
  setupBlocks zero
    { extents := ⟨V3i.all 0, V3i.all (-1)⟩, dw := ⟨V3i.all 0, V3i.all (-1)⟩, order := 4,
      bres := V3i.all 0, bxy := 0, blocks := [] }

/-- `applyDataWindowOffset`, export/SparseField.h:455-460. -/
def offsetCoord (f : Sparse α) (p : V3i) : V3i := p - f.dw.min

/-- `getBlockCoord`, export/SparseField.h:1889-1899: arithmetic right shift (floor division). -/
def blockCoord (f : Sparse α) (q : V3i) : V3i :=
  ⟨q.x / (2 ^ f.order : Nat), q.y / (2 ^ f.order : Nat), q.z / (2 ^ f.order : Nat)⟩

/-- `getVoxelInBlock`, export/SparseField.h:1904-1914: `& ((1 << order) - 1)` is the remainder
modulo `2^order`. -/
def voxelInBlock (f : Sparse α) (q : V3i) : V3i :=
  ⟨q.x % (2 ^ f.order : Nat), q.y % (2 ^ f.order : Nat), q.z % (2 ^ f.order : Nat)⟩

/-- `blockId`, export/SparseField.h:1880-1884. -/
def blockId (f : Sparse α) (b : V3i) : Int := b.z * f.bxy + b.y * f.bres.x + b.x

/-- `m_blocks[id]`. -/
def block? (f : Sparse α) (id : Int) : Option (Block α) :=
  if 0 ≤ id then f.blocks[id.toNat]? else none

/-- Replacing block `id` by the result of modifying it in place. -/
def setBlock (f : Sparse α) (id : Int) (b : Block α) : Sparse α :=
  { f with blocks := f.blocks.set id.toNat b }

/-- `value`/`fastValue`, export/SparseField.h:1597-1601, 1613-1647 (branch without manager). -/
def value (f : Sparse α) (p : V3i) : Option α :=
  let q := f.offsetCoord p
  match f.block? (f.blockId (f.blockCoord q)) with
  | none => none
  | some b =>
    if b.isAllocated then b.read (Block.offset f.order (f.voxelInBlock q))
    else some b.emptyValue

/-- `lvalue`/`fastLValue`, export/SparseField.h:1605-1609, 1652-1689 (branch without manager):
the field after a possible allocation, and the element referred to (block, offset). -/
def lvalue (f : Sparse α) (p : V3i) : Option (Sparse α × Int × Int) :=
  let q := f.offsetCoord p
  let id := f.blockId (f.blockCoord q)
  match f.block? id with
  | none => none
  | some b =>
    let off := Block.offset f.order (f.voxelInBlock q)
    if b.isAllocated then some (f, id, off)
    else some (f.setBlock id (b.resize (2 ^ f.order * 2 ^ f.order * 2 ^ f.order)), id, off)

/-- Assignment through a reference to element `off` of block `id`. -/
def store (f : Sparse α) (id off : Int) (v : α) : Option (Sparse α) :=
  match (f.block? id).bind (fun b => b.write off v) with
  | none => none
  | some b => some (f.setBlock id b)

/-- `lvalue(p) = v`. -/
def write (f : Sparse α) (p : V3i) (v : α) : Option (Sparse α) :=
  match f.lvalue p with
  | none => none
  | some (g, id, off) => g.store id off v

/-- `clear`, export/SparseField.h:1451-1461. -/
def clear (zero : α) (f : Sparse α) (v : α) : Sparse α :=
  let g := f.setupBlocks zero
  { g with blocks := g.blocks.map (fun b => { b with emptyValue := v }) }

/-- `setBlockOrder`, export/SparseField.h:1465-1470. -/
def setBlockOrder (zero : α) (f : Sparse α) (o : Nat) : Sparse α :=
  setupBlocks zero { f with order := o }

/-- `blockIsAllocated`, export/SparseField.h:1501-1506. -/
def blockIsAllocated (f : Sparse α) (b : V3i) : Option Bool :=
  (f.block? (f.blockId b)).map (·.isAllocated)

/-- `voxelIsInAllocatedBlock`, export/SparseField.h:1490-1497. -/
def voxelIsInAllocatedBlock (f : Sparse α) (p : V3i) : Option Bool :=
  f.blockIsAllocated (f.blockCoord (f.offsetCoord p))

/-- `getBlockEmptyValue`, export/SparseField.h:1510-1514. -/
def getBlockEmptyValue (f : Sparse α) (b : V3i) : Option α :=
  (f.block? (f.blockId b)).map (·.emptyValue)

/-- `deallocBlock`, export/SparseField.h:1969-1976. -/
def deallocBlock (b : Block α) (v : α) : Block α :=
  { (Block.clear { b with isAllocated := false }) with emptyValue := v }

/-- `setBlockEmptyValue`, export/SparseField.h:1518-1528. -/
def setBlockEmptyValue (f : Sparse α) (bc : V3i) (v : α) : Option (Sparse α) :=
  let id := f.blockId bc
  match f.block? id with
  | none => none
  | some b =>
    some (f.setBlock id (if b.isAllocated then deallocBlock b v else { b with emptyValue := v }))

/-- `blockIndexIsValid`, export/SparseField.h:1532-1537. -/
def blockIndexIsValid (f : Sparse α) (b : V3i) : Bool :=
  decide (0 ≤ b.x) && decide (0 ≤ b.y) && decide (0 ≤ b.z) &&
  decide (b.x < f.bres.x) && decide (b.y < f.bres.y) && decide (b.z < f.bres.z)

/-- The counter wrap-around at the head of the loops in export/SparseField.h:740-747, 846-853,
1566-1573. -/
def wrap (sx sy : Int) (c : V3i) : V3i :=
  if c.x ≥ sx then
    if c.y + 1 ≥ sy then ⟨0, 0, c.z + 1⟩ else ⟨0, c.y + 1, c.z⟩
  else c

/-- The loop "only look at valid voxels", export/SparseField.h:738-755 and 844-861: `bad` is the
test that makes the loop give up. The loop index runs over all elements of the block data. -/
def validLoop (bad : α → Bool) (valid bs : V3i) : List α → V3i → Bool
  | [], _ => true
  | d :: ds, c =>
    let c := wrap bs.x bs.y c
    if c.x ≥ valid.x ∨ c.y ≥ valid.y ∨ c.z ≥ valid.z then
      validLoop bad valid bs ds ⟨c.x + 1, c.y, c.z⟩
    else if bad d then false
    else validLoop bad valid bs ds ⟨c.x + 1, c.y, c.z⟩

/-- The interior-block loop, export/SparseField.h:730-735 and 836-841. -/
def allLoop (bad : α → Bool) : List α → Bool
  | [] => true
  | d :: ds => if bad d then false else allLoop bad ds

/-- Common part of the `check` functors, export/SparseField.h:720-764 and 825-870: `bad first d`
is the rejecting test. Outer `none`: undefined behaviour (null or empty data); inner `none`: the
block is kept; `some v`: release it with empty value `v`. -/
def checkBlock (bad : α → α → Bool) (b : Block α) (valid bs : V3i) : Option (Option α) :=
  match b.data with
  | none => none
  | some [] => none
  | some (first :: rest) =>
    let ok := if valid = bs then allLoop (bad first) (first :: rest)
              else validLoop (bad first) valid bs (first :: rest) ⟨0, 0, 0⟩
    some (if ok then some first else none)

/-- `validSize` of the block `(bx,by,bz)` in `releaseBlocks`, export/SparseField.h:1574-1583. -/
def validSize (f : Sparse α) (b : V3i) : V3i :=
  let s : Int := (2 ^ f.order : Nat)
  let res := f.dw.res
  ⟨if b.x = f.bres.x - 1 then res.x - b.x * s else s,
   if b.y = f.bres.y - 1 then res.y - b.y * s else s,
   if b.z = f.bres.z - 1 then res.z - b.z * s else s⟩

/-- The block loop of `releaseBlocks`, export/SparseField.h:1564-1591. Returns the new blocks and
the number of deallocations; `none` if a check is undefined. -/
def releaseLoop (bad : α → α → Bool) (f : Sparse α) :
    List (Block α) → V3i → Option (List (Block α) × Nat)
  | [], _ => some ([], 0)
  | b :: bs, c =>
    let c := wrap f.bres.x f.bres.y c
    let head : Option (Block α × Nat) :=
      if b.isAllocated then
        match checkBlock bad b (f.validSize c) (V3i.all (2 ^ f.order : Nat)) with
        | none => none
        | some none => some (b, 0)
        | some (some v) => some (deallocBlock b v, 1)
      else some (b, 0)
    match head, releaseLoop bad f bs ⟨c.x + 1, c.y, c.z⟩ with
    | some (b', n), some (bs', m) => some (b' :: bs', n + m)
    | _, _ => none

/-- `releaseBlocks(func)`, export/SparseField.h:1549-1593. -/
def releaseBlocks (bad : α → α → Bool) (f : Sparse α) : Option (Sparse α × Nat) :=
  match releaseLoop bad f f.blocks ⟨0, 0, 0⟩ with
  | none => none
  | some (bs, n) => some ({ f with blocks := bs }, n)

/-- `CheckAllEqual`, export/SparseField.h:709-765: rejects on `data[i] != first`. -/
def releaseAllEqual [DecidableEq α] (f : Sparse α) : Option (Sparse α × Nat) :=
  f.releaseBlocks (fun first d => decide (d ≠ first))

/-- `CheckMaxAbs(maxValue)`, export/SparseField.h:810-873 with the scalar `isAnyLess`,
lines 769-773: rejects on `abs(data[i]) < maxValue`; `less d` stands for that test. -/
def releaseMaxAbs (less : α → Bool) (f : Sparse α) : Option (Sparse α × Nat) :=
  f.releaseBlocks (fun _ d => less d)

/-- `voxelCount`, export/SparseField.h:1725-1738. -/
def voxelCount (f : Sparse α) : Nat :=
  (f.blocks.filter (·.isAllocated)).length * (2 ^ f.order * 2 ^ f.order * 2 ^ f.order)

/-- `numGrains`, export/SparseField.h:1942-1946. -/
def numGrains (f : Sparse α) : Nat := f.blocks.length

/-- `getGrainBounds`, export/SparseField.h:1950-1965. -/
def getGrainBounds (f : Sparse α) (idx : Nat) : Box3i :=
  let s : Int := (2 ^ f.order : Nat)
  let bc := indexToCoord idx f.bres.x.toNat f.bres.y.toNat
  let start : V3i := ⟨bc.x * s + f.dw.min.x, bc.y * s + f.dw.min.y, bc.z * s + f.dw.min.z⟩
  clipBounds ⟨start, start + V3i.all (s - 1)⟩ f.dw

/-- The return value of `getGrainBounds`, export/SparseField.h:1963-1964: whether the grain is a
complete block. -/
def grainIsWholeBlock (f : Sparse α) (idx : Nat) : Bool :=
  let s : Int := (2 ^ f.order : Nat)
  let bc := indexToCoord idx f.bres.x.toNat f.bres.y.toNat
  let start : V3i := ⟨bc.x * s + f.dw.min.x, bc.y * s + f.dw.min.y, bc.z * s + f.dw.min.z⟩
  decide (f.getGrainBounds idx = ⟨start, start + V3i.all (s - 1)⟩)

/-! ## Block iterator -/

/-- Block window of `blockBegin`/`blockEnd`, export/SparseField.h:1841, 1851. -/
def blockWindow (f : Sparse α) : Box3i := ⟨V3i.all 0, f.bres - V3i.all 1⟩

/-- `blockBegin()` position, export/SparseField.h:1835-1843. -/
def blockBegin (f : Sparse α) : V3i :=
  if f.dw.res = V3i.all 0 then ⟨0, 0, f.bres.z⟩ else V3i.all 0

/-- `Imath::clip(point, box)`: component-wise clamp. -/
def clipPoint (p : V3i) (b : Box3i) : V3i :=
  let c (a lo hi : Int) : Int := if a < lo then lo else if a > hi then hi else a
  ⟨c p.x b.min.x b.max.x, c p.y b.min.y b.max.y, c p.z b.min.z b.max.z⟩

/-- `recomputeBlockBoundingBox`, export/SparseField.h:1262-1273: the data window offset is not
added. -/
def blockBoundingBox (f : Sparse α) (b : V3i) : Box3i :=
  let s : Int := (2 ^ f.order : Nat)
  let lo : V3i := ⟨b.x * s, b.y * s, b.z * s⟩
  let hi := lo + V3i.all (s - 1)
  ⟨clipPoint lo f.dw, clipPoint hi f.dw⟩

/-! ## Voxel iterators -/

/-- What `m_p` points to: an element of a block's data, a block's `emptyValue`, or nothing. -/
inductive Ptr where
  | null
  | data (block : Int) (off : Int)
  | emptyVal (block : Int)
deriving DecidableEq, Repr

/-- Iterator state, export/SparseField.h:985-1059 (members used without a manager). -/
structure Iter where
  pos : V3i
  ptr : Ptr
  isEmptyBlock : Bool
  ticker : Int
  blockId : Int
deriving DecidableEq, Repr

/-- `setupNextBlock`, export/SparseField.h:998-1038 and 1169-1189, without a manager. -/
def setupNextBlock (f : Sparse α) (s : Iter) (p : V3i) : Option Iter :=
  let q := f.offsetCoord p
  let id := f.blockId (f.blockCoord q)
  if id ≥ f.bxy * f.bres.z then
    some { s with isEmptyBlock := true, blockId := id }
  else
    match f.block? id with
    | none => none
    | some b =>
      let v := f.voxelInBlock q
      if b.isAllocated then
        some { s with ptr := .data id (Block.offset f.order v), isEmptyBlock := false,
                      ticker := v.x, blockId := id }
      else
        some { s with ptr := .emptyVal id, isEmptyBlock := true, ticker := v.x, blockId := id }

/-- Iterator constructor, export/SparseField.h:898-908 and 1080-1088. `m_isEmptyBlock` is always
set by `setupNextBlock`. -/
def iterMake (f : Sparse α) (p : V3i) : Option Iter :=
  setupNextBlock f ⟨p, .null, false, 0, -1⟩ p

/-- `++m_p`. Moving off an `emptyValue` member (or null) leaves a pointer that must not be read. -/
def Ptr.inc : Ptr → Ptr
  | .data b o => .data b (o + 1)
  | _ => .null

/-- `operator++`, export/SparseField.h:916-948 and 1089-1121. -/
def iterNext (f : Sparse α) (w : Box3i) (s : Iter) : Option Iter :=
  let rowEnd := decide (s.pos.x = w.max.x)
  let p := F3D.iterNext w s.pos
  let ticker := s.ticker + 1
  let ptr := if s.isEmptyBlock then s.ptr else s.ptr.inc
  let s' : Iter := { s with pos := p, ticker := ticker, ptr := ptr }
  if rowEnd || decide (ticker = (2 ^ f.order : Nat)) then
    setupNextBlock f { s' with ticker := 0 } p
  else some s'

/-- `operator*` of the const iterator (no manager), export/SparseField.h:959-970. -/
def iterDeref (f : Sparse α) (s : Iter) : Option α :=
  match s.ptr with
  | .null => none
  | .data id off => (f.block? id).bind (·.read off)
  | .emptyVal id => (f.block? id).map (·.emptyValue)

/-- `operator==` with `cend(subset)`, export/SparseField.h:949-953, 1778-1786. -/
def iterAtEnd (w : Box3i) (s : Iter) : Bool := F3D.iterAtEnd w s.pos

/-- `cbegin(subset)`, export/SparseField.h:1754-1761. -/
def iterBegin (f : Sparse α) (w : Box3i) : Option Iter :=
  if w.isEmpty then f.iterMake (F3D.iterEnd w) else f.iterMake w.min

/-- `*it = v` through the writable iterator (no manager), export/SparseField.h:1130-1146: touch
the voxel if the block is empty, set the block up again, then write through `m_p`. -/
def iterWrite (f : Sparse α) (s : Iter) (v : α) : Option (Sparse α × Iter) :=
  let touched : Option (Sparse α × Iter) :=
    if s.isEmptyBlock then
      match f.lvalue s.pos with
      | none => none
      | some (g, _, _) => (setupNextBlock g s s.pos).map (fun s' => (g, s'))
    else some (f, s)
  match touched with
  | none => none
  | some (g, s') =>
    match s'.ptr with
    | .data id off => (g.store id off v).map (fun h => (h, s'))
    | _ => none

/-- `begin()`, export/SparseField.h:1803-1808 (the same test in `cbegin()`, 1742-1750). -/
def iterBeginAll (f : Sparse α) : Option Iter :=
  if f.dw.res = V3i.all 0 then f.iterMake (F3D.iterEnd f.dw) else f.iterMake f.dw.min

/-! ## The const iterator of a field with a file manager

The block contents that activation makes available are those of `f`; pinning is in
`Verif.Model.Cache`. `m_p` is only read after activation. -/

/-- Iterator state with `m_blockIsActivated`, export/SparseField.h:1040-1059. -/
structure DynIter where
  pos : V3i
  ptr : Ptr
  isEmptyBlock : Bool
  activated : Bool
  ticker : Int
  blockId : Int
deriving DecidableEq, Repr

/-- `setupNextBlock` with a manager, export/SparseField.h:998-1038: for an allocated block other
than the old one `m_p` is left alone. -/
def dynSetup (f : Sparse α) (s : DynIter) (p : V3i) : Option DynIter :=
  let q := f.offsetCoord p
  let id := f.blockId (f.blockCoord q)
  if id ≥ f.bxy * f.bres.z then
    some { s with isEmptyBlock := true, blockId := id }
  else
    match f.block? id with
    | none => none
    | some b =>
      let v := f.voxelInBlock q
      if b.isAllocated then
        some { s with ptr := if s.blockId ≠ id then s.ptr else .data id (Block.offset f.order v),
                      isEmptyBlock := false, ticker := v.x, blockId := id, activated := false }
      else
        some { s with ptr := .emptyVal id, isEmptyBlock := true, ticker := v.x, blockId := id,
                      activated := false }

/-- Constructor, export/SparseField.h:898-908, and `cbegin(subset)`, 1754-1761. -/
def dynBegin (f : Sparse α) (w : Box3i) : Option DynIter :=
  let p := if w.isEmpty then F3D.iterEnd w else w.min
  dynSetup f ⟨p, .null, false, false, 0, -1⟩ p

/-- `operator++` with a manager, export/SparseField.h:916-948. -/
def dynNext (f : Sparse α) (w : Box3i) (s : DynIter) : Option DynIter :=
  let rowEnd := decide (s.pos.x = w.max.x)
  let p := F3D.iterNext w s.pos
  let ticker := s.ticker + 1
  let ptr := if !s.isEmptyBlock && s.activated then s.ptr.inc else s.ptr
  let s' : DynIter := { s with pos := p, ticker := ticker, ptr := ptr }
  if rowEnd || decide (ticker = (2 ^ f.order : Nat)) then
    dynSetup f { s' with ticker := 0 } p
  else some s'

/-- `operator*` with a manager, export/SparseField.h:959-970: activates the block on first use and
then computes the in-block coordinates from `(x,y,z)` itself, without the data window offset. -/
def dynDeref (f : Sparse α) (s : DynIter) : Option (α × DynIter) :=
  let s' := if !s.isEmptyBlock && !s.activated then
      { s with activated := true,
               ptr := .data s.blockId (Block.offset f.order (f.voxelInBlock s.pos)) }
    else s
  let v : Option α := match s'.ptr with
    | .null => none
    | .data id off => (f.block? id).bind (·.read off)
    | .emptyVal id => (f.block? id).map (·.emptyValue)
  v.map (fun v => (v, s'))

end Sparse

end F3D
