import Verif.Model.Sparse

/-!
# Sparse field objects that load their blocks from files

`Verif.Model.Cache` models the block cache with fields that never change. Here fields are objects:
they are read from files, copied, assigned, resized, cleared, edited and destroyed while the cache
holds on to their blocks. Block tables (`m_blocks`) are heap objects referred to by address, so that
using a deleted table is visible as undefined behaviour (`none`).

Simplifications: one thread; one voxel type; a block is evicted whenever the environment chooses one
from the cache list (which covers the second-chance order, `setMaxMemUse` and `flushCache`); block
reference counts, which are zero between calls of one thread, memory amounts and statistics are left
out. A layer in a file is represented by the field that was written (C89 relates the two).
-/

namespace F3D.Dyn

/-- Pointwise update. -/
def upd {β : Type} (f : Nat → β) (k : Nat) (v : β) : Nat → β := fun x => if x = k then v else f x

/-- `SparseFile::Reference`, export/SparseFile.h:117-158. `arr` is the pointer `blocks`
(`F3D_NO_BLOCKS_ARRAY` is 1, line 66), `none` until it is set; `alive` says whether `blockMutex`
exists. -/
structure Ref where
  layer : Nat
  fileIdx : List Int
  loaded : List Bool
  arr : Option Nat
  alive : Bool

/-- A `SparseField` object, export/SparseField.h:609-628: `geom` has its windows, block order,
`m_blockRes` and `m_blockXYSize` (its list of blocks is not used), `arr` is `m_blocks`, and `file` is
`m_fileId` if `m_fileManager` is set. `m_numBlocks` is the length of the table. -/
structure Fld (α : Type) where
  geom : Sparse α
  arr : Nat
  file : Option Nat

/-- All objects: block tables, the manager's references and cache list, and the fields. -/
structure St (α : Type) where
  heap : Nat → Option (List (Block α))
  nextA : Nat
  refs : Nat → Option Ref
  nextR : Nat
  cache : List (Nat × Nat)
  flds : Nat → Option (Fld α)
  nextF : Nat

namespace St
variable {α : Type}

/-- Before anything is read. -/
def init : St α := ⟨fun _ => none, 0, fun _ => none, 0, [], fun _ => none, 0⟩

/-- `delete[] m_blocks`. -/
def freeArr (s : St α) (a : Nat) : Option (St α) :=
  (s.heap a).map fun _ => { s with heap := upd s.heap a none }

/-- `if (m_blocks) delete[] m_blocks`, export/SparseField.h:1359-1361, 1871-1873. -/
def freeOld (s : St α) : Option Nat → Option (St α)
  | none => some s
  | some a => s.freeArr a

/-- `new Block[n]` with the given contents; the address is the old `nextA`. -/
def newArr (s : St α) (bs : List (Block α)) : St α :=
  { s with heap := upd s.heap s.nextA (some bs), nextA := s.nextA + 1 }

/-- `addReference`, export/SparseField.h:1380-1395, with `getNextId`, export/SparseFile.h:1181-1193,
and `setNumBlocks`, lines 677-704; the id is the old `nextR`. -/
def addRef (s : St α) (layer n : Nat) : St α :=
  { s with refs := upd s.refs s.nextR (some ⟨layer, List.replicate n 0, List.replicate n false, none, true⟩)
           nextR := s.nextR + 1 }

end St

variable {α : Type}

/-- The loop of `setupReferenceBlocks`, export/SparseField.h:1419-1429: allocated blocks are numbered
in order, others get `-1`. -/
def numberBlocks : List (Block α) → Int → List Int
  | [], _ => []
  | b :: bs, n => if b.isAllocated then n :: numberBlocks bs (n + 1) else -1 :: numberBlocks bs n

/-- `setupReferenceBlocks`, export/SparseField.h:1412-1429. -/
def setupRef (s : St α) (r a : Nat) (bs : List (Block α)) : St α :=
  { s with refs := upd s.refs r ((s.refs r).map fun ref =>
      { ref with arr := some a, fileIdx := numberBlocks bs 0 }) }

/-- The blocks that a layer has data for, in the order of the file. -/
def occupied (l : Sparse α) : List (List α) :=
  l.blocks.filterMap fun b => if b.isAllocated then b.data else none

/-- Reading a layer with `doLimitMemUse()`: `SparseFieldIO::readData`, src/SparseFieldIO.cpp:730-825
(and 1130-1201): a default field is sized and given its block order, a reference is added, the blocks
get their flags and empty values but no data, and the reference is set up if the layer has any data. -/
def openLayer (zero : α) (files : Nat → Sparse α) (s : St α) (l : Nat) : St α :=
  let layer := files l
  let g := ((Sparse.empty zero).setSize zero layer.extents layer.dw).setBlockOrder zero layer.order
  let bs := List.zipWith (fun b _ => { b with data := none }) layer.blocks g.blocks
  let s1 := (s.newArr bs).addRef l g.blocks.length
  let s2 := if occupied layer = [] then s1 else setupRef s1 s.nextR s.nextA bs
  { s2 with flds := upd s.flds s.nextF (some ⟨g, s.nextA, some s.nextR⟩), nextF := s.nextF + 1 }

/-- `SparseField()` followed by `setSize(extents, dataWindow)`, export/SparseField.h:1286-1294. -/
def create (zero : α) (s : St α) (e w : Box3i) : St α :=
  let g := (Sparse.empty zero).setSize zero e w
  { s.newArr g.blocks with flds := upd s.flds s.nextF (some ⟨g, s.nextA, none⟩), nextF := s.nextF + 1 }

/-- One block of the copy loop, export/SparseField.h:1364-1370, with `SparseBlock::copy`, lines
284-298: reading through a null pointer or past the source's data is undefined. -/
def copyBlock (n : Nat) (b : Block α) : Option (Block α) :=
  if b.isAllocated then
    match b.data with
    | none => none
    | some d => if n ≤ d.length then some ⟨true, b.emptyValue, some (d.take n)⟩ else none
  else some ⟨false, b.emptyValue, none⟩

def copyBlocks (n : Nat) : List (Block α) → Option (List (Block α))
  | [] => some []
  | b :: bs => (copyBlock n b).bind fun b' => (copyBlocks n bs).map fun bs' => b' :: bs'

/-- `copySparseField`, export/SparseField.h:1340-1375, with the old table of the target in `old`: a
source with a file manager gets a second reference to the same layer, the block flags and empty
values (`copyBlockStates`, 1399-1408) and no data; any other source has its blocks copied. The
result is the new contents of the target. -/
def copySparse (zero : α) (s : St α) (o : Fld α) (old : Option Nat) : Option (St α × Fld α) :=
  match o.file with
  | some r =>
    (s.freeOld old).bind fun s => (s.heap o.arr).bind fun obs => (s.refs r).map fun ref =>
      let g := o.geom.setupBlocks zero
      let bs := if g.blocks.length = obs.length then
          obs.map fun b => ⟨b.isAllocated, b.emptyValue, none⟩ else g.blocks
      (setupRef ((s.newArr bs).addRef ref.layer g.blocks.length) s.nextR s.nextA bs,
        ⟨g, s.nextA, some s.nextR⟩)
  | none =>
    (s.freeOld old).bind fun s => (s.heap o.arr).bind fun obs =>
      (copyBlocks (2 ^ o.geom.order * 2 ^ o.geom.order * 2 ^ o.geom.order) obs).map fun bs =>
        (s.newArr bs, ⟨o.geom, s.nextA, none⟩)

/-- Copy constructor (and `clone`), export/SparseField.h:1298-1306. -/
def copy (zero : α) (s : St α) (f : Nat) : Option (St α) :=
  (s.flds f).bind fun o => (copySparse zero s o none).map fun r =>
    { r.1 with flds := upd r.1.flds r.1.nextF (some r.2), nextF := r.1.nextF + 1 }

/-- `operator=`, export/SparseField.h:1326-1335. The old reference of the target is not removed from
the cache. -/
def assign (zero : α) (s : St α) (d f : Nat) : Option (St α) :=
  (s.flds d).bind fun t => (s.flds f).bind fun o =>
    if d = f then some s
    else (copySparse zero s o (some t.arr)).map fun r =>
      { r.1 with flds := upd r.1.flds d (some r.2) }

/-- `removeFieldFromCache`, export/SparseFile.h:1197-1242. -/
def removeField (s : St α) (r : Nat) : Option (St α) :=
  (s.refs r).map fun ref =>
    { s with cache := s.cache.filter fun k => decide (k.1 ≠ r)
             refs := upd s.refs r (some { ref with
               fileIdx := List.replicate ref.fileIdx.length (-1), loaded := [], alive := false }) }

/-- Destructor, export/SparseField.h:1310-1322. -/
def destroy (s : St α) (f : Nat) : Option (St α) :=
  (s.flds f).bind fun o =>
    (match o.file with
      | none => some s
      | some r => removeField s r).bind fun (t : St α) =>
        (t.freeArr o.arr).map fun (u : St α) => { u with flds := upd u.flds f none }

/-- `activateBlock`, export/SparseFile.h:1256-1290, without the eviction, with `loadBlock`,
src/SparseFile.cpp:497-516: the block is allocated and filled from the file through the reference's
pointer to the table. -/
def activate (files : Nat → Sparse α) (s : St α) (r id : Nat) : Option (St α) :=
  (s.refs r).bind fun ref => (ref.fileIdx[id]?).bind fun fi =>
    if 0 ≤ fi then (ref.loaded[id]?).bind fun ld =>
      if ld then some s
      else ref.arr.bind fun a => (s.heap a).bind fun bs => (bs[id]?).bind fun b =>
        ((occupied (files ref.layer))[fi.toNat]?).map fun d =>
          { s with heap := upd s.heap a (some (bs.set id ⟨true, b.emptyValue, some d⟩))
                   refs := upd s.refs r (some { ref with loaded := ref.loaded.set id true })
                   cache := s.cache ++ [(r, id)] }
    else some s

/-- `value`/`fastValue`, export/SparseField.h:1613-1647. -/
def read (files : Nat → Sparse α) (s : St α) (f : Nat) (p : V3i) : Option (St α × α) :=
  (s.flds f).bind fun o => (s.heap o.arr).bind fun bs =>
    let g := { o.geom with blocks := bs }
    let id := g.blockId (g.blockCoord (g.offsetCoord p))
    let off := Block.offset g.order (g.voxelInBlock (g.offsetCoord p))
    (g.block? id).bind fun b =>
      if b.isAllocated then
        match o.file with
        | none => (b.read off).map fun v => (s, v)
        | some r =>
          (activate files s r id.toNat).bind fun s => (s.heap o.arr).bind fun bs =>
            (({ o.geom with blocks := bs } : Sparse α).block? id).bind fun b =>
              (b.read off).map fun v => (s, v)
      else some (s, b.emptyValue)

/-- `Reference::unloadBlock`, export/SparseFile.h:722-741: clears the block through the reference's
pointer to the table. -/
def unload (s : St α) (r id : Nat) : Option (St α) :=
  (s.refs r).bind fun ref => ref.arr.bind fun a => (s.heap a).bind fun bs => (bs[id]?).map fun b =>
    { s with heap := upd s.heap a (some (bs.set id b.clear))
             refs := upd s.refs r (some { ref with loaded := ref.loaded.set id false }) }

/-- Unloading one block of the cache list, `deallocateBlock(cb)`, src/SparseFile.cpp:99-143: it takes
the block's mutex, unloads the block and erases it from the list. -/
def evict (s : St α) (k : Nat × Nat) : Option (St α) :=
  if k ∈ s.cache then
    (s.refs k.1).bind fun ref =>
      if ref.alive then (unload s k.1 k.2).map fun t => { t with cache := t.cache.erase k } else none
  else some s

/-- The loop of `flushCache`, src/SparseFile.cpp:224-256, with `deallocateBlock(it)`, lines 147-156:
the list is what is left of the cache list. -/
def flushLoop : St α → List (Nat × Nat) → Option (St α)
  | s, [] => some s
  | s, k :: ks => (unload s k.1 k.2).bind fun t => flushLoop { t with cache := ks } ks

def flush (s : St α) : Option (St α) := flushLoop s s.cache

/-- `setupBlocks` on a field that has a table, export/SparseField.h:1857-1876: the table is deleted and
another one made; a file manager is not told. -/
def resetup (s : St α) (f : Nat) (o : Fld α) (g : Sparse α) : Option (St α) :=
  (s.freeArr o.arr).map fun t =>
    { t.newArr g.blocks with flds := upd t.flds f (some { o with geom := g, arr := t.nextA }) }

/-- Changing the table in place. -/
def inPlace (s : St α) (f : Nat) (op : Sparse α → Option (Sparse α)) : Option (St α) :=
  (s.flds f).bind fun o => (s.heap o.arr).bind fun bs => (op { o.geom with blocks := bs }).map fun g =>
    { s with heap := upd s.heap o.arr (some g.blocks) }

/-- `setSize`, export/Field.h:940-948. -/
def resize (zero : α) (s : St α) (f : Nat) (e w : Box3i) : Option (St α) :=
  (s.flds f).bind fun o => resetup s f o (o.geom.setSize zero e w)

/-- `setBlockOrder`, export/SparseField.h:1465-1470. -/
def setBlockOrder (zero : α) (s : St α) (f : Nat) (n : Nat) : Option (St α) :=
  (s.flds f).bind fun o => resetup s f o (o.geom.setBlockOrder zero n)

/-- `clear`, export/SparseField.h:1451-1461. -/
def clear (zero : α) (s : St α) (f : Nat) (v : α) : Option (St α) :=
  (s.flds f).bind fun o => resetup s f o (o.geom.clear zero v)

/-- `lvalue(p) = v`, export/SparseField.h:1652-1689: a field with a file manager returns a reference
to `m_dummy` (lines 1662-1667; the assertion before it is off in optimised builds). -/
def write (s : St α) (f : Nat) (p : V3i) (v : α) : Option (St α) :=
  (s.flds f).bind fun o => if o.file.isSome then some s else inPlace s f fun g => g.write p v

/-- `setBlockEmptyValue`, export/SparseField.h:1518-1528. -/
def setBlockEmptyValue (s : St α) (f : Nat) (b : V3i) (v : α) : Option (St α) :=
  inPlace s f fun g => g.setBlockEmptyValue b v

/-- `releaseBlocks`, export/SparseField.h:1549-1593, with one of the checks. -/
def release (chk : Sparse α → Option (Sparse α × Nat)) (s : St α) (f : Nat) : Option (St α) :=
  inPlace s f fun g => (chk g).map (·.1)

end F3D.Dyn
