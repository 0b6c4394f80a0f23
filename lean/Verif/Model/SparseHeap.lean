import Verif.Model.Sparse

/-!
# SparseField objects in memory

`Verif.Model.Sparse` treats a field as a value. Here several field objects live in one heap: block
tables (`m_blocks`), block data arrays (`SparseBlock::data`) and mapping objects (`m_mapping`) are
heap objects referred to by address, so that copying, assignment, sharing, leaks and double
deletion are visible. Freeing or using an object that is not live is undefined behaviour (`none`).
Only fields without a file manager are modelled. Mapping objects are reference counted in the code
and never freed in the model.
-/

namespace F3D

/-- `Sparse::SparseBlock` with `data` as a heap address, export/SparseField.h:300-313. -/
structure HBlock (α : Type) where
  isAllocated : Bool
  emptyValue : α
  data : Option Nat

/-- The heap: live block tables, live data arrays, mapping objects (only their extents are kept),
and the next unused addresses. -/
structure Heap (α : Type) where
  tbl : Nat → Option (List (HBlock α))
  buf : Nat → Option (List α)
  map : Nat → Box3i
  nextT : Nat
  nextB : Nat
  nextM : Nat

/-- Members of a `SparseField` object, export/SparseField.h:609-628, and of `FieldRes`,
export/Field.h:310-318. -/
structure HField where
  extents : Box3i
  dw : Box3i
  order : Nat
  bres : V3i
  bxy : Int
  table : Option Nat
  mapping : Nat

namespace Heap
variable {α : Type}

def empty (e : Box3i) : Heap α := ⟨fun _ => none, fun _ => none, fun _ => e, 0, 0, 0⟩

/-- `delete[] data`. -/
def freeBuf (h : Heap α) (a : Nat) : Option (Heap α) :=
  match h.buf a with
  | none => none
  | some _ => some { h with buf := fun x => if x = a then none else h.buf x }

/-- `new Data_T[n]` filled with `d`. -/
def newBuf (h : Heap α) (d : List α) : Heap α × Nat :=
  ({ h with buf := fun x => if x = h.nextB then some d else h.buf x, nextB := h.nextB + 1 }, h.nextB)

/-- Assigning the elements of a live array. -/
def setBuf (h : Heap α) (a : Nat) (d : List α) : Heap α :=
  { h with buf := fun x => if x = a then some d else h.buf x }

/-- Writing the blocks of a live table. -/
def setTbl (h : Heap α) (t : Nat) (bl : List (HBlock α)) : Heap α :=
  { h with tbl := fun x => if x = t then some bl else h.tbl x }

/-- Destructor of a block: `if (data) delete[] data`, export/SparseField.h:238-243. -/
def freeData (h : Heap α) (b : HBlock α) : Option (Heap α) :=
  match b.data with
  | none => some h
  | some a => h.freeBuf a

/-- Destructors of all blocks of a table. -/
def freeBlocks (h : Heap α) : List (HBlock α) → Option (Heap α)
  | [] => some h
  | b :: bs => (h.freeData b).bind (fun h' => h'.freeBlocks bs)

/-- `if (m_blocks) delete[] m_blocks`. -/
def deleteTable (h : Heap α) : Option Nat → Option (Heap α)
  | none => some h
  | some t =>
    match h.tbl t with
    | none => none
    | some bl => (h.freeBlocks bl).map
        (fun h' => { h' with tbl := fun x => if x = t then none else h'.tbl x })

/-- `new Block[n]` with given block contents. -/
def newTable (h : Heap α) (bl : List (HBlock α)) : Heap α × Nat :=
  ({ h with tbl := fun x => if x = h.nextT then some bl else h.tbl x, nextT := h.nextT + 1 }, h.nextT)

end Heap

namespace HField
variable {α : Type}

/-- The members that the address computations use. -/
def shape (α : Type) (f : HField) : Sparse α :=
  ⟨f.extents, f.dw, f.order, f.bres, f.bxy, []⟩

/-- `setupBlocks`, export/SparseField.h:1857-1876. -/
def setupBlocks (zero : α) (h : Heap α) (f : HField) : Option (Heap α × HField) :=
  let s := (f.shape α).setupBlocks zero
  (h.deleteTable f.table).map (fun h' =>
    let r := h'.newTable (List.replicate s.blocks.length ⟨false, zero, none⟩)
    (r.1, { f with bres := s.bres, bxy := s.bxy, table := some r.2 }))

/-- Default constructor, export/SparseField.h:1286-1294, export/Field.h:325-331: a new mapping
object with the extents of the empty field, then `setupBlocks`. -/
def create (zero : α) (h : Heap α) : Option (Heap α × HField) :=
  let e : Box3i := ⟨V3i.all 0, V3i.all (-1)⟩
  setupBlocks zero { h with map := fun x => if x = h.nextM then e else h.map x, nextM := h.nextM + 1 }
    ⟨e, e, 4, V3i.all 0, 0, none, h.nextM⟩

/-- `setSize(extents, dataWindow)` with `sizeChanged`: export/Field.h:901-902, 940-948 (the
mapping object gets the new extents), export/SparseField.h:587-592. -/
def setSize (zero : α) (h : Heap α) (f : HField) (e w : Box3i) : Option (Heap α × HField) :=
  setupBlocks zero { h with map := fun x => if x = f.mapping then e else h.map x }
    { f with extents := e, dw := w }

/-- `setBlockOrder`, export/SparseField.h:1465-1470. -/
def setBlockOrder (zero : α) (h : Heap α) (f : HField) (o : Nat) : Option (Heap α × HField) :=
  setupBlocks zero h { f with order := o }

/-- `clear`, export/SparseField.h:1451-1461. -/
def clear (zero : α) (h : Heap α) (f : HField) (v : α) : Option (Heap α × HField) :=
  match setupBlocks zero h f with
  | none => none
  | some (h', f') =>
    match f'.table with
    | none => none
    | some t =>
      match h'.tbl t with
      | none => none
      | some bl => some (h'.setTbl t (bl.map (fun b => { b with emptyValue := v })), f')

/-- The block of the table of `f` with number `id`, with its table address and table. -/
def block? (h : Heap α) (f : HField) (id : Int) : Option (Nat × List (HBlock α) × HBlock α) :=
  match f.table with
  | none => none
  | some t =>
    match h.tbl t with
    | none => none
    | some bl =>
      if 0 ≤ id then
        match bl[id.toNat]? with
        | none => none
        | some b => some (t, bl, b)
      else none

/-- `lvalue(p) = v`, export/SparseField.h:1652-1689 with `SparseBlock::resize`, 259-270. -/
def write (h : Heap α) (f : HField) (p : V3i) (v : α) : Option (Heap α) :=
  let s := f.shape α
  let q := s.offsetCoord p
  let id := s.blockId (s.blockCoord q)
  let off := Block.offset f.order (s.voxelInBlock q)
  match block? h f id with
  | none => none
  | some (t, bl, b) =>
    let r : Option (Heap α × Option Nat) :=
      if b.isAllocated then some (h, b.data)
      else (h.freeData b).map (fun h1 =>
        let n := h1.newBuf (List.replicate (2 ^ f.order * 2 ^ f.order * 2 ^ f.order) b.emptyValue)
        (n.1.setTbl t (bl.set id.toNat ⟨true, b.emptyValue, some n.2⟩), some n.2))
    match r with
    | none => none
    | some (_, none) => none
    | some (h2, some a) =>
      match h2.buf a with
      | none => none
      | some d => if 0 ≤ off ∧ off.toNat < d.length then
          some (h2.setBuf a (d.set off.toNat v)) else none

/-- `value`, export/SparseField.h:1613-1647. -/
def value (h : Heap α) (f : HField) (p : V3i) : Option α :=
  let s := f.shape α
  let q := s.offsetCoord p
  match block? h f (s.blockId (s.blockCoord q)) with
  | none => none
  | some (_, _, b) =>
    if b.isAllocated then
      match b.data.bind h.buf with
      | none => none
      | some d =>
        let off := Block.offset f.order (s.voxelInBlock q)
        if 0 ≤ off then d[off.toNat]? else none
    else some b.emptyValue

/-- `blockIsAllocated`, export/SparseField.h:1501-1506. -/
def blockIsAllocated (h : Heap α) (f : HField) (bc : V3i) : Option Bool :=
  (block? h f ((f.shape α).blockId bc)).map (fun r => r.2.2.isAllocated)

/-- `setBlockEmptyValue` with `deallocBlock`, export/SparseField.h:1518-1528, 1969-1976. -/
def setBlockEmptyValue (h : Heap α) (f : HField) (bc : V3i) (v : α) : Option (Heap α) :=
  let id := (f.shape α).blockId bc
  match block? h f id with
  | none => none
  | some (t, bl, b) =>
    if b.isAllocated then
      (h.freeData b).map (fun h1 => h1.setTbl t (bl.set id.toNat ⟨false, v, none⟩))
    else some (h.setTbl t (bl.set id.toNat { b with emptyValue := v }))

/-- `SparseBlock::copy` into a newly constructed block whose `isAllocated` and `emptyValue` were
just assigned, export/SparseField.h:285-298 and 1363-1369: `resize(n)`, then an element-wise copy of
`n` elements (reading past the end of the source array is undefined). `clear()` of a block without
data does nothing. -/
def copyBlock (h : Heap α) (n : Nat) (o : HBlock α) : Option (Heap α × HBlock α) :=
  if o.isAllocated then
    let r := h.newBuf (List.replicate n o.emptyValue)
    match o.data.bind r.1.buf with
    | none => none
    | some d => if n ≤ d.length then
        some (r.1.setBuf r.2 (d.take n), ⟨true, o.emptyValue, some r.2⟩) else none
  else some (h, ⟨false, o.emptyValue, none⟩)

/-- The loop over the blocks, export/SparseField.h:1363-1369. -/
def copyBlocks (h : Heap α) (n : Nat) : List (HBlock α) → Option (Heap α × List (HBlock α))
  | [] => some (h, [])
  | o :: os =>
    match copyBlock h n o with
    | none => none
    | some (h1, b) => (copyBlocks h1 n os).map (fun r => (r.1, b :: r.2))

/-- `copySparseField`, export/SparseField.h:1339-1374 (branch without manager). The new table is
created before the blocks are copied; the order of the two steps is not observable. -/
def copySparse (h : Heap α) (f o : HField) : Option (Heap α × HField) :=
  match h.deleteTable f.table with
  | none => none
  | some h1 =>
    match o.table.bind h1.tbl with
    | none => none
    | some bl =>
      match copyBlocks h1 (2 ^ o.order * 2 ^ o.order * 2 ^ o.order) bl with
      | none => none
      | some (h2, bl') =>
        let r := h2.newTable bl'
        some (r.1, { f with order := o.order, bres := o.bres, bxy := o.bxy, table := some r.2 })

/-- Copy constructor (and `clone`), export/SparseField.h:1299-1306, 517-518 with
`FieldRes(const FieldRes&)`, export/Field.h:335-343: the mapping is cloned. -/
def copyConstruct (h : Heap α) (o : HField) : Option (Heap α × HField) :=
  copySparse
    { h with map := fun x => if x = h.nextM then h.map o.mapping else h.map x, nextM := h.nextM + 1 }
    { o with table := none, mapping := h.nextM } o

/-- `operator=`, export/SparseField.h:1326-1335 for two different objects: the base class
assignment is the implicit one, which copies the windows and the mapping pointer. -/
def assign (h : Heap α) (f o : HField) : Option (Heap α × HField) :=
  copySparse h { f with extents := o.extents, dw := o.dw, mapping := o.mapping } o

/-- `setMapping(o.mapping())`, export/Field.h:347-358: a clone of the given mapping object, with the
extents of the field. -/
def setMapping (h : Heap α) (f : HField) (_o : HField) : Heap α × HField :=
  ({ h with map := fun x => if x = h.nextM then f.extents else h.map x, nextM := h.nextM + 1 },
   { f with mapping := h.nextM })

/-- Destructor, export/SparseField.h:1310-1322. -/
def destroy (h : Heap α) (f : HField) : Option (Heap α) := h.deleteTable f.table

end HField

/-- A program's variables and the heap. -/
structure World (α : Type) where
  heap : Heap α
  vars : Nat → Option HField

/-- Statements of a program that uses sparse fields. -/
inductive WOp (α : Type) where
  | create (i : Nat) (extents dw : Box3i)   -- default construction followed by setSize
  | copy (i j : Nat)      -- construct variable i as a copy (or clone) of variable j
  | assign (i j : Nat)    -- variable i = variable j
  | destroy (i : Nat)
  | write (i : Nat) (p : V3i) (v : α)
  | clear (i : Nat) (v : α)
  | resize (i : Nat) (extents dw : Box3i)
  | setBlockOrder (i : Nat) (o : Nat)
  | setBlockEmptyValue (i : Nat) (b : V3i) (v : α)
  | setMapping (i j : Nat)   -- variable i: setMapping(mapping of variable j)

namespace World
variable {α : Type}

def setVar (w : World α) (i : Nat) (r : Heap α × Option HField) : World α :=
  ⟨r.1, fun x => if x = i then r.2 else w.vars x⟩

/-- One statement; `none` is undefined behaviour or a statement on a variable that does not exist
(or a construction of one that does). -/
def step (zero : α) (w : World α) : WOp α → Option (World α)
  | .create i e d =>
    match w.vars i with
    | some _ => none
    | none => ((HField.create zero w.heap).bind (fun r => HField.setSize zero r.1 r.2 e d)).map
        (fun r => w.setVar i (r.1, some r.2))
  | .copy i j =>
    match w.vars i, w.vars j with
    | none, some o => (HField.copyConstruct w.heap o).map (fun r => w.setVar i (r.1, some r.2))
    | _, _ => none
  | .assign i j =>
    match w.vars i, w.vars j with
    | some f, some o =>
      if i = j then some w
      else (HField.assign w.heap f o).map (fun r => w.setVar i (r.1, some r.2))
    | _, _ => none
  | .destroy i =>
    match w.vars i with
    | none => none
    | some f => (HField.destroy w.heap f).map (fun h => w.setVar i (h, none))
  | .write i p v =>
    match w.vars i with
    | none => none
    | some f => (HField.write w.heap f p v).map (fun h => w.setVar i (h, some f))
  | .clear i v =>
    match w.vars i with
    | none => none
    | some f => (HField.clear zero w.heap f v).map (fun r => w.setVar i (r.1, some r.2))
  | .resize i e d =>
    match w.vars i with
    | none => none
    | some f => (HField.setSize zero w.heap f e d).map (fun r => w.setVar i (r.1, some r.2))
  | .setBlockOrder i o =>
    match w.vars i with
    | none => none
    | some f => (HField.setBlockOrder zero w.heap f o).map (fun r => w.setVar i (r.1, some r.2))
  | .setBlockEmptyValue i b v =>
    match w.vars i with
    | none => none
    | some f => (HField.setBlockEmptyValue w.heap f b v).map (fun h => w.setVar i (h, some f))
  | .setMapping i j =>
    match w.vars i, w.vars j with
    | some f, some o => some (w.setVar i ((HField.setMapping w.heap f o).1, some (HField.setMapping w.heap f o).2))
    | _, _ => none

def run (zero : α) : World α → List (WOp α) → Option (World α)
  | w, [] => some w
  | w, op :: ops => (w.step zero op).bind (fun w' => w'.run zero ops)

def start (α : Type) : World α := ⟨Heap.empty ⟨V3i.all 0, V3i.all (-1)⟩, fun _ => none⟩

end World
end F3D
