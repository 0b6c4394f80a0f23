import Verif.Model.LazyFile
import Verif.Spec.DynField

/-!
# Histories of fields whose blocks come from Ogawa files

The calls are those of `Verif.Spec.DynField`; layers are now named groups in files.
-/

namespace F3D.Props
open F3D
open _root_.F3D.FieldIO (Elem Zlib Res)
open _root_.F3D.LazyFile (Source)

/-- A call on the model with files. Only reading a layer and reading a voxel look at a file. -/
def diskStep {α : Type} [DecidableEq α] (e : Elem α) (z : Zlib) (zero dflt : α) (disk : Nat → Source) (s : Dyn.St α) :
    FieldEvent α → Res (Dyn.St α × Option α)
  | .openLayer l => (LazyFile.openLayer e zero dflt disk s l).bind fun t => .ok (t, none)
  | .read f p => (LazyFile.read e z disk s f p).bind fun t => .ok (t.1, some t.2)
  | ev => LazyFile.ofOption (fieldStep zero (fun _ => Sparse.empty zero) s ev)

def diskRun {α : Type} [DecidableEq α] (e : Elem α) (z : Zlib) (zero dflt : α) (disk : Nat → Source) :
    Dyn.St α → List (FieldEvent α) → Res (Dyn.St α × List (Option α))
  | s, [] => .ok (s, [])
  | s, ev :: evs => (diskStep e z zero dflt disk s ev).bind fun r =>
      (diskRun e z zero dflt disk r.1 evs).bind fun q => .ok (q.1, r.2 :: q.2)

/-- Reading the group without a limit on memory gives the field `g`, for some number of threads and schedule. -/
def UnlimitedRead {α : Type} (e : Elem α) (z : Zlib) (zero dflt : α) (kids : List Ogawa.Tree) (g : Sparse α) : Prop :=
  ∃ threads sched, 0 < threads ∧ FieldIO.readSparse e z zero dflt threads sched kids = .ok g

/-- The group holds compressed blocks, as many as it says and as there are allocated blocks in `g`, and each of them
uncompresses to as many bytes as a block of `g` has. -/
structure IntactLayer {α : Type} (e : Elem α) (z : Zlib) (kids : List Ogawa.Tree) (g : Sparse α) : Prop where
  compressed : ∃ c, FieldIO.attr .uint8 FieldIO.kCompressed kids = .ok c ∧ Ogawa.unle c ≠ 0
  counted : ∃ n, FieldIO.attr .uint32 FieldIO.kOccupied kids = .ok n ∧
    Ogawa.unle n = (g.blocks.filter (·.isAllocated)).length
  whole : ∀ d i bs, FieldIO.dataset .compressed e.type FieldIO.kData kids = .ok d → Og.element d i = some bs →
    ∃ raw, z.decomp (FieldIO.numVoxels g.order * e.type.bytes) bs = some raw ∧
      raw.length = FieldIO.numVoxels g.order * e.type.bytes

/-- The map that a field in memory is. -/
noncomputable def mapOf {α : Type} (zero : α) (g : Sparse α) : SparseMap α where
  extents := g.extents
  dw := g.dw
  order := g.order
  val p := (g.value p).getD zero
  alloc b := ∃ blk, g.block? (g.blockId b) = some blk ∧ blk.isAllocated = true

/-- What can be observed of field `f` when its blocks come from files: as `SeenAs`, with voxels read from the files. -/
structure SeenFrom {α : Type} (e : Elem α) (z : Zlib) (disk : Nat → Source) (s : Dyn.St α) (f : Nat) (h : Handle α) :
    Prop where
  object : ∃ o bs, s.flds f = some o ∧ s.heap o.arr = some bs ∧ o.file.isSome = h.lazy ∧
    o.geom.extents = h.map.extents ∧ o.geom.dw = h.map.dw ∧ o.geom.order = h.map.order ∧
    (∀ b p, h.map.inBlock b p → ∃ r, ({ o.geom with blocks := bs } : Sparse α).blockIsAllocated b = some r ∧
      (r = true ↔ h.map.alloc b)) ∧
    (∀ b p, h.map.inBlock b p → ¬ h.map.alloc b →
      ({ o.geom with blocks := bs } : Sparse α).getBlockEmptyValue b = some (h.map.val p))
  value : ∀ p, h.map.dw.contains p = true → ∃ t, LazyFile.read e z disk s f p = .ok (t, h.map.val p)

end F3D.Props
