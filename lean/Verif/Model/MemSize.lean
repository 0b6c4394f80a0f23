import Verif.Model.Sparse
import Verif.Model.Dense
import Verif.Model.Mac

/-!
# Figures of memory use

`memSize` of the field classes. The sizes of the C++ objects (`sizeof(*this)`, `sizeof(Block)`,
`sizeof(Data_T)`) are parameters: they depend on the compiler. Sums are natural numbers: the
wrap-around of `long long int` at `2^63` bytes is not modelled.
-/

namespace F3D

/-- `FieldRes::memSize`, export/Field.h:279-280: `base` is `sizeof(FieldRes)`. -/
def memSizeBase (base : Nat) : Nat := base

/-- `EmptyField::memSize`, export/EmptyField.h:218-223. -/
def memSizeEmpty (base own : Nat) : Nat := own + memSizeBase base

/-- `DenseField::memSize`, export/DenseField.h:500-506: `spare` is what the capacity of the vector
exceeds its size by (the standard leaves it open after `resize`). -/
def Dense.memSize {α : Type} (f : Dense α) (base own voxel spare : Nat) : Nat :=
  let superClassMemSize := memSizeBase base
  let vectorMemSize := (f.data.length + spare) * voxel
  own + vectorMemSize + superClassMemSize

/-- `1 << m_blockOrder << m_blockOrder << m_blockOrder` of type `int`, export/SparseField.h:1715:
shifts out of the range of `int` are undefined. -/
def shift3 (order : Nat) : Option Nat :=
  if 3 * order ≤ 30 then some (2 ^ order * 2 ^ order * 2 ^ order) else none

/-- The loop of `SparseField::memSize` over the blocks, export/SparseField.h:1713-1718. -/
def dataSizeLoop {α : Type} (order voxel : Nat) : List (Block α) → Nat → Option Nat
  | [], acc => some acc
  | b :: bs, acc =>
    if b.data.isSome then
      match shift3 order with
      | none => none
      | some n => dataSizeLoop order voxel bs (acc + n * voxel)
    else dataSizeLoop order voxel bs acc

/-- `SparseField::memSize`, export/SparseField.h:1707-1721; `none` is undefined behaviour. The sizes
of the base class are not added: `own` has them already. -/
def Sparse.memSize {α : Type} (f : Sparse α) (own block voxel : Nat) : Option Nat :=
  let blockSize := f.blocks.length * block
  match dataSizeLoop f.order voxel f.blocks 0 with
  | none => none
  | some dataSize => some (own + dataSize + blockSize)

/-- Capacity of a `std::vector` after `resize(n)`: it is kept if it is enough (`resize` never lowers it), and otherwise
becomes anything that is enough. -/
def CapAfter (cap n cap' : Nat) : Prop := if n ≤ cap then cap' = cap else n ≤ cap'

/-- A MAC field with the capacities of `m_u`, `m_v` and `m_w`. -/
structure MacMem where
  f : Mac
  capU : Nat
  capV : Nat
  capW : Nat

/-- A MAC field after calls of `setSize` with these data windows, the last one first; each resizes the three vectors,
export/MACField.h:671-684. -/
inductive MacSized : List Box3i → MacMem → Prop where
  | new : MacSized [] ⟨Mac.fresh, 0, 0, 0⟩
  | size {ws : List Box3i} {m : MacMem} {e w : Box3i} {g : Mac} {a b c : Nat} : MacSized ws m →
      m.f.setSize e w = some g → CapAfter m.capU g.cu.data.length a → CapAfter m.capV g.cv.data.length b →
      CapAfter m.capW g.cw.data.length c → MacSized (w :: ws) ⟨g, a, b, c⟩

/-- `MACField::memSize`, export/MACField.h:637-644. -/
def MacMem.memSize (m : MacMem) (base own real : Nat) : Nat :=
  let superClassMemSize := memSizeBase base
  let vectorMemSize := (m.capU + m.capV + m.capW) * real
  own + vectorMemSize + superClassMemSize

/-- `MIPField::memSize`, export/MIPField.h:534-545: the figure of each level that is in memory
(`m_fields[i]` not null), `none` for the others. -/
def mipMemSize (own : Nat) : List (Option Nat) → Nat → Nat
  | [], mem => mem + own
  | none :: ls, mem => mipMemSize own ls mem
  | some m :: ls, mem => mipMemSize own ls (mem + m)

/-- `MIPField::voxelCount`, export/MIPField.h:519-530. -/
def mipVoxelCount : List (Option Nat) → Nat → Nat
  | [], count => count
  | none :: ls, count => mipVoxelCount ls count
  | some m :: ls, count => mipVoxelCount ls (count + m)

end F3D
