import Verif.Model.AnyLess
import Verif.Props.Sparse
import Mathlib.Algebra.Order.Ring.Rat

/-!
# C05: releasing blocks of scalars and vectors by threshold
-/

namespace F3D.Props
open F3D

/-- All voxels of the window in the block of `p` have the property. -/
def AllInBlock {α : Type} (f : Sparse α) (p : V3i) (P : α → Prop) : Prop :=
  ∀ q v, f.dw.contains q = true → blockOf f.dw f.order q = blockOf f.dw f.order p → f.value q = some v → P v

theorem ratAbs_eq (v : ℚ) : ratAbs v = |v| := by
  unfold ratAbs
  split
  · rename_i h; exact (abs_of_neg h).symm
  · rename_i h; exact (abs_of_nonneg (not_lt.mp h)).symm

theorem isAnyLess_false (v t : ℚ) : isAnyLess v t = false ↔ t ≤ |v| := by
  unfold isAnyLess; rw [ratAbs_eq, decide_eq_false_iff_not, not_lt]

theorem isAnyLessVec_false (v t : V3q) :
    isAnyLessVec v t = false ↔ t.x ≤ |v.x| ∧ t.y ≤ |v.y| ∧ t.z ≤ |v.z| := by
  unfold isAnyLessVec
  simp only [ratAbs_eq, Bool.or_eq_false_iff, decide_eq_false_iff_not, not_lt, and_assoc]

/-- C05: releasing by a threshold `t` in a field of scalars frees exactly the allocated blocks in which every voxel has a
magnitude of at least `t`. Their voxels then read as the first voxel of the block; no other voxel changes. -/
theorem C05_release_scalars (f : Sparse ℚ) (h : SparseReachable 0 f) (t : ℚ) :
    ∃ g n, f.releaseAbove t = some (g, n) ∧ g.dw = f.dw ∧
      ∀ p, f.dw.contains p = true →
        let freed := f.voxelIsInAllocatedBlock p = some true ∧ AllInBlock f p fun v => t ≤ |v|
        (freed → g.voxelIsInAllocatedBlock p = some false ∧
          g.value p = f.value (blockCorner f.dw f.order (blockOf f.dw f.order p))) ∧
        (¬ freed → g.voxelIsInAllocatedBlock p = f.voxelIsInAllocatedBlock p ∧ g.value p = f.value p) := by
  obtain ⟨g, n, h1, h2, h3, -⟩ := C05_release_by_threshold 0 f h fun v => isAnyLess v t
  refine ⟨g, n, h1, h2, fun p hp => ?_⟩
  have := h3 p hp
  simp only [isAnyLess_false] at this
  exact this

/-- C05: releasing by a threshold in a field of vectors frees exactly the allocated blocks in which every component of every voxel
has a magnitude of at least that component of the threshold: one small component of one voxel keeps the block. -/
theorem C05_release_vectors (f : Sparse V3q) (h : SparseReachable ⟨0, 0, 0⟩ f) (t : V3q) :
    ∃ g n, f.releaseAboveVec t = some (g, n) ∧ g.dw = f.dw ∧
      ∀ p, f.dw.contains p = true →
        let freed := f.voxelIsInAllocatedBlock p = some true ∧
          AllInBlock f p fun v => t.x ≤ |v.x| ∧ t.y ≤ |v.y| ∧ t.z ≤ |v.z|
        (freed → g.voxelIsInAllocatedBlock p = some false ∧
          g.value p = f.value (blockCorner f.dw f.order (blockOf f.dw f.order p))) ∧
        (¬ freed → g.voxelIsInAllocatedBlock p = f.voxelIsInAllocatedBlock p ∧ g.value p = f.value p) := by
  obtain ⟨g, n, h1, h2, h3, -⟩ := C05_release_by_threshold ⟨0, 0, 0⟩ f h fun v => isAnyLessVec v t
  refine ⟨g, n, h1, h2, fun p hp => ?_⟩
  have := h3 p hp
  simp only [isAnyLessVec_false] at this
  exact this

/-- A field with one block of two voxels. -/
def twoVectors (a b : V3q) : Option (Sparse V3q) :=
  sparseRun ⟨0, 0, 0⟩ ((Sparse.empty ⟨0, 0, 0⟩).setSize ⟨0, 0, 0⟩ ⟨⟨0, 0, 0⟩, ⟨1, 0, 0⟩⟩ ⟨⟨0, 0, 0⟩, ⟨1, 0, 0⟩⟩)
    [.setBlockOrder 1, .write ⟨0, 0, 0⟩ a, .write ⟨1, 0, 0⟩ b]

/-- C05: a case. With threshold 3 in all components, a block with the vectors (5, -4, 3) and (-3, 3, 7) is freed; with (5, -4, 3) and
(9, 9, 2) it is kept. -/
theorem C05_vector_witness :
    ((twoVectors ⟨5, -4, 3⟩ ⟨-3, 3, 7⟩).bind fun f => (f.releaseAboveVec ⟨3, 3, 3⟩).bind fun r =>
      (r.1.value ⟨1, 0, 0⟩).map fun v => (v, r.2)) = some (⟨5, -4, 3⟩, 1) ∧
    ((twoVectors ⟨5, -4, 3⟩ ⟨9, 9, 2⟩).bind fun f => (f.releaseAboveVec ⟨3, 3, 3⟩).bind fun r =>
      (r.1.value ⟨1, 0, 0⟩).map fun v => (v, r.2)) = some (⟨9, 9, 2⟩, 0) := by
  constructor <;> decide +kernel

end F3D.Props
