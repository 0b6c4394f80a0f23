import Verif.Props.SparseIter

/-!
# Property C14: when the boxes of the block iterator are right
-/

namespace F3D.Props
open F3D
variable {α : Type}

/-- Where along an axis from `lo` to `hi` the boxes of blocks of side `B` are the blocks: the axis starts at 0, or has one
voxel, or starts later but ends inside of the first block counted from 0. -/
def AxisMeetsBlocks (B lo hi : Int) : Prop := lo = 0 ∨ lo = hi ∨ (0 < lo ∧ hi < B)

/-- Along an axis, voxel `v` is in the box of block `i`. -/
def inAxisBox (B lo hi v i : Int) : Prop :=
  (if i * B < lo then lo else if i * B > hi then hi else i * B) ≤ v ∧
  v ≤ (if i * B + (B - 1) < lo then lo else if i * B + (B - 1) > hi then hi else i * B + (B - 1))

theorem axis_right {B lo hi : Int} (hB : 0 < B) (hle : lo ≤ hi) (h : AxisMeetsBlocks B lo hi) (v i : Int)
    (h0 : 0 ≤ i) (h1 : i ≤ (hi - lo) / B) : inAxisBox B lo hi v i ↔ (lo ≤ v ∧ v ≤ hi) ∧ (v - lo) / B = i := by
  have hiB : 0 ≤ i * B := Int.mul_nonneg h0 (Int.le_of_lt hB)
  have hihi : i * B ≤ hi - lo := by
    have := Int.mul_le_mul_of_nonneg_right h1 (Int.le_of_lt hB)
    have := Int.ediv_mul_le (hi - lo) (Int.ne_of_gt hB)
    omega
  have hq : (v - lo) / B = i ↔ i * B ≤ v - lo ∧ v - lo < i * B + B := by
    constructor
    · intro h
      have h2 := Int.ediv_mul_le (v - lo) (Int.ne_of_gt hB)
      have h3 := Int.lt_ediv_add_one_mul_self (v - lo) hB
      rw [Int.add_mul] at h3
      rw [h] at h2 h3
      omega
    · intro h
      apply Int.le_antisymm
      · have : (v - lo) / B < i + 1 := by
          rw [Int.ediv_lt_iff_lt_mul hB, Int.add_mul]; omega
        omega
      · rw [Int.le_ediv_iff_mul_le hB]; exact h.1
  rw [hq]
  unfold inAxisBox
  have hi0 : i = 0 ∨ B ≤ i * B := by
    rcases Int.lt_or_eq_of_le h0 with h | h
    · right
      have := Int.mul_le_mul_of_nonneg_right (show 1 ≤ i by omega) (Int.le_of_lt hB)
      omega
    · left; exact h.symm
  rcases h with h | h | h
  · subst h
    generalize i * B = X at *
    omega
  · have : i * B = 0 := by omega
    rw [this]
    omega
  · rcases hi0 with rfl | hi0
    · simp only [Int.zero_mul] at *
      omega
    · omega

theorem axis_wrong {B lo hi : Int} (hB : 0 < B) (hle : lo ≤ hi)
    (h : ∀ v i, 0 ≤ i → i ≤ (hi - lo) / B → (inAxisBox B lo hi v i ↔ (lo ≤ v ∧ v ≤ hi) ∧ (v - lo) / B = i)) :
    AxisMeetsBlocks B lo hi := by
  have hq0 : 0 ≤ (hi - lo) / B := Int.ediv_nonneg (by omega) (Int.le_of_lt hB)
  have hfirst := (h lo 0 (Int.le_refl _) hq0).mpr ⟨by omega, by simp⟩
  unfold inAxisBox at hfirst
  simp only [Int.zero_mul] at hfirst
  rcases Int.lt_trichotomy lo 0 with hneg | hz | hpos
  · right; left; omega
  · left; exact hz
  · by_cases heq : lo = hi
    · right; left; exact heq
    · right; right
      refine ⟨hpos, ?_⟩
      apply Decidable.byContradiction
      intro hbig
      have hlast := (h hi ((hi - lo) / B) hq0 (Int.le_refl _)).mpr ⟨by omega, rfl⟩
      have hmul := Int.ediv_mul_le (hi - lo) (Int.ne_of_gt hB)
      unfold inAxisBox at hlast
      have hend : hi ≤ (hi - lo) / B * B + (B - 1) := by omega
      have hq1 : 1 ≤ (hi - lo) / B := by
        rcases Int.lt_or_eq_of_le hq0 with h | h
        · omega
        · rw [← h, Int.zero_mul] at hend; omega
      have hBq := Int.mul_le_mul_of_nonneg_right hq1 (Int.le_of_lt hB)
      have hin : inAxisBox B lo hi ((hi - lo) / B * B) ((hi - lo) / B) := by
        unfold inAxisBox
        omega
      have hc := ((h _ _ hq0 (Int.le_refl _)).mp hin).2
      have : ((hi - lo) / B * B - lo) / B < (hi - lo) / B := by
        rw [Int.ediv_lt_iff_lt_mul hB]; omega
      omega

theorem axis_first {B lo hi : Int} (hB : 0 < B) (hle : lo ≤ hi) : ∃ v, inAxisBox B lo hi v 0 := by
  unfold inAxisBox
  simp only [Int.zero_mul]
  refine ⟨if 0 < lo then lo else if 0 > hi then hi else 0, ?_⟩
  omega

theorem boundingBox_axes (f : Sparse α) (b p : V3i) : (f.blockBoundingBox b).contains p = true ↔
    inAxisBox (2 ^ f.order : Nat) f.dw.min.x f.dw.max.x p.x b.x ∧
    inAxisBox (2 ^ f.order : Nat) f.dw.min.y f.dw.max.y p.y b.y ∧
    inAxisBox (2 ^ f.order : Nat) f.dw.min.z f.dw.max.z p.z b.z := by
  rw [Box3i.contains_iff]
  unfold Sparse.blockBoundingBox Sparse.clipPoint inAxisBox
  simp only [V3i.add_x, V3i.add_y, V3i.add_z, V3i.all_x, V3i.all_y, V3i.all_z]
  exact Iff.rfl

theorem blockOf_axes (w : Box3i) (o : Nat) (p b : V3i) : blockOf w o p = b ↔
    (p.x - w.min.x) / (2 ^ o : Nat) = b.x ∧ (p.y - w.min.y) / (2 ^ o : Nat) = b.y ∧
    (p.z - w.min.z) / (2 ^ o : Nat) = b.z := by
  obtain ⟨x, y, z⟩ := b
  unfold blockOf
  simp only [V3i.mk.injEq]

theorem exists_block_axes (w : Box3i) (hne : w.isEmpty = false) (o : Nat) (b : V3i) :
    (∃ q, w.contains q = true ∧ blockOf w o q = b) ↔
    (0 ≤ b.x ∧ b.x ≤ (w.max.x - w.min.x) / (2 ^ o : Nat)) ∧ (0 ≤ b.y ∧ b.y ≤ (w.max.y - w.min.y) / (2 ^ o : Nat)) ∧
    (0 ≤ b.z ∧ b.z ≤ (w.max.z - w.min.z) / (2 ^ o : Nat)) := by
  have hB : (0 : Int) < ((2 ^ o : Nat) : Int) := by
    have := Sparse.two_pow_pos' o; omega
  have hw := Box3i.isEmpty_false.mp hne
  have ax1 : ∀ lo hi q : Int, lo ≤ q → q ≤ hi →
      0 ≤ (q - lo) / ((2 ^ o : Nat) : Int) ∧ (q - lo) / ((2 ^ o : Nat) : Int) ≤ (hi - lo) / ((2 ^ o : Nat) : Int) := by
    intro lo hi q h1 h2
    exact ⟨Int.ediv_nonneg (by omega) (Int.le_of_lt hB), Int.ediv_le_ediv hB (by omega)⟩
  have ax2 : ∀ lo hi i : Int, 0 ≤ i → i ≤ (hi - lo) / ((2 ^ o : Nat) : Int) →
      ∃ q, lo ≤ q ∧ q ≤ hi ∧ (q - lo) / ((2 ^ o : Nat) : Int) = i := by
    intro lo hi i h1 h2
    refine ⟨lo + i * ((2 ^ o : Nat) : Int), ?_, ?_, ?_⟩
    · have := Int.mul_nonneg h1 (Int.le_of_lt hB); omega
    · have := Int.mul_le_mul_of_nonneg_right h2 (Int.le_of_lt hB)
      have := Int.ediv_mul_le (hi - lo) (Int.ne_of_gt hB)
      omega
    · rw [show lo + i * ((2 ^ o : Nat) : Int) - lo = i * ((2 ^ o : Nat) : Int) by omega]
      exact Int.mul_ediv_cancel _ (Int.ne_of_gt hB)
  constructor
  · rintro ⟨q, hq, hb⟩
    rw [Box3i.contains_iff] at hq
    obtain ⟨e1, e2, e3⟩ := (blockOf_axes w o q b).mp hb
    rw [← e1, ← e2, ← e3]
    exact ⟨ax1 _ _ _ (by omega) (by omega), ax1 _ _ _ (by omega) (by omega), ax1 _ _ _ (by omega) (by omega)⟩
  · rintro ⟨⟨a1, a2⟩, ⟨b1, b2⟩, ⟨c1, c2⟩⟩
    obtain ⟨x, x1, x2, x3⟩ := ax2 _ _ _ a1 a2
    obtain ⟨y, y1, y2, y3⟩ := ax2 _ _ _ b1 b2
    obtain ⟨z, z1, z2, z3⟩ := ax2 _ _ _ c1 c2
    refine ⟨⟨x, y, z⟩, ?_, (blockOf_axes w o _ b).mpr ⟨x3, y3, z3⟩⟩
    rw [Box3i.contains_iff]
    simp only
    omega

/-- C14: the boxes of the block iterator contain exactly the voxels of their blocks if and only if, along each axis, the
window starts at 0, or is one voxel long, or starts later and ends inside of the first block counted from 0. -/
theorem C14_bounding_boxes_right_iff [DecidableEq α] (zero : α) (f : Sparse α) (hr : SparseReachable zero f) :
    (∀ b, (∃ q, f.dw.contains q = true ∧ blockOf f.dw f.order q = b) → ∀ p,
      ((f.blockBoundingBox b).contains p = true ↔ f.dw.contains p = true ∧ blockOf f.dw f.order p = b)) ↔
    AxisMeetsBlocks (2 ^ f.order : Nat) f.dw.min.x f.dw.max.x ∧
    AxisMeetsBlocks (2 ^ f.order : Nat) f.dw.min.y f.dw.max.y ∧
    AxisMeetsBlocks (2 ^ f.order : Nat) f.dw.min.z f.dw.max.z := by
  obtain ⟨m, r⟩ := reachable_refines hr
  have hne := r.wf.ne
  have hw := Box3i.isEmpty_false.mp hne
  have hB : (0 : Int) < ((2 ^ f.order : Nat) : Int) := by
    have := Sparse.two_pow_pos' f.order; omega
  have lx : f.dw.min.x ≤ f.dw.max.x := by omega
  have ly : f.dw.min.y ≤ f.dw.max.y := by omega
  have lz : f.dw.min.z ≤ f.dw.max.z := by omega
  simp only [exists_block_axes f.dw hne, boundingBox_axes]
  simp only [blockOf_axes, Box3i.contains_iff]
  generalize ((2 ^ f.order : Nat) : Int) = B at *
  constructor
  · intro h
    obtain ⟨x0, hx0⟩ := axis_first hB lx
    obtain ⟨y0, hy0⟩ := axis_first hB ly
    obtain ⟨z0, hz0⟩ := axis_first hB lz
    have nx : 0 ≤ (f.dw.max.x - f.dw.min.x) / B := Int.ediv_nonneg (by omega) (Int.le_of_lt hB)
    have ny : 0 ≤ (f.dw.max.y - f.dw.min.y) / B := Int.ediv_nonneg (by omega) (Int.le_of_lt hB)
    have nz : 0 ≤ (f.dw.max.z - f.dw.min.z) / B := Int.ediv_nonneg (by omega) (Int.le_of_lt hB)
    have h000 := (h ⟨0, 0, 0⟩ ⟨⟨by simp, nx⟩, ⟨by simp, ny⟩, ⟨by simp, nz⟩⟩ ⟨x0, y0, z0⟩).mp ⟨hx0, hy0, hz0⟩
    simp only at h000
    obtain ⟨g1, g2, g3, g4⟩ := h000
    refine ⟨axis_wrong hB lx ?_, axis_wrong hB ly ?_, axis_wrong hB lz ?_⟩
    · intro v i i0 i1
      have := h ⟨i, 0, 0⟩ ⟨⟨i0, i1⟩, ⟨by simp, ny⟩, ⟨by simp, nz⟩⟩ ⟨v, y0, z0⟩
      simp only [hy0, hz0, g3, g4] at this
      simp only [and_true] at this
      rw [this]
      constructor
      · rintro ⟨a, b⟩; exact ⟨by omega, b⟩
      · rintro ⟨a, b⟩; exact ⟨by omega, b⟩
    · intro v i i0 i1
      have := h ⟨0, i, 0⟩ ⟨⟨by simp, nx⟩, ⟨i0, i1⟩, ⟨by simp, nz⟩⟩ ⟨x0, v, z0⟩
      simp only [hx0, hz0, g2, g4] at this
      simp only [and_true, true_and] at this
      rw [this]
      constructor
      · rintro ⟨a, b⟩; exact ⟨by omega, b⟩
      · rintro ⟨a, b⟩; exact ⟨by omega, b⟩
    · intro v i i0 i1
      have := h ⟨0, 0, i⟩ ⟨⟨by simp, nx⟩, ⟨by simp, ny⟩, ⟨i0, i1⟩⟩ ⟨x0, y0, v⟩
      simp only [hx0, hy0, g2, g3] at this
      simp only [true_and] at this
      rw [this]
      constructor
      · rintro ⟨a, b⟩; exact ⟨by omega, b⟩
      · rintro ⟨a, b⟩; exact ⟨by omega, b⟩
  · rintro ⟨h1, h2, h3⟩ b ⟨⟨a1, a2⟩, ⟨b1, b2⟩, ⟨c1, c2⟩⟩ p
    rw [axis_right hB lx h1 p.x b.x a1 a2, axis_right hB ly h2 p.y b.y b1 b2, axis_right hB lz h3 p.z b.z c1 c2]
    constructor
    · rintro ⟨⟨a, b⟩, ⟨c, d⟩, ⟨e, g⟩⟩; exact ⟨by omega, b, d, g⟩
    · rintro ⟨a, b, d, g⟩; exact ⟨⟨by omega, b⟩, ⟨by omega, d⟩, ⟨by omega, g⟩⟩

/-- C14: a voxel with a negative coordinate, if the window goes on after it, is in no box at all. -/
theorem C14_negative_voxels_in_no_box (f : Sparse α) (b p : V3i) (hb : 0 ≤ b.x ∧ 0 ≤ b.y ∧ 0 ≤ b.z)
    (hp : (p.x < 0 ∧ p.x < f.dw.max.x) ∨ (p.y < 0 ∧ p.y < f.dw.max.y) ∨ (p.z < 0 ∧ p.z < f.dw.max.z))
    (hin : f.dw.contains p = true) : (f.blockBoundingBox b).contains p = false := by
  rw [Bool.eq_false_iff]
  intro h
  have hx : ∀ i : Int, 0 ≤ i → 0 ≤ i * ((2 ^ f.order : Nat) : Int) := fun i h => Int.mul_nonneg h (Int.natCast_nonneg _)
  have h1 := hx b.x hb.1; have h2 := hx b.y hb.2.1; have h3 := hx b.z hb.2.2
  obtain ⟨a, c, d⟩ := (boundingBox_axes f b p).mp h
  rw [Box3i.contains_iff] at hin
  unfold inAxisBox at a c d
  omega

-- A window that meets the condition without starting at 0, and one that does not.
example : AxisMeetsBlocks 16 3 12 ∧ AxisMeetsBlocks 16 0 40 ∧ AxisMeetsBlocks 16 (-5) (-5) := by
  unfold AxisMeetsBlocks; omega

example : ¬ AxisMeetsBlocks 16 (-8) 7 ∧ ¬ AxisMeetsBlocks 16 16 31 := by
  unfold AxisMeetsBlocks; omega

end F3D.Props
