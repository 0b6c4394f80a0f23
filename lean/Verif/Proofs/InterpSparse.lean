import Verif.Proofs.Interp
import Verif.Proofs.Sparse

namespace F3D.Interp
open F3D

theorem step_div_mod {B r e : Nat} (h : r % B + e < B) :
    (r + e) / B = r / B ∧ (r + e) % B = r % B + e := by
  have hB : 0 < B := by omega
  have h1 := Nat.div_add_mod r B
  have e1 : r + e = (r % B + e) + B * (r / B) := by omega
  constructor
  · conv => lhs; rw [e1]
    rw [Nat.add_mul_div_left _ _ hB, Nat.div_eq_of_lt h, Nat.zero_add]
  · conv => lhs; rw [e1]
    rw [Nat.add_mul_mod_self_left, Nat.mod_eq_of_lt h]

/-- Voxels at most one step above a voxel that is not on the upper faces of its block are in the
same block, at the offsets the fast path computes. -/
theorem near_block {f : Sparse ℚ} (wf : f.WF) {d q : V3i} (hd : f.dw.contains d = true)
    (hq : f.dw.contains q = true)
    (hv : (f.voxelInBlock (f.offsetCoord d)).x < ((2 ^ f.order : Nat) : Int) - 1 ∧
      (f.voxelInBlock (f.offsetCoord d)).y < ((2 ^ f.order : Nat) : Int) - 1 ∧
      (f.voxelInBlock (f.offsetCoord d)).z < ((2 ^ f.order : Nat) : Int) - 1)
    (h : (d.x ≤ q.x ∧ q.x ≤ d.x + 1) ∧ (d.y ≤ q.y ∧ q.y ≤ d.y + 1) ∧ (d.z ≤ q.z ∧ q.z ≤ d.z + 1)) :
    f.idN q = f.idN d ∧
    ((f.offN q : Nat) : Int) = (f.voxelInBlock (f.offsetCoord d)).x +
      (f.voxelInBlock (f.offsetCoord d)).y * ((2 ^ f.order : Nat) : Int) +
      (f.voxelInBlock (f.offsetCoord d)).z * ((2 ^ f.order : Nat) : Int) * ((2 ^ f.order : Nat) : Int) +
      (q.x - d.x) + ((2 ^ f.order : Nat) : Int) * (q.y - d.y) +
      ((2 ^ f.order : Nat) : Int) * ((2 ^ f.order : Nat) : Int) * (q.z - d.z) := by
  rw [Sparse.voxelInBlock_eq hd] at hv ⊢
  simp only at hv ⊢
  have hd' := Box3i.contains_iff.mp hd
  have hq' := Box3i.contains_iff.mp hq
  have ex : f.rx q = f.rx d + (q.x - d.x).toNat := by unfold Sparse.rx; omega
  have ey : f.ry q = f.ry d + (q.y - d.y).toNat := by unfold Sparse.ry; omega
  have ez : f.rz q = f.rz d + (q.z - d.z).toNat := by unfold Sparse.rz; omega
  obtain ⟨x1, x2⟩ := step_div_mod (B := 2 ^ f.order) (r := f.rx d) (e := (q.x - d.x).toNat) (by omega)
  obtain ⟨y1, y2⟩ := step_div_mod (B := 2 ^ f.order) (r := f.ry d) (e := (q.y - d.y).toNat) (by omega)
  obtain ⟨z1, z2⟩ := step_div_mod (B := 2 ^ f.order) (r := f.rz d) (e := (q.z - d.z).toNat) (by omega)
  constructor
  · unfold Sparse.idN
    rw [ex, ey, ez, x1, y1, z1]
  · unfold Sparse.offN Grid.enc
    rw [ex, ey, ez, x2, y2, z2]
    have tx : ((q.x - d.x).toNat : Int) = q.x - d.x := Int.toNat_of_nonneg (by omega)
    have ty : ((q.y - d.y).toNat : Int) = q.y - d.y := Int.toNat_of_nonneg (by omega)
    have tz : ((q.z - d.z).toNat : Int) = q.z - d.z := Int.toNat_of_nonneg (by omega)
    generalize f.rx d % 2 ^ f.order = a
    generalize f.ry d % 2 ^ f.order = b
    generalize f.rz d % 2 ^ f.order = c
    generalize 2 ^ f.order = B
    simp only [Int.natCast_add, Int.natCast_mul, tx, ty, tz]
    ring

/-- The sparse interpolator computes the generic trilinear expression. -/
theorem sparse_eq {f : Sparse ℚ} (wf : f.WF) (p : V3q) :
    sparse f p = linearGeneric f.dw f.value p := by
  obtain ⟨hx, hy, hz⟩ := Box3i.isEmpty_false.mp wf.ne
  unfold sparse linearGeneric
  simp only
  generalize hc : floor3 (sub p (1 / 2)) = c
  generalize hf : diff (c + V3i.all 1) (sub p (1 / 2)) = f1
  generalize hd1 : (⟨clampLM f.dw.min.x f.dw.max.x c.x, clampLM f.dw.min.y f.dw.max.y c.y,
    clampLM f.dw.min.z f.dw.max.z c.z⟩ : V3i) = d1
  generalize hd2 : (⟨clampLM f.dw.min.x f.dw.max.x (c + V3i.all 1).x,
    clampLM f.dw.min.y f.dw.max.y (c + V3i.all 1).y,
    clampLM f.dw.min.z f.dw.max.z (c + V3i.all 1).z⟩ : V3i) = d2
  have m1 : f.dw.contains d1 = true := by
    rw [← hd1, Box3i.contains_iff]; simp only [clampLM]; omega
  have m2 : f.dw.contains d2 = true := by
    rw [← hd2, Box3i.contains_iff]; simp only [clampLM]; omega
  have hstep : (d1.x ≤ d2.x ∧ d2.x ≤ d1.x + 1) ∧ (d1.y ≤ d2.y ∧ d2.y ≤ d1.y + 1) ∧
      (d1.z ≤ d2.z ∧ d2.z ≤ d1.z + 1) := by
    rw [← hd1, ← hd2]; simp only [clampLM, V3i.add_x, V3i.add_y, V3i.add_z, V3i.all_x, V3i.all_y,
      V3i.all_z]; omega
  split
  · rename_i hv
    obtain ⟨b, hb, hw⟩ := Sparse.get_block wf m1
    have hblk : f.block? (f.blockId (f.blockCoord (f.offsetCoord d1))) = some b := by
      rw [Sparse.id_eq wf m1, Sparse.block?_nat, hb]
    have m1' := Box3i.contains_iff.mp m1
    have m2' := Box3i.contains_iff.mp m2
    -- values of the eight corners through the block
    have key : ∀ x y z : Int, (x = d1.x ∨ x = d2.x) → (y = d1.y ∨ y = d2.y) → (z = d1.z ∨ z = d2.z) →
        f.value ⟨x, y, z⟩ = if b.isAllocated then
          b.read ((f.voxelInBlock (f.offsetCoord d1)).x +
            (f.voxelInBlock (f.offsetCoord d1)).y * ((2 ^ f.order : Nat) : Int) +
            (f.voxelInBlock (f.offsetCoord d1)).z * ((2 ^ f.order : Nat) : Int) *
              ((2 ^ f.order : Nat) : Int) +
            ((2 ^ f.order : Nat) : Int) * ((2 ^ f.order : Nat) : Int) * (z - d1.z) +
            ((2 ^ f.order : Nat) : Int) * (y - d1.y) + (x - d1.x))
          else some b.emptyValue := by
      intro x y z ox oy oz
      have hq : f.dw.contains ⟨x, y, z⟩ = true := by
        rw [Box3i.contains_iff]; simp only; omega
      obtain ⟨n1, n2⟩ := near_block wf m1 hq hv (by simp only; omega)
      rw [Sparse.value_of_block wf hq (b := b) (by rw [n1]; exact hb)]
      unfold Sparse.bval
      rw [n2]
      generalize ((2 ^ f.order : Nat) : Int) = B
      generalize f.voxelInBlock (f.offsetCoord d1) = v
      rw [show ∀ X Y Z : Int, v.x + v.y * B + v.z * B * B + X + B * Y + B * B * Z =
          v.x + v.y * B + v.z * B * B + B * B * Z + B * Y + X from by intros; ring]
    have hal : f.blockIsAllocated (f.blockCoord (f.offsetCoord d1)) = some b.isAllocated := by
      unfold Sparse.blockIsAllocated; rw [hblk]; rfl
    have hev : f.getBlockEmptyValue (f.blockCoord (f.offsetCoord d1)) = some b.emptyValue := by
      unfold Sparse.getBlockEmptyValue; rw [hblk]; rfl
    rw [hal]
    cases hba : b.isAllocated
    · simp only [hev]
      have k : ∀ x y z : Int, (x = d1.x ∨ x = d2.x) → (y = d1.y ∨ y = d2.y) →
          (z = d1.z ∨ z = d2.z) → f.value ⟨x, y, z⟩ = some b.emptyValue := by
        intro x y z ox oy oz
        rw [key x y z ox oy oz, hba]; rfl
      unfold tri
      simp only [k _ _ _ (Or.inl rfl) (Or.inl rfl) (Or.inl rfl), k _ _ _ (Or.inl rfl) (Or.inl rfl) (Or.inr rfl),
        k _ _ _ (Or.inl rfl) (Or.inr rfl) (Or.inl rfl), k _ _ _ (Or.inl rfl) (Or.inr rfl) (Or.inr rfl),
        k _ _ _ (Or.inr rfl) (Or.inl rfl) (Or.inl rfl), k _ _ _ (Or.inr rfl) (Or.inl rfl) (Or.inr rfl),
        k _ _ _ (Or.inr rfl) (Or.inr rfl) (Or.inl rfl), k _ _ _ (Or.inr rfl) (Or.inr rfl) (Or.inr rfl),
        Option.bind_eq_bind, Option.bind_some]
      congr 1
      ring
    · simp only [hblk]
      unfold tri
      simp only [key _ _ _ (Or.inl rfl) (Or.inl rfl) (Or.inl rfl), key _ _ _ (Or.inl rfl) (Or.inl rfl) (Or.inr rfl),
        key _ _ _ (Or.inl rfl) (Or.inr rfl) (Or.inl rfl), key _ _ _ (Or.inl rfl) (Or.inr rfl) (Or.inr rfl),
        key _ _ _ (Or.inr rfl) (Or.inl rfl) (Or.inl rfl), key _ _ _ (Or.inr rfl) (Or.inl rfl) (Or.inr rfl),
        key _ _ _ (Or.inr rfl) (Or.inr rfl) (Or.inl rfl), key _ _ _ (Or.inr rfl) (Or.inr rfl) (Or.inr rfl),
        hba, if_true]
      generalize ((2 ^ f.order : Nat) : Int) = B
      generalize f.voxelInBlock (f.offsetCoord d1) = v
      subst hd1 hd2
      simp only [sub_self, mul_zero, add_zero]
  · rfl

end F3D.Interp
