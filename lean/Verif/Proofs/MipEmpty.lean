import Verif.Proofs.MipPass
import Verif.Proofs.Sparse

/-!
# Skipping empty input of MIP passes
-/

namespace F3D
namespace Resample
open Interp (floor_le' lt_floor')

theorem allEmpty_true (f : Sparse ℚ) : ∀ l : List V3i, allEmpty f l = some true →
    ∀ b ∈ l, f.blockIsAllocated b = some false ∧ f.getBlockEmptyValue b = some 0
  | [], _, b, hb => by cases hb
  | c :: l, h, b, hb => by
    unfold allEmpty at h
    cases h1 : f.blockIsAllocated c with
    | none => rw [h1] at h; cases h
    | some al =>
      cases h2 : f.getBlockEmptyValue c with
      | none => rw [h1, h2] at h; cases h
      | some e =>
        rw [h1, h2] at h
        simp only at h
        cases al with
        | true => simp at h
        | false =>
          by_cases he : e = 0
          · subst he
            simp at h
            rcases List.mem_cons.1 hb with rfl | hb
            · exact ⟨h1, h2⟩
            · exact allEmpty_true f l h b hb
          · simp [he] at h

theorem allEmpty_defined (f : Sparse ℚ) : ∀ l : List V3i, (∀ b ∈ l, ∃ x, f.block? (f.blockId b) = some x) →
    ∃ r, allEmpty f l = some r
  | [], _ => ⟨true, rfl⟩
  | c :: l, h => by
    obtain ⟨x, hx⟩ := h c (List.mem_cons_self ..)
    unfold allEmpty Sparse.blockIsAllocated Sparse.getBlockEmptyValue
    rw [hx]
    simp only [Option.map_some]
    split
    · exact ⟨_, rfl⟩
    · exact allEmpty_defined f l fun b hb => h b (List.mem_cons_of_mem _ hb)

/-- A voxel in a block that is not allocated and empty has value 0. -/
theorem value_empty {f : Sparse ℚ} {q : V3i}
    (h : f.blockIsAllocated (f.blockCoord (f.offsetCoord q)) = some false ∧
      f.getBlockEmptyValue (f.blockCoord (f.offsetCoord q)) = some 0) : f.value q = some 0 := by
  obtain ⟨h1, h2⟩ := h
  unfold Sparse.blockIsAllocated at h1
  unfold Sparse.getBlockEmptyValue at h2
  unfold Sparse.value
  cases hb : f.block? (f.blockId (f.blockCoord (f.offsetCoord q))) with
  | none => rw [hb] at h1; cases h1
  | some b =>
    rw [hb] at h1 h2
    simp only [Option.map_some, Option.some.injEq] at h1 h2
    simp [hb, h1, h2]

/-- A line of zeros gives zero. -/
theorem lineOf_zero (op : Op) (weight : ℤ → ℚ) (l : List ℤ) : lineOf op weight (fun _ => 0) l = 0 := by
  have hs : (l.map fun s => (0 : ℚ) * weight s).sum = 0 := by
    induction l with
    | nil => rfl
    | cons a l ih => simp only [List.map_cons, List.sum_cons, ih]; ring
  cases op with
  | weighted =>
    simp only [lineOf, hs]
    split <;> simp
  | least i =>
    simp only [lineOf]
    split
    · rename_i h
      rcases (foldl_min weight (fun _ => 0) l i).1 with h1 | ⟨s, _, _, h1⟩
      · exact absurd h1 h
      · exact h1
    · rfl
  | greatest i =>
    simp only [lineOf]
    split
    · rename_i h
      rcases (foldl_max weight (fun _ => 0) l i).1 with h1 | ⟨s, _, _, h1⟩
      · exact absurd h1 h
      · exact h1
    · rfl

theorem pad_pos {s : ℚ} (h : 0 < s) : 1 ≤ padOf s := by
  unfold padOf
  have : 0 < (s * (1 / 2)).ceil := by
    rw [Rat.ceil_eq_neg_floor_neg]
    have h1 := floor_le' (-(s * (1 / 2)))
    have h2 : (((-(s * (1 / 2))).floor : ℤ) : ℚ) < ((0 : ℤ) : ℚ) := by push_cast; linarith
    have h3 := Int.cast_lt.1 h2
    omega
  omega

/-- The source voxels of a pass are in blocks that are looked at. -/
theorem axis_cover (bs : ℕ) (hbs : 0 < bs) (R add : ℤ) (hR : 0 < R) (hadd : add = 0 ∨ add = 1) (i0 i s : ℤ)
    (sup : ℚ) (h0 : 0 < sup) (hsup : sup ≤ 1 ∨ sup * 2 ≤ bs)
    (hi0 : i0 ∈ starts ((R + 1) / 2 + add) bs) (h1 : i0 ≤ i)
    (h2 : i ≤ min (i0 + ((bs : ℤ) - 1)) ((R + 1) / 2 + add - 1))
    (hs : max (mipInterval sup (curSrc i add)).1 0 ≤ s) (hs' : s ≤ min (mipInterval sup (curSrc i add)).2 (R - 1)) :
    let lo := max ((i0 - padOf sup) * 2) 0
    let hi := min ((min (i0 + ((bs : ℤ) - 1)) ((R + 1) / 2 + add - 1) + padOf sup) * 2) (R - 1)
    lo ≤ hi ∧ lo / bs ≤ s / bs ∧ s / bs ≤ hi / bs := by
  have hpad := pad_pos h0
  generalize padOf sup = pad at hpad
  obtain ⟨n, hn, hn'⟩ := (mem_starts _ bs hbs i0).1 hi0
  have hbz : (0 : ℤ) < bs := by omega
  have hn0 : (0 : ℤ) ≤ n * bs := by positivity
  have hs0 : 0 ≤ s := le_trans (le_max_right _ _) hs
  have hsR : s ≤ R - 1 := le_trans hs' (min_le_right _ _)
  have hlow : (mipInterval sup (curSrc i add)).1 ≤ s := le_trans (le_max_left _ _) hs
  have hup : s ≤ (mipInterval sup (curSrc i add)).2 := le_trans hs' (min_le_left _ _)
  simp only [mipInterval] at hlow hup
  have hc : curSrc i add = ((2 * i + 1 - add : ℤ) : ℚ) := by
    unfold curSrc mid; push_cast; ring
  -- bounds on the voxel
  have hL : ∀ k : ℤ, (k : ℚ) ≤ curSrc i add - sup * 2 → k ≤ s := fun k hk =>
    le_trans (Int.le_floor.2 hk) hlow
  have hU : ∀ k : ℤ, curSrc i add + sup * 2 ≤ (k : ℚ) → s ≤ k - 1 := fun k hk => by
    have : (curSrc i add + sup * 2).ceil ≤ k := by
      rw [Rat.ceil_eq_neg_floor_neg]
      have := Int.le_floor.2 (show ((-k : ℤ) : ℚ) ≤ -(curSrc i add + sup * 2) by push_cast; linarith)
      have e : (-(curSrc i add + sup * 2)).floor = ⌊-(curSrc i add + sup * 2)⌋ := rfl
      omega
    omega
  have hi1 : i ≤ i0 + ((bs : ℤ) - 1) := le_trans h2 (min_le_left _ _)
  have hi2 : i ≤ (R + 1) / 2 + add - 1 := le_trans h2 (min_le_right _ _)
  have hdiv := Int.mul_ediv_add_emod (R + 1) 2
  have hmod := Int.emod_two_eq_zero_or_one (R + 1)
  generalize hi1' : min (i0 + ((bs : ℤ) - 1)) ((R + 1) / 2 + add - 1) = i1 at *
  have hi1c : i1 = i0 + (bs - 1) ∨ i1 = (R + 1) / 2 + add - 1 := by omega
  refine ⟨?_, ?_, ?_⟩
  · apply le_min <;> apply max_le <;> omega
  · rcases hsup with hsup | hsup
    · apply Int.ediv_le_ediv hbz
      apply max_le _ hs0
      have := hL (2 * i - 1 - add) (by rw [hc]; push_cast; linarith)
      omega
    · have := hL (2 * i + 1 - add - bs) (by rw [hc]; push_cast; linarith)
      have hs2 : (2 * (n : ℤ) - 1) ≤ s / bs := by
        rw [Int.le_ediv_iff_mul_le hbz]
        have e : (2 * (n : ℤ) - 1) * bs = 2 * i0 - bs := by rw [hn]; ring
        rw [e]; omega
      have hl2 : (i0 - pad) * 2 / bs ≤ 2 * (n : ℤ) - 1 := by
        have : (i0 - pad) * 2 / bs < 2 * (n : ℤ) := by
          rw [Int.ediv_lt_iff_lt_mul hbz]
          have e : 2 * (n : ℤ) * bs = 2 * i0 := by rw [hn]; ring
          rw [e]; omega
        omega
      rcases le_total ((i0 - pad) * 2) 0 with h | h
      · rw [max_eq_right h, Int.zero_ediv]
        exact Int.ediv_nonneg hs0 (by omega)
      · rw [max_eq_left h]
        exact le_trans hl2 hs2
  · rcases hsup with hsup | hsup
    · apply Int.ediv_le_ediv hbz
      apply le_min _ hsR
      have := hU (2 * i + 3 - add) (by rw [hc]; push_cast; linarith)
      omega
    · have := hU (2 * i + 1 - add + bs) (by rw [hc]; push_cast; linarith)
      rcases hi1c with he | he
      · have hs2 : s / bs ≤ 2 * (n : ℤ) + 2 := by
          have : s / bs < 2 * (n : ℤ) + 3 := by
            rw [Int.ediv_lt_iff_lt_mul hbz]
            have e : (2 * (n : ℤ) + 3) * bs = 2 * i0 + 3 * bs := by rw [hn]; ring
            rw [e]; omega
          omega
        have hl2 : 2 * (n : ℤ) + 2 ≤ (i1 + pad) * 2 / bs := by
          rw [Int.le_ediv_iff_mul_le hbz]
          have e : (2 * (n : ℤ) + 2) * bs = 2 * i0 + 2 * bs := by rw [hn]; ring
          rw [e]; omega
        rcases le_total ((i1 + pad) * 2) (R - 1) with h | h
        · rw [min_eq_left h]; exact le_trans hs2 hl2
        · rw [min_eq_right h]; exact Int.ediv_le_ediv hbz hsR
      · apply Int.ediv_le_ediv hbz
        apply le_min _ hsR
        omega

end Resample
end F3D
