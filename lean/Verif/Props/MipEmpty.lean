import Verif.Proofs.MipEmpty

/-!
# C52: skipping empty input
-/

namespace F3D
namespace Props
open Resample

/-- The resolution of the target of a pass along axis `a`: half of the source, rounded up, plus the padding. -/
def passTarget (a : Axis) (srcRes add : V3i) : V3i := a.set srcRes ((a.get srcRes + 1) / 2 + a.get add)

/-- A division by the block size that keeps the order. -/
theorem ediv_mono (o : ℕ) {x y : ℤ} (h : x ≤ y) : x / ((2 ^ o : ℕ) : ℤ) ≤ y / ((2 ^ o : ℕ) : ℤ) :=
  Int.ediv_le_ediv (by have := Nat.two_pow_pos o; omega) h

/-- The test whether the input of a work block is empty never looks at a block that does not exist. -/
theorem C52_defined (src : Sparse ℚ) (wf : src.WF) (box : Box3i) (support : ℚ) (a : Axis) :
    ∃ r, checkInputEmpty src box support a = some r := by
  unfold checkInputEmpty
  generalize hc : clipBounds (sourceBox box support a) src.dw = c
  cases hb : blockCoords src c with
  | none => exact ⟨true, rfl⟩
  | some b =>
    unfold blockCoords at hb
    split at hb
    · rename_i hne
      cases hb
      apply allEmpty_defined
      intro x hx
      have hmin : src.dw.contains c.min = true := by
        rw [Box3i.contains_iff]
        rw [← hc] at hne ⊢
        simp only [clipBounds] at hne ⊢
        omega
      have hmax : src.dw.contains c.max = true := by
        rw [Box3i.contains_iff]
        rw [← hc] at hne ⊢
        simp only [clipBounds] at hne ⊢
        omega
      rw [mem_boxLoop, Box3i.contains_iff, Sparse.blockCoord_eq hmin, Sparse.blockCoord_eq hmax] at hx
      simp only at hx
      obtain ⟨g1, g2, g3⟩ := Sparse.r_bounds wf hmax
      have d1 := Sparse.div_lt_bn (o := src.order) g1
      have d2 := Sparse.div_lt_bn (o := src.order) g2
      have d3 := Sparse.div_lt_bn (o := src.order) g3
      generalize src.rx c.max / 2 ^ src.order = m1 at *
      generalize src.ry c.max / 2 ^ src.order = m2 at *
      generalize src.rz c.max / 2 ^ src.order = m3 at *
      generalize src.rx c.min / 2 ^ src.order = l1 at *
      generalize src.ry c.min / 2 ^ src.order = l2 at *
      generalize src.rz c.min / 2 ^ src.order = l3 at *
      obtain ⟨x1, x2, x3⟩ := x
      simp only at hx
      obtain ⟨n1, rfl⟩ := Int.eq_ofNat_of_zero_le (show 0 ≤ x1 by omega)
      obtain ⟨n2, rfl⟩ := Int.eq_ofNat_of_zero_le (show 0 ≤ x2 by omega)
      obtain ⟨n3, rfl⟩ := Int.eq_ofNat_of_zero_le (show 0 ≤ x3 by omega)
      rw [Sparse.blockId_nat wf, Sparse.block?_nat]
      refine ⟨_, List.getElem?_eq_getElem ?_⟩
      rw [wf.len]
      exact Grid.enc_lt (by omega) (by omega) (by omega)
    · cases hb

/-- If the test says that the input is empty, the value computed for a voxel of the work block is zero, as it stays when the
block is skipped: for filters with support at most 1, and for wider ones if the blocks of the source are at least twice as
long as the support. -/
theorem C52_skip_sound (flt : Filter) (src : Sparse ℚ) (wf : src.WF) (srcRes : V3i)
    (hres : 0 < srcRes.x ∧ 0 < srcRes.y ∧ 0 < srcRes.z) (hdw : src.dw = boxOf srcRes) (add : V3i) (a : Axis)
    (hadd : a.get add = 0 ∨ a.get add = 1) (h0 : 0 < flt.support)
    (hsup : flt.support ≤ 1 ∨ flt.support * 2 ≤ 2 ^ src.order) (box : Box3i)
    (hbox : box ∈ workBlocks (passTarget a srcRes add) (2 ^ src.order)) (p : V3i) (hp : box.contains p = true)
    (he : checkInputEmpty src box flt.support a = some true) :
    ∃ r, mipValue flt src.dw src.value add a p = some r ∧ r.getD 0 = 0 := by
  have hbs : 0 < 2 ^ src.order := Nat.two_pow_pos _
  have hsup' : flt.support ≤ 1 ∨ flt.support * 2 ≤ ((2 ^ src.order : ℕ) : ℚ) := by push_cast; exact hsup
  have key : ∀ s, max (mipInterval flt.support (curSrc (a.get p) (a.get add))).1 (a.get src.dw.min) ≤ s →
      s ≤ min (mipInterval flt.support (curSrc (a.get p) (a.get add))).2 (a.get src.dw.max) →
      src.value (a.set p s) = some 0 := by
    intro s hs hs'
    apply value_empty
    unfold checkInputEmpty at he
    have hin : ∀ b, blockCoords src (clipBounds (sourceBox box flt.support a) src.dw) = some b →
        b.contains (src.blockCoord (src.offsetCoord (a.set p s))) = true →
        src.blockIsAllocated (src.blockCoord (src.offsetCoord (a.set p s))) = some false ∧
        src.getBlockEmptyValue (src.blockCoord (src.offsetCoord (a.set p s))) = some 0 := by
      intro b hb hm
      rw [hb] at he
      exact allEmpty_true src _ he _ ((mem_boxLoop _ _).2 hm)
    simp only [workBlocks, List.mem_flatMap, List.mem_map] at hbox
    obtain ⟨k, hk, j, hj, i, hi, rfl⟩ := hbox
    rw [Box3i.contains_iff] at hp
    simp only at hp
    obtain ⟨n1, hn1, _⟩ := (mem_starts _ _ hbs _).1 hi
    obtain ⟨n2, hn2, _⟩ := (mem_starts _ _ hbs _).1 hj
    obtain ⟨n3, hn3, _⟩ := (mem_starts _ _ hbs _).1 hk
    have p1 : (0 : ℤ) ≤ n1 * (2 ^ src.order : ℕ) := by positivity
    have p2 : (0 : ℤ) ≤ n2 * (2 ^ src.order : ℕ) := by positivity
    have p3 : (0 : ℤ) ≤ n3 * (2 ^ src.order : ℕ) := by positivity
    have hmono := @ediv_mono src.order
    obtain ⟨⟨hx1, hx2⟩, ⟨hy1, hy2⟩, hz1, hz2⟩ := hp
    rw [hdw] at hs hs' hin
    unfold blockCoords at hin
    cases a with
    | x =>
      simp only [Axis.get, Axis.set, boxOf, V3i.all, V3i.sub_x, V3i.sub_y, V3i.sub_z, passTarget, clipBounds, sourceBox]
        at hs hs' hin hadd hi hj hk hx1 hx2 hy1 hy2 hz1 hz2 ⊢
      obtain ⟨c1, c2, c3⟩ := axis_cover _ hbs srcRes.x add.x hres.1 hadd i p.x s flt.support h0 hsup' hi hx1 hx2 hs hs'
      have ey : (max j 0 ≤ p.y) ∧ p.y ≤ min (min (j + (((2 ^ src.order : ℕ) : ℤ) - 1)) (srcRes.y - 1)) (srcRes.y - 1) := by omega
      have ez : (max k 0 ≤ p.z) ∧ p.z ≤ min (min (k + (((2 ^ src.order : ℕ) : ℤ) - 1)) (srcRes.z - 1)) (srcRes.z - 1) := by omega
      refine hin _ (if_pos ⟨by omega, by omega, by omega⟩) ?_
      rw [Box3i.contains_iff]
      simp only [Sparse.blockCoord, Sparse.offsetCoord, hdw, boxOf, V3i.all, V3i.sub_x, V3i.sub_y, V3i.sub_z, sub_zero]
      exact ⟨⟨c2, c3⟩, ⟨hmono ey.1, hmono ey.2⟩, hmono ez.1, hmono ez.2⟩
    | y =>
      simp only [Axis.get, Axis.set, boxOf, V3i.all, V3i.sub_x, V3i.sub_y, V3i.sub_z, passTarget, clipBounds, sourceBox]
        at hs hs' hin hadd hi hj hk hx1 hx2 hy1 hy2 hz1 hz2 ⊢
      obtain ⟨c1, c2, c3⟩ := axis_cover _ hbs srcRes.y add.y hres.2.1 hadd j p.y s flt.support h0 hsup' hj hy1 hy2 hs hs'
      have ex : (max i 0 ≤ p.x) ∧ p.x ≤ min (min (i + (((2 ^ src.order : ℕ) : ℤ) - 1)) (srcRes.x - 1)) (srcRes.x - 1) := by omega
      have ez : (max k 0 ≤ p.z) ∧ p.z ≤ min (min (k + (((2 ^ src.order : ℕ) : ℤ) - 1)) (srcRes.z - 1)) (srcRes.z - 1) := by omega
      refine hin _ (if_pos ⟨by omega, by omega, by omega⟩) ?_
      rw [Box3i.contains_iff]
      simp only [Sparse.blockCoord, Sparse.offsetCoord, hdw, boxOf, V3i.all, V3i.sub_x, V3i.sub_y, V3i.sub_z, sub_zero]
      exact ⟨⟨hmono ex.1, hmono ex.2⟩, ⟨c2, c3⟩, hmono ez.1, hmono ez.2⟩
    | z =>
      simp only [Axis.get, Axis.set, boxOf, V3i.all, V3i.sub_x, V3i.sub_y, V3i.sub_z, passTarget, clipBounds, sourceBox]
        at hs hs' hin hadd hi hj hk hx1 hx2 hy1 hy2 hz1 hz2 ⊢
      obtain ⟨c1, c2, c3⟩ := axis_cover _ hbs srcRes.z add.z hres.2.2 hadd k p.z s flt.support h0 hsup' hk hz1 hz2 hs hs'
      have ex : (max i 0 ≤ p.x) ∧ p.x ≤ min (min (i + (((2 ^ src.order : ℕ) : ℤ) - 1)) (srcRes.x - 1)) (srcRes.x - 1) := by omega
      have ey : (max j 0 ≤ p.y) ∧ p.y ≤ min (min (j + (((2 ^ src.order : ℕ) : ℤ) - 1)) (srcRes.y - 1)) (srcRes.y - 1) := by omega
      refine hin _ (if_pos ⟨by omega, by omega, by omega⟩) ?_
      rw [Box3i.contains_iff]
      simp only [Sparse.blockCoord, Sparse.offsetCoord, hdw, boxOf, V3i.all, V3i.sub_x, V3i.sub_y, V3i.sub_z, sub_zero]
      exact ⟨⟨hmono ex.1, hmono ex.2⟩, ⟨hmono ey.1, hmono ey.2⟩, c2, c3⟩
  obtain ⟨r, hr, hv⟩ := lineValue_eq flt (fun s => flt.eval (absQ (mid s - curSrc (a.get p) (a.get add)) * (1 / 2)))
    (fun s => src.value (a.set p s)) (fun _ => 0) _ _ key
  exact ⟨r, hr, by rw [hv, lineOf_zero]⟩

/-- Skipping makes no difference: in all passes over sources with blocks of `2^o` voxels, all voxels of work blocks whose
input is said to be empty have value 0. -/
def Skippable (flt : Filter) (o : ℕ) : Prop :=
  ∀ (src : Sparse ℚ) (srcRes add : V3i) (a : Axis) (box : Box3i) (p : V3i), src.WF → src.order = o →
    0 < srcRes.x ∧ 0 < srcRes.y ∧ 0 < srcRes.z → src.dw = boxOf srcRes → a.get add = 0 ∨ a.get add = 1 →
    box ∈ workBlocks (passTarget a srcRes add) (2 ^ o) → box.contains p = true →
    checkInputEmpty src box flt.support a = some true →
    ∃ r, mipValue flt src.dw src.value add a p = some r ∧ r.getD 0 = 0

/-- Box, min, max and triangle filters of default width may be skipped whatever the block size; the Mitchell filter if
blocks have at least 4 voxels on a side, the Gaussian filter if they have at least 8. -/
theorem C52_filters (o : ℕ) (g : ℚ → ℚ) (b c : ℚ) :
    Skippable (boxFilter 1) o ∧ Skippable (minFilter 1) o ∧ Skippable (maxFilter 1) o ∧ Skippable (triangleFilter 1) o ∧
    (2 ≤ o → Skippable (mitchellFilter 1 b c) o) ∧ (3 ≤ o → Skippable (gaussianFilter 2 g) o) := by
  have gen : ∀ flt : Filter, 0 < flt.support → (flt.support ≤ 1 ∨ flt.support * 2 ≤ 2 ^ o) → Skippable flt o := by
    intro flt h0 hs src srcRes add a box p wf ho hres hdw hadd hbox hp he
    exact C52_skip_sound flt src wf srcRes hres hdw add a hadd h0 (by rw [ho]; exact hs) box (by rw [ho]; exact hbox) p hp he
  refine ⟨gen _ ?_ (.inl ?_), gen _ ?_ (.inl ?_), gen _ ?_ (.inl ?_), gen _ ?_ (.inl ?_), fun h => gen _ ?_ (.inr ?_),
    fun h => gen _ ?_ (.inr ?_)⟩ <;>
    simp only [boxFilter, minFilter, maxFilter, triangleFilter, mitchellFilter, gaussianFilter]
  all_goals try norm_num
  · have : (2 : ℚ) ^ 2 ≤ 2 ^ o := by exact_mod_cast Nat.pow_le_pow_right (by omega) h
    norm_num at this
    linarith
  · have : (2 : ℚ) ^ 3 ≤ 2 ^ o := by exact_mod_cast Nat.pow_le_pow_right (by omega) h
    norm_num at this
    linarith

/-- A sparse field of `n` voxels in a row, with blocks of `2^o` voxels and value 1 at voxel `x` only. -/
def spike (o : ℕ) (n x : ℤ) : Option (Sparse ℚ) :=
  ((({ Sparse.empty (0 : ℚ) with order := o } : Sparse ℚ).setSize 0 (boxOf ⟨n, 1, 1⟩) (boxOf ⟨n, 1, 1⟩)).write ⟨x, 0, 0⟩ 1)

/-- The hypotheses of `C52_skip_sound` are met and its conclusion is not trivial: with a spike at voxel 0 the block of
target voxels 32 to 47 is skipped and the one of voxels 0 to 15 is not. -/
example : (match spike 4 100 0 with
    | some src => decide (checkInputEmpty src ⟨⟨32, 0, 0⟩, ⟨47, 0, 0⟩⟩ (1 / 2) .x = some true) &&
        decide (checkInputEmpty src ⟨⟨0, 0, 0⟩, ⟨15, 0, 0⟩⟩ (1 / 2) .x = some false) &&
        decide ((⟨⟨32, 0, 0⟩, ⟨47, 0, 0⟩⟩ : Box3i) ∈ workBlocks (passTarget .x ⟨100, 1, 1⟩ ⟨0, 0, 0⟩) (2 ^ 4))
    | none => false) = true := by decide +kernel

/-- With blocks of 2 voxels and a Mitchell filter a block is skipped although the value of one of its voxels is not zero. -/
theorem C52_mitchell_dropped : ∃ src, spike 1 16 5 = some src ∧
    (⟨⟨4, 0, 0⟩, ⟨5, 0, 0⟩⟩ : Box3i) ∈ workBlocks (passTarget .x ⟨16, 1, 1⟩ ⟨0, 0, 0⟩) (2 ^ 1) ∧
    checkInputEmpty src ⟨⟨4, 0, 0⟩, ⟨5, 0, 0⟩⟩ (mitchellFilter 1 (1 / 3) (1 / 3)).support .x = some true ∧
    ∃ v, v ≠ 0 ∧ mipValue (mitchellFilter 1 (1 / 3) (1 / 3)) src.dw src.value ⟨0, 0, 0⟩ .x ⟨4, 0, 0⟩ = some (some v) := by
  have h : (match spike 1 16 5 with
    | some src => decide (checkInputEmpty src ⟨⟨4, 0, 0⟩, ⟨5, 0, 0⟩⟩ (mitchellFilter 1 (1 / 3) (1 / 3)).support .x = some true) &&
        (match mipValue (mitchellFilter 1 (1 / 3) (1 / 3)) src.dw src.value ⟨0, 0, 0⟩ .x ⟨4, 0, 0⟩ with
          | some (some v) => decide (v ≠ 0)
          | _ => false)
    | none => false) = true := by decide +kernel
  cases hs : spike 1 16 5 with
  | none => rw [hs] at h; cases h
  | some src =>
    rw [hs] at h
    simp only [Bool.and_eq_true, decide_eq_true_eq] at h
    refine ⟨src, rfl, by decide +kernel, h.1, ?_⟩
    have h2 := h.2
    split at h2
    · rename_i v hv
      exact ⟨v, by simpa using h2, hv⟩
    · cases h2

/-- With blocks of 4 voxels and the Gaussian filter, whose weights are not negative and positive at distance 11/4, a block is
skipped although the value of one of its voxels is positive. -/
theorem C52_gaussian_dropped (g : ℚ → ℚ) (hg : ∀ x, 0 ≤ g x) (hp : 0 < g (11 / 4)) : ∃ src, spike 2 32 11 = some src ∧
    (⟨⟨8, 0, 0⟩, ⟨11, 0, 0⟩⟩ : Box3i) ∈ workBlocks (passTarget .x ⟨32, 1, 1⟩ ⟨0, 0, 0⟩) (2 ^ 2) ∧
    checkInputEmpty src ⟨⟨8, 0, 0⟩, ⟨11, 0, 0⟩⟩ (gaussianFilter 2 g).support .x = some true ∧
    ∃ v, 0 < v ∧ mipValue (gaussianFilter 2 g) src.dw src.value ⟨0, 0, 0⟩ .x ⟨8, 0, 0⟩ = some (some v) := by
  have h : (match spike 2 32 11 with
    | some src => decide (checkInputEmpty src ⟨⟨8, 0, 0⟩, ⟨11, 0, 0⟩⟩ (2 * 2) .x = some true) &&
        decide ((forRange 9 24).map (fun s => src.value ⟨s, 0, 0⟩) =
          (forRange 9 24).map fun s => some (if s = 11 then (1 : ℚ) else 0)) && decide (src.dw = boxOf ⟨32, 1, 1⟩)
    | none => false) = true := by decide +kernel
  cases hs : spike 2 32 11 with
  | none => rw [hs] at h; cases h
  | some src =>
    rw [hs] at h
    simp only [Bool.and_eq_true, decide_eq_true_eq] at h
    refine ⟨src, rfl, by decide +kernel, h.1.1, ?_⟩
    have hrd : ∀ s, 9 ≤ s → s ≤ 24 → src.value (Axis.x.set ⟨8, 0, 0⟩ s) = some (if s = 11 then (1 : ℚ) else 0) := by
      intro s h1 h2
      have := List.map_inj_left.1 h.1.2 s ((mem_forRange 9 24 s).2 ⟨h1, h2⟩)
      exact this
    obtain ⟨r, hr, hv⟩ := lineValue_eq (gaussianFilter 2 g)
      (fun s => g (absQ (mid s - curSrc 8 0) * (1 / 2))) (fun s => src.value (Axis.x.set ⟨8, 0, 0⟩ s)) _ 9 24 hrd
    have hm : mipValue (gaussianFilter 2 g) src.dw src.value ⟨0, 0, 0⟩ .x ⟨8, 0, 0⟩ = some r := by
      rw [← hr, h.2]
      have e1 : max (mipInterval (2 * 2) (curSrc 8 0)).1 0 = 9 := by decide +kernel
      have e2 : min (mipInterval (2 * 2) (curSrc 8 0)).2 31 = 24 := by decide +kernel
      show lineValue (gaussianFilter 2 g) _ _ (max (mipInterval (2 * 2) (curSrc 8 0)).1 0)
        (min (mipInterval (2 * 2) (curSrc 8 0)).2 31) = _
      rw [e1, e2]
      rfl
    have hd : absQ (mid 11 - curSrc 8 0) * (1 / 2) = 11 / 4 := by decide +kernel
    have hmem : (11 : ℤ) ∈ forRange 9 24 := (mem_forRange 9 24 11).2 (by omega)
    have hw : 0 < ((forRange 9 24).map fun s => g (absQ (mid s - curSrc 8 0) * (1 / 2))).sum :=
      sum_pos (fun s => g (absQ (mid s - curSrc 8 0) * (1 / 2))) _ (fun s _ => hg _) ⟨11, hmem, by simp only [hd]; exact hp⟩
    have hs2 : 0 < ((forRange 9 24).map fun s => (if s = 11 then (1 : ℚ) else 0) * g (absQ (mid s - curSrc 8 0) * (1 / 2))).sum := by
      apply sum_pos (fun s => (if s = 11 then (1 : ℚ) else 0) * g (absQ (mid s - curSrc 8 0) * (1 / 2)))
      · intro s _
        apply mul_nonneg
        · split <;> norm_num
        · exact hg _
      · refine ⟨11, hmem, ?_⟩
        simp only [if_true, hd, one_mul]
        exact hp
    have hpos : 0 < r.getD 0 := by
      rw [hv]
      simp only [lineOf, gaussianFilter]
      rw [if_pos hw]
      exact div_pos hs2 hw
    cases r with
    | none => simp at hpos
    | some v => exact ⟨v, hpos, hm⟩

end Props
end F3D
