import Verif.Proofs.MipPass

/-!
# Passes of `resample`
-/

namespace F3D
namespace Resample
open Interp (floor_le' lt_floor')

/-- The weight of source voxel `s` for target voxel `j`; the source has `n` voxels, the target `m`. -/
def weightOf (flt : Filter) (n m j s : ℤ) : ℚ := flt.eval (getDist (decide (m > n)) (mid s) (mid j) ((n : ℚ) / m))

/-- The source voxels read. -/
def rangeOf (flt : Filter) (n m j : ℤ) : List ℤ :=
  forRange (max (supportInterval (mid j) flt.support ((n : ℚ) / m) (decide (m > n))).1 0)
    (min (supportInterval (mid j) flt.support ((n : ℚ) / m) (decide (m > n))).2 (n - 1))

/-- The values after a pass. -/
def resAxis (flt : Filter) (n m : ℤ) (a : Axis) (v : V3i → ℚ) (p : V3i) : ℚ :=
  lineOf flt.op (weightOf flt n m (a.get p)) (fun s => v (a.set p s)) (rangeOf flt n m (a.get p))

theorem separable_spec (flt : Filter) {src : Dense ℚ} {sres : V3i} {v : V3i → ℚ} (hs : Holds src sres v)
    (hsres : 0 < sres.x ∧ 0 < sres.y ∧ 0 < sres.z) (newRes : V3i) (a : Axis)
    (hres : 0 < newRes.x ∧ 0 < newRes.y ∧ 0 < newRes.z)
    (hc : ∀ p s, (boxOf newRes).contains p = true → 0 ≤ s → s < a.get sres → (boxOf sres).contains (a.set p s) = true) :
    ∃ g, separable flt src newRes a = .ok g ∧ Holds g newRes (resAxis flt (a.get sres) (a.get newRes) a v) := by
  unfold separable
  apply sized_spec hres
  · intro p; rw [mem_boxLoop]
  · intro p hp
    unfold separableValue
    rw [hs.dw, boxOf_size hsres, boxOf_min, boxOf_max]
    obtain ⟨r, hr, hv⟩ := lineValue_eq flt (weightOf flt (a.get sres) (a.get newRes) (a.get p))
      (fun s => src.value (a.set p s)) (fun s => v (a.set p s))
      (max (supportInterval (mid (a.get p)) flt.support ((a.get sres : ℚ) / a.get newRes)
        (decide (a.get newRes > a.get sres))).1 0)
      (min (supportInterval (mid (a.get p)) flt.support ((a.get sres : ℚ) / a.get newRes)
        (decide (a.get newRes > a.get sres))).2 (a.get sres - 1)) (by
        intro s h1 h2
        apply hs.val
        apply hc p s hp (le_trans (le_max_right _ _) h1)
        have := le_trans h2 (min_le_right _ _)
        omega)
    exact ⟨r, hr, hv⟩

/-- The values after the three passes. -/
def resValues (flt : Filter) (sres nres : V3i) (v : V3i → ℚ) : V3i → ℚ :=
  resAxis flt sres.z nres.z .z (resAxis flt sres.y nres.y .y (resAxis flt sres.x nres.x .x v))

theorem resample_spec (flt : Filter) {src : Dense ℚ} {sres : V3i} {v : V3i → ℚ} (hs : Holds src sres v)
    (hvol : 1 < sres.x ∧ 1 < sres.y ∧ 1 < sres.z) (nres : V3i) (hn : 0 < nres.x ∧ 0 < nres.y ∧ 0 < nres.z) :
    ∃ g, resample flt src nres = .ok (some g) ∧ Holds g nres (resValues flt sres nres v) := by
  have hsres : 0 < sres.x ∧ 0 < sres.y ∧ 0 < sres.z := by omega
  unfold resample
  have h1 : hasVolume src.dw = true := by
    rw [hs.dw]
    simp [hasVolume, boxOf]
    omega
  have h2 : src.dw.min = V3i.all 0 := by rw [hs.dw]; rfl
  rw [h1, h2]
  simp only [Bool.true_eq_false, if_false, ne_eq, not_true_eq_false]
  rw [hs.dw, boxOf_size hsres]
  obtain ⟨t1, e1, g1⟩ := separable_spec flt hs hsres ⟨nres.x, sres.y, sres.z⟩ .x ⟨hn.1, hsres.2.1, hsres.2.2⟩ (by
    intro p s hp h0 h1
    rw [boxOf_contains] at hp ⊢
    simp only [Axis.get, Axis.set] at hp h1 ⊢
    omega)
  obtain ⟨t2, e2, g2⟩ := separable_spec flt g1 ⟨hn.1, hsres.2.1, hsres.2.2⟩ ⟨nres.x, nres.y, sres.z⟩ .y
    ⟨hn.1, hn.2.1, hsres.2.2⟩ (by
    intro p s hp h0 h1
    rw [boxOf_contains] at hp ⊢
    simp only [Axis.get, Axis.set] at hp h1 ⊢
    omega)
  obtain ⟨t3, e3, g3⟩ := separable_spec flt g2 ⟨hn.1, hn.2.1, hsres.2.2⟩ nres .z hn (by
    intro p s hp h0 h1
    rw [boxOf_contains] at hp ⊢
    simp only [Axis.get, Axis.set] at hp h1 ⊢
    omega)
  refine ⟨t3, ?_, g3⟩
  rw [e1]
  show (separable flt t1 ⟨nres.x, nres.y, sres.z⟩ .y).bind _ = _
  rw [e2]
  show (separable flt t2 nres .z).bind _ = _
  rw [e3]
  rfl

/-! ## Which voxels belong together -/

/-- In a common frame the centres of source voxel `s` of `n` and target voxel `j` of `m` differ by at most half of the
larger voxel. -/
def touches (n m j s : ℤ) : Prop := (2 * s + 1) * m - (2 * j + 1) * n ≤ max m n ∧ (2 * j + 1) * n - (2 * s + 1) * m ≤ max m n

instance (n m j s : ℤ) : Decidable (touches n m j s) := inferInstanceAs (Decidable (_ ∧ _))

theorem dist_half {n m j s : ℤ} (hn : 0 < n) (hm : 0 < m) :
    getDist (decide (m > n)) (mid s) (mid j) ((n : ℚ) / m) ≤ 1 / 2 ↔ touches n m j s := by
  have hn' : (0 : ℚ) < n := by exact_mod_cast hn
  have hm' : (0 : ℚ) < m := by exact_mod_cast hm
  have cast : touches n m j s ↔ ((2 * (s : ℚ) + 1) * m - (2 * j + 1) * n ≤ max (m : ℚ) n ∧
      (2 * (j : ℚ) + 1) * n - (2 * s + 1) * m ≤ max (m : ℚ) n) := by
    unfold touches
    constructor
    · rintro ⟨h1, h2⟩
      exact ⟨by exact_mod_cast h1, by exact_mod_cast h2⟩
    · rintro ⟨h1, h2⟩
      exact ⟨by exact_mod_cast h1, by exact_mod_cast h2⟩
  rw [cast]
  unfold getDist mid
  by_cases h : m > n
  · have h' : (n : ℚ) ≤ m := by exact_mod_cast le_of_lt h
    simp only [h, decide_true, if_true]
    rw [absQ_eq, abs_le, max_eq_left h']
    have e : ((j : ℚ) + 1 / 2) * (n / m) - (s + 1 / 2) = ((2 * (j : ℚ) + 1) * n - (2 * s + 1) * m) / (2 * m) := by
      rw [eq_div_iff (by positivity)]
      field_simp
    rw [e, le_div_iff₀ (by positivity), div_le_iff₀ (by positivity)]
    constructor
    · rintro ⟨h1, h2⟩; exact ⟨by linarith, by linarith⟩
    · rintro ⟨h1, h2⟩; exact ⟨by linarith, by linarith⟩
  · have h' : (m : ℚ) ≤ n := by exact_mod_cast not_lt.1 h
    simp only [h, decide_false, if_false, Bool.false_eq_true]
    rw [absQ_eq, abs_le, max_eq_right h']
    have e : ((s : ℚ) + 1 / 2) / (n / m) - (j + 1 / 2) = ((2 * (s : ℚ) + 1) * m - (2 * j + 1) * n) / (2 * n) := by
      rw [eq_div_iff (by positivity)]
      field_simp
    rw [e, le_div_iff₀ (by positivity), div_le_iff₀ (by positivity)]
    constructor
    · rintro ⟨h1, h2⟩; exact ⟨by linarith, by linarith⟩
    · rintro ⟨h1, h2⟩; exact ⟨by linarith, by linarith⟩

theorem floor_le_of {x : ℚ} {s : ℤ} (h : x < s + 1) : x.floor ≤ s := by
  have h1 := floor_le' x
  have h2 : (x.floor : ℚ) < ((s + 1 : ℤ) : ℚ) := by push_cast; linarith
  have h3 := Int.cast_lt.1 h2
  omega

theorem le_ceil_of {x : ℚ} {s : ℤ} (h : (s : ℚ) - 1 < x) : s ≤ x.ceil := by
  rw [Rat.ceil_eq_neg_floor_neg]
  have := floor_le_of (x := -x) (s := -s) (by push_cast; linarith)
  omega

/-- Voxels that belong together are read. -/
theorem touches_read {flt : Filter} (hs : 1 / 2 ≤ flt.support) {n m j s : ℤ} (hn : 0 < n) (hm : 0 < m)
    (h0 : 0 ≤ s) (h1 : s < n) (h : touches n m j s) : s ∈ rangeOf flt n m j := by
  have hn' : (0 : ℚ) < n := by exact_mod_cast hn
  have hm' : (0 : ℚ) < m := by exact_mod_cast hm
  unfold rangeOf
  rw [mem_forRange]
  have key : (supportInterval (mid j) flt.support ((n : ℚ) / m) (decide (m > n))).1 ≤ s ∧
      s ≤ (supportInterval (mid j) flt.support ((n : ℚ) / m) (decide (m > n))).2 := by
    unfold supportInterval touches at *
    by_cases hmn : m > n
    · simp only [hmn, decide_true, if_true]
      rw [max_eq_left (le_of_lt hmn)] at h
      have g1 : (2 * (s : ℚ) + 1) * m - (2 * j + 1) * n ≤ m := by exact_mod_cast h.1
      have g2 : (2 * (j : ℚ) + 1) * n - (2 * s + 1) * m ≤ m := by exact_mod_cast h.2
      have e : mid j * ((n : ℚ) / m) = ((2 * (j : ℚ) + 1) * n) / (2 * m) := by
        unfold mid; rw [eq_div_iff (by positivity)]; field_simp
      rw [e]
      have a1 : ((2 * (j : ℚ) + 1) * n) / (2 * m) ≤ s + 1 := by rw [div_le_iff₀ (by positivity)]; linarith
      have a2 : (s : ℚ) ≤ ((2 * (j : ℚ) + 1) * n) / (2 * m) := by rw [le_div_iff₀ (by positivity)]; linarith
      refine ⟨floor_le_of (by linarith), ?_⟩
      have := le_ceil_of (s := s + 1) (x := ((2 * (j : ℚ) + 1) * n) / (2 * m) + flt.support) (by push_cast; linarith)
      omega
    · simp only [hmn, decide_false, if_false, Bool.false_eq_true]
      rw [max_eq_right (not_lt.1 hmn)] at h
      have g1 : (2 * (s : ℚ) + 1) * m - (2 * j + 1) * n ≤ n := by exact_mod_cast h.1
      have g2 : (2 * (j : ℚ) + 1) * n - (2 * s + 1) * m ≤ n := by exact_mod_cast h.2
      have hq : (0 : ℚ) < n / m := by positivity
      have b1 : (mid j - flt.support) * ((n : ℚ) / m) ≤ j * (n / m) := by
        apply mul_le_mul_of_nonneg_right _ (le_of_lt hq)
        unfold mid; linarith
      have b2 : ((j : ℚ) + 1) * (n / m) ≤ (mid j + flt.support) * ((n : ℚ) / m) := by
        apply mul_le_mul_of_nonneg_right _ (le_of_lt hq)
        unfold mid; linarith
      have c1 : (j : ℚ) * (n / m) ≤ s + 1 / 2 := by
        rw [← mul_div_assoc, div_le_iff₀ hm']; linarith
      have c2 : (s : ℚ) + 1 / 2 ≤ (j + 1) * (n / m) := by
        rw [← mul_div_assoc, le_div_iff₀ hm']; linarith
      exact ⟨floor_le_of (by linarith), le_ceil_of (by linarith)⟩
  exact ⟨max_le key.1 h0, le_min key.2 (by omega)⟩

/-- Each target voxel has a source voxel. -/
theorem touches_some {n m j : ℤ} (hn : 0 < n) (hm : 0 < m) (hj : 0 ≤ j) (hj' : j < m) :
    ∃ s, 0 ≤ s ∧ s < n ∧ touches n m j s := by
  have h2m : 0 < 2 * m := by omega
  have hA : 0 ≤ (2 * j + 1) * n := by positivity
  refine ⟨(2 * j + 1) * n / (2 * m), Int.ediv_nonneg hA (by omega), ?_, ?_⟩
  · rw [Int.ediv_lt_iff_lt_mul h2m]
    nlinarith
  · have e1 := Int.mul_ediv_add_emod ((2 * j + 1) * n) (2 * m)
    have e2 := Int.emod_nonneg ((2 * j + 1) * n) (ne_of_gt h2m)
    have e3 := Int.emod_lt_of_pos ((2 * j + 1) * n) h2m
    generalize (2 * j + 1) * n / (2 * m) = q at *
    have hmax := le_max_left m n
    have e4 : (2 * q + 1) * m = 2 * m * q + m := by ring
    unfold touches
    rw [e4]
    omega

/-- The source voxels that belong to a target voxel. -/
def cover (n m j : ℤ) : List ℤ := (forRange 0 (n - 1)).filter fun s => decide (touches n m j s)

theorem mem_cover {n m j s : ℤ} : s ∈ cover n m j ↔ 0 ≤ s ∧ s < n ∧ touches n m j s := by
  unfold cover
  rw [List.mem_filter, mem_forRange, decide_eq_true_eq]
  constructor
  · rintro ⟨⟨h1, h2⟩, h3⟩
    exact ⟨h1, by omega, h3⟩
  · rintro ⟨h1, h2, h3⟩
    exact ⟨⟨h1, by omega⟩, h3⟩

theorem cover_nodup (n m j : ℤ) : (cover n m j).Nodup := List.Pairwise.filter _ (forRange_nodup _ _)

theorem cover_ne {n m j : ℤ} (hn : 0 < n) (hm : 0 < m) (hj : 0 ≤ j) (hj' : j < m) : cover n m j ≠ [] := by
  obtain ⟨s, h1, h2, h3⟩ := touches_some hn hm hj hj'
  exact List.ne_nil_of_mem (mem_cover.2 ⟨h1, h2, h3⟩)

theorem range_mem {flt : Filter} {n m j s : ℤ} (h : s ∈ rangeOf flt n m j) : 0 ≤ s ∧ s < n := by
  unfold rangeOf at h
  rw [mem_forRange] at h
  have h1 := le_trans (le_max_right _ _) h.1
  have h2 := le_trans h.2 (min_le_right _ _)
  omega

/-! ## Box, min and max filters -/

theorem unit_weight {flt : Filter} (he : flt.eval = boxEval 1) {n m j s : ℤ} (hn : 0 < n) (hm : 0 < m) :
    weightOf flt n m j s = if touches n m j s then 1 else 0 := by
  unfold weightOf
  rw [he]
  unfold boxEval
  rw [div_one]
  simp only [dist_half hn hm]

theorem sum_filter (f : ℤ → ℚ) (P : ℤ → Prop) [DecidablePred P] : ∀ l : List ℤ,
    (l.map fun s => f s * (if P s then 1 else 0)).sum = ((l.filter fun s => decide (P s)).map f).sum
  | [] => rfl
  | a :: l => by
    rw [List.map_cons, List.sum_cons, sum_filter f P l, List.filter_cons]
    by_cases h : P a
    · simp [h]
    · simp [h]

theorem filter_range {flt : Filter} (hs : 1 / 2 ≤ flt.support) {n m j : ℤ} (hn : 0 < n) (hm : 0 < m) :
    ((rangeOf flt n m j).filter fun s => decide (touches n m j s)).Perm (cover n m j) := by
  have hnd : ((rangeOf flt n m j).filter fun s => decide (touches n m j s)).Nodup :=
    List.Pairwise.filter _ (forRange_nodup _ _)
  rw [List.perm_ext_iff_of_nodup hnd (cover_nodup _ _ _)]
  intro s
  rw [List.mem_filter, mem_cover, decide_eq_true_eq]
  constructor
  · rintro ⟨h1, h2⟩
    exact ⟨(range_mem h1).1, (range_mem h1).2, h2⟩
  · rintro ⟨h1, h2, h3⟩
    exact ⟨touches_read hs hn hm h1 h2 h3, h3⟩

theorem resAxis_box {n m : ℤ} (hn : 0 < n) (hm : 0 < m) (a : Axis) (v : V3i → ℚ) (p : V3i) :
    resAxis (boxFilter 1) n m a v p =
      ((cover n m (a.get p)).map fun s => v (a.set p s)).sum / (cover n m (a.get p)).length := by
  unfold resAxis
  have hs : 1 / 2 ≤ (boxFilter 1).support := by simp only [boxFilter]; norm_num
  have hp := filter_range (flt := boxFilter 1) hs (j := a.get p) hn hm
  have hop : (boxFilter 1).op = .weighted := rfl
  rw [hop]
  have ew : weightOf (boxFilter 1) n m (a.get p) = fun s => if touches n m (a.get p) s then 1 else 0 :=
    funext fun s => unit_weight (flt := boxFilter 1) rfl hn hm
  simp only [lineOf, ew]
  have e1 := sum_filter (fun _ => 1) (touches n m (a.get p)) (rangeOf (boxFilter 1) n m (a.get p))
  simp only [one_mul] at e1
  rw [e1, sum_filter (fun s => v (a.set p s)) (touches n m (a.get p)), (hp.map _).sum_eq, (hp.map _).sum_eq, sum_ones]
  split
  · rfl
  · rename_i h
    have : (cover n m (a.get p)).length = 0 := by
      by_contra h'
      apply h
      have : 0 < (cover n m (a.get p)).length := by omega
      exact_mod_cast this
    rw [List.length_eq_zero_iff.1 this]
    simp

theorem resAxis_min {n m : ℤ} (hn : 0 < n) (hm : 0 < m) (a : Axis) (v : V3i → ℚ) (p : V3i)
    (hne : cover n m (a.get p) ≠ []) (hv : ∀ s ∈ cover n m (a.get p), v (a.set p s) < floatMax) :
    IsMin (cover n m (a.get p)) (fun s => v (a.set p s)) (resAxis (minFilter 1) n m a v p) := by
  have hs : 1 / 2 ≤ (minFilter 1).support := by simp only [minFilter]; norm_num
  have hw : ∀ s, weightOf (minFilter 1) n m (a.get p) s > 0 ↔ touches n m (a.get p) s := fun s => by
    rw [unit_weight (flt := minFilter 1) rfl hn hm]
    split <;> simp_all
  have hr : ∀ s ∈ cover n m (a.get p), s ∈ rangeOf (minFilter 1) n m (a.get p) := fun s h =>
    touches_read hs hn hm (mem_cover.1 h).1 (mem_cover.1 h).2.1 (mem_cover.1 h).2.2
  obtain ⟨s, h⟩ := List.exists_mem_of_ne_nil _ hne
  obtain ⟨⟨t, ht, hwt, e⟩, h2⟩ := least_spec (i := floatMax) (weight := weightOf (minFilter 1) n m (a.get p))
    (v := fun s => v (a.set p s)) (l := rangeOf (minFilter 1) n m (a.get p))
    ⟨s, hr s h, (hw s).2 (mem_cover.1 h).2.2, hv s h⟩
  refine ⟨⟨t, mem_cover.2 ⟨(range_mem ht).1, (range_mem ht).2, (hw t).1 hwt⟩, e⟩, fun q hq => ?_⟩
  exact h2 q (hr q hq) ((hw q).2 (mem_cover.1 hq).2.2)

theorem resAxis_max {n m : ℤ} (hn : 0 < n) (hm : 0 < m) (a : Axis) (v : V3i → ℚ) (p : V3i)
    (hne : cover n m (a.get p) ≠ []) (hv : ∀ s ∈ cover n m (a.get p), -floatMax < v (a.set p s)) :
    IsMax (cover n m (a.get p)) (fun s => v (a.set p s)) (resAxis (maxFilter 1) n m a v p) := by
  have hs : 1 / 2 ≤ (maxFilter 1).support := by simp only [maxFilter]; norm_num
  have hw : ∀ s, weightOf (maxFilter 1) n m (a.get p) s > 0 ↔ touches n m (a.get p) s := fun s => by
    rw [unit_weight (flt := maxFilter 1) rfl hn hm]
    split <;> simp_all
  have hr : ∀ s ∈ cover n m (a.get p), s ∈ rangeOf (maxFilter 1) n m (a.get p) := fun s h =>
    touches_read hs hn hm (mem_cover.1 h).1 (mem_cover.1 h).2.1 (mem_cover.1 h).2.2
  obtain ⟨s, h⟩ := List.exists_mem_of_ne_nil _ hne
  obtain ⟨⟨t, ht, hwt, e⟩, h2⟩ := greatest_spec (i := -floatMax) (weight := weightOf (maxFilter 1) n m (a.get p))
    (v := fun s => v (a.set p s)) (l := rangeOf (maxFilter 1) n m (a.get p))
    ⟨s, hr s h, (hw s).2 (mem_cover.1 h).2.2, hv s h⟩
  refine ⟨⟨t, mem_cover.2 ⟨(range_mem ht).1, (range_mem ht).2, (hw t).1 hwt⟩, e⟩, fun q hq => ?_⟩
  exact h2 q (hr q hq) ((hw q).2 (mem_cover.1 hq).2.2)

/-! ## Three passes -/

/-- The source voxels that belong to a target voxel. -/
def covers (sres nres c : V3i) : List V3i := grid (cover sres.x nres.x c.x) (cover sres.y nres.y c.y) (cover sres.z nres.z c.z)

theorem mem_covers {sres nres c q : V3i} : q ∈ covers sres nres c ↔ (boxOf sres).contains q = true ∧
    touches sres.x nres.x c.x q.x ∧ touches sres.y nres.y c.y q.y ∧ touches sres.z nres.z c.z q.z := by
  rw [covers, mem_grid, mem_cover, mem_cover, mem_cover, boxOf_contains]
  tauto

theorem covers_nodup (sres nres c : V3i) : (covers sres nres c).Nodup :=
  grid_nodup (cover_nodup _ _ _) (cover_nodup _ _ _) (cover_nodup _ _ _)

theorem res_box {sres nres : V3i} (hs : 0 < sres.x ∧ 0 < sres.y ∧ 0 < sres.z)
    (hn : 0 < nres.x ∧ 0 < nres.y ∧ 0 < nres.z) (v : V3i → ℚ) (c : V3i) :
    resValues (boxFilter 1) sres nres v c = ((covers sres nres c).map v).sum / (covers sres nres c).length := by
  unfold resValues
  rw [resAxis_box hs.2.2 hn.2.2]
  simp only [resAxis_box hs.2.1 hn.2.1, resAxis_box hs.1 hn.1, Axis.get, Axis.set]
  rw [covers, sum_grid, length_grid]
  simp only [sum_div]
  push_cast
  rw [div_div, div_div]
  congr 1
  ring

theorem grid_min {X Y Z : List ℤ} {v : V3i → ℚ} {gx : ℤ → ℤ → ℚ} {gy : ℤ → ℚ} {m : ℚ}
    (hx : ∀ j ∈ Y, ∀ k ∈ Z, IsMin X (fun i => v ⟨i, j, k⟩) (gx j k)) (hy : ∀ k ∈ Z, IsMin Y (fun j => gx j k) (gy k))
    (hz : IsMin Z gy m) : IsMin (grid X Y Z) v m := by
  refine ⟨?_, fun q hq => ?_⟩
  · obtain ⟨⟨k, hk, e1⟩, _⟩ := hz
    obtain ⟨⟨j, hj, e2⟩, _⟩ := hy k hk
    obtain ⟨⟨i, hi, e3⟩, _⟩ := hx j hj k hk
    exact ⟨⟨i, j, k⟩, (mem_grid ..).2 ⟨hi, hj, hk⟩, e1.trans (e2.trans e3)⟩
  · rw [mem_grid] at hq
    exact le_trans (hz.2 q.z hq.2.2) (le_trans ((hy q.z hq.2.2).2 q.y hq.2.1) ((hx q.y hq.2.1 q.z hq.2.2).2 q.x hq.1))

theorem grid_max {X Y Z : List ℤ} {v : V3i → ℚ} {gx : ℤ → ℤ → ℚ} {gy : ℤ → ℚ} {m : ℚ}
    (hx : ∀ j ∈ Y, ∀ k ∈ Z, IsMax X (fun i => v ⟨i, j, k⟩) (gx j k)) (hy : ∀ k ∈ Z, IsMax Y (fun j => gx j k) (gy k))
    (hz : IsMax Z gy m) : IsMax (grid X Y Z) v m := by
  refine ⟨?_, fun q hq => ?_⟩
  · obtain ⟨⟨k, hk, e1⟩, _⟩ := hz
    obtain ⟨⟨j, hj, e2⟩, _⟩ := hy k hk
    obtain ⟨⟨i, hi, e3⟩, _⟩ := hx j hj k hk
    exact ⟨⟨i, j, k⟩, (mem_grid ..).2 ⟨hi, hj, hk⟩, e1.trans (e2.trans e3)⟩
  · rw [mem_grid] at hq
    exact le_trans ((hx q.y hq.2.1 q.z hq.2.2).2 q.x hq.1) (le_trans ((hy q.z hq.2.2).2 q.y hq.2.1) (hz.2 q.z hq.2.2))

theorem res_min {sres nres : V3i} (hs : 0 < sres.x ∧ 0 < sres.y ∧ 0 < sres.z)
    (hn : 0 < nres.x ∧ 0 < nres.y ∧ 0 < nres.z) (v : V3i → ℚ) (c : V3i) (hc : (boxOf nres).contains c = true)
    (hv : ∀ q ∈ covers sres nres c, v q < floatMax) :
    IsMin (covers sres nres c) v (resValues (minFilter 1) sres nres v c) := by
  rw [boxOf_contains] at hc
  have nx := cover_ne hs.1 hn.1 hc.1 hc.2.1
  have ny := cover_ne hs.2.1 hn.2.1 hc.2.2.1 hc.2.2.2.1
  have nz := cover_ne hs.2.2 hn.2.2 hc.2.2.2.2.1 hc.2.2.2.2.2
  have hx : ∀ j ∈ cover sres.y nres.y c.y, ∀ k ∈ cover sres.z nres.z c.z, IsMin (cover sres.x nres.x c.x)
      (fun i => v ⟨i, j, k⟩) (resAxis (minFilter 1) sres.x nres.x .x v ⟨c.x, j, k⟩) := fun j hj k hk =>
    resAxis_min hs.1 hn.1 .x v ⟨c.x, j, k⟩ nx fun i hi => hv _ ((mem_grid ..).2 ⟨hi, hj, hk⟩)
  have hy : ∀ k ∈ cover sres.z nres.z c.z, IsMin (cover sres.y nres.y c.y)
      (fun j => resAxis (minFilter 1) sres.x nres.x .x v ⟨c.x, j, k⟩)
      (resAxis (minFilter 1) sres.y nres.y .y (resAxis (minFilter 1) sres.x nres.x .x v) ⟨c.x, c.y, k⟩) := fun k hk =>
    resAxis_min hs.2.1 hn.2.1 .y _ ⟨c.x, c.y, k⟩ ny fun j hj => by
      obtain ⟨⟨i, hi, e⟩, _⟩ := hx j hj k hk
      exact lt_of_eq_of_lt e (hv _ ((mem_grid ..).2 ⟨hi, hj, hk⟩))
  refine grid_min hx hy ?_
  exact resAxis_min hs.2.2 hn.2.2 .z _ c nz fun k hk => by
    obtain ⟨⟨j, hj, e⟩, _⟩ := hy k hk
    obtain ⟨⟨i, hi, e'⟩, _⟩ := hx j hj k hk
    exact lt_of_eq_of_lt (e.trans e') (hv _ ((mem_grid ..).2 ⟨hi, hj, hk⟩))

theorem res_max {sres nres : V3i} (hs : 0 < sres.x ∧ 0 < sres.y ∧ 0 < sres.z)
    (hn : 0 < nres.x ∧ 0 < nres.y ∧ 0 < nres.z) (v : V3i → ℚ) (c : V3i) (hc : (boxOf nres).contains c = true)
    (hv : ∀ q ∈ covers sres nres c, -floatMax < v q) :
    IsMax (covers sres nres c) v (resValues (maxFilter 1) sres nres v c) := by
  rw [boxOf_contains] at hc
  have nx := cover_ne hs.1 hn.1 hc.1 hc.2.1
  have ny := cover_ne hs.2.1 hn.2.1 hc.2.2.1 hc.2.2.2.1
  have nz := cover_ne hs.2.2 hn.2.2 hc.2.2.2.2.1 hc.2.2.2.2.2
  have hx : ∀ j ∈ cover sres.y nres.y c.y, ∀ k ∈ cover sres.z nres.z c.z, IsMax (cover sres.x nres.x c.x)
      (fun i => v ⟨i, j, k⟩) (resAxis (maxFilter 1) sres.x nres.x .x v ⟨c.x, j, k⟩) := fun j hj k hk =>
    resAxis_max hs.1 hn.1 .x v ⟨c.x, j, k⟩ nx fun i hi => hv _ ((mem_grid ..).2 ⟨hi, hj, hk⟩)
  have hy : ∀ k ∈ cover sres.z nres.z c.z, IsMax (cover sres.y nres.y c.y)
      (fun j => resAxis (maxFilter 1) sres.x nres.x .x v ⟨c.x, j, k⟩)
      (resAxis (maxFilter 1) sres.y nres.y .y (resAxis (maxFilter 1) sres.x nres.x .x v) ⟨c.x, c.y, k⟩) := fun k hk =>
    resAxis_max hs.2.1 hn.2.1 .y _ ⟨c.x, c.y, k⟩ ny fun j hj => by
      obtain ⟨⟨i, hi, e⟩, _⟩ := hx j hj k hk
      exact lt_of_lt_of_eq (hv _ ((mem_grid ..).2 ⟨hi, hj, hk⟩)) e.symm
  refine grid_max hx hy ?_
  exact resAxis_max hs.2.2 hn.2.2 .z _ c nz fun k hk => by
    obtain ⟨⟨j, hj, e⟩, _⟩ := hy k hk
    obtain ⟨⟨i, hi, e'⟩, _⟩ := hx j hj k hk
    exact lt_of_lt_of_eq (hv _ ((mem_grid ..).2 ⟨hi, hj, hk⟩)) (e.trans e').symm

/-! ## Filters with non-negative weights -/

theorem dist_nonneg (n m j s : ℤ) : 0 ≤ getDist (decide (m > n)) (mid s) (mid j) ((n : ℚ) / m) := by
  unfold getDist
  split <;> (rw [absQ_eq]; positivity)

theorem resAxis_between {flt : Filter} (ho : flt.op = .weighted) (hs : 1 / 2 ≤ flt.support)
    (hnn : ∀ x, 0 ≤ x → 0 ≤ flt.eval x) (hq : ∀ x, 0 ≤ x → x ≤ 1 / 2 → 0 < flt.eval x) {n m : ℤ} (hn : 0 < n) (hm : 0 < m)
    (a : Axis) (v : V3i → ℚ) (p : V3i) (h0 : 0 ≤ a.get p) (h1 : a.get p < m) {lo hi : ℚ}
    (hv : ∀ s, 0 ≤ s → s < n → lo ≤ v (a.set p s) ∧ v (a.set p s) ≤ hi) :
    lo ≤ resAxis flt n m a v p ∧ resAxis flt n m a v p ≤ hi := by
  unfold resAxis
  rw [ho]
  apply weighted_between
  · intro s _; exact hnn _ (dist_nonneg _ _ _ _)
  · obtain ⟨s, g0, g1, g2⟩ := touches_some hn hm h0 h1
    exact ⟨s, touches_read hs hn hm g0 g1 g2, hq _ (dist_nonneg _ _ _ _) ((dist_half hn hm).2 g2)⟩
  · intro s h _
    exact hv s (range_mem h).1 (range_mem h).2

theorem res_between {flt : Filter} (ho : flt.op = .weighted) (hsup : 1 / 2 ≤ flt.support)
    (hnn : ∀ x, 0 ≤ x → 0 ≤ flt.eval x) (hq : ∀ x, 0 ≤ x → x ≤ 1 / 2 → 0 < flt.eval x)
    {sres nres : V3i} (hs : 0 < sres.x ∧ 0 < sres.y ∧ 0 < sres.z) (hn : 0 < nres.x ∧ 0 < nres.y ∧ 0 < nres.z)
    (v : V3i → ℚ) (c : V3i) (hc : (boxOf nres).contains c = true) {lo hi : ℚ}
    (hv : ∀ q, (boxOf sres).contains q = true → lo ≤ v q ∧ v q ≤ hi) :
    lo ≤ resValues flt sres nres v c ∧ resValues flt sres nres v c ≤ hi := by
  rw [boxOf_contains] at hc
  unfold resValues
  apply resAxis_between ho hsup hnn hq hs.2.2 hn.2.2 .z _ c hc.2.2.2.2.1 hc.2.2.2.2.2
  intro k hk1 hk2
  apply resAxis_between ho hsup hnn hq hs.2.1 hn.2.1 .y _ ⟨c.x, c.y, k⟩ hc.2.2.1 hc.2.2.2.1
  intro j hj1 hj2
  apply resAxis_between ho hsup hnn hq hs.1 hn.1 .x _ ⟨c.x, j, k⟩ hc.1 hc.2.1
  intro i hi1 hi2
  apply hv
  rw [boxOf_contains]
  exact ⟨hi1, hi2, hj1, hj2, hk1, hk2⟩

/-! ## The same resolution -/

theorem dist_same {n j s : ℤ} (hn : 0 < n) : getDist (decide (n > n)) (mid s) (mid j) ((n : ℚ) / n) = ((|s - j| : ℤ) : ℚ) := by
  have hn' : (n : ℚ) ≠ 0 := by have : (0 : ℚ) < n := by exact_mod_cast hn
                               exact ne_of_gt this
  have h : ¬ (n > n) := lt_irrefl n
  simp only [getDist, h, decide_false, Bool.false_eq_true, if_false]
  rw [div_self hn', div_one, absQ_eq]
  unfold mid
  push_cast
  congr 1
  ring

theorem sum_single (f : ℤ → ℚ) (j : ℤ) : ∀ l : List ℤ, l.Nodup → j ∈ l → (∀ s ∈ l, s ≠ j → f s = 0) → (l.map f).sum = f j
  | [], _, hj, _ => by cases hj
  | a :: l, hn, hj, h => by
    rw [List.nodup_cons] at hn
    rw [List.map_cons, List.sum_cons]
    by_cases ha : a = j
    · subst ha
      have : (l.map f).sum = 0 := by
        have e : l.map f = l.map fun _ => 0 := List.map_congr_left fun s hs =>
          h s (List.mem_cons_of_mem _ hs) fun e => hn.1 (e ▸ hs)
        rw [e]; simp
      rw [this]; ring
    · rw [h a (List.mem_cons_self ..) ha, zero_add]
      exact sum_single f j l hn.2 ((List.mem_cons.1 hj).resolve_left (Ne.symm ha)) fun s hs =>
        h s (List.mem_cons_of_mem _ hs)

theorem resAxis_same {flt : Filter} (hs : 1 / 2 ≤ flt.support) (h0 : 0 < flt.eval 0)
    (h1 : ∀ k : ℕ, 1 ≤ k → flt.eval k = 0) {n : ℤ} (hn : 0 < n) (a : Axis) (v : V3i → ℚ) (p : V3i)
    (hp : 0 ≤ a.get p) (hp' : a.get p < n)
    (hv : match flt.op with | .weighted => True | .least i => v p < i | .greatest i => i < v p) :
    resAxis flt n n a v p = v p := by
  have hw0 : weightOf flt n n (a.get p) (a.get p) = flt.eval 0 := by
    unfold weightOf; rw [dist_same hn]; simp
  have hw1 : ∀ s, s ≠ a.get p → weightOf flt n n (a.get p) s = 0 := fun s h => by
    unfold weightOf
    rw [dist_same hn]
    have := h1 (s - a.get p).natAbs (by omega)
    rw [← this]
    congr 1
    rw [Int.abs_eq_natAbs]
    simp
  have ht : touches n n (a.get p) (a.get p) := by
    unfold touches
    rw [max_self]
    omega
  have hr : a.get p ∈ rangeOf flt n n (a.get p) := touches_read hs hn hn hp hp' ht
  have hset : a.set p (a.get p) = p := by cases a <;> rfl
  unfold resAxis
  cases hop : flt.op with
  | weighted =>
    have e1 := sum_single (weightOf flt n n (a.get p)) (a.get p) (rangeOf flt n n (a.get p)) (forRange_nodup _ _) hr
      fun s _ h => hw1 s h
    have e2 := sum_single (fun s => v (a.set p s) * weightOf flt n n (a.get p) s) (a.get p) (rangeOf flt n n (a.get p))
      (forRange_nodup _ _) hr fun s _ h => by simp only [hw1 s h, mul_zero]
    simp only [lineOf]
    rw [e1, e2, hw0, if_pos h0, hset]
    field_simp
  | least i =>
    rw [hop] at hv
    obtain ⟨⟨t, _, hwt, e⟩, _⟩ := least_spec (i := i) (weight := weightOf flt n n (a.get p))
      (v := fun s => v (a.set p s)) (l := rangeOf flt n n (a.get p)) ⟨a.get p, hr, by rw [hw0]; exact h0, by simp only [hset]; exact hv⟩
    rw [e]
    have : t = a.get p := by
      by_contra hne
      rw [hw1 t hne] at hwt
      exact lt_irrefl _ hwt
    rw [this, hset]
  | greatest i =>
    rw [hop] at hv
    obtain ⟨⟨t, _, hwt, e⟩, _⟩ := greatest_spec (i := i) (weight := weightOf flt n n (a.get p))
      (v := fun s => v (a.set p s)) (l := rangeOf flt n n (a.get p)) ⟨a.get p, hr, by rw [hw0]; exact h0, by simp only [hset]; exact hv⟩
    rw [e]
    have : t = a.get p := by
      by_contra hne
      rw [hw1 t hne] at hwt
      exact lt_irrefl _ hwt
    rw [this, hset]

end Resample
end F3D
