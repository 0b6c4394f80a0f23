import Verif.Proofs.ResamplePass
import Verif.Props.Mip

/-!
# C53: resampling
-/

namespace F3D.Props
open F3D F3D.Resample

/-! ## Specification -/

/-- A field that `resample` accepts: the data window is the extents, begins at zero and has more than one voxel along each
axis. -/
structure ResampleSource (f : Dense ℚ) : Prop where
  wf : f.WF
  ext : f.extents = f.dw
  min : f.dw.min = V3i.all 0
  max : 0 < f.dw.max.x ∧ 0 < f.dw.max.y ∧ 0 < f.dw.max.z

/-- Voxel `s` of `n` voxels on the unit interval and voxel `j` of `m` voxels on the same interval: their centres differ by at
most half of the larger voxel. -/
def Together (n m s j : ℤ) : Prop := |((s : ℚ) + 1 / 2) / n - ((j : ℚ) + 1 / 2) / m| ≤ max (1 / (n : ℚ)) (1 / m) / 2

/-- The voxels of a source with the given number of voxels that belong to voxel `c` of the resampled field. -/
def Under (src : Dense ℚ) (newRes c q : V3i) : Prop :=
  src.dw.contains q = true ∧ Together (src.dw.max.x + 1) newRes.x q.x c.x ∧
    Together (src.dw.max.y + 1) newRes.y q.y c.y ∧ Together (src.dw.max.z + 1) newRes.z q.z c.z

/-! ## Lemmas -/

theorem together_iff {n m s j : ℤ} (hn : 0 < n) (hm : 0 < m) : Together n m s j ↔ touches n m j s := by
  have hn' : (0 : ℚ) < n := by exact_mod_cast hn
  have hm' : (0 : ℚ) < m := by exact_mod_cast hm
  have e : ((s : ℚ) + 1 / 2) / n - ((j : ℚ) + 1 / 2) / m = ((2 * (s : ℚ) + 1) * m - (2 * j + 1) * n) / (2 * (n * m)) := by
    field_simp
  have e2 : max (1 / (n : ℚ)) (1 / m) / 2 = max (m : ℚ) n / (2 * (n * m)) := by
    rcases le_total (m : ℚ) n with h | h
    · rw [max_eq_right h, max_eq_right (one_div_le_one_div_of_le hm' h)]
      field_simp
    · rw [max_eq_left h, max_eq_left (one_div_le_one_div_of_le hn' h)]
      field_simp
  unfold Together touches
  rw [e, e2, abs_div, abs_of_pos (show (0 : ℚ) < 2 * (n * m) by positivity), div_le_div_iff_of_pos_right (by positivity), abs_le]
  constructor
  · rintro ⟨h1, h2⟩
    have h3 : (2 * (j : ℚ) + 1) * n - (2 * s + 1) * m ≤ max (m : ℚ) n := by linarith
    exact ⟨by exact_mod_cast h2, by exact_mod_cast h3⟩
  · rintro ⟨h1, h2⟩
    have h3 : (2 * (j : ℚ) + 1) * n - (2 * s + 1) * m ≤ max (m : ℚ) n := by exact_mod_cast h2
    exact ⟨by linarith, by exact_mod_cast h1⟩

theorem source_holds {f : Dense ℚ} (h : ResampleSource f) {v : V3i → ℚ} (hv : Values f v) :
    f.dw = boxOf (f.dw.max + V3i.all 1) ∧ Holds f (f.dw.max + V3i.all 1) v := by
  have hm := h.min
  have e : f.dw = boxOf (f.dw.max + V3i.all 1) := by
    have : f.dw = ⟨f.dw.min, f.dw.max⟩ := rfl
    rw [this, hm]
    unfold boxOf
    congr 1
    apply V3i.ext' <;> simp [V3i.all]
  exact ⟨e, h.wf, h.ext.trans e, e, fun p hp => hv p (by rw [e]; exact hp)⟩

theorem resampled {f : Dense ℚ} (h : ResampleSource f) {v : V3i → ℚ} (hv : Values f v) (flt : Filter) {newRes : V3i}
    (hn : 0 < newRes.x ∧ 0 < newRes.y ∧ 0 < newRes.z) : ∃ g, resample flt f newRes = .ok (some g) ∧
    Holds g newRes (resValues flt (f.dw.max + V3i.all 1) newRes v) := by
  have hM := h.max
  refine resample_spec flt (source_holds h hv).2 ?_ newRes hn
  simp only [V3i.add_x, V3i.add_y, V3i.add_z, V3i.all]
  omega

theorem under_iff {f : Dense ℚ} (h : ResampleSource f) {newRes : V3i} (hn : 0 < newRes.x ∧ 0 < newRes.y ∧ 0 < newRes.z)
    (c q : V3i) : q ∈ covers (f.dw.max + V3i.all 1) newRes c ↔ Under f newRes c q := by
  have hM := h.max
  have e := (source_holds h (values_exist h.wf)).1
  rw [mem_covers, ← e]
  unfold Under
  rw [together_iff (by omega) hn.1, together_iff (by omega) hn.2.1, together_iff (by omega) hn.2.2]
  simp [V3i.all]

/-! ## C53 -/

/-- C53: for every filter the resampled field has the requested resolution, and no voxel outside the source is read. -/
theorem C53_defined (flt : Filter) (f : Dense ℚ) (h : ResampleSource f) (newRes : V3i)
    (hn : 0 < newRes.x ∧ 0 < newRes.y ∧ 0 < newRes.z) :
    ∃ g, resample flt f newRes = .ok (some g) ∧ g.WF ∧ g.extents = g.dw ∧ g.dw.min = V3i.all 0 ∧
      g.dw.max = newRes - V3i.all 1 := by
  obtain ⟨g, e, hg⟩ := resampled h (values_exist h.wf) flt hn
  exact ⟨g, e, hg.wf, hg.ext.trans hg.dw.symm, by rw [hg.dw]; rfl, by rw [hg.dw]; rfl⟩

/-- C53: a field with a single voxel along an axis, or whose data window does not begin at zero, is refused. -/
theorem C53_refused (flt : Filter) (f : Dense ℚ) (newRes : V3i)
    (h : (f.dw.max.x ≤ f.dw.min.x ∨ f.dw.max.y ≤ f.dw.min.y ∨ f.dw.max.z ≤ f.dw.min.z) ∨ f.dw.min ≠ V3i.all 0) :
    resample flt f newRes = .ok none := by
  unfold resample
  split
  · rfl
  · rename_i hv
    rcases h with h | h
    · exfalso
      simp only [hasVolume, Bool.not_eq_false, Bool.and_eq_true, decide_eq_true_eq] at hv
      omega
    · rw [if_pos h]

/-- C53: the box filter gives each voxel the average of the source voxels under it. -/
theorem C53_box_mean (f : Dense ℚ) (h : ResampleSource f) (newRes : V3i)
    (hn : 0 < newRes.x ∧ 0 < newRes.y ∧ 0 < newRes.z) (v : V3i → ℚ) (hv : Values f v) (g : Dense ℚ)
    (hg : resample (boxFilter 1) f newRes = .ok (some g)) (c : V3i) (hc : g.dw.contains c = true) (under : List V3i)
    (hnd : under.Nodup) (hu : ∀ q, q ∈ under ↔ Under f newRes c q) :
    under ≠ [] ∧ g.value c = some ((under.map v).sum / under.length) := by
  have hM := h.max
  obtain ⟨g', e, hh⟩ := resampled h hv (boxFilter 1) hn
  rw [hg] at e
  injection e with e
  injection e with e
  subst e
  rw [hh.dw] at hc
  have hp : (covers (f.dw.max + V3i.all 1) newRes c).Perm under := by
    rw [List.perm_ext_iff_of_nodup (covers_nodup _ _ _) hnd]
    intro q
    rw [under_iff h hn, hu]
  have hs : 0 < (f.dw.max + V3i.all 1).x ∧ 0 < (f.dw.max + V3i.all 1).y ∧ 0 < (f.dw.max + V3i.all 1).z := by
    simp only [V3i.add_x, V3i.add_y, V3i.add_z, V3i.all]; omega
  constructor
  · intro hnil
    rw [hnil] at hp
    have hc' := hc
    rw [boxOf_contains] at hc'
    obtain ⟨i, hi⟩ := List.exists_mem_of_ne_nil _ (cover_ne hs.1 hn.1 hc'.1 hc'.2.1)
    obtain ⟨j, hj⟩ := List.exists_mem_of_ne_nil _ (cover_ne hs.2.1 hn.2.1 hc'.2.2.1 hc'.2.2.2.1)
    obtain ⟨k, hk⟩ := List.exists_mem_of_ne_nil _ (cover_ne hs.2.2 hn.2.2 hc'.2.2.2.2.1 hc'.2.2.2.2.2)
    have : (⟨i, j, k⟩ : V3i) ∈ covers (f.dw.max + V3i.all 1) newRes c := (mem_grid ..).2 ⟨hi, hj, hk⟩
    rw [hp.eq_nil] at this
    cases this
  · rw [hh.val c hc, res_box hs hn, (hp.map _).sum_eq, hp.length_eq]

/-- C53: the min filter gives each voxel the least of the source voxels under it. -/
theorem C53_min_least (f : Dense ℚ) (h : ResampleSource f) (newRes : V3i)
    (hn : 0 < newRes.x ∧ 0 < newRes.y ∧ 0 < newRes.z) (v : V3i → ℚ) (hv : Values f v)
    (hlt : ∀ q, f.dw.contains q = true → v q < floatMax) (g : Dense ℚ)
    (hg : resample (minFilter 1) f newRes = .ok (some g)) (c : V3i) (hc : g.dw.contains c = true) :
    ∃ m, g.value c = some m ∧ (∃ q, Under f newRes c q ∧ m = v q) ∧ ∀ q, Under f newRes c q → m ≤ v q := by
  have hM := h.max
  obtain ⟨g', e, hh⟩ := resampled h hv (minFilter 1) hn
  rw [hg] at e
  injection e with e
  injection e with e
  subst e
  rw [hh.dw] at hc
  obtain ⟨⟨q, hq, e⟩, h2⟩ := res_min (sres := f.dw.max + V3i.all 1)
    (by simp only [V3i.add_x, V3i.add_y, V3i.add_z, V3i.all]; omega) hn v c hc
    fun q hq => hlt q ((under_iff h hn c q).1 hq).1
  exact ⟨_, hh.val c hc, ⟨q, (under_iff h hn c q).1 hq, e⟩, fun q hq => h2 q ((under_iff h hn c q).2 hq)⟩

/-- C53: the max filter gives each voxel the greatest of the source voxels under it. -/
theorem C53_max_greatest (f : Dense ℚ) (h : ResampleSource f) (newRes : V3i)
    (hn : 0 < newRes.x ∧ 0 < newRes.y ∧ 0 < newRes.z) (v : V3i → ℚ) (hv : Values f v)
    (hlt : ∀ q, f.dw.contains q = true → -floatMax < v q) (g : Dense ℚ)
    (hg : resample (maxFilter 1) f newRes = .ok (some g)) (c : V3i) (hc : g.dw.contains c = true) :
    ∃ m, g.value c = some m ∧ (∃ q, Under f newRes c q ∧ m = v q) ∧ ∀ q, Under f newRes c q → v q ≤ m := by
  have hM := h.max
  obtain ⟨g', e, hh⟩ := resampled h hv (maxFilter 1) hn
  rw [hg] at e
  injection e with e
  injection e with e
  subst e
  rw [hh.dw] at hc
  obtain ⟨⟨q, hq, e⟩, h2⟩ := res_max (sres := f.dw.max + V3i.all 1)
    (by simp only [V3i.add_x, V3i.add_y, V3i.add_z, V3i.all]; omega) hn v c hc
    fun q hq => hlt q ((under_iff h hn c q).1 hq).1
  exact ⟨_, hh.val c hc, ⟨q, (under_iff h hn c q).1 hq, e⟩, fun q hq => h2 q ((under_iff h hn c q).2 hq)⟩

/-- A filter whose weights are not negative, and positive within half a voxel of the centre. -/
structure AveragingHalf (flt : Filter) : Prop where
  op : flt.op = .weighted
  support : 1 / 2 ≤ flt.support
  nonneg : ∀ x, 0 ≤ x → 0 ≤ flt.eval x
  half : ∀ x, 0 ≤ x → x ≤ 1 / 2 → 0 < flt.eval x

/-- C53: a filter without negative weights stays within the range of the source. -/
theorem C53_within (flt : Filter) (ha : AveragingHalf flt) (f : Dense ℚ) (h : ResampleSource f) (newRes : V3i)
    (hn : 0 < newRes.x ∧ 0 < newRes.y ∧ 0 < newRes.z) (v : V3i → ℚ) (hv : Values f v) (lo hi : ℚ)
    (hb : ∀ q, f.dw.contains q = true → lo ≤ v q ∧ v q ≤ hi) (g : Dense ℚ)
    (hg : resample flt f newRes = .ok (some g)) (c : V3i) (hc : g.dw.contains c = true) :
    ∃ m, g.value c = some m ∧ lo ≤ m ∧ m ≤ hi := by
  have hM := h.max
  obtain ⟨g', e, hh⟩ := resampled h hv flt hn
  rw [hg] at e
  injection e with e
  injection e with e
  subst e
  rw [hh.dw] at hc
  refine ⟨_, hh.val c hc, ?_⟩
  refine res_between ha.op ha.support ha.nonneg ha.half ?_ hn v c hc fun q hq => hb q ?_
  · simp only [V3i.add_x, V3i.add_y, V3i.add_z, V3i.all]; omega
  · rw [(source_holds h hv).1]; exact hq

/-- C53: a constant field stays constant. -/
theorem C53_constant (flt : Filter) (ha : AveragingHalf flt) (f : Dense ℚ) (h : ResampleSource f) (newRes : V3i)
    (hn : 0 < newRes.x ∧ 0 < newRes.y ∧ 0 < newRes.z) (k : ℚ) (hv : Values f fun _ => k) (g : Dense ℚ)
    (hg : resample flt f newRes = .ok (some g)) (c : V3i) (hc : g.dw.contains c = true) : g.value c = some k := by
  obtain ⟨m, e, h1, h2⟩ := C53_within flt ha f h newRes hn _ hv k k (fun _ _ => ⟨le_refl _, le_refl _⟩) g hg c hc
  rw [e, le_antisymm h2 h1]

/-- The box filter of width one, the triangle filter wider than half a voxel and a Gaussian that is positive near its
centre are such filters. -/
theorem box_averagingHalf : AveragingHalf (boxFilter 1) := by
  refine ⟨rfl, by show (1 : ℚ) / 2 ≤ 1 / 2 * 1; norm_num, fun x _ => ?_, fun x _ h => ?_⟩
  · show 0 ≤ boxEval 1 x
    unfold boxEval; split <;> norm_num
  · show 0 < boxEval 1 x
    unfold boxEval
    rw [if_pos (by rw [div_one]; exact h)]; norm_num

theorem triangle_averagingHalf {w : ℚ} (hw : 1 / 2 < w) : AveragingHalf (triangleFilter w) := by
  have hp : 0 < w := by linarith
  refine ⟨rfl, by show (1 : ℚ) / 2 ≤ 1 * w; linarith, fun x _ => ?_, fun x _ h => ?_⟩
  · show 0 ≤ if x / w > 1 then 0 else 1 - x / w
    split <;> linarith
  · show 0 < if x / w > 1 then 0 else 1 - x / w
    have : x / w < 1 := by rw [div_lt_iff₀ hp]; linarith
    rw [if_neg (by linarith)]; linarith

theorem gaussian_averagingHalf {w : ℚ} (hw : 1 / 4 ≤ w) (g : ℚ → ℚ) (h0 : ∀ x, 0 ≤ g x)
    (h1 : ∀ x, 0 ≤ x → x ≤ 1 / 2 → 0 < g x) : AveragingHalf (gaussianFilter w g) :=
  ⟨rfl, by show (1 : ℚ) / 2 ≤ 2 * w; linarith, fun x _ => h0 x, h1⟩

/-- C53: resampling to the same resolution changes nothing, for a filter that is zero at whole distances from its centre
(box, triangle, min and max filters of width one); for a min or max filter no voxel may have the filter's initial value. -/
theorem C53_identity (flt : Filter) (hs : 1 / 2 ≤ flt.support) (h0 : 0 < flt.eval 0)
    (h1 : ∀ k : ℕ, 1 ≤ k → flt.eval k = 0) (f : Dense ℚ) (h : ResampleSource f) (v : V3i → ℚ) (hv : Values f v)
    (hi : ∀ q, f.dw.contains q = true →
      match flt.op with | .weighted => True | .least i => v q < i | .greatest i => i < v q) :
    ∃ g, resample flt f (f.dw.max + V3i.all 1) = .ok (some g) ∧ g.dw = f.dw ∧ g.extents = f.extents ∧
      ∀ c, f.dw.contains c = true → g.value c = some (v c) := by
  have hM := h.max
  have hn : 0 < (f.dw.max + V3i.all 1).x ∧ 0 < (f.dw.max + V3i.all 1).y ∧ 0 < (f.dw.max + V3i.all 1).z := by
    simp only [V3i.add_x, V3i.add_y, V3i.add_z, V3i.all]; omega
  have hf := source_holds h hv
  obtain ⟨g, e, hh⟩ := resampled h hv flt hn
  refine ⟨g, e, hh.dw.trans hf.1.symm, hh.ext.trans hf.2.ext.symm, fun c hc => ?_⟩
  have hv' := hi c hc
  rw [hf.1] at hc
  rw [hh.val c hc]
  rw [boxOf_contains] at hc
  unfold resValues
  have e1 := resAxis_same hs h0 h1 hn.1 .x v c hc.1 hc.2.1 hv'
  have e2 := resAxis_same hs h0 h1 hn.2.1 .y (resAxis flt _ _ .x v) c hc.2.2.1 hc.2.2.2.1 (by rw [e1]; exact hv')
  have e3 := resAxis_same hs h0 h1 hn.2.2 .z (resAxis flt _ _ .y (resAxis flt _ _ .x v)) c hc.2.2.2.2.1 hc.2.2.2.2.2
    (by rw [e2, e1]; exact hv')
  rw [e3, e2, e1]

/-- These filters are zero at whole distances. -/
theorem whole_distances (flt : Filter)
    (h : flt = boxFilter 1 ∨ flt = minFilter 1 ∨ flt = maxFilter 1 ∨ flt = triangleFilter 1) :
    1 / 2 ≤ flt.support ∧ 0 < flt.eval 0 ∧ ∀ k : ℕ, 1 ≤ k → flt.eval k = 0 := by
  have hbox : 0 < boxEval 1 0 ∧ ∀ k : ℕ, 1 ≤ k → boxEval 1 (k : ℚ) = 0 := by
    refine ⟨by decide +kernel, fun k hk => ?_⟩
    have : (1 : ℚ) ≤ k := by exact_mod_cast hk
    unfold boxEval
    rw [if_neg (by rw [div_one]; linarith)]
  rcases h with rfl | rfl | rfl | rfl
  · exact ⟨by decide +kernel, hbox⟩
  · exact ⟨by decide +kernel, hbox⟩
  · exact ⟨by decide +kernel, hbox⟩
  · refine ⟨by decide +kernel, by decide +kernel, fun k hk => ?_⟩
    have : (1 : ℚ) ≤ k := by exact_mod_cast hk
    show (if (k : ℚ) / 1 > 1 then 0 else 1 - (k : ℚ) / 1) = 0
    split
    · rfl
    · rename_i h
      rw [div_one] at h ⊢
      linarith

/-! The hypotheses are met. -/

theorem cube_source (n : ℕ) (hn : 1 < n) (f : Dense ℚ)
    (h : Dense.setSize (0 : ℚ) (boxOf (V3i.all n)) (boxOf (V3i.all n)) = .ok f) : ResampleSource f := by
  have hne : (boxOf (V3i.all n)).isEmpty = false := boxOf_ne (by simp only [V3i.all]; omega)
  obtain ⟨g, e, wf, ed, ee, _⟩ := Dense.setSize_ok (dflt := (0 : ℚ)) (e := boxOf (V3i.all n)) hne
  rw [h] at e
  injection e with e
  subst e
  refine ⟨wf, ee.trans ed.symm, by rw [ed]; rfl, ?_⟩
  rw [ed]
  simp only [boxOf, V3i.sub_x, V3i.sub_y, V3i.sub_z, V3i.all]
  omega

example : ∃ f, Dense.setSize (0 : ℚ) (boxOf (V3i.all (5 : ℕ))) (boxOf (V3i.all (5 : ℕ))) = .ok f ∧ ResampleSource f := by
  obtain ⟨f, e, _⟩ := Dense.setSize_ok (dflt := (0 : ℚ)) (e := boxOf (V3i.all (5 : ℕ)))
    (dw := boxOf (V3i.all (5 : ℕ))) (by decide)
  exact ⟨f, e, cube_source 5 (by omega) f e⟩

/-- From five voxels to three: voxel 0 takes in source voxels 0 and 1, voxel 1 source voxel 2. -/
example : cover 5 3 0 = [0, 1] ∧ cover 5 3 1 = [2] ∧ cover 5 3 2 = [3, 4] ∧ cover 3 5 0 = [0] ∧ cover 2 4 1 = [0] := by
  decide +kernel

end F3D.Props
