import Verif.Model.MinMax
import Verif.Props.Resample
import Verif.Props.MipMapping

/-!
# C74: the min and max fields of a field
-/

namespace F3D.Props
open F3D F3D.Resample F3D.MinMax

/-! ## Specification -/

/-- `N` voxels and `n` voxels fill the same interval. Voxel `c` of level `l` over the `n` voxels is `2^l` of them wide. The
centre of voxel `q` of the `N` lies in it. -/
def CentreIn1 (N n : ℤ) (l : ℕ) (c q : ℤ) : Prop :=
  (c * 2 ^ l : ℚ) / n ≤ ((q : ℚ) + 1 / 2) / N ∧ ((q : ℚ) + 1 / 2) / N ≤ ((c + 1) * 2 ^ l : ℚ) / n

/-- The same along each axis. -/
def CentreIn (N n : V3i) (l : ℕ) (c q : V3i) : Prop :=
  CentreIn1 N.x n.x l c.x q.x ∧ CentreIn1 N.y n.y l c.y q.y ∧ CentreIn1 N.z n.z l c.z q.z

/-- The number of voxels of a field. -/
def count (f : Dense ℚ) : V3i := f.dw.max - f.dw.min + V3i.all 1

/-- A field with two to `2^24` voxels along each axis, that begins at zero. -/
structure MinMaxBase (f : Dense ℚ) : Prop where
  wf : f.WF
  ext : f.extents = f.dw
  min : f.dw.min = V3i.all 0
  lower : 0 < f.dw.max.x ∧ 0 < f.dw.max.y ∧ 0 < f.dw.max.z
  upper : f.dw.max.x < 2 ^ 24 ∧ f.dw.max.y < 2 ^ 24 ∧ f.dw.max.z < 2 ^ 24

/-- The resolution asked for: a part of that of the base, but at least 2. -/
def wanted (N : ℤ) (part : ℚ) : ℤ := max (N * min 1 part).floor 2

/-! ## Lemmas -/

theorem res1_eq {N : ℤ} (h0 : 0 ≤ N) (h1 : N ≤ 2 ^ 24) (part : ℚ) : res1 N part = wanted N part := by
  obtain ⟨m, rfl⟩ := Int.eq_ofNat_of_zero_le h0
  unfold res1 wanted
  rw [Int.toNat_natCast, toFloat32_id (by omega)]
  rw [Int.cast_natCast]
  generalize (m : ℚ) * min 1 part = x
  unfold Cont.trunc
  split
  · rfl
  · rename_i hx
    have h1 : x.floor < 0 := by
      rw [show x.floor = ⌊x⌋ from rfl, Int.floor_lt]; push_cast; linarith
    have h2 : 0 ≤ (-x).floor := by
      rw [show (-x).floor = ⌊-x⌋ from rfl, Int.le_floor]; push_cast; linarith
    omega

theorem wanted_bounds {N : ℤ} (h : 2 ≤ N) (part : ℚ) : 2 ≤ wanted N part ∧ wanted N part ≤ N := by
  have hN : (0 : ℚ) ≤ N := by exact_mod_cast (by omega : (0 : ℤ) ≤ N)
  have h1 : (N * min 1 part).floor ≤ N := by
    have h2 : ((N * min 1 part).floor : ℚ) ≤ N := le_trans (Rat.floor_le _) (by
      have := mul_le_mul_of_nonneg_left (min_le_left 1 part) hN
      linarith)
    exact_mod_cast h2
  unfold wanted
  omega

theorem together_down {N n q c0 : ℤ} (hn : 0 < n) (hN : n ≤ N) :
    Together N n q c0 ↔ (c0 : ℚ) ≤ ((q : ℚ) + 1 / 2) * n / N ∧ ((q : ℚ) + 1 / 2) * n / N ≤ c0 + 1 := by
  have hn' : (0 : ℚ) < n := by exact_mod_cast hn
  have hN' : (n : ℚ) ≤ N := by exact_mod_cast hN
  have hN0 : (0 : ℚ) < N := by linarith
  unfold Together
  rw [max_eq_right (one_div_le_one_div_of_le hn' hN'), abs_le]
  have e : ((q : ℚ) + 1 / 2) * n / N = ((q : ℚ) + 1 / 2) / N * n := by ring
  rw [e]
  generalize ((q : ℚ) + 1 / 2) / N = x
  have e1 : ((c0 : ℚ) + 1 / 2) / n - 1 / n / 2 = c0 / n := by ring
  have e2 : ((c0 : ℚ) + 1 / 2) / n + 1 / n / 2 = (c0 + 1) / n := by ring
  rw [← div_le_iff₀ hn', ← le_div_iff₀ hn', ← e1, ← e2]
  constructor
  · rintro ⟨h1, h2⟩; exact ⟨by linarith, by linarith⟩
  · rintro ⟨h1, h2⟩; exact ⟨by linarith, by linarith⟩

theorem centre1_iff {N n q : ℤ} (hn : 0 < n) (hN : n ≤ N) (h0 : 0 ≤ q) (h1 : q < N) (l : ℕ) (c : ℤ) :
    CentreIn1 N n l c q ↔ ∃ c0, 0 ≤ c0 ∧ c0 < n ∧ c0 / 2 ^ l = c ∧ Together N n q c0 := by
  have hn' : (0 : ℚ) < n := by exact_mod_cast hn
  have hN0 : (0 : ℚ) < N := by exact_mod_cast (lt_of_lt_of_le hn hN)
  have hq0 : (0 : ℚ) ≤ q := by exact_mod_cast h0
  have hq1 : (q : ℚ) + 1 ≤ N := by exact_mod_cast h1
  have hp : (0 : ℤ) < 2 ^ l := by positivity
  have e : CentreIn1 N n l c q ↔ ((c * 2 ^ l : ℤ) : ℚ) ≤ ((q : ℚ) + 1 / 2) * n / N ∧
      ((q : ℚ) + 1 / 2) * n / N ≤ (((c + 1) * 2 ^ l : ℤ) : ℚ) := by
    unfold CentreIn1
    rw [show ((q : ℚ) + 1 / 2) * n / N = ((q : ℚ) + 1 / 2) / N * n by ring, div_le_iff₀ hn', le_div_iff₀ hn']
    push_cast
    rfl
  rw [e]
  simp only [together_down hn hN]
  have x0 : 0 < ((q : ℚ) + 1 / 2) * n / N := by positivity
  have x1 : ((q : ℚ) + 1 / 2) * n / N < n := by rw [div_lt_iff₀ hN0]; nlinarith
  generalize ((q : ℚ) + 1 / 2) * n / N = x at *
  have dv : ∀ c0 : ℤ, c0 / 2 ^ l = c ↔ c * 2 ^ l ≤ c0 ∧ c0 < (c + 1) * 2 ^ l := fun c0 => by
    constructor
    · rintro rfl
      exact ⟨Int.ediv_mul_le _ hp.ne', Int.lt_ediv_add_one_mul_self _ hp⟩
    · rintro ⟨a, b⟩
      exact le_antisymm (Int.lt_add_one_iff.1 (Int.ediv_lt_of_lt_mul hp b)) ((Int.le_ediv_iff_mul_le hp).2 a)
  simp only [dv]
  have hab : c * 2 ^ l + 1 ≤ (c + 1) * 2 ^ l := by rw [add_mul, one_mul]; omega
  generalize c * 2 ^ l = a at *
  generalize (c + 1) * 2 ^ l = b at *
  constructor
  · rintro ⟨ha, hb⟩
    rcases lt_or_eq_of_le hb with hlt | heq
    · exact ⟨⌊x⌋, Int.floor_nonneg.2 x0.le, Int.floor_lt.2 x1, ⟨Int.le_floor.2 ha, Int.floor_lt.2 hlt⟩, Int.floor_le x,
        (Int.lt_floor_add_one x).le⟩
    · rw [heq] at x0 x1 ha
      have b0 : 0 < b := by exact_mod_cast x0
      have b1 : b < n := by exact_mod_cast x1
      rw [heq]
      refine ⟨b - 1, by omega, by omega, ⟨by omega, by omega⟩, ?_, ?_⟩ <;> push_cast <;> linarith
  · rintro ⟨c0, -, -, ⟨h3, h4⟩, h5, h6⟩
    have h3' : (a : ℚ) ≤ c0 := by exact_mod_cast h3
    have h4' : (c0 : ℚ) + 1 ≤ b := by exact_mod_cast h4
    exact ⟨by linarith, by linarith⟩

theorem base_source {f : Dense ℚ} (h : MinMaxBase f) : ResampleSource f := ⟨h.wf, h.ext, h.min, h.lower⟩

theorem count_eq {f : Dense ℚ} (h : MinMaxBase f) : count f = f.dw.max + V3i.all 1 := by
  unfold count
  rw [h.min]
  apply V3i.ext' <;> simp [V3i.all]

theorem resOf_eq {f : Dense ℚ} (h : MinMaxBase f) (part : ℚ) : resOf (f.dw.size + V3i.all 1) part =
    ⟨wanted (count f).x part, wanted (count f).y part, wanted (count f).z part⟩ := by
  have e : f.dw.size + V3i.all 1 = count f := by rw [Dense.size_of_ne h.wf.ne]; rfl
  have hl := h.lower
  have hu := h.upper
  rw [e]
  unfold resOf
  rw [count_eq h, res1_eq, res1_eq, res1_eq] <;> simp only [V3i.add_x, V3i.add_y, V3i.add_z, V3i.all] <;> omega

/-- The resolution of level 0 of the min and max fields. -/
def resolution (f : Dense ℚ) (part : ℚ) : V3i :=
  ⟨wanted (count f).x part, wanted (count f).y part, wanted (count f).z part⟩

theorem resolution_bounds {f : Dense ℚ} (h : MinMaxBase f) (part : ℚ) :
    (2 ≤ (resolution f part).x ∧ (resolution f part).x ≤ (count f).x) ∧
    (2 ≤ (resolution f part).y ∧ (resolution f part).y ≤ (count f).y) ∧
    (2 ≤ (resolution f part).z ∧ (resolution f part).z ≤ (count f).z) := by
  have hl := h.lower
  rw [count_eq h] at *
  unfold resolution
  rw [count_eq h]
  simp only [V3i.add_x, V3i.add_y, V3i.add_z, V3i.all]
  exact ⟨wanted_bounds (by omega) part, wanted_bounds (by omega) part, wanted_bounds (by omega) part⟩

theorem under_centre {f : Dense ℚ} (h : MinMaxBase f) (part : ℚ) (l : ℕ) (c q : V3i) (hq : f.dw.contains q = true) :
    CentreIn (count f) (resolution f part) l c q ↔ ∃ c0, (boxOf (resolution f part)).contains c0 = true ∧ over l c0 = c ∧
      Under f (resolution f part) c0 q := by
  obtain ⟨⟨a1, a2⟩, ⟨b1, b2⟩, d1, d2⟩ := resolution_bounds h part
  have hq' := hq
  rw [(source_holds (base_source h) (values_exist h.wf)).1, ← count_eq h, boxOf_contains] at hq'
  obtain ⟨x0, x1, y0, y1, z0, z1⟩ := hq'
  unfold CentreIn Under
  have ec : f.dw.max.x + 1 = (count f).x ∧ f.dw.max.y + 1 = (count f).y ∧ f.dw.max.z + 1 = (count f).z := by
    rw [count_eq h]; exact ⟨rfl, rfl, rfl⟩
  rw [ec.1, ec.2.1, ec.2.2, centre1_iff (by omega) a2 x0 x1, centre1_iff (by omega) b2 y0 y1, centre1_iff (by omega) d2 z0 z1]
  simp only [boxOf_contains, hq, true_and]
  constructor
  · rintro ⟨⟨cx, p1, p2, p3, p4⟩, ⟨cy, q1, q2, q3, q4⟩, cz, r1, r2, r3, r4⟩
    exact ⟨⟨cx, cy, cz⟩, ⟨p1, p2, q1, q2, r1, r2⟩, V3i.ext' p3 q3 r3, p4, q4, r4⟩
  · rintro ⟨c0, ⟨p1, p2, q1, q2, r1, r2⟩, rfl, p4, q4, r4⟩
    exact ⟨⟨_, p1, p2, rfl, p4⟩, ⟨_, q1, q2, rfl, q4⟩, _, r1, r2, rfl, r4⟩

theorem resampled_base {f g : Dense ℚ} (h : MinMaxBase f) {part : ℚ} {flt : Filter}
    (hg : resample flt f (resolution f part) = .ok (some g)) : MipBase g ∧ g.dw = boxOf (resolution f part) := by
  obtain ⟨⟨a1, a2⟩, ⟨b1, b2⟩, d1, d2⟩ := resolution_bounds h part
  obtain ⟨g', e, w1, w2, w3, w4⟩ := C53_defined flt f (base_source h) (resolution f part) (by omega)
  rw [hg] at e
  injection e with e
  injection e with e
  subst e
  have hu := h.upper
  refine ⟨⟨w1, w2, w3, ?_⟩, ?_⟩
  · rw [count_eq h] at a2 b2 d2
    rw [w4]
    simp only [V3i.add_x, V3i.add_y, V3i.add_z, V3i.sub_x, V3i.sub_y, V3i.sub_z, V3i.all] at *
    omega
  · have : g.dw = ⟨g.dw.min, g.dw.max⟩ := rfl
    rw [this, w3, w4]; rfl

/-- What `makeOne` gives, for a filter that makes a relation between voxels and what is under them. -/
theorem makeOne_ok (flt : Filter) {f : Dense ℚ} (h : MinMaxBase f) (part : ℚ) (fuel : ℕ) (hf : f.dw.max.x + 1 ≤ fuel) :
    ∃ g levels, resample flt f (resolution f part) = .ok (some g) ∧ makeMIP flt g 2 (V3i.all 0) fuel = .ok levels ∧
      makeOne flt f part fuel = .ok levels ∧ levels ≠ [] ∧
      (∀ (l : ℕ) (k : Dense ℚ), levels[l]? = some k → k.WF ∧ k.extents = k.dw ∧
        ∀ c, k.dw.contains c = true ↔ ∃ c0, (boxOf (resolution f part)).contains c0 = true ∧ over l c0 = c) := by
  have hb := resolution_bounds h part
  obtain ⟨g, e, _⟩ := C53_defined flt f (base_source h) (resolution f part) (by omega)
  obtain ⟨hg, hd⟩ := resampled_base h e
  obtain ⟨levels, hm, h0, hall, _⟩ := C49_levels flt g hg 2 fuel (by
    rw [hd]
    rw [count_eq h] at hb
    simp only [boxOf, V3i.add_x, V3i.sub_x, V3i.all] at hb ⊢
    omega)
  refine ⟨g, levels, e, hm, ?_, ?_, ?_⟩
  · unfold makeOne resampleInto
    rw [resOf_eq h, show (⟨wanted (count f).x part, wanted (count f).y part, wanted (count f).z part⟩ : V3i) =
      resolution f part from rfl, e]
    exact hm
  · rintro rfl; cases h0
  · rw [← hd]; exact hall

theorem same_length {flt flt' : Filter} {g g' : Dense ℚ} (h : MipBase g) (h' : MipBase g') (hd : g.dw = g'.dw) {m : ℤ}
    {off : V3i} {fuel : ℕ} {levels levels' : List (Dense ℚ)} (hm : makeMIP flt g m off fuel = .ok levels)
    (hm' : makeMIP flt' g' m off fuel = .ok levels') (hf : g.dw.max.x + 1 ≤ fuel) : levels.length = levels'.length := by
  obtain ⟨hg, _, hb⟩ := base_holds h (values_exist h.wf)
  obtain ⟨hg', _, hb'⟩ := base_holds h' (values_exist h'.wf)
  obtain ⟨K, L, hK, hlen, _, _, hgo, hstop, hmake⟩ := makeMIP_total flt hb hg m off
  obtain ⟨K', L', hK', hlen', _, _, hgo', hstop', hmake'⟩ := makeMIP_total flt' hb' hg' m off
  simp only [V3i.add_x, V3i.all] at hK hK'
  rw [hmake fuel (by omega)] at hm
  rw [hmake' fuel (by rw [← hd] at hK'; omega)] at hm'
  rw [← hd] at hgo' hstop'
  have eK : K = K' := by
    rcases Nat.lt_trichotomy K K' with hlt | heq | hlt
    · rw [hgo' K hlt] at hstop; cases hstop
    · exact heq
    · rw [hgo K' hlt] at hstop'; cases hstop'
  split at hm <;> split at hm' <;> cases hm <;> cases hm'
  rw [hlen, hlen', eK]

theorem same_window {flt flt' : Filter} {g g' : Dense ℚ} (h : MipBase g) (h' : MipBase g') (hd : g.dw = g'.dw) {m : ℤ}
    {off : V3i} {fuel : ℕ} {levels levels' : List (Dense ℚ)} (hm : makeMIP flt g m off fuel = .ok levels)
    (hm' : makeMIP flt' g' m off fuel = .ok levels') {l : ℕ} {k k' : Dense ℚ} (hk : levels[l]? = some k)
    (hk' : levels'[l]? = some k') : k.dw = k'.dw := by
  obtain ⟨hg, _, hb⟩ := base_holds h (values_exist h.wf)
  obtain ⟨hg', _, hb'⟩ := base_holds h' (values_exist h'.wf)
  rw [(levels_hold hb hg hm l k hk).dw, (levels_hold hb' hg' hm' l k' hk').dw, hd]

theorem level_zero {flt : Filter} {g k : Dense ℚ} {m : ℤ} {off : V3i} {fuel : ℕ} {levels : List (Dense ℚ)}
    (hm : makeMIP flt g m off fuel = .ok levels) (hk : levels[0]? = some k) : k = g := by
  obtain ⟨_, h0, _⟩ := makeMIP_ok hm
  rw [h0] at hk
  exact (Option.some.inj hk).symm

/-! ## C74 -/

/-- **C74.** The min and max fields of a field exist, whatever the fraction asked for, with the same levels. Along each axis
level 0 has the given part of the voxels of the field, but at least two. A level has exactly the voxels in which there is
the centre of a voxel of the field. In each voxel the min field has the least and the max field the greatest of the values
of the field whose centres are in it. -/
theorem C74_bounds (base : Dense ℚ) (h : MinMaxBase base) (part : ℚ) (fuel : ℕ) (hf : base.dw.max.x + 1 ≤ fuel)
    (v : V3i → ℚ) (hv : Values base v) (hfin : ∀ q, base.dw.contains q = true → -floatMax < v q ∧ v q < floatMax) :
    ∃ mins maxs, makeMinMax base part fuel = (.ok mins, .ok maxs) ∧ mins ≠ [] ∧ mins.length = maxs.length ∧
      ∀ (l : ℕ) (f g : Dense ℚ), mins[l]? = some f → maxs[l]? = some g →
        f.dw = g.dw ∧ (l = 0 → f.dw = ⟨V3i.all 0, resolution base part - V3i.all 1⟩) ∧
        (∀ c, f.dw.contains c = true ↔ ∃ q, base.dw.contains q = true ∧ CentreIn (count base) (resolution base part) l c q) ∧
        ∀ c, f.dw.contains c = true → ∃ a b, f.value c = some a ∧ g.value c = some b ∧
          (∃ q, base.dw.contains q = true ∧ CentreIn (count base) (resolution base part) l c q ∧ a = v q) ∧
          (∃ q, base.dw.contains q = true ∧ CentreIn (count base) (resolution base part) l c q ∧ b = v q) ∧
          ∀ q, base.dw.contains q = true → CentreIn (count base) (resolution base part) l c q → a ≤ v q ∧ v q ≤ b := by
  have hr := resolution_bounds h part
  have hn : 0 < (resolution base part).x ∧ 0 < (resolution base part).y ∧ 0 < (resolution base part).z := by omega
  obtain ⟨g1, mins, e1, m1, k1, n1, s1⟩ := makeOne_ok (minFilter 1) h part fuel hf
  obtain ⟨g2, maxs, e2, m2, k2, n2, s2⟩ := makeOne_ok (maxFilter 1) h part fuel hf
  obtain ⟨b1, d1⟩ := resampled_base h e1
  obtain ⟨b2, d2⟩ := resampled_base h e2
  have key1 := C53_min_least base (base_source h) _ hn v hv (fun q hq => (hfin q hq).2) g1 e1
  have key2 := C53_max_greatest base (base_source h) _ hn v hv (fun q hq => (hfin q hq).1) g2 e2
  have ed : g1.dw = g2.dw := d1.trans d2.symm
  have hfuel : g1.dw.max.x + 1 ≤ fuel := by
    rw [d1]
    rw [count_eq h] at hr
    simp only [boxOf, V3i.add_x, V3i.sub_x, V3i.all] at hr ⊢
    omega
  refine ⟨mins, maxs, ?_, n1, same_length b1 b2 ed m1 m2 hfuel, fun l f g hf' hg' => ?_⟩
  · unfold makeMinMax; rw [k1, k2]
  have ew := same_window b1 b2 ed m1 m2 hf' hg'
  have cells : ∀ c, f.dw.contains c = true ↔
      ∃ q, base.dw.contains q = true ∧ CentreIn (count base) (resolution base part) l c q := fun c => by
    rw [(s1 l f hf').2.2 c]
    constructor
    · rintro ⟨c0, hc0, ho⟩
      obtain ⟨_, _, ⟨q, hq, _⟩, _⟩ := key1 c0 (by rw [d1]; exact hc0)
      exact ⟨q, hq.1, (under_centre h part l c q hq.1).2 ⟨c0, hc0, ho, hq⟩⟩
    · rintro ⟨q, hq, hc⟩
      obtain ⟨c0, hc0, ho, _⟩ := (under_centre h part l c q hq).1 hc
      exact ⟨c0, hc0, ho⟩
  refine ⟨ew, fun h0 => ?_, cells, fun c hc => ?_⟩
  · subst h0
    rw [level_zero m1 hf', d1]; rfl
  have v1 := values_exist b1.wf
  have v2 := values_exist b2.wf
  obtain ⟨a, ha, ⟨p1, hp1, ho1, ea⟩, la⟩ := C50_min_of_base g1 b1 2 fuel mins m1 _ v1 (fun q hq => by
    obtain ⟨m, hm, ⟨q', hq', rfl⟩, _⟩ := key1 q hq
    rw [hm, Option.getD_some]
    exact (hfin q' hq'.1).2) l f hf' c hc
  obtain ⟨b, hb, ⟨p2, hp2, ho2, eb⟩, lb⟩ := C50_max_of_base g2 b2 2 fuel maxs m2 _ v2 (fun q hq => by
    obtain ⟨m, hm, ⟨q', hq', rfl⟩, _⟩ := key2 q hq
    rw [hm, Option.getD_some]
    exact (hfin q' hq'.1).1) l g hg' c (ew ▸ hc)
  refine ⟨a, b, ha, hb, ?_, ?_, fun q hq hc => ?_⟩
  · obtain ⟨m, hm, ⟨q, hq, e⟩, _⟩ := key1 p1 hp1
    refine ⟨q, hq.1, (under_centre h part l c q hq.1).2 ⟨p1, d1 ▸ hp1, ho1, hq⟩, ?_⟩
    rw [ea, hm, Option.getD_some, e]
  · obtain ⟨m, hm, ⟨q, hq, e⟩, _⟩ := key2 p2 hp2
    refine ⟨q, hq.1, (under_centre h part l c q hq.1).2 ⟨p2, d2 ▸ hp2, ho2, hq⟩, ?_⟩
    rw [eb, hm, Option.getD_some, e]
  · obtain ⟨c0, hc0, ho, hu⟩ := (under_centre h part l c q hq).1 hc
    constructor
    · obtain ⟨m, hm, _, hle⟩ := key1 c0 (by rw [d1]; exact hc0)
      have := la c0 (by rw [d1]; exact hc0) ho
      rw [hm, Option.getD_some] at this
      exact this.trans (hle q hu)
    · obtain ⟨m, hm, _, hle⟩ := key2 c0 (by rw [d2]; exact hc0)
      have := lb c0 (by rw [d2]; exact hc0) ho
      rw [hm, Option.getD_some] at this
      exact (hle q hu).trans this

theorem centre1_exists {N n q : ℤ} (hn : 0 < n) (hN : n ≤ N) (h0 : 0 ≤ q) (h1 : q < N) (l : ℕ) :
    ∃ c, CentreIn1 N n l c q := by
  have hn' : (0 : ℚ) < n := by exact_mod_cast hn
  have hN0 : (0 : ℚ) < N := by exact_mod_cast (lt_of_lt_of_le hn hN)
  have hq0 : (0 : ℚ) ≤ q := by exact_mod_cast h0
  have hq1 : (q : ℚ) + 1 ≤ N := by exact_mod_cast h1
  have x0 : 0 < ((q : ℚ) + 1 / 2) * n / N := by positivity
  have x1 : ((q : ℚ) + 1 / 2) * n / N < n := by rw [div_lt_iff₀ hN0]; nlinarith
  refine ⟨⌊((q : ℚ) + 1 / 2) * n / N⌋ / 2 ^ l, (centre1_iff hn hN h0 h1 l _).2 ⟨_, Int.floor_nonneg.2 x0.le,
    Int.floor_lt.2 x1, rfl, (together_down hn hN).2 ⟨Int.floor_le _, (Int.lt_floor_add_one _).le⟩⟩⟩

/-- **C74.** No voxel of the field is left out of a level. -/
theorem C74_covered (base : Dense ℚ) (h : MinMaxBase base) (part : ℚ) (l : ℕ) (q : V3i) (hq : base.dw.contains q = true) :
    ∃ c, CentreIn (count base) (resolution base part) l c q := by
  obtain ⟨⟨a1, a2⟩, ⟨b1, b2⟩, d1, d2⟩ := resolution_bounds h part
  rw [(source_holds (base_source h) (values_exist h.wf)).1, ← count_eq h, boxOf_contains] at hq
  obtain ⟨x0, x1, y0, y1, z0, z1⟩ := hq
  obtain ⟨cx, hx⟩ := centre1_exists (by omega) a2 x0 x1 l
  obtain ⟨cy, hy⟩ := centre1_exists (by omega) b2 y0 y1 l
  obtain ⟨cz, hz⟩ := centre1_exists (by omega) d2 z0 z1 l
  exact ⟨⟨cx, cy, cz⟩, hx, hy, hz⟩

/-- **C74.** A field with one voxel along an axis, or that does not begin at zero, has nothing of it in its min and max
fields: they have one level, without a voxel. -/
theorem C74_refused (base : Dense ℚ) (part : ℚ) (fuel : ℕ)
    (h : (base.dw.max.x ≤ base.dw.min.x ∨ base.dw.max.y ≤ base.dw.min.y ∨ base.dw.max.z ≤ base.dw.min.z) ∨
      base.dw.min ≠ V3i.all 0) :
    ∃ f, makeMinMax base part fuel = (.ok [f], .ok [f]) ∧ ∀ c, f.dw.contains c = false := by
  refine ⟨newField, ?_, fun c => ?_⟩
  · have : ∀ flt, makeOne flt base part fuel = .ok [newField] := fun flt => by
      unfold makeOne resampleInto
      rw [C53_refused flt base _ h]
      cases fuel <;> rfl
    unfold makeMinMax
    rw [this, this]
  · have : ¬ newField.dw.contains c = true := by
      rw [Box3i.contains_iff]
      simp only [newField, V3i.all]
      omega
    simpa using this

/-! ### In the world -/

open F3D.Mapping F3D.MipInterp F3D.Curve

/-- The voxel coordinates in the field of a point of level `l` of its min and max fields. -/
def toField (N n : V3i) (l : ℕ) (p : V3q) : V3q :=
  ⟨p.x * 2 ^ l * N.x / n.x, p.y * 2 ^ l * N.y / n.y, p.z * 2 ^ l * N.z / n.z⟩

/-- **C53.** A resampled field with a matrix mapping fills the same space as its source if that begins at zero and its
extents are its data window. -/
theorem C53_placed (f : Frame) (ops : List Mapping.Op) (e0 : Box3i) (he0 : Proper e0) (hm0 : e0.min = V3i.all 0)
    (hf : frameOf f ops = Frame.ofExtents e0) (n : V3i) (hn : 0 < n.x ∧ 0 < n.y ∧ 0 < n.z) :
    ∃ m', resampledMapping (.matrix (Matrix.run f ops)) n = some (.matrix m') ∧
      ∀ t p, m'.voxelToWorldAt p t =
        (Matrix.run f ops).voxelToWorldAt (toField (e0.max - e0.min + V3i.all 1) n 0 p) t := by
  have er : (Matrix.run f ops).setExtents (boxOf n) = Matrix.run f (ops ++ [.setExtents (boxOf n)]) := by
    unfold Matrix.run; rw [List.foldl_append]; rfl
  have ef : frameOf f (ops ++ [.setExtents (boxOf n)]) = Frame.ofExtents (boxOf n) := by
    unfold frameOf; rw [List.foldl_append]; rfl
  have hp : Proper (boxOf n) := by
    unfold Proper boxOf
    simp only [V3i.sub_x, V3i.sub_y, V3i.sub_z, V3i.all]
    omega
  refine ⟨_, rfl, fun t p => ?_⟩
  rw [er, (run_at _ _ t p).2.2.1, (run_at _ _ t _).2.2.1, ef, hf, history_snoc]
  rw [← M44.multVec_mul _ _ _ _ (Frame.inverse_multVec _ (ofExtents_ok _ hp) p),
    ← M44.multVec_mul _ _ _ _ (Frame.inverse_multVec _ (ofExtents_ok e0 he0) _)]
  rw [Frame.voxelToLocal_eq _ (ofExtents_ok _ hp), Frame.voxelToLocal_eq _ (ofExtents_ok e0 he0)]
  obtain ⟨a1, a2, a3⟩ := ofExtents_ok e0 he0
  obtain ⟨b1, b2, b3⟩ := ofExtents_ok _ hp
  congr 1
  unfold Frame.ofExtents at *
  simp only [boxOf, V3i.sub_x, V3i.sub_y, V3i.sub_z, V3i.add_x, V3i.add_y, V3i.add_z, V3i.all, toField, hm0] at *
  have ex : ∀ a : ℤ, a - 1 - 0 + 1 = a := fun a => by omega
  simp only [ex] at *
  generalize ((e0.max.x - 0 + 1 : ℤ) : ℚ) = r1 at *
  generalize ((e0.max.y - 0 + 1 : ℤ) : ℚ) = r2 at *
  generalize ((e0.max.z - 0 + 1 : ℤ) : ℚ) = r3 at *
  apply V3q.ext' <;> simp only [pow_zero, mul_one, Int.cast_zero, sub_zero] <;> field_simp

/-- **C53.** The fault: a source whose data window is smaller than its extents is stretched over the extents. -/
theorem C53_window_stretched : ∃ m', resampledMapping
      (.matrix (Matrix.run Frame.default [.setExtents ⟨⟨0, 0, 0⟩, ⟨7, 7, 7⟩⟩, .setLocalToWorld (M44.setScale ⟨8, 8, 8⟩)]))
      ⟨4, 4, 4⟩ = some (.matrix m') ∧
    m'.voxelToWorldAt ⟨3, 3, 3⟩ 0 = some ⟨6, 6, 6⟩ ∧
    (Matrix.run Frame.default [.setExtents ⟨⟨0, 0, 0⟩, ⟨7, 7, 7⟩⟩, .setLocalToWorld (M44.setScale ⟨8, 8, 8⟩)]).voxelToWorldAt
      (toField ⟨4, 4, 4⟩ ⟨4, 4, 4⟩ 0 ⟨3, 3, 3⟩) 0 = some ⟨3, 3, 3⟩ := by
  refine ⟨_, rfl, ?_, ?_⟩ <;> decide +kernel

/-- **C74.** The levels of the min and max fields of a field with a matrix mapping, which may move and rotate but does not
change its size, fill the space of the field: point `p` of level `l` is at every time where point `toField p` of the field
is. -/
theorem C74_placed (root : ℚ → ℚ) (hr : Lengths root) (f : Frame) (ops : List Mapping.Op) (e0 : Box3i) (he0 : Proper e0)
    (hm0 : e0.min = V3i.all 0) (hf : frameOf f ops = Frame.ofExtents e0) (hne : history ops ≠ [])
    (ha : ∀ s ∈ history ops, Affine s.2) (hs : SteadyEdges (history ops)) (n : V3i) (hn : 0 < n.x ∧ 0 < n.y ∧ 0 < n.z)
    (l : ℕ) (e : Box3i) (he : Proper e) (hm : e.min = V3i.all 0) (hz : l = 0 → e = ⟨V3i.all 0, n - V3i.all 1⟩) :
    ∃ m', MinMax.levelMapping root (.matrix (Matrix.run f ops)) n e l = some (.matrix m') ∧
      ∀ t p, m'.voxelToWorldAt p t =
        (Matrix.run f ops).voxelToWorldAt (toField (e0.max - e0.min + V3i.all 1) n l p) t := by
  obtain ⟨m, em, hp⟩ := C53_placed f ops e0 he0 hm0 hf n hn
  have er : (Matrix.run f ops).setExtents (boxOf n) = Matrix.run f (ops ++ [.setExtents (boxOf n)]) := by
    unfold Matrix.run; rw [List.foldl_append]; rfl
  have ef : frameOf f (ops ++ [.setExtents (boxOf n)]) = Frame.ofExtents (boxOf n) := by
    unfold frameOf; rw [List.foldl_append]; rfl
  have hb : Proper (boxOf n) := by
    unfold Proper boxOf
    simp only [V3i.sub_x, V3i.sub_y, V3i.sub_z, V3i.all]
    omega
  have e1 : m = (Matrix.run f ops).setExtents (boxOf n) := by
    injection em with em
    injection em with em
    exact em.symm
  have eh : history (ops ++ [.setExtents (boxOf n)]) = history ops := history_snoc ops (.setExtents (boxOf n))
  obtain ⟨m', h1, _, h2⟩ := C73_matrix root hr f (ops ++ [.setExtents (boxOf n)]) (boxOf n) hb ef (by rw [eh]; exact hne)
    (by rw [eh]; exact ha) (by rw [eh]; exact hs) (V3i.all 0) l e he hz
  refine ⟨m', ?_, fun t p => ?_⟩
  · unfold MinMax.levelMapping
    rw [em, e1, er]
    exact h1
  · rw [h2, ← er, ← e1, hp]
    congr 1
    unfold toField toBase
    rw [hm]
    apply V3q.ext' <;> simp only [boxOf, V3i.all, Int.zero_ediv, zero_mul, sub_zero, Int.cast_zero, zero_add, pow_zero] <;> ring

/-- **C74.** If the resolution of the field is a multiple of that of level 0 of its min and max fields, the value of the
field at every point of a voxel of any level is between the min and the max there. -/
theorem C74_everywhere (base : Dense ℚ) (h : MinMaxBase base) (part : ℚ) (fuel : ℕ) (hf : base.dw.max.x + 1 ≤ fuel)
    (v : V3i → ℚ) (hv : Values base v) (hfin : ∀ q, base.dw.contains q = true → -floatMax < v q ∧ v q < floatMax)
    (hx : (resolution base part).x ∣ (count base).x) (hy : (resolution base part).y ∣ (count base).y)
    (hz : (resolution base part).z ∣ (count base).z) :
    ∃ mins maxs, makeMinMax base part fuel = (.ok mins, .ok maxs) ∧
      ∀ (l : ℕ) (f g : Dense ℚ) (c q : V3i) (p : V3q), mins[l]? = some f → maxs[l]? = some g → f.dw.contains c = true →
        InVoxel p c → base.dw.contains q = true → InVoxel (toField (count base) (resolution base part) l p) q →
        ∃ a b, f.value c = some a ∧ g.value c = some b ∧ a ≤ v q ∧ v q ≤ b := by
  obtain ⟨⟨a1, a2⟩, ⟨b1, b2⟩, d1, d2⟩ := resolution_bounds h part
  obtain ⟨mins, maxs, e, _, _, hall⟩ := C74_bounds base h part fuel hf v hv hfin
  refine ⟨mins, maxs, e, fun l f g c q p hf' hg' hc hp hq hpq => ?_⟩
  obtain ⟨_, _, _, hval⟩ := hall l f g hf' hg'
  obtain ⟨a, b, ha, hb, _, _, hle⟩ := hval c hc
  refine ⟨a, b, ha, hb, hle q hq ?_⟩
  have one : ∀ (N n c q : ℤ) (x : ℚ), 0 < n → n ≤ N → n ∣ N → (c : ℚ) ≤ x → x < c + 1 →
      (q : ℚ) ≤ x * 2 ^ l * N / n → x * 2 ^ l * N / n < q + 1 → CentreIn1 N n l c q := by
    intro N n c q x hn hN hd h1 h2 h3 h4
    obtain ⟨k, rfl⟩ := hd
    have hn' : (0 : ℚ) < n := by exact_mod_cast hn
    have hk : 0 < k := by by_contra hk; nlinarith
    have hk' : (0 : ℚ) < k := by exact_mod_cast hk
    have e : x * 2 ^ l * ((n * k : ℤ) : ℚ) / n = x * 2 ^ l * k := by push_cast; field_simp
    rw [e] at h3 h4
    have hp : (0 : ℚ) < 2 ^ l * k := by positivity
    have l1 : (c : ℚ) * 2 ^ l * k ≤ x * 2 ^ l * k := by
      have := mul_le_mul_of_nonneg_right h1 hp.le
      linarith
    have l2 : x * 2 ^ l * k < (c + 1) * 2 ^ l * k := by
      have := mul_lt_mul_of_pos_right h2 hp
      linarith
    have i1 : c * 2 ^ l * k < q + 1 := by
      have : (c : ℚ) * 2 ^ l * k < q + 1 := lt_of_le_of_lt l1 h4
      exact_mod_cast this
    have i2 : q < (c + 1) * 2 ^ l * k := by
      have : (q : ℚ) < (c + 1) * 2 ^ l * k := lt_of_le_of_lt h3 l2
      exact_mod_cast this
    have j1 : (c : ℚ) * 2 ^ l * k ≤ q := by exact_mod_cast Int.lt_add_one_iff.1 i1
    have j2 : (q : ℚ) + 1 ≤ (c + 1) * 2 ^ l * k := by exact_mod_cast i2
    unfold CentreIn1
    push_cast
    rw [div_le_div_iff₀ hn' (by positivity), div_le_div_iff₀ (by positivity) hn']
    constructor
    · have := mul_le_mul_of_nonneg_right j1 hn'.le
      nlinarith
    · have := mul_le_mul_of_nonneg_right j2 hn'.le
      nlinarith
  obtain ⟨⟨x1, x2⟩, ⟨y1, y2⟩, z1, z2⟩ := hp
  obtain ⟨⟨u1, u2⟩, ⟨v1, v2⟩, w1, w2⟩ := hpq
  exact ⟨one _ _ _ _ _ (by omega) a2 hx x1 x2 u1 u2, one _ _ _ _ _ (by omega) b2 hy y1 y2 v1 v2,
    one _ _ _ _ _ (by omega) d2 hz z1 z2 w1 w2⟩

/-- **C74.** The fault: if it is not a multiple, there are points where the field is below its min field. Here four voxels
along each axis make three, and only voxels with `x = 1` are low. The point `9 / 10` of voxel 0 of the min field is the
point `6 / 5` of the field. -/
theorem C74_below_min (base : Dense ℚ) (h : MinMaxBase base) (h4 : base.dw.max = V3i.all 3)
    (hv : Values base fun q => if q.x = 1 then -1 else 5) :
    ∃ mins maxs f, makeMinMax base (3 / 4) 4 = (.ok mins, .ok maxs) ∧ mins[0]? = some f ∧ f.value ⟨0, 0, 0⟩ = some 5 ∧
      InVoxel (toField (count base) (resolution base (3 / 4)) 0 ⟨9 / 10, 0, 0⟩) ⟨1, 0, 0⟩ ∧
      base.value ⟨1, 0, 0⟩ = some (-1) := by
  have ec : count base = V3i.all 4 := by rw [count_eq h, h4]; rfl
  have er : resolution base (3 / 4) = V3i.all 3 := by unfold resolution; rw [ec]; decide +kernel
  have hbig : (5 : ℚ) < floatMax := by decide +kernel
  obtain ⟨mins, maxs, e, hne, hlen, hall⟩ := C74_bounds base h (3 / 4) 4 (by rw [h4]; decide) _ hv
    (fun q _ => by split <;> constructor <;> linarith)
  obtain ⟨f, hf⟩ : ∃ f, mins[0]? = some f := by
    cases mins with
    | nil => exact absurd rfl hne
    | cons f _ => exact ⟨f, rfl⟩
  obtain ⟨g, hg⟩ : ∃ g, maxs[0]? = some g := by
    cases maxs with
    | nil => cases mins with
      | nil => exact absurd rfl hne
      | cons _ _ => simp at hlen
    | cons g _ => exact ⟨g, rfl⟩
  obtain ⟨_, h0, _, hval⟩ := hall 0 f g hf hg
  have hdw := h0 rfl
  rw [er] at hdw
  obtain ⟨a, b, ha, _, ⟨q, hq, hc, rfl⟩, _⟩ := hval ⟨0, 0, 0⟩ (by rw [hdw]; decide)
  refine ⟨mins, maxs, f, e, hf, ?_, ?_, ?_⟩
  · rw [ha, if_neg]
    intro h1
    have := hc.1.2
    rw [ec, er, h1] at this
    norm_num [V3i.all] at this
  · rw [ec, er]
    unfold InVoxel toField
    norm_num [V3i.all]
  · have := hv ⟨1, 0, 0⟩ (by
      rw [(source_holds (base_source h) (values_exist h.wf)).1, h4]; decide)
    simpa using this

/-! The hypotheses are met. -/

/-- Four voxels along each axis, low where `x = 1`. -/
def lowField : Dense ℚ where
  extents := ⟨V3i.all 0, V3i.all 3⟩
  dw := ⟨V3i.all 0, V3i.all 3⟩
  memX := 4
  memXY := 16
  data := (List.range 64).map fun i => if i % 4 = 1 then -1 else 5

theorem lowField_base : MinMaxBase lowField :=
  ⟨⟨by decide, rfl, rfl, by decide⟩, rfl, rfl, by decide, by decide⟩

theorem lowField_values : Values lowField fun q => if q.x = 1 then -1 else 5 := by
  intro q hq
  rw [Box3i.contains_iff] at hq
  simp only [lowField, V3i.all] at hq
  obtain ⟨⟨x0, x1⟩, ⟨y0, y1⟩, z0, z1⟩ := hq
  have hi : 0 ≤ lowField.index q ∧ lowField.index q < 64 ∧ lowField.index q % 4 = q.x := by
    simp only [Dense.index, lowField, V3i.all]
    omega
  unfold Dense.value Dense.readAt
  obtain ⟨n, hn⟩ := Int.eq_ofNat_of_zero_le hi.1
  rw [hn] at hi ⊢
  rw [if_pos (by omega), Int.toNat_natCast]
  show ((List.range 64).map fun i => if i % 4 = 1 then (-1 : ℚ) else 5)[n]? = _
  rw [List.getElem?_map, List.getElem?_range (by omega), Option.map_some]
  dsimp only
  by_cases h1 : q.x = 1
  · rw [if_pos h1, if_pos (by omega)]
  · rw [if_neg h1, if_neg (by omega)]

/-- The fault is met, and with half of the voxels the bounds hold everywhere. -/
example : ∃ mins maxs f, makeMinMax lowField (3 / 4) 4 = (.ok mins, .ok maxs) ∧ mins[0]? = some f ∧
    f.value ⟨0, 0, 0⟩ = some 5 ∧
    InVoxel (toField (count lowField) (resolution lowField (3 / 4)) 0 ⟨9 / 10, 0, 0⟩) ⟨1, 0, 0⟩ ∧
    lowField.value ⟨1, 0, 0⟩ = some (-1) :=
  C74_below_min lowField lowField_base rfl lowField_values

example : ∃ mins maxs, makeMinMax lowField (1 / 2) 4 = (.ok mins, .ok maxs) ∧
    ∀ (l : ℕ) (f g : Dense ℚ) (c q : V3i) (p : V3q), mins[l]? = some f → maxs[l]? = some g → f.dw.contains c = true →
      InVoxel p c → lowField.dw.contains q = true → InVoxel (toField (V3i.all 4) (V3i.all 2) l p) q →
      ∃ a b, f.value c = some a ∧ g.value c = some b ∧ a ≤ (if q.x = 1 then -1 else 5) ∧ (if q.x = 1 then -1 else 5) ≤ b := by
  have er : resolution lowField (1 / 2) = V3i.all 2 := by decide +kernel
  have ec : count lowField = V3i.all 4 := by decide +kernel
  have hbig : (5 : ℚ) < floatMax := by decide +kernel
  have := C74_everywhere lowField lowField_base (1 / 2) 4 (by decide) _ lowField_values
    (fun q _ => by split <;> constructor <;> linarith)
  rw [er, ec] at this
  exact this (by decide) (by decide) (by decide)

end F3D.Props
