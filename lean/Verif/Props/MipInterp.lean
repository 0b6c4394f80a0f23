import Verif.Model.MipInterp
import Verif.Props.Interp
import Mathlib.Tactic.Linarith
import Mathlib.Tactic.Ring
import Mathlib.Tactic.FieldSimp
import Mathlib.Data.Rat.Floor

/-!
# C22, C23: sampling MIP fields
-/

namespace F3D.Props
open F3D F3D.Interp F3D.MipInterp

/-! ## Level selection -/

theorem levelSizes_succ (base : ℚ) (n : ℕ) :
    levelSizes base (n + 1) = base :: levelSizes (base * 2) n := by
  unfold levelSizes
  rw [List.range_succ_eq_map, List.map_cons, List.map_map]
  simp only [pow_zero, mul_one, List.cons.injEq, true_and]
  apply List.map_congr_left
  intro i _
  simp only [Function.comp, pow_succ]
  ring

/-- What the loop finds when it starts at level `i` of size `2 * b`. -/
theorem interpLoop_spec (spot : ℚ) : ∀ (n i : ℕ) (b : ℚ), 0 < b → b < spot →
    ∃ j ≤ n, (j = n ∧ b * 2 ^ n < spot ∧ interpLoop spot (i + 1) b (levelSizes (b * 2) n) = ⟨i + n, i + n, 0⟩) ∨
      (j < n ∧ b * 2 ^ j < spot ∧ spot ≤ b * 2 ^ (j + 1) ∧ interpLoop spot (i + 1) b (levelSizes (b * 2) n) =
        ⟨i + j, i + j + 1, (spot - b * 2 ^ j) / (b * 2 ^ j)⟩) := by
  intro n
  induction n with
  | zero => intro i b hb hs; exact ⟨0, le_refl _, Or.inl ⟨rfl, by simpa using hs, rfl⟩⟩
  | succ n ih =>
    intro i b hb hs
    rw [levelSizes_succ]
    by_cases h : spot ≤ b * 2
    · refine ⟨0, Nat.zero_le _, Or.inr ⟨Nat.succ_pos _, by simpa using hs, by simpa using h, ?_⟩⟩
      simp only [interpLoop, if_pos h, Curve.lerpfactor, Info.mk.injEq]
      refine ⟨rfl, trivial, ?_⟩
      rw [if_neg (by linarith)]
      congr 1
      · simp
      · ring
    · obtain ⟨j, hj, hc⟩ := ih (i + 1) (b * 2) (by linarith) (not_le.1 h)
      refine ⟨j + 1, by omega, ?_⟩
      have e : ∀ m : ℕ, b * 2 * 2 ^ m = b * 2 ^ (m + 1) := fun m => by rw [pow_succ]; ring
      simp only [interpLoop, if_neg h]
      rcases hc with ⟨h1, h2, h3⟩ | ⟨h1, h2, h3, h4⟩
      · rw [e] at h2
        refine Or.inl ⟨by omega, h2, ?_⟩
        rw [h3, show i + 1 + n = i + (n + 1) by omega]
      · rw [e] at h2 h3 h4
        refine Or.inr ⟨by omega, h2, h3, ?_⟩
        rw [h4, show i + 1 + j = i + (j + 1) by omega]

/-- C22: the finest level for spots no larger than its voxels, the coarsest for spots larger than its voxels, and
otherwise two neighbouring levels whose voxel sizes bracket the spot, with the weight in `[0, 1]` at which the
interpolated voxel size is the spot. -/
theorem C22_brackets (base : ℚ) (hb : 0 < base) (n : ℕ) (hn : 0 < n) (spot : ℚ) :
    ∃ i, interpInfo (levelSizes base n) spot = some i ∧
      ((spot ≤ base ∧ i = ⟨0, 0, 0⟩) ∨
       (base * 2 ^ (n - 1) < spot ∧ base < spot ∧ i = ⟨n - 1, n - 1, 0⟩) ∨
       (i.upper = i.lower + 1 ∧ i.upper < n ∧ base * 2 ^ i.lower < spot ∧ spot ≤ base * 2 ^ i.upper ∧
        0 ≤ i.lerpT ∧ i.lerpT ≤ 1 ∧ base * 2 ^ i.lower * (1 - i.lerpT) + base * 2 ^ i.upper * i.lerpT = spot)) := by
  obtain ⟨m, rfl⟩ : ∃ m, n = m + 1 := ⟨n - 1, by omega⟩
  rw [levelSizes_succ]
  refine ⟨_, rfl, ?_⟩
  by_cases h : spot ≤ base
  · rw [if_pos h]; exact Or.inl ⟨h, rfl⟩
  · rw [if_neg h]
    have h := not_le.1 h
    obtain ⟨j, hj, hc⟩ := interpLoop_spec spot m 0 base hb h
    rcases hc with ⟨h1, h2, h3⟩ | ⟨h1, h2, h3, h4⟩
    · rw [zero_add] at h3
      rw [h3, zero_add, Nat.add_sub_cancel]
      exact Or.inr (Or.inl ⟨h2, h, rfl⟩)
    · rw [zero_add] at h4
      rw [h4, zero_add]
      have hp : 0 < base * 2 ^ j := mul_pos hb (by positivity)
      have e : base * 2 ^ (j + 1) = 2 * (base * 2 ^ j) := by rw [pow_succ]; ring
      rw [e] at h3
      refine Or.inr (Or.inr ⟨rfl, by show j + 1 < m + 1; omega, h2, by rw [e]; exact h3, ?_, ?_, ?_⟩)
      · exact div_nonneg (by linarith) hp.le
      · show (spot - base * 2 ^ j) / (base * 2 ^ j) ≤ 1
        rw [div_le_one hp]; linarith
      · show base * 2 ^ j * (1 - (spot - base * 2 ^ j) / (base * 2 ^ j)) +
          base * 2 ^ (j + 1) * ((spot - base * 2 ^ j) / (base * 2 ^ j)) = spot
        rw [e]; field_simp; ring

example : interpInfo (levelSizes 1 4) 3 = some ⟨1, 2, 1 / 2⟩ := by decide +kernel

/-! ## Blending -/

/-- The values of the levels at the point of level 0. -/
def LevelValues (interp : ℕ → V3q → Option ℚ) (off : V3i) (n : ℕ) (p : V3q) (v : ℕ → ℚ) : Prop :=
  ∀ l < n, interp l (mipCoord off l p) = some (v l)

theorem coord1_zero (off : ℤ) (p : ℚ) : mipCoord1 off 0 p = p := by
  simp [mipCoord1]

/-- C23: the coordinates of level 0 are the coordinates of the field. -/
theorem C23_level_zero (off : V3i) (p : V3q) : mipCoord off 0 p = p := by
  unfold mipCoord; rw [coord1_zero, coord1_zero, coord1_zero]

/-- The value of the curve through the samples `(base * 2^i, v i)`, constant before the first and after the last. -/
def Blended (base : ℚ) (n : ℕ) (v : ℕ → ℚ) (spot r : ℚ) : Prop :=
  (spot ≤ base → r = v 0) ∧ (base * 2 ^ (n - 1) ≤ spot → r = v (n - 1)) ∧
  ∀ l, l + 1 < n → base * 2 ^ l ≤ spot → spot ≤ base * 2 ^ (l + 1) →
    r = v l + (v (l + 1) - v l) * ((spot - base * 2 ^ l) / (base * 2 ^ (l + 1) - base * 2 ^ l))

theorem size_lt {base : ℚ} (hb : 0 < base) {i j : ℕ} (h : i < j) : base * 2 ^ i < base * 2 ^ j := by
  apply mul_lt_mul_of_pos_left _ hb
  exact pow_lt_pow_right₀ (by norm_num) h

theorem size_le {base : ℚ} (hb : 0 < base) {i j : ℕ} (h : i ≤ j) : base * 2 ^ i ≤ base * 2 ^ j := by
  rcases Nat.lt_or_ge i j with h' | h'
  · exact (size_lt hb h').le
  · rw [le_antisymm h h']

/-- C22: the finest level alone is used exactly for spots that are no larger than its voxels along any axis. -/
theorem C22_finest (voxel : V3q) (n : ℕ) (hn : 0 < n) (hv : 0 < voxel.x ∧ 0 < voxel.y ∧ 0 < voxel.z) (spot : ℚ) :
    (∃ i, interpInfo (levelSizes (minSize voxel) n) spot = some i ∧ (n = 1 ∨ i.upper = 0)) ↔
      n = 1 ∨ (spot ≤ voxel.x ∧ spot ≤ voxel.y ∧ spot ≤ voxel.z) := by
  obtain ⟨k, rfl⟩ : ∃ k, n = k + 1 := ⟨n - 1, by omega⟩
  have hpos : 0 < minSize voxel := lt_min (lt_min hv.1 hv.2.1) hv.2.2
  have hle : spot ≤ minSize voxel ↔ spot ≤ voxel.x ∧ spot ≤ voxel.y ∧ spot ≤ voxel.z := by
    unfold minSize
    rw [le_min_iff, le_min_iff, and_assoc]
  rw [levelSizes_succ, ← hle]
  simp only [interpInfo, Option.some.injEq, exists_eq_left']
  apply or_congr_right'
  intro hk
  split
  · rename_i h; simp [h]
  · rename_i h
    simp only [h, iff_false]
    obtain ⟨j, _, hc⟩ := interpLoop_spec spot k 0 _ hpos (not_le.1 h)
    rcases hc with ⟨_, _, e⟩ | ⟨_, _, _, e⟩
    · rw [e]; simp only; omega
    · rw [e]; simp

example : ∃ i, interpInfo (levelSizes (minSize ⟨3, 1, 2⟩) 4) (3 / 2) = some i ∧ i.upper = 1 := ⟨_, rfl, by decide +kernel⟩

/-- C22: the sample is linear in the spot size between the voxel sizes of neighbouring levels, and the value of the
level at every voxel size; so it is between the two level samples and does not jump from one pair of levels to the
next. -/
theorem C22_blended (base : ℚ) (hb : 0 < base) (n : ℕ) (hn : 0 < n) (interp : ℕ → V3q → Option ℚ) (off : V3i)
    (p : V3q) (v : ℕ → ℚ) (hv : LevelValues interp off n p v) (spot : ℚ) :
    ∃ r, sample interp off (levelSizes base n) p spot = some r ∧ Blended base n v spot r := by
  obtain ⟨i, hi, hc⟩ := C22_brackets base hb n hn spot
  have h0 : interp 0 p = some (v 0) := by
    have := hv 0 hn
    rwa [C23_level_zero] at this
  have e2 : ∀ l : ℕ, base * 2 ^ (l + 1) = 2 * (base * 2 ^ l) := fun l => by rw [pow_succ]; ring
  have pos : ∀ l : ℕ, 0 < base * 2 ^ l := fun l => mul_pos hb (by positivity)
  unfold sample
  rw [hi]
  rcases hc with ⟨h1, rfl⟩ | ⟨h1, h1', rfl⟩ | ⟨h1, h2, h3, h4, h5, h6, h7⟩
  · refine ⟨v 0, by simpa using h0, fun _ => rfl, fun h => ?_, fun l hl ha hb' => ?_⟩
    · have : n = 1 := by
        by_contra hne
        have := size_lt hb (show 0 < n - 1 by omega)
        rw [pow_zero, mul_one] at this
        linarith
      subst this; rfl
    · have : l = 0 := by
        by_contra hne
        have := size_lt hb (show 0 < l by omega)
        rw [pow_zero, mul_one] at this
        linarith
      subst this
      rw [pow_zero, mul_one] at ha
      have : spot = base := le_antisymm h1 ha
      subst this
      simp
  · refine ⟨v (n - 1), ?_, fun h => by linarith, fun _ => rfl, fun l hl ha hb' => ?_⟩
    · show (if (n - 1 = n - 1) then _ else _) = _
      rw [if_pos rfl]
      split
      · rename_i h0'
        simp only at h0'
        rw [h0, h0']
      · exact hv (n - 1) (by omega)
    · have := size_le hb (show l + 1 ≤ n - 1 by omega)
      linarith
  · obtain ⟨lo, up, t⟩ := i
    simp only at h1 h2 h3 h4 h5 h6 h7 ⊢
    subst h1
    rw [if_neg (by omega), hv lo (by omega), hv (lo + 1) h2]
    refine ⟨_, rfl, fun h => ?_, fun h => ?_, fun l hl ha hb' => ?_⟩
    · have := size_le hb (show 0 ≤ lo by omega)
      rw [pow_zero, mul_one] at this
      linarith
    · have hlo : lo + 1 = n - 1 := by
        by_contra hne
        have := size_lt hb (show lo + 1 < n - 1 by omega)
        linarith
      have : spot = base * 2 ^ (lo + 1) := le_antisymm h4 (by rw [hlo]; exact h)
      have ht : t = 1 := by
        rw [this, e2] at h7
        have := pos lo
        have : base * 2 ^ lo * (t - 1) = 0 := by linarith
        rcases mul_eq_zero.1 this with h | h
        · linarith
        · linarith
      rw [← hlo, ht, Curve.lerpQ]; ring
    · have hl' : l = lo ∨ l = lo + 1 := by
        rcases Nat.lt_trichotomy l lo with h | h | h
        · have := size_le hb (show l + 1 ≤ lo by omega); linarith
        · exact Or.inl h
        · rcases Nat.lt_or_ge l (lo + 2) with h' | h'
          · omega
          · have := size_lt hb (show lo + 1 < l by omega); linarith
      have pl := pos lo
      rcases hl' with rfl | rfl
      · have ht : t = (spot - base * 2 ^ l) / (base * 2 ^ (l + 1) - base * 2 ^ l) := by
          rw [e2] at h7 ⊢
          rw [eq_div_iff (by linarith)]
          linarith
        rw [← ht, Curve.lerpQ]; ring
      · have hs : spot = base * 2 ^ (lo + 1) := le_antisymm h4 ha
        have ht : t = 1 := by
          rw [hs, e2] at h7
          have : base * 2 ^ lo * (t - 1) = 0 := by linarith
          rcases mul_eq_zero.1 this with h | h
          · linarith
          · linarith
        rw [ht, hs, Curve.lerpQ]; ring

theorem lerp_between {a b t lo hi : ℚ} (h0 : 0 ≤ t) (h1 : t ≤ 1) (ha : lo ≤ a ∧ a ≤ hi) (hb : lo ≤ b ∧ b ≤ hi) :
    lo ≤ a + (b - a) * t ∧ a + (b - a) * t ≤ hi := by
  constructor
  · nlinarith [mul_nonneg h0 (sub_nonneg.2 hb.1), mul_nonneg (sub_nonneg.2 h1) (sub_nonneg.2 ha.1)]
  · nlinarith [mul_nonneg h0 (sub_nonneg.2 hb.2), mul_nonneg (sub_nonneg.2 h1) (sub_nonneg.2 ha.2)]

/-- Every spot size is in one of the three ranges. -/
theorem spot_range {base : ℚ} (n : ℕ) (hn : 0 < n) (spot : ℚ) :
    spot ≤ base ∨ base * 2 ^ (n - 1) ≤ spot ∨ ∃ l, l + 1 < n ∧ base * 2 ^ l ≤ spot ∧ spot ≤ base * 2 ^ (l + 1) := by
  induction n with
  | zero => omega
  | succ n ih =>
    rcases Nat.eq_zero_or_pos n with rfl | hn'
    · rcases le_total spot base with h | h
      · exact Or.inl h
      · exact Or.inr (Or.inl (by simpa using h))
    · rcases ih hn' with h | h | ⟨l, h1, h2⟩
      · exact Or.inl h
      · rcases le_total spot (base * 2 ^ n) with h' | h'
        · exact Or.inr (Or.inr ⟨n - 1, by omega, h, by rwa [Nat.sub_add_cancel hn']⟩)
        · exact Or.inr (Or.inl (by simpa using h'))
      · exact Or.inr (Or.inr ⟨l, by omega, h2⟩)

/-- C22: the sample stays within the range of the level samples. -/
theorem C22_within_levels (base : ℚ) (hb : 0 < base) (n : ℕ) (hn : 0 < n) (interp : ℕ → V3q → Option ℚ) (off : V3i)
    (p : V3q) (v : ℕ → ℚ) (hv : LevelValues interp off n p v) (spot lo hi : ℚ)
    (hr : ∀ l < n, lo ≤ v l ∧ v l ≤ hi) :
    ∃ r, sample interp off (levelSizes base n) p spot = some r ∧ lo ≤ r ∧ r ≤ hi := by
  obtain ⟨r, h1, h2, h3, h4⟩ := C22_blended base hb n hn interp off p v hv spot
  refine ⟨r, h1, ?_⟩
  rcases spot_range n hn spot (base := base) with h | h | ⟨l, hl, ha, hb'⟩
  · rw [h2 h]; exact hr 0 hn
  · rw [h3 h]; exact hr _ (by omega)
  · rw [h4 l hl ha hb']
    have := size_lt hb (show l < l + 1 by omega)
    refine lerp_between ?_ ?_ (hr l (by omega)) (hr (l + 1) hl)
    · exact div_nonneg (by linarith) (by linarith)
    · rw [div_le_one (by linarith)]; linarith

/-- The change over one range is bounded by the slope. -/
theorem blended_step {base : ℚ} (hb : 0 < base) {n : ℕ} (hn : 0 < n) {v : ℕ → ℚ} {M : ℚ} (hM : 0 ≤ M)
    (hs : ∀ l, l + 1 < n → |v (l + 1) - v l| ≤ M * (base * 2 ^ (l + 1) - base * 2 ^ l))
    {f : ℚ → ℚ} (hf : ∀ s, Blended base n v s (f s)) {s t : ℚ} (hst : s ≤ t) :
    |f t - f s| ≤ M * (t - s) := by
  -- within one range
  have inner : ∀ l, l + 1 < n → ∀ s t : ℚ, base * 2 ^ l ≤ s → s ≤ t → t ≤ base * 2 ^ (l + 1) →
      |f t - f s| ≤ M * (t - s) := by
    intro l hl s t h1 h2 h3
    have hd := size_lt hb (show l < l + 1 by omega)
    have e1 := (hf s).2.2 l hl h1 (le_trans h2 h3)
    have e2 := (hf t).2.2 l hl (le_trans h1 h2) h3
    have hd' : 0 < base * 2 ^ (l + 1) - base * 2 ^ l := by linarith
    have : f t - f s = (v (l + 1) - v l) * ((t - s) / (base * 2 ^ (l + 1) - base * 2 ^ l)) := by
      rw [e1, e2]
      field_simp
      ring
    rw [this, abs_mul, abs_of_nonneg (div_nonneg (by linarith) hd'.le)]
    calc |v (l + 1) - v l| * ((t - s) / (base * 2 ^ (l + 1) - base * 2 ^ l))
        ≤ (M * (base * 2 ^ (l + 1) - base * 2 ^ l)) * ((t - s) / (base * 2 ^ (l + 1) - base * 2 ^ l)) :=
          mul_le_mul_of_nonneg_right (hs l hl) (div_nonneg (by linarith) hd'.le)
      _ = M * (t - s) := by rw [mul_assoc, mul_div_cancel₀ _ hd'.ne']
  -- from the finest size to anywhere up to the size of level `l`
  have upto : ∀ l, l < n → ∀ s t : ℚ, base ≤ s → s ≤ t → t ≤ base * 2 ^ l → |f t - f s| ≤ M * (t - s) := by
    intro l
    induction l with
    | zero =>
      intro _ s t h1 h2 h3
      rw [pow_zero, mul_one] at h3
      have : s = t := by linarith
      subst this
      simp
    | succ l ih =>
      intro hl s t h1 h2 h3
      rcases le_total (base * 2 ^ l) s with h | h
      · exact inner l hl s t h h2 h3
      · rcases le_total t (base * 2 ^ l) with h' | h'
        · exact ih (by omega) s t h1 h2 h'
        · have a := ih (by omega) s (base * 2 ^ l) h1 h (le_refl _)
          have b := inner l hl (base * 2 ^ l) t (le_refl _) h' h3
          rw [show f t - f s = (f t - f (base * 2 ^ l)) + (f (base * 2 ^ l) - f s) by ring]
          refine le_trans (abs_add_le _ _) ?_
          linarith
  have mid : ∀ s t : ℚ, base ≤ s → s ≤ t → |f t - f s| ≤ M * (t - s) := by
    intro s t h1 h2
    rcases le_total t (base * 2 ^ (n - 1)) with h | h
    · exact upto (n - 1) (by omega) s t h1 h2 h
    · have e2 := (hf t).2.1 h
      rcases le_total s (base * 2 ^ (n - 1)) with h' | h'
      · have a := upto (n - 1) (by omega) s _ h1 h' (le_refl _)
        rw [(hf (base * 2 ^ (n - 1))).2.1 (le_refl _)] at a
        rw [e2]
        refine le_trans a ?_
        exact mul_le_mul_of_nonneg_left (by linarith) hM
      · rw [e2, (hf s).2.1 h', sub_self, abs_zero]
        exact mul_nonneg hM (by linarith)
  rcases le_total base s with h | h
  · exact mid s t h hst
  · have e1 := (hf s).1 h
    rcases le_total t base with h' | h'
    · rw [e1, (hf t).1 h', sub_self, abs_zero]
      exact mul_nonneg hM (by linarith)
    · have a := mid base t (le_refl _) h'
      rw [(hf base).1 (le_refl _)] at a
      rw [e1]
      refine le_trans a ?_
      exact mul_le_mul_of_nonneg_left (by linarith) hM

/-- C22: the sample depends continuously on the spot size: if neighbouring levels differ by at most `M` times the
difference of their voxel sizes, the samples for two spot sizes differ by at most `M` times their difference. -/
theorem C22_continuous (base : ℚ) (hb : 0 < base) (n : ℕ) (hn : 0 < n) (interp : ℕ → V3q → Option ℚ) (off : V3i)
    (p : V3q) (v : ℕ → ℚ) (hv : LevelValues interp off n p v) (M : ℚ) (hM : 0 ≤ M)
    (hs : ∀ l, l + 1 < n → |v (l + 1) - v l| ≤ M * (base * 2 ^ (l + 1) - base * 2 ^ l)) (s t : ℚ) :
    ∃ a b, sample interp off (levelSizes base n) p s = some a ∧ sample interp off (levelSizes base n) p t = some b ∧
      |b - a| ≤ M * |t - s| := by
  have hall := fun s => C22_blended base hb n hn interp off p v hv s
  choose f hf using hall
  refine ⟨f s, f t, (hf s).1, (hf t).1, ?_⟩
  rcases le_total s t with h | h
  · rw [abs_of_nonneg (sub_nonneg.2 h)]
    exact blended_step hb hn hM hs (fun s => (hf s).2) h
  · rw [abs_sub_comm (f t), abs_sub_comm t, abs_of_nonneg (sub_nonneg.2 h)]
    exact blended_step hb hn hM hs (fun s => (hf s).2) h

/-- Three levels with values 4, 8 and 0: the hypotheses are met with slope 4, and halfway between the sizes of the
last two levels the sample is 4. -/
example : LevelValues (fun l _ => some (if l = 0 then 4 else if l = 1 then 8 else 0)) ⟨0, 0, 0⟩ 3 ⟨0, 0, 0⟩
      (fun l => if l = 0 then 4 else if l = 1 then 8 else 0) ∧
    sample (fun l _ => some (if l = 0 then 4 else if l = 1 then 8 else 0)) ⟨0, 0, 0⟩ (levelSizes 1 3) ⟨0, 0, 0⟩ 3 =
      some 4 := ⟨fun l _ => rfl, by decide +kernel⟩

/-! ## Coordinates of levels -/

theorem coord1_eq (off : ℤ) (l : ℕ) (p : ℚ) :
    mipCoord1 off l p = (p + off) / 2 ^ l - ((off / 2 ^ l : ℤ) : ℚ) := by
  have h : (2 ^ l : ℚ) ≠ 0 := by positivity
  simp only [mipCoord1]
  push_cast
  field_simp
  ring

/-- The voxel of level `l` that covers voxel `q` of level 0: in absolute coordinates (those in which voxel 0 of level 0
has the coordinate `off`) voxel `c` of level `l` covers the `2^l` voxels from `c * 2^l`, and voxel 0 of the level is the
one that covers `off`. -/
def coarse (off : ℤ) (l : ℕ) (q : ℤ) : ℤ := (q + off) / 2 ^ l - off / 2 ^ l

/-- The voxel whose cell contains the coordinate. -/
def InVoxel (p : V3q) (q : V3i) : Prop :=
  ((q.x : ℚ) ≤ p.x ∧ p.x < q.x + 1) ∧ ((q.y : ℚ) ≤ p.y ∧ p.y < q.y + 1) ∧ ((q.z : ℚ) ≤ p.z ∧ p.z < q.z + 1)

theorem coarse_cell (off : ℤ) (l : ℕ) (q : ℤ) (p : ℚ) (h1 : (q : ℚ) ≤ p) (h2 : p < q + 1) (c : ℤ) :
    ((c : ℚ) ≤ mipCoord1 off l p ∧ mipCoord1 off l p < c + 1) ↔ coarse off l q = c := by
  have hp : (0 : ℚ) < 2 ^ l := by positivity
  have hz : (0 : ℤ) < 2 ^ l := by positivity
  have key : ((q + off) / 2 ^ l : ℤ) = ⌊(p + off) / 2 ^ l⌋ := by
    symm
    rw [Int.floor_eq_iff]
    have d1 := Int.mul_ediv_add_emod (q + off) (2 ^ l)
    have d2 := Int.emod_nonneg (q + off) hz.ne'
    have d3 := Int.emod_lt_of_pos (q + off) hz
    generalize hk : (q + off) / 2 ^ l = k at d1
    generalize hr : (q + off) % 2 ^ l = r at d1 d2 d3
    have d1' : (2 ^ l : ℚ) * k + r = q + off := by exact_mod_cast d1
    have d2' : (0 : ℚ) ≤ r := by exact_mod_cast d2
    have d3' : (r : ℚ) + 1 ≤ 2 ^ l := by exact_mod_cast d3
    constructor
    · rw [le_div_iff₀ hp]; linarith
    · rw [div_lt_iff₀ hp]; linarith
  rw [coord1_eq, coarse, key]
  constructor
  · rintro ⟨a, b⟩
    have : ⌊(p + off) / 2 ^ l⌋ = c + off / 2 ^ l := by
      rw [Int.floor_eq_iff]; push_cast; constructor <;> linarith
    rw [this]; ring
  · intro h
    have h' : ⌊(p + off) / 2 ^ l⌋ = c + off / 2 ^ l := by linarith
    rw [Int.floor_eq_iff] at h'
    push_cast at h'
    constructor <;> linarith [h'.1, h'.2]

/-- C23: a point of a voxel of level 0 has, in level `l`, coordinates in the voxel that covers it, and in no other. -/
theorem C23_cells (off : V3i) (l : ℕ) (p : V3q) (q c : V3i) (h : InVoxel p q) :
    InVoxel (mipCoord off l p) c ↔ c = ⟨coarse off.x l q.x, coarse off.y l q.y, coarse off.z l q.z⟩ := by
  obtain ⟨⟨x1, x2⟩, ⟨y1, y2⟩, z1, z2⟩ := h
  unfold InVoxel mipCoord
  rw [coarse_cell _ _ _ _ x1 x2, coarse_cell _ _ _ _ y1 y2, coarse_cell _ _ _ _ z1 z2]
  constructor
  · rintro ⟨a, b, d⟩
    cases c
    simp only at a b d
    rw [a, b, d]
  · rintro rfl
    exact ⟨rfl, rfl, rfl⟩

example : InVoxel ⟨7 / 2, 1 / 4, -5 / 2⟩ ⟨3, 0, -3⟩ ∧ mipCoord ⟨-3, 1, 2⟩ 2 ⟨7 / 2, 1 / 4, -5 / 2⟩ = ⟨9 / 8, 5 / 16, -1 / 8⟩ ∧
    (coarse (-3) 2 3 = 1 ∧ coarse 1 2 0 = 0 ∧ coarse 2 2 (-3) = -1) := by
  refine ⟨by unfold InVoxel; norm_num, by decide +kernel, by decide⟩

/-- C23: taking the levels one after the other, each with the offset halved (rounded down), gives the same
coordinates. -/
theorem C23_steps (off : V3i) (a b : ℕ) (p : V3q) :
    mipCoord off (a + b) p = mipCoord ⟨off.x / 2 ^ a, off.y / 2 ^ a, off.z / 2 ^ a⟩ b (mipCoord off a p) := by
  have one : ∀ (o : ℤ) (q : ℚ), mipCoord1 o (a + b) q = mipCoord1 (o / 2 ^ a) b (mipCoord1 o a q) := by
    intro o q
    have h1 : (2 ^ a : ℚ) ≠ 0 := by positivity
    have h2 : (2 ^ b : ℚ) ≠ 0 := by positivity
    rw [coord1_eq, coord1_eq, coord1_eq, Int.ediv_ediv_of_nonneg (by positivity), ← pow_add, pow_add]
    congr 1
    field_simp
    ring
  unfold mipCoord
  rw [one, one, one]

/-- C23: the coarse voxels are nested in the same way. -/
theorem C23_nested (off : ℤ) (a b : ℕ) (q : ℤ) :
    coarse off (a + b) q = coarse (off / 2 ^ a) b (coarse off a q) := by
  unfold coarse
  rw [sub_add_cancel, Int.ediv_ediv_of_nonneg (by positivity), Int.ediv_ediv_of_nonneg (by positivity), ← pow_add]

/-- C23: distances shrink by `2^l`, whatever the offset. -/
theorem C23_scale (off : V3i) (l : ℕ) (p d : V3q) :
    mipCoord off l ⟨p.x + d.x, p.y + d.y, p.z + d.z⟩ =
      ⟨(mipCoord off l p).x + d.x / 2 ^ l, (mipCoord off l p).y + d.y / 2 ^ l, (mipCoord off l p).z + d.z / 2 ^ l⟩ := by
  have one : ∀ (o : ℤ) (q e : ℚ), mipCoord1 o l (q + e) = mipCoord1 o l q + e / 2 ^ l := by
    intro o q e
    rw [coord1_eq, coord1_eq]; ring
  unfold mipCoord
  simp only [one]

end F3D.Props
