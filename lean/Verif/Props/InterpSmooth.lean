import Verif.Props.Interp

/-!
# Property C96: small steps of the sample point

How much a sample can change when the sample point moves.
-/

namespace F3D.Props
open F3D F3D.Interp

/-- The distance of two points along the axes. -/
def stepLength (p q : V3q) : ℚ := |p.x - q.x| + |p.y - q.y| + |p.z - q.z|

/-- Values next to each other differ by at most `L`. -/
def SlopeAtMost (lo hi : V3i) (g : V3i → ℚ) (L : ℚ) : Prop :=
  ∀ q q' : V3i, (⟨lo, hi⟩ : Box3i).contains q = true → (⟨lo, hi⟩ : Box3i).contains q' = true →
    (q' = ⟨q.x + 1, q.y, q.z⟩ ∨ q' = ⟨q.x, q.y + 1, q.z⟩ ∨ q' = ⟨q.x, q.y, q.z + 1⟩) → |g q' - g q| ≤ L

theorem lin1_diff {lo hi : ℤ} (h : lo ≤ hi) {v w : ℤ → ℚ} {p L : ℚ} (hd : ∀ i, lo ≤ i → i ≤ hi → |v i - w i| ≤ L) :
    |lin1 lo hi v p - lin1 lo hi w p| ≤ L := by
  obtain ⟨w1, w2⟩ := weights p
  have a := abs_le.mp (hd _ (clampMM_mem (c := p.floor) h).1 (clampMM_mem h).2)
  have b := abs_le.mp (hd _ (clampMM_mem (c := p.floor + 1) h).1 (clampMM_mem h).2)
  unfold lin1
  generalize clampMM lo hi p.floor = i at *
  generalize clampMM lo hi (p.floor + 1) = j at *
  generalize ((p.floor + 1 : ℤ) : ℚ) - p = t at *
  rw [abs_le]
  constructor <;> nlinarith

theorem clamp_step {lo hi : ℤ} (h : lo ≤ hi) {v : ℤ → ℚ} {L : ℚ} (hL : 0 ≤ L)
    (hv : ∀ i, lo ≤ i → i + 1 ≤ hi → |v (i + 1) - v i| ≤ L) (c : ℤ) :
    |v (clampMM lo hi (c + 1)) - v (clampMM lo hi c)| ≤ L := by
  by_cases h1 : lo ≤ c
  · by_cases h2 : c + 1 ≤ hi
    · rw [clampMM_id (by omega) h2, clampMM_id h1 (by omega)]
      exact hv c h1 h2
    · have : clampMM lo hi (c + 1) = clampMM lo hi c := by unfold clampMM; omega
      rw [this]; simpa using hL
  · have : clampMM lo hi (c + 1) = clampMM lo hi c := by unfold clampMM; omega
    rw [this]; simpa using hL

theorem clamp_steps {lo hi : ℤ} (h : lo ≤ hi) {v : ℤ → ℚ} {L : ℚ} (hL : 0 ≤ L)
    (hv : ∀ i, lo ≤ i → i + 1 ≤ hi → |v (i + 1) - v i| ≤ L) (c : ℤ) (n : ℕ) :
    |v (clampMM lo hi (c + n)) - v (clampMM lo hi c)| ≤ L * n := by
  induction n with
  | zero => simp
  | succ n ih =>
    have hs := clamp_step h hL hv (c + n)
    have e : c + ((n + 1 : ℕ) : ℤ) = c + n + 1 := by push_cast; ring
    rw [e]
    rw [abs_le] at *
    push_cast
    constructor <;> linarith

theorem lin1_lipschitz_le {lo hi : ℤ} (h : lo ≤ hi) {v : ℤ → ℚ} {L : ℚ} (hL : 0 ≤ L)
    (hv : ∀ i, lo ≤ i → i + 1 ≤ hi → |v (i + 1) - v i| ≤ L) {p q : ℚ} (hpq : p ≤ q) :
    |lin1 lo hi v p - lin1 lo hi v q| ≤ L * (q - p) := by
  have f1 := floor_le' p; have f2 := lt_floor' p
  have g1 := floor_le' q; have g2 := lt_floor' q
  have hfl : p.floor ≤ q.floor := Int.floor_le_floor hpq
  unfold lin1
  have sp := abs_le.mp (clamp_step h hL hv p.floor)
  have sq := abs_le.mp (clamp_step h hL hv q.floor)
  push_cast
  rcases Int.lt_or_eq_of_le hfl with hlt | heq
  · obtain ⟨n, hn⟩ : ∃ n : ℕ, q.floor = p.floor + 1 + n := ⟨(q.floor - (p.floor + 1)).toNat, by omega⟩
    have ss := abs_le.mp (clamp_steps h hL hv (p.floor + 1) n)
    rw [← hn] at ss
    have hnq : (q.floor : ℚ) = p.floor + 1 + n := by rw [hn]; push_cast; ring
    generalize v (clampMM lo hi p.floor) = a at *
    generalize v (clampMM lo hi (p.floor + 1)) = b at *
    generalize v (clampMM lo hi q.floor) = c at *
    generalize v (clampMM lo hi (q.floor + 1)) = d at *
    rw [hnq] at g1 g2 ⊢
    generalize (p.floor : ℚ) = m at *
    generalize (n : ℚ) = k at *
    have m1 : (m + 1 - p) * (b - a) ≤ (m + 1 - p) * L := mul_le_mul_of_nonneg_left sp.2 (by linarith)
    have m2 : (m + 1 - p) * (-L) ≤ (m + 1 - p) * (b - a) := mul_le_mul_of_nonneg_left sp.1 (by linarith)
    have m3 : (q - (m + 1 + k)) * (d - c) ≤ (q - (m + 1 + k)) * L := mul_le_mul_of_nonneg_left sq.2 (by linarith)
    have m4 : (q - (m + 1 + k)) * (-L) ≤ (q - (m + 1 + k)) * (d - c) := mul_le_mul_of_nonneg_left sq.1 (by linarith)
    rw [abs_le]
    constructor <;> nlinarith
  · rw [← heq] at *
    generalize v (clampMM lo hi p.floor) = a at *
    generalize v (clampMM lo hi (p.floor + 1)) = b at *
    have m1 : (q - p) * (b - a) ≤ (q - p) * L := mul_le_mul_of_nonneg_left sp.2 (by linarith)
    have m2 : (q - p) * (-L) ≤ (q - p) * (b - a) := mul_le_mul_of_nonneg_left sp.1 (by linarith)
    rw [abs_le]
    constructor <;> nlinarith

theorem lin1_lipschitz {lo hi : ℤ} (h : lo ≤ hi) {v : ℤ → ℚ} {L : ℚ} (hL : 0 ≤ L)
    (hv : ∀ i, lo ≤ i → i + 1 ≤ hi → |v (i + 1) - v i| ≤ L) (p q : ℚ) :
    |lin1 lo hi v p - lin1 lo hi v q| ≤ L * |p - q| := by
  rcases le_total p q with hpq | hpq
  · rw [abs_sub_comm p q, abs_of_nonneg (show 0 ≤ q - p by linarith)]
    exact lin1_lipschitz_le h hL hv hpq
  · rw [abs_sub_comm, abs_of_nonneg (show 0 ≤ p - q by linarith)]
    exact lin1_lipschitz_le h hL hv hpq

theorem lin3_lipschitz {lo hi : V3i} (hx : lo.x ≤ hi.x) (hy : lo.y ≤ hi.y) (hz : lo.z ≤ hi.z) {g : V3i → ℚ} {L : ℚ}
    (hL : 0 ≤ L) (hg : SlopeAtMost lo hi g L) (p q : V3q) : |lin3 lo hi g p - lin3 lo hi g q| ≤ L * stepLength p q := by
  have s1 : |lin3 lo hi g p - lin3 lo hi g ⟨q.x, p.y, p.z⟩| ≤ L * |p.x - q.x| := by
    unfold lin3
    apply lin1_lipschitz hx hL
    intro i i1 i2
    apply lin1_diff hy
    intro j j1 j2
    apply lin1_diff hz
    intro k k1 k2
    exact hg ⟨i, j, k⟩ ⟨i + 1, j, k⟩ (by rw [Box3i.contains_iff]; simp only; omega)
      (by rw [Box3i.contains_iff]; simp only; omega) (Or.inl rfl)
  have s2 : |lin3 lo hi g ⟨q.x, p.y, p.z⟩ - lin3 lo hi g ⟨q.x, q.y, p.z⟩| ≤ L * |p.y - q.y| := by
    unfold lin3
    apply lin1_diff hx
    intro i i1 i2
    apply lin1_lipschitz hy hL
    intro j j1 j2
    apply lin1_diff hz
    intro k k1 k2
    exact hg ⟨i, j, k⟩ ⟨i, j + 1, k⟩ (by rw [Box3i.contains_iff]; simp only; omega)
      (by rw [Box3i.contains_iff]; simp only; omega) (Or.inr (Or.inl rfl))
  have s3 : |lin3 lo hi g ⟨q.x, q.y, p.z⟩ - lin3 lo hi g ⟨q.x, q.y, q.z⟩| ≤ L * |p.z - q.z| := by
    unfold lin3
    apply lin1_diff hx
    intro i i1 i2
    apply lin1_diff hy
    intro j j1 j2
    apply lin1_lipschitz hz hL
    intro k k1 k2
    exact hg ⟨i, j, k⟩ ⟨i, j, k + 1⟩ (by rw [Box3i.contains_iff]; simp only; omega)
      (by rw [Box3i.contains_iff]; simp only; omega) (Or.inr (Or.inr rfl))
  have e : lin3 lo hi g ⟨q.x, q.y, q.z⟩ = lin3 lo hi g q := rfl
  rw [e] at s3
  unfold stepLength
  rw [abs_le] at *
  constructor <;> nlinarith

/-- C96: with the linear interpolators a step of the sample point, anywhere and of any length, changes the sample by at
most the length of the step times the largest difference of neighbouring voxels. -/
theorem C96_linear_step (dw : Box3i) (h : dw.isEmpty = false) (rd : V3i → Option ℚ) (g : V3i → ℚ)
    (hg : FieldIs dw rd g) (L : ℚ) (hL : 0 ≤ L) (hs : SlopeAtMost dw.min dw.max g L) (p q : V3q) :
    ∃ a b, linear dw rd p = some a ∧ linear dw rd q = some b ∧ linearGeneric dw rd p = some a ∧
      linearGeneric dw rd q = some b ∧ |a - b| ≤ L * stepLength p q := by
  obtain ⟨h1, h2, h3⟩ := Box3i.isEmpty_false.mp h
  refine ⟨_, _, linear_eq h hg p, linear_eq h hg q, by rw [linearGeneric_eq_linear h, linear_eq h hg],
    by rw [linearGeneric_eq_linear h, linear_eq h hg], ?_⟩
  refine le_trans (lin3_lipschitz h1 h2 h3 hL hs _ _) (le_of_eq ?_)
  unfold stepLength sub
  simp only [sub_sub_sub_cancel_right]

/-- C96: the same for the interpolator of sparse fields, across blocks, allocated or not. -/
theorem C96_sparse_step (f : Sparse ℚ) (h : SparseReachable 0 f) (g : V3i → ℚ) (hg : FieldIs f.dw f.value g) (L : ℚ)
    (hL : 0 ≤ L) (hs : SlopeAtMost f.dw.min f.dw.max g L) (p q : V3q) :
    ∃ a b, Interp.sparse f p = some a ∧ Interp.sparse f q = some b ∧ |a - b| ≤ L * stepLength p q := by
  have hne : f.dw.isEmpty = false := by
    obtain ⟨m, r⟩ := reachable_refines h
    exact r.wf.ne
  obtain ⟨a, b, _, _, h3, h4, h5⟩ := C96_linear_step f.dw hne f.value g hg L hL hs p q
  exact ⟨a, b, by rw [(C19_sparse_fast_path f h p).1, h3], by rw [(C19_sparse_fast_path f h q).1, h4], h5⟩

/-- C96: the same for each component of MAC fields. -/
theorem C96_mac_step (f : Mac) (hne : f.dw.isEmpty = false) (c : MacComp) (g : V3i → ℚ)
    (hg : ∀ q, IsFace f.dw c q → f.face c q = some (g q)) (L : ℚ) (hL : 0 ≤ L)
    (hs : SlopeAtMost f.dw.min (macMax f.dw c) g L) (p q : V3q) :
    ∃ a b, macComp f c p = some a ∧ macComp f c q = some b ∧ |a - b| ≤ L * stepLength p q := by
  obtain ⟨h1, h2, h3⟩ := Box3i.isEmpty_false.mp hne
  have hx : f.dw.min.x ≤ (macMax f.dw c).x := by cases c <;> simp [macMax] <;> omega
  have hy : f.dw.min.y ≤ (macMax f.dw c).y := by cases c <;> simp [macMax] <;> omega
  have hz : f.dw.min.z ≤ (macMax f.dw c).z := by cases c <;> simp [macMax] <;> omega
  refine ⟨_, _, macComp_eq hne hg p, macComp_eq hne hg q, ?_⟩
  refine le_trans (lin3_lipschitz hx hy hz hL hs _ _) (le_of_eq ?_)
  cases c <;> unfold stepLength macPos <;> simp only [sub_sub_sub_cancel_right]

/-- The rows of the sample: j is 0, 1, 2, 3 along y, k along z; one voxel along x. -/
def crossingRows (q : V3i) : Option ℚ :=
  if q.x = 0 ∧ 0 ≤ q.z ∧ q.z ≤ 3 then
    if q.y = 0 then some 0
    else if q.y = 1 then some (q.z - 1)
    else if q.y = 2 then some (2 - q.z)
    else if q.y = 3 then some 8
    else none
  else none

/-- C96: cubic sampling jumps inside of a voxel: in a field of 1 x 4 x 4 voxels with values from -1 to 8 the sample at one
point is 1/2, and at all points up to half a voxel after it, however near, 1/16. -/
theorem C96_cubic_jumps : cubic ⟨⟨0, 0, 0⟩, ⟨0, 3, 3⟩⟩ crossingRows ⟨1 / 2, 2, 2⟩ = some (1 / 2) ∧
    ∀ e : ℚ, 0 < e → e < 1 / 2 → cubic ⟨⟨0, 0, 0⟩, ⟨0, 3, 3⟩⟩ crossingRows ⟨1 / 2, 2, 2 + e⟩ = some (1 / 16) := by
  constructor
  · decide +kernel
  · intro e h0 h1
    have m1 : maxHalf (1 / 2) = 1 / 2 := by unfold maxHalf; norm_num
    have m2 : maxHalf 2 = 2 := by unfold maxHalf; norm_num
    have m3 : maxHalf (2 + e) = 2 + e := by unfold maxHalf; rw [if_pos (by linarith)]
    have fl1 : ((1 / 2 : ℚ) - 1 / 2).floor = 0 := floor_unique (by norm_num) (by norm_num)
    have fl2 : ((2 : ℚ) - 1 / 2).floor = 1 := floor_unique (by norm_num) (by norm_num)
    have fl3 : (2 + e - 1 / 2).floor = 1 := floor_unique (by push_cast; linarith) (by push_cast; linarith)
    have hm : ∀ i : ℤ, clampMM 0 0 i = 0 := by intro i; unfold clampMM; omega
    have k0 : clampMM 0 3 (1 - 1) = 0 := by decide
    have k1 : clampMM 0 3 1 = 1 := by decide
    have k2 : clampMM 0 3 (1 + 1) = 2 := by decide
    have k3 : clampMM 0 3 (1 + 2) = 3 := by decide
    have r0 : ∀ k : ℤ, 0 ≤ k ∧ k ≤ 3 → crossingRows ⟨0, 0, k⟩ = some 0 := by
      intro k hk; unfold crossingRows; simp [hk]
    have r1 : ∀ k : ℤ, 0 ≤ k ∧ k ≤ 3 → crossingRows ⟨0, 1, k⟩ = some ((k : ℚ) - 1) := by
      intro k hk; unfold crossingRows; simp [hk]
    have r2 : ∀ k : ℤ, 0 ≤ k ∧ k ≤ 3 → crossingRows ⟨0, 2, k⟩ = some (2 - (k : ℚ)) := by
      intro k hk; unfold crossingRows; simp [hk]
    have r3 : ∀ k : ℤ, 0 ≤ k ∧ k ≤ 3 → crossingRows ⟨0, 3, k⟩ = some 8 := by
      intro k hk; unfold crossingRows; simp [hk]
    have u1 : ∀ t : ℚ, mono (((0 : ℤ) : ℚ) - 1) (((1 : ℤ) : ℚ) - 1) (((2 : ℤ) : ℚ) - 1) (((3 : ℤ) : ℚ) - 1) t = t := by
      intro t; unfold mono; norm_num
    have u2 : ∀ t : ℚ, mono (2 - ((0 : ℤ) : ℚ)) (2 - ((1 : ℤ) : ℚ)) (2 - ((2 : ℤ) : ℚ)) (2 - ((3 : ℤ) : ℚ)) t = 1 - t := by
      intro t; unfold mono; norm_num; ring
    have u3 : mono 0 (2 + e - 1 / 2 - ((1 : ℤ) : ℚ)) (1 - (2 + e - 1 / 2 - ((1 : ℤ) : ℚ))) 8 (2 - 1 / 2 - ((1 : ℤ) : ℚ)) =
        1 / 16 := by
      have ne : (1 - (2 + e - 1 / 2 - ((1 : ℤ) : ℚ))) - (2 + e - 1 / 2 - ((1 : ℤ) : ℚ)) ≠ 0 := by
        intro h; push_cast at h; linarith
      unfold mono
      simp only [if_neg ne]
      push_cast
      ring
    unfold cubic cubicLines line4
    simp only [sub, floor3, m1, m2, m3, fl1, fl2, fl3, hm, k0, k1, k2, k3]
    rw [r0 0 (by decide), r0 1 (by decide), r0 2 (by decide), r0 3 (by decide), r1 0 (by decide), r1 1 (by decide),
      r1 2 (by decide), r1 3 (by decide), r2 0 (by decide), r2 1 (by decide), r2 2 (by decide), r2 3 (by decide),
      r3 0 (by decide), r3 1 (by decide), r3 2 (by decide), r3 3 (by decide)]
    simp only [Option.bind_eq_bind, Option.bind_some, u1, u2, mono_const, u3]

theorem mono_one (a b c d : ℚ) : mono a b c d 1 = c := by
  unfold mono; simp only; split <;> ring

theorem mono_step {a b c d K s t : ℚ} (ha : |a| ≤ K) (hb : |b| ≤ K) (hc : |c| ≤ K) (hd : |d| ≤ K)
    (hs : 0 ≤ s ∧ s ≤ 1) (ht : 0 ≤ t ∧ t ≤ 1) : |mono a b c d t - mono a b c d s| ≤ 37 * K * |t - s| := by
  rw [abs_le] at ha hb hc hd
  have key : ∀ dk dk1 : ℚ, -K ≤ dk → dk ≤ K → -K ≤ dk1 → dk1 ≤ K →
      |((dk + dk1 - 2 * (c - b)) * (t * t * t) + (3 * (c - b) - 2 * dk - dk1) * (t * t) + dk * t + b) -
       ((dk + dk1 - 2 * (c - b)) * (s * s * s) + (3 * (c - b) - 2 * dk - dk1) * (s * s) + dk * s + b)| ≤
      37 * K * |t - s| := by
    intro dk dk1 h1 h2 h3 h4
    have e : ((dk + dk1 - 2 * (c - b)) * (t * t * t) + (3 * (c - b) - 2 * dk - dk1) * (t * t) + dk * t + b) -
       ((dk + dk1 - 2 * (c - b)) * (s * s * s) + (3 * (c - b) - 2 * dk - dk1) * (s * s) + dk * s + b) =
       ((dk + dk1 - 2 * (c - b)) * (t * t + t * s + s * s) + (3 * (c - b) - 2 * dk - dk1) * (t + s) + dk) * (t - s) := by
      ring
    rw [e, abs_mul]
    apply mul_le_mul_of_nonneg_right _ (abs_nonneg _)
    have u0 : 0 ≤ t * t + t * s + s * s := by
      have := mul_nonneg ht.1 ht.1; have := mul_nonneg ht.1 hs.1; have := mul_nonneg hs.1 hs.1; linarith
    have u1 : t * t + t * s + s * s ≤ 3 := by
      have := mul_le_one₀ ht.2 ht.1 ht.2; have := mul_le_one₀ ht.2 hs.1 hs.2; have := mul_le_one₀ hs.2 hs.1 hs.2; linarith
    have w0 : 0 ≤ t + s := by linarith
    have w1 : t + s ≤ 2 := by linarith
    generalize t * t + t * s + s * s = u at *
    generalize t + s = w at *
    have A : |(dk + dk1 - 2 * (c - b)) * u| ≤ 6 * K * 3 := by
      rw [abs_mul, abs_of_nonneg u0]
      exact mul_le_mul (by rw [abs_le]; constructor <;> linarith) u1 u0 (by linarith)
    have B : |(3 * (c - b) - 2 * dk - dk1) * w| ≤ 9 * K * 2 := by
      rw [abs_mul, abs_of_nonneg w0]
      exact mul_le_mul (by rw [abs_le]; constructor <;> linarith) w1 w0 (by linarith)
    rw [abs_le] at *
    constructor <;> linarith
  unfold mono
  simp only
  by_cases h : c - b = 0
  · simp only [if_pos h]
    exact key 0 0 (by linarith) (by linarith) (by linarith) (by linarith)
  · simp only [if_neg h]
    exact key _ _ (by linarith) (by linarith) (by linarith) (by linarith)

theorem mono_bound {a b c d K t : ℚ} (ha : |a| ≤ K) (hb : |b| ≤ K) (hc : |c| ≤ K) (hd : |d| ≤ K)
    (ht : 0 ≤ t ∧ t ≤ 1) : |mono a b c d t| ≤ 38 * K := by
  have h := mono_step ha hb hc hd (s := 0) ⟨le_refl _, zero_le_one⟩ ht
  rw [mono_zero, sub_zero, abs_of_nonneg ht.1] at h
  have hK : 0 ≤ K := le_trans (abs_nonneg _) ha
  have h2 : 37 * K * t ≤ 37 * K * 1 := mul_le_mul_of_nonneg_left ht.2 (by linarith)
  rw [abs_le] at *
  constructor <;> linarith

theorem cub1_bound {lo hi : ℤ} (h : lo ≤ hi) {v : ℤ → ℚ} {K : ℚ} (hv : ∀ i, lo ≤ i → i ≤ hi → |v i| ≤ K) (c : ℤ) {t : ℚ}
    (ht : 0 ≤ t ∧ t ≤ 1) : |cub1 lo hi v c t| ≤ 38 * K := by
  have hk : ∀ n, |v (clampMM lo hi n)| ≤ K := fun n => hv _ (clampMM_mem h).1 (clampMM_mem h).2
  exact mono_bound (hk _) (hk _) (hk _) (hk _) ht

theorem fraction (x : ℚ) : 0 ≤ x - x.floor ∧ x - x.floor ≤ 1 := by
  have := floor_le' x; have := lt_floor' x
  constructor <;> linarith

theorem cub1_step_le {lo hi : ℤ} (h : lo ≤ hi) {v : ℤ → ℚ} {K : ℚ} (hv : ∀ i, lo ≤ i → i ≤ hi → |v i| ≤ K)
    {p q : ℚ} (hlo : (lo : ℚ) ≤ p) (hpq : p ≤ q) :
    |cub1 lo hi v q.floor (q - q.floor) - cub1 lo hi v p.floor (p - p.floor)| ≤ 37 * K * (q - p) := by
  have hk : ∀ n, |v (clampMM lo hi n)| ≤ K := fun n => hv _ (clampMM_mem h).1 (clampMM_mem h).2
  have hK : 0 ≤ K := le_trans (abs_nonneg _) (hk lo)
  have fp := fraction p; have fq := fraction q
  have hfl : p.floor ≤ q.floor := Int.floor_le_floor hpq
  have hfo : lo ≤ p.floor := Int.le_floor.mpr hlo
  rcases Int.lt_or_eq_of_le hfl with hlt | heq
  · obtain ⟨n, hn⟩ : ∃ n : ℕ, q.floor = p.floor + 1 + n := ⟨(q.floor - (p.floor + 1)).toNat, by omega⟩
    have hnq : (q.floor : ℚ) = p.floor + 1 + n := by rw [hn]; push_cast; ring
    have s1 : |cub1 lo hi v p.floor 1 - cub1 lo hi v p.floor (p - p.floor)| ≤ 37 * K * |1 - (p - p.floor)| :=
      mono_step (hk _) (hk _) (hk _) (hk _) fp ⟨zero_le_one, le_refl _⟩
    have s2 : |cub1 lo hi v q.floor (q - q.floor) - cub1 lo hi v q.floor 0| ≤ 37 * K * |q - q.floor - 0| :=
      mono_step (hk _) (hk _) (hk _) (hk _) ⟨le_refl _, zero_le_one⟩ fq
    have e1 : cub1 lo hi v p.floor 1 = v (clampMM lo hi (p.floor + 1)) := by
      unfold cub1
      rw [mono_one]
      congr 1
      unfold clampMM; omega
    have e2 : cub1 lo hi v q.floor 0 = v (clampMM lo hi q.floor) := by
      unfold cub1; rw [mono_zero]
    have s3 := clamp_steps h (v := v) (L := 2 * K) (by linarith) (by
      intro i i1 i2
      have a := abs_le.mp (hv i i1 (by omega))
      have b := abs_le.mp (hv (i + 1) (by omega) i2)
      rw [abs_le]; constructor <;> linarith) (p.floor + 1) n
    rw [← hn] at s3
    rw [e1, abs_of_nonneg (show 0 ≤ 1 - (p - p.floor) by linarith)] at s1
    rw [e2, sub_zero, abs_of_nonneg fq.1] at s2
    have hn0 : (0 : ℚ) ≤ n := Nat.cast_nonneg n
    have hKn := mul_nonneg hK hn0
    rw [abs_le] at *
    constructor <;> nlinarith
  · have s1 : |cub1 lo hi v p.floor (q - p.floor) - cub1 lo hi v p.floor (p - p.floor)| ≤
        37 * K * |(q - p.floor) - (p - p.floor)| :=
      mono_step (hk _) (hk _) (hk _) (hk _) fp (by rw [heq]; exact fq)
    rw [← heq]
    rw [show (q - p.floor) - (p - p.floor) = q - p by ring, abs_of_nonneg (show 0 ≤ q - p by linarith)] at s1
    exact s1

theorem maxHalf_mono {x y : ℚ} (h : x ≤ y) : maxHalf x ≤ maxHalf y ∧ maxHalf y - maxHalf x ≤ y - x ∧ 1 / 2 ≤ maxHalf x := by
  unfold maxHalf
  split <;> split <;> refine ⟨?_, ?_, ?_⟩ <;> linarith

/-- C96: along x alone cubic sampling does not jump, if the window does not start after 0: the change is at most a
constant times the largest magnitude of the voxels times the step. -/
theorem C96_cubic_step_along_x : ∃ C : ℚ, ∀ (dw : Box3i) (_ : dw.isEmpty = false) (_ : dw.min.x ≤ 0)
    (rd : V3i → Option ℚ) (g : V3i → ℚ) (_ : FieldIs dw rd g) (M : ℚ) (_ : ∀ q, dw.contains q = true → |g q| ≤ M)
    (x x' y z : ℚ), ∃ a b, cubic dw rd ⟨x, y, z⟩ = some a ∧ cubic dw rd ⟨x', y, z⟩ = some b ∧
      |a - b| ≤ C * M * |x - x'| := by
  refine ⟨37 * (38 * 38), fun dw h hlo rd g hg M hM x x' y z => ?_⟩
  obtain ⟨h1, h2, h3⟩ := Box3i.isEmpty_false.mp h
  refine ⟨_, _, cubicLines_eq h1 h2 h3 hg _ _, cubicLines_eq h1 h2 h3 hg _ _, ?_⟩
  have main : ∀ x x' : ℚ, x ≤ x' →
      |cub3 dw.min dw.max g (floor3 (sub ⟨maxHalf x', maxHalf y, maxHalf z⟩ (1 / 2)))
          ⟨maxHalf x' - 1 / 2 - (maxHalf x' - 1 / 2).floor, maxHalf y - 1 / 2 - (maxHalf y - 1 / 2).floor,
            maxHalf z - 1 / 2 - (maxHalf z - 1 / 2).floor⟩ -
       cub3 dw.min dw.max g (floor3 (sub ⟨maxHalf x, maxHalf y, maxHalf z⟩ (1 / 2)))
          ⟨maxHalf x - 1 / 2 - (maxHalf x - 1 / 2).floor, maxHalf y - 1 / 2 - (maxHalf y - 1 / 2).floor,
            maxHalf z - 1 / 2 - (maxHalf z - 1 / 2).floor⟩| ≤ 37 * (38 * 38) * M * (x' - x) := by
    intro x x' hx
    obtain ⟨m1, m2, m3⟩ := maxHalf_mono hx
    unfold cub3 floor3 sub
    simp only
    have hM0 : 0 ≤ M := le_trans (abs_nonneg _) (hM dw.min (Box3i.contains_iff.mpr ⟨⟨le_refl _, h1⟩, ⟨le_refl _, h2⟩, le_refl _, h3⟩))
    have hb : ∀ i, dw.min.x ≤ i → i ≤ dw.max.x →
        |cub1 dw.min.y dw.max.y (fun j => cub1 dw.min.z dw.max.z (fun k => g ⟨i, j, k⟩) (maxHalf z - 1 / 2).floor
          (maxHalf z - 1 / 2 - (maxHalf z - 1 / 2).floor)) (maxHalf y - 1 / 2).floor
          (maxHalf y - 1 / 2 - (maxHalf y - 1 / 2).floor)| ≤ 38 * (38 * M) := by
      intro i i1 i2
      apply cub1_bound h2 _ _ (fraction _)
      intro j j1 j2
      apply cub1_bound h3 _ _ (fraction _)
      intro k k1 k2
      exact hM _ (Box3i.contains_iff.mpr ⟨⟨i1, i2⟩, ⟨j1, j2⟩, k1, k2⟩)
    have hl : (dw.min.x : ℚ) ≤ maxHalf x - 1 / 2 := by
      have : (dw.min.x : ℚ) ≤ 0 := by exact_mod_cast hlo
      linarith
    refine le_trans (cub1_step_le h1 hb hl (by linarith)) ?_
    have := mul_le_mul_of_nonneg_left m2 (show 0 ≤ 37 * (38 * (38 * M)) by linarith)
    linarith
  rcases le_total x x' with hx | hx
  · rw [abs_sub_comm, abs_sub_comm x x', abs_of_nonneg (show 0 ≤ x' - x by linarith)]
    exact main x x' hx
  · rw [abs_of_nonneg (show 0 ≤ x - x' by linarith)]
    exact main x' x hx

-- The hypotheses hold for a row of voxels whose neighbours differ by at most 3.
example : SlopeAtMost ⟨0, 0, 0⟩ ⟨2, 0, 0⟩ (fun q => if q.x = 0 then 1 else if q.x = 1 then 4 else 2) 3 := by
  rintro ⟨a, b, c⟩ q' h1 h2 h3
  rw [Box3i.contains_iff] at h1 h2
  simp only at h1 h2
  rcases h3 with rfl | rfl | rfl
  · simp only at *
    have : a = 0 ∨ a = 1 := by omega
    rcases this with rfl | rfl <;> norm_num [abs_le]
  · simp only at *; omega
  · simp only at *; omega

example : FieldIs ⟨⟨0, 0, 0⟩, ⟨0, 3, 3⟩⟩ crossingRows (fun q => (crossingRows q).getD 0) := by
  intro q hq
  rw [Box3i.contains_iff] at hq
  simp only at hq
  have : (crossingRows q).isSome = true := by
    unfold crossingRows
    rw [if_pos (by omega)]
    split
    · rfl
    · split
      · rfl
      · split
        · rfl
        · rw [if_pos (by omega)]; rfl
  obtain ⟨v, hv⟩ := Option.isSome_iff_exists.mp this
  simp only [hv, Option.getD_some]

end F3D.Props
