import Verif.Proofs.InterpSparse
import Verif.Props.Dense
import Verif.Props.Sparse
import Verif.Props.Mac

/-!
# C18, C19, C20, C21: interpolation

Voxel `q` covers the unit cube with lower corner `q`; its center is `q + (1/2,1/2,1/2)`. All
arithmetic is exact.
-/

namespace F3D.Props
open F3D F3D.Interp

/-! ## Specification -/

/-- The voxels of the window hold the numbers `g`. Nothing is said about accesses outside. -/
def FieldIs (dw : Box3i) (rd : V3i → Option ℚ) (g : V3i → ℚ) : Prop :=
  ∀ q, dw.contains q = true → rd q = some (g q)

/-- The center of a voxel. -/
def center (q : V3i) : V3q := ⟨q.x + 1 / 2, q.y + 1 / 2, q.z + 1 / 2⟩

/-- The point of `[lo, hi]` nearest to `a`. -/
def nearest (lo hi a : ℚ) : ℚ := max lo (min hi a)

/-- The point nearest to `p` in the box spanned by the centers of the window's voxels. -/
def clampPoint (dw : Box3i) (p : V3q) : V3q :=
  ⟨nearest (dw.min.x + 1 / 2) (dw.max.x + 1 / 2) p.x,
   nearest (dw.min.y + 1 / 2) (dw.max.y + 1 / 2) p.y,
   nearest (dw.min.z + 1 / 2) (dw.max.z + 1 / 2) p.z⟩

/-- `q` is a voxel of the window with a center closer than one voxel to `p` along each axis (after
moving `p` to the nearest point of the box of centers). -/
def Near (dw : Box3i) (p : V3q) (q : V3i) : Prop :=
  dw.contains q = true ∧ |(center q).x - (clampPoint dw p).x| < 1 ∧
    |(center q).y - (clampPoint dw p).y| < 1 ∧ |(center q).z - (clampPoint dw p).z| < 1

/-! ## Auxiliary facts -/

theorem lin1_bounds {lo hi : ℤ} (h : lo ≤ hi) {v : ℤ → ℚ} {p a b : ℚ}
    (hv : ∀ i : ℤ, lo ≤ i → i ≤ hi → |(i : ℚ) - nearest lo hi p| < 1 → a ≤ v i ∧ v i ≤ b) :
    a ≤ lin1 lo hi v p ∧ lin1 lo hi v p ≤ b := by
  have hq : (lo : ℚ) ≤ hi := by exact_mod_cast h
  by_cases h1 : p ≤ lo
  · rw [lin1_clamp_lo h h1]
    apply hv lo (le_refl _) h
    rw [nearest, min_eq_right (le_trans h1 hq), max_eq_left h1]; simp
  by_cases h2 : (hi : ℚ) ≤ p
  · rw [lin1_clamp_hi h h2]
    apply hv hi h (le_refl _)
    rw [nearest, min_eq_left h2, max_eq_right hq]; simp
  have hn : nearest lo hi p = p := by
    rw [nearest, min_eq_right (by linarith), max_eq_right (by linarith)]
  rw [hn] at hv
  have f1 := floor_le' p
  have f2 := lt_floor' p
  have hlo : lo ≤ p.floor := Int.le_floor.mpr (show (lo : ℚ) ≤ p by linarith)
  have hhi : p.floor + 1 ≤ hi := by
    have : (p.floor : ℚ) < hi := by linarith
    have : p.floor < hi := by exact_mod_cast this
    omega
  rcases eq_or_lt_of_le f1 with he | hlt
  · rw [← he, lin1_int hlo (by omega)]
    apply hv _ hlo (by omega)
    rw [← he]; simp
  · have b1 := hv p.floor hlo (by omega) (by rw [abs_lt]; constructor <;> linarith)
    have b2 := hv (p.floor + 1) (by omega) hhi (by push_cast; rw [abs_lt]; constructor <;> linarith)
    constructor
    · apply le_lin1
      · rw [clampMM_id hlo (by omega)]; exact b1.1
      · rw [clampMM_id (by omega) hhi]; exact b2.1
    · apply lin1_le
      · rw [clampMM_id hlo (by omega)]; exact b1.2
      · rw [clampMM_id (by omega) hhi]; exact b2.2

theorem lin1_nearest {lo hi : ℤ} (h : lo ≤ hi) (v : ℤ → ℚ) (p : ℚ) :
    lin1 lo hi v (nearest lo hi p) = lin1 lo hi v p := by
  have hq : (lo : ℚ) ≤ hi := by exact_mod_cast h
  by_cases h1 : p ≤ lo
  · rw [nearest, min_eq_right (le_trans h1 hq), max_eq_left h1, lin1_clamp_lo h h1,
      lin1_int (le_refl _) h]
  by_cases h2 : (hi : ℚ) ≤ p
  · rw [nearest, min_eq_left h2, max_eq_right hq, lin1_clamp_hi h h2, lin1_int h (le_refl _)]
  rw [nearest, min_eq_right (by linarith), max_eq_right (by linarith)]

theorem nearest_shift (lo hi a s : ℚ) : nearest (lo + s) (hi + s) a - s = nearest lo hi (a - s) := by
  unfold nearest
  rw [max_def, max_def, min_def, min_def]
  split_ifs <;> linarith

theorem lin3_bounds {lo hi : V3i} (hx : lo.x ≤ hi.x) (hy : lo.y ≤ hi.y) (hz : lo.z ≤ hi.z)
    {g : V3i → ℚ} {p : V3q} {a b : ℚ}
    (hv : ∀ q : V3i, (⟨lo, hi⟩ : Box3i).contains q = true → |(q.x : ℚ) - nearest lo.x hi.x p.x| < 1 →
      |(q.y : ℚ) - nearest lo.y hi.y p.y| < 1 → |(q.z : ℚ) - nearest lo.z hi.z p.z| < 1 →
      a ≤ g q ∧ g q ≤ b) :
    a ≤ lin3 lo hi g p ∧ lin3 lo hi g p ≤ b := by
  unfold lin3
  refine lin1_bounds hx (fun i a1 a2 n1 => lin1_bounds hy (fun j b1 b2 n2 =>
    lin1_bounds hz (fun k c1 c2 n3 => ?_)))
  exact hv ⟨i, j, k⟩ (Box3i.contains_iff.mpr ⟨⟨a1, a2⟩, ⟨b1, b2⟩, c1, c2⟩) n1 n2 n3

theorem lin3_nearest {lo hi : V3i} (hx : lo.x ≤ hi.x) (hy : lo.y ≤ hi.y) (hz : lo.z ≤ hi.z)
    (g : V3i → ℚ) (p : V3q) :
    lin3 lo hi g ⟨nearest lo.x hi.x p.x, nearest lo.y hi.y p.y, nearest lo.z hi.z p.z⟩ =
      lin3 lo hi g p := by
  unfold lin3
  simp only
  rw [lin1_nearest hx]
  congr 1; funext i
  rw [lin1_nearest hy]
  congr 1; funext j
  rw [lin1_nearest hz]

/-! ## C18 -/

/-- A sample is always defined and depends on the voxels of the window only: two fields which agree
on the window (and may be undefined elsewhere) give the same sample at every point. -/
theorem C18_linear_reads_window_only (dw : Box3i) (h : dw.isEmpty = false)
    (rd rd' : V3i → Option ℚ) (g : V3i → ℚ) (hg : FieldIs dw rd g) (hg' : FieldIs dw rd' g) (p : V3q) :
    (∃ s, linear dw rd p = some s ∧ linear dw rd' p = some s) ∧
    linearGeneric dw rd p = linear dw rd p := by
  refine ⟨⟨_, linear_eq h hg p, linear_eq h hg' p⟩, linearGeneric_eq_linear h rd p⟩

/-- At the center of a voxel the sample is the voxel's value. -/
theorem C18_linear_exact_at_centers (dw : Box3i) (rd : V3i → Option ℚ) (g : V3i → ℚ)
    (hg : FieldIs dw rd g) (q : V3i) (hq : dw.contains q = true) :
    linear dw rd (center q) = some (g q) := by
  rw [linear_eq (Mac.nonempty_of_contains hq) hg]
  have : sub (center q) (1 / 2) = ⟨q.x, q.y, q.z⟩ := by
    simp only [sub, center]; congr 1 <;> ring
  rw [this, lin3_int hq]

/-- A sample lies between any bounds that hold for the voxels near the (clamped) sample point. -/
theorem C18_linear_in_range (dw : Box3i) (h : dw.isEmpty = false) (rd : V3i → Option ℚ)
    (g : V3i → ℚ) (hg : FieldIs dw rd g) (p : V3q) (a b : ℚ)
    (hab : ∀ q, Near dw p q → a ≤ g q ∧ g q ≤ b) :
    ∃ s, linear dw rd p = some s ∧ a ≤ s ∧ s ≤ b := by
  obtain ⟨h1, h2, h3⟩ := Box3i.isEmpty_false.mp h
  refine ⟨_, linear_eq h hg p, ?_⟩
  apply lin3_bounds h1 h2 h3
  intro q hq n1 n2 n3
  refine hab q ⟨hq, ?_, ?_, ?_⟩ <;> simp only [center, clampPoint]
  · rw [show (q.x : ℚ) + 1 / 2 - nearest (dw.min.x + 1 / 2) (dw.max.x + 1 / 2) p.x =
      q.x - (nearest (dw.min.x + 1 / 2) (dw.max.x + 1 / 2) p.x - 1 / 2) by ring, nearest_shift]
    exact n1
  · rw [show (q.y : ℚ) + 1 / 2 - nearest (dw.min.y + 1 / 2) (dw.max.y + 1 / 2) p.y =
      q.y - (nearest (dw.min.y + 1 / 2) (dw.max.y + 1 / 2) p.y - 1 / 2) by ring, nearest_shift]
    exact n2
  · rw [show (q.z : ℚ) + 1 / 2 - nearest (dw.min.z + 1 / 2) (dw.max.z + 1 / 2) p.z =
      q.z - (nearest (dw.min.z + 1 / 2) (dw.max.z + 1 / 2) p.z - 1 / 2) by ring, nearest_shift]
    exact n3

/-- Sampling anywhere is sampling at the nearest point of the box of voxel centers. -/
theorem C18_linear_clamps (dw : Box3i) (h : dw.isEmpty = false) (rd : V3i → Option ℚ)
    (g : V3i → ℚ) (hg : FieldIs dw rd g) (p : V3q) :
    linear dw rd p = linear dw rd (clampPoint dw p) := by
  obtain ⟨h1, h2, h3⟩ := Box3i.isEmpty_false.mp h
  rw [linear_eq h hg, linear_eq h hg, ← lin3_nearest h1 h2 h3]
  simp only [sub, clampPoint, nearest_shift]

/-- Affine functions of the voxel position are reproduced exactly at every point that has voxel
centers on both sides. -/
theorem C18_linear_reproduces_affine (dw : Box3i) (h : dw.isEmpty = false) (rd : V3i → Option ℚ)
    (k bx by' bz : ℚ)
    (hg : FieldIs dw rd (fun q => k + bx * (center q).x + by' * (center q).y + bz * (center q).z))
    (p : V3q) (hx : dw.min.x + 1 / 2 ≤ p.x ∧ p.x ≤ dw.max.x + 1 / 2)
    (hy : dw.min.y + 1 / 2 ≤ p.y ∧ p.y ≤ dw.max.y + 1 / 2)
    (hz : dw.min.z + 1 / 2 ≤ p.z ∧ p.z ≤ dw.max.z + 1 / 2) :
    linear dw rd p = some (k + bx * p.x + by' * p.y + bz * p.z) := by
  rw [linear_eq h hg]
  have := lin3_affine (lo := dw.min) (hi := dw.max) (k + bx * (1 / 2) + by' * (1 / 2) + bz * (1 / 2))
    bx by' bz (p := sub p (1 / 2)) (by simp only [sub]; linarith) (by simp only [sub]; linarith)
    (by simp only [sub]; linarith) (by simp only [sub]; linarith) (by simp only [sub]; linarith)
    (by simp only [sub]; linarith)
  have e : (fun q : V3i => k + bx * (center q).x + by' * (center q).y + bz * (center q).z) =
      fun q : V3i => (k + bx * (1 / 2) + by' * (1 / 2) + bz * (1 / 2)) + bx * q.x + by' * q.y + bz * q.z := by
    funext q; simp only [center]; ring
  rw [e, this]
  simp only [sub]
  congr 1; ring

/-- The theorems above apply to a dense field after any allowed history: its samples are those of the
abstract voxel map. -/
theorem C18_linear_on_dense (e w : Box3i) (hw : w.isEmpty = false) (ops : List (DenseOp ℚ))
    (ha : (VoxelMap.mk e w (fun _ => (0 : ℚ))).allAllowed 0 ops) (p : V3q) :
    ∃ f g, Dense.setSize 0 e w = .ok f ∧ denseRun 0 f ops = some g ∧
      let m := ops.foldl (VoxelMap.apply 0) ⟨e, w, fun _ => (0 : ℚ)⟩
      FieldIs m.dw g.value m.val ∧
      linear g.dw g.value p = linear m.dw (fun q => some (m.val q)) p := by
  obtain ⟨f, g, h0, h1, h2, h3, h4⟩ := C01_dense_faithful_map (0 : ℚ) e w hw ops ha
  refine ⟨f, g, h0, h1, h4, ?_⟩
  have hne : ∀ (ops : List (DenseOp ℚ)) (m : VoxelMap ℚ), m.dw.isEmpty = false → m.allAllowed 0 ops →
      (ops.foldl (VoxelMap.apply 0) m).dw.isEmpty = false := by
    intro ops
    induction ops with
    | nil => intro m h _; exact h
    | cons op ops ih =>
      intro m h ha
      refine ih _ ?_ ha.2
      cases op with
      | write q v => exact h
      | clear v => exact h
      | resize e w => exact ha.1
  have hm := hne ops _ hw ha
  rw [h2, linear_eq hm h4 p, linear_eq hm (fun q _ => rfl) p]

/-- and a bilinear slice: the voxels 0, 1 hold 10, 20; the sample a quarter of the way is 12.5. -/
example : linear ⟨⟨0, 0, 0⟩, ⟨1, 0, 0⟩⟩
    (fun q => if q = ⟨0, 0, 0⟩ then some 10 else if q = ⟨1, 0, 0⟩ then some 20 else none)
    ⟨3 / 4, 1 / 2, -7⟩ = some (25 / 2) := by decide +kernel
example : FieldIs ⟨⟨0, 0, 0⟩, ⟨1, 0, 0⟩⟩
    (fun q => if q = ⟨0, 0, 0⟩ then some 10 else if q = ⟨1, 0, 0⟩ then some 20 else none)
    (fun q => 10 + 10 * q.x) := by
  rintro ⟨x, y, z⟩ hq
  obtain ⟨⟨h1, h2⟩, ⟨h3, h4⟩, h5, h6⟩ := Box3i.contains_iff.mp hq
  simp only at h1 h2 h3 h4 h5 h6
  have hy : y = 0 := by omega
  have hz : z = 0 := by omega
  have hx : x = 0 ∨ x = 1 := by omega
  subst hy hz
  rcases hx with rfl | rfl
  · simp
  · simp; norm_num
example : Near ⟨⟨0, 0, 0⟩, ⟨1, 0, 0⟩⟩ ⟨3 / 4, 1 / 2, -7⟩ ⟨1, 0, 0⟩ := by
  refine ⟨rfl, ?_, ?_, ?_⟩ <;> (simp [center, clampPoint, nearest]; try norm_num [abs_lt])

/-! ## C19 -/

/-- In every reachable sparse field (any window, block order, allocation state, contents), at every
point, the specialised interpolator returns what the generic one returns, which is the interpolation
of the field's voxel values. -/
theorem C19_sparse_fast_path (f : Sparse ℚ) (h : SparseReachable 0 f) (p : V3q) :
    sparse f p = linearGeneric f.dw f.value p ∧
    (∃ s, sparse f p = some s) ∧
    (∀ g, FieldIs f.dw f.value g → sparse f p = linear f.dw (fun q => some (g q)) p) := by
  obtain ⟨m, r⟩ := reachable_refines h
  have wf := r.wf
  have hs : ∃ g, FieldIs f.dw f.value g := by
    refine ⟨fun q => (f.value q).getD 0, ?_⟩
    intro q hq
    obtain ⟨v, hv⟩ := Sparse.value_isSome wf hq
    simp only [hv, Option.getD_some]
  have e1 := sparse_eq wf p
  refine ⟨e1, ?_, ?_⟩
  · obtain ⟨g, hg⟩ := hs
    exact ⟨_, by rw [e1, linearGeneric_eq_linear wf.ne, linear_eq wf.ne hg]⟩
  · intro g hg
    rw [e1, linearGeneric_eq_linear wf.ne, linear_eq wf.ne hg, linear_eq wf.ne (fun q _ => rfl)]

/-- A reachable field in which all three branches occur: window 6 wide, blocks of 4, one allocated. -/
def sparseSample : Option (Sparse ℚ) :=
  sparseRun 0 ((Sparse.empty 0).setSize 0 ⟨⟨0, 0, 0⟩, ⟨5, 1, 0⟩⟩ ⟨⟨0, 0, 0⟩, ⟨5, 1, 0⟩⟩)
    [.setBlockOrder 2, .write ⟨1, 0, 0⟩ 8]
example : (sparseSample.bind (fun f => sparse f ⟨1, 1 / 2, 1 / 2⟩)) = some 4 := by decide +kernel
example : (sparseSample.bind (fun f => sparse f ⟨4, 1 / 2, 1 / 2⟩)) = some 0 := by decide +kernel

/-! ## C20 -/

/-- Where a face value of direction `c` is located: in the middle of the voxel's lower face. -/
def faceCenter (c : MacComp) (q : V3i) : V3q :=
  match c with
  | .u => ⟨q.x, q.y + 1 / 2, q.z + 1 / 2⟩
  | .v => ⟨q.x + 1 / 2, q.y, q.z + 1 / 2⟩
  | .w => ⟨q.x + 1 / 2, q.y + 1 / 2, q.z⟩

/-- A MAC field in a state reached from a resize (in whatever state) by writes and clears. -/
def MacReachable (f : Mac) : Prop :=
  ∃ f₀ f₁ : Mac, ∃ e dw ops, f₀.setSize e dw = some f₁ ∧ (∀ op ∈ ops, macAllowed dw op) ∧
    macRun f₁ ops = some f

theorem macReachable_wf {f : Mac} (h : MacReachable f) : f.WF := by
  obtain ⟨f₀, f₁, e, dw, ops, hs, ha, hr⟩ := h
  obtain ⟨wf, hdw, _⟩ := Mac.setSize_wf hs
  have hh : MacHolds f₁ (fun c p => (f₁.face c p).getD 0) := by
    intro c p hp
    obtain ⟨v, hv⟩ := Mac.face_isSome wf (isFace_iff.mp hp)
    simp only [hv, Option.getD_some]
  obtain ⟨g, hg, gwf, _⟩ := mac_run_refines ops f₁ _ wf hh (by rw [hdw]; exact ha)
  rw [hr] at hg; cases hg; exact gwf

theorem macMax_eq (dw : Box3i) (c : MacComp) : macMax dw c = (Mac.compWindow dw c).max := by
  cases c <;> simp only [macMax, Mac.compWindow] <;> apply V3i.ext' <;> simp

theorem macComp_eq {f : Mac} (hne : f.dw.isEmpty = false) {c : MacComp} {g : V3i → ℚ}
    (hg : ∀ q, IsFace f.dw c q → f.face c q = some (g q)) (p : V3q) :
    macComp f c p = some (lin3 f.dw.min (macMax f.dw c) g (macPos c p)) := by
  obtain ⟨h1, h2, h3⟩ := Box3i.isEmpty_false.mp hne
  have hx : f.dw.min.x ≤ (macMax f.dw c).x := by cases c <;> simp [macMax] <;> omega
  have hy : f.dw.min.y ≤ (macMax f.dw c).y := by cases c <;> simp [macMax] <;> omega
  have hz : f.dw.min.z ≤ (macMax f.dw c).z := by cases c <;> simp [macMax] <;> omega
  unfold macComp
  simp only [← clampMM_eq_LM hx, ← clampMM_eq_LM hy, ← clampMM_eq_LM hz]
  refine tri_eq hx hy hz (fun q hq => hg q ?_) _
  rw [isFace_iff]
  rw [macMax_eq, ← Mac.compWindow_min f.dw c] at hq
  exact hq

/-- Each component of the vector sample is the sample of that component. -/
theorem C20_mac_component_agrees (f : Mac) (h : MacReachable f) (hne : f.dw.isEmpty = false) (p : V3q) :
    ∃ s : V3q, macVec f p = some s ∧ macComp f .u p = some s.x ∧ macComp f .v p = some s.y ∧
      macComp f .w p = some s.z := by
  have wf := macReachable_wf h
  have hs : ∀ c, ∃ s, macComp f c p = some s := by
    intro c
    refine ⟨_, macComp_eq hne (g := fun q => (f.face c q).getD 0) (fun q hq => ?_) p⟩
    obtain ⟨v, hv⟩ := Mac.face_isSome wf (isFace_iff.mp hq)
    simp only [hv, Option.getD_some]
  obtain ⟨x, hx⟩ := hs .u
  obtain ⟨y, hy⟩ := hs .v
  obtain ⟨z, hz⟩ := hs .w
  refine ⟨⟨x, y, z⟩, ?_, hx, hy, hz⟩
  have e : macVec f p = (macComp f .u p).bind fun x => (macComp f .v p).bind fun y =>
      (macComp f .w p).bind fun z => some ⟨x, y, z⟩ := rfl
  rw [e, hx, hy, hz]; rfl

/-- At the center of a face the sample is the stored face value. -/
theorem C20_mac_exact_on_faces (f : Mac) (h : MacReachable f) (hne : f.dw.isEmpty = false)
    (c : MacComp) (q : V3i) (hq : IsFace f.dw c q) :
    (f.face c q).isSome = true ∧ macComp f c (faceCenter c q) = f.face c q := by
  have wf := macReachable_wf h
  obtain ⟨v, hv⟩ := Mac.face_isSome wf (isFace_iff.mp hq)
  refine ⟨by rw [hv]; rfl, ?_⟩
  rw [macComp_eq hne (g := fun q => (f.face c q).getD 0) (fun q hq => ?_)]
  · have e : macPos c (faceCenter c q) = ⟨q.x, q.y, q.z⟩ := by
      cases c <;> simp only [macPos, faceCenter] <;> congr 1 <;> ring
    rw [e, lin3_int, hv]; rfl
    rw [macMax_eq, ← Mac.compWindow_min f.dw c]
    exact isFace_iff.mp hq
  · obtain ⟨v, hv⟩ := Mac.face_isSome wf (isFace_iff.mp hq)
    simp only [hv, Option.getD_some]

/-- A face of the field whose center is closer than one voxel to the sample point along each axis
(after moving the point to the nearest point of the box of face centers). -/
def NearFace (dw : Box3i) (c : MacComp) (p : V3q) (q : V3i) : Prop :=
  IsFace dw c q ∧
  |(faceCenter c q).x - nearest (faceCenter c dw.min).x
    ((faceCenter c dw.max).x + if c = .u then 1 else 0) p.x| < 1 ∧
  |(faceCenter c q).y - nearest (faceCenter c dw.min).y
    ((faceCenter c dw.max).y + if c = .v then 1 else 0) p.y| < 1 ∧
  |(faceCenter c q).z - nearest (faceCenter c dw.min).z
    ((faceCenter c dw.max).z + if c = .w then 1 else 0) p.z| < 1

/-- A component sample lies between any bounds of the faces near the point. -/
theorem C20_mac_in_range (f : Mac) (h : MacReachable f) (hne : f.dw.isEmpty = false) (c : MacComp)
    (p : V3q) (a b : ℚ)
    (hab : ∀ q v, NearFace f.dw c p q → f.face c q = some v → a ≤ v ∧ v ≤ b) :
    ∃ s, macComp f c p = some s ∧ a ≤ s ∧ s ≤ b := by
  have wf := macReachable_wf h
  have hf : ∀ q, IsFace f.dw c q → f.face c q = some ((f.face c q).getD 0) := by
    intro q hq
    obtain ⟨v, hv⟩ := Mac.face_isSome wf (isFace_iff.mp hq)
    simp only [hv, Option.getD_some]
  refine ⟨_, macComp_eq hne hf p, ?_⟩
  obtain ⟨h1, h2, h3⟩ := Box3i.isEmpty_false.mp hne
  apply lin3_bounds (by cases c <;> simp [macMax] <;> omega) (by cases c <;> simp [macMax] <;> omega)
    (by cases c <;> simp [macMax] <;> omega)
  intro q hq n1 n2 n3
  have hq' : IsFace f.dw c q := by
    rw [isFace_iff]; rw [macMax_eq, ← Mac.compWindow_min f.dw c] at hq; exact hq
  refine hab q _ ⟨hq', ?_, ?_, ?_⟩ (hf q hq')
  all_goals
    cases c <;> simp only [faceCenter, macMax, macPos] at n1 n2 n3 ⊢ <;>
    simp only [reduceCtorEq, if_true, if_false, add_zero] <;>
    first
    | (push_cast at n1; exact n1)
    | (push_cast at n2; exact n2)
    | (push_cast at n3; exact n3)
    | (rw [← nearest_shift, ← sub_add] at n1; rw [add_sub_right_comm]; exact n1)
    | (rw [← nearest_shift, ← sub_add] at n2; rw [add_sub_right_comm]; exact n2)
    | (rw [← nearest_shift, ← sub_add] at n3; rw [add_sub_right_comm]; exact n3)

example : MacReachable (((Mac.fresh.setSize ⟨⟨-1, 0, 0⟩, ⟨1, 1, 0⟩⟩ ⟨⟨-1, 0, 0⟩, ⟨1, 1, 0⟩⟩).bind
    (fun f => macRun f [.write .u ⟨2, 1, 0⟩ 6])).getD Mac.fresh) := by
  refine ⟨Mac.fresh, (Mac.fresh.setSize ⟨⟨-1, 0, 0⟩, ⟨1, 1, 0⟩⟩ ⟨⟨-1, 0, 0⟩, ⟨1, 1, 0⟩⟩).getD Mac.fresh,
    ⟨⟨-1, 0, 0⟩, ⟨1, 1, 0⟩⟩, ⟨⟨-1, 0, 0⟩, ⟨1, 1, 0⟩⟩, [.write .u ⟨2, 1, 0⟩ 6], rfl, ?_, ?_⟩
  · simp [macAllowed, IsFace]
  · rfl
example : ((Mac.fresh.setSize ⟨⟨-1, 0, 0⟩, ⟨1, 1, 0⟩⟩ ⟨⟨-1, 0, 0⟩, ⟨1, 1, 0⟩⟩).bind
    (fun f => (macRun f [.write .u ⟨2, 1, 0⟩ 6]).bind (fun g => macVec g ⟨3 / 2, 3 / 2, 1 / 2⟩))) =
    some ⟨3, 0, 0⟩ := by decide +kernel

/-! ## C21 -/

theorem maxHalf_center {n : ℤ} (h : 0 ≤ n) : maxHalf ((n : ℚ) + 1 / 2) = n + 1 / 2 := by
  unfold maxHalf
  have : (0 : ℚ) ≤ n := by exact_mod_cast h
  split <;> linarith

theorem cubic_eq {dw : Box3i} (h : dw.isEmpty = false) {rd : V3i → Option ℚ} {g : V3i → ℚ}
    (hg : FieldIs dw rd g) (p : V3q) :
    ∃ c t, cubic dw rd p = some (cub3 dw.min dw.max g c t) ∧
      cubic dw (fun q => some (g q)) p = some (cub3 dw.min dw.max g c t) := by
  obtain ⟨h1, h2, h3⟩ := Box3i.isEmpty_false.mp h
  exact ⟨_, _, cubicLines_eq h1 h2 h3 hg _ _, cubicLines_eq h1 h2 h3 (fun q _ => rfl) _ _⟩

/-- A cubic sample is always defined and depends on the voxels of the window only. -/
theorem C21_cubic_reads_window_only (dw : Box3i) (h : dw.isEmpty = false)
    (rd rd' : V3i → Option ℚ) (g : V3i → ℚ) (hg : FieldIs dw rd g) (hg' : FieldIs dw rd' g) (p : V3q) :
    ∃ s, cubic dw rd p = some s ∧ cubic dw rd' p = some s := by
  obtain ⟨c, t, e1, e2⟩ := cubic_eq h hg p
  obtain ⟨c', t', e1', e2'⟩ := cubic_eq h hg' p
  exact ⟨_, e1, by rw [e1', ← e2', e2]⟩

/-- At the center of a voxel with non-negative coordinates the sample is the voxel's value. -/
theorem C21_cubic_exact_at_centers (dw : Box3i) (rd : V3i → Option ℚ) (g : V3i → ℚ)
    (hg : FieldIs dw rd g) (q : V3i) (hq : dw.contains q = true)
    (h0 : 0 ≤ q.x ∧ 0 ≤ q.y ∧ 0 ≤ q.z) :
    cubic dw rd (center q) = some (g q) := by
  obtain ⟨h1, h2, h3⟩ := Box3i.isEmpty_false.mp (Mac.nonempty_of_contains hq)
  unfold cubic
  simp only [center, maxHalf_center h0.1, maxHalf_center h0.2.1, maxHalf_center h0.2.2, sub,
    add_sub_cancel_right, floor3, floor_int, sub_self]
  rw [cubicLines_eq h1 h2 h3 hg, cub3_zero hq]

/-- A constant field gives the constant everywhere. -/
theorem C21_cubic_constant (dw : Box3i) (h : dw.isEmpty = false) (rd : V3i → Option ℚ) (a : ℚ)
    (hg : FieldIs dw rd (fun _ => a)) (p : V3q) : cubic dw rd p = some a := by
  obtain ⟨c, t, e1, _⟩ := cubic_eq h hg p
  rw [e1, cub3_const]

theorem cub1_affine {lo hi c : ℤ} (a b t : ℚ) (h1 : lo ≤ c - 1) (h2 : c + 2 ≤ hi) :
    cub1 lo hi (fun i => a + b * (i : ℚ)) c t = a + b * (c + t) := by
  unfold cub1 mono
  rw [clampMM_id (c := c) (by omega) (by omega), clampMM_id (by omega) (by omega),
    clampMM_id (by omega) (by omega), clampMM_id (by omega) (by omega)]
  push_cast
  split
  · rename_i h
    have hb : b = 0 := by linarith
    subst hb; ring
  · ring

/-- Affine functions are reproduced exactly where four voxels are available along each axis. -/
theorem C21_cubic_reproduces_affine (dw : Box3i) (h : dw.isEmpty = false) (rd : V3i → Option ℚ)
    (k bx by' bz : ℚ)
    (hg : FieldIs dw rd (fun q => k + bx * (center q).x + by' * (center q).y + bz * (center q).z))
    (p : V3q) (h0 : 1 / 2 ≤ p.x ∧ 1 / 2 ≤ p.y ∧ 1 / 2 ≤ p.z)
    (hx : dw.min.x + 3 / 2 ≤ p.x ∧ p.x < dw.max.x - 1 / 2)
    (hy : dw.min.y + 3 / 2 ≤ p.y ∧ p.y < dw.max.y - 1 / 2)
    (hz : dw.min.z + 3 / 2 ≤ p.z ∧ p.z < dw.max.z - 1 / 2) :
    cubic dw rd p = some (k + bx * p.x + by' * p.y + bz * p.z) := by
  obtain ⟨h1, h2, h3⟩ := Box3i.isEmpty_false.mp h
  have mh : ∀ a : ℚ, 1 / 2 ≤ a → maxHalf a = a := by
    intro a ha; unfold maxHalf; split <;> linarith
  have fl : ∀ (lo hi : ℤ) (a : ℚ), (lo : ℚ) + 3 / 2 ≤ a ∧ a < hi - 1 / 2 →
      lo ≤ (a - 1 / 2).floor - 1 ∧ (a - 1 / 2).floor + 2 ≤ hi := by
    intro lo hi a ⟨ha, hb⟩
    constructor
    · have : lo + 1 ≤ (a - 1 / 2).floor :=
        Int.le_floor.mpr (show ((lo + 1 : ℤ) : ℚ) ≤ a - 1 / 2 by push_cast; linarith)
      omega
    · have := floor_le' (a - 1 / 2)
      have : ((a - 1 / 2).floor : ℚ) < ((hi - 1 : ℤ) : ℚ) := by push_cast; linarith
      have : (a - 1 / 2).floor < hi - 1 := by exact_mod_cast this
      omega
  unfold cubic
  simp only [mh _ h0.1, mh _ h0.2.1, mh _ h0.2.2]
  rw [cubicLines_eq h1 h2 h3 hg]
  obtain ⟨x1, x2⟩ := fl _ _ _ hx
  obtain ⟨y1, y2⟩ := fl _ _ _ hy
  obtain ⟨z1, z2⟩ := fl _ _ _ hz
  simp only [cub3, sub, floor3, center]
  have e1 : ∀ i j : ℤ, (fun m : ℤ => k + bx * ((i : ℚ) + 1 / 2) + by' * ((j : ℚ) + 1 / 2) +
      bz * ((m : ℚ) + 1 / 2)) =
      fun m : ℤ => (k + bx * ((i : ℚ) + 1 / 2) + by' * ((j : ℚ) + 1 / 2) + bz * (1 / 2)) + bz * (m : ℚ) := by
    intro i j; funext m; ring
  simp only [e1]
  simp only [cub1_affine _ _ _ z1 z2]
  have e2 : ∀ i : ℤ, ∀ w : ℚ, (fun j : ℤ => k + bx * ((i : ℚ) + 1 / 2) + by' * ((j : ℚ) + 1 / 2) +
      bz * (1 / 2) + w) =
      fun j : ℤ => (k + bx * ((i : ℚ) + 1 / 2) + by' * (1 / 2) + bz * (1 / 2) + w) + by' * (j : ℚ) := by
    intro i w; funext j; ring
  simp only [e2, cub1_affine _ _ _ y1 y2]
  have e3 : ∀ w w' : ℚ, (fun i : ℤ => k + bx * ((i : ℚ) + 1 / 2) + by' * (1 / 2) +
      bz * (1 / 2) + w + w') =
      fun i : ℤ => (k + bx * (1 / 2) + by' * (1 / 2) + bz * (1 / 2) + w + w') + bx * (i : ℚ) := by
    intro w w'; funext i; ring
  simp only [e3, cub1_affine _ _ _ x1 x2]
  congr 1; ring

/-- A row of voxels along x with the given values, starting at voxel `lo`. -/
def row (lo : ℤ) (vals : List ℚ) (q : V3i) : Option ℚ :=
  if q.y = 0 ∧ q.z = 0 ∧ lo ≤ q.x then vals[(q.x - lo).toNat]? else none

/-- Not bounded: with the values -10, 0, 1, 1 the sample half way between the voxels with 0 and 1 is
larger than every voxel of the field. -/
theorem C21_cubic_overshoots :
    cubic ⟨⟨0, 0, 0⟩, ⟨3, 0, 0⟩⟩ (row 0 [-10, 0, 1, 1]) ⟨2, 1 / 2, 1 / 2⟩ = some (9 / 8) ∧
    ∀ v ∈ [(-10 : ℚ), 0, 1, 1], v < 9 / 8 := by
  constructor
  · decide +kernel
  · simp; norm_num

/-- With a window starting below zero the sample at the center of a voxel is not its value: the
voxels -2, -1, 0 hold 5, 7, 9 and the sample at the center of voxel -2 is 9. -/
theorem C21_cubic_wrong_below_zero :
    row (-2) [5, 7, 9] ⟨-2, 0, 0⟩ = some 5 ∧
    cubic ⟨⟨-2, 0, 0⟩, ⟨0, 0, 0⟩⟩ (row (-2) [5, 7, 9]) (center ⟨-2, 0, 0⟩) = some 9 := by
  decide +kernel

/-- With a window starting above zero the interpolant is not constant outside the box of centers, as
clamping would have it, but moves between the first two voxels: values 0, 1 in voxels 1, 2. -/
theorem C21_cubic_wrong_above_zero :
    cubic ⟨⟨1, 0, 0⟩, ⟨2, 0, 0⟩⟩ (row 1 [0, 1]) (center ⟨1, 0, 0⟩) = some 0 ∧
    cubic ⟨⟨1, 0, 0⟩, ⟨2, 0, 0⟩⟩ (row 1 [0, 1]) ⟨5 / 4, 1 / 2, 1 / 2⟩ = some (51 / 64) := by
  decide +kernel

/-- Cubic MAC samples: defined everywhere, only faces of the field are read, and the sample at a face
center with non-negative coordinates is the face value. -/
theorem C21_cubic_mac_exact_on_faces (f : Mac) (h : MacReachable f) (hne : f.dw.isEmpty = false)
    (c : MacComp) :
    (∀ p, ∃ s, cubicMac f c p = some s) ∧
    ∀ q, IsFace f.dw c q → 0 ≤ q.x ∧ 0 ≤ q.y ∧ 0 ≤ q.z →
      (f.face c q).isSome = true ∧ cubicMac f c (faceCenter c q) = f.face c q := by
  have wf := macReachable_wf h
  obtain ⟨h1, h2, h3⟩ := Box3i.isEmpty_false.mp hne
  have hx : f.dw.min.x ≤ (macMax f.dw c).x := by cases c <;> simp [macMax] <;> omega
  have hy : f.dw.min.y ≤ (macMax f.dw c).y := by cases c <;> simp [macMax] <;> omega
  have hz : f.dw.min.z ≤ (macMax f.dw c).z := by cases c <;> simp [macMax] <;> omega
  have hw : ∀ q, (⟨f.dw.min, macMax f.dw c⟩ : Box3i).contains q = true ↔ IsFace f.dw c q := by
    intro q
    rw [isFace_iff, macMax_eq, ← Mac.compWindow_min f.dw c]
  have hf : ∀ q, (⟨f.dw.min, macMax f.dw c⟩ : Box3i).contains q = true →
      f.face c q = some ((f.face c q).getD 0) := by
    intro q hq
    obtain ⟨v, hv⟩ := Mac.face_isSome wf (isFace_iff.mp ((hw q).mp hq))
    simp only [hv, Option.getD_some]
  refine ⟨fun p => ⟨_, cubicLines_eq hx hy hz hf _ _⟩, ?_⟩
  intro q hq h0
  obtain ⟨v, hv⟩ := Mac.face_isSome wf (isFace_iff.mp hq)
  refine ⟨by rw [hv]; rfl, ?_⟩
  have e : cubicMac f c (faceCenter c q) =
      cubicLines f.dw.min (macMax f.dw c) (f.face c) q ⟨0, 0, 0⟩ := by
    unfold cubicMac
    cases c <;>
      simp only [faceCenter, maxHalf_center h0.1, maxHalf_center h0.2.1, maxHalf_center h0.2.2,
        add_sub_cancel_right, floor3, floor_int, sub_self]
  rw [e, cubicLines_eq hx hy hz hf, cub3_zero ((hw q).mpr hq), hv]
  rfl

end F3D.Props
