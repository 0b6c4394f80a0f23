import Verif.Model.Mapping
import Verif.Proofs.Xform
import Verif.Props.Curve

namespace F3D
namespace Mapping

/-! ## Frames -/

/-- Extents with at least one voxel along each axis. -/
def Proper (e : Box3i) : Prop := e.min.x ≤ e.max.x ∧ e.min.y ≤ e.max.y ∧ e.min.z ≤ e.max.z

/-- A frame with non-zero resolution. -/
def Frame.Ok (f : Frame) : Prop := 0 < f.res.x ∧ 0 < f.res.y ∧ 0 < f.res.z

theorem ofExtents_ok (e : Box3i) (h : Proper e) : (Frame.ofExtents e).Ok := by
  obtain ⟨h1, h2, h3⟩ := h
  refine ⟨?_, ?_, ?_⟩ <;> simp only [Frame.ofExtents] <;>
    exact Int.cast_pos.2 (by omega)

theorem default_ok : Frame.default.Ok := by unfold Frame.Ok Frame.default; decide +kernel

theorem lerpfactor_add (m a r : Rat) (h : 0 < r) : Curve.lerpfactor m a (a + r) = (m - a) / r := by
  unfold Curve.lerpfactor
  rw [add_sub_cancel_left, if_neg (ne_of_gt h)]

theorem Frame.voxelToLocal_eq (f : Frame) (h : f.Ok) (p : V3q) : f.voxelToLocal p =
    ⟨(p.x - f.origin.x) / f.res.x, (p.y - f.origin.y) / f.res.y, (p.z - f.origin.z) / f.res.z⟩ := by
  simp only [Frame.voxelToLocal, lerpfactor_add _ _ _ h.1, lerpfactor_add _ _ _ h.2.1, lerpfactor_add _ _ _ h.2.2]

theorem Frame.local_voxel (f : Frame) (h : f.Ok) (p : V3q) : f.voxelToLocal (f.localToVoxel p) = p := by
  rw [f.voxelToLocal_eq h]
  have h1 := ne_of_gt h.1
  have h2 := ne_of_gt h.2.1
  have h3 := ne_of_gt h.2.2
  apply V3q.ext' <;> simp only [Frame.localToVoxel] <;> field_simp <;> ring

theorem Frame.voxel_local (f : Frame) (h : f.Ok) (p : V3q) : f.localToVoxel (f.voxelToLocal p) = p := by
  rw [f.voxelToLocal_eq h]
  have h1 := ne_of_gt h.1
  have h2 := ne_of_gt h.2.1
  have h3 := ne_of_gt h.2.2
  apply V3q.ext' <;> simp only [Frame.localToVoxel] <;> field_simp <;> ring

theorem Frame.matrix_multVec (f : Frame) (p : V3q) : f.localToVoxelMatrix.multVec p = some (f.localToVoxel p) := by
  have : M44.rowMul ⟨p.x, p.y, p.z, 1⟩ f.localToVoxelMatrix =
      ⟨f.origin.x + p.x * f.res.x, f.origin.y + p.y * f.res.y, f.origin.z + p.z * f.res.z, 1⟩ := by
    apply V4q.ext' <;>
      simp only [Frame.localToVoxelMatrix, M44.mul, M44.rowMul, M44.setScale, M44.setTranslation] <;> ring
  unfold M44.multVec
  simp only [this]
  rw [if_neg one_ne_zero]
  congr 1
  apply V3q.ext' <;> simp [Frame.localToVoxel]

theorem Frame.matrix_det (f : Frame) : f.localToVoxelMatrix.det = f.res.x * f.res.y * f.res.z := by
  simp only [Frame.localToVoxelMatrix, M44.det, M44.det3, M44.mul, M44.rowMul, M44.setScale, M44.setTranslation]; ring

theorem Frame.matrix_det_ne (f : Frame) (h : f.Ok) : f.localToVoxelMatrix.det ≠ 0 := by
  rw [f.matrix_det]
  exact mul_ne_zero (mul_ne_zero (ne_of_gt h.1) (ne_of_gt h.2.1)) (ne_of_gt h.2.2)

theorem Frame.inverse_multVec (f : Frame) (h : f.Ok) (p : V3q) :
    f.localToVoxelMatrix.inverse.multVec p = some (f.voxelToLocal p) := by
  have h1 := f.matrix_multVec (f.voxelToLocal p)
  rw [f.voxel_local h] at h1
  exact M44.multVec_inverse _ (f.matrix_det_ne h) _ _ h1

/-! ## Curves of matrices -/

open Curve

theorem put_append (t : Rat) {T : Type} (v : T) (c : Curve T) (h : ∀ s ∈ c, s.1 < t) : put t v c = c ++ [(t, v)] := by
  induction c with
  | nil => rfl
  | cons s l ih =>
    have hs := h s (by simp)
    simp only [put, if_neg (ne_of_lt hs), if_neg (not_lt.2 hs.le), List.cons_append]
    rw [ih (fun x hx => h x (List.mem_cons_of_mem _ hx))]

/-- Adding mapped samples in order of time gives the mapped curve. -/
theorem fold_map {T U : Type} (g : T → U) (c : Curve T) (h : Sorted c) :
    c.foldl (fun d s => addSample d s.1 (g s.2)) [] = c.map (fun s => (s.1, g s.2)) := by
  have key : ∀ (c : Curve T) (d : Curve U), Sorted c → Sorted d → (∀ x ∈ d, ∀ y ∈ c, x.1 < y.1) →
      c.foldl (fun d s => addSample d s.1 (g s.2)) d = d ++ c.map (fun s => (s.1, g s.2)) := by
    intro c
    induction c with
    | nil => simp
    | cons s l ih =>
      intro d hc hd hx
      have hs := List.pairwise_cons.1 hc
      have hd' : ∀ x ∈ d, x.1 < s.1 := fun x h => hx x h s (by simp)
      have e : addSample d s.1 (g s.2) = d ++ [(s.1, g s.2)] := by
        rw [addSample_eq_put _ _ _ hd, put_append _ _ _ hd']
      rw [List.foldl_cons, e, ih _ hs.2]
      · simp
      · refine List.pairwise_append.2 ⟨hd, List.pairwise_singleton _ _, fun a ha b hb => ?_⟩
        rw [List.mem_singleton.1 hb]; exact hd' a ha
      · intro x hxm y hy
        rcases List.mem_append.1 hxm with h | h
        · exact hx x h y (List.mem_cons_of_mem _ hy)
        · rw [List.mem_singleton.1 h]; exact hs.1 y hy
  simpa using key c [] h List.Pairwise.nil (by simp)

theorem linear_map {T U : Type} (g : T → U) (lt : T → T → Rat → T) (lu : U → U → Rat → U) (dt : T) (du : U)
    (hg : ∀ a b t, lu (g a) (g b) t = g (lt a b t)) (c : Curve T) (hc : c ≠ []) (t : Rat) :
    linear lu du (c.map (fun s => (s.1, g s.2))) t = g (linear lt dt c t) := by
  have key : ∀ (l : Curve T) (lo : Rat × T),
      linearFrom lu t (lo.1, g lo.2) (l.map (fun s => (s.1, g s.2))) = g (linearFrom lt t lo l) := by
    intro l
    induction l with
    | nil => intro lo; rfl
    | cons s l ih =>
      intro lo
      simp only [List.map_cons, linearFrom]
      split
      · exact hg _ _ _
      · exact ih s
  cases c with
  | nil => exact absurd rfl hc
  | cons s l =>
    simp only [List.map_cons, linear]
    split
    · rfl
    · exact key l s

/-! ## Matrix mappings -/

/-- What a history of calls makes of the samples: added ones accumulate, setting the transform without a time starts
anew with one sample at time 0. -/
def history : List Op → List (Rat × M44)
  | [] => []
  | ops => ops.foldl (fun h o => match o with
    | .setExtents _ => h
    | .setLocalToWorld x => [(0, x)]
    | .setLocalToWorldAt t x => h ++ [(t, x)]
    | .makeIdentity => []) []

/-- The frame after a history of calls: that of the extents set last. -/
def frameOf (f : Frame) (ops : List Op) : Frame :=
  ops.foldl (fun f o => match o with
    | .setExtents e => Frame.ofExtents e
    | _ => f) f

/-- The mapping constructed with frame `f` and changed by the calls. -/
def Matrix.run (f : Frame) (ops : List Op) : Matrix := ops.foldl Matrix.apply (Matrix.new f)

theorem history_snoc (ops : List Op) (o : Op) : history (ops ++ [o]) = (match o with
    | .setExtents _ => history ops
    | .setLocalToWorld x => [(0, x)]
    | .setLocalToWorldAt t x => history ops ++ [(t, x)]
    | .makeIdentity => []) := by
  have h : ∀ l, history l = l.foldl (fun h o => match o with
    | .setExtents _ => h
    | .setLocalToWorld x => [(0, x)]
    | .setLocalToWorldAt t x => h ++ [(t, x)]
    | .makeIdentity => []) [] := by intro l; cases l <;> rfl
  rw [h, h, List.foldl_append]
  cases o <;> rfl

theorem snocInd {α : Type} {P : List α → Prop} (h0 : P []) (h1 : ∀ l a, P l → P (l ++ [a])) : ∀ l, P l := by
  intro l
  have : ∀ n, ∀ l : List α, l.length = n → P l := by
    intro n
    induction n with
    | zero => intro l hl; rw [List.length_eq_zero_iff.1 hl]; exact h0
    | succ n ih =>
      intro l hl
      rcases List.eq_nil_or_concat l with rfl | ⟨l', a, rfl⟩
      · simp at hl
      · rw [List.concat_eq_append] at hl ⊢
        exact h1 l' a (ih l' (by simpa using hl))
  exact this _ l rfl

/-- Every member of a mapping is determined by its frame and samples. -/
theorem run_spec (f : Frame) (ops : List Op) :
    (Matrix.run f ops).frame = frameOf f ops ∧ (Matrix.run f ops).lsToWsCurve = build (history ops) ∧
    (Matrix.run f ops).update = Matrix.run f ops := by
  refine snocInd (P := fun ops => (Matrix.run f ops).frame = frameOf f ops ∧
    (Matrix.run f ops).lsToWsCurve = build (history ops) ∧ (Matrix.run f ops).update = Matrix.run f ops)
    ⟨rfl, rfl, rfl⟩ ?_ ops
  intro l o ⟨h1, h2, h3⟩
  have hr : Matrix.run f (l ++ [o]) = (Matrix.run f l).apply o := by simp [Matrix.run, List.foldl_append]
  have hf : frameOf f (l ++ [o]) = match o with
      | .setExtents e => Frame.ofExtents e
      | _ => frameOf f l := by
    unfold frameOf; rw [List.foldl_append]; cases o <;> rfl
  rw [hr, hf, history_snoc]
  cases o with
  | setExtents e => exact ⟨rfl, h2, rfl⟩
  | setLocalToWorldAt t x =>
    refine ⟨h1, ?_, rfl⟩
    show addSample (Matrix.run f l).lsToWsCurve t x = _
    rw [h2]
    exact (build_snoc (history l) (t, x)).symm
  | makeIdentity => exact ⟨h1, rfl, rfl⟩
  | setLocalToWorld x =>
    refine ⟨?_, ?_, rfl⟩
    · show (if _ then _ else _ : Matrix).frame = _
      split
      · exact h1
      · exact h1
    · show addSample (if (Matrix.run f l).lsToWsCurve.length > 0 then (Matrix.run f l).makeIdentity
        else Matrix.run f l).lsToWsCurve 0 x = _
      split
      · rfl
      · rename_i hz
        have : (Matrix.run f l).lsToWsCurve = [] := List.length_eq_zero_iff.1 (by omega)
        rw [this]; rfl

/-- The transform from local to world space at a time, for a history of samples. -/
def transformAt (h : List (Rat × M44)) (t : Rat) : M44 := linear M44.lerp M44.one (build h) t

theorem constant_curve (c : Curve M44) (h : ¬ c.length > 1) (t u : Rat) : sampleM c t = sampleM c u := by
  cases c with
  | nil => rfl
  | cons s l =>
    cases l with
    | nil => simp [sampleM, linear, linearFrom]
    | cons s' l' => simp at h

/-- The matrices used at time `t`. -/
theorem run_at (f : Frame) (ops : List Op) (t : Rat) (p : V3q) :
    let m := Matrix.run f ops
    let l := transformAt (history ops) t
    let v := (frameOf f ops).localToVoxelMatrix.inverse.mul l
    m.localToWorldAt p t = l.multVec p ∧ m.worldToLocalAt p t = l.inverse.multVec p ∧
    m.voxelToWorldAt p t = v.multVec p ∧ m.worldToVoxelAt p t = v.inverse.multVec p ∧
    m.worldToVoxelMatrix t = v.inverse := by
  obtain ⟨h1, h2, h3⟩ := run_spec f ops
  simp only
  generalize hm : Matrix.run f ops = m at *
  have e1 : m.lsToWs = sampleM m.lsToWsCurve 0 := by rw [← h3]; rfl
  have e2 : m.wsToLs = (sampleM m.lsToWsCurve 0).inverse := by rw [← h3]; rfl
  have e3 : m.vsToWs = m.frame.localToVoxelMatrix.inverse.mul (sampleM m.lsToWsCurve 0) := by rw [← h3]; rfl
  have e4 : m.wsToVs = (m.frame.localToVoxelMatrix.inverse.mul (sampleM m.lsToWsCurve 0)).inverse := by
    rw [← h3]; rfl
  have e5 : m.isTimeVarying = decide (m.lsToWsCurve.length > 1) := by rw [← h3]; rfl
  have e6 : m.vsToWsCurve = m.lsToWsCurve.foldl
      (fun c s => addSample c s.1 (m.frame.localToVoxelMatrix.inverse.mul s.2)) [] := by
    rw [← h3]; rfl
  have e7 : transformAt (history ops) t = sampleM m.lsToWsCurve t := by rw [h2]; rfl
  rw [e7, ← h1]
  unfold Matrix.localToWorldAt Matrix.worldToLocalAt Matrix.voxelToWorldAt Matrix.worldToVoxelAt
    Matrix.worldToVoxelMatrix
  rw [e1, e2, e3, e4, e5]
  by_cases hl : m.lsToWsCurve.length > 1
  · have hv : sampleM m.vsToWsCurve t = m.frame.localToVoxelMatrix.inverse.mul (sampleM m.lsToWsCurve t) := by
      have hs : Sorted m.lsToWsCurve := by rw [h2]; exact (build_spec _).1
      rw [e6, fold_map _ _ hs]
      exact linear_map (fun x => m.frame.localToVoxelMatrix.inverse.mul x) M44.lerp M44.lerp M44.one M44.one
        (fun a b t => (M44.mul_lerp _ a b t).symm) _ (by intro h; rw [h] at hl; simp at hl) t
    simp [hl, hv]
  · simp only [hl, decide_false, Bool.not_false, if_true]
    rw [constant_curve _ hl t 0]
    exact ⟨rfl, rfl, rfl, rfl, rfl⟩

theorem frameOf_ok (f : Frame) (hf : f.Ok) (ops : List Op) (h : ∀ e, Op.setExtents e ∈ ops → Proper e) :
    (frameOf f ops).Ok := by
  have key : ∀ (ops : List Op) (f : Frame), f.Ok → (∀ e, Op.setExtents e ∈ ops → Proper e) → (frameOf f ops).Ok := by
    intro ops
    induction ops with
    | nil => intro f hf _; exact hf
    | cons o ops ih =>
      intro f hf h
      have h' : ∀ e, Op.setExtents e ∈ ops → Proper e := fun e he => h e (List.mem_cons_of_mem _ he)
      cases o with
      | setExtents e => exact ih _ (ofExtents_ok e (h e (by simp))) h'
      | setLocalToWorld x => exact ih _ hf h'
      | setLocalToWorldAt t x => exact ih _ hf h'
      | makeIdentity => exact ih _ hf h'
  exact key ops f hf h

/-! ## Affine matrices -/

/-- No perspective: the last column is that of the identity. -/
def Affine (m : M44) : Prop := m.r0.w = 0 ∧ m.r1.w = 0 ∧ m.r2.w = 0 ∧ m.r3.w = 1

theorem affine_one : Affine M44.one := by unfold Affine; decide +kernel

theorem affine_mul (a b : M44) (ha : Affine a) (hb : Affine b) : Affine (a.mul b) := by
  obtain ⟨a0, a1, a2, a3⟩ := ha
  obtain ⟨b0, b1, b2, b3⟩ := hb
  simp [Affine, M44.mul, M44.rowMul, a0, a1, a2, a3, b0, b1, b2, b3]

theorem affine_lerp (a b : M44) (t : Rat) (ha : Affine a) (hb : Affine b) : Affine (a.lerp b t) := by
  obtain ⟨a0, a1, a2, a3⟩ := ha
  obtain ⟨b0, b1, b2, b3⟩ := hb
  simp [Affine, M44.lerp, M44.rowLerp, a0, a1, a2, a3, b0, b1, b2, b3]

theorem affine_inverse (m : M44) (hm : Affine m) : Affine m.inverse := by
  by_cases h : m.det = 0
  · simp only [M44.inverse, if_pos h]; exact affine_one
  · have h1 := M44.inverse_mul m h
    obtain ⟨b0, b1, b2, b3⟩ := hm
    have e0 := congrArg (fun x => x.r0.w) h1
    have e1 := congrArg (fun x => x.r1.w) h1
    have e2 := congrArg (fun x => x.r2.w) h1
    have e3 := congrArg (fun x => x.r3.w) h1
    simp only [M44.mul, M44.rowMul, M44.one, b0, b1, b2, b3] at e0 e1 e2 e3
    refine ⟨?_, ?_, ?_, ?_⟩ <;> linarith

theorem affine_multVec (m : M44) (hm : Affine m) (p : V3q) : m.multVec p = some
    ⟨p.x * m.r0.x + p.y * m.r1.x + p.z * m.r2.x + m.r3.x, p.x * m.r0.y + p.y * m.r1.y + p.z * m.r2.y + m.r3.y,
     p.x * m.r0.z + p.y * m.r1.z + p.z * m.r2.z + m.r3.z⟩ := by
  obtain ⟨b0, b1, b2, b3⟩ := hm
  simp [M44.multVec, M44.rowMul, b0, b1, b2, b3]

theorem affine_frame (f : Frame) : Affine f.localToVoxelMatrix := by
  simp [Affine, Frame.localToVoxelMatrix, M44.mul, M44.rowMul, M44.setScale, M44.setTranslation]

theorem affine_linearFrom (t : Rat) : ∀ (l : Curve M44) (lo : Rat × M44), (∀ s ∈ lo :: l, Affine s.2) →
    Affine (linearFrom M44.lerp t lo l) := by
  intro l
  induction l with
  | nil => intro lo h; exact h lo (by simp)
  | cons s l ih =>
    intro lo h
    simp only [linearFrom]
    split
    · exact affine_lerp _ _ _ (h lo (by simp)) (h s (by simp))
    · exact ih s (fun x hx => h x (List.mem_cons_of_mem _ hx))

theorem lastFor_mem {T : Type} (u : Rat) (w : T) : ∀ (h : List (Rat × T)), lastFor u h = some w → (u, w) ∈ h := by
  intro h
  induction h with
  | nil => intro e; simp [lastFor] at e
  | cons a l ih =>
    intro e
    simp only [lastFor] at e
    cases hl : lastFor u l with
    | some v => rw [hl] at e; injection e with e; subst e; exact List.mem_cons_of_mem _ (ih hl)
    | none =>
      rw [hl] at e
      simp only at e
      split at e
      · rename_i hu
        injection e with e
        subst e; subst hu
        exact List.mem_cons_self
      · simp at e

theorem affine_transformAt (h : List (Rat × M44)) (hh : ∀ s ∈ h, Affine s.2) (t : Rat) : Affine (transformAt h t) := by
  have hb : ∀ s ∈ build h, Affine s.2 := fun s hs =>
    hh s (lastFor_mem s.1 s.2 h (((build_spec h).2 s.1 s.2).1 hs))
  unfold transformAt
  revert hb
  generalize build h = c
  intro hb
  cases c with
  | nil => exact affine_one
  | cons s l =>
    simp only [linear]
    split
    · exact hb s (by simp)
    · exact affine_linearFrom t l s hb

/-! ## Bounds -/

open Cont (Box3q)

/-- A quotient of affine functions whose denominator is positive at the corners of the box. -/
def Quot (b : Box3q) (g : V3q → Rat) : Prop :=
  ∃ a1 a2 a3 a4 w1 w2 w3 w4 : Rat, (∀ v ∈ corners b, 0 < w1 * v.x + w2 * v.y + w3 * v.z + w4) ∧
    ∀ p, b.contains p = true → g p = (a1 * p.x + a2 * p.y + a3 * p.z + a4) / (w1 * p.x + w2 * p.y + w3 * p.z + w4)

theorem corners_mem (b : Box3q) (p : V3q) (hp : b.contains p = true) : ∀ v ∈ corners b, b.contains v = true := by
  rw [Cont.Box3q.contains_iff] at hp
  have hx := le_trans hp.1.1 hp.1.2
  have hy := le_trans hp.2.1.1 hp.2.1.2
  have hz := le_trans hp.2.2.1 hp.2.2.2
  intro v hv
  rw [Cont.Box3q.contains_iff]
  simp only [corners, List.mem_cons, List.not_mem_nil, or_false] at hv
  rcases hv with rfl | rfl | rfl | rfl | rfl | rfl | rfl | rfl <;> simp [hx, hy, hz]

theorem Quot.le {b : Box3q} {g : V3q → Rat} (h : Quot b g) (m : Rat) (hm : ∀ v ∈ corners b, g v ≤ m) (p : V3q)
    (hp : b.contains p = true) : g p ≤ m := by
  obtain ⟨a1, a2, a3, a4, w1, w2, w3, w4, hw, hg⟩ := h
  rw [hg p hp]
  exact frac_corners a1 a2 a3 a4 w1 w2 w3 w4 m b hw
    (fun v hv => by rw [← hg v (corners_mem b p hp v hv)]; exact hm v hv) p hp (pos_corners _ _ _ _ b hw p hp)

theorem Quot.neg {b : Box3q} {g : V3q → Rat} (h : Quot b g) : Quot b (fun p => - g p) := by
  obtain ⟨a1, a2, a3, a4, w1, w2, w3, w4, hw, hg⟩ := h
  refine ⟨-a1, -a2, -a3, -a4, w1, w2, w3, w4, hw, fun p hp => ?_⟩
  show - g p = _
  rw [hg p hp, ← neg_div]
  congr 1; ring

theorem Quot.ge {b : Box3q} {g : V3q → Rat} (h : Quot b g) (m : Rat) (hm : ∀ v ∈ corners b, m ≤ g v) (p : V3q)
    (hp : b.contains p = true) : m ≤ g p := by
  have := h.neg.le (-m) (fun v hv => neg_le_neg (hm v hv)) p hp
  linarith

/-- `k * g + l`. -/
theorem Quot.affine {b : Box3q} {g : V3q → Rat} (h : Quot b g) (k l : Rat) : Quot b (fun p => l + g p * k) := by
  obtain ⟨a1, a2, a3, a4, w1, w2, w3, w4, hw, hg⟩ := h
  refine ⟨k * a1 + l * w1, k * a2 + l * w2, k * a3 + l * w3, k * a4 + l * w4, w1, w2, w3, w4, hw, fun p hp => ?_⟩
  have := ne_of_gt (pos_corners _ _ _ _ b hw p hp)
  show l + g p * k = _
  rw [hg p hp, eq_div_iff this]
  have e := div_mul_cancel₀ (a1 * p.x + a2 * p.y + a3 * p.z + a4) this
  linear_combination k * e

theorem bounds_contain (f : V3q → Option V3q) (b : Box3q) (g1 g2 g3 : V3q → Rat)
    (h1 : Quot b g1) (h2 : Quot b g2) (h3 : Quot b g3)
    (hf : ∀ p, b.contains p = true → f p = some ⟨g1 p, g2 p, g3 p⟩) (p : V3q) (hp : b.contains p = true) :
    ∃ vb q, boundsThrough f b = some vb ∧ f p = some q ∧ vb.contains q = true := by
  have hc := corners_mem b p hp
  have hs : (boundsThrough f b).isSome := by
    apply boundsOf_some
    · simp [corners]
    · intro o ho
      rw [List.mem_map] at ho
      obtain ⟨v, hv, rfl⟩ := ho
      rw [hf v (hc v hv)]; rfl
  obtain ⟨vb, hvb⟩ := Option.isSome_iff_exists.1 hs
  refine ⟨vb, _, hvb, hf p hp, ?_⟩
  have hin : ∀ v ∈ corners b, vb.contains ⟨g1 v, g2 v, g3 v⟩ = true := by
    intro v hv
    obtain ⟨q, hq, hcq⟩ := boundsOf_spec _ _ hvb _ (List.mem_map_of_mem hv)
    rw [hf v (hc v hv)] at hq
    injection hq with hq
    rw [hq]; exact hcq
  simp only [Cont.Box3q.contains_iff] at hin ⊢
  exact ⟨⟨h1.ge _ (fun v hv => (hin v hv).1.1) p hp, h1.le _ (fun v hv => (hin v hv).1.2) p hp⟩,
    ⟨h2.ge _ (fun v hv => (hin v hv).2.1.1) p hp, h2.le _ (fun v hv => (hin v hv).2.1.2) p hp⟩,
    ⟨h3.ge _ (fun v hv => (hin v hv).2.2.1) p hp, h3.le _ (fun v hv => (hin v hv).2.2.2) p hp⟩⟩

/-- The box of points lies in every box that contains them. -/
theorem boundsOf_least : ∀ (l : List (Option V3q)) (b c : Box3q), boundsOf l = some b →
    (∀ o ∈ l, ∀ p, o = some p → c.contains p = true) →
    ∀ q, b.contains q = true → c.contains q = true := by
  intro l
  induction l with
  | nil => intro b c h; simp [boundsOf] at h
  | cons o l ih =>
    intro b c h hc
    cases l with
    | nil =>
      cases o with
      | none => simp [boundsOf] at h
      | some p =>
        simp only [boundsOf, Option.map_some, Option.some.injEq] at h
        subst h
        intro q hq
        have := hc (some p) (by simp) p rfl
        rw [Cont.Box3q.contains_iff] at hq this ⊢
        simp only at hq
        rw [← le_antisymm hq.1.1 hq.1.2, ← le_antisymm hq.2.1.1 hq.2.1.2, ← le_antisymm hq.2.2.1 hq.2.2.2]
        exact this
    | cons o' l' =>
      cases o with
      | none => simp [boundsOf] at h
      | some p =>
        simp only [boundsOf] at h
        cases hb : boundsOf (o' :: l') with
        | none => rw [hb] at h; simp at h
        | some b' =>
          rw [hb] at h
          simp only [Option.bind_eq_bind, Option.bind_some, Option.some.injEq] at h
          subst h
          intro q hq
          have hp := hc (some p) (by simp) p rfl
          have hb' := ih b' c hb (fun o ho => hc o (List.mem_cons_of_mem _ ho))
          obtain ⟨p', hp', hcp'⟩ := boundsOf_spec _ _ hb o' (by simp)
          -- the corners of `b'` are in `c`
          rw [Cont.Box3q.contains_iff] at hcp'
          have hmin := hb' b'.min (by
            rw [Cont.Box3q.contains_iff]
            exact ⟨⟨le_refl _, le_trans hcp'.1.1 hcp'.1.2⟩, ⟨le_refl _, le_trans hcp'.2.1.1 hcp'.2.1.2⟩,
              le_refl _, le_trans hcp'.2.2.1 hcp'.2.2.2⟩)
          have hmax := hb' b'.max (by
            rw [Cont.Box3q.contains_iff]
            exact ⟨⟨le_trans hcp'.1.1 hcp'.1.2, le_refl _⟩, ⟨le_trans hcp'.2.1.1 hcp'.2.1.2, le_refl _⟩,
              le_trans hcp'.2.2.1 hcp'.2.2.2, le_refl _⟩)
          rw [Cont.Box3q.contains_iff] at hq hp hmin hmax ⊢
          simp only [extendBy] at hq
          refine ⟨⟨le_trans (le_min hmin.1.1 hp.1.1) hq.1.1, le_trans hq.1.2 (max_le hmax.1.2 hp.1.2)⟩,
            ⟨le_trans (le_min hmin.2.1.1 hp.2.1.1) hq.2.1.1, le_trans hq.2.1.2 (max_le hmax.2.1.2 hp.2.1.2)⟩,
            ⟨le_trans (le_min hmin.2.2.1 hp.2.2.1) hq.2.2.1, le_trans hq.2.2.2 (max_le hmax.2.2.2 hp.2.2.2)⟩⟩

theorem bounds_least (f : V3q → Option V3q) (b vb c : Box3q) (h : boundsThrough f b = some vb)
    (hne : ∃ p, b.contains p = true) (hc : ∀ p, b.contains p = true → ∀ q, f p = some q → c.contains q = true)
    (q : V3q) (hq : vb.contains q = true) : c.contains q = true := by
  obtain ⟨p0, hp0⟩ := hne
  refine boundsOf_least _ _ _ h (fun o ho p hp => ?_) q hq
  rw [List.mem_map] at ho
  obtain ⟨v, hv, rfl⟩ := ho
  exact hc v (corners_mem b p0 hp0 v hv) p hp

/-- The homogeneous coordinate of the image of a point. -/
def wOf (m : M44) (p : V3q) : Rat := p.x * m.r0.w + p.y * m.r1.w + p.z * m.r2.w + m.r3.w

/-- The box is entirely in front of, or entirely behind, the plane that the matrix maps to infinity. -/
def OneSide (m : M44) (b : Box3q) : Prop := (∀ v ∈ corners b, 0 < wOf m v) ∨ (∀ v ∈ corners b, wOf m v < 0)

theorem multVec_quot (m : M44) (b : Box3q) (h : OneSide m b) : ∃ g1 g2 g3, Quot b g1 ∧ Quot b g2 ∧ Quot b g3 ∧
    ∀ p, b.contains p = true → m.multVec p = some ⟨g1 p, g2 p, g3 p⟩ := by
  have hw : ∀ p, b.contains p = true → wOf m p ≠ 0 := by
    intro p hp
    rcases h with h | h
    · have := pos_corners m.r0.w m.r1.w m.r2.w m.r3.w b (fun v hv => by have := h v hv; unfold wOf at this; linarith) p hp
      unfold wOf; intro e; linarith
    · have := pos_corners (-m.r0.w) (-m.r1.w) (-m.r2.w) (-m.r3.w) b
        (fun v hv => by have := h v hv; unfold wOf at this; linarith) p hp
      unfold wOf; intro e; linarith
  have hq : ∀ a1 a2 a3 a4 : Rat, Quot b (fun p => (p.x * a1 + p.y * a2 + p.z * a3 + a4) / wOf m p) := by
    intro a1 a2 a3 a4
    rcases h with h | h
    · refine ⟨a1, a2, a3, a4, m.r0.w, m.r1.w, m.r2.w, m.r3.w,
        fun v hv => by have := h v hv; unfold wOf at this; linarith, fun p hp => ?_⟩
      unfold wOf
      congr 1 <;> ring
    · refine ⟨-a1, -a2, -a3, -a4, -m.r0.w, -m.r1.w, -m.r2.w, -m.r3.w,
        fun v hv => by have := h v hv; unfold wOf at this; linarith, fun p hp => ?_⟩
      unfold wOf
      rw [← neg_div_neg_eq]
      congr 1 <;> ring
  refine ⟨_, _, _, hq m.r0.x m.r1.x m.r2.x m.r3.x, hq m.r0.y m.r1.y m.r2.y m.r3.y, hq m.r0.z m.r1.z m.r2.z m.r3.z,
    fun p hp => ?_⟩
  have h1 := hw p hp
  have e : (M44.rowMul ⟨p.x, p.y, p.z, 1⟩ m).w = wOf m p := by simp [M44.rowMul, wOf]
  unfold M44.multVec
  simp only [e]
  rw [if_neg h1]
  simp [M44.rowMul]

theorem affine_oneSide (m : M44) (hm : Affine m) (b : Box3q) : OneSide m b := by
  obtain ⟨b0, b1, b2, b3⟩ := hm
  left
  intro v _
  simp [wOf, b0, b1, b2, b3]

end Mapping
end F3D
