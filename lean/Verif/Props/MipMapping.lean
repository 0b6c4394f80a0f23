import Verif.Model.MipMapping
import Verif.Props.MipInterp
import Verif.Props.Mapping
import Verif.Props.Identical

/-!
# C73: where the levels of a MIP field are in the world
-/

namespace F3D.Props
open F3D F3D.Mapping F3D.MipMapping F3D.MipInterp F3D.Curve

/-! ## Specification -/

/-- What is used of the square root. -/
structure Lengths (root : ℚ → ℚ) : Prop where
  pos : ∀ x, 0 < x → root x ≠ 0
  scale : ∀ k x, 0 ≤ k → root (k * k * x) = k * root x

/-- The squared lengths in world space of the edges of the field, for a transform from local to world space. -/
def edgesSq (x : M44) : V3q :=
  ⟨x.r0.x * x.r0.x + x.r0.y * x.r0.y + x.r0.z * x.r0.z, x.r1.x * x.r1.x + x.r1.y * x.r1.y + x.r1.z * x.r1.z,
   x.r2.x * x.r2.x + x.r2.y * x.r2.y + x.r2.z * x.r2.z⟩

/-- The edges are as long at all samples as at time 0: the field may move and rotate. -/
def SteadyEdges (samples : List (ℚ × M44)) : Prop :=
  ∀ u w, lastFor u samples = some w → edgesSq w = edgesSq (transformAt samples 0)

/-- The voxel coordinates in level 0 of a point of level `l`: `lo` is where the window of level 0 begins, `lo'` that of
the level. -/
def toBase (off lo lo' : V3i) (l : ℕ) (p : V3q) : V3q :=
  ⟨lo.x + ((off.x / 2 ^ l * 2 ^ l - off.x : ℤ) : ℚ) + 2 ^ l * (p.x - lo'.x),
   lo.y + ((off.y / 2 ^ l * 2 ^ l - off.y : ℤ) : ℚ) + 2 ^ l * (p.y - lo'.y),
   lo.z + ((off.z / 2 ^ l * 2 ^ l - off.z : ℤ) : ℚ) + 2 ^ l * (p.z - lo'.z)⟩

/-! ## Lemmas -/

/-- The transform of the local space of the level to that of level 0; `r` is the resolution of level 0. -/
def levelToBase (r : V3q) (off : V3i) (l : ℕ) (res : V3i) : M44 :=
  ⟨⟨2 ^ l * res.x / r.x, 0, 0, 0⟩, ⟨0, 2 ^ l * res.y / r.y, 0, 0⟩, ⟨0, 0, 2 ^ l * res.z / r.z, 0⟩,
   ⟨diff1 off.x l / r.x, diff1 off.y l / r.y, diff1 off.z l / r.z, 1⟩⟩

theorem sumSq_zero {x y z : ℚ} (h : ¬ 0 < x * x + y * y + z * z) : x = 0 ∧ y = 0 ∧ z = 0 := by
  have hx := mul_self_nonneg x
  have hy := mul_self_nonneg y
  have hz := mul_self_nonneg z
  exact ⟨mul_self_eq_zero.1 (by linarith), mul_self_eq_zero.1 (by linarith), mul_self_eq_zero.1 (by linarith)⟩

/-- The direction of a multiple of `(x, y, z)`, times its length divided by `r`. -/
theorem direction {root : ℚ → ℚ} (h : Lengths root) (x y z k r sq : ℚ) (hk : 0 < k) (hr : 0 < r)
    (hs : sq = (1 / r) * (1 / r) * (x * x + y * y + z * z)) (c : ℚ) :
    times (normalized root ⟨k * x, k * y, k * z⟩) (root sq * c) = ⟨x * c / r, y * c / r, z * c / r⟩ := by
  have e : root sq = root (x * x + y * y + z * z) / r := by
    rw [hs, h.scale _ _ (by positivity)]; ring
  have e2 : root (k * x * (k * x) + k * y * (k * y) + k * z * (k * z)) = k * root (x * x + y * y + z * z) := by
    rw [← h.scale _ _ hk.le]; congr 1; ring
  unfold normalized times
  simp only
  rw [e2, e]
  by_cases hz : 0 < x * x + y * y + z * z
  · have hne := h.pos _ hz
    rw [if_neg (mul_ne_zero hk.ne' hne)]
    generalize root (x * x + y * y + z * z) = q at hne
    apply V3q.ext' <;> simp only <;> field_simp
  · obtain ⟨rfl, rfl, rfl⟩ := sumSq_zero hz
    simp

theorem sampleMatrix_eq {root : ℚ → ℚ} (h : Lengths root) (r : V3q) (hr : 0 < r.x ∧ 0 < r.y ∧ 0 < r.z) (m : Matrix)
    (off : V3i) (l : ℕ) (res : V3i) (t : ℚ) (w : M44) (hw : Affine w) (hm : ∀ p, m.localToWorldAt p t = w.multVec p)
    (sq : V3q)
    (hs : sq = ⟨1 / r.x * (1 / r.x) * (edgesSq w).x, 1 / r.y * (1 / r.y) * (edgesSq w).y,
      1 / r.z * (1 / r.z) * (edgesSq w).z⟩) :
    sampleMatrix root m ⟨root sq.x, root sq.y, root sq.z⟩ off l res t = some ((levelToBase r off l res).mul w) := by
  obtain ⟨h1, h2, h3⟩ := hr
  obtain ⟨sx, sy, sz⟩ := sq
  injection hs with hx hy hz
  unfold sampleMatrix
  simp only [hm, affine_multVec _ hw]
  have ex : minus ⟨1 * w.r0.x + 0 * w.r1.x + 0 * w.r2.x + w.r3.x, 1 * w.r0.y + 0 * w.r1.y + 0 * w.r2.y + w.r3.y,
      1 * w.r0.z + 0 * w.r1.z + 0 * w.r2.z + w.r3.z⟩
      ⟨0 * w.r0.x + 0 * w.r1.x + 0 * w.r2.x + w.r3.x, 0 * w.r0.y + 0 * w.r1.y + 0 * w.r2.y + w.r3.y,
      0 * w.r0.z + 0 * w.r1.z + 0 * w.r2.z + w.r3.z⟩ = ⟨1 * w.r0.x, 1 * w.r0.y, 1 * w.r0.z⟩ := by
    apply V3q.ext' <;> simp only [minus] <;> ring
  have ey : minus ⟨0 * w.r0.x + 1 * w.r1.x + 0 * w.r2.x + w.r3.x, 0 * w.r0.y + 1 * w.r1.y + 0 * w.r2.y + w.r3.y,
      0 * w.r0.z + 1 * w.r1.z + 0 * w.r2.z + w.r3.z⟩
      ⟨0 * w.r0.x + 0 * w.r1.x + 0 * w.r2.x + w.r3.x, 0 * w.r0.y + 0 * w.r1.y + 0 * w.r2.y + w.r3.y,
      0 * w.r0.z + 0 * w.r1.z + 0 * w.r2.z + w.r3.z⟩ = ⟨1 * w.r1.x, 1 * w.r1.y, 1 * w.r1.z⟩ := by
    apply V3q.ext' <;> simp only [minus] <;> ring
  have ez : minus ⟨0 * w.r0.x + 0 * w.r1.x + 1 / 10 * w.r2.x + w.r3.x, 0 * w.r0.y + 0 * w.r1.y + 1 / 10 * w.r2.y + w.r3.y,
      0 * w.r0.z + 0 * w.r1.z + 1 / 10 * w.r2.z + w.r3.z⟩
      ⟨0 * w.r0.x + 0 * w.r1.x + 0 * w.r2.x + w.r3.x, 0 * w.r0.y + 0 * w.r1.y + 0 * w.r2.y + w.r3.y,
      0 * w.r0.z + 0 * w.r1.z + 0 * w.r2.z + w.r3.z⟩ = ⟨1 / 10 * w.r2.x, 1 / 10 * w.r2.y, 1 / 10 * w.r2.z⟩ := by
    apply V3q.ext' <;> simp only [minus] <;> ring
  rw [ex, ey, ez]
  have tt : ∀ (a : V3q) (b c : ℚ), times (times a b) c = times a (b * c) := fun a b c => by
    apply V3q.ext' <;> simp only [times] <;> ring
  rw [tt, tt, tt]
  have dx := fun c => direction h w.r0.x w.r0.y w.r0.z 1 r.x sx one_pos h1 (by rw [hx]; rfl) c
  have dy := fun c => direction h w.r1.x w.r1.y w.r1.z 1 r.y sy one_pos h2 (by rw [hy]; rfl) c
  have dz := fun c => direction h w.r2.x w.r2.y w.r2.z (1 / 10) r.z sz (by norm_num) h3 (by rw [hz]; rfl) c
  simp only [mul_assoc (root _)]
  rw [dx, dy, dz, dx, dy, dz]
  obtain ⟨b0, b1, b2, b3⟩ := hw
  congr 1
  unfold levelToBase CoordSys.ofBasis M44.mul M44.rowMul plus
  simp only [b0, b1, b2, b3]
  apply M44.ext' <;> apply V4q.ext' <;> simp only <;> ring

theorem addSamples_run {root : ℚ → ℚ} (m : Matrix) (s : V3q) (off : V3i) (l : ℕ) (res : V3i) (g : ℚ × M44 → M44) :
    ∀ (c : Curve M44), (∀ x ∈ c, sampleMatrix root m s off l res x.1 = some (g x)) → ∀ new,
    addSamples root m s off l res (c.map (·.1)) new =
      some ((c.map fun x => Op.setLocalToWorldAt x.1 (g x)).foldl Matrix.apply new)
  | [], _, _ => rfl
  | x :: c, h, new => by
    simp only [List.map_cons, addSamples, h x (by simp), Option.bind_some, List.foldl_cons]
    exact addSamples_run m s off l res g c (fun y hy => h y (List.mem_cons_of_mem _ hy)) _

theorem build_ne {samples : List (ℚ × M44)} (hne : samples ≠ []) : (build samples) ≠ [] := by
  intro e
  have hb := (build_spec samples).2
  obtain ⟨a, rest, rfl⟩ := List.exists_cons_of_ne_nil hne
  have : ∃ w, lastFor a.1 (a :: rest) = some w := by
    simp only [lastFor]
    cases lastFor a.1 rest <;> simp
  obtain ⟨w, hw⟩ := this
  have := (hb a.1 w).2 hw
  rw [e] at this
  cases this

/-- The voxel size of a matrix mapping. -/
theorem voxelSize_eq (f : Frame) (ops : List Op) (ha : ∀ s ∈ history ops, Affine s.2) (hF : (frameOf f ops).Ok) :
    (Matrix.run f ops).wsVoxelSizeSq = some
      ⟨1 / (frameOf f ops).res.x * (1 / (frameOf f ops).res.x) * (edgesSq (transformAt (history ops) 0)).x,
       1 / (frameOf f ops).res.y * (1 / (frameOf f ops).res.y) * (edgesSq (transformAt (history ops) 0)).y,
       1 / (frameOf f ops).res.z * (1 / (frameOf f ops).res.z) * (edgesSq (transformAt (history ops) 0)).z⟩ := by
  obtain ⟨s, hs, hp⟩ := C68_matrix_voxel_size f ops ha
  obtain ⟨o, x, y, z, h0, h1, h2, h3, e⟩ := hp ⟨0, 0, 0⟩
  rw [hs, e]
  have hT := affine_transformAt _ ha 0
  have hz : ∀ p, (Matrix.run f ops).voxelToWorld p =
      (transformAt (history ops) 0).multVec ((frameOf f ops).voxelToLocal p) := fun p => by
    rw [(C54_matrix_time_zero f ops p).1, (run_at f ops 0 p).2.2.1]
    exact (M44.multVec_mul _ _ _ _ (Frame.inverse_multVec _ hF p)).symm
  rw [hz, affine_multVec _ hT, Frame.voxelToLocal_eq _ hF] at h0 h1 h2 h3
  injection h0 with h0
  injection h1 with h1
  injection h2 with h2
  injection h3 with h3
  subst h0 h1 h2 h3
  obtain ⟨r1, r2, r3⟩ := hF
  congr 1
  generalize transformAt (history ops) 0 = T
  generalize frameOf f ops = F at *
  apply V3q.ext' <;> simp only [distSq, edgesSq] <;> field_simp <;> ring

theorem history_samples (c : List (ℚ × M44)) : history (c.map fun x => Op.setLocalToWorldAt x.1 x.2) = c := by
  refine snocInd (P := fun c => history (c.map fun x => Op.setLocalToWorldAt x.1 x.2) = c) rfl ?_ c
  intro c x h
  rw [List.map_append, List.map_singleton, history_snoc]
  simp only [h]

theorem frame_samples (f : Frame) : ∀ (c : List (ℚ × M44)), frameOf f (c.map fun x => Op.setLocalToWorldAt x.1 x.2) = f
  | [] => rfl
  | x :: c => by
    have := frame_samples f c
    unfold frameOf at this ⊢
    simpa using this

theorem build_sorted {c : Curve M44} (h : Sorted c) : build c = c := by
  have := fold_map (fun x : M44 => x) c h
  simpa [build] using this

/-- The level as a mapping made by calls. -/
theorem adjusted_run {root : ℚ → ℚ} (hr : Lengths root) (f : Frame) (ops : List Op) (hF : (frameOf f ops).Ok)
    (ha : ∀ s ∈ history ops, Affine s.2) (hs : SteadyEdges (history ops)) (off : V3i) (l : ℕ) (e : Box3i) :
    adjustedMatrix root (Matrix.run f ops) off e l = some (Matrix.run Frame.default
      ((build (history ops)).map fun x =>
        Op.setLocalToWorldAt x.1 ((levelToBase (frameOf f ops).res off l (e.size + V3i.all 1)).mul x.2))) := by
  unfold adjustedMatrix
  rw [voxelSize_eq f ops ha hF, (run_spec f ops).2.1]
  simp only [Option.bind_some]
  refine addSamples_run _ _ off l _ (fun x => (levelToBase (frameOf f ops).res off l (e.size + V3i.all 1)).mul x.2)
    _ (fun x hx => ?_) _
  have hl : lastFor x.1 (history ops) = some x.2 := ((build_spec _).2 _ _).1 hx
  have ht : transformAt (history ops) x.1 = x.2 := C56_at_samples _ _ M44.lerp_zero _ _ _ hl
  have hw : Affine x.2 := ha _ (lastFor_mem _ _ _ hl)
  refine sampleMatrix_eq hr _ hF _ off l _ x.1 _ hw (fun p => ?_)
    ⟨1 / (frameOf f ops).res.x * (1 / (frameOf f ops).res.x) * (edgesSq (transformAt (history ops) 0)).x,
       1 / (frameOf f ops).res.y * (1 / (frameOf f ops).res.y) * (edgesSq (transformAt (history ops) 0)).y,
       1 / (frameOf f ops).res.z * (1 / (frameOf f ops).res.z) * (edgesSq (transformAt (history ops) 0)).z⟩ ?_
  · rw [(run_at f ops x.1 p).1, ht]
  · rw [hs _ _ hl]

/-- The calls that make the mapping of a level. -/
def levelOps (f : Frame) (ops : List Op) (off : V3i) (l : ℕ) (e : Box3i) : List Op :=
  ((build (history ops)).map fun x =>
    Op.setLocalToWorldAt x.1 ((levelToBase (frameOf f ops).res off l (e.size + V3i.all 1)).mul x.2)) ++ [.setExtents e]

theorem levelOps_spec (f : Frame) (ops : List Op) (hne : history ops ≠ []) (off : V3i) (l : ℕ) (e : Box3i) :
    frameOf Frame.default (levelOps f ops off l e) = Frame.ofExtents e ∧ ∀ t,
      transformAt (history (levelOps f ops off l e)) t =
        (levelToBase (frameOf f ops).res off l (e.size + V3i.all 1)).mul (transformAt (history ops) t) := by
  refine ⟨?_, fun t => ?_⟩
  · unfold levelOps frameOf
    rw [List.foldl_append]
    rfl
  · have hb := (build_spec (history ops)).1
    generalize hg : levelToBase (frameOf f ops).res off l (e.size + V3i.all 1) = g
    have hh : history (levelOps f ops off l e) = (build (history ops)).map fun x => (x.1, g.mul x.2) := by
      unfold levelOps
      rw [history_snoc, hg]
      have := history_samples ((build (history ops)).map fun x => (x.1, g.mul x.2))
      rw [List.map_map] at this
      exact this
    rw [hh]
    unfold transformAt
    rw [build_sorted]
    · exact linear_map (fun x => g.mul x) M44.lerp M44.lerp M44.one M44.one (fun a b t => (M44.mul_lerp g a b t).symm)
        _ (build_ne hne) t
    · unfold Sorted
      rw [List.pairwise_map]
      exact hb

theorem size_cast (e : Box3i) (h : Proper e) : (((e.size + V3i.all 1).x : ℤ) : ℚ) = (Frame.ofExtents e).res.x ∧
    (((e.size + V3i.all 1).y : ℤ) : ℚ) = (Frame.ofExtents e).res.y ∧
    (((e.size + V3i.all 1).z : ℤ) : ℚ) = (Frame.ofExtents e).res.z := by
  have hn : e.isEmpty = false := by rw [Box3i.isEmpty_false]; exact h
  refine ⟨?_, ?_, ?_⟩ <;> simp [Box3i.size, Frame.ofExtents, V3i.all, hn]

/-- Voxel coordinates of a level through its local space. -/
theorem level_local (e0 e : Box3i) (he0 : Proper e0) (he : Proper e) (off : V3i) (l : ℕ) (p : V3q) :
    (levelToBase (Frame.ofExtents e0).res off l (e.size + V3i.all 1)).multVec ((Frame.ofExtents e).voxelToLocal p) =
      some ((Frame.ofExtents e0).voxelToLocal (toBase off e0.min e.min l p)) := by
  have h0 := ofExtents_ok e0 he0
  have h1 := ofExtents_ok e he
  rw [Frame.voxelToLocal_eq _ h0, Frame.voxelToLocal_eq _ h1, affine_multVec _ ⟨rfl, rfl, rfl, rfl⟩]
  obtain ⟨s1, s2, s3⟩ := size_cast e he
  unfold levelToBase
  simp only [s1, s2, s3]
  obtain ⟨a1, a2, a3⟩ := h0
  obtain ⟨b1, b2, b3⟩ := h1
  have o1 : (Frame.ofExtents e).origin = ⟨(e.min.x : ℤ), (e.min.y : ℤ), (e.min.z : ℤ)⟩ := rfl
  have o2 : (Frame.ofExtents e0).origin = ⟨(e0.min.x : ℤ), (e0.min.y : ℤ), (e0.min.z : ℤ)⟩ := rfl
  rw [o1, o2]
  generalize (Frame.ofExtents e).res = r at *
  generalize (Frame.ofExtents e0).res = r0 at *
  congr 1
  apply V3q.ext' <;> simp only [toBase, diff1] <;> field_simp <;> ring

theorem loaded_run {root : ℚ → ℚ} (hr : Lengths root) (f : Frame) (ops : List Op) (hF : (frameOf f ops).Ok)
    (ha : ∀ s ∈ history ops, Affine s.2) (hs : SteadyEdges (history ops)) (off : V3i) (l : ℕ) (e : Box3i) :
    loadedMapping root (.matrix (Matrix.run f ops)) off e l =
      some (.matrix (Matrix.run Frame.default (levelOps f ops off l e))) := by
  unfold loadedMapping adjusted
  simp only
  rw [adjusted_run hr f ops hF ha hs]
  simp only [Option.map_some, Option.bind_some, Copy.setExtents]
  unfold levelOps Matrix.run
  rw [List.foldl_append]
  rfl

theorem levelOps_at (f : Frame) (ops : List Op) (e0 : Box3i) (he0 : Proper e0)
    (hf : frameOf f ops = Frame.ofExtents e0) (hne : history ops ≠ []) (off : V3i) (l : ℕ) (e : Box3i) (he : Proper e)
    (t : ℚ) (p : V3q) : (Matrix.run Frame.default (levelOps f ops off l e)).voxelToWorldAt p t =
      (Matrix.run f ops).voxelToWorldAt (toBase off e0.min e.min l p) t := by
  obtain ⟨h1, h2⟩ := levelOps_spec f ops hne off l e
  rw [(run_at _ _ t p).2.2.1, (run_at _ _ t _).2.2.1, h1, h2, hf,
    ← M44.multVec_mul _ _ _ _ (Frame.inverse_multVec _ (ofExtents_ok e he) p),
    ← M44.multVec_mul _ _ _ _ (level_local e0 e he0 he off l p),
    ← M44.multVec_mul _ _ _ _ (Frame.inverse_multVec _ (ofExtents_ok e0 he0) _)]

/-! ## C73 -/

/-- **C73.** A level of a MIP field with a matrix mapping, moving and rotating but not changing its size: voxel
coordinates `p` of the level are, at every time, where the coordinates `off' + 2^l * p` of level 0 are, with the shift
`off'` that is due to the offset. The same for a level that is loaded later. -/
theorem C73_matrix (root : ℚ → ℚ) (hr : Lengths root) (f : Frame) (ops : List Op) (e0 : Box3i) (he0 : Proper e0)
    (hf : frameOf f ops = Frame.ofExtents e0) (hne : history ops ≠ []) (ha : ∀ s ∈ history ops, Affine s.2)
    (hs : SteadyEdges (history ops)) (off : V3i) (l : ℕ) (e : Box3i) (he : Proper e) (hz : l = 0 → e = e0) :
    ∃ m', levelMapping root (.matrix (Matrix.run f ops)) off e l = some (.matrix m') ∧
      (∃ m'', loadedMapping root (.matrix (Matrix.run f ops)) off e l = some (.matrix m'') ∧
        ∀ t p, m''.voxelToWorldAt p t = m'.voxelToWorldAt p t) ∧
      ∀ t p, m'.voxelToWorldAt p t = (Matrix.run f ops).voxelToWorldAt (toBase off e0.min e.min l p) t := by
  have hF : (frameOf f ops).Ok := hf ▸ ofExtents_ok e0 he0
  have hl := loaded_run hr f ops hF ha hs off l e
  have key := levelOps_at f ops e0 he0 hf hne off l e he
  by_cases h0 : l = 0
  · have := hz h0
    subst this
    subst h0
    refine ⟨(Matrix.run f ops).setExtents e, rfl, ⟨_, hl, fun t p => ?_⟩, fun t p => ?_⟩
    all_goals
      have er : (Matrix.run f ops).setExtents e = Matrix.run f (ops ++ [.setExtents e]) := by
        unfold Matrix.run; rw [List.foldl_append]; rfl
      have ef : frameOf f (ops ++ [.setExtents e]) = Frame.ofExtents e := by
        unfold frameOf; rw [List.foldl_append]; rfl
      have same : ((Matrix.run f ops).setExtents e).voxelToWorldAt p t = (Matrix.run f ops).voxelToWorldAt p t := by
        rw [er, (run_at _ _ t p).2.2.1, (run_at _ _ t p).2.2.1, ef, hf, history_snoc]
      have hb : toBase off e.min e.min 0 p = p := by
        apply V3q.ext' <;> simp [toBase]
    · rw [key, same, hb]
    · rw [same, hb]
  · refine ⟨_, ?_, ⟨_, hl, fun t p => rfl⟩, key⟩
    unfold levelMapping
    rw [if_neg h0]
    exact hl

/-- **C73.** For windows that begin at zero, and a transform that can be inverted: the voxel coordinates of a world
point in a level are those that are used when the MIP field is sampled (`C23_cells`): a point of a voxel of level 0 lies
in the voxel of the level that covers it. -/
theorem C73_cells (root : ℚ → ℚ) (hr : Lengths root) (f : Frame) (ops : List Op) (e0 : Box3i) (he0 : Proper e0)
    (hf : frameOf f ops = Frame.ofExtents e0) (hne : history ops ≠ []) (ha : ∀ s ∈ history ops, Affine s.2)
    (hs : SteadyEdges (history ops)) (off : V3i) (l : ℕ) (e : Box3i) (he : Proper e)
    (hm0 : e0.min = V3i.all 0) (hm : e.min = V3i.all 0) (t : ℚ) (ht : (transformAt (history ops) t).det ≠ 0) (w : V3q) :
    ∃ m', loadedMapping root (.matrix (Matrix.run f ops)) off e l = some (.matrix m') ∧
      ∃ p, (Matrix.run f ops).worldToVoxelAt w t = some p ∧ m'.worldToVoxelAt w t = some (mipCoord off l p) ∧
        ∀ q c : V3i, InVoxel p q → (InVoxel (mipCoord off l p) c ↔
          c = ⟨coarse off.x l q.x, coarse off.y l q.y, coarse off.z l q.z⟩) := by
  have hF : (frameOf f ops).Ok := hf ▸ ofExtents_ok e0 he0
  obtain ⟨h1, h2⟩ := levelOps_spec f ops hne off l e
  refine ⟨_, loaded_run hr f ops hF ha hs off l e, ?_⟩
  have hi := C54_matrix_total f ops ha t w
  obtain ⟨p, hp⟩ := Option.isSome_iff_exists.1 hi.2.1
  refine ⟨p, hp, ?_, fun q c h => C23_cells off l p q c h⟩
  have hv : ∀ (F : Frame), F.Ok → F.localToVoxelMatrix.inverse.det ≠ 0 := fun F h => M44.det_inverse_ne _ (F.matrix_det_ne h)
  have hd : (levelToBase (frameOf f ops).res off l (e.size + V3i.all 1)).det ≠ 0 := by
    obtain ⟨s1, s2, s3⟩ := size_cast e he
    obtain ⟨a1, a2, a3⟩ := hF
    obtain ⟨b1, b2, b3⟩ := ofExtents_ok e he
    unfold levelToBase
    rw [s1, s2, s3]
    have : ∀ a b c d e f : ℚ, M44.det ⟨⟨a, 0, 0, 0⟩, ⟨0, b, 0, 0⟩, ⟨0, 0, c, 0⟩, ⟨d, e, f, 1⟩⟩ = a * b * c := by
      intros; simp [M44.det, M44.det3]; ring
    rw [this]
    positivity
  rw [(run_at f ops t w).2.2.2.1] at hp
  have hp' := M44.inverse_multVec _ (by rw [M44.det_mul]; exact mul_ne_zero (hv _ hF) ht) _ _ hp
  rw [(run_at _ _ t w).2.2.2.1, h1, h2]
  refine M44.multVec_inverse _ ?_ _ _ ?_
  · rw [M44.det_mul, M44.det_mul]
    exact mul_ne_zero (hv _ (ofExtents_ok e he)) (mul_ne_zero hd ht)
  · rw [← hp', ← M44.multVec_mul _ _ _ _ (Frame.inverse_multVec _ (ofExtents_ok e he) _), hf,
      ← M44.multVec_mul _ _ _ _ (level_local e0 e he0 he off l _),
      ← M44.multVec_mul _ _ _ _ (Frame.inverse_multVec _ (ofExtents_ok e0 he0) _)]
    congr 2
    rw [hm0, hm]
    have hpow : (2 : ℚ) ^ l ≠ 0 := by positivity
    apply V3q.ext' <;> simp only [toBase, mipCoord, mipCoord1, V3i.all] <;> field_simp <;> ring

/-! ### Examples -/

/-- Rationals that differ by a square. -/
def squareClass : Setoid {x : ℚ // 0 < x} where
  r a b := ∃ k : ℚ, 0 < k ∧ a.1 = k * k * b.1
  iseqv := {
    refl := fun _ => ⟨1, one_pos, by ring⟩
    symm := fun {a b} ⟨k, hk, e⟩ => ⟨1 / k, by positivity, by rw [e]; field_simp⟩
    trans := fun {a b c} ⟨k, hk, e⟩ ⟨j, hj, e'⟩ => ⟨k * j, by positivity, by rw [e, e']; ring⟩ }

/-- There is a function with the properties of the square root that are used. -/
theorem lengths_exist : ∃ root, Lengths root := by
  classical
  let rep : {x : ℚ // 0 < x} → {x : ℚ // 0 < x} := fun x => (Quotient.mk squareClass x).out
  have hrep : ∀ x, ∃ k : ℚ, 0 < k ∧ x.1 = k * k * (rep x).1 := fun x => by
    have : squareClass.r (rep x) x := Quotient.exact (s := squareClass) (Quotient.out_eq _)
    exact squareClass.iseqv.symm this
  let root : ℚ → ℚ := fun x => if h : 0 < x then (hrep ⟨x, h⟩).choose else 0
  have hpos : ∀ x (h : 0 < x), 0 < root x ∧ x = root x * root x * (rep ⟨x, h⟩).1 := fun x h => by
    have e : root x = (hrep ⟨x, h⟩).choose := dif_pos h
    rw [e]
    exact (hrep ⟨x, h⟩).choose_spec
  refine ⟨root, fun x h => (hpos x h).1.ne', fun k x hk => ?_⟩
  by_cases hx : 0 < x
  · rcases hk.eq_or_lt with rfl | hk
    · simp [root]
    · have hkx : 0 < k * k * x := by positivity
      obtain ⟨p1, e1⟩ := hpos x hx
      obtain ⟨p2, e2⟩ := hpos _ hkx
      have hr : rep ⟨k * k * x, hkx⟩ = rep ⟨x, hx⟩ := by
        have : Quotient.mk squareClass ⟨k * k * x, hkx⟩ = Quotient.mk squareClass ⟨x, hx⟩ :=
          Quotient.sound (s := squareClass) ⟨k, hk, rfl⟩
        show (Quotient.mk squareClass _).out = (Quotient.mk squareClass _).out
        rw [this]
      rw [hr] at e2
      have hq := (rep ⟨x, hx⟩).2
      have e3 : root (k * k * x) * root (k * k * x) = (k * root x) * (k * root x) := by
        have : root (k * k * x) * root (k * k * x) * (rep ⟨x, hx⟩).1 = (k * root x) * (k * root x) * (rep ⟨x, hx⟩).1 := by
          rw [← e2]
          conv_lhs => rw [e1]
          ring
        exact mul_right_cancel₀ hq.ne' this
      rcases mul_self_eq_mul_self_iff.1 e3 with h | h
      · exact h
      · have : 0 < k * root x := by positivity
        linarith
  · have h1 : root x = 0 := dif_neg hx
    have h2 : root (k * k * x) = 0 := dif_neg (by
      intro h
      exact hx (pos_of_mul_pos_right h (mul_self_nonneg k)))
    rw [h1, h2]; ring

/-- A field of five voxels along each axis, one unit wide, that moves and turns. -/
def turningOps : List Op :=
  [.setExtents ⟨⟨0, 0, 0⟩, ⟨4, 4, 4⟩⟩, .setLocalToWorldAt 0 (M44.setScale ⟨5, 5, 5⟩),
   .setLocalToWorldAt 1 ⟨⟨3, 4, 0, 0⟩, ⟨-4, 3, 0, 0⟩, ⟨0, 0, 5, 0⟩, ⟨10, 0, 0, 1⟩⟩]

theorem turning_steady : SteadyEdges (history turningOps) := by
  intro u w h
  have h' := lastFor_mem _ _ _ h
  have e : history turningOps = [(0, M44.setScale ⟨5, 5, 5⟩),
    (1, ⟨⟨3, 4, 0, 0⟩, ⟨-4, 3, 0, 0⟩, ⟨0, 0, 5, 0⟩, ⟨10, 0, 0, 1⟩⟩)] := rfl
  rw [e] at h'
  simp only [List.mem_cons, List.not_mem_nil, or_false, Prod.mk.injEq] at h'
  rcases h' with ⟨rfl, rfl⟩ | ⟨rfl, rfl⟩ <;> decide +kernel

theorem turning_affine : ∀ s ∈ history turningOps, Affine s.2 := by
  intro s hs
  have e : history turningOps = [(0, M44.setScale ⟨5, 5, 5⟩),
    (1, ⟨⟨3, 4, 0, 0⟩, ⟨-4, 3, 0, 0⟩, ⟨0, 0, 5, 0⟩, ⟨10, 0, 0, 1⟩⟩)] := rfl
  rw [e] at hs
  simp only [List.mem_cons, List.not_mem_nil, or_false] at hs
  rcases hs with rfl | rfl <;> exact ⟨rfl, rfl, rfl, rfl⟩

example : ∃ root, Lengths root ∧ ∃ m', levelMapping root (.matrix (Matrix.run Frame.default turningOps)) ⟨-3, 1, 2⟩
    ⟨⟨0, 0, 0⟩, ⟨2, 2, 2⟩⟩ 1 = some (.matrix m') ∧ m'.voxelToWorldAt ⟨1, 1, 0⟩ 1 = some ⟨49 / 5, 7 / 5, 0⟩ := by
  obtain ⟨root, hr⟩ := lengths_exist
  obtain ⟨m', h, -, hp⟩ := C73_matrix root hr Frame.default turningOps ⟨⟨0, 0, 0⟩, ⟨4, 4, 4⟩⟩ (by unfold Proper; decide)
    rfl (by decide +kernel) turning_affine turning_steady ⟨-3, 1, 2⟩ 1 ⟨⟨0, 0, 0⟩, ⟨2, 2, 2⟩⟩ (by unfold Proper; decide)
    (by omega)
  refine ⟨root, hr, m', h, ?_⟩
  rw [hp]
  decide +kernel

/-! ### Faults -/

/-- A field that grows: four voxels along each axis, at time 0 one unit wide, at time 1 two units. -/
def growingOps : List Op :=
  [.setExtents ⟨⟨0, 0, 0⟩, ⟨3, 3, 3⟩⟩, .setLocalToWorldAt 0 (M44.setScale ⟨4, 4, 4⟩),
   .setLocalToWorldAt 1 (M44.setScale ⟨8, 8, 8⟩)]

/-- **C73.** The fault: the levels of a field that grows do not grow. At time 1 the far corner of level 1 is in the middle
of level 0. -/
theorem C73_growing_misplaced (root : ℚ → ℚ) (hr : Lengths root) :
    ∃ m', levelMapping root (.matrix (Matrix.run Frame.default growingOps)) (V3i.all 0) ⟨⟨0, 0, 0⟩, ⟨1, 1, 1⟩⟩ 1 =
        some (.matrix m') ∧
      m'.voxelToWorldAt ⟨2, 2, 2⟩ 1 = some ⟨4, 4, 4⟩ ∧
      (Matrix.run Frame.default growingOps).voxelToWorldAt (toBase (V3i.all 0) ⟨0, 0, 0⟩ ⟨0, 0, 0⟩ 1 ⟨2, 2, 2⟩) 1 =
        some ⟨8, 8, 8⟩ := by
  have hc : (Matrix.run Frame.default growingOps).lsToWsCurve = [(0, M44.setScale ⟨4, 4, 4⟩),
    (1, M44.setScale ⟨8, 8, 8⟩)] := by decide +kernel
  have hv : (Matrix.run Frame.default growingOps).wsVoxelSizeSq = some ⟨1, 1, 1⟩ := by decide +kernel
  have hl : ∀ t, (t = 0 ∨ t = 1) → ∀ p, (Matrix.run Frame.default growingOps).localToWorldAt p t =
      (if t = 0 then M44.setScale ⟨4, 4, 4⟩ else M44.setScale ⟨8, 8, 8⟩).multVec p := fun t ht p => by
    rw [(run_at _ _ t p).1]
    rcases ht with rfl | rfl
    · rw [if_pos rfl, show transformAt (history growingOps) 0 = M44.setScale ⟨4, 4, 4⟩ by decide +kernel]
    · rw [if_neg one_ne_zero, show transformAt (history growingOps) 1 = M44.setScale ⟨8, 8, 8⟩ by decide +kernel]
  have s0 := sampleMatrix_eq hr ⟨4, 4, 4⟩ (by norm_num) (Matrix.run Frame.default growingOps) (V3i.all 0) 1
    ((⟨⟨0, 0, 0⟩, ⟨1, 1, 1⟩⟩ : Box3i).size + V3i.all 1) 0 (M44.setScale ⟨4, 4, 4⟩) ⟨rfl, rfl, rfl, rfl⟩
    (fun p => hl 0 (Or.inl rfl) p) ⟨1, 1, 1⟩ (by decide +kernel)
  have s1 := sampleMatrix_eq hr ⟨8, 8, 8⟩ (by norm_num) (Matrix.run Frame.default growingOps) (V3i.all 0) 1
    ((⟨⟨0, 0, 0⟩, ⟨1, 1, 1⟩⟩ : Box3i).size + V3i.all 1) 1 (M44.setScale ⟨8, 8, 8⟩) ⟨rfl, rfl, rfl, rfl⟩
    (fun p => hl 1 (Or.inr rfl) p) ⟨1, 1, 1⟩ (by decide +kernel)
  refine ⟨Matrix.run Frame.default [.setLocalToWorldAt 0 ((levelToBase ⟨4, 4, 4⟩ (V3i.all 0) 1
    ((⟨⟨0, 0, 0⟩, ⟨1, 1, 1⟩⟩ : Box3i).size + V3i.all 1)).mul (M44.setScale ⟨4, 4, 4⟩)),
    .setLocalToWorldAt 1 ((levelToBase ⟨8, 8, 8⟩ (V3i.all 0) 1
    ((⟨⟨0, 0, 0⟩, ⟨1, 1, 1⟩⟩ : Box3i).size + V3i.all 1)).mul (M44.setScale ⟨8, 8, 8⟩)),
    .setExtents ⟨⟨0, 0, 0⟩, ⟨1, 1, 1⟩⟩], ?_, ?_, by decide +kernel⟩
  · unfold levelMapping adjusted adjustedMatrix
    simp only [hc, hv, Option.bind_some, List.map_cons, List.map_nil, addSamples, if_neg one_ne_zero]
    simp only at s0 s1
    rw [s0, s1]
    rfl
  · decide +kernel

/-- **C73.** The fault: with a matrix mapping whose transform was never set, every level fills the unit cube, also where
its voxels reach beyond level 0. With three voxels along each axis, the two of level 1 should be `2/3` wide and are `1/2`. -/
theorem C73_unset_misplaced (root : ℚ → ℚ) : ∃ m',
    levelMapping root (.matrix (Matrix.run Frame.default [.setExtents ⟨⟨0, 0, 0⟩, ⟨2, 2, 2⟩⟩])) (V3i.all 0)
      ⟨⟨0, 0, 0⟩, ⟨1, 1, 1⟩⟩ 1 = some (.matrix m') ∧
    m'.voxelToWorldAt ⟨1, 1, 1⟩ 0 = some ⟨1 / 2, 1 / 2, 1 / 2⟩ ∧
    (Matrix.run Frame.default [.setExtents ⟨⟨0, 0, 0⟩, ⟨2, 2, 2⟩⟩]).voxelToWorldAt
      (toBase (V3i.all 0) ⟨0, 0, 0⟩ ⟨0, 0, 0⟩ 1 ⟨1, 1, 1⟩) 0 = some ⟨2 / 3, 2 / 3, 2 / 3⟩ := by
  have hc : (Matrix.run Frame.default [.setExtents ⟨⟨0, 0, 0⟩, ⟨2, 2, 2⟩⟩]).lsToWsCurve = [] := by decide +kernel
  have hv : (Matrix.run Frame.default [.setExtents ⟨⟨0, 0, 0⟩, ⟨2, 2, 2⟩⟩]).wsVoxelSizeSq =
    some ⟨1 / 9, 1 / 9, 1 / 9⟩ := by decide +kernel
  refine ⟨Matrix.run Frame.default [.setExtents ⟨⟨0, 0, 0⟩, ⟨1, 1, 1⟩⟩], ?_, ?_, by decide +kernel⟩
  · unfold levelMapping adjusted adjustedMatrix
    simp only [hc, hv, Option.bind_some, List.map_nil, addSamples, if_neg one_ne_zero]
    rfl
  · decide +kernel

/-! ### Frustum mappings -/

/-- **C73.** A level of a MIP field with a frustum mapping fills the frustum of level 0, whatever the offset: voxel
coordinates are stretched by the ratio of the resolutions. -/
theorem C73_frustum (root : ℚ → ℚ) (m m' : Frustum) (e0 e : Box3i) (he0 : Proper e0) (he : Proper e)
    (hf : m.frame = Frame.ofExtents e0) (off : V3i) (l : ℕ)
    (h : levelMapping root (.frustum m) off e l = some (.frustum m')) (t : ℚ) (p : V3q) :
    m'.voxelToWorldAt p t = m.voxelToWorldAt
      ⟨e0.min.x + (p.x - e.min.x) * (e0.max.x - e0.min.x + 1 : ℤ) / (e.max.x - e.min.x + 1 : ℤ),
       e0.min.y + (p.y - e.min.y) * (e0.max.y - e0.min.y + 1 : ℤ) / (e.max.y - e.min.y + 1 : ℤ),
       e0.min.z + (p.z - e.min.z) * (e0.max.z - e0.min.z + 1 : ℤ) / (e.max.z - e.min.z + 1 : ℤ)⟩ t := by
  have hs : m.setExtents e = some m' := by
    unfold levelMapping adjusted at h
    simp only [Option.bind_some, ite_self, Copy.setExtents] at h
    cases hm : m.setExtents e with
    | none => rw [hm] at h; cases h
    | some x => rw [hm] at h; cases h; rfl
  unfold Frustum.setExtents at hs
  have hk := computeVoxelSize_fields _ _ hs
  have hl : ∀ q, m'.localToWorldAt q t = m.localToWorldAt q t := fun q => by
    rw [hk]; rfl
  have hfr : m'.frame = Frame.ofExtents e := by rw [hk]
  unfold Frustum.voxelToWorldAt
  rw [hl, hfr, hf, Frame.voxelToLocal_eq _ (ofExtents_ok e he), Frame.voxelToLocal_eq _ (ofExtents_ok e0 he0)]
  obtain ⟨a1, a2, a3⟩ := ofExtents_ok e0 he0
  obtain ⟨b1, b2, b3⟩ := ofExtents_ok e he
  congr 1
  unfold Frame.ofExtents at *
  simp only at *
  generalize ((e0.max.x - e0.min.x + 1 : ℤ) : ℚ) = r1 at *
  generalize ((e0.max.y - e0.min.y + 1 : ℤ) : ℚ) = r2 at *
  generalize ((e0.max.z - e0.min.z + 1 : ℤ) : ℚ) = r3 at *
  generalize ((e.max.x - e.min.x + 1 : ℤ) : ℚ) = q1 at *
  generalize ((e.max.y - e.min.y + 1 : ℤ) : ℚ) = q2 at *
  generalize ((e.max.z - e.min.z + 1 : ℤ) : ℚ) = q3 at *
  apply V3q.ext' <;> simp only <;> field_simp <;> ring

/-- **C73.** So it is in the right place if the resolution of level 0 is `2^l` times that of the level and the offset is a
multiple of `2^l`. -/
theorem C73_frustum_placed (root : ℚ → ℚ) (m m' : Frustum) (e0 e : Box3i) (he0 : Proper e0) (he : Proper e)
    (hf : m.frame = Frame.ofExtents e0) (off : V3i) (l : ℕ)
    (h : levelMapping root (.frustum m) off e l = some (.frustum m'))
    (hx : e0.max.x - e0.min.x + 1 = 2 ^ l * (e.max.x - e.min.x + 1))
    (hy : e0.max.y - e0.min.y + 1 = 2 ^ l * (e.max.y - e.min.y + 1))
    (hz : e0.max.z - e0.min.z + 1 = 2 ^ l * (e.max.z - e.min.z + 1))
    (ho : 2 ^ l ∣ off.x ∧ 2 ^ l ∣ off.y ∧ 2 ^ l ∣ off.z) (t : ℚ) (p : V3q) :
    m'.voxelToWorldAt p t = m.voxelToWorldAt (toBase off e0.min e.min l p) t := by
  rw [C73_frustum root m m' e0 e he0 he hf off l h t p]
  obtain ⟨b1, b2, b3⟩ := ofExtents_ok e he
  obtain ⟨o1, o2, o3⟩ := ho
  congr 1
  unfold Frame.ofExtents at *
  simp only at *
  have cast : ∀ a b : ℤ, a = 2 ^ l * b → (a : ℚ) = 2 ^ l * b := fun a b h => by rw [h]; push_cast; ring
  rw [cast _ _ hx, cast _ _ hy, cast _ _ hz]
  generalize ((e.max.x - e.min.x + 1 : ℤ) : ℚ) = q1 at *
  generalize ((e.max.y - e.min.y + 1 : ℤ) : ℚ) = q2 at *
  generalize ((e.max.z - e.min.z + 1 : ℤ) : ℚ) = q3 at *
  unfold toBase
  rw [Int.ediv_mul_cancel o1, Int.ediv_mul_cancel o2, Int.ediv_mul_cancel o3]
  apply V3q.ext' <;> simp only [sub_self, Int.cast_zero] <;> field_simp <;> ring

/-- A frustum with four voxels along each axis, and its level with two. -/
def fourFrustum : Option Frustum := (Frustum.new 2).bind fun m => m.setExtents ⟨⟨0, 0, 0⟩, ⟨3, 3, 3⟩⟩
def fourLevel : Option Frustum := fourFrustum.bind fun m => m.setExtents ⟨⟨0, 0, 0⟩, ⟨1, 1, 1⟩⟩

example (root : ℚ → ℚ) : ∃ m m', fourFrustum = some m ∧
    levelMapping root (.frustum m) ⟨4, 2, 0⟩ ⟨⟨0, 0, 0⟩, ⟨1, 1, 1⟩⟩ 1 = some (.frustum m') ∧
    ∀ t p, m'.voxelToWorldAt p t = m.voxelToWorldAt (toBase ⟨4, 2, 0⟩ ⟨0, 0, 0⟩ ⟨0, 0, 0⟩ 1 p) t := by
  have h1 : fourFrustum.isSome = true := by decide +kernel
  have h2 : fourLevel.isSome = true := by decide +kernel
  have h3 : (fourFrustum.map fun m => m.frame) = some (Frame.ofExtents ⟨⟨0, 0, 0⟩, ⟨3, 3, 3⟩⟩) := by decide +kernel
  obtain ⟨m, hm⟩ := Option.isSome_iff_exists.1 h1
  obtain ⟨m', hm'⟩ := Option.isSome_iff_exists.1 h2
  have hl : levelMapping root (.frustum m) ⟨4, 2, 0⟩ ⟨⟨0, 0, 0⟩, ⟨1, 1, 1⟩⟩ 1 = some (.frustum m') := by
    unfold fourLevel at hm'
    rw [hm, Option.bind_some] at hm'
    unfold levelMapping adjusted
    simp only [if_neg one_ne_zero, Option.bind_some, Copy.setExtents]
    rw [hm']
    rfl
  rw [hm] at h3
  exact ⟨m, m', hm, hl, fun t p => C73_frustum_placed root m m' ⟨⟨0, 0, 0⟩, ⟨3, 3, 3⟩⟩ _ (by unfold Proper; decide)
    (by unfold Proper; decide) (Option.some.inj h3) _ 1 hl (by decide) (by decide) (by decide) (by decide) t p⟩

/-- A frustum with three voxels along each axis. -/
def threeFrustum : Option Frustum := (Frustum.new 2).bind fun m => m.setExtents ⟨⟨0, 0, 0⟩, ⟨2, 2, 2⟩⟩

/-- Its level 1, with two. -/
def threeLevel : Option Frustum := threeFrustum.bind fun m => m.setExtents ⟨⟨0, 0, 0⟩, ⟨1, 1, 1⟩⟩

/-- **C73.** The fault: a level of a field with a frustum mapping is misplaced if its voxels reach beyond level 0. -/
theorem C73_frustum_misplaced (root : ℚ → ℚ) : ∃ m m', threeFrustum = some m ∧
    levelMapping root (.frustum m) (V3i.all 0) ⟨⟨0, 0, 0⟩, ⟨1, 1, 1⟩⟩ 1 = some (.frustum m') ∧
    m'.voxelToWorldAt ⟨1, 1, 1⟩ 0 ≠
      m.voxelToWorldAt (toBase (V3i.all 0) ⟨0, 0, 0⟩ ⟨0, 0, 0⟩ 1 ⟨1, 1, 1⟩) 0 := by
  have h1 : threeFrustum.isSome = true := by decide +kernel
  have h2 : threeLevel.isSome = true := by decide +kernel
  have h3 : (threeLevel.bind fun m => m.voxelToWorldAt ⟨1, 1, 1⟩ 0) ≠
    threeFrustum.bind fun m => m.voxelToWorldAt (toBase (V3i.all 0) ⟨0, 0, 0⟩ ⟨0, 0, 0⟩ 1 ⟨1, 1, 1⟩) 0 := by
    decide +kernel
  obtain ⟨m, hm⟩ := Option.isSome_iff_exists.1 h1
  obtain ⟨m', hm'⟩ := Option.isSome_iff_exists.1 h2
  refine ⟨m, m', hm, ?_, ?_⟩
  · unfold threeLevel at hm'
    rw [hm, Option.bind_some] at hm'
    unfold levelMapping adjusted
    simp only [if_neg one_ne_zero, Option.bind_some, Copy.setExtents]
    rw [hm']
    rfl
  · rw [hm, hm'] at h3
    exact h3

/-! ### The offset that aligns fields -/

theorem offset1_shift {x : ℚ} {d a b : ℤ} (ha : offset1 x = some a) (hb : offset1 (x + d) = some b) : b = a - d := by
  unfold offset1 at ha hb
  have ti : ∀ {n k : ℤ}, Cont.toInt n = some k → k = n := fun {n k} h => by
    unfold Cont.toInt at h
    split at h
    · injection h with h; exact h.symm
    · cases h
  obtain ⟨a', h1, h2⟩ := Option.bind_eq_some_iff.1 ha
  obtain ⟨b', h3, h4⟩ := Option.bind_eq_some_iff.1 hb
  have e1 := ti h1
  have e2 := ti h2
  have e3 := ti h3
  have e4 := ti h4
  have e5 : (x + d + 1 / 2).floor = (x + 1 / 2).floor + d := by
    rw [show x + d + 1 / 2 = x + 1 / 2 + (d : ℚ) by ring]
    exact Rat.floor_add_intCast ..
  omega

theorem offset1_near {x : ℚ} {a : ℤ} (ha : offset1 x = some a) : -(a : ℚ) ≤ x + 1 / 2 ∧ x + 1 / 2 < -(a : ℚ) + 1 := by
  unfold offset1 at ha
  have ti : ∀ {n k : ℤ}, Cont.toInt n = some k → k = n := fun {n k} h => by
    unfold Cont.toInt at h
    split at h
    · injection h with h; exact h.symm
    · cases h
  obtain ⟨a', h1, h2⟩ := Option.bind_eq_some_iff.1 ha
  have e1 := ti h1
  have e2 := ti h2
  have e3 : -(a : ℚ) = ((x + 1 / 2).floor : ℚ) := by
    rw [e2, e1]; push_cast; ring
  rw [e3]
  have h3 := Rat.lt_floor (x := x + 1 / 2)
  exact ⟨Rat.floor_le _, by linarith⟩

/-- **C73.** `computeOffset` gives the voxel coordinates of the origin of the field as seen from the origin of the world,
rounded to the nearest whole number. -/
theorem C73_offset_rounds (m : Matrix) (off : V3i) (h : computeOffset m = some off) :
    ∃ p, m.worldToVoxel ⟨0, 0, 0⟩ = some p ∧ (-(1 / 2) ≤ p.x + off.x ∧ p.x + off.x < 1 / 2) ∧
      (-(1 / 2) ≤ p.y + off.y ∧ p.y + off.y < 1 / 2) ∧ (-(1 / 2) ≤ p.z + off.z ∧ p.z + off.z < 1 / 2) := by
  unfold computeOffset at h
  simp only [Option.bind_eq_bind, Option.bind_eq_some_iff, Option.some.injEq] at h
  obtain ⟨a, wA, ax, oax, ay, oay, az, oaz, rfl⟩ := h
  have h1 := offset1_near oax
  have h2 := offset1_near oay
  have h3 := offset1_near oaz
  refine ⟨a, wA, ⟨?_, ?_⟩, ⟨?_, ?_⟩, ?_, ?_⟩ <;> simp only <;> linarith [h1.1, h1.2, h2.1, h2.2, h3.1, h3.2]

/-- **C73.** Fields whose voxels are on one grid in the world, and whose MIP levels were made with the offset of
`computeOffset`: their levels are on one grid, too. The fields differ by a shift of `d` voxels, the levels by one of a
whole number `k` of the larger voxels. -/
theorem C73_common_grid (root : ℚ → ℚ) (hr : Lengths root) (f g : Frame) (opsA opsB : List Op) (eA eB : Box3i)
    (pA : Proper eA) (pB : Proper eB) (hf : frameOf f opsA = Frame.ofExtents eA) (hg : frameOf g opsB = Frame.ofExtents eB)
    (nA : history opsA ≠ []) (nB : history opsB ≠ []) (aA : ∀ s ∈ history opsA, Affine s.2)
    (aB : ∀ s ∈ history opsB, Affine s.2) (sA : SteadyEdges (history opsA)) (sB : SteadyEdges (history opsB))
    (mA : eA.min = V3i.all 0) (mB : eB.min = V3i.all 0) (d : V3i)
    (grid : ∀ t p, (Matrix.run f opsA).voxelToWorldAt p t =
      (Matrix.run g opsB).voxelToWorldAt ⟨p.x + d.x, p.y + d.y, p.z + d.z⟩ t)
    (dA : (transformAt (history opsA) 0).det ≠ 0) (dB : (transformAt (history opsB) 0).det ≠ 0)
    (offA offB : V3i) (oA : computeOffset (Matrix.run f opsA) = some offA)
    (oB : computeOffset (Matrix.run g opsB) = some offB) (l : ℕ) (lA lB : Box3i) (qA : Proper lA) (qB : Proper lB)
    (zA : lA.min = V3i.all 0) (zB : lB.min = V3i.all 0) :
    ∃ a b, loadedMapping root (.matrix (Matrix.run f opsA)) offA lA l = some (.matrix a) ∧
      loadedMapping root (.matrix (Matrix.run g opsB)) offB lB l = some (.matrix b) ∧
      ∃ k : V3i, ∀ t p, a.voxelToWorldAt p t = b.voxelToWorldAt ⟨p.x + k.x, p.y + k.y, p.z + k.z⟩ t := by
  have hA : (frameOf f opsA).Ok := hf ▸ ofExtents_ok eA pA
  have hB : (frameOf g opsB).Ok := hg ▸ ofExtents_ok eB pB
  refine ⟨_, _, loaded_run hr f opsA hA aA sA offA l lA, loaded_run hr g opsB hB aB sB offB l lB,
    ⟨offA.x / 2 ^ l - offB.x / 2 ^ l, offA.y / 2 ^ l - offB.y / 2 ^ l, offA.z / 2 ^ l - offB.z / 2 ^ l⟩,
    fun t p => ?_⟩
  have ho : offB = ⟨offA.x - d.x, offA.y - d.y, offA.z - d.z⟩ := by
    unfold computeOffset at oA oB
    simp only [Option.bind_eq_bind, Option.bind_eq_some_iff, Option.some.injEq] at oA oB
    obtain ⟨a, wA, ax, oax, ay, oay, az, oaz, rfl⟩ := oA
    obtain ⟨b, wB, bx, obx, by', oby, bz, obz, rfl⟩ := oB
    have hv : ∀ (F : Frame), F.Ok → F.localToVoxelMatrix.inverse.det ≠ 0 := fun F h =>
      M44.det_inverse_ne _ (F.matrix_det_ne h)
    have vA : (Matrix.run f opsA).voxelToWorldAt a 0 = some ⟨0, 0, 0⟩ := by
      rw [(C54_matrix_time_zero f opsA _).2.1, (run_at _ _ 0 _).2.2.2.1] at wA
      rw [(run_at _ _ 0 _).2.2.1]
      exact M44.inverse_multVec _ (by rw [M44.det_mul]; exact mul_ne_zero (hv _ hA) dA) _ _ wA
    rw [grid] at vA
    have wB' : (Matrix.run g opsB).worldToVoxel ⟨0, 0, 0⟩ = some ⟨a.x + d.x, a.y + d.y, a.z + d.z⟩ := by
      rw [(C54_matrix_time_zero g opsB _).2.1, (run_at _ _ 0 _).2.2.2.1]
      rw [(run_at _ _ 0 _).2.2.1] at vA
      exact M44.multVec_inverse _ (by rw [M44.det_mul]; exact mul_ne_zero (hv _ hB) dB) _ _ vA
    rw [wB] at wB'
    injection wB' with wB'
    subst wB'
    rw [offset1_shift oax obx, offset1_shift oay oby, offset1_shift oaz obz]
  rw [levelOps_at f opsA eA pA hf nA offA l lA qA, levelOps_at g opsB eB pB hg nB offB l lB qB, grid, mA, mB, zA, zB]
  congr 1
  subst ho
  apply V3q.ext' <;> simp only [toBase, V3i.all] <;> push_cast <;> ring

/-- Two fields of voxels one unit wide, the second beginning three voxels before the first along x. -/
def gridOpsA : List Op :=
  [.setExtents ⟨⟨0, 0, 0⟩, ⟨4, 4, 4⟩⟩, .setLocalToWorld ⟨⟨5, 0, 0, 0⟩, ⟨0, 5, 0, 0⟩, ⟨0, 0, 5, 0⟩, ⟨1 / 4, 7, 0, 1⟩⟩]
def gridOpsB : List Op :=
  [.setExtents ⟨⟨0, 0, 0⟩, ⟨7, 4, 4⟩⟩, .setLocalToWorld ⟨⟨8, 0, 0, 0⟩, ⟨0, 5, 0, 0⟩, ⟨0, 0, 5, 0⟩, ⟨-11 / 4, 7, 0, 1⟩⟩]

theorem grid_at (e : Box3i) (he : Proper e) (x : M44) (t : ℚ) (p : V3q) :
    (Matrix.run Frame.default [.setExtents e, .setLocalToWorld x]).voxelToWorldAt p t =
      x.multVec ((Frame.ofExtents e).voxelToLocal p) := by
  have ht : transformAt (history [.setExtents e, .setLocalToWorld x]) t = x := by
    show Curve.linear M44.lerp M44.one [(0, x)] t = x
    simp [Curve.linear, Curve.linearFrom]
  rw [(run_at _ _ t p).2.2.1, ht]
  exact (M44.multVec_mul _ _ _ _ (Frame.inverse_multVec _ (ofExtents_ok e he) p)).symm

example (root : ℚ → ℚ) (hr : Lengths root) : ∃ a b,
    loadedMapping root (.matrix (Matrix.run Frame.default gridOpsA)) ⟨0, 7, 0⟩ ⟨⟨0, 0, 0⟩, ⟨2, 3, 2⟩⟩ 1 = some (.matrix a) ∧
    loadedMapping root (.matrix (Matrix.run Frame.default gridOpsB)) ⟨-3, 7, 0⟩ ⟨⟨0, 0, 0⟩, ⟨4, 3, 2⟩⟩ 1 = some (.matrix b) ∧
    ∃ k : V3i, ∀ t p, a.voxelToWorldAt p t = b.voxelToWorldAt ⟨p.x + k.x, p.y + k.y, p.z + k.z⟩ t := by
  have single : ∀ x : M44, SteadyEdges [(0, x)] := fun x u w h => by
    have := lastFor_mem _ _ _ h
    simp only [List.mem_singleton, Prod.mk.injEq] at this
    obtain ⟨rfl, rfl⟩ := this
    show edgesSq w = edgesSq (Curve.linear M44.lerp M44.one [(0, w)] 0)
    simp [Curve.linear, Curve.linearFrom]
  have pA : Proper ⟨⟨0, 0, 0⟩, ⟨4, 4, 4⟩⟩ := by unfold Proper; decide
  have pB : Proper ⟨⟨0, 0, 0⟩, ⟨7, 4, 4⟩⟩ := by unfold Proper; decide
  refine C73_common_grid root hr Frame.default Frame.default gridOpsA gridOpsB ⟨⟨0, 0, 0⟩, ⟨4, 4, 4⟩⟩
    ⟨⟨0, 0, 0⟩, ⟨7, 4, 4⟩⟩ pA pB rfl rfl (by decide +kernel) (by decide +kernel) ?_ ?_ (single _) (single _) rfl rfl ⟨3, 0, 0⟩
    (fun t p => ?_) (by decide +kernel) (by decide +kernel) _ _ (by decide +kernel) (by decide +kernel) 1 _ _
    (by unfold Proper; decide) (by unfold Proper; decide) rfl rfl
  · intro s hs
    rcases List.mem_singleton.1 hs with rfl
    exact ⟨rfl, rfl, rfl, rfl⟩
  · intro s hs
    rcases List.mem_singleton.1 hs with rfl
    exact ⟨rfl, rfl, rfl, rfl⟩
  · unfold gridOpsA gridOpsB
    rw [grid_at _ pA, grid_at _ pB,
      Frame.voxelToLocal_eq _ (ofExtents_ok _ pA), Frame.voxelToLocal_eq _ (ofExtents_ok _ pB),
      affine_multVec _ ⟨rfl, rfl, rfl, rfl⟩, affine_multVec _ ⟨rfl, rfl, rfl, rfl⟩]
    congr 1
    unfold Frame.ofExtents
    apply V3q.ext' <;> simp; ring

end F3D.Props
