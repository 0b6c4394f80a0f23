import Verif.Model.Iterate
import Verif.Proofs.Iterate

/-!
# C10, C16 (first half), C17 (clipBounds): boxes and voxel iteration
-/

namespace F3D.Props

/-- Specification of an exactly-once, in-order traversal of a box: no repetition, exactly the
voxels of the box, x running fastest, then y, then z. -/
structure TraversesBox (w : Box3i) (l : List V3i) : Prop where
  nodup : l.Nodup
  mem : ∀ p : V3i, p ∈ l ↔
    (w.min.x ≤ p.x ∧ p.x ≤ w.max.x) ∧ (w.min.y ≤ p.y ∧ p.y ≤ w.max.y) ∧
    (w.min.z ≤ p.z ∧ p.z ≤ w.max.z)
  order : l.Pairwise (fun a b =>
    a.z < b.z ∨ (a.z = b.z ∧ (a.y < b.y ∨ (a.y = b.y ∧ a.x < b.x))))
  count : (l.length : Int) =
    (w.max.x - w.min.x + 1) * (w.max.y - w.min.y + 1) * (w.max.z - w.min.z + 1)

theorem voxels_traverses {w : Box3i} (h : w.isEmpty = false) : TraversesBox w w.voxels where
  nodup := w.voxels_nodup
  mem p := by rw [Box3i.mem_voxels h, Box3i.contains_iff]
  order := voxels_sorted h
  count := by
    obtain ⟨h1, h2, h3, _, _, _⟩ := w.dims h
    simp only [Box3i.voxels, List.length_map, List.length_range, Box3i.vol]
    push_cast
    rw [h1, h2, h3]

/-- C10: iterating a sub-box that is non-empty along every axis, from `cbegin(subset)` to
`cend(subset)`, terminates and visits every voxel of the box exactly once, in order. -/
theorem C10_subset_iteration (w : Box3i) (h : w.isEmpty = false) :
    ∃ l, Visits (iterNext w) (iterAtEnd w) (iterBeginSubset w) l ∧ TraversesBox w l := by
  refine ⟨w.voxels, ?_, voxels_traverses h⟩
  have : iterBeginSubset w = w.min := by simp [iterBeginSubset, h]
  rw [this]
  exact visits_box h

/-- C10: the same for the whole data window (`cbegin()`/`cend()`). -/
theorem C10_window_iteration (w : Box3i) (h : w.isEmpty = false) :
    ∃ l, Visits (iterNext w) (iterAtEnd w) (iterBegin w) l ∧ TraversesBox w l := by
  refine ⟨w.voxels, ?_, voxels_traverses h⟩
  have h' := Box3i.isEmpty_false.mp h
  have : iterBegin w = w.min := by
    unfold iterBegin
    rw [if_neg]
    intro e
    have := congrArg V3i.x e
    simp [Box3i.res] at this
    omega
  rw [this]
  exact visits_box h

/-- C10: an empty subset gives an empty traversal. -/
theorem C10_empty_subset (w : Box3i) (h : w.isEmpty = true) :
    Visits (iterNext w) (iterAtEnd w) (iterBeginSubset w) [] := by
  have : iterBeginSubset w = iterEnd w := by simp [iterBeginSubset, h]
  rw [this]
  exact Visits.done _ (iterAtEnd_iff.mpr rfl)

/-- C10: a freshly constructed field (window `(0,0,0)..(-1,-1,-1)`) gives an empty traversal. -/
theorem C10_default_field :
    Visits (iterNext ⟨V3i.all 0, V3i.all (-1)⟩) (iterAtEnd ⟨V3i.all 0, V3i.all (-1)⟩)
      (iterBegin ⟨V3i.all 0, V3i.all (-1)⟩) [] :=
  Visits.done _ (by decide)

/-- C10 (failure case): `cbegin()` tests for a resolution of zero along all three axes, so a data
window that is empty along x only is traversed without ever reaching `cend()`. -/
theorem C10_partly_empty_window_never_ends (w : Box3i) (hx : w.max.x < w.min.x)
    (hyz : ¬ (w.res = V3i.all 0)) (hz : w.min.z ≤ w.max.z) (l : List V3i) :
    ¬ Visits (iterNext w) (iterAtEnd w) (iterBegin w) l := by
  have hb : iterBegin w = w.min := by simp [iterBegin, hyz]
  have key : ∀ (s : V3i) (l : List V3i), w.max.x < s.x → s.y = w.min.y → s.z = w.min.z →
      ¬ Visits (iterNext w) (iterAtEnd w) s l := by
    intro s l
    induction l generalizing s with
    | nil =>
      intro h1 h2 h3 hv
      cases hv with
      | done _ he =>
        rw [iterAtEnd_iff] at he
        subst he
        simp only [iterEnd] at h3
        omega
    | cons a l ih =>
      intro h1 h2 h3 hv
      cases hv with
      | step _ _ _ hv =>
        have : iterNext w a = ⟨a.x + 1, a.y, a.z⟩ := by
          unfold iterNext; rw [if_neg (by omega)]
        rw [this] at hv
        exact ih ⟨a.x + 1, a.y, a.z⟩ (by simp only; omega) h2 h3 hv
  rw [hb]
  exact key _ _ hx rfl rfl

/-- Non-vacuity: a 3x1x2 box with a negative origin meets the hypothesis, and its traversal is the
expected list. -/
example : (⟨⟨-1, 2, 0⟩, ⟨1, 2, 1⟩⟩ : Box3i).isEmpty = false := by decide
example : Visits (iterNext ⟨⟨-1, 2, 0⟩, ⟨1, 2, 1⟩⟩) (iterAtEnd ⟨⟨-1, 2, 0⟩, ⟨1, 2, 1⟩⟩)
    (iterBegin ⟨⟨-1, 2, 0⟩, ⟨1, 2, 1⟩⟩)
    [⟨-1, 2, 0⟩, ⟨0, 2, 0⟩, ⟨1, 2, 0⟩, ⟨-1, 2, 1⟩, ⟨0, 2, 1⟩, ⟨1, 2, 1⟩] := by
  repeat (first | exact Visits.done _ (by decide) | refine Visits.step _ _ (by decide) ?_)
/-- The failing window exists: resolution (0, 2, 2). -/
example : (⟨⟨0, 0, 0⟩, ⟨-1, 1, 1⟩⟩ : Box3i).max.x < (⟨⟨0, 0, 0⟩, ⟨-1, 1, 1⟩⟩ : Box3i).min.x ∧
    ¬ ((⟨⟨0, 0, 0⟩, ⟨-1, 1, 1⟩⟩ : Box3i).res = V3i.all 0) := by decide

/-- C16: `indexToCoord` maps `0 .. rx*ry*rz - 1` one-to-one onto the voxels of the grid, and the
linear index is `x + y*rx + z*rx*ry` (x-fastest). -/
theorem C16_index_to_coord_bijective (rx ry rz : Nat) (hx : 0 < rx) (hy : 0 < ry) :
    (∀ i, i < rx * ry * rz →
      let p := indexToCoord i rx ry
      0 ≤ p.x ∧ p.x < rx ∧ 0 ≤ p.y ∧ p.y < ry ∧ 0 ≤ p.z ∧ p.z < rz ∧
      p.x + p.y * rx + p.z * (rx * ry) = i) ∧
    (∀ x y z : Nat, x < rx → y < ry → z < rz →
      ∃ i, i < rx * ry * rz ∧ indexToCoord i rx ry = ⟨x, y, z⟩ ∧
        ∀ i', i' < rx * ry * rz → indexToCoord i' rx ry = ⟨x, y, z⟩ → i' = i) := by
  constructor
  · intro i hi
    obtain ⟨h1, h2, h3⟩ := Grid.dec_bounds hi
    have e := Grid.enc_dec rx ry i
    unfold Grid.enc at e
    simp only [indexToCoord]
    refine ⟨Int.natCast_nonneg _, by exact_mod_cast h1, Int.natCast_nonneg _,
      by exact_mod_cast h2, Int.natCast_nonneg _,
      by exact_mod_cast h3, by exact_mod_cast e⟩
  · intro x y z h1 h2 h3
    refine ⟨Grid.enc rx ry x y z, Grid.enc_lt h1 h2 h3, ?_, ?_⟩
    · simp [indexToCoord, Grid.dec_x h1, Grid.dec_y h1 h2, Grid.dec_z h1 h2]
    · intro i' _ he
      simp only [indexToCoord, V3i.mk.injEq, Int.natCast_inj] at he
      obtain ⟨e1, e2, e3⟩ := he
      rw [← Grid.enc_dec rx ry i', e1, e2, e3]

/-- C16: consecutive indices are consecutive positions of the voxel iterator of the grid
`(0,0,0)..(rx-1,ry-1,rz-1)`. -/
theorem C16_index_follows_iterator (rx ry rz : Nat) (hx : 0 < rx) (hy : 0 < ry) (hz : 0 < rz)
    (i : Nat) :
    indexToCoord (i + 1) rx ry =
      iterNext ⟨V3i.all 0, ⟨rx - 1, ry - 1, rz - 1⟩⟩ (indexToCoord i rx ry) := by
  have hne : (⟨V3i.all 0, ⟨(rx : Int) - 1, ry - 1, rz - 1⟩⟩ : Box3i).isEmpty = false := by
    rw [Box3i.isEmpty_false]; simp; omega
  have e : ∀ j, indexToCoord j rx ry =
      (⟨V3i.all 0, ⟨(rx : Int) - 1, ry - 1, rz - 1⟩⟩ : Box3i).coordAt j := by
    intro j
    simp [indexToCoord, Box3i.coordAt, Box3i.nx, Box3i.ny, Box3i.res]
  rw [e, e, Box3i.coordAt_succ hne]

example : indexToCoord 23 3 4 = ⟨2, 3, 1⟩ := by decide

/-- C17: `clipBounds` of two boxes contains exactly the voxels that are in both. -/
theorem C17_clip_is_intersection (a b : Box3i) (p : V3i) :
    (clipBounds a b).contains p = true ↔ a.contains p = true ∧ b.contains p = true := by
  simp only [Box3i.contains_iff, clipBounds]
  omega

end F3D.Props
