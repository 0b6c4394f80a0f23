import Verif.Model.Cont
import Verif.Proofs.Interp
import Verif.Proofs.Sparse

/-!
# C17: discrete and continuous voxel coordinates
-/

namespace F3D.Props
open F3D F3D.Cont F3D.Interp

/-! ## Specification -/

/-- The half-open unit cell of a voxel. -/
def InCell (i : V3i) (p : V3q) : Prop :=
  ((i.x : ℚ) ≤ p.x ∧ p.x < i.x + 1) ∧ ((i.y : ℚ) ≤ p.y ∧ p.y < i.y + 1) ∧
  ((i.z : ℚ) ≤ p.z ∧ p.z < i.z + 1)

/-- An `int` voxel coordinate. -/
def IsInt (i : V3i) : Prop :=
  (intMin ≤ i.x ∧ i.x ≤ intMax) ∧ (intMin ≤ i.y ∧ i.y ≤ intMax) ∧ (intMin ≤ i.z ∧ i.z ≤ intMax)

/-- A point of a closed continuous box. -/
def InBox (b : Box3q) (p : V3q) : Prop :=
  (b.min.x ≤ p.x ∧ p.x ≤ b.max.x) ∧ (b.min.y ≤ p.y ∧ p.y ≤ b.max.y) ∧ (b.min.z ≤ p.z ∧ p.z ≤ b.max.z)

/-! ## Theorems -/

/-- C17: a point is converted to a voxel exactly if the point lies in the voxel's cell (and the voxel
has `int` coordinates); otherwise the conversion is undefined. -/
theorem C17_contToDisc_is_cell (p : V3q) (i : V3i) :
    contToDisc3 p = some i ↔ InCell i p ∧ IsInt i := by
  have h1 : ∀ (c : ℚ) (n : ℤ), contToDisc c = some n ↔
      ((n : ℚ) ≤ c ∧ c < n + 1) ∧ (intMin ≤ n ∧ n ≤ intMax) := by
    intro c n
    unfold contToDisc toInt
    constructor
    · intro h
      split at h
      · rename_i hr
        cases h
        exact ⟨⟨floor_le' c, lt_floor' c⟩, hr⟩
      · cases h
    · rintro ⟨⟨a, b⟩, hr⟩
      rw [floor_unique a b, if_pos hr]
  unfold contToDisc3
  constructor
  · intro h
    cases hx : contToDisc p.x with
    | none => simp [hx] at h
    | some x =>
    cases hy : contToDisc p.y with
    | none => simp [hx, hy] at h
    | some y =>
    cases hz : contToDisc p.z with
    | none => simp [hx, hy, hz] at h
    | some z =>
      simp only [hx, hy, hz, Option.bind_eq_bind, Option.bind_some, Option.some.injEq] at h
      subst h
      have a := (h1 _ _).mp hx
      have b := (h1 _ _).mp hy
      have c := (h1 _ _).mp hz
      exact ⟨⟨a.1, b.1, c.1⟩, a.2, b.2, c.2⟩
  · rintro ⟨⟨a, b, c⟩, a', b', c'⟩
    rw [(h1 p.x i.x).mpr ⟨a, a'⟩, (h1 p.y i.y).mpr ⟨b, b'⟩, (h1 p.z i.z).mpr ⟨c, c'⟩]
    rfl

/-- C17: converting a voxel to continuous coordinates and back gives the voxel. -/
theorem C17_round_trip (i : V3i) (h : IsInt i) : contToDisc3 (discToCont3 i) = some i := by
  rw [C17_contToDisc_is_cell]
  refine ⟨?_, h⟩
  unfold InCell discToCont3 discToCont
  simp only
  refine ⟨⟨?_, ?_⟩, ⟨?_, ?_⟩, ?_, ?_⟩ <;> linarith

theorem trunc_nonneg {v : ℚ} (h : 0 ≤ v) : trunc v = v.floor := by unfold trunc; rw [if_pos h]

theorem trunc_int (n : ℤ) : trunc (n : ℚ) = n := by
  unfold trunc
  split
  · exact floor_int n
  · rw [show (-(n : ℚ)) = ((-n : ℤ) : ℚ) by push_cast; ring, floor_int]; ring

theorem floor_le_trunc (v : ℚ) : v.floor ≤ trunc v := by
  unfold trunc
  split
  · exact le_refl _
  · have h1 := floor_le' v
    have h2 := floor_le' (-v)
    have : (v.floor : ℚ) ≤ ((-(-v).floor : ℤ) : ℚ) := by push_cast; linarith
    exact_mod_cast this

theorem floor_mono' {a b : ℚ} (h : a ≤ b) : a.floor ≤ b.floor := Int.floor_mono h

theorem ceil_int (n : ℤ) : (n : ℚ).ceil = n := by
  rw [Rat.ceil_eq_neg_floor_neg, show (-(n : ℚ)) = ((-n : ℤ) : ℚ) by push_cast; ring, floor_int]
  ring

theorem discreteBounds_eq (b : Box3q) : discreteBounds b =
    ⟨⟨clampForInt b.min.x, clampForInt b.min.y, clampForInt b.min.z⟩,
     ⟨clampForInt b.max.x, clampForInt b.max.y, clampForInt b.max.z⟩⟩ := by
  unfold discreteBounds
  simp only [floor_int, ceil_int]

/-- Whether a lower bound is not cut by truncation: it is not negative, or it is integral. -/
def GoodMin (v : ℚ) : Prop := 0 ≤ v ∨ ∃ n : ℤ, v = n

theorem clamp_lower {lo p : ℚ} {n : ℤ} (hg : GoodMin lo) (h : lo ≤ p) (hc : (n : ℚ) ≤ p ∧ p < n + 1)
    (hn : intMin ≤ n ∧ n ≤ intMax) : clampForInt lo ≤ n := by
  unfold clampForInt
  have e : p.floor = n := floor_unique hc.1 hc.2
  have hm := floor_mono' h
  split
  · exact hn.1
  · split
    · rename_i h2
      have : (intMax : ℚ) < n + 1 := by linarith [hc.2]
      have : intMax < n + 1 := by exact_mod_cast this
      omega
    · rcases hg with hg | ⟨k, hk⟩
      · rw [trunc_nonneg hg]; omega
      · rw [hk, trunc_int]; rw [hk, floor_int] at hm; omega

theorem clamp_upper {hi p : ℚ} {n : ℤ} (h : p ≤ hi) (hc : (n : ℚ) ≤ p ∧ p < n + 1)
    (hn : intMin ≤ n ∧ n ≤ intMax) : n ≤ clampForInt hi := by
  unfold clampForInt
  have e : p.floor = n := floor_unique hc.1 hc.2
  have hm := floor_mono' h
  have ht := floor_le_trunc hi
  split
  · rename_i h2
    have : (n : ℚ) < intMin := by linarith [hc.1]
    have : n < intMin := by exact_mod_cast this
    omega
  · split
    · exact hn.2
    · omega

/-- C17: the voxel of every point of a box is in the discrete bounds of the box, provided the lower
corner has no negative fractional coordinate. -/
theorem C17_discreteBounds_covers (b : Box3q) (hx : GoodMin b.min.x) (hy : GoodMin b.min.y)
    (hz : GoodMin b.min.z) (p : V3q) (hp : InBox b p) (i : V3i) (hi : contToDisc3 p = some i) :
    (discreteBounds b).contains i = true := by
  obtain ⟨⟨a, b', c⟩, a', b'', c'⟩ := (C17_contToDisc_is_cell p i).mp hi
  obtain ⟨px, py, pz⟩ := hp
  rw [discreteBounds_eq, Box3i.contains_iff]
  exact ⟨⟨clamp_lower hx px.1 a a', clamp_upper px.2 a a'⟩,
    ⟨clamp_lower hy py.1 b' b'', clamp_upper py.2 b' b''⟩,
    clamp_lower hz pz.1 c c', clamp_upper pz.2 c c'⟩

/-- C17: the proviso is needed. The box from (-1/2,0,0) to (1,1,1) contains the point (-1/4,0,0) in
voxel (-1,0,0), which is not in the discrete bounds (0,0,0)..(1,1,1) of the box. -/
theorem C17_discreteBounds_misses_negative :
    InBox ⟨⟨-1 / 2, 0, 0⟩, ⟨1, 1, 1⟩⟩ ⟨-1 / 4, 0, 0⟩ ∧
    contToDisc3 ⟨-1 / 4, 0, 0⟩ = some ⟨-1, 0, 0⟩ ∧
    discreteBounds ⟨⟨-1 / 2, 0, 0⟩, ⟨1, 1, 1⟩⟩ = ⟨⟨0, 0, 0⟩, ⟨1, 1, 1⟩⟩ ∧
    (discreteBounds ⟨⟨-1 / 2, 0, 0⟩, ⟨1, 1, 1⟩⟩).contains ⟨-1, 0, 0⟩ = false := by
  refine ⟨?_, ?_, ?_, ?_⟩
  · unfold InBox; simp only; refine ⟨⟨?_, ?_⟩, ⟨?_, ?_⟩, ?_, ?_⟩ <;> norm_num
  · decide +kernel
  · decide +kernel
  · decide +kernel

/-- Coordinates that a `float` represents exactly. -/
def FloatExact (n : ℤ) : Prop := -(2 ^ 24 : ℕ) ≤ n ∧ n ≤ (2 ^ 24 : ℕ)

theorem floatOfInt_id {n : ℤ} (h : FloatExact n) : floatOfInt n = n := by
  obtain ⟨h1, h2⟩ := h
  unfold floatOfInt
  split
  · rw [toFloat32_id (by omega)]; omega
  · rw [toFloat32_id (by omega)]; omega

/-- C17: for boxes with coordinates up to 2^24 in magnitude the continuous bounds are exactly the
union of the cells of the box: every point of a cell is inside, and every point inside, except those
on the upper faces, is in the cell of a voxel of the box. -/
theorem C17_continuousBounds_exact (b : Box3i)
    (h : (FloatExact b.min.x ∧ FloatExact (b.max.x + 1)) ∧ (FloatExact b.min.y ∧ FloatExact (b.max.y + 1)) ∧
      (FloatExact b.min.z ∧ FloatExact (b.max.z + 1))) :
    ∃ c, continuousBounds b = some c ∧
      (∀ i p, b.contains i = true → InCell i p → InBox c p) ∧
      (∀ p, InBox c p → p.x < c.max.x → p.y < c.max.y → p.z < c.max.z →
        ∃ i, b.contains i = true ∧ InCell i p) ∧
      discreteBounds c = ⟨b.min, b.max + V3i.all 1⟩ := by
  obtain ⟨⟨x1, x2⟩, ⟨y1, y2⟩, z1, z2⟩ := h
  have rng : ∀ n, FloatExact n → toInt n = some n := by
    intro n hn
    unfold FloatExact at hn
    unfold toInt intMin intMax
    rw [if_pos]; omega
  have cl : ∀ n, FloatExact n → clampForInt (n : ℚ) = n := by
    intro n hn
    have h1 : ¬ ((n : ℚ) < intMin) := by
      intro hc
      have : n < intMin := by exact_mod_cast hc
      unfold FloatExact at hn; unfold intMin at this; omega
    have h2 : ¬ ((n : ℚ) > intMax) := by
      intro hc
      have : intMax < n := by exact_mod_cast hc
      unfold FloatExact at hn; unfold intMax at this; omega
    unfold clampForInt
    rw [if_neg h1, if_neg h2, trunc_int]
  refine ⟨⟨⟨(b.min.x : ℚ), b.min.y, b.min.z⟩, ⟨((b.max.x + 1 : ℤ) : ℚ), ((b.max.y + 1 : ℤ) : ℚ),
    ((b.max.z + 1 : ℤ) : ℚ)⟩⟩, ?_, ?_, ?_, ?_⟩
  · unfold continuousBounds
    simp only [rng _ x2, rng _ y2, rng _ z2, floatOfInt_id x1, floatOfInt_id x2, floatOfInt_id y1,
      floatOfInt_id y2, floatOfInt_id z1, floatOfInt_id z2, Option.bind_eq_bind, Option.bind_some]
  · intro i p hi ⟨hx, hy, hz⟩
    obtain ⟨⟨a1, a2⟩, ⟨b1, b2⟩, c1, c2⟩ := Box3i.contains_iff.mp hi
    have a1' : (b.min.x : ℚ) ≤ i.x := by exact_mod_cast a1
    have a2' : (i.x : ℚ) ≤ b.max.x := by exact_mod_cast a2
    have b1' : (b.min.y : ℚ) ≤ i.y := by exact_mod_cast b1
    have b2' : (i.y : ℚ) ≤ b.max.y := by exact_mod_cast b2
    have c1' : (b.min.z : ℚ) ≤ i.z := by exact_mod_cast c1
    have c2' : (i.z : ℚ) ≤ b.max.z := by exact_mod_cast c2
    unfold InBox
    push_cast
    refine ⟨⟨?_, ?_⟩, ⟨?_, ?_⟩, ?_, ?_⟩ <;> linarith
  · intro p ⟨hx, hy, hz⟩ ux uy uz
    refine ⟨⟨p.x.floor, p.y.floor, p.z.floor⟩, ?_, ⟨floor_le' _, lt_floor' _⟩,
      ⟨floor_le' _, lt_floor' _⟩, floor_le' _, lt_floor' _⟩
    have lo : ∀ (m : ℤ) (a : ℚ), (m : ℚ) ≤ a → m ≤ a.floor := fun m a h => Int.le_floor.mpr h
    have up : ∀ (m : ℤ) (a : ℚ), a < ((m + 1 : ℤ) : ℚ) → a.floor ≤ m := by
      intro m a h
      have := floor_le' a
      have : (a.floor : ℚ) < ((m + 1 : ℤ) : ℚ) := by linarith
      have : a.floor < m + 1 := by exact_mod_cast this
      omega
    rw [Box3i.contains_iff]
    exact ⟨⟨lo _ _ hx.1, up _ _ ux⟩, ⟨lo _ _ hy.1, up _ _ uy⟩, lo _ _ hz.1, up _ _ uz⟩
  · rw [discreteBounds_eq]
    simp only [cl _ x1, cl _ x2, cl _ y1, cl _ y2, cl _ z1, cl _ z2]
    congr 1

/-- C17: beyond 2^24 the single-precision conversion moves the bounds: the one-voxel box at
16777217 has continuous bounds 16777216..16777218. -/
theorem C17_continuousBounds_inexact :
    continuousBounds ⟨⟨16777217, 0, 0⟩, ⟨16777217, 0, 0⟩⟩ =
      some ⟨⟨16777216, 0, 0⟩, ⟨16777218, 1, 1⟩⟩ := by decide +kernel

example : IsInt ⟨-5, 2000000000, 7⟩ := by unfold IsInt intMin intMax; simp only; omega
example : contToDisc3 ⟨-1 / 4, 7 / 2, -3⟩ = some ⟨-1, 3, -3⟩ := by decide +kernel
example : GoodMin (5 / 2) ∧ GoodMin (-3) := ⟨Or.inl (by norm_num), Or.inr ⟨-3, by norm_num⟩⟩
example : FloatExact (-70000) := by unfold FloatExact; omega

end F3D.Props
