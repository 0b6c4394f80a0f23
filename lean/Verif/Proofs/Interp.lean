import Verif.Model.Interp
import Verif.Proofs.Iterate
import Mathlib.Data.Rat.Floor
import Mathlib.Tactic.Linarith
import Mathlib.Tactic.Ring
import Mathlib.Tactic.LinearCombination

/-! One-dimensional interpolation and its properties. -/

namespace F3D.Interp

theorem floor_le' (x : ℚ) : (x.floor : ℚ) ≤ x := Int.floor_le x
theorem lt_floor' (x : ℚ) : x < x.floor + 1 := Int.lt_floor_add_one x
theorem floor_int (n : ℤ) : (n : ℚ).floor = n := by
  have := Int.floor_intCast (R := ℚ) n
  exact this
theorem floor_unique {x : ℚ} {n : ℤ} (h1 : (n : ℚ) ≤ x) (h2 : x < n + 1) : x.floor = n :=
  Int.floor_eq_iff.mpr ⟨h1, h2⟩

theorem clampMM_mem {lo hi c : ℤ} (h : lo ≤ hi) : lo ≤ clampMM lo hi c ∧ clampMM lo hi c ≤ hi := by
  unfold clampMM; omega
theorem clampMM_eq_LM {lo hi c : ℤ} (h : lo ≤ hi) : clampMM lo hi c = clampLM lo hi c := by
  unfold clampMM clampLM; omega
theorem clampMM_id {lo hi c : ℤ} (h1 : lo ≤ c) (h2 : c ≤ hi) : clampMM lo hi c = c := by
  unfold clampMM; omega

/-- One-dimensional clamped linear interpolation; sample points at the integers. -/
def lin1 (lo hi : ℤ) (v : ℤ → ℚ) (p : ℚ) : ℚ :=
  ((p.floor + 1 : ℤ) - p) * v (clampMM lo hi p.floor) +
    (1 - ((p.floor + 1 : ℤ) - p)) * v (clampMM lo hi (p.floor + 1))

section lin1
variable {lo hi : ℤ} {v w : ℤ → ℚ} {p : ℚ}

theorem lin1_congr (h : lo ≤ hi) (hv : ∀ i, lo ≤ i → i ≤ hi → v i = w i) :
    lin1 lo hi v p = lin1 lo hi w p := by
  unfold lin1
  rw [hv _ (clampMM_mem h).1 (clampMM_mem h).2, hv _ (clampMM_mem h).1 (clampMM_mem h).2]

theorem weights (p : ℚ) : 0 ≤ ((p.floor + 1 : ℤ) - p) ∧ 0 ≤ (1 - ((p.floor + 1 : ℤ) - p)) := by
  have h1 := floor_le' p
  have h2 := lt_floor' p
  push_cast
  constructor <;> linarith

theorem lin1_le {a : ℚ} (h1 : v (clampMM lo hi p.floor) ≤ a) (h2 : v (clampMM lo hi (p.floor + 1)) ≤ a) :
    lin1 lo hi v p ≤ a := by
  obtain ⟨w1, w2⟩ := weights p
  have := mul_le_mul_of_nonneg_left h1 w1
  have := mul_le_mul_of_nonneg_left h2 w2
  unfold lin1
  linarith

theorem le_lin1 {a : ℚ} (h1 : a ≤ v (clampMM lo hi p.floor)) (h2 : a ≤ v (clampMM lo hi (p.floor + 1))) :
    a ≤ lin1 lo hi v p := by
  obtain ⟨w1, w2⟩ := weights p
  have := mul_le_mul_of_nonneg_left h1 w1
  have := mul_le_mul_of_nonneg_left h2 w2
  unfold lin1
  linarith

theorem lin1_const (a : ℚ) : lin1 lo hi (fun _ => a) p = a := by
  unfold lin1; ring

theorem lin1_add : lin1 lo hi (fun i => v i + w i) p = lin1 lo hi v p + lin1 lo hi w p := by
  unfold lin1; ring

theorem lin1_smul (a : ℚ) : lin1 lo hi (fun i => a * v i) p = a * lin1 lo hi v p := by
  unfold lin1; ring

theorem lin1_int {i : ℤ} (h1 : lo ≤ i) (h2 : i ≤ hi) : lin1 lo hi v i = v i := by
  unfold lin1
  rw [floor_int, clampMM_id h1 h2]
  push_cast
  ring

/-- Inside the range of sample points the identity is reproduced. -/
theorem lin1_id (h1 : (lo : ℚ) ≤ p) (h2 : p ≤ hi) : lin1 lo hi (fun i => (i : ℚ)) p = p := by
  have f1 := floor_le' p
  have f2 := lt_floor' p
  have hlo : lo ≤ p.floor := Int.le_floor.mpr h1
  have hle : p.floor ≤ hi := by
    have : (p.floor : ℚ) ≤ hi := le_trans f1 h2
    exact_mod_cast this
  unfold lin1
  rw [clampMM_id hlo hle]
  rcases lt_or_eq_of_le hle with h | h
  · rw [clampMM_id (by omega) (by omega)]
    push_cast; ring
  · have : p = hi := le_antisymm h2 (by rw [← h]; exact f1)
    rw [this, floor_int]
    push_cast
    ring

/-- Outside the range the value of the nearest end point is returned. -/
theorem lin1_clamp_lo (h : lo ≤ hi) (hp : p ≤ lo) : lin1 lo hi v p = v lo := by
  rcases lt_or_eq_of_le hp with hlt | heq
  · have hf : p.floor < lo := by
      have : (p.floor : ℚ) < lo := lt_of_le_of_lt (floor_le' p) hlt
      exact_mod_cast this
    unfold lin1
    rw [show clampMM lo hi p.floor = lo by unfold clampMM; omega,
      show clampMM lo hi (p.floor + 1) = lo by unfold clampMM; omega]
    ring
  · rw [heq]; exact lin1_int (le_refl _) h

theorem lin1_clamp_hi (h : lo ≤ hi) (hp : hi ≤ p) : lin1 lo hi v p = v hi := by
  have hf : hi ≤ p.floor := Int.le_floor.mpr hp
  unfold lin1
  rw [show clampMM lo hi p.floor = hi by unfold clampMM; omega,
    show clampMM lo hi (p.floor + 1) = hi by unfold clampMM; omega]
  ring

end lin1

/-- Three-dimensional interpolation as nested one-dimensional ones. -/
def lin3 (lo hi : V3i) (g : V3i → ℚ) (p : V3q) : ℚ :=
  lin1 lo.x hi.x (fun i => lin1 lo.y hi.y (fun j => lin1 lo.z hi.z (fun k => g ⟨i, j, k⟩) p.z) p.y) p.x

/-- The trilinear expression at clamped corners is nested one-dimensional interpolation, and reads
voxels inside the limits only. -/
theorem tri_eq {lo hi : V3i} (hx : lo.x ≤ hi.x) (hy : lo.y ≤ hi.y) (hz : lo.z ≤ hi.z)
    {rd : V3i → Option ℚ} {g : V3i → ℚ}
    (hg : ∀ q : V3i, (⟨lo, hi⟩ : Box3i).contains q = true → rd q = some (g q)) (p : V3q) :
    tri rd ⟨clampMM lo.x hi.x (floor3 p).x, clampMM lo.y hi.y (floor3 p).y, clampMM lo.z hi.z (floor3 p).z⟩
      ⟨clampMM lo.x hi.x ((floor3 p).x + 1), clampMM lo.y hi.y ((floor3 p).y + 1),
        clampMM lo.z hi.z ((floor3 p).z + 1)⟩
      (diff ⟨(floor3 p).x + 1, (floor3 p).y + 1, (floor3 p).z + 1⟩ p)
      ⟨1 - (diff ⟨(floor3 p).x + 1, (floor3 p).y + 1, (floor3 p).z + 1⟩ p).x,
       1 - (diff ⟨(floor3 p).x + 1, (floor3 p).y + 1, (floor3 p).z + 1⟩ p).y,
       1 - (diff ⟨(floor3 p).x + 1, (floor3 p).y + 1, (floor3 p).z + 1⟩ p).z⟩ = some (lin3 lo hi g p) := by
  have hr : ∀ a b c : ℤ, rd ⟨clampMM lo.x hi.x a, clampMM lo.y hi.y b, clampMM lo.z hi.z c⟩ =
      some (g ⟨clampMM lo.x hi.x a, clampMM lo.y hi.y b, clampMM lo.z hi.z c⟩) := by
    intro a b c
    apply hg
    rw [Box3i.contains_iff]
    exact ⟨clampMM_mem hx, clampMM_mem hy, clampMM_mem hz⟩
  unfold tri
  simp only [hr, Option.bind_eq_bind, Option.bind_some]
  rfl

/-- The field values extended to a total function. -/
def total (rd : V3i → Option ℚ) (q : V3i) : ℚ := (rd q).getD 0

theorem linear_eq {dw : Box3i} (h : dw.isEmpty = false) {rd : V3i → Option ℚ} {g : V3i → ℚ}
    (hg : ∀ q, dw.contains q = true → rd q = some (g q)) (p : V3q) :
    linear dw rd p = some (lin3 dw.min dw.max g (sub p (1 / 2))) := by
  obtain ⟨h1, h2, h3⟩ := Box3i.isEmpty_false.mp h
  exact tri_eq h1 h2 h3 hg _

theorem linearGeneric_eq_linear {dw : Box3i} (h : dw.isEmpty = false) (rd : V3i → Option ℚ) (p : V3q) :
    linearGeneric dw rd p = linear dw rd p := by
  obtain ⟨h1, h2, h3⟩ := Box3i.isEmpty_false.mp h
  unfold linearGeneric linear
  simp only [clampMM_eq_LM h1, clampMM_eq_LM h2, clampMM_eq_LM h3]

theorem lin3_congr {lo hi : V3i} (hx : lo.x ≤ hi.x) (hy : lo.y ≤ hi.y) (hz : lo.z ≤ hi.z)
    {g g' : V3i → ℚ} (h : ∀ q : V3i, (⟨lo, hi⟩ : Box3i).contains q = true → g q = g' q) (p : V3q) :
    lin3 lo hi g p = lin3 lo hi g' p := by
  unfold lin3
  refine lin1_congr hx (fun i a1 a2 => lin1_congr hy (fun j b1 b2 => lin1_congr hz (fun k c1 c2 => ?_)))
  exact h _ (Box3i.contains_iff.mpr ⟨⟨a1, a2⟩, ⟨b1, b2⟩, c1, c2⟩)

theorem lin3_int {lo hi : V3i} {g : V3i → ℚ} {q : V3i} (h : (⟨lo, hi⟩ : Box3i).contains q = true) :
    lin3 lo hi g ⟨q.x, q.y, q.z⟩ = g q := by
  obtain ⟨⟨a1, a2⟩, ⟨b1, b2⟩, c1, c2⟩ := Box3i.contains_iff.mp h
  unfold lin3
  simp only
  rw [lin1_int a1 a2, lin1_int b1 b2, lin1_int c1 c2]

theorem lin3_affine {lo hi : V3i} (a bx by' bz : ℚ) {p : V3q}
    (x1 : (lo.x : ℚ) ≤ p.x) (x2 : p.x ≤ hi.x) (y1 : (lo.y : ℚ) ≤ p.y) (y2 : p.y ≤ hi.y)
    (z1 : (lo.z : ℚ) ≤ p.z) (z2 : p.z ≤ hi.z) :
    lin3 lo hi (fun q => a + bx * q.x + by' * q.y + bz * q.z) p = a + bx * p.x + by' * p.y + bz * p.z := by
  unfold lin3
  simp only [lin1_add, lin1_smul, lin1_const, lin1_id z1 z2, lin1_id y1 y2, lin1_id x1 x2]

/-! Cubic -/

theorem mono_zero (a b c d : ℚ) : mono a b c d 0 = b := by
  unfold mono; simp only; split <;> ring

theorem mono_const (a t : ℚ) : mono a a a a t = a := by
  unfold mono; simp

/-- Four-point line on total data. -/
def cub1 (lo hi : ℤ) (v : ℤ → ℚ) (c : ℤ) (t : ℚ) : ℚ :=
  mono (v (clampMM lo hi (clampMM lo hi c - 1))) (v (clampMM lo hi c))
    (v (clampMM lo hi (clampMM lo hi c + 1))) (v (clampMM lo hi (clampMM lo hi c + 2))) t

def cub3 (lo hi : V3i) (g : V3i → ℚ) (c : V3i) (t : V3q) : ℚ :=
  cub1 lo.x hi.x (fun i => cub1 lo.y hi.y (fun j => cub1 lo.z hi.z (fun k => g ⟨i, j, k⟩) c.z t.z)
    c.y t.y) c.x t.x

theorem line4_eq {rd : ℤ → Option ℚ} {v : ℤ → ℚ} {lo hi : ℤ} (h : lo ≤ hi)
    (hv : ∀ i, lo ≤ i → i ≤ hi → rd i = some (v i)) (c : ℤ) (t : ℚ) :
    line4 rd (clampMM lo hi (clampMM lo hi c - 1)) (clampMM lo hi c)
      (clampMM lo hi (clampMM lo hi c + 1)) (clampMM lo hi (clampMM lo hi c + 2)) t =
      some (cub1 lo hi v c t) := by
  have hr : ∀ a, rd (clampMM lo hi a) = some (v (clampMM lo hi a)) := fun a =>
    hv _ (clampMM_mem h).1 (clampMM_mem h).2
  unfold line4 cub1
  simp only [hr, Option.bind_eq_bind, Option.bind_some]

theorem cubicLines_eq {lo hi : V3i} (hx : lo.x ≤ hi.x) (hy : lo.y ≤ hi.y) (hz : lo.z ≤ hi.z)
    {rd : V3i → Option ℚ} {g : V3i → ℚ}
    (hg : ∀ q : V3i, (⟨lo, hi⟩ : Box3i).contains q = true → rd q = some (g q)) (c : V3i) (t : V3q) :
    cubicLines lo hi rd c t = some (cub3 lo hi g c t) := by
  unfold cubicLines
  simp only
  refine line4_eq hx (fun i a1 a2 => ?_) _ _
  refine line4_eq hy (fun j b1 b2 => ?_) _ _
  refine line4_eq hz (fun k c1 c2 => ?_) _ _
  exact hg _ (Box3i.contains_iff.mpr ⟨⟨a1, a2⟩, ⟨b1, b2⟩, c1, c2⟩)

theorem cub1_zero {lo hi : ℤ} {v : ℤ → ℚ} {c : ℤ} (h1 : lo ≤ c) (h2 : c ≤ hi) :
    cub1 lo hi v c 0 = v c := by
  unfold cub1
  rw [mono_zero, clampMM_id h1 h2]

theorem cub1_const {lo hi : ℤ} (a : ℚ) (c : ℤ) (t : ℚ) : cub1 lo hi (fun _ => a) c t = a := by
  unfold cub1
  exact mono_const a t

theorem cub3_zero {lo hi : V3i} {g : V3i → ℚ} {c : V3i} (h : (⟨lo, hi⟩ : Box3i).contains c = true) :
    cub3 lo hi g c ⟨0, 0, 0⟩ = g c := by
  obtain ⟨⟨a1, a2⟩, ⟨b1, b2⟩, c1, c2⟩ := Box3i.contains_iff.mp h
  unfold cub3
  simp only
  rw [cub1_zero a1 a2, cub1_zero b1 b2, cub1_zero c1 c2]

theorem cub3_const {lo hi : V3i} (a : ℚ) (c : V3i) (t : V3q) : cub3 lo hi (fun _ => a) c t = a := by
  unfold cub3
  simp only [cub1_const]

end F3D.Interp
