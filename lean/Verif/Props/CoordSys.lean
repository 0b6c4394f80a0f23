import Verif.Model.CoordSys
import Verif.Props.Mapping
import Verif.Proofs.Interp
import Mathlib.Data.Rat.Floor
import Mathlib.Tactic.Linarith
import Mathlib.Tactic.FieldSimp

/-!
# C63: fitting a coordinate system to a bounding box
-/

namespace F3D
namespace Props
open CoordSys Mapping
open Cont (Box3q)

/-! ## Specification -/

/-- A box that is not inverted, and positive voxel sizes. -/
def ProperBox (b : Box3q) : Prop := b.min.x ≤ b.max.x ∧ b.min.y ≤ b.max.y ∧ b.min.z ≤ b.max.z

def Positive (s : V3q) : Prop := 0 < s.x ∧ 0 < s.y ∧ 0 < s.z

/-- A multiple of the voxel size. -/
def Mult (s a : Rat) : Prop := ∃ n : Int, a = n * s

/-- The corners lie on the grid of voxels of size `s` that has a corner in the origin. -/
def OnGrid (s : V3q) (b : Box3q) : Prop :=
  (Mult s.x b.min.x ∧ Mult s.y b.min.y ∧ Mult s.z b.min.z) ∧ Mult s.x b.max.x ∧ Mult s.y b.max.y ∧ Mult s.z b.max.z

/-- `b` lies in `c`. -/
def BoxIn (b c : Box3q) : Prop :=
  (c.min.x ≤ b.min.x ∧ c.min.y ≤ b.min.y ∧ c.min.z ≤ b.min.z) ∧
  b.max.x ≤ c.max.x ∧ b.max.y ≤ c.max.y ∧ b.max.z ≤ c.max.z

/-- Some voxel of the extents contains the point, where voxel `i` reaches from `i * s` to `(i + 1) * s`. -/
def Covered (e : Box3i) (s : V3q) (p : V3q) : Prop :=
  ∃ i : V3i, e.contains i = true ∧ ((i.x * s.x ≤ p.x ∧ p.x ≤ (i.x + 1) * s.x) ∧
    (i.y * s.y ≤ p.y ∧ p.y ≤ (i.y + 1) * s.y) ∧ (i.z * s.z ≤ p.z ∧ p.z ≤ (i.z + 1) * s.z))

/-! ## Lemmas -/

theorem snapMin_le {a s : Rat} (h : 0 < s) : snapMin a s ≤ a := by
  unfold snapMin
  have := Interp.floor_le' (a / s)
  rw [le_div_iff₀ h] at this
  exact this

theorem lt_snapMin {a s : Rat} (h : 0 < s) : a < snapMin a s + s := by
  unfold snapMin
  have := Interp.lt_floor' (a / s)
  rw [div_lt_iff₀ h] at this
  linarith

theorem le_ceil' (x : Rat) : x ≤ (x.ceil : Rat) := Rat.le_ceil

theorem le_snapMax {a s : Rat} (h : 0 < s) : a ≤ snapMax a s := by
  unfold snapMax
  have := le_ceil' (a / s)
  rw [div_le_iff₀ h] at this
  exact this

theorem snapMin_greatest {a s : Rat} (h : 0 < s) (n : Int) (hn : n * s ≤ a) : n * s ≤ snapMin a s := by
  unfold snapMin
  apply mul_le_mul_of_nonneg_right _ h.le
  rw [← le_div_iff₀ h] at hn
  exact_mod_cast Rat.le_floor_iff.2 hn

theorem snapMax_least {a s : Rat} (h : 0 < s) (n : Int) (hn : a ≤ n * s) : snapMax a s ≤ n * s := by
  unfold snapMax
  apply mul_le_mul_of_nonneg_right _ h.le
  rw [← div_le_iff₀ h] at hn
  exact_mod_cast Rat.ceil_le_iff.2 hn

/-- What `V3i(n + 0.5)` gives for a whole number `n`. -/
def shift (n : Int) : Int := if 0 ≤ n then n else n + 1

theorem trunc_half (n : Int) : Cont.trunc ((n : Rat) + 1 / 2) = shift n := by
  unfold Cont.trunc shift
  by_cases h : 0 ≤ n
  · have h' : (0 : Rat) ≤ (n : Rat) := by exact_mod_cast h
    rw [if_pos (by linarith), if_pos h]
    exact Interp.floor_unique (by linarith) (by linarith)
  · have h' : (n : Rat) ≤ -1 := by exact_mod_cast (by omega : n ≤ -1)
    rw [if_neg (by linarith), if_neg h]
    rw [Interp.floor_unique (n := -n - 1) (by push_cast; linarith) (by push_cast; linarith)]
    omega

theorem extent_mult (n : Int) {s : Rat} (h : 0 < s) : extent (n * s) s = Cont.toInt (shift n) := by
  unfold extent
  rw [mul_div_cancel_right₀ _ h.ne', Rat.floor_intCast, trunc_half]

/-- The number of the voxel in which a coordinate lies, and the number of voxels up to it. -/
def lo (a s : Rat) : Int := (a / s).floor
def hi (a s : Rat) : Int := (a / s).ceil

theorem lo_le {a s : Rat} (h : 0 < s) : lo a s * s ≤ a := snapMin_le h
theorem lt_lo {a s : Rat} (h : 0 < s) : a < (lo a s + 1) * s := by
  have := lt_snapMin (a := a) h
  unfold snapMin at this
  unfold lo
  linarith
theorem le_hi {a s : Rat} (h : 0 < s) : a ≤ hi a s * s := le_snapMax h

theorem lo_nonneg {a s : Rat} (h : 0 < s) : 0 ≤ lo a s ↔ 0 ≤ a := by
  unfold lo
  rw [Rat.le_floor_iff, Int.cast_zero, le_div_iff₀ h, zero_mul]

theorem lo_le_hi {a b s : Rat} (h : 0 < s) (hab : a ≤ b) : lo a s ≤ hi b s := by
  have h1 := lo_le (a := a) h
  have h2 := le_hi (a := b) h
  have h3 : (lo a s : Rat) * s ≤ hi b s * s := by linarith
  exact_mod_cast le_of_mul_le_mul_right h3 h

theorem toInt_some {n m : Int} (h : Cont.toInt n = some m) : m = n := by
  unfold Cont.toInt at h
  split at h
  · injection h with h; exact h.symm
  · simp at h

theorem fit_spec {b : Box3q} {s : V3q} {m : M44} {e : Box3i} (h : Positive s) (hf : fit b s = some (m, e)) :
    m = ofBox ⟨⟨lo b.min.x s.x * s.x, lo b.min.y s.y * s.y, lo b.min.z s.z * s.z⟩,
      ⟨hi b.max.x s.x * s.x, hi b.max.y s.y * s.y, hi b.max.z s.z * s.z⟩⟩ ∧
    e = ⟨⟨shift (lo b.min.x s.x), shift (lo b.min.y s.y), shift (lo b.min.z s.z)⟩,
      ⟨shift (hi b.max.x s.x), shift (hi b.max.y s.y), shift (hi b.max.z s.z)⟩⟩ := by
  obtain ⟨h1, h2, h3⟩ := h
  unfold fit at hf
  rw [if_neg (by rintro (h | h | h) <;> linarith)] at hf
  simp only [snapMin, snapMax] at hf
  rw [extent_mult _ h1, extent_mult _ h1, extent_mult _ h2, extent_mult _ h2, extent_mult _ h3,
    extent_mult _ h3] at hf
  simp only [Option.bind_eq_bind, Option.bind_eq_some_iff, Option.some.injEq, Prod.mk.injEq] at hf
  obtain ⟨a1, e1, a2, e2, a3, e3, a4, e4, a5, e5, a6, e6, rfl, rfl⟩ := hf
  refine ⟨rfl, ?_⟩
  rw [toInt_some e1, toInt_some e2, toInt_some e3, toInt_some e4, toInt_some e5, toInt_some e6]
  rfl

theorem ofBox_multVec (c : Box3q) (t : V3q) : (ofBox c).multVec t =
    some ⟨c.min.x + t.x * (c.max.x - c.min.x), c.min.y + t.y * (c.max.y - c.min.y),
      c.min.z + t.z * (c.max.z - c.min.z)⟩ := by
  rw [affine_multVec _ ⟨rfl, rfl, rfl, rfl⟩]
  simp only [Option.some.injEq]
  apply V3q.ext' <;> simp only [ofBox, ofBasis] <;> ring

/-! ## Theorems -/

/-- The result is defined if the voxel numbers fit into `int`. -/
theorem C63_defined (b : Box3q) (s : V3q) (h : Positive s)
    (h1 : ∀ n ∈ [lo b.min.x s.x, lo b.min.y s.y, lo b.min.z s.z, hi b.max.x s.x, hi b.max.y s.y, hi b.max.z s.z],
      -(2 ^ 31) ≤ n ∧ n < 2 ^ 31) : (fit b s).isSome = true := by
  obtain ⟨p1, p2, p3⟩ := h
  have key : ∀ n : Int, -(2 ^ 31) ≤ n ∧ n < 2 ^ 31 → Cont.toInt (shift n) = some (shift n) := by
    intro n hn
    unfold Cont.toInt shift Cont.intMin Cont.intMax
    rw [if_pos]
    split <;> omega
  simp only [List.mem_cons, List.not_mem_nil, or_false, forall_eq_or_imp, forall_eq] at h1
  obtain ⟨k1, k2, k3, k4, k5, k6⟩ := h1
  unfold fit
  rw [if_neg (by rintro (h | h | h) <;> linarith)]
  simp only [snapMin, snapMax]
  rw [extent_mult _ p1, extent_mult _ p1, extent_mult _ p2, extent_mult _ p2, extent_mult _ p3, extent_mult _ p3]
  have e1 := key _ k1
  have e2 := key _ k2
  have e3 := key _ k3
  have e4 := key _ k4
  have e5 := key _ k5
  have e6 := key _ k6
  unfold lo hi at *
  rw [e1, e2, e3, e4, e5, e6]
  rfl

/-- C63: the matrix maps the unit cube to the smallest box on the voxel grid that contains the bounds. -/
theorem C63_smallest_grid_box (b : Box3q) (s : V3q) (h : Positive s) (m : M44) (e : Box3i)
    (hf : fit b s = some (m, e)) :
    ∃ c : Box3q, BoxIn b c ∧ OnGrid s c ∧ (∀ c', BoxIn b c' → OnGrid s c' → BoxIn c c') ∧
      ∀ t : V3q, m.multVec t = some ⟨c.min.x + t.x * (c.max.x - c.min.x), c.min.y + t.y * (c.max.y - c.min.y),
        c.min.z + t.z * (c.max.z - c.min.z)⟩ := by
  obtain ⟨rfl, _⟩ := fit_spec h hf
  obtain ⟨h1, h2, h3⟩ := h
  refine ⟨⟨⟨lo b.min.x s.x * s.x, lo b.min.y s.y * s.y, lo b.min.z s.z * s.z⟩,
      ⟨hi b.max.x s.x * s.x, hi b.max.y s.y * s.y, hi b.max.z s.z * s.z⟩⟩, ⟨⟨lo_le h1, lo_le h2, lo_le h3⟩, le_hi h1, le_hi h2, le_hi h3⟩,
    ⟨⟨⟨_, rfl⟩, ⟨_, rfl⟩, ⟨_, rfl⟩⟩, ⟨_, rfl⟩, ⟨_, rfl⟩, ⟨_, rfl⟩⟩, ?_, ?_⟩
  · rintro c' ⟨⟨i1, i2, i3⟩, i4, i5, i6⟩ ⟨⟨⟨n1, j1⟩, ⟨n2, j2⟩, ⟨n3, j3⟩⟩, ⟨n4, j4⟩, ⟨n5, j5⟩, ⟨n6, j6⟩⟩
    rw [j1] at i1; rw [j2] at i2; rw [j3] at i3; rw [j4] at i4; rw [j5] at i5; rw [j6] at i6
    refine ⟨⟨?_, ?_, ?_⟩, ?_, ?_, ?_⟩
    · rw [j1]; exact snapMin_greatest h1 _ i1
    · rw [j2]; exact snapMin_greatest h2 _ i2
    · rw [j3]; exact snapMin_greatest h3 _ i3
    · rw [j4]; exact snapMax_least h1 _ i4
    · rw [j5]; exact snapMax_least h2 _ i5
    · rw [j6]; exact snapMax_least h3 _ i6
  · exact ofBox_multVec _

/-- C63: if no coordinate of the bounds is negative, the voxels of the extents cover the bounds. -/
theorem C63_covers (b : Box3q) (s : V3q) (h : Positive s) (m : M44) (e : Box3i) (hf : fit b s = some (m, e))
    (hp : 0 ≤ b.min.x ∧ 0 ≤ b.min.y ∧ 0 ≤ b.min.z) (p : V3q) (hb : b.contains p = true) : Covered e s p := by
  obtain ⟨_, rfl⟩ := fit_spec h hf
  obtain ⟨h1, h2, h3⟩ := h
  rw [Cont.Box3q.contains_iff] at hb
  have key : ∀ {a c x t : Rat}, 0 < t → 0 ≤ a → a ≤ x → x ≤ c →
      (shift (lo a t) ≤ lo x t ∧ lo x t ≤ shift (hi c t)) ∧ lo x t * t ≤ x ∧ x ≤ (lo x t + 1) * t := by
    intro a c x t ht ha hax hxc
    have n1 := (lo_nonneg ht).2 ha
    have n2 : lo a t ≤ lo x t := by
      unfold lo
      exact Rat.floor_monotone (div_le_div_of_nonneg_right hax ht.le)
    have n3 := lo_le_hi ht hxc
    refine ⟨?_, lo_le ht, (lt_lo ht).le⟩
    unfold shift
    split <;> split <;> omega
  obtain ⟨⟨x1, x2⟩, ⟨y1, y2⟩, z1, z2⟩ := hb
  have kx := key h1 hp.1 x1 x2
  have ky := key h2 hp.2.1 y1 y2
  have kz := key h3 hp.2.2 z1 z2
  refine ⟨⟨lo p.x s.x, lo p.y s.y, lo p.z s.z⟩, ?_, kx.2, ky.2, kz.2⟩
  rw [Box3i.contains_iff]
  exact ⟨kx.1, ky.1, kz.1⟩

/-- C63: if one lower coordinate of the bounds is negative, the voxels of the extents always miss the lower corner of
the bounds. -/
theorem C63_negative_missed (b : Box3q) (s : V3q) (h : Positive s) (m : M44) (e : Box3i) (hf : fit b s = some (m, e))
    (hn : b.min.x < 0 ∨ b.min.y < 0 ∨ b.min.z < 0) : ¬ Covered e s b.min := by
  obtain ⟨_, rfl⟩ := fit_spec h hf
  obtain ⟨h1, h2, h3⟩ := h
  rintro ⟨i, hc, hx, hy, hz⟩
  rw [Box3i.contains_iff] at hc
  simp only at hc
  have key : ∀ {a t : Rat} {n : Int}, 0 < t → a < 0 → shift (lo a t) ≤ n → n * t ≤ a → False := by
    intro a t n ht ha hs hna
    have n1 : ¬ 0 ≤ lo a t := fun h => absurd ((lo_nonneg ht).1 h) (not_le.2 ha)
    unfold shift at hs
    rw [if_neg n1] at hs
    have h4 := lt_lo (a := a) ht
    have h5 : ((lo a t + 1 : Int) : Rat) * t ≤ n * t :=
      mul_le_mul_of_nonneg_right (by exact_mod_cast hs) ht.le
    push_cast at h5
    linarith
  rcases hn with hn | hn | hn
  · exact key h1 hn hc.1.1 hx.1
  · exact key h2 hn hc.2.1.1 hy.1
  · exact key h3 hn hc.2.2.1 hz.1

/-- A mapping set up with extents and a box: voxels divide the box evenly. -/
theorem box_mapping (c : Box3q) (e : Box3i) (he : Proper e) (p : V3q) :
    (Matrix.run Frame.default [.setExtents e, .setLocalToWorld (ofBox c)]).voxelToWorld p =
      some ⟨c.min.x + (p.x - e.min.x) / (e.max.x - e.min.x + 1) * (c.max.x - c.min.x),
        c.min.y + (p.y - e.min.y) / (e.max.y - e.min.y + 1) * (c.max.y - c.min.y),
        c.min.z + (p.z - e.min.z) / (e.max.z - e.min.z + 1) * (c.max.z - c.min.z)⟩ := by
  have ho : ProperCalls [.setExtents e, .setLocalToWorld (ofBox c)] := by
    intro e' h; simp at h; rw [h]; exact he
  rw [(C54_matrix_time_zero _ _ p).1, (C54_matrix_forward _ default_ok _ ho 0 p).2,
    (C54_matrix_forward _ default_ok _ ho 0 _).1]
  have ht : transformAt (history [.setExtents e, .setLocalToWorld (ofBox c)]) 0 = ofBox c := by
    simp only [history, List.foldl_cons, List.foldl_nil]; rfl
  have hfr : frameOf Frame.default [.setExtents e, .setLocalToWorld (ofBox c)] = Frame.ofExtents e := rfl
  rw [ht, hfr]
  have key : ∀ (a b : Int) (x : Rat), a ≤ b → Curve.lerpfactor x (a : Rat) ((a : Rat) + ((b - a + 1 : Int) : Rat)) =
      (x - a) / (b - a + 1) := by
    intro a b x hab
    have : (a : Rat) ≤ b := by exact_mod_cast hab
    unfold Curve.lerpfactor
    have h0 : ((a : Rat) + ((b - a + 1 : Int) : Rat)) - a = b - a + 1 := by push_cast; ring
    rw [h0, if_neg (by linarith)]
  obtain ⟨h1, h2, h3⟩ := he
  rw [ofBox_multVec]
  simp only [Frame.voxelToLocal, Frame.ofExtents, key _ _ _ h1, key _ _ _ h2, key _ _ _ h3]

/-- C63: a mapping set up with the extents and the matrix (for non-negative bounds) does not have voxels of the
requested size: they are always smaller, because the extents have one voxel more than the box. -/
theorem C63_voxels_too_small (b : Box3q) (s : V3q) (h : Positive s) (m : M44) (e : Box3i)
    (hf : fit b s = some (m, e)) (hp : 0 ≤ b.min.x ∧ 0 ≤ b.min.y ∧ 0 ≤ b.min.z) (hb : ProperBox b) :
    ∃ w, (Matrix.run Frame.default [.setExtents e, .setLocalToWorld m]).wsVoxelSizeSq = some w ∧
      w.x < s.x * s.x ∧ w.y < s.y * s.y ∧ w.z < s.z * s.z := by
  obtain ⟨rfl, rfl⟩ := fit_spec h hf
  obtain ⟨h1, h2, h3⟩ := h
  obtain ⟨b1, b2, b3⟩ := hb
  have key : ∀ {a c t : Rat}, 0 < t → 0 ≤ a → a ≤ c →
      shift (lo a t) = lo a t ∧ shift (hi c t) = hi c t ∧ lo a t ≤ hi c t := by
    intro a c t ht ha hac
    have n1 := (lo_nonneg ht).2 ha
    have n2 := lo_le_hi ht hac
    refine ⟨by unfold shift; rw [if_pos n1], by unfold shift; rw [if_pos (by omega)], n2⟩
  obtain ⟨x1, x2, x3⟩ := key h1 hp.1 b1
  obtain ⟨y1, y2, y3⟩ := key h2 hp.2.1 b2
  obtain ⟨z1, z2, z3⟩ := key h3 hp.2.2 b3
  rw [x1, x2, y1, y2, z1, z2]
  generalize lo b.min.x s.x = ax at *
  generalize lo b.min.y s.y = ay at *
  generalize lo b.min.z s.z = az at *
  generalize hi b.max.x s.x = cx at *
  generalize hi b.max.y s.y = cy at *
  generalize hi b.max.z s.z = cz at *
  obtain ⟨w, hw, hv⟩ := C68_matrix_voxel_size Frame.default
    [.setExtents ⟨⟨ax, ay, az⟩, ⟨cx, cy, cz⟩⟩, .setLocalToWorld (ofBox ⟨⟨ax * s.x, ay * s.y, az * s.z⟩, ⟨cx * s.x, cy * s.y, cz * s.z⟩⟩)]
    (by intro s hs; simp [history] at hs; subst hs; exact ⟨rfl, rfl, rfl, rfl⟩)
  refine ⟨w, hw, ?_⟩
  obtain ⟨o, x, y, z, e1, e2, e3, e4, rfl⟩ := hv ⟨0, 0, 0⟩
  have hpr : Proper ⟨⟨ax, ay, az⟩, ⟨cx, cy, cz⟩⟩ := ⟨x3, y3, z3⟩
  rw [box_mapping _ _ hpr] at e1 e2 e3 e4
  injection e1 with e1
  injection e2 with e2
  injection e3 with e3
  injection e4 with e4
  subst e1 e2 e3 e4
  have fin : ∀ (a c : Int) (t : Rat), 0 < t → a ≤ c →
      ((c * t - a * t) / ((c : Rat) - a + 1)) * ((c * t - a * t) / ((c : Rat) - a + 1)) < t * t := by
    intro a c t ht hac
    have hq : (0 : Rat) ≤ c - a := by have : (a : Rat) ≤ c := by exact_mod_cast hac
                                      linarith
    have hpos : (0 : Rat) < (c : Rat) - a + 1 := by linarith
    have e : (c * t - a * t) / ((c : Rat) - a + 1) = t * ((c - a) / ((c : Rat) - a + 1)) := by field_simp
    have l1 : ((c : Rat) - a) / ((c : Rat) - a + 1) < 1 := (div_lt_one hpos).2 (by linarith)
    have l0 : (0 : Rat) ≤ ((c : Rat) - a) / ((c : Rat) - a + 1) := div_nonneg hq hpos.le
    rw [e]
    have l2 : t * (((c : Rat) - a) / ((c : Rat) - a + 1)) < t * 1 := mul_lt_mul_of_pos_left l1 ht
    have l3 : 0 ≤ t * (((c : Rat) - a) / ((c : Rat) - a + 1)) := mul_nonneg ht.le l0
    rw [mul_one] at l2
    exact mul_self_lt_mul_self l3 l2
  simp only [distSq]
  refine ⟨?_, ?_, ?_⟩
  · refine lt_of_eq_of_lt ?_ (fin ax cx s.x h1 x3)
    ring
  · refine lt_of_eq_of_lt ?_ (fin ay cy s.y h2 y3)
    ring
  · refine lt_of_eq_of_lt ?_ (fin az cz s.z h3 z3)
    ring

/-- C63: with extents that end one voxel earlier, and bounds that are not negative and not flat, voxel `i` reaches
exactly from `i * s` to `(i + 1) * s` in world space. -/
theorem C63_exact_voxels (b : Box3q) (s : V3q) (h : Positive s) (m : M44) (e : Box3i)
    (hf : fit b s = some (m, e)) (hp : 0 ≤ b.min.x ∧ 0 ≤ b.min.y ∧ 0 ≤ b.min.z)
    (hb : b.min.x < b.max.x ∧ b.min.y < b.max.y ∧ b.min.z < b.max.z) (p : V3q) :
    (Matrix.run Frame.default [.setExtents ⟨e.min, ⟨e.max.x - 1, e.max.y - 1, e.max.z - 1⟩⟩,
      .setLocalToWorld m]).voxelToWorld p = some ⟨p.x * s.x, p.y * s.y, p.z * s.z⟩ := by
  obtain ⟨rfl, rfl⟩ := fit_spec h hf
  obtain ⟨h1, h2, h3⟩ := h
  obtain ⟨b1, b2, b3⟩ := hb
  have key : ∀ {a c t : Rat}, 0 < t → 0 ≤ a → a < c →
      shift (lo a t) = lo a t ∧ shift (hi c t) = hi c t ∧ lo a t < hi c t := by
    intro a c t ht ha hac
    have n1 := (lo_nonneg ht).2 ha
    have n2 : lo a t < hi c t := by
      have h1 := lo_le (a := a) ht
      have h2 := le_hi (a := c) ht
      have h3 : (lo a t : Rat) * t < hi c t * t := by linarith
      exact_mod_cast lt_of_mul_lt_mul_right h3 ht.le
    refine ⟨by unfold shift; rw [if_pos n1], by unfold shift; rw [if_pos (by omega)], n2⟩
  obtain ⟨x1, x2, x3⟩ := key h1 hp.1 b1
  obtain ⟨y1, y2, y3⟩ := key h2 hp.2.1 b2
  obtain ⟨z1, z2, z3⟩ := key h3 hp.2.2 b3
  rw [x1, x2, y1, y2, z1, z2]
  generalize lo b.min.x s.x = ax at *
  generalize lo b.min.y s.y = ay at *
  generalize lo b.min.z s.z = az at *
  generalize hi b.max.x s.x = cx at *
  generalize hi b.max.y s.y = cy at *
  generalize hi b.max.z s.z = cz at *
  have hpr : Proper ⟨⟨ax, ay, az⟩, ⟨cx - 1, cy - 1, cz - 1⟩⟩ := ⟨by simp only; omega, by simp only; omega, by simp only; omega⟩
  rw [box_mapping _ _ hpr]
  simp only [Option.some.injEq]
  have fin : ∀ (a c : Int) (t x : Rat), a < c →
      (a : Rat) * t + (x - a) / (((c - 1 : Int) : Rat) - a + 1) * (c * t - a * t) = x * t := by
    intro a c t x hac
    have hq : (0 : Rat) < c - a := by have : (a : Rat) < c := by exact_mod_cast hac
                                      linarith
    have e : ((c - 1 : Int) : Rat) - a + 1 = c - a := by push_cast; ring
    rw [e]
    field_simp
    ring
  apply V3q.ext'
  · exact fin ax cx s.x p.x x3
  · exact fin ay cy s.y p.y y3
  · exact fin az cz s.z p.z z3

/-- A box from (1, 2, 3) to (2, 4, 6.5), with voxels of size 1/2, 1, 2. -/
example : (fit ⟨⟨1, 2, 3⟩, ⟨2, 4, 13 / 2⟩⟩ ⟨1 / 2, 1, 2⟩).map (·.2) = some ⟨⟨2, 2, 1⟩, ⟨4, 4, 4⟩⟩ := by decide +kernel
/-- Negative bounds: the first voxel should be -2 in each direction. -/
example : (fit ⟨⟨-2, -2, -2⟩, ⟨2, 2, 2⟩⟩ ⟨1, 1, 1⟩).map (·.2) = some ⟨⟨-1, -1, -1⟩, ⟨2, 2, 2⟩⟩ := by decide +kernel

end Props
end F3D
