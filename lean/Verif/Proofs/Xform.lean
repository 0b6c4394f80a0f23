import Verif.Model.Xform
import Mathlib.Algebra.Order.Field.Basic
import Mathlib.Tactic.Linarith
import Mathlib.Tactic.Ring
import Mathlib.Tactic.FieldSimp
import Mathlib.Tactic.LinearCombination

namespace F3D

theorem V3q.ext' {a b : V3q} (hx : a.x = b.x) (hy : a.y = b.y) (hz : a.z = b.z) : a = b := by
  cases a; cases b; simp_all

theorem V4q.ext' {a b : V4q} (hx : a.x = b.x) (hy : a.y = b.y) (hz : a.z = b.z) (hw : a.w = b.w) : a = b := by
  cases a; cases b; simp_all

theorem M44.ext' {a b : M44} (h0 : a.r0 = b.r0) (h1 : a.r1 = b.r1) (h2 : a.r2 = b.r2) (h3 : a.r3 = b.r3) : a = b := by
  cases a; cases b; simp_all

namespace M44

theorem rowMul_mul (v : V4q) (a b : M44) : rowMul (rowMul v a) b = rowMul v (mul a b) := by
  apply V4q.ext' <;> simp only [rowMul, mul] <;> ring

theorem mul_assoc' (a b c : M44) : mul (mul a b) c = mul a (mul b c) := by
  apply M44.ext' <;> exact rowMul_mul _ _ _

theorem rowMul_one (v : V4q) : rowMul v one = v := by
  apply V4q.ext' <;> simp [rowMul, one]

theorem mul_one' (a : M44) : mul a one = a := by
  apply M44.ext' <;> simp [mul, rowMul_one]

theorem one_mul' (a : M44) : mul one a = a := by
  apply M44.ext' <;> apply V4q.ext' <;> simp [mul, one, rowMul]

theorem rowMul_rowScale (k : Rat) (v : V4q) (m : M44) : rowMul (rowScale k v) m = rowScale k (rowMul v m) := by
  apply V4q.ext' <;> simp only [rowMul, rowScale] <;> ring

theorem rowMul_scale (k : Rat) (v : V4q) (m : M44) : rowMul v (scale k m) = rowScale k (rowMul v m) := by
  apply V4q.ext' <;> simp only [rowMul, rowScale, scale] <;> ring

theorem adj_mul (m : M44) : mul m.adj m = scale m.det one := by
  apply M44.ext' <;> apply V4q.ext' <;> simp only [mul, adj, rowMul, scale, rowScale, det, det3, one] <;> ring

theorem mul_adj (m : M44) : mul m m.adj = scale m.det one := by
  apply M44.ext' <;> apply V4q.ext' <;> simp only [mul, adj, rowMul, scale, rowScale, det, det3, one] <;> ring

theorem mul_inverse (m : M44) (h : m.det ≠ 0) : mul m m.inverse = one := by
  have : mul m m.inverse = scale (1 / m.det) (mul m m.adj) := by
    rw [inverse, if_neg h]
    apply M44.ext' <;> simp only [mul, rowMul_scale] <;> rfl
  rw [this, mul_adj]
  apply M44.ext' <;> apply V4q.ext' <;> simp only [scale, rowScale, one] <;> field_simp

theorem inverse_mul (m : M44) (h : m.det ≠ 0) : mul m.inverse m = one := by
  have : mul m.inverse m = scale (1 / m.det) (mul m.adj m) := by
    rw [inverse, if_neg h]
    apply M44.ext' <;> simp only [mul, scale, rowMul_rowScale]
  rw [this, adj_mul]
  apply M44.ext' <;> apply V4q.ext' <;> simp only [scale, rowScale, one] <;> field_simp

theorem det_mul (a b : M44) : (mul a b).det = a.det * b.det := by
  simp only [det, det3, mul, rowMul]; ring

theorem det_one : one.det = 1 := by decide +kernel

theorem det_inverse_ne (m : M44) (h : m.det ≠ 0) : m.inverse.det ≠ 0 := by
  intro h0
  have := det_mul m m.inverse
  rw [mul_inverse m h, h0, det_one] at this
  simp at this

theorem inverse_inverse (m : M44) (h : m.det ≠ 0) : m.inverse.inverse = m := by
  have h1 := mul_inverse m.inverse (det_inverse_ne m h)
  calc m.inverse.inverse = mul (mul m m.inverse) m.inverse.inverse := by rw [mul_inverse m h, one_mul']
    _ = m := by rw [mul_assoc', h1, mul_one']

theorem inverse_mul_rev (a b : M44) (ha : a.det ≠ 0) (hb : b.det ≠ 0) :
    (mul a b).inverse = mul b.inverse a.inverse := by
  have hd : (mul a b).det ≠ 0 := by rw [det_mul]; exact mul_ne_zero ha hb
  have h1 : mul (mul b.inverse a.inverse) (mul a b) = one := by
    rw [mul_assoc', ← mul_assoc' a.inverse, inverse_mul a ha, one_mul', inverse_mul b hb]
  calc (mul a b).inverse = mul (mul (mul b.inverse a.inverse) (mul a b)) (mul a b).inverse := by rw [h1, one_mul']
    _ = _ := by rw [mul_assoc', mul_inverse _ hd, mul_one']

/-- Transforming by two matrices in turn is transforming by their product. -/
theorem multVec_mul (a b : M44) (p q : V3q) (h : a.multVec p = some q) : b.multVec q = (mul a b).multVec p := by
  unfold multVec at h ⊢
  simp only at h ⊢
  rw [← rowMul_mul]
  generalize rowMul ⟨p.x, p.y, p.z, 1⟩ a = r at h
  split at h
  · simp at h
  · rename_i hw
    injection h with h
    subst h
    have e : rowMul ⟨r.x / r.w, r.y / r.w, r.z / r.w, 1⟩ b = rowScale (1 / r.w) (rowMul r b) := by
      rw [← rowMul_rowScale]
      congr 1
      apply V4q.ext' <;> simp only [rowScale] <;> field_simp
    rw [e]
    generalize rowMul r b = s
    by_cases hs : s.w = 0
    · simp [rowScale, hs]
    · have : (rowScale (1 / r.w) s).w ≠ 0 := by
        simp only [rowScale]; exact mul_ne_zero (one_div_ne_zero hw) hs
      rw [if_neg this, if_neg hs]
      congr 1
      apply V3q.ext' <;> simp only [rowScale] <;> field_simp

theorem multVec_one (p : V3q) : one.multVec p = some p := by
  simp [multVec, rowMul_one]

theorem multVec_inverse (m : M44) (h : m.det ≠ 0) (p q : V3q) (e : m.multVec p = some q) :
    m.inverse.multVec q = some p := by
  rw [multVec_mul m m.inverse p q e, mul_inverse m h, multVec_one]

theorem inverse_multVec (m : M44) (h : m.det ≠ 0) (p q : V3q) (e : m.inverse.multVec p = some q) :
    m.multVec q = some p := by
  rw [multVec_mul m.inverse m p q e, inverse_mul m h, multVec_one]

theorem mul_lerp (a b c : M44) (t : Rat) : mul a (lerp b c t) = lerp (mul a b) (mul a c) t := by
  apply M44.ext' <;> apply V4q.ext' <;> simp only [mul, lerp, rowMul, rowLerp] <;> ring

theorem lerp_zero (a b : M44) : lerp a b 0 = a := by
  apply M44.ext' <;> apply V4q.ext' <;> simp [lerp, rowLerp]

end M44

/-! ## Boxes of corners -/

open Cont (Box3q)

theorem Cont.Box3q.contains_iff (b : Box3q) (p : V3q) : b.contains p = true ↔
    (b.min.x ≤ p.x ∧ p.x ≤ b.max.x) ∧ (b.min.y ≤ p.y ∧ p.y ≤ b.max.y) ∧ (b.min.z ≤ p.z ∧ p.z ≤ b.max.z) := by
  simp only [Cont.Box3q.contains, Bool.and_eq_true, decide_eq_true_eq]
  tauto

/-- The box of points contains each of them, and each of its faces touches one. -/
theorem boundsOf_spec : ∀ (l : List (Option V3q)) (b : Box3q), boundsOf l = some b →
    (∀ o ∈ l, ∃ p, o = some p ∧ b.contains p = true) := by
  intro l
  induction l with
  | nil => intro b h; simp [boundsOf] at h
  | cons o l ih =>
    intro b h
    cases l with
    | nil =>
      cases o with
      | none => simp [boundsOf] at h
      | some p =>
        simp only [boundsOf, Option.map_some, Option.some.injEq] at h
        subst h
        intro o ho
        rw [List.mem_singleton.1 ho]
        exact ⟨p, rfl, by simp [Cont.Box3q.contains]⟩
    | cons o' l' =>
      cases o with
      | none => simp [boundsOf] at h
      | some p =>
        simp only [boundsOf] at h
        cases hb : boundsOf (o' :: l') with
        | none => rw [hb] at h; simp at h
        | some b' =>
          rw [hb] at h
          simp only [Option.bind_eq_bind, Option.bind_some, Option.some.injEq] at h
          subst h
          intro o ho
          rcases List.mem_cons.1 ho with rfl | ho
          · exact ⟨p, rfl, by rw [Cont.Box3q.contains_iff]; simp [extendBy]⟩
          · obtain ⟨q, hq, hc⟩ := ih b' hb o ho
            refine ⟨q, hq, ?_⟩
            rw [Cont.Box3q.contains_iff] at hc ⊢
            simp only [extendBy, min_le_iff, le_max_iff]
            tauto

theorem boundsOf_some : ∀ (l : List (Option V3q)), l ≠ [] → (∀ o ∈ l, o.isSome) → (boundsOf l).isSome := by
  intro l
  induction l with
  | nil => intro h; exact absurd rfl h
  | cons o l ih =>
    intro _ h
    cases l with
    | nil =>
      have := h o (by simp)
      cases o <;> simp_all [boundsOf]
    | cons o' l' =>
      have h1 := h o (by simp)
      have h2 := ih (by simp) (fun x hx => h x (List.mem_cons_of_mem _ hx))
      cases o with
      | none => simp at h1
      | some p =>
        cases hb : boundsOf (o' :: l') with
        | none => rw [hb] at h2; simp at h2
        | some b => simp [boundsOf, hb]

/-- An affine function non-positive at the corners of a box is non-positive in the box. -/
theorem affine_corners (a b c d : Rat) (bx : Box3q) (h : ∀ v ∈ corners bx, a * v.x + b * v.y + c * v.z + d ≤ 0)
    (p : V3q) (hp : bx.contains p = true) : a * p.x + b * p.y + c * p.z + d ≤ 0 := by
  rw [Cont.Box3q.contains_iff] at hp
  obtain ⟨⟨x1, x2⟩, ⟨y1, y2⟩, z1, z2⟩ := hp
  have h1 := h _ (show (⟨bx.min.x, bx.min.y, bx.min.z⟩ : V3q) ∈ corners bx by simp [corners])
  have h2 := h _ (show (⟨bx.max.x, bx.min.y, bx.min.z⟩ : V3q) ∈ corners bx by simp [corners])
  have h3 := h _ (show (⟨bx.min.x, bx.max.y, bx.min.z⟩ : V3q) ∈ corners bx by simp [corners])
  have h4 := h _ (show (⟨bx.max.x, bx.max.y, bx.min.z⟩ : V3q) ∈ corners bx by simp [corners])
  have h5 := h _ (show (⟨bx.min.x, bx.min.y, bx.max.z⟩ : V3q) ∈ corners bx by simp [corners])
  have h6 := h _ (show (⟨bx.max.x, bx.min.y, bx.max.z⟩ : V3q) ∈ corners bx by simp [corners])
  have h7 := h _ (show (⟨bx.min.x, bx.max.y, bx.max.z⟩ : V3q) ∈ corners bx by simp [corners])
  have h8 := h _ (show (⟨bx.max.x, bx.max.y, bx.max.z⟩ : V3q) ∈ corners bx by simp [corners])
  have ax : a * p.x ≤ a * bx.min.x ∨ a * p.x ≤ a * bx.max.x := by
    rcases le_total 0 a with ha | ha
    · exact Or.inr (by nlinarith)
    · exact Or.inl (by nlinarith)
  have ay : b * p.y ≤ b * bx.min.y ∨ b * p.y ≤ b * bx.max.y := by
    rcases le_total 0 b with ha | ha
    · exact Or.inr (by nlinarith)
    · exact Or.inl (by nlinarith)
  have az : c * p.z ≤ c * bx.min.z ∨ c * p.z ≤ c * bx.max.z := by
    rcases le_total 0 c with ha | ha
    · exact Or.inr (by nlinarith)
    · exact Or.inl (by nlinarith)
  simp only at h1 h2 h3 h4 h5 h6 h7 h8
  rcases ax with ax | ax <;> rcases ay with ay | ay <;> rcases az with az | az <;> linarith

/-- A quotient of affine functions with positive denominator at the corners of a box lies, within the box, below
any bound of its corner values, and the denominator is positive there too. -/
theorem frac_corners (a b c d a' b' c' d' m : Rat) (bx : Box3q)
    (hw : ∀ v ∈ corners bx, 0 < a' * v.x + b' * v.y + c' * v.z + d')
    (h : ∀ v ∈ corners bx, (a * v.x + b * v.y + c * v.z + d) / (a' * v.x + b' * v.y + c' * v.z + d') ≤ m)
    (p : V3q) (hp : bx.contains p = true) (hpw : 0 < a' * p.x + b' * p.y + c' * p.z + d') :
    (a * p.x + b * p.y + c * p.z + d) / (a' * p.x + b' * p.y + c' * p.z + d') ≤ m := by
  rw [div_le_iff₀ hpw]
  have := affine_corners (a - m * a') (b - m * b') (c - m * c') (d - m * d') bx (fun v hv => by
    have h1 := h v hv
    rw [div_le_iff₀ (hw v hv)] at h1
    linarith) p hp
  linarith

/-- A denominator positive at the corners is positive in the box. -/
theorem pos_corners (a b c d : Rat) (bx : Box3q) (h : ∀ v ∈ corners bx, 0 < a * v.x + b * v.y + c * v.z + d)
    (p : V3q) (hp : bx.contains p = true) : 0 < a * p.x + b * p.y + c * p.z + d := by
  -- the least corner value is a positive lower bound
  have hm : ∃ m > 0, ∀ v ∈ corners bx, m ≤ a * v.x + b * v.y + c * v.z + d := by
    generalize corners bx = l at h
    induction l with
    | nil => exact ⟨1, by norm_num, by simp⟩
    | cons v l ih =>
      obtain ⟨m, hm, hl⟩ := ih (fun u hu => h u (List.mem_cons_of_mem _ hu))
      refine ⟨min m (a * v.x + b * v.y + c * v.z + d), lt_min hm (h v (by simp)), fun u hu => ?_⟩
      rcases List.mem_cons.1 hu with rfl | hu
      · exact min_le_right _ _
      · exact le_trans (min_le_left _ _) (hl u hu)
  obtain ⟨m, hm, hl⟩ := hm
  have := affine_corners (-a) (-b) (-c) (m - d) bx (fun v hv => by have := hl v hv; linarith) p hp
  linarith

end F3D
