import Verif.Model.FieldGroup
import Verif.Props.Mapping

/-!
# C69: rays through groups of fields, and their bounds
-/

namespace F3D
namespace Props
open FieldGroup Mapping
open Cont (Box3q)

/-- `t` lies in the interval; a missing limit does not limit. -/
def Within (l : Limits) (t : Rat) : Prop := (∀ n, l.1 = some n → n ≤ t) ∧ (∀ f, l.2 = some f → t ≤ f)

theorem within_max (a b : Option Rat) (x t : Rat) : Within (maxLim a x, b) t ↔ Within (a, b) t ∧ x ≤ t := by
  cases a with
  | none => simp only [Within, maxLim, Option.some.injEq, forall_eq']; constructor <;> intro h <;> simp_all
  | some a =>
    simp only [Within, maxLim, Option.some.injEq, forall_eq']
    split
    · rename_i h
      constructor
      · rintro ⟨h1, h2⟩; exact ⟨⟨by linarith, h2⟩, h1⟩
      · rintro ⟨⟨h1, h2⟩, h3⟩; exact ⟨h3, h2⟩
    · rename_i h
      have := not_lt.1 h
      constructor
      · rintro ⟨h1, h2⟩; exact ⟨⟨h1, h2⟩, by linarith⟩
      · rintro ⟨⟨h1, h2⟩, h3⟩; exact ⟨h1, h2⟩

theorem within_min (a b : Option Rat) (x t : Rat) : Within (a, minLim b x) t ↔ Within (a, b) t ∧ t ≤ x := by
  cases b with
  | none => simp only [Within, minLim, Option.some.injEq, forall_eq']; constructor <;> intro h <;> simp_all
  | some b =>
    simp only [Within, minLim, Option.some.injEq, forall_eq']
    split
    · rename_i h
      constructor
      · rintro ⟨h1, h2⟩; exact ⟨⟨h1, by linarith⟩, h2⟩
      · rintro ⟨⟨h1, h2⟩, h3⟩; exact ⟨h1, h3⟩
    · rename_i h
      have := not_lt.1 h
      constructor
      · rintro ⟨h1, h2⟩; exact ⟨⟨h1, h2⟩, by linarith⟩
      · rintro ⟨⟨h1, h2⟩, h3⟩; exact ⟨h1, h2⟩

/-- The limits of one axis before the tests. -/
def axisLimits (pos dir lo hi : Rat) (l : Limits) : Limits := if dir = 0 then l else
  let t0 := (lo - pos) / dir
  let t1 := (hi - pos) / dir
  let (t0, t1) := if t0 > t1 then (t1, t0) else (t0, t1)
  (maxLim l.1 t0, minLim l.2 t1)

theorem axisLimits_spec (pos dir lo hi : Rat) (l : Limits) (hb : lo ≤ hi) (hd : dir ≠ 0) (t : Rat) :
    Within (axisLimits pos dir lo hi l) t ↔ Within l t ∧ lo ≤ pos + t * dir ∧ pos + t * dir ≤ hi := by
  unfold axisLimits
  rw [if_neg hd]
  simp only
  rcases lt_or_gt_of_ne hd with hneg | hpos
  · have h01 : (hi - pos) / dir ≤ (lo - pos) / dir := by
      rw [div_le_div_right_of_neg hneg]; linarith
    have key : ∀ x, (x - pos) / dir ≤ t ↔ pos + t * dir ≤ x := by
      intro x; rw [div_le_iff_of_neg hneg]; constructor <;> intro h <;> linarith
    have key' : ∀ x, t ≤ (x - pos) / dir ↔ x ≤ pos + t * dir := by
      intro x; rw [le_div_iff_of_neg hneg]; constructor <;> intro h <;> linarith
    split
    · rw [within_min, within_max, key, key']
      tauto
    · rename_i hgt
      have he : (hi - pos) / dir = (lo - pos) / dir := le_antisymm h01 (not_lt.1 hgt)
      show Within (maxLim l.1 ((lo - pos) / dir), minLim l.2 ((hi - pos) / dir)) t ↔ _
      rw [within_min, within_max, ← he, key]
      rw [he, key']
      tauto
  · have h01 : (lo - pos) / dir ≤ (hi - pos) / dir := by
      rw [div_le_div_iff_of_pos_right hpos]; linarith
    have key : ∀ x, (x - pos) / dir ≤ t ↔ x ≤ pos + t * dir := by
      intro x; rw [div_le_iff₀ hpos]; constructor <;> intro h <;> linarith
    have key' : ∀ x, t ≤ (x - pos) / dir ↔ pos + t * dir ≤ x := by
      intro x; rw [le_div_iff₀ hpos]; constructor <;> intro h <;> linarith
    rw [if_neg (not_lt.2 h01)]
    simp only
    rw [within_min, within_max, key, key']
    tauto

theorem axis_eq (pos dir lo hi : Rat) (l : Limits) : axis pos dir lo hi l =
    if (-epsilon < dir ∧ dir < epsilon) ∧ (pos < lo ∨ pos > hi) then none
    else if misses (axisLimits pos dir lo hi l) then none else some (axisLimits pos dir lo hi l) := rfl

theorem epsilon_pos : (0 : Rat) < epsilon := by decide +kernel

theorem axis_hit (pos dir lo hi : Rat) (l l' : Limits) (hb : lo ≤ hi) (h : axis pos dir lo hi l = some l') :
    misses l' = false ∧ ∀ t, Within l' t ↔ Within l t ∧ lo ≤ pos + t * dir ∧ pos + t * dir ≤ hi := by
  rw [axis_eq] at h
  split at h
  · simp at h
  · rename_i hout
    split at h
    · simp at h
    · rename_i hm
      injection h with h
      subst h
      refine ⟨by simpa using hm, fun t => ?_⟩
      by_cases hd : dir = 0
      · subst hd
        have : ¬ (pos < lo ∨ pos > hi) := fun e => hout ⟨⟨by linarith [epsilon_pos], epsilon_pos⟩, e⟩
        simp only [not_or, not_lt] at this
        simp only [axisLimits, if_true, mul_zero, add_zero]
        tauto
      · exact axisLimits_spec pos dir lo hi l hb hd t

/-- The component is 0 or at least `epsilon`. -/
def NotTiny (d : Rat) : Prop := d = 0 ∨ d ≤ -epsilon ∨ epsilon ≤ d

theorem axis_miss (pos dir lo hi : Rat) (l : Limits) (hb : lo ≤ hi) (hd : NotTiny dir) (hl : misses l = false)
    (h : axis pos dir lo hi l = none) (t : Rat) (ht : 0 ≤ t) (hw : Within l t) :
    ¬ (lo ≤ pos + t * dir ∧ pos + t * dir ≤ hi) := by
  rw [axis_eq] at h
  by_cases h0 : dir = 0
  · subst h0
    split at h
    · rename_i hout
      rintro ⟨h1, h2⟩
      simp only [mul_zero, add_zero] at h1 h2
      rcases hout.2 with e | e <;> linarith
    · simp only [axisLimits, if_true, hl] at h
      simp at h
  · split at h
    · rename_i hout
      rcases hd with e | e | e
      · exact absurd e h0
      · linarith [hout.1.1]
      · linarith [hout.1.2]
    · split at h
      · rename_i hm
        intro hin
        have hw' := (axisLimits_spec pos dir lo hi l hb h0 t).2 ⟨hw, hin⟩
        revert hw' hm
        generalize axisLimits pos dir lo hi l = l'
        obtain ⟨a, b⟩ := l'
        intro hm hw'
        unfold misses at hm
        rw [Bool.or_eq_true] at hm
        rcases hm with hm | hm
        · split at hm
          · rename_i n f e
            simp only [Prod.mk.injEq] at e
            have h1 := hw'.1 n e.1
            have h2 := hw'.2 f e.2
            have := of_decide_eq_true hm
            linarith
          · simp at hm
        · split at hm
          · rename_i f e
            have h2 := hw'.2 f e
            have := of_decide_eq_true hm
            linarith
          · simp at hm
      · simp at h

/-- C69: the test of a ray against a box. A hit gives exactly the parameters of the points of the ray in the box (of
the whole line, also behind its start), and the box is not behind the start; a miss means that no point of the ray is
in the box. Direction components so small that the code takes them for 0 are excluded in the second case. -/
theorem C69_ray_box (r : Ray) (b : Box3q) (hb : b.min.x ≤ b.max.x ∧ b.min.y ≤ b.max.y ∧ b.min.z ≤ b.max.z) :
    (∀ l, intersect r b = some l →
      (∀ t, Within l t ↔ b.contains (r.at t) = true) ∧ ∃ t, 0 ≤ t ∧ b.contains (r.at t) = true) ∧
    (intersect r b = none → NotTiny r.dir.x ∧ NotTiny r.dir.y ∧ NotTiny r.dir.z →
      ∀ t, 0 ≤ t → b.contains (r.at t) = false) := by
  obtain ⟨bx, by', bz⟩ := hb
  have hnone : ∀ t, Within (none, none) t := fun t => ⟨by simp, by simp⟩
  have hm0 : misses (none, none) = false := rfl
  constructor
  · intro l h
    simp only [intersect, Option.bind_eq_bind, Option.bind_eq_some_iff] at h
    obtain ⟨l1, h1, l2, h2, h3⟩ := h
    obtain ⟨_, k1⟩ := axis_hit _ _ _ _ _ _ bx h1
    obtain ⟨_, k2⟩ := axis_hit _ _ _ _ _ _ by' h2
    obtain ⟨m3, k3⟩ := axis_hit _ _ _ _ _ _ bz h3
    have key : ∀ t, Within l t ↔ b.contains (r.at t) = true := by
      intro t
      rw [k3, k2, k1, Cont.Box3q.contains_iff]
      simp only [Ray.at]
      have := hnone t
      tauto
    refine ⟨key, ?_⟩
    obtain ⟨a, c⟩ := l
    cases a with
    | none =>
      cases c with
      | none => exact ⟨0, le_refl _, (key 0).1 ⟨by simp, by simp⟩⟩
      | some f =>
        have hf : ¬ f < 0 := by simpa [misses] using m3
        exact ⟨0, le_refl _, (key 0).1 ⟨by simp, fun _ e => by simp at e; linarith⟩⟩
    | some n =>
      cases c with
      | none =>
        refine ⟨max n 0, le_max_right _ _, (key _).1 ⟨fun _ e => ?_, by simp⟩⟩
        simp only [Option.some.injEq] at e
        rw [← e]; exact le_max_left _ _
      | some f =>
        have hf : ¬ f < n ∧ ¬ f < 0 := by simpa [misses] using m3
        refine ⟨max n 0, le_max_right _ _, (key _).1 ⟨fun _ e => ?_, fun _ e => ?_⟩⟩
        · simp only [Option.some.injEq] at e; rw [← e]; exact le_max_left _ _
        · simp only [Option.some.injEq] at e
          rw [← e]; exact max_le (not_lt.1 hf.1) (not_lt.1 hf.2)
  · intro h ⟨dx, dy, dz⟩ t ht
    apply Bool.eq_false_iff.2
    intro hc
    rw [Cont.Box3q.contains_iff] at hc
    simp only [Ray.at] at hc
    obtain ⟨cx, cy, cz⟩ := hc
    simp only [intersect, Option.bind_eq_bind] at h
    cases e1 : axis r.pos.x r.dir.x b.min.x b.max.x (none, none) with
    | none => exact axis_miss _ _ _ _ _ bx dx hm0 e1 t ht (hnone t) cx
    | some l1 =>
      rw [e1, Option.bind_some] at h
      obtain ⟨m1, k1⟩ := axis_hit _ _ _ _ _ _ bx e1
      have w1 := (k1 t).2 ⟨hnone t, cx⟩
      cases e2 : axis r.pos.y r.dir.y b.min.y b.max.y l1 with
      | none => exact axis_miss _ _ _ _ _ by' dy m1 e2 t ht w1 cy
      | some l2 =>
        rw [e2, Option.bind_some] at h
        obtain ⟨m2, k2⟩ := axis_hit _ _ _ _ _ _ by' e2
        exact axis_miss _ _ _ _ _ bz dz m2 h t ht ((k2 t).2 ⟨w1, cy⟩) cz

/-- A direction so flat that it is taken for 0: the ray reaches the box, but is said to miss it. -/
theorem C69_tiny_direction : ∃ r : Ray, ∃ t, 0 ≤ t ∧ unitBox.contains (r.at t) = true ∧ intersect r unitBox = none :=
  ⟨⟨⟨-1, 0, 0⟩, ⟨1 / 2 ^ 52, 0, 0⟩⟩, 2 ^ 52, by decide +kernel⟩

/-- C69: a ray through a field with a matrix mapping: the interval found is exactly the set of parameters whose world
point has local coordinates in the unit cube, that is, lies in the extents of the field. -/
theorem C69_matrix (f : Frame) (ops : List Op) (ha : ∀ s ∈ history ops, Affine s.2) (r : Ray) :
    ∃ o, intersectMatrix (Matrix.run f ops) r = some o ∧
    (∀ l, o = some l → ∀ t, Within l t ↔
      ∃ p, (Matrix.run f ops).worldToLocal (r.at t) = some p ∧ unitBox.contains p = true) ∧
    (o = none → (let d := (Matrix.run f ops).wsToLs.multDir r.dir
        NotTiny d.x ∧ NotTiny d.y ∧ NotTiny d.z) → ∀ t, 0 ≤ t →
      ∀ p, (Matrix.run f ops).worldToLocal (r.at t) = some p → unitBox.contains p = false) := by
  have hz := (C54_matrix_time_zero f ops r.pos).2.2.2.1
  have hl : (Matrix.run f ops).wsToLs = (transformAt (history ops) 0).inverse := by
    obtain ⟨h1, h2, h3⟩ := run_spec f ops
    have : (Matrix.run f ops).wsToLs = (sampleM (Matrix.run f ops).lsToWsCurve 0).inverse := by
      rw [← h3]; rfl
    rw [this, h2]; rfl
  have hAff : Affine (Matrix.run f ops).wsToLs := by
    rw [hl]; exact affine_inverse _ (affine_transformAt _ ha 0)
  revert hAff hz
  generalize Matrix.run f ops = m
  intro hz hAff
  have hpos := affine_multVec m.wsToLs hAff r.pos
  have hat : ∀ t, m.worldToLocal (r.at t) = some ((Ray.mk (⟨r.pos.x * m.wsToLs.r0.x + r.pos.y * m.wsToLs.r1.x + r.pos.z * m.wsToLs.r2.x + m.wsToLs.r3.x,
      r.pos.x * m.wsToLs.r0.y + r.pos.y * m.wsToLs.r1.y + r.pos.z * m.wsToLs.r2.y + m.wsToLs.r3.y,
      r.pos.x * m.wsToLs.r0.z + r.pos.y * m.wsToLs.r1.z + r.pos.z * m.wsToLs.r2.z + m.wsToLs.r3.z⟩) (m.wsToLs.multDir r.dir)).at t) := by
    intro t
    show m.wsToLs.multVec (r.at t) = _
    rw [affine_multVec m.wsToLs hAff]
    congr 1
    apply V3q.ext' <;> simp only [Ray.at, M44.multDir, M44.rowMul] <;> ring
  refine ⟨intersect ⟨⟨r.pos.x * m.wsToLs.r0.x + r.pos.y * m.wsToLs.r1.x + r.pos.z * m.wsToLs.r2.x + m.wsToLs.r3.x,
      r.pos.x * m.wsToLs.r0.y + r.pos.y * m.wsToLs.r1.y + r.pos.z * m.wsToLs.r2.y + m.wsToLs.r3.y,
      r.pos.x * m.wsToLs.r0.z + r.pos.y * m.wsToLs.r1.z + r.pos.z * m.wsToLs.r2.z + m.wsToLs.r3.z⟩,
      m.wsToLs.multDir r.dir⟩ unitBox, ?_, ?_, ?_⟩
  · unfold intersectMatrix
    rw [← hz]
    show (m.wsToLs.multVec r.pos).map _ = _
    rw [hpos, Option.map_some]
  · intro l hl t
    rw [((C69_ray_box _ unitBox (by decide +kernel)).1 l hl).1 t, hat t]
    simp
  · intro hn hd t ht p hp
    rw [hat t] at hp
    injection hp with hp
    rw [← hp]
    exact (C69_ray_box _ unitBox (by decide +kernel)).2 hn hd t ht

/-- The interval of a field with an object transform is the interval of the field in its own space for the ray whose
points are the world points brought to object space: the parameters are those of the world ray. -/
theorem C69_object_space (map : AnyMap) (osToWs wsToOs : M44) (ha : Affine wsToOs) (r : Ray) :
    ∃ r', (∀ t, wsToOs.multVec (r.at t) = some (r'.at t)) ∧
      Member.interval ⟨map, some (osToWs, wsToOs)⟩ r = Member.interval ⟨map, none⟩ r' := by
  refine ⟨⟨⟨r.pos.x * wsToOs.r0.x + r.pos.y * wsToOs.r1.x + r.pos.z * wsToOs.r2.x + wsToOs.r3.x,
      r.pos.x * wsToOs.r0.y + r.pos.y * wsToOs.r1.y + r.pos.z * wsToOs.r2.y + wsToOs.r3.y,
      r.pos.x * wsToOs.r0.z + r.pos.y * wsToOs.r1.z + r.pos.z * wsToOs.r2.z + wsToOs.r3.z⟩,
      wsToOs.multDir r.dir⟩, fun t => ?_, ?_⟩
  · rw [affine_multVec wsToOs ha]
    congr 1
    apply V3q.ext' <;> simp only [Ray.at, M44.multDir, M44.rowMul] <;> ring
  · unfold Member.interval Member.ray
    simp only [affine_multVec wsToOs ha r.pos, Option.map_some]

/-- C69 for a field with a matrix mapping in a group, with its object transform: the interval holds exactly the
parameters whose world point, brought to the space of the object and then to local coordinates, is in the unit cube. -/
theorem C69_object_matrix (f : Frame) (ops : List Op) (ha : ∀ s ∈ history ops, Affine s.2) (osToWs wsToOs : M44)
    (hw : Affine wsToOs) (r : Ray) :
    ∃ o, Member.interval ⟨.matrix (Matrix.run f ops), some (osToWs, wsToOs)⟩ r = some o ∧
    (∀ l, o = some l → ∀ t, Within l t ↔
      ∃ q p, wsToOs.multVec (r.at t) = some q ∧ (Matrix.run f ops).worldToLocal q = some p ∧
        unitBox.contains p = true) ∧
    (o = none → (let d := (Matrix.run f ops).wsToLs.multDir (wsToOs.multDir r.dir)
        NotTiny d.x ∧ NotTiny d.y ∧ NotTiny d.z) → ∀ t, 0 ≤ t →
      ∀ q p, wsToOs.multVec (r.at t) = some q → (Matrix.run f ops).worldToLocal q = some p →
        unitBox.contains p = false) := by
  have hat : ∀ t, wsToOs.multVec (r.at t) = some ((Ray.mk (⟨r.pos.x * wsToOs.r0.x + r.pos.y * wsToOs.r1.x + r.pos.z * wsToOs.r2.x + wsToOs.r3.x,
      r.pos.x * wsToOs.r0.y + r.pos.y * wsToOs.r1.y + r.pos.z * wsToOs.r2.y + wsToOs.r3.y,
      r.pos.x * wsToOs.r0.z + r.pos.y * wsToOs.r1.z + r.pos.z * wsToOs.r2.z + wsToOs.r3.z⟩) (wsToOs.multDir r.dir)).at t) := by
    intro t
    rw [affine_multVec wsToOs hw]
    congr 1
    apply V3q.ext' <;> simp only [Ray.at, M44.multDir, M44.rowMul] <;> ring
  obtain ⟨o, h1, h2, h3⟩ := C69_matrix f ops ha (Ray.mk (⟨r.pos.x * wsToOs.r0.x + r.pos.y * wsToOs.r1.x + r.pos.z * wsToOs.r2.x + wsToOs.r3.x,
      r.pos.x * wsToOs.r0.y + r.pos.y * wsToOs.r1.y + r.pos.z * wsToOs.r2.y + wsToOs.r3.y,
      r.pos.x * wsToOs.r0.z + r.pos.y * wsToOs.r1.z + r.pos.z * wsToOs.r2.z + wsToOs.r3.z⟩) (wsToOs.multDir r.dir))
  refine ⟨o, ?_, ?_, ?_⟩
  · unfold Member.interval Member.ray
    simp only [affine_multVec wsToOs hw r.pos, Option.map_some, Option.bind_some]
    exact h1
  · intro l hl t
    rw [h2 l hl t, hat t]
    simp
  · intro hn hd t ht q p hq hp
    rw [hat t] at hq
    injection hq with hq
    rw [← hq] at hp
    exact h3 hn hd t ht p hp

/-- An object moved by 10 along x: the ray from the origin meets the field between parameters 10 and 11. -/
example : Member.interval ⟨.matrix (Matrix.run .default []),
      some (⟨⟨1, 0, 0, 0⟩, ⟨0, 1, 0, 0⟩, ⟨0, 0, 1, 0⟩, ⟨10, 0, 0, 1⟩⟩,
        ⟨⟨1, 0, 0, 0⟩, ⟨0, 1, 0, 0⟩, ⟨0, 0, 1, 0⟩, ⟨-10, 0, 0, 1⟩⟩)⟩ ⟨⟨0, 1 / 2, 1 / 2⟩, ⟨1, 0, 0⟩⟩ =
    some (some (some 10, some 11)) := by decide +kernel

/-! ## Frustums -/

/-- The point is on the inner side of the plane (which its normal leaves). -/
def Behind (p : Plane) (x : V3q) : Prop := dot p.normal x ≤ p.distance

theorem intersectT_spec (p : Plane) (r : Ray) (hp : dot p.normal r.dir ≠ 0) (l : Limits) (t : Rat) :
    Within (match p.intersectT r with
    | none => l
    | some t => if dot r.dir p.normal > 0 then (l.1, minLim l.2 t) else (maxLim l.1 t, l.2)) t ↔
      Within l t ∧ Behind p (r.at t) := by
  have hc : dot r.dir p.normal = dot p.normal r.dir := by simp only [dot]; ring
  have ha : dot p.normal (r.at t) = dot p.normal r.pos + t * dot p.normal r.dir := by
    simp only [dot, Ray.at]; ring
  unfold Plane.intersectT Behind
  rw [if_neg hp, ha, hc]
  simp only
  split
  · rename_i h
    rw [within_min, le_div_iff₀ h]
    constructor <;> rintro ⟨h1, h2⟩ <;> exact ⟨h1, by linarith⟩
  · rename_i h
    have h' : dot p.normal r.dir < 0 := lt_of_le_of_ne (not_lt.1 h) hp
    rw [within_max, div_le_iff_of_neg h']
    constructor <;> rintro ⟨h1, h2⟩ <;> exact ⟨h1, by linarith⟩

theorem clip_spec (r : Ray) (ps : List Plane) (hp : ∀ p ∈ ps, dot p.normal r.dir ≠ 0) (t : Rat) :
    Within (clip r ps) t ↔ ∀ p ∈ ps, Behind p (r.at t) := by
  have key : ∀ (ps : List Plane) (l : Limits), (∀ p ∈ ps, dot p.normal r.dir ≠ 0) →
      (Within (ps.foldl (fun (l : Limits) p =>
        match p.intersectT r with
        | none => l
        | some t => if dot r.dir p.normal > 0 then (l.1, minLim l.2 t) else (maxLim l.1 t, l.2)) l) t ↔
        Within l t ∧ ∀ p ∈ ps, Behind p (r.at t)) := by
    intro ps
    induction ps with
    | nil => intro l _; simp
    | cons p ps ih =>
      intro l h
      rw [List.foldl_cons, ih _ (fun q hq => h q (List.mem_cons_of_mem _ hq)),
        intersectT_spec p r (h p List.mem_cons_self) l t]
      simp only [List.forall_mem_cons]
      tauto
  have := key ps (none, none) hp
  exact this.trans (by simp [Within])

/-- The position of a point relative to the plane through three points. -/
def triVal (a b c x : V3q) : Rat := dot (cross (vsub b a) (vsub c a)) x - dot (cross (vsub b a) (vsub c a)) a

theorem behind_of (a b c x : V3q) : Behind (Plane.of a b c) x ↔ triVal a b c x ≤ 0 := by
  unfold Behind Plane.of triVal
  constructor <;> intro h <;> simp only at h ⊢ <;> linarith

def quot (v : V4q) : V3q := ⟨v.x / v.w, v.y / v.w, v.z / v.w⟩

theorem triVal_hom (a b c : V4q) (x : V3q) (ha : a.w ≠ 0) (hb : b.w ≠ 0) (hc : c.w ≠ 0) :
    triVal (quot a) (quot b) (quot c) x * (a.w * b.w * c.w) = -(M44.det ⟨a, b, c, ⟨x.x, x.y, x.z, 1⟩⟩) := by
  simp only [triVal, quot, cross, vsub, dot, M44.det, M44.det3]
  field_simp
  ring

/-- A corner as a homogeneous vector. -/
def hom (p : V3q) : V4q := ⟨p.x, p.y, p.z, 1⟩

theorem triVal_local (L : M44) (hd : L.det ≠ 0) (a b c x : V3q) (ha : 0 < wOf L a) (hb : 0 < wOf L b)
    (hc : 0 < wOf L c) :
    triVal (quot (M44.rowMul (hom a) L)) (quot (M44.rowMul (hom b) L)) (quot (M44.rowMul (hom c) L)) x *
      (wOf L a * wOf L b * wOf L c) =
    -(M44.det ⟨hom a, hom b, hom c, M44.rowMul (hom x) L.inverse⟩ * L.det) := by
  have e : ∀ p, (M44.rowMul (hom p) L).w = wOf L p := by intro p; simp [M44.rowMul, wOf, hom]
  have := triVal_hom (M44.rowMul (hom a) L) (M44.rowMul (hom b) L) (M44.rowMul (hom c) L) x
    (by rw [e]; exact ne_of_gt ha) (by rw [e]; exact ne_of_gt hb) (by rw [e]; exact ne_of_gt hc)
  rw [e, e, e] at this
  rw [this, ← M44.det_mul]
  congr 2
  simp only [M44.mul]
  congr 1
  rw [M44.rowMul_mul, M44.inverse_mul L hd, M44.rowMul_one]
  rfl

theorem face_local (L : M44) (hd : L.det < 0) (a b c x : V3q) (ha : 0 < wOf L a) (hb : 0 < wOf L b)
    (hc : 0 < wOf L c) (v : Rat) (hv : M44.det ⟨hom a, hom b, hom c, M44.rowMul (hom x) L.inverse⟩ = -v) :
    Behind (Plane.of (quot (M44.rowMul (hom a) L)) (quot (M44.rowMul (hom b) L)) (quot (M44.rowMul (hom c) L))) x ↔
      0 ≤ v := by
  rw [behind_of]
  have h := triVal_local L (ne_of_lt hd) a b c x ha hb hc
  rw [hv] at h
  have hw : 0 < wOf L a * wOf L b * wOf L c := mul_pos (mul_pos ha hb) hc
  generalize triVal _ _ _ x = s at h ⊢
  generalize wOf L a * wOf L b * wOf L c = w at h hw
  constructor
  · intro hs; by_contra hv; have hv := not_le.1 hv; nlinarith
  · intro hv; by_contra hs; have hs := not_le.1 hs; nlinarith

theorem corners_map (L : M44) (hw : ∀ v ∈ corners unitBox, 0 < wOf L v) (v : V3q) (hv : v ∈ corners unitBox) :
    L.multVec v = some (quot (M44.rowMul (hom v) L)) := by
  have := hw v hv
  have e : (M44.rowMul ⟨v.x, v.y, v.z, 1⟩ L).w = wOf L v := by simp [M44.rowMul, wOf]
  unfold M44.multVec
  simp only [e]
  rw [if_neg (ne_of_gt this)]
  simp only [quot, hom, e]

def facesOf (L : M44) : List Plane :=
  [Plane.of (quot (M44.rowMul (hom ⟨0, 0, 1⟩) L)) (quot (M44.rowMul (hom ⟨0, 0, 0⟩) L))
    (quot (M44.rowMul (hom ⟨0, 1, 1⟩) L)),
  Plane.of (quot (M44.rowMul (hom ⟨1, 0, 0⟩) L)) (quot (M44.rowMul (hom ⟨1, 0, 1⟩) L))
    (quot (M44.rowMul (hom ⟨1, 1, 0⟩) L)),
  Plane.of (quot (M44.rowMul (hom ⟨0, 0, 1⟩) L)) (quot (M44.rowMul (hom ⟨1, 0, 1⟩) L))
    (quot (M44.rowMul (hom ⟨0, 0, 0⟩) L)),
  Plane.of (quot (M44.rowMul (hom ⟨0, 1, 0⟩) L)) (quot (M44.rowMul (hom ⟨1, 1, 0⟩) L))
    (quot (M44.rowMul (hom ⟨0, 1, 1⟩) L)),
  Plane.of (quot (M44.rowMul (hom ⟨0, 0, 0⟩) L)) (quot (M44.rowMul (hom ⟨1, 0, 0⟩) L))
    (quot (M44.rowMul (hom ⟨0, 1, 0⟩) L)),
  Plane.of (quot (M44.rowMul (hom ⟨1, 0, 1⟩) L)) (quot (M44.rowMul (hom ⟨0, 0, 1⟩) L))
    (quot (M44.rowMul (hom ⟨1, 1, 1⟩) L))]

theorem mapM_some {α β : Type} (f : α → Option β) (g : α → β) : ∀ l : List α, (∀ a ∈ l, f a = some (g a)) →
    l.mapM f = some (l.map g) := by
  intro l
  induction l with
  | nil => intro _; rfl
  | cons a l ih =>
    intro h
    rw [List.mapM_cons, h a List.mem_cons_self, ih (fun b hb => h b (List.mem_cons_of_mem _ hb))]
    rfl

/-- C69: a ray through a field with a perspective frustum mapping. If the frustum is in front of the camera, its
orientation is that of a camera looking along its negative z axis, and the ray is not parallel to any face, then the
interval is exactly the set of parameters (from the start of the ray on) whose world point is in the frustum, and if
there is none, the line has at most one point in the frustum. -/
theorem C69_frustum (m : Frustum) (hz : m.zDist = some .perspective) (r : Ray)
    (hd : (sampleM m.lpsToWsCurve 0).det < 0) (hw : ∀ v ∈ corners unitBox, 0 < wOf (sampleM m.lpsToWsCurve 0) v)
    (hpar : ∀ c ps, (corners unitBox).mapM (fun p => m.localToWorldAt p 0) = some c → facePlanes c = some ps →
      ∀ p ∈ ps, dot p.normal r.dir ≠ 0) :
    ∃ o, intersectFrustum m r = some o ∧
    (∀ l, o = some l → ∀ t, Within l t ↔
      0 ≤ t ∧ ∃ p, m.worldToLocalAt (r.at t) 0 = some p ∧ unitBox.contains p = true) ∧
    (o = none → ∀ t t' p p', m.worldToLocalAt (r.at t) 0 = some p → unitBox.contains p = true →
      m.worldToLocalAt (r.at t') 0 = some p' → unitBox.contains p' = true → t = t') := by
  have hl : ∀ p, m.localToWorldAt p 0 = (sampleM m.lpsToWsCurve 0).multVec p := by
    intro p; unfold Frustum.localToWorldAt; rw [hz]
  have hi : ∀ p, m.worldToLocalAt p 0 = (sampleM m.lpsToWsCurve 0).inverse.multVec p := by
    intro p; unfold Frustum.worldToLocalAt; rw [hz]
  unfold intersectFrustum
  simp only [hl] at hpar ⊢
  simp only [hi]
  generalize sampleM m.lpsToWsCurve 0 = L at *
  have hc := mapM_some L.multVec (fun v => quot (M44.rowMul (hom v) L)) _ (corners_map L hw)
  have hps : facePlanes ((corners unitBox).map fun v => quot (M44.rowMul (hom v) L)) = some (facesOf L) := rfl
  have hpar := hpar _ _ hc hps
  rw [hc, Option.bind_eq_bind, Option.bind_some, hps, Option.bind_eq_bind, Option.bind_some]
  have hclip := clip_spec r _ hpar
  have hinside : ∀ x, (∀ p ∈ facesOf L, Behind p x) ↔ ∃ p, L.inverse.multVec x = some p ∧ unitBox.contains p = true := by
    intro x
    have w := fun v hv => hw v hv
    simp only [corners, unitBox, List.forall_mem_cons, List.not_mem_nil, IsEmpty.forall_iff, implies_true,
      and_true] at w
    obtain ⟨w0, w1, w2, w3, w4, w5, w6, w7⟩ := w
    have f0 := face_local L hd ⟨0, 0, 1⟩ ⟨0, 0, 0⟩ ⟨0, 1, 1⟩ x w4 w0 w6 (M44.rowMul (hom x) L.inverse).x
      (by simp only [M44.det, M44.det3, hom]; ring)
    have f1 := face_local L hd ⟨1, 0, 0⟩ ⟨1, 0, 1⟩ ⟨1, 1, 0⟩ x w1 w5 w3
      ((M44.rowMul (hom x) L.inverse).w - (M44.rowMul (hom x) L.inverse).x)
      (by simp only [M44.det, M44.det3, hom]; ring)
    have f2 := face_local L hd ⟨0, 0, 1⟩ ⟨1, 0, 1⟩ ⟨0, 0, 0⟩ x w4 w5 w0 (M44.rowMul (hom x) L.inverse).y
      (by simp only [M44.det, M44.det3, hom]; ring)
    have f3 := face_local L hd ⟨0, 1, 0⟩ ⟨1, 1, 0⟩ ⟨0, 1, 1⟩ x w2 w3 w6
      ((M44.rowMul (hom x) L.inverse).w - (M44.rowMul (hom x) L.inverse).y)
      (by simp only [M44.det, M44.det3, hom]; ring)
    have f4 := face_local L hd ⟨0, 0, 0⟩ ⟨1, 0, 0⟩ ⟨0, 1, 0⟩ x w0 w1 w2 (M44.rowMul (hom x) L.inverse).z
      (by simp only [M44.det, M44.det3, hom]; ring)
    have f5 := face_local L hd ⟨1, 0, 1⟩ ⟨0, 0, 1⟩ ⟨1, 1, 1⟩ x w5 w4 w7
      ((M44.rowMul (hom x) L.inverse).w - (M44.rowMul (hom x) L.inverse).z)
      (by simp only [M44.det, M44.det3, hom]; ring)
    have hall : (∀ p ∈ facesOf L, Behind p x) ↔
        ∃ p, L.inverse.multVec x = some p ∧ unitBox.contains p = true := by
      simp only [facesOf, List.forall_mem_cons, List.not_mem_nil, IsEmpty.forall_iff, implies_true, and_true]
      rw [f0, f1, f2, f3, f4, f5]
      have hh : M44.rowMul (M44.rowMul (hom x) L.inverse) L = hom x := by
        rw [M44.rowMul_mul, M44.inverse_mul L (ne_of_lt hd), M44.rowMul_one]
      have hmv : L.inverse.multVec x = if (M44.rowMul (hom x) L.inverse).w = 0 then none else
          some ⟨(M44.rowMul (hom x) L.inverse).x / (M44.rowMul (hom x) L.inverse).w,
            (M44.rowMul (hom x) L.inverse).y / (M44.rowMul (hom x) L.inverse).w,
            (M44.rowMul (hom x) L.inverse).z / (M44.rowMul (hom x) L.inverse).w⟩ := rfl
      rw [hmv]
      generalize M44.rowMul (hom x) L.inverse = h at hh
      constructor
      · rintro ⟨g0, g1, g2, g3, g4, g5⟩
        have hw0 : h.w ≠ 0 := by
          intro e
          have ex : h.x = 0 := by linarith
          have ey : h.y = 0 := by linarith
          have ez : h.z = 0 := by linarith
          have := congrArg V4q.w hh
          simp [M44.rowMul, e, ex, ey, ez, hom] at this
        have hwp : 0 < h.w := lt_of_le_of_ne (by linarith) (Ne.symm hw0)
        rw [if_neg hw0]
        refine ⟨_, rfl, ?_⟩
        rw [Cont.Box3q.contains_iff]
        simp only [unitBox]
        refine ⟨⟨div_nonneg g0 hwp.le, ?_⟩, ⟨div_nonneg g2 hwp.le, ?_⟩, ⟨div_nonneg g4 hwp.le, ?_⟩⟩ <;>
          rw [div_le_one hwp] <;> linarith
      · rintro ⟨p, hp, hin⟩
        split at hp
        · simp at hp
        · rename_i hw0
          injection hp with hp
          have hpos : 0 < wOf L p := by
            have := pos_corners L.r0.w L.r1.w L.r2.w L.r3.w unitBox
              (fun v hv => by have := hw v hv; unfold wOf at this; linarith) p hin
            unfold wOf; linarith
          have hone : h.w * wOf L p = 1 := by
            have := congrArg V4q.w hh
            simp only [M44.rowMul, hom] at this
            rw [← hp]
            simp only [wOf]
            field_simp
            linarith
          have hwp : 0 < h.w := by
            by_contra hn
            have hn := not_lt.1 hn
            nlinarith
          rw [Cont.Box3q.contains_iff] at hin
          simp only [unitBox, ← hp] at hin
          obtain ⟨⟨a1, a2⟩, ⟨b1, b2⟩, c1, c2⟩ := hin
          rw [div_le_one hwp] at a2 b2 c2
          rw [le_div_iff₀ hwp, zero_mul] at a1 b1 c1
          refine ⟨a1, by linarith, b1, by linarith, c1, by linarith⟩
    exact hall
  refine ⟨_, rfl, ?_, ?_⟩
  · intro l hl t
    split at hl
    · injection hl with hl
      rw [← hl, within_max]
      rw [← hinside, ← hclip]
      tauto
    · simp at hl
  · intro ho t t' p p' h1 h2 h3 h4
    split at ho
    · simp at ho
    · rename_i hn
      have k1 := (hclip t).2 ((hinside _).2 ⟨p, h1, h2⟩)
      have k2 := (hclip t').2 ((hinside _).2 ⟨p', h3, h4⟩)
      revert hn k1 k2
      generalize clip r _ = l
      obtain ⟨a, b⟩ := l
      intro hn k1 k2
      cases a with
      | none => simp [ordered] at hn
      | some a =>
        cases b with
        | none => simp [ordered] at hn
        | some b =>
          simp only [ordered, decide_eq_true_eq, not_lt] at hn
          have := k1.1 a rfl
          have := k1.2 b rfl
          have := k2.1 a rfl
          have := k2.2 b rfl
          linarith

theorem default_perspective : ∃ m, plainFrustum = some m ∧ m.zDist = some .perspective ∧
    (sampleM m.lpsToWsCurve 0).det < 0 ∧ (∀ v ∈ corners unitBox, 0 < wOf (sampleM m.lpsToWsCurve 0) v) := by
  have h : ∃ m, plainFrustum = some m := Option.isSome_iff_exists.1 (by decide +kernel)
  obtain ⟨m, hm⟩ := h
  have hm' : m = plainFrustum.get (by decide +kernel) := by simp [hm]
  refine ⟨m, hm, ?_⟩
  rw [hm']
  decide +kernel

/-- The default frustum meets the hypotheses, with a slanted ray. -/
example : ∃ m, plainFrustum = some m ∧ (∀ c ps, (corners unitBox).mapM (fun p => m.localToWorldAt p 0) = some c →
    facePlanes c = some ps → ∀ p ∈ ps, dot p.normal (⟨1 / 10, 1 / 10, -1⟩ : V3q) ≠ 0) ∧
    intersectFrustum m ⟨⟨0, 0, 0⟩, ⟨1 / 10, 1 / 10, -1⟩⟩ = some (some (some 1, some 2)) := by
  have h : ∃ m, plainFrustum = some m := Option.isSome_iff_exists.1 (by decide +kernel)
  obtain ⟨m, hm⟩ := h
  have hm' : m = plainFrustum.get (by decide +kernel) := by simp [hm]
  refine ⟨m, hm, ?_, by rw [hm']; decide +kernel⟩
  intro c ps hc hps
  have : (((corners unitBox).mapM (fun p => m.localToWorldAt p 0)).bind facePlanes).map
      (fun ps => ps.all fun p => dot p.normal (⟨1 / 10, 1 / 10, -1⟩ : V3q) != 0) = some true := by
    rw [hm']; decide +kernel
  rw [hc, Option.bind_some, hps, Option.map_some, Option.some.injEq, List.all_eq_true] at this
  intro p hp
  have := this p hp
  simpa using this

/-- C69: what the hypotheses of `C69_frustum` exclude. A ray parallel to two faces passes outside of them, and yet an
interval is reported. -/
theorem C69_frustum_parallel : ∃ m r, plainFrustum = some m ∧
    intersectFrustum m r = some (some (some 0, some 250)) ∧
    ∀ t p, m.worldToLocalAt (r.at t) 0 = some p → unitBox.contains p = false := by
  have h : ∃ m, plainFrustum = some m := Option.isSome_iff_exists.1 (by decide +kernel)
  obtain ⟨m, hm⟩ := h
  have hm' : m = plainFrustum.get (by decide +kernel) := by simp [hm]
  refine ⟨m, ⟨⟨0, 0, -500⟩, ⟨1, 0, 0⟩⟩, hm, by rw [hm']; decide +kernel, ?_⟩
  have hL : (sampleM m.lpsToWsCurve 0).inverse = ⟨⟨1, 0, 0, 0⟩, ⟨0, 1, 0, 0⟩, ⟨-1 / 2, -1 / 2, -2, -1⟩, ⟨0, 0, -2, 0⟩⟩ := by
    rw [hm']; decide +kernel
  have hz : m.zDist = some .perspective := by rw [hm']; decide +kernel
  intro t p hp
  unfold Frustum.worldToLocalAt at hp
  rw [hz] at hp
  simp only [hL, M44.multVec, M44.rowMul, Ray.at] at hp
  split at hp
  · simp at hp
  · injection hp with hp
    apply Bool.eq_false_iff.2
    intro hc
    rw [Cont.Box3q.contains_iff] at hc
    have h2 := hc.2.2.2
    rw [← hp] at h2
    simp only [unitBox] at h2
    revert h2
    ring_nf
    norm_num

/-- A frustum behind the ray gives an interval whose end is before its start. -/
theorem C69_frustum_reversed : ∃ m r, plainFrustum = some m ∧
    intersectFrustum m r = some (some (some 0, some (-25 / 4))) := by
  have h : ∃ m, plainFrustum = some m := Option.isSome_iff_exists.1 (by decide +kernel)
  obtain ⟨m, hm⟩ := h
  have hm' : m = plainFrustum.get (by decide +kernel) := by simp [hm]
  exact ⟨m, ⟨⟨0, 0, 5⟩, ⟨0, 1 / 10, 1⟩⟩, hm, by rw [hm']; decide +kernel⟩

/-- The default frustum mirrored in x: the faces point inwards. -/
def mirrorFrustum : Option Frustum := plainFrustum.bind fun m =>
  m.setTransforms ((standardSsToWs 2).mul (M44.setScale ⟨-1, 1, 1⟩)) M44.one

/-- A mirrored frustum is missed by a ray through its middle. -/
theorem C69_frustum_mirrored : ∃ m r p, mirrorFrustum = some m ∧ m.zDist = some .perspective ∧
    intersectFrustum m r = some none ∧
    m.worldToLocalAt (r.at (3 / 2)) 0 = some p ∧ p.x = 1 / 2 ∧ p.y = 1 / 2 ∧ 0 < p.z ∧ p.z < 1 := by
  have h : ∃ m, mirrorFrustum = some m := Option.isSome_iff_exists.1 (by decide +kernel)
  obtain ⟨m, hm⟩ := h
  have hm' : m = mirrorFrustum.get (by decide +kernel) := by simp [hm]
  refine ⟨m, ⟨⟨0, 0, 0⟩, ⟨0, 0, -1⟩⟩, ⟨1 / 2, 1 / 2, 2 / 3⟩, hm, ?_⟩
  rw [hm']
  decide +kernel

/-! ## Bounds -/

/-- The matrix from local to object space of a mapping at time 0. -/
def lsToOs : AnyMap → Option M44
  | .matrix m => some m.lsToWs
  | .frustum m => if m.zDist = some .perspective then some (sampleM m.lpsToWsCurve 0) else none
  | .none => none

/-- The field lies in front of the planes its transforms map to infinity. -/
def InFront (f : Member) : Prop := ∃ L, lsToOs f.map = some L ∧ OneSide L unitBox ∧
  ∀ o w, f.osToWs = some (o, w) → OneSide (L.mul o) unitBox

theorem inFront_quot (f : Member) (h : InFront f) : ∃ g1 g2 g3, Quot unitBox g1 ∧ Quot unitBox g2 ∧ Quot unitBox g3 ∧
    ∀ p, unitBox.contains p = true → f.localToWorld p = some ⟨g1 p, g2 p, g3 p⟩ := by
  obtain ⟨L, hL, h1, h2⟩ := h
  have hm : ∀ p, (match f.map with
    | .matrix m => m.localToWorld p
    | .frustum m => m.localToWorldAt p 0
    | .none => Option.none) = L.multVec p := by
    intro p
    revert hL
    cases f.map with
    | matrix m => intro hL; injection hL with hL; rw [← hL]; rfl
    | frustum m =>
      simp only [lsToOs]
      split
      · rename_i hz
        intro hL
        injection hL with hL
        rw [← hL]
        simp only [Frustum.localToWorldAt, hz]
      · intro hL; simp at hL
    | none => intro hL; simp [lsToOs] at hL
  cases ho : f.osToWs with
  | none =>
    obtain ⟨g1, g2, g3, q1, q2, q3, hq⟩ := multVec_quot L unitBox h1
    refine ⟨g1, g2, g3, q1, q2, q3, fun p hp => ?_⟩
    unfold Member.localToWorld
    rw [ho]
    exact (hm p).trans (hq p hp)
  | some ow =>
    obtain ⟨o, w⟩ := ow
    obtain ⟨g1, g2, g3, q1, q2, q3, hq⟩ := multVec_quot (L.mul o) unitBox (h2 o w ho)
    obtain ⟨_, _, _, _, _, _, hq'⟩ := multVec_quot L unitBox h1
    refine ⟨g1, g2, g3, q1, q2, q3, fun p hp => ?_⟩
    unfold Member.localToWorld
    rw [ho]
    have := hq' p hp
    refine (congrArg (fun x => Option.bind x o.multVec) ((hm p).trans this)).trans ?_
    show o.multVec _ = _
    rw [M44.multVec_mul L o p _ this]
    exact hq p hp

theorem mem_boundsPoints (fs : List Member) (f : Member) (hf : f ∈ fs) (hm : InFront f) (v : V3q)
    (hv : v ∈ corners unitBox) : f.localToWorld v ∈ boundsPoints fs := by
  obtain ⟨L, hL, _⟩ := hm
  unfold boundsPoints
  rw [List.mem_flatMap]
  refine ⟨f, hf, ?_⟩
  have : ∀ v, f.map ≠ .none → v ∈ corners unitBox → f.localToWorld v ∈
      (match f.map with | .none => [] | _ => (corners unitBox).map f.localToWorld) := by
    intro v hne hv
    cases hmap : f.map with
    | none => exact absurd hmap hne
    | matrix m => exact List.mem_map_of_mem hv
    | frustum m => exact List.mem_map_of_mem hv
  exact this v (by intro e; rw [e] at hL; simp [lsToOs] at hL) hv

/-- C69: the world space bounds of a group contain every world point of the extents of every field of the group, and
are the smallest such bounds. -/
theorem C69_bounds (fs : List Member) (hne : fs ≠ []) (hfs : ∀ f ∈ fs, InFront f) :
    ∃ b, wsBounds fs = some b ∧
      (∀ f ∈ fs, ∀ p, unitBox.contains p = true → ∃ q, f.localToWorld p = some q ∧ b.contains q = true) ∧
      ∀ c : Box3q, (∀ f ∈ fs, ∀ p, unitBox.contains p = true → ∀ q, f.localToWorld p = some q →
        c.contains q = true) → ∀ q, b.contains q = true → c.contains q = true := by
  have hin : ∀ v ∈ corners unitBox, unitBox.contains v = true := by decide +kernel
  have hfrom : ∀ o ∈ boundsPoints fs, ∃ f ∈ fs, ∃ v ∈ corners unitBox, o = f.localToWorld v := by
    intro o ho
    unfold boundsPoints at ho
    rw [List.mem_flatMap] at ho
    obtain ⟨f, hf, ho⟩ := ho
    refine ⟨f, hf, ?_⟩
    split at ho
    · simp at ho
    · rw [List.mem_map] at ho
      obtain ⟨v, hv, rfl⟩ := ho
      exact ⟨v, hv, rfl⟩
  have hs : (wsBounds fs).isSome := by
    apply boundsOf_some
    · obtain ⟨f, hf⟩ := List.exists_mem_of_ne_nil fs hne
      exact List.ne_nil_of_mem (mem_boundsPoints fs f hf (hfs f hf) ⟨0, 0, 0⟩ (by decide +kernel))
    · intro o ho
      obtain ⟨f, hf, v, hv, rfl⟩ := hfrom o ho
      obtain ⟨_, _, _, _, _, _, hq⟩ := inFront_quot f (hfs f hf)
      rw [hq v (hin v hv)]; rfl
  obtain ⟨b, hb⟩ := Option.isSome_iff_exists.1 hs
  refine ⟨b, hb, ?_, ?_⟩
  · intro f hf p hp
    obtain ⟨g1, g2, g3, q1, q2, q3, hq⟩ := inFront_quot f (hfs f hf)
    obtain ⟨vb, q, e1, e2, e3⟩ := bounds_contain f.localToWorld unitBox g1 g2 g3 q1 q2 q3 hq p hp
    refine ⟨q, e2, boundsOf_least _ vb b e1 (fun o ho x hx => ?_) q e3⟩
    rw [List.mem_map] at ho
    obtain ⟨v, hv, rfl⟩ := ho
    obtain ⟨y, hy, hcy⟩ := boundsOf_spec _ _ hb _ (mem_boundsPoints fs f hf (hfs f hf) v hv)
    rw [hx] at hy
    injection hy with hy
    rw [hy]; exact hcy
  · intro c hc q hq
    refine boundsOf_least _ b c hb (fun o ho x hx => ?_) q hq
    obtain ⟨f, hf, v, hv, rfl⟩ := hfrom o ho
    exact hc f hf v (hin v hv) x hx

/-- A group of a moved and a scaled field. -/
example : wsBounds [⟨.matrix (Matrix.run Frame.default sampleCalls), none⟩,
    ⟨.matrix (Matrix.run Frame.default []), some (M44.setScale ⟨2, 2, 2⟩, M44.setScale ⟨1 / 2, 1 / 2, 1 / 2⟩)⟩] =
    some ⟨⟨0, 0, 0⟩, ⟨6, 2, 2⟩⟩ := by decide +kernel

/-- The intervals of a group are those of its fields, in order; fields that are missed, or have no mapping of a known
kind, give none. -/
theorem C69_intervals (fs : List Member) (r : Ray) (l : List Limits) (h : getIntersections fs r = some l) :
    ∃ os : List (Option Limits), os.length = fs.length ∧
      (∀ (i : Nat) f, fs[i]? = some f → ∃ o, f.interval r = some o ∧ os[i]? = some o) ∧ l = os.filterMap id := by
  unfold getIntersections at h
  rw [Option.map_eq_some_iff] at h
  obtain ⟨os, hos, rfl⟩ := h
  refine ⟨os, ?_, ?_, rfl⟩
  · revert os
    induction fs with
    | nil => intro os h; simp at h; simp [← h]
    | cons f fs ih =>
      intro os h
      rw [List.mapM_cons] at h
      simp only [Option.bind_eq_bind, Option.bind_eq_some_iff, Option.pure_def, Option.some.injEq] at h
      obtain ⟨o, _, os', h', rfl⟩ := h
      simp [ih os' h']
  · revert os
    induction fs with
    | nil => intro os _ i f hi; simp at hi
    | cons f fs ih =>
      intro os h
      rw [List.mapM_cons] at h
      simp only [Option.bind_eq_bind, Option.bind_eq_some_iff, Option.pure_def, Option.some.injEq] at h
      obtain ⟨o, ho, os', h', rfl⟩ := h
      intro i g hi
      cases i with
      | zero => simp at hi; subst hi; exact ⟨o, ho, by simp⟩
      | succ i => simp at hi; obtain ⟨o', e1, e2⟩ := ih os' h' i g hi; exact ⟨o', e1, by simpa using e2⟩

example : getIntersections [⟨.matrix (Matrix.run Frame.default []), none⟩, ⟨.none, none⟩,
    ⟨.matrix (Matrix.run Frame.default []), some (M44.setTranslation ⟨3, 0, 0⟩, M44.setTranslation ⟨-3, 0, 0⟩)⟩]
    ⟨⟨-1, 1 / 2, 1 / 2⟩, ⟨1, 0, 0⟩⟩ = some [(some 1, some 2), (some 4, some 5)] := by decide +kernel

end Props
end F3D
