import Verif.Model.Identical
import Verif.Props.Mapping
import Verif.Props.MappingIO

/-!
# C71: comparing mappings
-/

namespace F3D
namespace Props
open Mapping Identical
open Curve (build addSample Sorted build_spec)

/-! ## Mappings that programs can make -/

/-- Calls that change a frustum mapping. -/
inductive FrustumOp where
  | transforms (t : Rat) (ss cs : M44)
  | extents (e : Box3i)
  | dist (d : ZDist)
  | reset

def frustumStep (k : Rat) (m : Frustum) : FrustumOp → Option Frustum
  | .transforms t ss cs => m.setTransformsAt t ss cs
  | .extents e => m.setExtents e
  | .dist d => some (m.setZDistribution d)
  | .reset => m.reset k

/-- The mappings of the library after any calls: `k` is the cotangent used by the default frustum. -/
inductive Made (k : Rat) : Map → Prop
  | null : Made k .null
  | matrix (f : Frame) (ops : List Mapping.Op) : Made k (.matrix (Matrix.run f ops))
  | frustum (m0 m : Frustum) (ops : List FrustumOp) (h0 : Frustum.new k = some m0)
      (h : ops.foldlM (frustumStep k) m0 = some m) : Made k (.frustum m)

/-! ## Samples -/

theorem times_replace {T U : Type} (t : Rat) (v : T) (w : U) : ∀ (c : Curve T) (d : Curve U), c.map (·.1) = d.map (·.1) →
    (Curve.replace t v c).map (fun c => c.map (·.1)) = (Curve.replace t w d).map (fun c => c.map (·.1))
  | [], [], _ => rfl
  | [], _ :: _, h => by simp at h
  | _ :: _, [], h => by simp at h
  | s :: c, s' :: d, h => by
    simp only [List.map_cons, List.cons.injEq] at h
    have ih := times_replace t v w c d h.2
    simp only [Curve.replace, h.1]
    by_cases e : s'.1 = t
    · simp [e, h.2]
    · simp only [if_neg e, Option.map_map]
      cases h1 : Curve.replace t v c <;> cases h2 : Curve.replace t w d <;> rw [h1, h2] at ih <;> simp_all

theorem times_insert {T U : Type} (t : Rat) (v : T) (w : U) : ∀ (c : Curve T) (d : Curve U), c.map (·.1) = d.map (·.1) →
    (Curve.insert t v c).map (·.1) = (Curve.insert t w d).map (·.1)
  | [], [], _ => rfl
  | [], _ :: _, h => by simp at h
  | _ :: _, [], h => by simp at h
  | s :: c, s' :: d, h => by
    simp only [List.map_cons, List.cons.injEq] at h
    have ih := times_insert t v w c d h.2
    simp only [Curve.insert, h.1]
    split <;> simp [h.1, h.2, ih]

theorem times_add {T U : Type} (t : Rat) (v : T) (w : U) (c : Curve T) (d : Curve U) (h : c.map (·.1) = d.map (·.1)) :
    (addSample c t v).map (·.1) = (addSample d t w).map (·.1) := by
  have h1 := times_replace t v w c d h
  have h2 := times_insert t v w c d h
  unfold addSample
  cases e1 : Curve.replace t v c <;> cases e2 : Curve.replace t w d <;> rw [e1, e2] at h1 <;> simp_all

/-- What comparing needs: the distribution is set, and camera samples are at the times of the other ones. -/
def FrustumOk (m : Frustum) : Prop := m.zDist.isSome = true ∧ m.lpsToWsCurve.map (·.1) = m.csToWsCurve.map (·.1)

theorem frustumOk_transforms {m m' : Frustum} {t : Rat} {ss cs : M44} (h : FrustumOk m)
    (e : m.setTransformsAt t ss cs = some m') : FrustumOk m' := by
  obtain ⟨d, hd, -, hz, -, -, hl, hc, -⟩ := setTransformsAt_fields _ _ _ _ _ e
  refine ⟨by rw [hz]; exact h.1, ?_⟩
  rw [hl, hc]
  apply times_add
  cases d
  · exact h.2
  · rfl

theorem frustumOk_reset {m m' : Frustum} {k : Rat} (h : m.zDist.isSome = true) (e : m.reset k = some m') : FrustumOk m' := by
  unfold Frustum.reset at e
  simp only [Option.bind_eq_bind, Option.bind_eq_some_iff] at e
  obtain ⟨m1, h1, h2⟩ := e
  have h3 : FrustumOk m1 := frustumOk_transforms (m := m.clearCurves) ⟨h, rfl⟩ h1
  rw [computeVoxelSize_fields _ _ h2]
  exact h3

theorem frustumOk_step {k : Rat} {m m' : Frustum} (o : FrustumOp) (h : FrustumOk m) (e : frustumStep k m o = some m') :
    FrustumOk m' := by
  cases o with
  | transforms t ss cs => exact frustumOk_transforms h e
  | extents b =>
    rw [computeVoxelSize_fields _ _ (show Frustum.computeVoxelSize _ = some m' from e)]
    exact h
  | dist d => cases (Option.some.inj e); exact ⟨rfl, h.2⟩
  | reset => exact frustumOk_reset h.1 e

theorem frustumOk_run {k : Rat} : ∀ (ops : List FrustumOp) (m m' : Frustum), FrustumOk m →
    ops.foldlM (frustumStep k) m = some m' → FrustumOk m'
  | [], m, m', h, e => by simp at e; exact e ▸ h
  | o :: ops, m, m', h, e => by
    rw [List.foldlM_cons] at e
    obtain ⟨m1, h1, h2⟩ := Option.bind_eq_some_iff.1 e
    exact frustumOk_run ops m1 m' (frustumOk_step o h h1) h2

theorem matrix_vs (f : Frame) (ops : List Mapping.Op) : (Matrix.run f ops).vsToWsCurve =
    (Matrix.run f ops).lsToWsCurve.map fun s => (s.1, (Matrix.run f ops).frame.localToVoxelMatrix.inverse.mul s.2) := by
  obtain ⟨h1, h2, h3⟩ := run_spec f ops
  have hs : Sorted (Matrix.run f ops).lsToWsCurve := by rw [h2]; exact (build_spec _).1
  have e : (Matrix.run f ops).vsToWsCurve = (Matrix.run f ops).update.vsToWsCurve := by rw [h3]
  rw [e]
  exact fold_map (fun x => (Matrix.run f ops).frame.localToVoxelMatrix.inverse.mul x) _ hs

/-! ## One pair of curves -/

/-- The samples agree: same times, and matrices that pass the comparison. -/
def Agree (R : Reals) (tol : Rat) (a b a' b' : Curve M44) : Prop :=
  List.Forall₂ (fun x y : Rat × M44 => x.1 = y.1 ∧ sameMatrix R tol x.2 y.2 = true) a b ∧
  List.Forall₂ (fun x y : Rat × M44 => sameMatrix R tol x.2 y.2 = true) a' b'

theorem sameSamples_spec (R : Reals) (tol : Rat) : ∀ (a b a' b' : Curve M44), a.length = b.length → a'.length = a.length →
    b'.length = a.length → ∃ r, sameSamples R tol a b a' b' = some r ∧ (r = true ↔ Agree R tol a b a' b')
  | [], [], [], [], _, _, _ => ⟨true, rfl, by simp [Agree]⟩
  | [], _ :: _, _, _, h, _, _ => by simp at h
  | [], [], _ :: _, _, _, h, _ => by simp at h
  | [], [], [], _ :: _, _, _, h => by simp at h
  | _ :: _, [], _, _, h, _, _ => by simp at h
  | _ :: _, _ :: _, [], _, _, h, _ => by simp at h
  | _ :: _, _ :: _, _ :: _, [], _, _, h => by simp at h
  | x :: a, y :: b, x' :: a', y' :: b', h, h', h'' => by
    obtain ⟨r, hr, e⟩ := sameSamples_spec R tol a b a' b' (by simpa using h) (by simpa using h') (by simpa using h'')
    have H : Agree R tol (x :: a) (y :: b) (x' :: a') (y' :: b') ↔ (x.1 = y.1 ∧ sameMatrix R tol x.2 y.2 = true) ∧
        sameMatrix R tol x'.2 y'.2 = true ∧ Agree R tol a b a' b' := by
      unfold Agree
      rw [List.forall₂_cons, List.forall₂_cons]
      tauto
    rw [H]
    unfold sameSamples
    by_cases e1 : x.1 = y.1
    · simp only [e1, ne_eq, not_true_eq_false, if_false, true_and]
      by_cases e2 : sameMatrix R tol x.2 y.2 = true
      · simp only [e2, if_true, true_and]
        by_cases e3 : sameMatrix R tol x'.2 y'.2 = true
        · simp only [e3, if_true, true_and]
          exact ⟨r, hr, e⟩
        · simp only [e3]
          exact ⟨false, by simp, by simp⟩
      · simp only [e2]
        exact ⟨false, by simp, by simp⟩
    · simp only [ne_eq, e1, not_false_eq_true, if_true]
      exact ⟨false, rfl, by simp⟩

/-- What the comparison of two mappings means. -/
def Identical (R : Reals) (tol : Rat) : Map → Map → Prop
  | .null, .null => True
  | .matrix a, .matrix b => Agree R tol a.lsToWsCurve b.lsToWsCurve a.vsToWsCurve b.vsToWsCurve
  | .frustum a, .frustum b => a.zDist = b.zDist ∧ Agree R tol a.lpsToWsCurve b.lpsToWsCurve a.csToWsCurve b.csToWsCurve
  | _, _ => False

theorem isIdentical_spec (R : Reals) (tol k : Rat) (a b : Map) (ha : Made k a) (hb : Made k b) :
    ∃ r, isIdentical R tol a b = some r ∧ (r = true ↔ Identical R tol a b) := by
  have key : ∀ c c' d d' : Curve M44, c'.length = c.length → d'.length = d.length →
      ∃ r, (if c.length ≠ d.length then some false else sameSamples R tol c d c' d') = some r ∧
        (r = true ↔ Agree R tol c d c' d') := by
    intro c c' d d' h1 h2
    by_cases e : c.length = d.length
    · rw [if_neg (by simp [e])]
      exact sameSamples_spec R tol c d c' d' e h1 (by rw [h2, e])
    · rw [if_pos e]
      refine ⟨false, rfl, by simp; intro h; exact e h.1.length_eq⟩
  cases ha with
  | null => cases hb with
    | null => exact ⟨true, rfl, by simp [Identical]⟩
    | matrix => exact ⟨false, rfl, by simp [Identical]⟩
    | frustum => exact ⟨false, rfl, by simp [Identical]⟩
  | matrix f ops => cases hb with
    | null => exact ⟨false, rfl, by simp [Identical]⟩
    | matrix f' ops' =>
      exact key _ _ _ _ (by rw [matrix_vs]; simp) (by rw [matrix_vs]; simp)
    | frustum => exact ⟨false, rfl, by simp [Identical]⟩
  | frustum m0 m ops h0 h => cases hb with
    | null => exact ⟨false, rfl, by simp [Identical]⟩
    | matrix => exact ⟨false, rfl, by simp [Identical]⟩
    | frustum n0 n ops' g0 g =>
      have hm : FrustumOk m := frustumOk_run ops m0 m (frustumOk_reset (m := ⟨_, _, _, _, _, _, _, _, _⟩) rfl h0) h
      have hn : FrustumOk n := frustumOk_run ops' n0 n (frustumOk_reset (m := ⟨_, _, _, _, _, _, _, _, _⟩) rfl g0) g
      obtain ⟨d, hd⟩ := Option.isSome_iff_exists.1 hm.1
      obtain ⟨d', hd'⟩ := Option.isSome_iff_exists.1 hn.1
      have l1 := congrArg List.length hm.2
      have l2 := congrArg List.length hn.2
      simp only [List.length_map] at l1 l2
      obtain ⟨r, hr, e⟩ := key m.lpsToWsCurve m.csToWsCurve n.lpsToWsCurve n.csToWsCurve l1.symm l2.symm
      unfold isIdentical sameFrustumMapping Identical
      simp only [hd, hd']
      by_cases ed : d = d'
      · simp only [ed, ne_eq, not_true_eq_false, if_false, true_and]
        exact ⟨r, by simpa using hr, e⟩
      · simp only [ne_eq, ed, not_false_eq_true, if_true]
        exact ⟨false, rfl, by simp [ed]⟩

/-- **C71, defined.** Comparing two mappings of the library, after any calls, is always defined. -/
theorem C71_defined (R : Reals) (tol k : Rat) (a b : Map) (ha : Made k a) (hb : Made k b) :
    (isIdentical R tol a b).isSome = true := by
  obtain ⟨r, h, -⟩ := isIdentical_spec R tol k a b ha hb
  rw [h]; rfl

/-! ## One pair of matrices -/

/-- The numbers the comparison looks at if the entries differ: scale, rotation and translation, not the shear. -/
def SameParts (R : Reals) (a b : M44) : Prop :=
  ∃ x y, extractSHRT R a = some x ∧ extractSHRT R b = some y ∧ x.scale = y.scale ∧ x.rot = y.rot ∧ x.trans = y.trans

theorem relEq_zero (a b : Rat) : relEq 0 a b = true ↔ a = b := by
  unfold relEq
  rw [decide_eq_true_eq, zero_mul]
  constructor
  · intro h
    split at h <;> linarith
  · rintro rfl; simp

theorem absEq_zero (a b : Rat) : absEq 0 a b = true ↔ a = b := by
  unfold absEq
  rw [decide_eq_true_eq]
  constructor
  · intro h
    split at h <;> linarith
  · rintro rfl; simp

theorem relEq_refl {tol : Rat} (h : 0 ≤ tol) (a : Rat) : relEq tol a a = true := by
  unfold relEq absQ
  rw [decide_eq_true_eq]
  simp only [lt_self_iff_false, if_false, sub_self]
  split
  · exact mul_nonneg h (by linarith)
  · exact mul_nonneg h (by linarith)

theorem relEq3_zero (a b : V3q) : relEq3 0 a b = true ↔ a = b := by
  simp only [relEq3, Bool.and_eq_true, relEq_zero]
  constructor
  · rintro ⟨⟨h1, h2⟩, h3⟩; exact V3q.ext' h1 h2 h3
  · rintro rfl; simp

theorem absEq3_zero (a b : V3q) : absEq3 0 a b = true ↔ a = b := by
  simp only [absEq3, Bool.and_eq_true, absEq_zero]
  constructor
  · rintro ⟨⟨h1, h2⟩, h3⟩; exact V3q.ext' h1 h2 h3
  · rintro rfl; simp

theorem relEq4_zero (a b : V4q) : relEq4 0 a b = true ↔ a = b := by
  simp only [relEq4, Bool.and_eq_true, relEq_zero]
  constructor
  · rintro ⟨⟨⟨h1, h2⟩, h3⟩, h4⟩; exact V4q.ext' h1 h2 h3 h4
  · rintro rfl; simp

theorem relEqM_zero (a b : M44) : relEqM 0 a b = true ↔ a = b := by
  simp only [relEqM, Bool.and_eq_true, relEq4_zero]
  constructor
  · rintro ⟨⟨⟨h1, h2⟩, h3⟩, h4⟩; cases a; cases b; simp_all
  · rintro rfl; simp

theorem relEqM_refl {tol : Rat} (h : 0 ≤ tol) (a : M44) : relEqM tol a a = true := by
  simp [relEqM, relEq4, relEq_refl h]

theorem sameMatrix_zero (R : Reals) (a b : M44) : sameMatrix R 0 a b = true ↔ a = b ∨ SameParts R a b := by
  unfold sameMatrix SameParts
  rw [Bool.or_eq_true, relEqM_zero]
  apply or_congr_right
  cases h1 : extractSHRT R a <;> cases h2 : extractSHRT R b <;> simp [relEq3_zero, absEq3_zero, and_assoc]

theorem sameMatrix_refl (R : Reals) {tol : Rat} (h : 0 ≤ tol) (a : M44) : sameMatrix R tol a a = true := by
  simp [sameMatrix, relEqM_refl h]

theorem sameMatrix_symm (R : Reals) (a b : M44) (h : sameMatrix R 0 a b = true) : sameMatrix R 0 b a = true := by
  rw [sameMatrix_zero] at h ⊢
  rcases h with rfl | ⟨x, y, h1, h2, e1, e2, e3⟩
  · exact .inl rfl
  · exact .inr ⟨y, x, h2, h1, e1.symm, e2.symm, e3.symm⟩

theorem sameMatrix_trans (R : Reals) (a b c : M44) (h : sameMatrix R 0 a b = true) (h' : sameMatrix R 0 b c = true) :
    sameMatrix R 0 a c = true := by
  rw [sameMatrix_zero] at h h' ⊢
  rcases h with rfl | ⟨x, y, h1, h2, e1, e2, e3⟩
  · exact h'
  · rcases h' with rfl | ⟨y', z, h1', h2', e1', e2', e3'⟩
    · exact .inr ⟨x, y, h1, h2, e1, e2, e3⟩
    · rw [h2] at h1'
      cases h1'
      exact .inr ⟨x, z, h1, h2', e1.trans e1', e2.trans e2', e3.trans e3'⟩

/-! ## Equivalence -/

theorem forall₂_trans' {α : Type} {P : α → α → Prop} (hP : ∀ a b c, P a b → P b c → P a c) :
    ∀ {a b c : List α}, List.Forall₂ P a b → List.Forall₂ P b c → List.Forall₂ P a c
  | _, _, _, .nil, .nil => .nil
  | _, _, _, .cons h hs, .cons h' hs' => .cons (hP _ _ _ h h') (forall₂_trans' hP hs hs')

/-- **C71, equivalence.** Without tolerance the comparison of mappings is an equivalence relation on all the mappings a
program can make; every mapping is identical to itself with any tolerance. -/
theorem C71_equivalence (R : Reals) (k : Rat) :
    (∀ tol a, 0 ≤ tol → Made k a → isIdentical R tol a a = some true) ∧
    (∀ a b, Made k a → Made k b → isIdentical R 0 a b = some true → isIdentical R 0 b a = some true) ∧
    ∀ a b c, Made k a → Made k b → Made k c → isIdentical R 0 a b = some true → isIdentical R 0 b c = some true →
      isIdentical R 0 a c = some true := by
  have conv : ∀ tol a b, Made k a → Made k b → (isIdentical R tol a b = some true ↔ Identical R tol a b) := by
    intro tol a b ha hb
    obtain ⟨r, h, e⟩ := isIdentical_spec R tol k a b ha hb
    rw [h, ← e]; simp
  refine ⟨?_, ?_, ?_⟩
  · intro tol a ht ha
    rw [conv tol a a ha ha]
    have hA : ∀ c d : Curve M44, Agree R tol c c d d := fun c d =>
      ⟨List.forall₂_same.2 fun x _ => ⟨rfl, sameMatrix_refl R ht _⟩, List.forall₂_same.2 fun x _ => sameMatrix_refl R ht _⟩
    cases a with
    | null => trivial
    | matrix m => exact hA _ _
    | frustum m => exact ⟨rfl, hA _ _⟩
  · intro a b ha hb
    rw [conv 0 a b ha hb, conv 0 b a hb ha]
    have hA : ∀ {c d c' d' : Curve M44}, Agree R 0 c d c' d' → Agree R 0 d c d' c' := fun h =>
      ⟨h.1.flip.imp fun x y hxy => ⟨hxy.1.symm, sameMatrix_symm R _ _ hxy.2⟩,
       h.2.flip.imp fun x y hxy => sameMatrix_symm R _ _ hxy⟩
    intro h
    cases a <;> cases b <;> try exact h
    · exact hA h
    · exact ⟨h.1.symm, hA h.2⟩
  · intro a b c ha hb hc
    rw [conv 0 a b ha hb, conv 0 b c hb hc, conv 0 a c ha hc]
    have hA : ∀ {c d e c' d' e' : Curve M44}, Agree R 0 c d c' d' → Agree R 0 d e d' e' → Agree R 0 c e c' e' := fun h h' =>
      ⟨forall₂_trans' (P := fun x y : Rat × M44 => x.1 = y.1 ∧ sameMatrix R 0 x.2 y.2 = true)
        (fun _ _ _ p q => ⟨p.1.trans q.1, sameMatrix_trans R _ _ _ p.2 q.2⟩) h.1 h'.1,
       forall₂_trans' (P := fun x y : Rat × M44 => sameMatrix R 0 x.2 y.2 = true)
        (fun x y z p q => sameMatrix_trans R x.2 y.2 z.2 p q) h.2 h'.2⟩
    intro h h'
    cases a <;> cases b <;> simp only [Identical] at h <;> cases c <;> simp only [Identical] at h' ⊢
    · exact hA h h'
    · exact ⟨h.1.trans h'.1, hA h.2 h'.2⟩

/-! ## What identical mappings have in common -/

/-- **C71, transforms.** Two matrix mappings that are identical have the same samples and place every point of local
space at the same spot at every time, as long as no matrix of one differs from that of the other at the same time by its
shear (or last column) alone; with the same extents the same holds for voxels. Mappings with the same samples and extents
are identical. -/
theorem C71_identical_transforms (R : Reals) (f f' : Frame) (ops ops' : List Mapping.Op) :
    (isIdentical R 0 (.matrix (Matrix.run f ops)) (.matrix (Matrix.run f' ops')) = some true →
      (∀ x ∈ (Matrix.run f ops).lsToWsCurve, ∀ y ∈ (Matrix.run f' ops').lsToWsCurve, x.1 = y.1 → SameParts R x.2 y.2 →
        x.2 = y.2) →
      SameMatrix (Matrix.run f ops) (Matrix.run f' ops') ∧
      (frameOf f ops = frameOf f' ops' → ∀ p t,
        (Matrix.run f ops).voxelToWorldAt p t = (Matrix.run f' ops').voxelToWorldAt p t ∧
        (Matrix.run f ops).worldToVoxelAt p t = (Matrix.run f' ops').worldToVoxelAt p t)) ∧
    ((Matrix.run f ops).lsToWsCurve = (Matrix.run f' ops').lsToWsCurve → frameOf f ops = frameOf f' ops' →
      isIdentical R 0 (.matrix (Matrix.run f ops)) (.matrix (Matrix.run f' ops')) = some true) := by
  obtain ⟨h1, h2, h3⟩ := run_spec f ops
  obtain ⟨g1, g2, g3⟩ := run_spec f' ops'
  have same : (Matrix.run f ops).lsToWsCurve = (Matrix.run f' ops').lsToWsCurve → frameOf f ops = frameOf f' ops' →
      Matrix.run f ops = Matrix.run f' ops' := by
    intro e1 e2
    rw [← h3, ← g3]
    unfold Matrix.update
    rw [e1, h1, g1, e2]
  refine ⟨fun h hs => ?_, fun e1 e2 => ?_⟩
  · obtain ⟨r, hr, e⟩ := isIdentical_spec R 0 0 _ _ (Made.matrix f ops) (Made.matrix f' ops')
    rw [hr] at h
    have hA := (e.1 (Option.some.inj h)).1
    have hc : (Matrix.run f ops).lsToWsCurve = (Matrix.run f' ops').lsToWsCurve := by
      generalize (Matrix.run f ops).lsToWsCurve = c at *
      generalize (Matrix.run f' ops').lsToWsCurve = d at *
      clear hr e h h1 h2 h3 g1 g2 g3 same
      induction hA with
      | nil => rfl
      | @cons x y c d hxy _ ih =>
        rw [ih fun x' hx' y' hy' => hs x' (by simp [hx']) y' (by simp [hy'])]
        congr 1
        refine Prod.ext hxy.1 ?_
        rcases (sameMatrix_zero R _ _).1 hxy.2 with h | h
        · exact h
        · exact hs x (by simp) y (by simp) hxy.1 h
    refine ⟨sameMatrix_of_curve _ _ h3 g3 hc.symm, fun e2 p t => ?_⟩
    rw [same hc e2]
    exact ⟨rfl, rfl⟩
  · rw [same e1 e2]
    exact (C71_equivalence R 0).1 0 _ (le_refl 0) (Made.matrix f' ops')

/-! ## What they need not have in common -/

/-- The square root is exact on squares. -/
def ExactRoots (R : Reals) : Prop := ∀ x : Rat, 0 ≤ x → R.sqrt (x * x) = x

theorem absQ_nonneg (x : Rat) : 0 ≤ absQ x := by unfold absQ; split <;> linarith

theorem absQ_of_nonneg {x : Rat} (h : 0 ≤ x) : absQ x = x := by
  unfold absQ
  split
  · rfl
  · linarith

theorem doubleMax_gt : 1 < doubleMax := by
  unfold doubleMax
  have h : (1 : Rat) ≤ 2 ^ 971 := one_le_pow₀ (by norm_num)
  generalize (2 : Rat) ^ 971 = x at h
  norm_num
  linarith

seal doubleMax

theorem rowOk_of {k : Rat} (hk : 0 < k) (a : V3q) (h1 : absQ a.x ≤ k) (h2 : absQ a.y ≤ k) (h3 : absQ a.z ≤ k) :
    rowOk k a = true := by
  have hd : k < doubleMax * absQ k := by
    rw [absQ_of_nonneg hk.le]
    nlinarith [doubleMax_gt]
  unfold rowOk
  have e1 : decide (doubleMax * absQ k ≤ absQ a.x) = false := decide_eq_false (by linarith)
  have e2 : decide (doubleMax * absQ k ≤ absQ a.y) = false := decide_eq_false (by linarith)
  have e3 : decide (doubleMax * absQ k ≤ absQ a.z) = false := decide_eq_false (by linarith)
  rw [e1, e2, e3]; simp

theorem foldl_max (l : List Rat) (m : Rat) : m ≤ l.foldl (fun m x => if m < absQ x then absQ x else m) m ∧
    ∀ x ∈ l, absQ x ≤ l.foldl (fun m x => if m < absQ x then absQ x else m) m := by
  induction l generalizing m with
  | nil => simp
  | cons a l ih =>
    rw [List.foldl_cons]
    obtain ⟨h1, h2⟩ := ih (if m < absQ a then absQ a else m)
    have h3 : m ≤ (if m < absQ a then absQ a else m) ∧ absQ a ≤ (if m < absQ a then absQ a else m) := by
      split
      · exact ⟨by linarith, by linarith⟩
      · exact ⟨by linarith, by linarith⟩
    refine ⟨by linarith [h3.1], fun x hx => ?_⟩
    rcases List.mem_cons.1 hx with rfl | hx
    · linarith [h3.2]
    · exact h2 x hx

theorem maxEntry_ge (a b c : V3q) : ∀ x ∈ [a.x, a.y, a.z, b.x, b.y, b.z, c.x, c.y, c.z], absQ x ≤ maxEntry a b c := by
  intro x hx
  unfold maxEntry
  exact (foldl_max _ 0).2 x hx

theorem orthonormalise_sheared (R : Reals) (hR : ExactRoots R) (k p q r h : Rat) (hp : 0 < p) (hq : 0 < q) (hr : 0 < r)
    (t : V3q) : ∃ sh, orthonormalise R k ⟨p, 0, 0⟩ ⟨h, q, 0⟩ ⟨0, 0, r⟩ t =
      some ⟨times k ⟨p, q, r⟩, sh, R.angles ⟨1, 0, 0⟩ ⟨0, 1, 0⟩ ⟨0, 0, 1⟩, t⟩ := by
  have e0 : absQ 0 = 0 := absQ_of_nonneg le_rfl
  have l1 : length R ⟨p, 0, 0⟩ = p := by
    unfold length dot
    simp only [mul_zero, add_zero]
    exact hR _ hp.le
  have n1 : quot ⟨p, 0, 0⟩ p = ⟨1, 0, 0⟩ := by
    unfold quot; simp only [zero_div, div_self hp.ne']
  have b1 : minus ⟨h, q, 0⟩ (times (dot ⟨1, 0, 0⟩ ⟨h, q, 0⟩) ⟨1, 0, 0⟩) = ⟨0, q, 0⟩ := by
    unfold minus times dot
    simp only [mul_zero, mul_one, one_mul, zero_mul, add_zero, sub_self, sub_zero]
  have l2 : length R ⟨0, q, 0⟩ = q := by
    unfold length dot
    simp only [mul_zero, add_zero, zero_add]
    exact hR _ hq.le
  have n2 : quot ⟨0, q, 0⟩ q = ⟨0, 1, 0⟩ := by
    unfold quot; simp only [zero_div, div_self hq.ne']
  have c1 : minus ⟨0, 0, r⟩ (times (dot ⟨1, 0, 0⟩ ⟨0, 0, r⟩) ⟨1, 0, 0⟩) = ⟨0, 0, r⟩ := by
    unfold minus times dot
    simp only [mul_zero, mul_one, zero_mul, add_zero, sub_zero]
  have c2 : minus ⟨0, 0, r⟩ (times (dot ⟨0, 1, 0⟩ ⟨0, 0, r⟩) ⟨0, 1, 0⟩) = ⟨0, 0, r⟩ := by
    unfold minus times dot
    simp only [mul_zero, mul_one, zero_mul, add_zero, sub_zero]
  have l3 : length R ⟨0, 0, r⟩ = r := by
    unfold length dot
    simp only [mul_zero, zero_add]
    exact hR _ hr.le
  have n3 : quot ⟨0, 0, r⟩ r = ⟨0, 0, 1⟩ := by
    unfold quot; simp only [zero_div, div_self hr.ne']
  have hd : ¬ dot ⟨1, 0, 0⟩ (cross ⟨0, 1, 0⟩ ⟨0, 0, 1⟩) < 0 := by
    unfold dot cross; norm_num
  have o1 := rowOk_of hp ⟨p, 0, 0⟩ (absQ_of_nonneg hp.le).le (e0.le.trans hp.le) (e0.le.trans hp.le)
  have o2 := rowOk_of hq ⟨0, q, 0⟩ (e0.le.trans hq.le) (absQ_of_nonneg hq.le).le (e0.le.trans hq.le)
  have o3 := rowOk_of hr ⟨0, 0, r⟩ (e0.le.trans hr.le) (e0.le.trans hr.le) (absQ_of_nonneg hr.le).le
  unfold orthonormalise
  simp only [l1, o1, n1, b1, l2, o2, n2, c1, c2, l3, o3, n3, if_neg hd, if_true]
  exact ⟨_, rfl⟩

/-- The parts of a matrix with a shear `h` of the second axis. -/
theorem extract_sheared (R : Reals) (hR : ExactRoots R) (p q r h : Rat) (hp : 0 < p) (hq : 0 < q) (hr : 0 < r) (t : V3q)
    (w : V4q) (d : Rat) :
    ∃ sh, extractSHRT R ⟨⟨p, 0, 0, w.x⟩, ⟨h, q, 0, w.y⟩, ⟨0, 0, r, w.z⟩, ⟨t.x, t.y, t.z, d⟩⟩ =
      some ⟨⟨p, q, r⟩, sh, R.angles ⟨1, 0, 0⟩ ⟨0, 1, 0⟩ ⟨0, 0, 1⟩, t⟩ := by
  have hmax := maxEntry_ge ⟨p, 0, 0⟩ ⟨h, q, 0⟩ ⟨0, 0, r⟩
  unfold extractSHRT
  simp only
  generalize maxEntry ⟨p, 0, 0⟩ ⟨h, q, 0⟩ ⟨0, 0, r⟩ = k at hmax
  simp only [List.mem_cons, List.not_mem_nil, or_false, forall_eq_or_imp, forall_eq] at hmax
  obtain ⟨hp', h0, -, hh', hq', -, -, -, hr'⟩ := hmax
  have hpk : p ≤ k := by rw [absQ_of_nonneg hp.le] at hp'; exact hp'
  have hkp : 0 < k := by linarith
  rw [if_neg hkp.ne', rowOk_of hkp ⟨p, 0, 0⟩ hp' h0 h0, rowOk_of hkp ⟨h, q, 0⟩ hh' hq' h0,
    rowOk_of hkp ⟨0, 0, r⟩ h0 h0 hr']
  simp only [Bool.and_self, if_true]
  obtain ⟨sh, e⟩ := orthonormalise_sheared R hR k (p / k) (q / k) (r / k) (h / k) (div_pos hp hkp) (div_pos hq hkp)
    (div_pos hr hkp) t
  refine ⟨sh, ?_⟩
  have e1 : quot ⟨p, 0, 0⟩ k = ⟨p / k, 0, 0⟩ := by unfold quot; simp only [zero_div]
  have e2 : quot ⟨h, q, 0⟩ k = ⟨h / k, q / k, 0⟩ := by unfold quot; simp only [zero_div]
  have e3 : quot ⟨0, 0, r⟩ k = ⟨0, 0, r / k⟩ := by unfold quot; simp only [zero_div]
  have e4 : times k ⟨p / k, q / k, r / k⟩ = ⟨p, q, r⟩ := by
    unfold times
    simp only [mul_div_cancel₀ _ hkp.ne']
  rw [e1, e2, e3, e, e4]

/-- A translation after a shear of the second axis. -/
def shearBy (h : Rat) (t : V3q) : M44 := ⟨⟨1, 0, 0, 0⟩, ⟨h, 1, 0, 0⟩, ⟨0, 0, 1, 0⟩, ⟨t.x, t.y, t.z, 1⟩⟩

/-- The mapping with frame `f` whose local to world transform is `shearBy h t`. -/
def shearMap (f : Frame) (h : Rat) (t : V3q) : Matrix := Matrix.run f [.setLocalToWorld (shearBy h t)]

theorem frame_inverse (f : Frame) (hf : f.Ok) : f.localToVoxelMatrix.inverse =
    ⟨⟨1 / f.res.x, 0, 0, 0⟩, ⟨0, 1 / f.res.y, 0, 0⟩, ⟨0, 0, 1 / f.res.z, 0⟩,
      ⟨-f.origin.x / f.res.x, -f.origin.y / f.res.y, -f.origin.z / f.res.z, 1⟩⟩ := by
  obtain ⟨hx, hy, hz⟩ := hf
  have hx' := hx.ne'
  have hy' := hy.ne'
  have hz' := hz.ne'
  unfold M44.inverse
  rw [if_neg (Frame.matrix_det_ne f ⟨hx, hy, hz⟩), Frame.matrix_det]
  simp only [Frame.localToVoxelMatrix, M44.scale, M44.adj, M44.mul, M44.rowMul, M44.setScale, M44.setTranslation,
    M44.det3, M44.rowScale, M44.mk.injEq, V4q.mk.injEq]
  refine ⟨⟨?_, ?_, ?_, ?_⟩, ⟨?_, ?_, ?_, ?_⟩, ⟨?_, ?_, ?_, ?_⟩, ⟨?_, ?_, ?_, ?_⟩⟩ <;> field_simp <;> ring

theorem shearMap_curves (f : Frame) (hf : f.Ok) (h : Rat) (t : V3q) :
    (shearMap f h t).lsToWsCurve = [(0, shearBy h t)] ∧
    (shearMap f h t).vsToWsCurve = [(0, ⟨⟨1 / f.res.x, 0, 0, 0⟩, ⟨h / f.res.y, 1 / f.res.y, 0, 0⟩, ⟨0, 0, 1 / f.res.z, 0⟩,
      ⟨t.x - f.origin.x / f.res.x - f.origin.y / f.res.y * h, t.y - f.origin.y / f.res.y, t.z - f.origin.z / f.res.z, 1⟩⟩)] := by
  obtain ⟨h1, h2, h3⟩ := run_spec f [.setLocalToWorld (shearBy h t)]
  have e1 : (shearMap f h t).lsToWsCurve = [(0, shearBy h t)] := by
    rw [shearMap, h2]; rfl
  refine ⟨e1, ?_⟩
  have e2 := matrix_vs f [.setLocalToWorld (shearBy h t)]
  rw [h1] at e2
  have e3 : frameOf f [.setLocalToWorld (shearBy h t)] = f := rfl
  rw [e3, frame_inverse f hf] at e2
  unfold shearMap at e1 ⊢
  rw [e2, e1]
  simp only [List.map_cons, List.map_nil, shearBy, M44.mul, M44.rowMul, List.cons.injEq, Prod.mk.injEq, M44.mk.injEq,
    V4q.mk.injEq, and_true, true_and]
  refine ⟨⟨?_, ?_, ?_, ?_⟩, ⟨?_, ?_, ?_, ?_⟩, ⟨?_, ?_, ?_, ?_⟩, ⟨?_, ?_, ?_, ?_⟩⟩ <;> ring

theorem absEq_refl {tol : Rat} (ht : 0 ≤ tol) (a : Rat) : absEq tol a a = true := by
  unfold absEq; simp [ht]

theorem same_sheared (R : Reals) (hR : ExactRoots R) (tol : Rat) (ht : 0 ≤ tol) (p q r h h' : Rat) (hp : 0 < p) (hq : 0 < q)
    (hr : 0 < r) (t : V3q) : sameMatrix R tol ⟨⟨p, 0, 0, 0⟩, ⟨h, q, 0, 0⟩, ⟨0, 0, r, 0⟩, ⟨t.x, t.y, t.z, 1⟩⟩
      ⟨⟨p, 0, 0, 0⟩, ⟨h', q, 0, 0⟩, ⟨0, 0, r, 0⟩, ⟨t.x, t.y, t.z, 1⟩⟩ = true := by
  obtain ⟨s1, e1⟩ := extract_sheared R hR p q r h hp hq hr t ⟨0, 0, 0, 0⟩ 1
  obtain ⟨s2, e2⟩ := extract_sheared R hR p q r h' hp hq hr t ⟨0, 0, 0, 0⟩ 1
  unfold sameMatrix
  simp only at e1 e2
  rw [e1, e2]
  simp [relEq3, absEq3, relEq_refl ht, absEq_refl ht]

/-- **C71, shear.** The comparison of matrix mappings does not see shears: for fields whose extents begin at zero,
mappings that differ in nothing but a shear are identical whatever the tolerance, although they place points at different
spots. -/
theorem C71_shear_ignored (R : Reals) (hR : ExactRoots R) (tol : Rat) (ht : 0 ≤ tol) (f : Frame) (hf : f.Ok)
    (h0 : f.origin.y = 0) (h h' : Rat) (hne : h ≠ h') (t : V3q) :
    isIdentical R tol (.matrix (shearMap f h t)) (.matrix (shearMap f h' t)) = some true ∧
    ∀ time, (shearMap f h t).localToWorldAt ⟨0, 1, 0⟩ time ≠ (shearMap f h' t).localToWorldAt ⟨0, 1, 0⟩ time := by
  refine ⟨?_, fun time => ?_⟩
  · obtain ⟨r, hr, e⟩ := isIdentical_spec R tol 0 (.matrix (shearMap f h t)) (.matrix (shearMap f h' t))
      (Made.matrix f _) (Made.matrix f _)
    rw [hr, e.2]
    obtain ⟨a1, a2⟩ := shearMap_curves f hf h t
    obtain ⟨b1, b2⟩ := shearMap_curves f hf h' t
    simp only [Identical, Agree, a1, a2, b1, b2, h0, List.forall₂_cons, List.Forall₂.nil, and_true, true_and, zero_div, zero_mul,
      sub_zero]
    obtain ⟨hx, hy, hz⟩ := hf
    refine ⟨same_sheared R hR tol ht 1 1 1 h h' one_pos one_pos one_pos t, ?_⟩
    exact same_sheared R hR tol ht (1 / f.res.x) (1 / f.res.y) (1 / f.res.z) (h / f.res.y) (h' / f.res.y) (one_div_pos.2 hx)
      (one_div_pos.2 hy) (one_div_pos.2 hz) ⟨t.x - f.origin.x / f.res.x, t.y, t.z - f.origin.z / f.res.z⟩
  · have key : ∀ h, (shearMap f h t).localToWorldAt ⟨0, 1, 0⟩ time = some ⟨h + t.x, 1 + t.y, t.z⟩ := by
      intro h
      obtain ⟨-, -, h3⟩ := run_spec f [.setLocalToWorld (shearBy h t)]
      obtain ⟨a1, -⟩ := shearMap_curves f hf h t
      have e1 : (shearMap f h t).isTimeVarying = false := by
        have : (shearMap f h t).isTimeVarying = (shearMap f h t).update.isTimeVarying := by rw [shearMap, h3]
        rw [this]; simp [Matrix.update, a1]
      have e2 : (shearMap f h t).lsToWs = shearBy h t := by
        have : (shearMap f h t).lsToWs = (shearMap f h t).update.lsToWs := by rw [shearMap, h3]
        rw [this]; simp [Matrix.update, a1, sampleM, Curve.linear, Curve.linearFrom]
      unfold Matrix.localToWorldAt
      rw [e1, e2]
      simp [M44.multVec, M44.rowMul, shearBy]
    rw [key, key]
    intro e
    simp at e
    exact hne e

theorem absQ_neg {x : Rat} (h : 0 < x) : absQ (-x) = x := by
  unfold absQ
  rw [if_neg (by linarith)]; ring

theorem orthonormalise_mirrored (R : Reals) (hR : ExactRoots R) (k p q r : Rat) (hp : 0 < p) (hq : 0 < q) (hr : 0 < r)
    (t : V3q) : ∃ sh, orthonormalise R k ⟨-p, 0, 0⟩ ⟨0, -q, 0⟩ ⟨0, 0, -r⟩ t =
      some ⟨times (-k) ⟨p, q, r⟩, sh, R.angles ⟨1, 0, 0⟩ ⟨0, 1, 0⟩ ⟨0, 0, 1⟩, t⟩ := by
  have e0 : absQ 0 = 0 := absQ_of_nonneg le_rfl
  have l1 : length R ⟨-p, 0, 0⟩ = p := by
    unfold length dot
    simp only [mul_zero, add_zero, neg_mul_neg]
    exact hR _ hp.le
  have n1 : quot ⟨-p, 0, 0⟩ p = ⟨-1, 0, 0⟩ := by
    unfold quot; simp only [zero_div, neg_div, div_self hp.ne']
  have b1 : minus ⟨0, -q, 0⟩ (times (dot ⟨-1, 0, 0⟩ ⟨0, -q, 0⟩) ⟨-1, 0, 0⟩) = ⟨0, -q, 0⟩ := by
    unfold minus times dot
    simp only [mul_zero, zero_mul, add_zero, sub_zero]
  have l2 : length R ⟨0, -q, 0⟩ = q := by
    unfold length dot
    simp only [mul_zero, add_zero, zero_add, neg_mul_neg]
    exact hR _ hq.le
  have n2 : quot ⟨0, -q, 0⟩ q = ⟨0, -1, 0⟩ := by
    unfold quot; simp only [zero_div, neg_div, div_self hq.ne']
  have c1 : minus ⟨0, 0, -r⟩ (times (dot ⟨-1, 0, 0⟩ ⟨0, 0, -r⟩) ⟨-1, 0, 0⟩) = ⟨0, 0, -r⟩ := by
    unfold minus times dot
    simp only [mul_zero, zero_mul, add_zero, sub_zero]
  have c2 : minus ⟨0, 0, -r⟩ (times (dot ⟨0, -1, 0⟩ ⟨0, 0, -r⟩) ⟨0, -1, 0⟩) = ⟨0, 0, -r⟩ := by
    unfold minus times dot
    simp only [mul_zero, zero_mul, add_zero, sub_zero]
  have l3 : length R ⟨0, 0, -r⟩ = r := by
    unfold length dot
    simp only [mul_zero, zero_add, neg_mul_neg]
    exact hR _ hr.le
  have n3 : quot ⟨0, 0, -r⟩ r = ⟨0, 0, -1⟩ := by
    unfold quot; simp only [zero_div, neg_div, div_self hr.ne']
  have hd : dot ⟨-1, 0, 0⟩ (cross ⟨0, -1, 0⟩ ⟨0, 0, -1⟩) < 0 := by
    unfold dot cross; norm_num
  have o1 := rowOk_of hp ⟨-p, 0, 0⟩ (absQ_neg hp).le (e0.le.trans hp.le) (e0.le.trans hp.le)
  have o2 := rowOk_of hq ⟨0, -q, 0⟩ (e0.le.trans hq.le) (absQ_neg hq).le (e0.le.trans hq.le)
  have o3 := rowOk_of hr ⟨0, 0, -r⟩ (e0.le.trans hr.le) (e0.le.trans hr.le) (absQ_neg hr).le
  have m1 : times (-1) ⟨-1, 0, 0⟩ = ⟨1, 0, 0⟩ := by unfold times; norm_num
  have m2 : times (-1) ⟨0, -1, 0⟩ = ⟨0, 1, 0⟩ := by unfold times; norm_num
  have m3 : times (-1) ⟨0, 0, -1⟩ = ⟨0, 0, 1⟩ := by unfold times; norm_num
  unfold orthonormalise
  simp only [l1, o1, n1, b1, l2, o2, n2, c1, c2, l3, o3, n3, if_pos hd, if_true, m1, m2, m3]
  exact ⟨_, rfl⟩

theorem extract_mirrored (R : Reals) (hR : ExactRoots R) (p q r : Rat) (hp : 0 < p) (hq : 0 < q) (hr : 0 < r) (t : V3q) :
    ∃ sh, extractSHRT R ⟨⟨-p, 0, 0, 0⟩, ⟨0, -q, 0, 0⟩, ⟨0, 0, -r, 0⟩, ⟨t.x, t.y, t.z, 1⟩⟩ =
      some ⟨⟨-p, -q, -r⟩, sh, R.angles ⟨1, 0, 0⟩ ⟨0, 1, 0⟩ ⟨0, 0, 1⟩, t⟩ := by
  have hmax := maxEntry_ge ⟨-p, 0, 0⟩ ⟨0, -q, 0⟩ ⟨0, 0, -r⟩
  unfold extractSHRT
  simp only
  generalize maxEntry ⟨-p, 0, 0⟩ ⟨0, -q, 0⟩ ⟨0, 0, -r⟩ = k at hmax
  simp only [List.mem_cons, List.not_mem_nil, or_false, forall_eq_or_imp, forall_eq] at hmax
  obtain ⟨hp', h0, -, -, hq', -, -, -, hr'⟩ := hmax
  have hpk : p ≤ k := by rw [absQ_neg hp] at hp'; exact hp'
  have hkp : 0 < k := by linarith
  rw [if_neg hkp.ne', rowOk_of hkp ⟨-p, 0, 0⟩ hp' h0 h0, rowOk_of hkp ⟨0, -q, 0⟩ h0 hq' h0,
    rowOk_of hkp ⟨0, 0, -r⟩ h0 h0 hr']
  simp only [Bool.and_self, if_true]
  obtain ⟨sh, e⟩ := orthonormalise_mirrored R hR k (p / k) (q / k) (r / k) (div_pos hp hkp) (div_pos hq hkp)
    (div_pos hr hkp) t
  refine ⟨sh, ?_⟩
  have e1 : quot ⟨-p, 0, 0⟩ k = ⟨-(p / k), 0, 0⟩ := by unfold quot; simp only [zero_div, neg_div]
  have e2 : quot ⟨0, -q, 0⟩ k = ⟨0, -(q / k), 0⟩ := by unfold quot; simp only [zero_div, neg_div]
  have e3 : quot ⟨0, 0, -r⟩ k = ⟨0, 0, -(r / k)⟩ := by unfold quot; simp only [zero_div, neg_div]
  have e4 : times (-k) ⟨p / k, q / k, r / k⟩ = ⟨-p, -q, -r⟩ := by
    unfold times
    simp only [neg_mul, mul_div_cancel₀ _ hkp.ne']
  rw [e1, e2, e3, e, e4]

/-- A scale followed by a translation. -/
def scaleBy (s t : V3q) : M44 := ⟨⟨s.x, 0, 0, 0⟩, ⟨0, s.y, 0, 0⟩, ⟨0, 0, s.z, 0⟩, ⟨t.x, t.y, t.z, 1⟩⟩

/-- **C71, mirrors.** Mirroring is not ignored: a field scaled by positive factors and the same field mirrored along all
three axes are not identical, in either order, whatever the tolerance below 2. -/
theorem C71_mirror_seen (R : Reals) (hR : ExactRoots R) (tol : Rat) (ht : tol < 2) (f f' : Frame) (s t : V3q)
    (h : 0 < s.x ∧ 0 < s.y ∧ 0 < s.z) :
    isIdentical R tol (.matrix (Matrix.run f [.setLocalToWorld (scaleBy s t)]))
      (.matrix (Matrix.run f' [.setLocalToWorld (scaleBy ⟨-s.x, -s.y, -s.z⟩ t)])) = some false ∧
    isIdentical R tol (.matrix (Matrix.run f' [.setLocalToWorld (scaleBy ⟨-s.x, -s.y, -s.z⟩ t)]))
      (.matrix (Matrix.run f [.setLocalToWorld (scaleBy s t)])) = some false := by
  obtain ⟨hx, hy, hz⟩ := h
  obtain ⟨s1, e1⟩ := extract_sheared R hR s.x s.y s.z 0 hx hy hz t ⟨0, 0, 0, 0⟩ 1
  obtain ⟨s2, e2⟩ := extract_mirrored R hR s.x s.y s.z hx hy hz t
  simp only at e1
  have r1 : relEq tol s.x (-s.x) = false := by
    unfold relEq
    rw [absQ_of_nonneg hx.le, if_pos (by linarith)]
    exact decide_eq_false (by nlinarith)
  have r2 : relEq tol (-s.x) s.x = false := by
    unfold relEq
    rw [absQ_neg hx, if_neg (by linarith)]
    exact decide_eq_false (by nlinarith)
  have n1 : sameMatrix R tol (scaleBy s t) (scaleBy ⟨-s.x, -s.y, -s.z⟩ t) = false := by
    unfold sameMatrix scaleBy
    simp only [e1, e2]
    simp [relEqM, relEq4, relEq3, r1]
  have n2 : sameMatrix R tol (scaleBy ⟨-s.x, -s.y, -s.z⟩ t) (scaleBy s t) = false := by
    unfold sameMatrix scaleBy
    simp only [e1, e2]
    simp [relEqM, relEq4, relEq3, r2]
  have key : ∀ (g g' : Frame) (x y : M44), sameMatrix R tol x y = false →
      isIdentical R tol (.matrix (Matrix.run g [.setLocalToWorld x])) (.matrix (Matrix.run g' [.setLocalToWorld y])) = some false := by
    intro g g' x y hxy
    obtain ⟨r, hr, e⟩ := isIdentical_spec R tol 0 (.matrix (Matrix.run g [.setLocalToWorld x]))
      (.matrix (Matrix.run g' [.setLocalToWorld y])) (Made.matrix _ _) (Made.matrix _ _)
    rw [hr]
    cases r with
    | false => rfl
    | true =>
      have := (e.1 rfl).1
      rw [(run_spec g _).2.1, (run_spec g' _).2.1] at this
      have := List.forall₂_cons.1 (show List.Forall₂ _ [((0 : Rat), x)] [((0 : Rat), y)] from this)
      have := this.1.2
      simp only at this
      rw [hxy] at this; cases this
  exact ⟨key f f' _ _ n1, key f' f _ _ n2⟩

/-- **C71, tolerance.** With a tolerance between 0 and 1 the comparison is neither symmetric nor transitive: the relative
error is taken against the mapping whose method is called. -/
theorem C71_tolerance_not_symmetric_nor_transitive (R : Reals) (hR : ExactRoots R) (tol : Rat) (h0 : 0 < tol) (h1 : tol < 1) :
    (∃ a b, Made 0 a ∧ Made 0 b ∧ isIdentical R tol a b = some true ∧ isIdentical R tol b a = some false) ∧
    (∃ a b c, Made 0 a ∧ Made 0 b ∧ Made 0 c ∧ isIdentical R tol a b = some true ∧ isIdentical R tol b c = some true ∧
      isIdentical R tol a c = some false) := by
  have key : ∀ x y : Rat, isIdentical R tol (.matrix (shearMap Frame.default 0 ⟨x, 0, 0⟩))
      (.matrix (shearMap Frame.default 0 ⟨y, 0, 0⟩)) = some (relEq tol x y) := by
    intro x y
    obtain ⟨r, hr, e⟩ := isIdentical_spec R tol 0 (.matrix (shearMap Frame.default 0 ⟨x, 0, 0⟩))
      (.matrix (shearMap Frame.default 0 ⟨y, 0, 0⟩)) (Made.matrix _ _) (Made.matrix _ _)
    rw [hr]
    congr 1
    rw [Bool.eq_iff_iff, e]
    obtain ⟨a1, a2⟩ := shearMap_curves Frame.default default_ok 0 ⟨x, 0, 0⟩
    obtain ⟨b1, b2⟩ := shearMap_curves Frame.default default_ok 0 ⟨y, 0, 0⟩
    have hs : sameMatrix R tol (shearBy 0 ⟨x, 0, 0⟩) (shearBy 0 ⟨y, 0, 0⟩) = relEq tol x y := by
      obtain ⟨s1, e1⟩ := extract_sheared R hR 1 1 1 0 one_pos one_pos one_pos ⟨x, 0, 0⟩ ⟨0, 0, 0, 0⟩ 1
      obtain ⟨s2, e2⟩ := extract_sheared R hR 1 1 1 0 one_pos one_pos one_pos ⟨y, 0, 0⟩ ⟨0, 0, 0, 0⟩ 1
      unfold sameMatrix shearBy
      simp only at e1 e2 ⊢
      rw [e1, e2]
      simp [relEqM, relEq4, relEq3, absEq3, relEq_refl h0.le, absEq_refl h0.le]
    have hv : ∀ x : Rat, (⟨⟨1 / Frame.default.res.x, 0, 0, 0⟩, ⟨0 / Frame.default.res.y, 1 / Frame.default.res.y, 0, 0⟩,
        ⟨0, 0, 1 / Frame.default.res.z, 0⟩, ⟨x - Frame.default.origin.x / Frame.default.res.x -
          Frame.default.origin.y / Frame.default.res.y * 0, 0 - Frame.default.origin.y / Frame.default.res.y,
          0 - Frame.default.origin.z / Frame.default.res.z, 1⟩⟩ : M44) = shearBy 0 ⟨x, 0, 0⟩ := by
      intro x
      simp [Frame.default, shearBy]
    simp only [Identical, Agree, a1, a2, b1, b2, List.forall₂_cons, List.Forall₂.nil, and_true, true_and, hv, hs, and_self]
  refine ⟨⟨.matrix (shearMap Frame.default 0 ⟨1, 0, 0⟩), .matrix (shearMap Frame.default 0 ⟨1 - tol, 0, 0⟩),
    Made.matrix _ _, Made.matrix _ _, ?_, ?_⟩,
    ⟨.matrix (shearMap Frame.default 0 ⟨1, 0, 0⟩), .matrix (shearMap Frame.default 0 ⟨1 + tol, 0, 0⟩),
      .matrix (shearMap Frame.default 0 ⟨(1 + tol) * (1 + tol), 0, 0⟩), Made.matrix _ _, Made.matrix _ _, Made.matrix _ _,
      ?_, ?_, ?_⟩⟩
  · rw [key]; congr 1; unfold relEq absQ
    rw [if_pos (by linarith), if_pos one_pos]; exact decide_eq_true (by linarith)
  · rw [key]; congr 1; unfold relEq absQ
    rw [if_neg (by linarith), if_pos (by linarith)]; exact decide_eq_false (by nlinarith)
  · rw [key]; congr 1; unfold relEq absQ
    rw [if_neg (by linarith), if_pos one_pos]; exact decide_eq_true (by linarith)
  · rw [key]; congr 1; unfold relEq absQ
    rw [if_neg (by nlinarith), if_pos (by linarith)]; exact decide_eq_true (by nlinarith)
  · rw [key]; congr 1; unfold relEq absQ
    rw [if_neg (by nlinarith), if_pos one_pos]; exact decide_eq_false (by nlinarith)

/-! ## A concrete case -/

/-- Square roots that are exact on squares of rational numbers. -/
def someReals : Reals := ⟨fun x => (Nat.sqrt x.num.toNat : Rat) / (Nat.sqrt x.den : Rat), fun a b c => ⟨a.y, b.z, c.x⟩⟩

theorem someReals_exact : ExactRoots someReals := by
  intro x hx
  have h1 : (x * x).num = x.num * x.num := Rat.mul_self_num x
  have h2 : (x * x).den = x.den * x.den := Rat.mul_self_den x
  have h3 : 0 ≤ x.num := Rat.num_nonneg.2 hx
  simp only [someReals, h1, h2, Nat.sqrt_eq]
  rw [Int.toNat_mul h3 h3, Nat.sqrt_eq]
  have h4 : ((x.num.toNat : Nat) : Rat) = (x.num : Rat) := by
    have : ((x.num.toNat : Int) : Rat) = (x.num : Rat) := by rw [Int.toNat_of_nonneg h3]
    exact_mod_cast this
  rw [h4]
  exact Rat.num_div_den x

example : isIdentical someReals 0 (.matrix (shearMap (Frame.ofExtents ⟨⟨0, 0, 0⟩, ⟨9, 9, 9⟩⟩) 0 ⟨5, 0, 0⟩))
    (.matrix (shearMap (Frame.ofExtents ⟨⟨0, 0, 0⟩, ⟨9, 9, 9⟩⟩) 3 ⟨5, 0, 0⟩)) = some true :=
  (C71_shear_ignored someReals someReals_exact 0 (le_refl 0) _ (ofExtents_ok _ (by unfold Proper; decide)) (by decide +kernel)
    0 3 (by decide +kernel) _).1

/-- Different translations are told apart. -/
example : isIdentical someReals 0 (.matrix (shearMap Frame.default 0 ⟨5, 0, 0⟩))
    (.matrix (shearMap Frame.default 0 ⟨6, 0, 0⟩)) = some false := by decide +kernel

example : isIdentical someReals 1 (.matrix (Matrix.run Frame.default [.setLocalToWorld (scaleBy ⟨2, 3, 4⟩ ⟨1, 0, 0⟩)]))
    (.matrix (Matrix.run Frame.default [.setLocalToWorld (scaleBy ⟨-2, -3, -4⟩ ⟨1, 0, 0⟩)])) = some false :=
  (C71_mirror_seen someReals someReals_exact 1 (by norm_num) Frame.default Frame.default ⟨2, 3, 4⟩ ⟨1, 0, 0⟩ (by norm_num)).1

end Props
end F3D
