import Verif.Model.Mac
import Verif.Proofs.Dense

namespace F3D.Mac

/-- Representation invariant. -/
structure WF (f : Mac) : Prop where
  nonneg : 0 ≤ f.dw.res.x ∧ 0 ≤ f.dw.res.y ∧ 0 ≤ f.dw.res.z
  size : ∀ c, (f.comp c).size = (compWindow f.dw c).res
  xy : ∀ c, (f.comp c).sizeXY = (f.comp c).size.x * (f.comp c).size.y
  len : ∀ c, (f.comp c).data.length = ((f.comp c).size.x * (f.comp c).size.y * (f.comp c).size.z).toNat

theorem compWindow_min (dw : Box3i) (c : MacComp) : (compWindow dw c).min = dw.min := by
  cases c <;> rfl

/-- One component seen as a dense field on the component's window. -/
def asDense (f : Mac) (c : MacComp) : Dense Rat :=
  ⟨f.extents, compWindow f.dw c, (f.comp c).size.x, (f.comp c).sizeXY, (f.comp c).data⟩

theorem asDense_wf {f : Mac} (wf : f.WF) {c : MacComp} (h : (compWindow f.dw c).isEmpty = false) :
    (f.asDense c).WF := by
  obtain ⟨h1, h2, h3, p1, p2, p3⟩ := (compWindow f.dw c).dims h
  have hs := wf.size c
  have e1 : (f.comp c).size.x = (compWindow f.dw c).nx := by rw [hs, h1]; simp [Box3i.res]
  have e2 : (f.comp c).size.y = (compWindow f.dw c).ny := by rw [hs, h2]; simp [Box3i.res]
  have e3 : (f.comp c).size.z = (compWindow f.dw c).nz := by rw [hs, h3]; simp [Box3i.res]
  refine ⟨h, e1, ?_, ?_⟩
  · show (f.comp c).sizeXY = _
    rw [wf.xy, e1, e2]; rfl
  · show (f.comp c).data.length = _
    rw [wf.len, e1, e2, e3, ← Int.natCast_mul, ← Int.natCast_mul, Int.toNat_natCast]; rfl

theorem nonempty_of_contains {b : Box3i} {p : V3i} (h : b.contains p = true) : b.isEmpty = false := by
  rw [Box3i.contains_iff] at h; rw [Box3i.isEmpty_false]; omega

theorem index_dense (f : Mac) (c : MacComp) (p : V3i) : f.index c p = (f.asDense c).index p := by
  unfold index Dense.index asDense
  simp only [compWindow_min]

theorem readAt_dense (f : Mac) (c : MacComp) (i : Int) : f.readAt c i = (f.asDense c).readAt i := rfl

theorem face_dense (f : Mac) (c : MacComp) (p : V3i) : f.face c p = (f.asDense c).value p := by
  unfold face Dense.value
  rw [index_dense, readAt_dense]

theorem face_isSome {f : Mac} (wf : f.WF) {c : MacComp} {p : V3i}
    (hp : (compWindow f.dw c).contains p = true) : ∃ x, f.face c p = some x := by
  rw [face_dense]
  exact Dense.value_isSome (asDense_wf wf (nonempty_of_contains hp)) hp

theorem comp_setComp (f : Mac) (c c' : MacComp) (d : Comp) :
    (f.setComp c d).comp c' = if c' = c then d else f.comp c' := by
  cases c <;> cases c' <;> rfl

theorem setComp_dw (f : Mac) (c : MacComp) (d : Comp) : (f.setComp c d).dw = f.dw := by
  cases c <;> rfl

theorem setComp_ext (f : Mac) (c : MacComp) (d : Comp) : (f.setComp c d).extents = f.extents := by
  cases c <;> rfl

theorem write_spec {f : Mac} (wf : f.WF) {c : MacComp} {p : V3i}
    (hp : (compWindow f.dw c).contains p = true) (x : Rat) :
    ∃ g, f.write c p x = some g ∧ g.WF ∧ g.dw = f.dw ∧ g.extents = f.extents ∧
      ∀ c' q, (compWindow f.dw c').contains q = true →
        g.face c' q = if c' = c ∧ q = p then some x else f.face c' q := by
  have dwf := asDense_wf wf (nonempty_of_contains hp)
  have hi := Dense.index_eq dwf hp
  have hlt := Box3i.indexOf_lt (nonempty_of_contains hp) hp
  have hlen : (f.comp c).data.length = (compWindow f.dw c).vol := dwf.len
  have hi' : f.index c p = (((compWindow f.dw c).indexOf p : Nat) : Int) := by
    rw [index_dense]; exact hi
  refine ⟨f.setComp c { f.comp c with data := (f.comp c).data.set ((compWindow f.dw c).indexOf p) x },
    ?_, ?_, setComp_dw _ _ _, setComp_ext _ _ _, ?_⟩
  · unfold write
    simp only [hi', Int.toNat_natCast]
    rw [if_pos ⟨by omega, by omega⟩]
  · constructor
    · rw [setComp_dw]; exact wf.nonneg
    · intro c'
      rw [comp_setComp, setComp_dw]
      split
      · rename_i h; subst h; exact wf.size _
      · exact wf.size _
    · intro c'
      rw [comp_setComp]
      split
      · rename_i h; subst h; exact wf.xy _
      · exact wf.xy _
    · intro c'
      rw [comp_setComp]
      split
      · rename_i h; subst h; simp only [List.length_set]; exact wf.len _
      · exact wf.len _
  · intro c' q hq
    rw [face_dense, face_dense]
    have ha : ∀ d : Comp, (f.setComp c d).asDense c' =
        ⟨f.extents, compWindow f.dw c', (if c' = c then d else f.comp c').size.x,
          (if c' = c then d else f.comp c').sizeXY, (if c' = c then d else f.comp c').data⟩ := by
      intro d
      unfold asDense
      rw [comp_setComp, setComp_dw, setComp_ext]
    rw [ha]
    by_cases hc : c' = c
    · subst hc
      simp only [if_true, true_and]
      have := Dense.value_write dwf hp hq x
      exact this
    · simp only [hc, false_and]
      rfl

/-- The component of a vector that a clear gives to a face direction. -/
theorem clear_spec {f : Mac} (wf : f.WF) (val : V3q) :
    (f.clear val).WF ∧ (f.clear val).dw = f.dw ∧ (f.clear val).extents = f.extents ∧
      ∀ c q, (compWindow f.dw c).contains q = true → (f.clear val).face c q =
        some (match c with | .u => val.x | .v => val.y | .w => val.z) := by
  refine ⟨⟨wf.nonneg, ?_, ?_, ?_⟩, rfl, rfl, ?_⟩
  · intro c; have := wf.size c; cases c <;> exact this
  · intro c; have := wf.xy c; cases c <;> exact this
  · intro c; have := wf.len c; cases c <;> simpa [clear, comp] using this
  · intro c q hq
    have dwf := asDense_wf wf (nonempty_of_contains hq)
    rw [face_dense]
    cases c
    · exact Dense.value_clear dwf hq val.x
    · exact Dense.value_clear dwf hq val.y
    · exact Dense.value_clear dwf hq val.z

theorem length_resizeVec (l : List Rat) (n : Nat) : (resizeVec l n).length = n := by
  unfold resizeVec; simp; omega

theorem comp_resize (f : Mac) (e dw : Box3i) (c : MacComp) :
    (Mac.mk e dw (resizeComp f.cu (dw.max - dw.min + V3i.all 1 + ⟨1, 0, 0⟩))
              (resizeComp f.cv (dw.max - dw.min + V3i.all 1 + ⟨0, 1, 0⟩))
              (resizeComp f.cw (dw.max - dw.min + V3i.all 1 + ⟨0, 0, 1⟩))).comp c =
      resizeComp (f.comp c) (compWindow dw c).res := by
  cases c <;> simp only [comp] <;> congr 1 <;>
    apply V3i.ext' <;> simp [Box3i.res, compWindow] <;> omega

theorem setSize_spec (f : Mac) (e dw : Box3i)
    (h : 0 ≤ dw.res.x ∧ 0 ≤ dw.res.y ∧ 0 ≤ dw.res.z) :
    ∃ g, f.setSize e dw = some g ∧ g.WF ∧ g.dw = dw ∧ g.extents = e ∧
      ∀ c, (g.comp c) = resizeComp (f.comp c) (compWindow dw c).res := by
  refine ⟨Mac.mk e dw (resizeComp f.cu (dw.max - dw.min + V3i.all 1 + ⟨1, 0, 0⟩))
              (resizeComp f.cv (dw.max - dw.min + V3i.all 1 + ⟨0, 1, 0⟩))
              (resizeComp f.cw (dw.max - dw.min + V3i.all 1 + ⟨0, 0, 1⟩)), ?_, ?_, rfl, rfl,
              comp_resize f e dw⟩
  · unfold setSize
    simp only
    rw [if_neg]
    have : (dw.max - dw.min + V3i.all 1) = dw.res := rfl
    rw [this]
    omega
  · constructor
    · exact h
    · intro c; rw [comp_resize]; rfl
    · intro c; rw [comp_resize]; rfl
    · intro c; rw [comp_resize]; exact length_resizeVec _ _

theorem setSize_none (f : Mac) (e dw : Box3i)
    (h : ¬ (0 ≤ dw.res.x ∧ 0 ≤ dw.res.y ∧ 0 ≤ dw.res.z)) : f.setSize e dw = none := by
  unfold setSize
  simp only
  rw [if_pos]
  have : (dw.max - dw.min + V3i.all 1) = dw.res := rfl
  rw [this]
  omega

theorem setSize_wf {f g : Mac} {e dw : Box3i} (h : f.setSize e dw = some g) : g.WF ∧ g.dw = dw ∧
    g.extents = e := by
  by_cases hn : 0 ≤ dw.res.x ∧ 0 ≤ dw.res.y ∧ 0 ≤ dw.res.z
  · obtain ⟨g', h1, h2, h3, h4, _⟩ := setSize_spec f e dw hn
    rw [h] at h1
    cases h1
    exact ⟨h2, h3, h4⟩
  · rw [setSize_none f e dw hn] at h
    cases h

/-! Iteration -/

theorem iterEnd_ptr (f : Mac) (c : MacComp) (sub : Box3i) : (f.iterEnd c sub).ptr = none := by
  unfold iterEnd iterMake
  simp only
  rw [if_neg]
  rw [Box3i.contains_iff]; simp only; omega

theorem iterAtEnd_iff (f : Mac) (c : MacComp) (sub : Box3i) (s : Iter) :
    f.iterAtEnd c sub s = true ↔ s.ptr = none := by
  simp [iterAtEnd, iterEnd_ptr]

theorem iter_visits (f : Mac) (c : MacComp) (sub : Box3i) (h : (compWindow sub c).isEmpty = false) :
    Visits (f.iterNext c (compWindow sub c)) (f.iterAtEnd c sub)
      (f.iterMake c (compWindow sub c) (compWindow sub c).min)
      ((compWindow sub c).voxels.map (fun p => (⟨p, some (f.index c p)⟩ : Iter))) := by
  have hmin : (compWindow sub c).contains (compWindow sub c).min = true := by
    rw [Box3i.isEmpty_false] at h; rw [Box3i.contains_iff]; omega
  have hb : f.iterMake c (compWindow sub c) (compWindow sub c).min =
      ⟨(compWindow sub c).min, some (f.index c (compWindow sub c).min)⟩ := by
    simp [iterMake, hmin]
  rw [hb]
  refine visits_of_sim h (fun p => (⟨p, some (f.index c p)⟩ : Iter)) ?_ ?_ ?_
  · intro p hp hne
    unfold iterNext F3D.iterNext
    simp only
    split
    · split
      · rename_i h1 h2
        rw [if_neg]
        intro h3
        exact hne (V3i.ext' h1 h2 h3)
      · rfl
    · simp only [Option.map_some, Iter.mk.injEq, true_and, Option.some.injEq]
      unfold index
      simp only
      omega
  · rw [iterAtEnd_iff]
    simp [iterNext]
  · intro p hp
    apply Bool.eq_false_iff.mpr
    rw [Ne, iterAtEnd_iff]
    simp

theorem compWindow_nonempty {sub : Box3i} (h : sub.isEmpty = false) (c : MacComp) :
    (compWindow sub c).isEmpty = false := by
  rw [Box3i.isEmpty_false] at *
  cases c <;> simp [compWindow] <;> omega

end F3D.Mac
