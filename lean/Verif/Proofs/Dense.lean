import Verif.Model.Dense
import Verif.Proofs.Iterate

namespace F3D.Dense
variable {α : Type}

/-- Representation invariant of a dense field. -/
structure WF (f : Dense α) : Prop where
  ne : f.dw.isEmpty = false
  mx : f.memX = f.dw.nx
  mxy : f.memXY = f.dw.nx * f.dw.ny
  len : f.data.length = f.dw.vol

theorem setSize_ok {dflt : α} {e dw : Box3i} (h : dw.isEmpty = false) :
    ∃ f, setSize dflt e dw = .ok f ∧ f.WF ∧ f.dw = dw ∧ f.extents = e ∧
      f.data = List.replicate dw.vol dflt := by
  have h' := Box3i.isEmpty_false.mp h
  obtain ⟨h1, h2, h3, p1, p2, p3⟩ := dw.dims h
  have e1 : (dw.max - dw.min + V3i.all 1).x = dw.nx := by simp; omega
  have e2 : (dw.max - dw.min + V3i.all 1).y = dw.ny := by simp; omega
  have e3 : (dw.max - dw.min + V3i.all 1).z = dw.nz := by simp; omega
  have ev : ((dw.nx : Int) * dw.ny * dw.nz).toNat = dw.vol := by
    rw [← Int.natCast_mul, ← Int.natCast_mul, Int.toNat_natCast]; rfl
  refine ⟨⟨e, dw, dw.nx, dw.nx * dw.ny, List.replicate dw.vol dflt⟩, ?_, ?_, rfl, rfl, rfl⟩
  · unfold setSize
    simp only
    rw [if_neg (by omega), e1, e2, e3, ev]
  · exact ⟨h, rfl, rfl, List.length_replicate⟩

theorem index_eq {f : Dense α} (wf : f.WF) {p : V3i} (hp : f.dw.contains p = true) :
    f.index p = (f.dw.indexOf p : Nat) := by
  rw [Box3i.contains_iff] at hp
  unfold index Box3i.indexOf Grid.enc
  rw [wf.mx, wf.mxy]
  push_cast
  rw [Int.toNat_of_nonneg (by omega), Int.toNat_of_nonneg (by omega), Int.toNat_of_nonneg (by omega)]

theorem value_eq {f : Dense α} (wf : f.WF) {p : V3i} (hp : f.dw.contains p = true) :
    f.value p = f.data[f.dw.indexOf p]? := by
  unfold value readAt
  rw [index_eq wf hp, if_pos (by omega), Int.toNat_natCast]

theorem value_isSome {f : Dense α} (wf : f.WF) {p : V3i} (hp : f.dw.contains p = true) :
    ∃ v, f.value p = some v := by
  rw [value_eq wf hp]
  have := Box3i.indexOf_lt wf.ne hp
  rw [← wf.len] at this
  exact ⟨_, List.getElem?_eq_getElem this⟩

theorem write_eq {f : Dense α} (wf : f.WF) {p : V3i} (hp : f.dw.contains p = true) (v : α) :
    f.write p v = some { f with data := f.data.set (f.dw.indexOf p) v } := by
  have := Box3i.indexOf_lt wf.ne hp
  rw [← wf.len] at this
  unfold write
  simp only [index_eq wf hp, Int.toNat_natCast]
  rw [if_pos ⟨by omega, this⟩]

theorem wf_write {f : Dense α} (wf : f.WF) (i : Nat) (v : α) :
    ({ f with data := f.data.set i v } : Dense α).WF :=
  ⟨wf.ne, wf.mx, wf.mxy, by simp [wf.len]⟩

theorem wf_clear {f : Dense α} (wf : f.WF) (v : α) : (f.clear v).WF :=
  ⟨wf.ne, wf.mx, wf.mxy, by simp [clear, wf.len]⟩

theorem value_write {f : Dense α} (wf : f.WF) {p q : V3i} (hp : f.dw.contains p = true)
    (hq : f.dw.contains q = true) (v : α) :
    ({ f with data := f.data.set (f.dw.indexOf p) v } : Dense α).value q =
      if q = p then some v else f.value q := by
  rw [value_eq (wf_write wf _ _) (by exact hq), value_eq wf hq]
  simp only
  by_cases h : q = p
  · subst h
    have := Box3i.indexOf_lt wf.ne hq
    rw [← wf.len] at this
    rw [if_pos rfl, List.getElem?_set_self this]
  · rw [if_neg h, List.getElem?_set_ne]
    intro e
    exact h (Box3i.indexOf_inj wf.ne hp hq e).symm

theorem value_clear {f : Dense α} (wf : f.WF) {q : V3i} (hq : f.dw.contains q = true) (v : α) :
    (f.clear v).value q = some v := by
  rw [value_eq (wf_clear wf v) (by exact hq)]
  have := Box3i.indexOf_lt wf.ne hq
  rw [← wf.len] at this
  simp [clear, this]

/-! Iteration -/

theorem iterEnd_ptr (f : Dense α) (w : Box3i) : (f.iterEnd w).ptr = none := by
  unfold iterEnd iterMake
  rw [if_neg]
  rw [Box3i.contains_iff]; simp only; omega

theorem iterAtEnd_iff (f : Dense α) (w : Box3i) (s : Iter) :
    f.iterAtEnd w s = true ↔ s.ptr = none := by
  simp [iterAtEnd, iterEnd_ptr]

theorem iter_visits {f : Dense α} (w : Box3i) (h : w.isEmpty = false) :
    Visits (f.iterNext w) (f.iterAtEnd w) (f.iterBegin w)
      (w.voxels.map (fun p => (⟨p, some (f.index p)⟩ : Iter))) := by
  have hmin : w.contains w.min = true := by
    rw [Box3i.isEmpty_false] at h; rw [Box3i.contains_iff]; omega
  have hb : f.iterBegin w = ⟨w.min, some (f.index w.min)⟩ := by
    simp [iterBegin, h, iterMake, hmin]
  rw [hb]
  refine visits_of_sim h (fun p => (⟨p, some (f.index p)⟩ : Iter)) ?_ ?_ ?_
  · intro p hp hne
    unfold iterNext F3D.iterNext
    simp only
    split
    · split
      · rename_i h1 h2
        rw [if_neg]
        intro h3
        exact hne (V3i.ext' h1 h2 h3)
      · rfl
    · simp only [Option.map_some, Iter.mk.injEq, true_and, Option.some.injEq]
      unfold index
      simp only
      omega
  · rw [iterAtEnd_iff]
    simp [iterNext]
  · intro p hp
    apply Bool.eq_false_iff.mpr
    rw [Ne, iterAtEnd_iff]
    simp

/-! Grains -/

theorem size_of_ne {b : Box3i} (h : b.isEmpty = false) : b.size = b.max - b.min := by
  simp [Box3i.size, h]

end F3D.Dense
