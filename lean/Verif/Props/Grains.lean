import Mathlib.Tactic.Ring
import Mathlib.Tactic.ByContra
import Verif.Props.Dense
import Verif.Props.Machine

/-!
# Grains of dense fields: contiguous rows, and the counts of an empty field
-/

namespace F3D.Props
open F3D

/-- C15: `getGrainBounds` of a dense field always reports that the grain is contiguous in memory, and
that is so: the voxels of grain `idx` are the elements from `idx * n` on, where `n` is the length
of a row, in the order of their x coordinates. -/
theorem C15_dense_grain_contiguous {α : Type} (dflt : α) (e dw : Box3i) (f : Dense α)
    (hs : Dense.setSize dflt e dw = .ok f) (idx : Nat) (hidx : (idx : Int) < f.numGrains) :
    (∀ p, (f.getGrainBounds idx).contains p = true →
      f.index p = idx * (dw.max.x - dw.min.x + 1) + (p.x - dw.min.x)) ∧
    (∀ x, dw.min.x ≤ x → x ≤ dw.max.x →
      ∃ p, p.x = x ∧ (f.getGrainBounds idx).contains p = true) ∧
    (∀ p q, (f.getGrainBounds idx).contains p = true → (f.getGrainBounds idx).contains q = true →
      p.y = q.y ∧ p.z = q.z) := by
  have h : dw.isEmpty = false := by
    by_contra hc
    have hc' : dw.isEmpty = true := by simpa using hc
    unfold Dense.setSize at hs
    simp only at hs
    rw [if_pos] at hs
    · cases hs
    · simpa [Box3i.isEmpty, or_assoc] using hc'
  obtain ⟨g, hg, wf, hdw, -, -⟩ := Dense.setSize_ok (dflt := dflt) (e := e) h
  rw [hs] at hg
  cases hg
  subst hdw
  obtain ⟨h1, h2, h3, p1, p2, p3⟩ := f.dw.dims h
  have hsz := Dense.size_of_ne h
  have ry : (f.dw.size + V3i.all 1).y = f.dw.ny := by rw [hsz]; simp; omega
  have rz : (f.dw.size + V3i.all 1).z = f.dw.nz := by rw [hsz]; simp; omega
  have rx : (f.dw.size + V3i.all 1).x = f.dw.nx := by rw [hsz]; simp; omega
  have hn : f.numGrains = ((f.dw.ny * f.dw.nz : Nat) : Int) := by
    unfold Dense.numGrains; rw [ry, rz]; push_cast; rfl
  have hin : ∀ p, (f.getGrainBounds idx).contains p = true ↔
      f.dw.contains p = true ∧ p.y - f.dw.min.y = ((idx % f.dw.ny : Nat) : Int) ∧
      p.z - f.dw.min.z = ((idx / f.dw.ny : Nat) : Int) := by
    intro p
    unfold Dense.getGrainBounds
    simp only
    rw [C17_clip_is_intersection, ry, rx, ← Int.natCast_emod, ← Int.natCast_ediv]
    simp only [Box3i.contains_iff, V3i.add_x, V3i.add_y, V3i.add_z]
    generalize idx % f.dw.ny = a
    generalize idx / f.dw.ny = c
    omega
  have hlt : idx < f.dw.ny * f.dw.nz := by rw [hn] at hidx; exact_mod_cast hidx
  refine ⟨fun p hp => ?_, fun x hx1 hx2 => ?_, fun p q hp hq => ?_⟩
  · obtain ⟨-, e1, e2⟩ := (hin p).1 hp
    unfold Dense.index
    rw [wf.mx, wf.mxy, e1, e2]
    have hd := Nat.div_add_mod idx f.dw.ny
    have hx : (f.dw.max.x - f.dw.min.x + 1 : Int) = f.dw.nx := by omega
    rw [hx]
    have hd' : (idx : Int) = f.dw.ny * ((idx / f.dw.ny : Nat) : Int) + ((idx % f.dw.ny : Nat) : Int) := by
      exact_mod_cast hd.symm
    generalize ((idx / f.dw.ny : Nat) : Int) = a at *
    generalize ((idx % f.dw.ny : Nat) : Int) = b at *
    rw [hd']
    ring
  · have hy := Nat.mod_lt idx p2
    have hz := Nat.div_lt_of_lt_mul hlt
    refine ⟨⟨x, f.dw.min.y + (idx % f.dw.ny : Nat), f.dw.min.z + (idx / f.dw.ny : Nat)⟩, rfl, ?_⟩
    rw [hin]
    refine ⟨?_, ?_, ?_⟩
    · rw [Box3i.contains_iff]
      generalize idx % f.dw.ny = a at *
      generalize idx / f.dw.ny = b at *
      simp only
      omega
    · simp
    · simp
  · obtain ⟨-, a1, a2⟩ := (hin p).1 hp
    obtain ⟨-, b1, b2⟩ := (hin q).1 hq
    omega

example : ∃ f : Dense Nat,
    Dense.setSize 0 ⟨⟨0, 0, 0⟩, ⟨1, 1, 2⟩⟩ ⟨⟨-1, -1, 0⟩, ⟨1, 1, 2⟩⟩ = .ok f ∧ ((4 : Nat) : Int) < f.numGrains ∧
    (f.getGrainBounds 4).contains ⟨0, 0, 1⟩ = true ∧ f.index ⟨0, 0, 1⟩ = 4 * 3 + 1 :=
  ⟨_, rfl, by decide, by decide, by decide⟩

/-- C15: the counts of a field whose data window is empty, such as a new field: it reports one voxel
and one grain, though no voxel is in the window, and the one grain contains no voxel. -/
theorem C15_empty_counts {α : Type} (ov : Int → Option Int)
    (f : Dense α) (h : f.dw.isEmpty = true) :
    Machine.voxelCount ov f.dw = some 1 ∧ f.numGrains = 1 ∧
    (∀ p, f.dw.contains p = false) ∧ ∀ idx p, (f.getGrainBounds idx).contains p = false := by
  have hc : ∀ p, f.dw.contains p = false := by
    intro p
    by_contra hp
    rw [Bool.not_eq_false, Box3i.contains_iff] at hp
    simp only [Box3i.isEmpty, Bool.or_eq_true, decide_eq_true_eq] at h
    omega
  have hz : f.dw.size = V3i.all 0 := by unfold Box3i.size; rw [if_pos h]
  refine ⟨?_, ?_, hc, fun idx p => ?_⟩
  · unfold Machine.voxelCount Machine.sizePlus
    rw [if_pos h]
    rfl
  · unfold Dense.numGrains
    rw [hz]
    rfl
  · by_contra hp
    rw [Bool.not_eq_false] at hp
    unfold Dense.getGrainBounds at hp
    simp only at hp
    rw [C17_clip_is_intersection] at hp
    rw [hc p] at hp
    simp at hp

example : (⟨⟨⟨0, 0, 0⟩, ⟨3, 3, 3⟩⟩, ⟨⟨0, 0, 0⟩, ⟨3, -1, 3⟩⟩, 0, 0, []⟩ : Dense Nat).dw.isEmpty = true := by
  decide

end F3D.Props
