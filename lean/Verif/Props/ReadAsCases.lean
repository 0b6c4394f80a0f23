import Verif.Props.ReadAs
import Verif.Props.Hdf5MappingCases
import Verif.Props.FileMappings

/-!
# C91: cases
-/

namespace F3D.Props
open ReadAs Copy Mapping
open _root_.F3D.Hdf5 Og Ogawa FieldIO
open _root_.F3D.Identical (Reals)

/-- Layers "a" in partitions of the name "p": dense and sparse with one matrix mapping, sparse with a null mapping. -/
noncomputable def convertCalls : List (Hdf5.Call (FileMap 2)) :=
  [.write (mappedLayer [112] [97] (.matrix matrixSample) (.dense sampleDense)), .global sampleMeta,
   .write (mappedLayer [112] [97] .null (.sparse rowField)), .write (mappedLayer [112] [97] (.matrix matrixSample) (.sparse rowField))]

theorem convert_mem (w : Hdf5.Write (FileMap 2)) (h : .write w ∈ convertCalls) : ∃ m : FileMap 2, (m = .null ∨ m = .matrix matrixSample) ∧
    (w = mappedLayer [112] [97] m (.dense sampleDense) ∨ w = mappedLayer [112] [97] m (.sparse rowField)) := by
  simp only [convertCalls, List.mem_cons, List.not_mem_nil, or_false, Hdf5.Call.write.injEq, reduceCtorEq, false_or] at h
  rcases h with rfl | rfl | rfl
  · exact ⟨_, .inr rfl, .inl rfl⟩
  · exact ⟨_, .inl rfl, .inr rfl⟩
  · exact ⟨_, .inr rfl, .inr rfl⟩

theorem mapped_held (m : FileMap 2) (h : m = .null ∨ m = .matrix matrixSample) : m.Held := by
  rcases h with rfl | rfl <;> trivial

theorem mappedField_eq (p l : Name) (m : FileMap 2) :
    mappedField (mappedLayer p l m (.dense sampleDense)) = .dense sampleDense ∧
      mappedField (mappedLayer p l m (.sparse rowField)) = .sparse rowField :=
  ⟨if_pos rfl, if_neg (by show (Hdf5.AnyField.sparse rowField).cls ≠ (Hdf5.AnyField.dense sampleDense).cls; decide)⟩

theorem no_shear_sample (R : Reals) (a b : FileMap 2) (ha : a = .null ∨ a = .matrix matrixSample)
    (hb : b = .null ∨ b = .matrix matrixSample) : NoShear R a b := by
  rcases ha with rfl | rfl
  · exact ⟨by simp [FileMap.samples], by simp [FileMap.cameras]⟩
  · rcases hb with rfl | rfl
    · exact ⟨by simp [FileMap.samples], by simp [FileMap.cameras]⟩
    · refine ⟨fun x hx y hy ht hs => ?_, by simp [FileMap.cameras]⟩
      simp only [FileMap.samples] at hx hy
      have hc : (Matrix.run matrixSample.frame matrixSample.ops).lsToWsCurve =
        [(1, M44.setScale ⟨1, 2, 1 / 2⟩), (5 / 2, M44.setTranslation ⟨2, -2, 0⟩)] := by decide +kernel
      rw [hc] at hx hy
      simp only [List.mem_cons, List.not_mem_nil, or_false] at hx hy
      rcases hx with rfl | rfl <;> rcases hy with rfl | rfl
      · rfl
      · exact absurd ht (by decide +kernel)
      · exact absurd ht (by decide +kernel)
      · rfl

/-- The hypotheses of `C91_file`, and for both classes those of its last part. -/
example (R : Reals) := C91_file R (fun _ _ b => b) true 3 (by omega) half16 half16_lawful rfl (0, 0) (0, 0) convertCalls
  (by
    intro c hc
    simp only [convertCalls, List.mem_cons, List.not_mem_nil, or_false] at hc
    rcases hc with rfl | rfl | rfl | rfl
    · exact .inl ⟨_, rfl⟩
    · exact .inr ⟨_, rfl⟩
    · exact .inl ⟨_, rfl⟩
    · exact .inl ⟨_, rfl⟩)
  mappedField
  (by
    intro w hw
    obtain ⟨m, hm, rfl | rfl⟩ := convert_mem w hw
    · have e := (mappedField_eq [112] [97] m).1
      exact ⟨by rw [e]; exact sampleDense_held, by rw [e]; rfl, by rw [e]; rfl, rfl, (by decide : 47 ∉ ([112] : Name) ∧ 0 ∉ ([112] : Name)), one_step_a,
        (by decide : ([97] : Name) ≠ MappingIO.kMapping),
        sampleMeta_fits, mapped_held m hm⟩
    · have e := (mappedField_eq [112] [97] m).2
      exact ⟨by rw [e]; exact rowField_held, by rw [e]; rfl, by rw [e]; rfl, rfl, (by decide : 47 ∉ ([112] : Name) ∧ 0 ∉ ([112] : Name)), one_step_a,
        (by decide : ([97] : Name) ≠ MappingIO.kMapping),
        sampleMeta_fits, mapped_held m hm⟩)
  (by
    intro m hm
    simp only [convertCalls, List.mem_cons, List.not_mem_nil, or_false, Hdf5.Call.global.injEq, reduceCtorEq, false_or] at hm
    subst hm
    exact sampleMeta_fits)
  ⟨List.reverse, List.reverse⟩ order_visits.2
  (by
    intro w w' hw hw' _
    obtain ⟨m, hm, rfl | rfl⟩ := convert_mem w hw <;> obtain ⟨m', hm', rfl | rfl⟩ := convert_mem w' hw' <;>
      exact no_shear_sample R m m' hm hm')
  (by
    intro w hw
    obtain ⟨m, hm, rfl | rfl⟩ := convert_mem w hw <;> rcases hm with rfl | rfl <;> rfl)

example : ∀ w, .write w ∈ convertCalls → w.part = [112] ∧ w.layer = [97] → SparseWindow (contentsOf (mappedField w)).dw := by
  intro w hw _
  obtain ⟨m, hm, rfl | rfl⟩ := convert_mem w hw
  · rw [(mappedField_eq _ _ m).1]
    exact ⟨by decide, by decide, by decide, by decide⟩
  · rw [(mappedField_eq _ _ m).2]
    exact ⟨by decide, by decide, by decide, by decide⟩

/-- A layer with vectors, all (1, 2, 3). -/
def vectorItem : Item V3q :=
  ⟨[112], [118], Metadata.Meta.empty, .null, .other ⟨⟨0, 0, 0⟩, ⟨1, 1, 0⟩⟩ ⟨⟨0, 0, 0⟩, ⟨1, 1, 0⟩⟩ fun _ => some ⟨1, 2, 3⟩⟩

theorem vectorItem_whole : Whole vectorItem := ⟨fun _ _ => ⟨_, rfl⟩, .null, rfl⟩

example := C91_as_mac_loses_voxels vectorItem vectorItem_whole (by decide)
example := C91_layer (⟨0, 0, 0⟩ : V3q) ⟨0, 0, 0⟩ .dense vectorItem vectorItem_whole (by decide) (by simp)
example := C91_layers (⟨0, 0, 0⟩ : V3q) ⟨0, 0, 0⟩ .sparse [vectorItem] (by
  intro f hf
  rw [List.mem_singleton.1 hf]
  exact ⟨vectorItem_whole, by decide, fun _ _ => ⟨by decide, by decide, by decide, by decide⟩⟩)
example (r : Item V3q) := C91_as_sparse_is_full (⟨0, 0, 0⟩ : V3q) ⟨0, 0, 0⟩ vectorItem vectorItem_whole
  ⟨by decide, by decide, by decide, by decide⟩ rfl r

/-- A sparse field that was never given a size. -/
example := C91_layer_without_voxels (0 : Nat) 0 [⟨[112], [97], Metadata.Meta.empty, .null, .sparse (Sparse.empty 0)⟩]
  ⟨[112], [97], Metadata.Meta.empty, .null, .sparse (Sparse.empty 0)⟩ (by simp)
  ⟨fun p hp => by
    have := Mac.nonempty_of_contains hp
    exact absurd this (by decide), .null, rfl⟩ rfl (by decide)

end F3D.Props
