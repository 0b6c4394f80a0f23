import Verif.Props.Hdf5Mip
import Verif.Props.Hdf5MappingCases
import Verif.Props.ProxyHdf5

/-!
# C85: proxies of MIP fields in HDF5 files, and cases
-/

namespace F3D.Props
open _root_.F3D.Hdf5 Ogawa Og FieldIO
open _root_.F3D.MipIO (denseClass sparseClass mipClass kMipGroup kLevels)

variable {M α : Type}

/-- **C85, proxies.** A MIP field gives a proxy with the windows of level 0 and the number of levels (see C82 for what is read
of proxies). -/
theorem C85_proxies [DecidableEq α] (gzip : Bool) (e : Elem α) (L : Lawful e) (hv : isVoxelType e.type = true) (zero : α)
    (w : Hdf5.Write M) (cls : Name) (l : Hdf5.AnyField α) (ls : List (Hdf5.AnyField α)) (H : HeldMip e zero cls (l :: ls))
    (hb : w.body = (Hdf5.Content.mip cls (l :: ls)).write gzip e) :
    Outlined w l.extents l.dw ((ls.length : Int) + 1) := by
  intro g hg
  have hlev := fun x (hx : x ∈ l :: ls) =>
    level_written (fun _ _ b => b) gzip 1 (by omega) e L hv zero zero x (H.held x hx).1 []
  have hwr : w.body g = (.ok, addTo g (mipAttrs e cls l.extents l.dw) [(kMipGroup, levelsObj gzip e (l :: ls))]) := by
    rw [hb]
    exact writeMipAs_ok gzip e cls l.extents l.dw (l :: ls) g hg fun f hf => by
      obtain ⟨r, g', h1, h2, -⟩ := hlev f hf
      rw [h1]; exact h2
  rw [hwr]
  refine ⟨getInts_add g hg.free _ _ kExtents 6 _ (by decide) rfl rfl, getInts_add g hg.free _ _ kDataWindow 6 _ (by decide) rfl rfl,
    .inr ⟨[(kLevels, .ints [asInt (l :: ls).length])], levelLinks gzip e 0 (l :: ls), ?_, ?_⟩⟩
  · rw [addTo, Obj.links]
    exact named_last _ (hg.2.2 _ (by decide))
  · have hf := H.few
    rw [List.length_cons] at hf
    have h1 : asInt (l :: ls).length = (ls.length : Int) + 1 := by
      rw [List.length_cons, asInt_small _ (by omega)]
      omega
    rw [h1]
    rfl

/-! ## Cases -/

/-- Levels of two voxels and of one. -/
def shrinkingLevels : List (Hdf5.AnyField (UInt8 × UInt8)) := [.dense (pairField (1, 0) (2, 0)), .dense (oneField (3, 0))]

theorem shrinkingLevels_held : HeldMip half16 (0, 0) denseClass shrinkingLevels := by
  refine ⟨?_, by decide, _, _, rfl, ?_⟩
  · intro l hl
    simp only [shrinkingLevels, List.mem_cons, List.not_mem_nil, or_false] at hl
    rcases hl with rfl | rfl
    · exact ⟨⟨(pair_storable _ _ _).1, by unfold ValuesFit; decide, fun h => nomatch h⟩, rfl⟩
    · exact ⟨⟨(one_storable _ _).1, by unfold ValuesFit; decide, fun h => nomatch h⟩, rfl⟩
  · exact show Shrinks pairBox.size [oneBox.size] from ⟨by decide, by decide, trivial⟩

example := C85_round_trip (fun _ _ b => b) true 3 (by omega) half16 half16_lawful rfl (0, 0) (0, 0) denseClass shrinkingLevels
  shrinkingLevels_held .new new_fresh [47, 97] (by decide)
example := C85_single_value_level_lost (fun _ _ b => b) 3 (by omega) half16 half16_lawful rfl (0, 0) (0, 0) denseClass
  shrinkingLevels shrinkingLevels_held .new new_fresh [47, 97] (by decide) 1 (oneField (3, 0)) rfl (by decide)
example := C85_other_type_is_null true half16 half16_lawful rfl (0, 0) denseClass shrinkingLevels shrinkingLevels_held .new
  new_fresh [47, 97] .float32 (by decide)
example : ∀ l ls, ([.dense (oneField (3, 0)), .dense (pairField (1, 0) (2, 0))] : List (Hdf5.AnyField (UInt8 × UInt8))) = l :: ls →
    ¬ Shrinks l.extents.size (ls.map fun x => x.extents.size) := by
  intro l ls h
  cases h
  exact fun h => absurd h.1 (by decide)

/-- A layer with any of the fields. -/
def contentLayer (part layer : Name) (m : FileMap 2) (x : Hdf5.Content (UInt8 × UInt8)) : Hdf5.Write (FileMap 2) :=
  ⟨part, layer, false, m, sampleMeta, x.cls, x.write true half16⟩

/-- What is written of a class. -/
def sampleContent (w : Hdf5.Write (FileMap 2)) : Hdf5.Content (UInt8 × UInt8) :=
  if w.cls = mipClass then .mip denseClass shrinkingLevels
  else if w.cls = denseClass then .single (.dense sampleDense) else .single (.sparse rowField)

/-- Dense, sparse and MIP layers "a" in partitions of the name "p", two of them with the same mapping. -/
noncomputable def contentCalls : List (Hdf5.Call (FileMap 2)) :=
  [.write (contentLayer [112] [97] (.matrix matrixSample) (.single (.dense sampleDense))), .global sampleMeta,
   .write (contentLayer [112] [97] (.frustum movedMap) (.mip denseClass shrinkingLevels)),
   .write (contentLayer [112] [97] .null (.single (.sparse rowField))),
   .write (contentLayer [112] [98] (.frustum movedMap) (.mip denseClass shrinkingLevels))]

theorem content_session : Session contentCalls := by
  intro c hc
  simp only [contentCalls, List.mem_cons, List.not_mem_nil, or_false] at hc
  rcases hc with rfl | rfl | rfl | rfl | rfl
  · exact .inl ⟨_, rfl⟩
  · exact .inr ⟨_, rfl⟩
  · exact .inl ⟨_, rfl⟩
  · exact .inl ⟨_, rfl⟩
  · exact .inl ⟨_, rfl⟩

theorem content_writable : (∀ w, .write w ∈ contentCalls → WritableContent true half16 (0, 0) sampleContent w) ∧
    ∀ m, .global m ∈ contentCalls → NamesFit m := by
  have hp : (47 : UInt8) ∉ ([112] : Name) ∧ (0 : UInt8) ∉ ([112] : Name) := by decide
  have na : ([97] : Name) ≠ MappingIO.kMapping := by decide
  have nb : ([98] : Name) ≠ MappingIO.kMapping := by decide
  have any : ∀ (x : Hdf5.Content (UInt8 × UInt8)) (l : Name) (m : FileMap 2), HeldContent true half16 (0, 0) x →
      sampleContent (contentLayer [112] l m x) = x → OneStep l → l ≠ MappingIO.kMapping → m.Held →
      WritableContent true half16 (0, 0) sampleContent (contentLayer [112] l m x) := by
    intro x l m hx hs h2 h3 h4
    exact ⟨by rw [hs]; exact hx, by rw [hs]; rfl, by rw [hs]; rfl, rfl, hp, h2, h3, sampleMeta_fits, h4⟩
  have e1 : ∀ l m, sampleContent (contentLayer [112] l m (.single (.dense sampleDense))) = .single (.dense sampleDense) := by
    intro l m
    have n1 : denseClass ≠ mipClass := by decide
    exact (if_neg n1).trans (if_pos rfl)
  have e2 : ∀ l m, sampleContent (contentLayer [112] l m (.single (.sparse rowField))) = .single (.sparse rowField) := by
    intro l m
    have n1 : sparseClass ≠ mipClass := by decide
    have n2 : sparseClass ≠ denseClass := by decide
    exact (if_neg n1).trans (if_neg n2)
  have e3 : ∀ l m, sampleContent (contentLayer [112] l m (.mip denseClass shrinkingLevels)) = .mip denseClass shrinkingLevels :=
    fun l m => if_pos rfl
  constructor
  · intro w hw
    simp only [contentCalls, List.mem_cons, List.not_mem_nil, or_false, Hdf5.Call.write.injEq, reduceCtorEq, false_or] at hw
    rcases hw with rfl | rfl | rfl | rfl
    · exact any _ _ _ sampleDense_held (e1 _ _) one_step_a na trivial
    · exact any _ _ _ shrinkingLevels_held (e3 _ _) one_step_a na movedMap_held
    · exact any _ _ _ rowField_held (e2 _ _) one_step_a na trivial
    · exact any _ _ _ shrinkingLevels_held (e3 _ _) one_step_b nb movedMap_held
  · intro m hm
    simp only [contentCalls, List.mem_cons, List.not_mem_nil, or_false, Hdf5.Call.global.injEq, reduceCtorEq, false_or] at hm
    subst hm
    exact sampleMeta_fits

example (R : Identical.Reals) := C85_file_round_trip R (fun _ _ b => b) true 3 (by omega) half16 half16_lawful rfl (0, 0) (0, 0)
  contentCalls content_session sampleContent content_writable.1 content_writable.2 ⟨List.reverse, List.reverse⟩ order_visits.2

example := C85_proxies true half16 half16_lawful rfl (0, 0)
  (contentLayer [112] [97] FileMap.null (.mip denseClass shrinkingLevels)) denseClass _ _ shrinkingLevels_held rfl

end F3D.Props
