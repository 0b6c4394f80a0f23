import Verif.Props.Hdf5WholeFile

/-!
# C84: incomplete groups of mappings, and cases
-/

namespace F3D.Props
open _root_.F3D.Hdf5 Ogawa Og FieldIO Mapping _root_.F3D.Identical
open _root_.F3D.MappingIO (HVal HGroup BSample BMat Loaded hWriteMatrix hReadMatrix hWriteFrustum hReadFrustum hMatrixSamples
  hFrustumSamples kNumSamples kZDist kMappingType nullClass matrixClass frustumClass timeName matrixName
  screenName cameraName decMat_encMat kMatrixData hget hget_hit hget_miss hgetInt hgetFloat hget16 hget4x4 hReadMatrixSamples
  hReadFrustumSamples orThrow matrixOf frustumOf curveVal encMat)
open _root_.F3D.Metadata (Meta)

variable {k : Rat} {α : Type}

/-! ## Old files -/

theorem hget_named (n : Name) (a : Attr) (v : HVal) (hv : valOfAttr a = some v) : ∀ (as : List (Name × Attr)),
    named n as = some a → hget (as.filterMap fun p => (valOfAttr p.2).map fun v => (p.1, v)) n = some v
  | [], h => by simp [named] at h
  | p :: as, h => by
    rw [named] at h
    by_cases e : p.1 = n
    · rw [if_pos e] at h
      cases h
      have e1 : List.filterMap (fun p : Name × Attr => (valOfAttr p.2).map fun v => (p.1, v)) (p :: as) =
          (p.1, v) :: as.filterMap fun p => (valOfAttr p.2).map fun v => (p.1, v) := by
        rw [List.filterMap_cons, hv]; rfl
      rw [e1, ← e]
      exact hget_hit _ _ _
    · rw [if_neg e] at h
      have ih := hget_named n a v hv as h
      rw [List.filterMap_cons]
      cases hp : valOfAttr p.2 with
      | none => exact ih
      | some w =>
        show hget ((p.1, w) :: _) n = _
        rw [hget_miss _ _ _ e]
        exact ih

/-- A group of the old format, with one matrix and whatever else, gives the mapping with this matrix at all times. -/
theorem C84_old_format (k : Rat) (g : Obj) (b : BMat) (x : M44) (hx : b.val = some x) (hc : getStr kMappingType g = .ok matrixClass)
    (hm : named kMatrixData g.attrs = some (.array16 (encMat b))) :
    ∃ m, Hdf5.readMap k g = .ok (.matrix m) ∧ m.lsToWsCurve = [(0, x)] ∧ ∀ p t, m.localToWorldAt p t = x.multVec p := by
  have hv : valOfAttr (.array16 (encMat b)) = some (.array16 b) := by rw [valOfAttr, decMat_encMat]
  have h := hget_named kMatrixData _ _ hv g.attrs hm
  obtain ⟨m', h1, h2, h3⟩ := C47_matrix_hdf5_old_format [] b x hx
  refine ⟨m', ?_, h2, h3⟩
  have e : hReadMatrix (mappingAttrs g) = hReadMatrix [(kMatrixData, .array16 b)] := by
    have h' : hget16 (mappingAttrs g) kMatrixData = some b := by
      unfold hget16 mappingAttrs
      rw [h]
    have h'' : hget16 [(kMatrixData, .array16 b)] kMatrixData = some b := by
      unfold hget16
      rw [hget_hit]
    unfold hReadMatrix
    rw [h', h'']
  unfold Hdf5.readMap Hdf5.readMapping
  rw [hc]
  simp only [Res.bind]
  have n1 : matrixClass ≠ nullClass := by decide
  rw [if_neg n1, if_pos trivial, e, h1]
  rfl

/-! ## Incomplete groups -/

/-- The group without the attributes of the name. -/
def without (nm : Name) (g : Obj) : Obj := .group (g.attrs.filter fun p => p.1 ≠ nm) g.links

theorem mappingAttrs_without (nm : Name) (g : Obj) :
    mappingAttrs (without nm g) = (mappingAttrs g).filter fun p => p.1 ≠ nm := by
  show List.filterMap _ (g.attrs.filter _) = List.filter _ (List.filterMap _ g.attrs)
  induction g.attrs with
  | nil => rfl
  | cons p as ih =>
    by_cases e : p.1 = nm
    · rw [List.filter_cons_of_neg (by simp [e]), ih, List.filterMap_cons]
      cases valOfAttr p.2 with
      | none => rfl
      | some v =>
        show _ = List.filter _ ((p.1, v) :: _)
        rw [List.filter_cons_of_neg (by simp [e])]
    · rw [List.filter_cons_of_pos (by simp [e]), List.filterMap_cons, List.filterMap_cons]
      cases valOfAttr p.2 with
      | none => exact ih
      | some v =>
        show (p.1, v) :: _ = List.filter _ ((p.1, v) :: _)
        rw [List.filter_cons_of_pos (by simp [e])]
        exact congrArg _ ih

theorem hget_without (nm n : Name) (l : HGroup) : hget (l.filter fun p => p.1 ≠ nm) n = if n = nm then none else hget l n := by
  unfold hget
  rw [List.find?_filter]
  split
  · rename_i h
    rw [Option.map_eq_none_iff, List.find?_eq_none]
    intro p _
    rw [decide_eq_true_eq, decide_eq_true_eq, decide_eq_true_eq]
    exact fun h1 => h1.1 (h1.2.trans h)
  · rename_i h
    congr 2
    funext a
    by_cases e : a.1 = n
    · simp [e, h]
    · simp [e]

theorem getStr_without (nm n : Name) (g : Obj) (h : n ≠ nm) : getStr n (without nm g) = getStr n g := by
  have : named n (without nm g).attrs = named n g.attrs := by
    show named n (g.attrs.filter _) = _
    induction g.attrs with
    | nil => rfl
    | cons p as ih =>
      by_cases e : p.1 = nm
      · rw [List.filter_cons_of_neg (by simp [e]), ih, named, if_neg (by rw [e]; exact fun e => h e.symm)]
      · rw [List.filter_cons_of_pos (by simp [e]), named, named, ih]
  unfold getStr
  rw [this]

theorem matrix_missing (g : HGroup) : ∀ (n i : Nat), (∃ j < n, hget g (timeName (i + j)) = none ∨ hget g (matrixName (i + j)) = none) →
    hReadMatrixSamples g i n = .exception
  | 0, _, h => by obtain ⟨j, hj, -⟩ := h; omega
  | n + 1, i, h => by
    unfold hReadMatrixSamples
    cases h1 : hgetFloat g (timeName i) with
    | none => rfl
    | some t =>
      cases h2 : hget4x4 g (matrixName i) with
      | none => rfl
      | some m =>
        have ih := matrix_missing g n (i + 1) (by
          obtain ⟨j, hj, hb⟩ := h
          cases j with
          | zero =>
            rw [Nat.add_zero] at hb
            unfold hgetFloat at h1
            unfold hget4x4 at h2
            rcases hb with hb | hb
            · rw [hb] at h1; simp at h1
            · rw [hb] at h2; simp at h2
          | succ j => exact ⟨j, by omega, by rwa [show i + (j + 1) = i + 1 + j by omega] at hb⟩)
        show (hReadMatrixSamples g (i + 1) n).bind _ = _
        rw [ih]; rfl

theorem frustum_missing (g : HGroup) : ∀ (n i : Nat), (∃ j < n, hget g (timeName (i + j)) = none ∨ hget g (screenName (i + j)) = none ∨
    hget g (cameraName (i + j)) = none) → hReadFrustumSamples g i n = .exception
  | 0, _, h => by obtain ⟨j, hj, -⟩ := h; omega
  | n + 1, i, h => by
    unfold hReadFrustumSamples
    cases h1 : hgetFloat g (timeName i) with
    | none => rfl
    | some t =>
      cases h2 : hget4x4 g (screenName i) with
      | none => rfl
      | some m =>
        cases h3 : hget4x4 g (cameraName i) with
        | none => rfl
        | some m' =>
          have ih := frustum_missing g n (i + 1) (by
            obtain ⟨j, hj, hb⟩ := h
            cases j with
            | zero =>
              rw [Nat.add_zero] at hb
              unfold hgetFloat at h1
              unfold hget4x4 at h2 h3
              rcases hb with hb | hb | hb
              · rw [hb] at h1; simp at h1
              · rw [hb] at h2; simp at h2
              · rw [hb] at h3; simp at h3
            | succ j => exact ⟨j, by omega, by rwa [show i + (j + 1) = i + 1 + j by omega] at hb⟩)
          show (hReadFrustumSamples g (i + 1) n).bind _ = _
          rw [ih]; rfl

/-- If the time or the matrix of a sample is missing in the group of a matrix mapping, reading it throws an exception; but
if the number of samples is missing, the mapping that is read has no samples, and no transform, whatever was written. -/
theorem C84_incomplete_matrix (k : Rat) (l : List BSample) :
    (∀ i < l.length, ∀ nm, nm = timeName i ∨ nm = matrixName i →
      Hdf5.readMap k (without nm (writeMapBits (.matrix l) .new).2) = .exception) ∧
    Hdf5.readMap k (without kNumSamples (writeMapBits (.matrix l) .new).2) = .ok (.matrix (matrixOf [])) := by
  obtain ⟨w, -⟩ := writeMatrix_new l
  rw [w]
  have key : ∀ nm, nm ≠ kMappingType → Hdf5.readMap k (without nm (.group ((kMappingType, .str matrixClass) ::
      (hWriteMatrix l).map fun p => (p.1, attrOfVal p.2)) [])) =
      match (hReadMatrix ((hWriteMatrix l).filter fun p => p.1 ≠ nm)) with
      | .ok (some m) => .ok (.matrix m)
      | .ok none => .crash
      | .crash => .crash
      | .exception => .exception
      | .null => .null
      | .running => .running := by
    intro nm hn
    have h1 : getStr kMappingType (without nm (.group ((kMappingType, .str matrixClass) ::
        (hWriteMatrix l).map fun p => (p.1, attrOfVal p.2)) [])) = .ok matrixClass := by
      rw [getStr_without _ _ _ hn.symm]
      unfold getStr
      have : named kMappingType (Obj.group ((kMappingType, .str matrixClass) ::
          (hWriteMatrix l).map fun p => (p.1, attrOfVal p.2)) []).attrs = some (.str matrixClass) := if_pos rfl
      rw [this]; rfl
    unfold Hdf5.readMap Hdf5.readMapping
    rw [h1, mappingAttrs_without, mappingAttrs_put]
    simp only [Res.bind]
    have n1 : matrixClass ≠ nullClass := by decide
    rw [if_neg n1, if_pos trivial]
    cases hReadMatrix ((hWriteMatrix l).filter fun p => p.1 ≠ nm) with
    | ok m => cases m <;> rfl
    | _ => rfl
  have hold : ∀ nm, hget16 ((hWriteMatrix l).filter fun p => p.1 ≠ nm) kMatrixData = none := by
    intro nm
    unfold hget16
    rw [hget_without]
    split
    · rename_i h
      split at h
      · cases h
      · have : hget (hWriteMatrix l) kMatrixData = none := by
          unfold hWriteMatrix
          rw [hget_miss _ _ _ (by show kNumSamples ≠ _; names)]
          exact MappingIO.hget_samples_none l _ (fun i => ⟨by names, by names⟩) 0
        rw [this] at h; cases h
    · rfl
  constructor
  · intro i hi nm hnm
    have hn : nm ≠ kMappingType ∧ nm ≠ kNumSamples := by
      rcases hnm with rfl | rfl
      · exact ⟨by names, by names⟩
      · exact ⟨by names, by names⟩
    have hc : hgetInt ((hWriteMatrix l).filter fun p => p.1 ≠ nm) kNumSamples = some (l.length : Int) := by
      unfold hgetInt
      rw [hget_without, if_neg hn.2.symm]
      rfl
    have hs : hReadMatrixSamples ((hWriteMatrix l).filter fun p => p.1 ≠ nm) 0 l.length = .exception := by
      refine matrix_missing _ l.length 0 ⟨i, hi, ?_⟩
      rw [hget_without, hget_without, Nat.zero_add]
      rcases hnm with rfl | rfl
      · exact .inl (if_pos rfl)
      · exact .inr (if_pos rfl)
    rw [key nm hn.1]
    have hr : hReadMatrix ((hWriteMatrix l).filter fun p => p.1 ≠ nm) = .exception := by
      unfold hReadMatrix
      rw [hold, hc]
      show (hReadMatrixSamples _ 0 l.length).bind _ = _
      rw [hs]; rfl
    rw [hr]
  · rw [key _ (by decide)]
    have hc : hgetInt ((hWriteMatrix l).filter fun p => p.1 ≠ kNumSamples) kNumSamples = none := by
      unfold hgetInt
      rw [hget_without, if_pos rfl]
    have hr : hReadMatrix ((hWriteMatrix l).filter fun p => p.1 ≠ kNumSamples) = .ok (some (matrixOf [])) := by
      unfold hReadMatrix
      rw [hold, hc]
      rfl
    rw [hr]

/-- The same for frustum mappings: without the number of samples the default frustum is read. -/
theorem C84_incomplete_frustum (k : Rat) (ss cs : List BSample) (d : ZDist) (hlen : ss.length ≤ cs.length) :
    (∀ i < ss.length, ∀ nm, nm = timeName i ∨ nm = screenName i ∨ nm = cameraName i →
      Hdf5.readMap k (without nm (writeMapBits (.frustum ss cs d) .new).2) = .exception) ∧
    ∀ m, Frustum.new k = some m →
      Hdf5.readMap k (without kNumSamples (writeMapBits (.frustum ss cs d) .new).2) = .ok (.frustum (m.setZDistribution d)) := by
  have hsome : (hWriteFrustum ss cs d).isSome = true := by
    unfold hWriteFrustum
    rw [Option.isSome_map, (MappingIO.frustum_isSome ss cs 0).2, decide_eq_true_iff]
    exact hlen
  obtain ⟨l, hl⟩ := Option.isSome_iff_exists.1 hsome
  obtain ⟨w, -⟩ := writeFrustum_new ss cs d l hl
  rw [w]
  have hnum : hget l kNumSamples = some (.int ss.length) ∧ hget l kZDist = some (.int (MappingIO.distCode d)) := by
    unfold hWriteFrustum at hl
    rw [Option.map_eq_some_iff] at hl
    obtain ⟨g, hg, rfl⟩ := hl
    refine ⟨hget_hit _ _ _, ?_⟩
    rw [hget_miss _ _ _ (by show kNumSamples ≠ _; decide)]
    have hk := frustum_keys ss cs 0 g hg
    clear hg w
    induction g with
    | nil => exact hget_hit _ _ _
    | cons p g ih =>
      rw [List.cons_append, hget_miss _ _ _ ?_]
      · exact ih fun p hp => hk p (by simp [hp])
      · obtain ⟨j, -, h | h | h⟩ := hk p (by simp) <;> rw [h] <;> names
  have key : ∀ nm, nm ≠ kMappingType → Hdf5.readMap k (without nm (.group ((kMappingType, .str frustumClass) ::
      l.map fun p => (p.1, attrOfVal p.2)) [])) =
      match (hReadFrustum k (l.filter fun p => p.1 ≠ nm)) with
      | .ok (some m) => .ok (.frustum m)
      | .ok none => .crash
      | .crash => .crash
      | .exception => .exception
      | .null => .null
      | .running => .running := by
    intro nm hn
    have h1 : getStr kMappingType (without nm (.group ((kMappingType, .str frustumClass) ::
        l.map fun p => (p.1, attrOfVal p.2)) [])) = .ok frustumClass := by
      rw [getStr_without _ _ _ hn.symm]
      unfold getStr
      have : named kMappingType (Obj.group ((kMappingType, .str frustumClass) ::
          l.map fun p => (p.1, attrOfVal p.2)) []).attrs = some (.str frustumClass) := if_pos rfl
      rw [this]; rfl
    unfold Hdf5.readMap Hdf5.readMapping
    rw [h1, mappingAttrs_without, mappingAttrs_put]
    simp only [Res.bind]
    have n1 : frustumClass ≠ nullClass := by decide
    have n2 : frustumClass ≠ matrixClass := by decide
    rw [if_neg n1, if_neg n2, if_pos trivial]
    cases hReadFrustum k (l.filter fun p => p.1 ≠ nm) with
    | ok m => cases m <;> rfl
    | _ => rfl
  constructor
  · intro i hi nm hnm
    have hn : nm ≠ kMappingType ∧ nm ≠ kNumSamples := by
      rcases hnm with rfl | rfl | rfl
      · exact ⟨by names, by names⟩
      · exact ⟨by names, by names⟩
      · exact ⟨by names, by names⟩
    have hc : hgetInt (l.filter fun p => p.1 ≠ nm) kNumSamples = some (ss.length : Int) := by
      unfold hgetInt
      rw [hget_without, if_neg hn.2.symm, hnum.1]
    have hs : hReadFrustumSamples (l.filter fun p => p.1 ≠ nm) 0 ss.length = .exception := by
      refine frustum_missing _ ss.length 0 ⟨i, hi, ?_⟩
      rw [hget_without, hget_without, hget_without, Nat.zero_add]
      rcases hnm with rfl | rfl | rfl
      · exact .inl (if_pos rfl)
      · exact .inr (.inl (if_pos rfl))
      · exact .inr (.inr (if_pos rfl))
    rw [key nm hn.1]
    have hr : hReadFrustum k (l.filter fun p => p.1 ≠ nm) = .exception := by
      unfold hReadFrustum
      rw [hc]
      show (hReadFrustumSamples _ 0 ss.length).bind _ = _
      rw [hs]; rfl
    rw [hr]
  · intro m hm
    rw [key _ (by decide)]
    have hc : hgetInt (l.filter fun p => p.1 ≠ kNumSamples) kNumSamples = none := by
      unfold hgetInt
      rw [hget_without, if_pos rfl]
    have hz : hgetInt (l.filter fun p => p.1 ≠ kNumSamples) kZDist = some (MappingIO.distCode d) := by
      unfold hgetInt
      rw [hget_without, if_neg (by decide), hnum.2]
    have hr : hReadFrustum k (l.filter fun p => p.1 ≠ kNumSamples) = .ok (some (m.setZDistribution d)) := by
      unfold hReadFrustum
      rw [hc, hz]
      show Res.ok (frustumOf k [] (MappingIO.distOf (MappingIO.distCode d))) = _
      rw [MappingIO.distOf_code]
      unfold frustumOf
      rw [hm]
      rfl
    rw [hr]

/-! ## Cases -/

/-- A frustum with a moved camera. -/
theorem moved_some : ∃ m0 m, Frustum.new 2 = some m0 ∧ runCalls m0 movedCalls = some m ∧
    curveVal movedScreen = some m.ssToWsCurve ∧ curveVal movedCam = some m.csToWsCurve := by
  obtain ⟨m0, m, es, m', h1, h2, h3, h4, -⟩ := C47_frustum_ogawa_witness
  exact ⟨m0, m, h1, h2, h3, h4⟩

noncomputable def movedMap : FrustumMap 2 where
  start := moved_some.choose
  obj := moved_some.choose_spec.choose
  calls := movedCalls
  new := moved_some.choose_spec.choose_spec.1
  run := moved_some.choose_spec.choose_spec.2.1
  dist := .uniform
  screen := movedScreen
  camera := movedCam
  sameScreen := moved_some.choose_spec.choose_spec.2.2.1
  sameCamera := moved_some.choose_spec.choose_spec.2.2.2
  count := by decide

theorem movedMap_held : (FileMap.frustum movedMap).Held := by
  refine .inr ?_
  show ∃ c ∈ movedCalls, c.1 = 0
  exact ⟨_, List.mem_singleton.2 rfl, rfl⟩

example := C84_mapping_round_trip 2 (.frustum movedMap) movedMap_held
example := C84_mapping_round_trip 2 (.matrix matrixSample) trivial
example : (∃ i < matrixSample.samples.length, timeName i = timeName 1) ∧ movedScreen.length ≤ movedCam.length :=
  ⟨⟨1, by decide, rfl⟩, by decide⟩

/-- A group of the old format. -/
example : ∃ b : BMat, ∃ x g, b.val = some x ∧ getStr kMappingType g = .ok matrixClass ∧
    named kMatrixData g.attrs = some (.array16 (encMat b)) := by
  refine ⟨⟨oneRow, oneRow, oneRow, oneRow⟩, ?_⟩
  have h : (BMat.val ⟨oneRow, oneRow, oneRow, oneRow⟩).isSome = true := by decide +kernel
  obtain ⟨x, hx⟩ := Option.isSome_iff_exists.1 h
  exact ⟨x, .group [([120], .ints [3]), (kMappingType, .str matrixClass), (kMatrixData, .array16 (encMat _))] [], hx, rfl, rfl⟩

/-- A layer with a mapping of the library. -/
def mappedLayer (part layer : Name) (m : FileMap 2) (x : AnyField (UInt8 × UInt8)) : Hdf5.Write (FileMap 2) :=
  ⟨part, layer, false, m, sampleMeta, x.cls, x.write true half16⟩

/-- Layers "a" in partitions of the name "p" with a matrix and a frustum mapping, and one with a null mapping. -/
noncomputable def mappedCalls : List (Hdf5.Call (FileMap 2)) :=
  [.write (mappedLayer [112] [97] (.matrix matrixSample) (.dense sampleDense)), .global sampleMeta,
   .write (mappedLayer [112] [97] (.frustum movedMap) (.sparse rowField)), .write (mappedLayer [112] [97] .null (.sparse rowField)),
   .write (mappedLayer [113] [98] (.frustum movedMap) (.dense sampleDense))]

theorem mapped_session : Session mappedCalls := by
  intro c hc
  simp only [mappedCalls, List.mem_cons, List.not_mem_nil, or_false] at hc
  rcases hc with rfl | rfl | rfl | rfl | rfl
  · exact .inl ⟨_, rfl⟩
  · exact .inr ⟨_, rfl⟩
  · exact .inl ⟨_, rfl⟩
  · exact .inl ⟨_, rfl⟩
  · exact .inl ⟨_, rfl⟩

/-- What was written. -/
def mappedField (w : Hdf5.Write (FileMap 2)) : AnyField (UInt8 × UInt8) :=
  if w.cls = (AnyField.dense sampleDense).cls then .dense sampleDense else .sparse rowField

theorem mapped_writable : (∀ w, .write w ∈ mappedCalls → Writable true half16 (0, 0) mappedField w) ∧
    ∀ m, .global m ∈ mappedCalls → NamesFit m := by
  have hs : (AnyField.sparse rowField).cls ≠ (AnyField.dense sampleDense).cls := by decide
  have hp : (47 : UInt8) ∉ ([112] : Name) ∧ (0 : UInt8) ∉ ([112] : Name) := by decide
  have hq : (47 : UInt8) ∉ ([113] : Name) ∧ (0 : UInt8) ∉ ([113] : Name) := by decide
  have na : ([97] : Name) ≠ MappingIO.kMapping := by decide
  have nb : ([98] : Name) ≠ MappingIO.kMapping := by decide
  have dense : ∀ (p l : Name) (m : FileMap 2), ((47 : UInt8) ∉ p ∧ (0 : UInt8) ∉ p) → OneStep l → l ≠ MappingIO.kMapping → m.Held →
      Writable true half16 (0, 0) mappedField (mappedLayer p l m (.dense sampleDense)) := by
    intro p l m h1 h2 h3 h4
    have e : mappedField (mappedLayer p l m (.dense sampleDense)) = .dense sampleDense := if_pos rfl
    exact ⟨by rw [e]; exact sampleDense_held, by rw [e]; rfl, by rw [e]; rfl, rfl, h1, h2, h3, sampleMeta_fits, h4⟩
  have sparse : ∀ (p l : Name) (m : FileMap 2), ((47 : UInt8) ∉ p ∧ (0 : UInt8) ∉ p) → OneStep l → l ≠ MappingIO.kMapping → m.Held →
      Writable true half16 (0, 0) mappedField (mappedLayer p l m (.sparse rowField)) := by
    intro p l m h1 h2 h3 h4
    have e : mappedField (mappedLayer p l m (.sparse rowField)) = .sparse rowField := if_neg hs
    exact ⟨by rw [e]; exact rowField_held, by rw [e]; rfl, by rw [e]; rfl, rfl, h1, h2, h3, sampleMeta_fits, h4⟩
  constructor
  · intro w hw
    simp only [mappedCalls, List.mem_cons, List.not_mem_nil, or_false, Hdf5.Call.write.injEq, reduceCtorEq, false_or] at hw
    rcases hw with rfl | rfl | rfl | rfl
    · exact dense _ _ _ hp one_step_a na trivial
    · exact sparse _ _ _ hp one_step_a na movedMap_held
    · exact sparse _ _ _ hp one_step_a na trivial
    · exact dense _ _ _ hq one_step_b nb movedMap_held
  · intro m hm
    simp only [mappedCalls, List.mem_cons, List.not_mem_nil, or_false, Hdf5.Call.global.injEq, reduceCtorEq, false_or] at hm
    subst hm
    exact sampleMeta_fits

example (R : Reals) := C84_file_round_trip R (fun _ _ b => b) true 3 (by omega) half16 half16_lawful rfl (0, 0) (0, 0) mappedCalls
  mapped_session mappedField mapped_writable.1 mapped_writable.2 ⟨List.reverse, List.reverse⟩ order_visits.2

end F3D.Props
