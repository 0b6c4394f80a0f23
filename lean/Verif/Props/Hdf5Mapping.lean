import Verif.Spec.Hdf5Mapping
import Verif.Props.Hdf5FilesFields

/-!
# C84: mappings in HDF5 files
-/

namespace F3D.Props
open _root_.F3D.Hdf5 Ogawa Og FieldIO Mapping _root_.F3D.Identical
open _root_.F3D.MappingIO (HVal HGroup BSample Loaded hWriteMatrix hReadMatrix hWriteFrustum hReadFrustum hMatrixSamples
  hFrustumSamples kNumSamples kZDist kMappingType kNullData nullText nullClass matrixClass frustumClass timeName matrixName
  screenName cameraName timeName_inj matrixName_inj screenName_inj cameraName_inj numbered_ok decMat_encMat kMatrixData)
open _root_.F3D.Files (kClassType)

/-! ## Attributes -/

theorem valOfAttr_attrOfVal (v : HVal) : valOfAttr (attrOfVal v) = some v := by
  cases v <;> simp [attrOfVal, valOfAttr, decMat_encMat]

theorem mappingAttrs_put (cls : Name) (l : HGroup) (ls : List (Name × Obj)) :
    mappingAttrs (.group ((kMappingType, .str cls) :: l.map fun p => (p.1, attrOfVal p.2)) ls) = l := by
  have e : mappingAttrs (.group ((kMappingType, .str cls) :: l.map fun p => (p.1, attrOfVal p.2)) ls) =
      (l.map fun p => (p.1, attrOfVal p.2)).filterMap fun p => (valOfAttr p.2).map fun v => (p.1, v) := rfl
  rw [e, List.filterMap_map]
  have : ((fun p : Name × Attr => (valOfAttr p.2).map fun v => (p.1, v)) ∘ fun p : Name × HVal => (p.1, attrOfVal p.2)) = some := by
    funext p
    simp [valOfAttr_attrOfVal]
  rw [this, List.filterMap_some]

/-- The names of the samples from `i` on. -/
theorem matrix_keys : ∀ (l : List BSample) (i : Nat), ∀ p ∈ hMatrixSamples i l, ∃ j, i ≤ j ∧ (p.1 = timeName j ∨ p.1 = matrixName j)
  | [], _, p, h => by simp [hMatrixSamples] at h
  | s :: l, i, p, h => by
    simp only [hMatrixSamples, List.mem_cons] at h
    rcases h with rfl | rfl | h
    · exact ⟨i, Nat.le_refl i, .inl rfl⟩
    · exact ⟨i, Nat.le_refl i, .inr rfl⟩
    · obtain ⟨j, hj, e⟩ := matrix_keys l (i + 1) p h
      exact ⟨j, by omega, e⟩

theorem matrix_nodup : ∀ (l : List BSample) (i : Nat), ((hMatrixSamples i l).map (·.1)).Nodup
  | [], _ => by simp [hMatrixSamples]
  | s :: l, i => by
    simp only [hMatrixSamples, List.map_cons, List.nodup_cons, List.mem_cons, List.mem_map, not_or, not_exists, not_and]
    refine ⟨⟨by names, fun p hp e => ?_⟩, fun p hp e => ?_, matrix_nodup l (i + 1)⟩
    · obtain ⟨j, hj, h | h⟩ := matrix_keys l (i + 1) p hp
      · rw [h, timeName_inj] at e; omega
      · rw [h] at e; revert e; names
    · obtain ⟨j, hj, h | h⟩ := matrix_keys l (i + 1) p hp
      · rw [h] at e; revert e; names
      · rw [h, matrixName_inj] at e; omega

theorem frustum_keys : ∀ (ss cs : List BSample) (i : Nat) (g : HGroup), hFrustumSamples i ss cs = some g →
    ∀ p ∈ g, ∃ j, i ≤ j ∧ (p.1 = timeName j ∨ p.1 = screenName j ∨ p.1 = cameraName j)
  | [], _, _, g, h => by
    simp only [hFrustumSamples, Option.some.injEq] at h
    subst h; simp
  | _ :: _, [], _, g, h => by simp [hFrustumSamples] at h
  | s :: ss, c :: cs, i, g, h => by
    simp only [hFrustumSamples, Option.map_eq_some_iff] at h
    obtain ⟨g', h', rfl⟩ := h
    intro p hp
    simp only [List.mem_cons] at hp
    rcases hp with rfl | rfl | rfl | hp
    · exact ⟨i, Nat.le_refl i, .inl rfl⟩
    · exact ⟨i, Nat.le_refl i, .inr (.inl rfl)⟩
    · exact ⟨i, Nat.le_refl i, .inr (.inr rfl)⟩
    · obtain ⟨j, hj, e⟩ := frustum_keys ss cs (i + 1) g' h' p hp
      exact ⟨j, by omega, e⟩

theorem frustum_nodup : ∀ (ss cs : List BSample) (i : Nat) (g : HGroup), hFrustumSamples i ss cs = some g → (g.map (·.1)).Nodup
  | [], _, _, g, h => by
    simp only [hFrustumSamples, Option.some.injEq] at h
    subst h; simp
  | _ :: _, [], _, g, h => by simp [hFrustumSamples] at h
  | s :: ss, c :: cs, i, g, h => by
    simp only [hFrustumSamples, Option.map_eq_some_iff] at h
    obtain ⟨g', h', rfl⟩ := h
    simp only [List.map_cons, List.nodup_cons, List.mem_cons, List.mem_map, not_or, not_exists, not_and]
    refine ⟨⟨by names, by names, fun p hp e => ?_⟩, ⟨by names, fun p hp e => ?_⟩, fun p hp e => ?_, frustum_nodup ss cs (i + 1) g' h'⟩
    · obtain ⟨j, hj, h | h | h⟩ := frustum_keys ss cs (i + 1) g' h' p hp
      · rw [h, timeName_inj] at e; omega
      · rw [h] at e; revert e; names
      · rw [h] at e; revert e; names
    · obtain ⟨j, hj, h | h | h⟩ := frustum_keys ss cs (i + 1) g' h' p hp
      · rw [h] at e; revert e; names
      · rw [h, screenName_inj] at e; omega
      · rw [h] at e; revert e; names
    · obtain ⟨j, hj, h | h | h⟩ := frustum_keys ss cs (i + 1) g' h' p hp
      · rw [h] at e; revert e; names
      · rw [h] at e; revert e; names
      · rw [h, cameraName_inj] at e; omega

/-- Distinct names that are neither empty nor have a NUL, and not that of the class, are all written. -/
theorem putVals_new (cls : Name) (l : HGroup) (hp : ∀ p ∈ l, p.1 = kNumSamples ∨ p.1 = kZDist ∨ MappingIO.numbered p.1)
    (hn : (l.map (·.1)).Nodup) :
    (putAttr kMappingType (.str cls) ⨾ putVals l) .new =
      (.ok, .group ((kMappingType, .str cls) :: l.map fun p => (p.1, attrOfVal p.2)) []) ∧
    named kClassType ((kMappingType, .str cls) :: l.map fun p => (p.1, attrOfVal p.2)) = none := by
  have key : ∀ p ∈ l, Hdf5.cstr p.1 = p.1 ∧ p.1 ≠ [] ∧ p.1 ≠ kMappingType ∧ p.1 ≠ kClassType := by
    intro p h
    rcases hp p h with e | e | e
    · rw [e]; decide
    · rw [e]; decide
    · obtain ⟨-, h1, h2⟩ := numbered_ok _ e
      refine ⟨?_, h1, ?_, ?_⟩
      · exact cstr_plain _ h2
      · obtain ⟨i, h | h | h | h⟩ := e <;> rw [h] <;> names
      · obtain ⟨i, h | h | h | h⟩ := e <;> rw [h] <;> intro hc <;> have := congrArg (List.take 3) hc <;> revert this <;>
          simp [timeName, matrixName, screenName, cameraName, ascii] <;> decide
  have h1 : putAttr kMappingType (.str cls) .new = (.ok, .group [(kMappingType, .str cls)] []) := rfl
  constructor
  · rw [seq_ok h1]
    have h2 := all_attrs (l.map fun p => (p.1, attrOfVal p.2)) [(kMappingType, .str cls)] [] (fun q hq => by
        obtain ⟨p, hm, rfl⟩ := List.mem_map.1 hq
        exact ⟨(key p hm).1, (key p hm).2.1⟩) (by
        simp only [List.singleton_append, List.map_cons, List.map_map, List.nodup_cons]
        refine ⟨fun h => ?_, hn⟩
        obtain ⟨p, hm, e⟩ := List.mem_map.1 h
        exact (key p hm).2.2.1 e)
    rw [List.map_map] at h2
    exact h2
  · rw [named_none]
    intro q hq e
    rcases List.mem_cons.1 hq with rfl | hq
    · exact absurd (show kMappingType = kClassType from e) (by decide)
    · obtain ⟨p, hm, rfl⟩ := List.mem_map.1 hq
      exact (key p hm).2.2.2 e

/-! ## One mapping -/

theorem writeMatrix_new (l : List BSample) :
    writeMapBits (.matrix l) .new =
      (.ok, .group ((kMappingType, .str matrixClass) :: (hWriteMatrix l).map fun p => (p.1, attrOfVal p.2)) []) ∧
    named kClassType ((kMappingType, .str matrixClass) :: (hWriteMatrix l).map fun p => (p.1, attrOfVal p.2)) = none := by
  refine putVals_new matrixClass (hWriteMatrix l) (fun p hp => ?_) ?_
  · rcases List.mem_cons.1 hp with rfl | hp
    · exact .inl rfl
    · obtain ⟨j, -, h | h⟩ := matrix_keys l 0 p hp
      · exact .inr (.inr ⟨j, .inl h⟩)
      · exact .inr (.inr ⟨j, .inr (.inl h)⟩)
  · unfold hWriteMatrix
    rw [List.map_cons, List.nodup_cons]
    refine ⟨fun h => ?_, matrix_nodup l 0⟩
    obtain ⟨p, hp, e⟩ := List.mem_map.1 h
    obtain ⟨j, -, h | h⟩ := matrix_keys l 0 p hp <;> rw [h] at e <;> revert e
    · show timeName j ≠ kNumSamples
      names
    · show matrixName j ≠ kNumSamples
      names

theorem writeFrustum_new (ss cs : List BSample) (d : ZDist) (l : HGroup) (hl : hWriteFrustum ss cs d = some l) :
    writeMapBits (.frustum ss cs d) .new =
      (.ok, .group ((kMappingType, .str frustumClass) :: l.map fun p => (p.1, attrOfVal p.2)) []) ∧
    named kClassType ((kMappingType, .str frustumClass) :: l.map fun p => (p.1, attrOfVal p.2)) = none := by
  have e : writeMapBits (.frustum ss cs d) = (putAttr kMappingType (.str frustumClass) ⨾ putVals l) := by
    have hb : writeMapBits (.frustum ss cs d) = (putAttr kMappingType (.str frustumClass) ⨾
      match hWriteFrustum ss cs d with
      | some l => putVals l
      | none => fun g => (.crash, g)) := rfl
    rw [hb, hl]
  rw [e]
  unfold hWriteFrustum at hl
  rw [Option.map_eq_some_iff] at hl
  obtain ⟨g, hg, rfl⟩ := hl
  refine putVals_new frustumClass _ (fun p hp => ?_) ?_
  · simp only [List.mem_cons, List.mem_append, List.not_mem_nil, or_false] at hp
    rcases hp with rfl | hp | rfl
    · exact .inl rfl
    · obtain ⟨j, -, h | h | h⟩ := frustum_keys ss cs 0 g hg p hp
      · exact .inr (.inr ⟨j, .inl h⟩)
      · exact .inr (.inr ⟨j, .inr (.inr (.inl h))⟩)
      · exact .inr (.inr ⟨j, .inr (.inr (.inr h))⟩)
    · exact .inr (.inl rfl)
  · simp only [List.map_cons, List.map_append, List.map_nil, List.nodup_cons, List.nodup_append, List.mem_append,
      List.mem_cons, List.not_mem_nil, or_false, not_or, not_false_eq_true, List.nodup_nil, and_true, true_and]
    refine ⟨⟨fun h => ?_, by decide⟩, frustum_nodup ss cs 0 g hg, fun a ha b hb => ?_⟩
    · obtain ⟨p, hp, e⟩ := List.mem_map.1 h
      obtain ⟨j, -, h | h | h⟩ := frustum_keys ss cs 0 g hg p hp <;> rw [h] at e <;> revert e
      · show timeName j ≠ kNumSamples
        names
      · show screenName j ≠ kNumSamples
        names
      · show cameraName j ≠ kNumSamples
        names
    · subst hb
      obtain ⟨p, hp, rfl⟩ := List.mem_map.1 ha
      obtain ⟨j, -, h | h | h⟩ := frustum_keys ss cs 0 g hg p hp <;> rw [h]
      · names
      · names
      · names

theorem readMatrix_of (k : Rat) (l : HGroup) (ls : List (Name × Obj)) :
    Hdf5.readMapping k (.group ((kMappingType, .str matrixClass) :: l.map fun p => (p.1, attrOfVal p.2)) ls) =
      (hReadMatrix l).bind fun m => .ok (m.map .matrix) := by
  have h1 : getStr kMappingType (.group ((kMappingType, .str matrixClass) :: l.map fun p => (p.1, attrOfVal p.2)) ls) =
      .ok matrixClass := by
    unfold getStr
    have : named kMappingType (Obj.group ((kMappingType, .str matrixClass) :: l.map fun p => (p.1, attrOfVal p.2)) ls).attrs =
        some (.str matrixClass) := if_pos rfl
    rw [this]; rfl
  unfold Hdf5.readMapping
  rw [h1, mappingAttrs_put]
  simp only [Res.bind]
  have n1 : matrixClass ≠ nullClass := by decide
  rw [if_neg n1]
  exact if_pos trivial

theorem readFrustum_of (k : Rat) (l : HGroup) (ls : List (Name × Obj)) :
    Hdf5.readMapping k (.group ((kMappingType, .str frustumClass) :: l.map fun p => (p.1, attrOfVal p.2)) ls) =
      (hReadFrustum k l).bind fun m => .ok (m.map .frustum) := by
  have h1 : getStr kMappingType (.group ((kMappingType, .str frustumClass) :: l.map fun p => (p.1, attrOfVal p.2)) ls) =
      .ok frustumClass := by
    unfold getStr
    have : named kMappingType (Obj.group ((kMappingType, .str frustumClass) :: l.map fun p => (p.1, attrOfVal p.2)) ls).attrs =
        some (.str frustumClass) := if_pos rfl
    rw [this]; rfl
  unfold Hdf5.readMapping
  rw [h1, mappingAttrs_put]
  simp only [Res.bind]
  have n1 : frustumClass ≠ nullClass := by decide
  have n2 : frustumClass ≠ matrixClass := by decide
  rw [if_neg n1, if_neg n2]
  exact if_pos trivial

/-- **C84.** A mapping of any of the three classes of the library, after any calls, is written to an HDF5 group and read
back as one of the same class that places every point at the same spot at every time, frustums included. (A frustum must be
one whose writing is defined, see `C84_frustum_write_defined`.) The group is not taken for a layer. -/
theorem C84_mapping_round_trip (k : Rat) (m : FileMap k) (hm : m.Held) :
    ∃ g x, writeMapBits m.bits .new = (.ok, g) ∧ g.isGroup = true ∧ named kClassType g.attrs = none ∧
      Hdf5.readMap k g = .ok x ∧ SameMapping m x := by
  cases m with
  | null => exact ⟨_, .null, rfl, rfl, rfl, rfl, rfl⟩
  | matrix m =>
    obtain ⟨m', h1, h2⟩ := C47_matrix_hdf5_round_trip m.frame m.ops m.samples m.same
    obtain ⟨w, n⟩ := writeMatrix_new m.samples
    refine ⟨_, .matrix m', w, rfl, n, ?_, m', rfl, h2⟩
    unfold Hdf5.readMap
    rw [readMatrix_of, h1]; rfl
  | frustum m =>
    have hs := ((C47_frustum_write_defined k m.start m.obj m.new m.calls m.run m.screen m.camera m.sameScreen m.sameCamera
      m.dist).2).2 hm
    obtain ⟨l, hl⟩ := Option.isSome_iff_exists.1 hs
    obtain ⟨m', h1, h2⟩ := C47_frustum_hdf5_round_trip k m.start m.obj m.new m.calls m.run m.screen m.camera m.sameScreen
      m.sameCamera m.dist l hl
    obtain ⟨w, n⟩ := writeFrustum_new m.screen m.camera m.dist l hl
    refine ⟨_, .frustum m', w, rfl, n, ?_, m', rfl, h2⟩
    unfold Hdf5.readMap
    rw [readFrustum_of, h1]; rfl

/-- Writing a mapping to a group is undefined exactly for the frustums to which transforms were given, but none for time
0. -/
theorem C84_frustum_write_defined (k : Rat) (m : FileMap k) (g : Obj) (hg : (putAttr kMappingType (.str m.bits.cls) g).1 = .ok) :
    (writeMapBits m.bits g).1 = .crash ↔ ∃ f, m = .frustum f ∧ f.calls ≠ [] ∧ ∀ c ∈ f.calls, c.1 ≠ 0 := by
  have calm : ∀ (l : HGroup) (g : Obj), (putVals l g).1 ≠ .crash := by
    intro l g h
    rcases all_calm (l.map fun p => putAttr p.1 (attrOfVal p.2)) g (fun w hw g => by
      obtain ⟨p, -, rfl⟩ := List.mem_map.1 hw
      exact putAttr_calm _ _ g) with e | e
    · unfold putVals at h; rw [e] at h; cases h
    · unfold putVals at h; rw [e] at h; cases h
  cases hp : putAttr kMappingType (.str m.bits.cls) g with
  | mk r g1 =>
    rw [hp] at hg
    simp only at hg
    subst hg
    have e : writeMapBits m.bits g = m.bits.body g1 := seq_ok hp
    rw [e]
    cases m with
    | null =>
      refine ⟨fun h => ?_, fun ⟨f, h, _⟩ => by cases h⟩
      rcases putAttr_calm kNullData (.str nullText) g1 with e | e
      · exact absurd (e.symm.trans h) (by decide)
      · exact absurd (e.symm.trans h) (by decide)
    | matrix m => exact ⟨fun h => absurd h (calm _ _), fun ⟨f, h, _⟩ => by cases h⟩
    | frustum m =>
      have hs := (C47_frustum_write_defined k m.start m.obj m.new m.calls m.run m.screen m.camera m.sameScreen m.sameCamera
        m.dist).2
      have hb : (FileMap.frustum m).bits.body = match hWriteFrustum m.screen m.camera m.dist with
        | some l => putVals l
        | none => fun g => (.crash, g) := rfl
      rw [hb]
      cases hl : hWriteFrustum m.screen m.camera m.dist with
      | some l =>
        rw [hl] at hs
        refine ⟨fun h => absurd h (calm _ _), ?_⟩
        rintro ⟨f, h, h1, h2⟩
        cases h
        rcases hs.1 rfl with h | ⟨c, hc, h⟩
        · exact absurd h h1
        · exact absurd h (h2 c hc)
      | none =>
        rw [hl] at hs
        refine ⟨fun _ => ⟨m, rfl, fun h => ?_, fun c hc h => ?_⟩, fun _ => rfl⟩
        · have := hs.2 (.inl h); simp at this
        · have := hs.2 (.inr ⟨c, hc, h⟩); simp at this

/-- A mapping of a class without IO class is not written, and `writeFieldMapping` says so; a group with the name of such a
class gives no mapping. -/
theorem C84_unknown_class (k : Rat) (cls : Name) (g : Obj) :
    (writeMapBits (.unknown cls) g).1 = .failed ∧
    (getStr kMappingType g = .ok cls → cls ≠ nullClass → cls ≠ matrixClass → cls ≠ frustumClass → Hdf5.readMap k g = .null) := by
  constructor
  · unfold writeMapBits W.seq
    cases hp : putAttr kMappingType (.str (MapBits.unknown cls).cls) g with
    | mk r g1 =>
      have := putAttr_calm kMappingType (.str (MapBits.unknown cls).cls) g
      rw [hp] at this
      rcases this with e | e
      · simp only at e; subst e; rfl
      · simp only at e; subst e; rfl
  · intro h1 h2 h3 h4
    unfold Hdf5.readMap Hdf5.readMapping
    rw [h1]
    simp only [Res.bind]
    rw [if_neg h2, if_neg h3, if_neg h4]

/-! ## Comparing -/

variable {k : Rat} {α : Type}

theorem frustum_made (m : FrustumMap k) : Made k (.frustum (m.obj.setZDistribution m.dist)) := by
  refine .frustum m.start _ (m.calls.map (fun c => FrustumOp.transforms c.1 c.2.1 c.2.2) ++ [.dist m.dist]) m.new ?_
  rw [List.foldlM_append, List.foldlM_map]
  have h : List.foldlM (fun (m : Frustum) (c : Rat × M44 × M44) => frustumStep k m (.transforms c.1 c.2.1 c.2.2)) m.start m.calls =
      some m.obj := m.run
  rw [h]
  rfl

theorem fileMap_made (m : FileMap k) : Made k m.obj := by
  cases m with
  | null => exact .null
  | matrix m => exact .matrix _ _
  | frustum m => exact frustum_made m

theorem libraryMaps_ident (R : Reals) (a b : FileMap k) :
    (libraryMaps R k).ident a b = true ↔ Identical R 0 a.obj b.obj := by
  obtain ⟨r, h, e⟩ := isIdentical_spec R 0 k a.obj b.obj (fileMap_made a) (fileMap_made b)
  show (isIdentical R 0 a.obj b.obj).getD false = true ↔ _
  rw [h, ← e]; rfl

/-- The comparison is an equivalence, as `C80` needs it. -/
theorem C84_comparison (R : Reals) (k : Rat) : SameMaps (libraryMaps R k) := by
  obtain ⟨h1, h2, h3⟩ := C71_equivalence R k
  have conv : ∀ a b : FileMap k, (libraryMaps R k).ident a b = true ↔ isIdentical R 0 a.obj b.obj = some true := by
    intro a b
    obtain ⟨r, h, e⟩ := isIdentical_spec R 0 k a.obj b.obj (fileMap_made a) (fileMap_made b)
    rw [libraryMaps_ident, ← e, h]
    simp
  refine ⟨fun m => ?_, fun a b h => ?_, fun a b c h h' => ?_⟩
  · exact (conv m m).2 (h1 0 _ (by decide) (fileMap_made m))
  · exact (conv b a).2 (h2 _ _ (fileMap_made a) (fileMap_made b) ((conv a b).1 h))
  · exact (conv a c).2 (h3 _ _ _ (fileMap_made a) (fileMap_made b) (fileMap_made c) ((conv a b).1 h) ((conv b c).1 h'))

theorem agree_eq (R : Reals) {c d : Curve M44}
    (hA : List.Forall₂ (fun x y : Rat × M44 => x.1 = y.1 ∧ sameMatrix R 0 x.2 y.2 = true) c d)
    (hs : ∀ x ∈ c, ∀ y ∈ d, x.1 = y.1 → SameParts R x.2 y.2 → x.2 = y.2) : c = d := by
  induction hA with
  | nil => rfl
  | @cons x y c d hxy _ ih =>
    rw [ih fun x' hx' y' hy' => hs x' (by simp [hx']) y' (by simp [hy'])]
    congr 1
    refine Prod.ext hxy.1 ?_
    rcases (sameMatrix_zero R _ _).1 hxy.2 with h | h
    · exact h
    · exact hs x (by simp) y (by simp) hxy.1 h

theorem forall₂_times {P : Rat × M44 → Rat × M44 → Prop} : ∀ {c d : Curve M44}, List.Forall₂ P c d → c.map (·.1) = d.map (·.1) →
    List.Forall₂ (fun x y => x.1 = y.1 ∧ P x y) c d
  | _, _, .nil, _ => .nil
  | _, _, .cons h hs, e => by
    simp only [List.map_cons, List.cons.injEq] at e
    exact .cons ⟨e.1, h⟩ (forall₂_times hs e.2)

/-- The transforms of a frustum: those of the constructor, or the last given for each time. -/
theorem frustum_some_table (m : FrustumMap k) : ∃ T : Curve (M44 × M44), MappingIO.Table T m.obj := by
  by_cases hne : m.calls = []
  · have h := m.run
    rw [hne] at h
    simp only [runCalls, List.foldlM_nil, Option.pure_def, Option.some.injEq] at h
    exact ⟨_, by rw [← h]; exact MappingIO.new_table k _ m.new⟩
  · exact ⟨_, (MappingIO.run_table k m.start m.obj m.new m.calls hne m.run).1⟩

/-- Mappings that the library takes for identical place points at the same spots, unless they differ by shear alone. -/
theorem identical_same (R : Reals) (a b : FileMap k) (h : (libraryMaps R k).ident a b = true) (hn : NoShear R a b) (x : Loaded)
    (hx : SameMapping b x) : SameMapping a x := by
  rw [libraryMaps_ident] at h
  cases a with
  | null => cases b with
    | null => exact hx
    | matrix m => exact h.elim
    | frustum m => exact h.elim
  | matrix m => cases b with
    | null => exact h.elim
    | matrix m' =>
      have hc : (Matrix.run m.frame m.ops).lsToWsCurve = (Matrix.run m'.frame m'.ops).lsToWsCurve := agree_eq R h.1 hn.1
      obtain ⟨y, hy, h2⟩ := hx
      have h1 := sameMatrix_of_curve _ _ (run_spec m.frame m.ops).2.2 (run_spec m'.frame m'.ops).2.2 hc.symm
      exact ⟨y, hy, h2.1.trans h1.1, fun p t => ⟨(h2.2.1 p t).1.trans (h1.2.1 p t).1, (h2.2.1 p t).2.trans (h1.2.1 p t).2⟩,
        fun p => ⟨(h2.2.2.1 p).1.trans (h1.2.2.1 p).1, (h2.2.2.1 p).2.trans (h1.2.2.1 p).2⟩,
        fun b => (h2.2.2.2 b).trans (h1.2.2.2 b)⟩
    | frustum m => exact h.elim
  | frustum m => cases b with
    | null => exact h.elim
    | matrix m' => exact h.elim
    | frustum m' =>
      obtain ⟨hz, hA, hB⟩ := h
      obtain ⟨T, t1, t2, t3, t4, -⟩ := frustum_some_table m
      obtain ⟨T', u1, u2, u3, u4, -⟩ := frustum_some_table m'
      have e1 : m.obj.lpsToWsCurve = m'.obj.lpsToWsCurve := agree_eq R hA hn.1
      have ht : T.map (·.1) = T'.map (·.1) := by
        have := congrArg (List.map (·.1)) e1
        rw [t1, u1, List.map_map, List.map_map] at this
        exact this
      have e2 : m.obj.csToWsCurve = m'.obj.csToWsCurve := by
        refine agree_eq R (forall₂_times hB ?_) hn.2
        show m.obj.csToWsCurve.map (·.1) = m'.obj.csToWsCurve.map (·.1)
        rw [t2, u2, List.map_map, List.map_map]
        exact ht
      have key : ∀ S : Curve (M44 × M44), ∀ f : Rat × Rat → Rat, S.map (fun s => (s.1, f (MappingIO.planesOf s.2))) =
          List.zipWith (fun a b : Rat × M44 => (a.1, f ((planes a.2 b.2).getD (0, 0))))
            (S.map fun s => (s.1, lsToSs.mul s.2.1)) (S.map fun s => (s.1, s.2.2)) := by
        intro S f
        induction S with
        | nil => rfl
        | cons s S ih => simp only [List.map_cons, List.zipWith_cons_cons, ih]; rfl
      have e3 : m.obj.nearCurve = m'.obj.nearCurve := by
        rw [t3, u3, key T (·.1), key T' (·.1), ← t1, ← u1, ← t2, ← u2, e1, e2]
      have e4 : m.obj.farCurve = m'.obj.farCurve := by
        rw [t4, u4, key T (·.2), key T' (·.2), ← t1, ← u1, ← t2, ← u2, e1, e2]
      have hs : SameFrustum (m.obj.setZDistribution m.dist) (m'.obj.setZDistribution m'.dist) := by
        refine ⟨hz.symm, fun p t => ⟨?_, ?_⟩⟩
        · unfold Frustum.localToWorldAt
          rw [hz]
          simp only [Frustum.setZDistribution, e1, e2, e3, e4]
        · unfold Frustum.worldToLocalAt
          rw [hz]
          simp only [Frustum.setZDistribution, e1, e2, e3, e4]
      obtain ⟨y, hy, h2⟩ := hx
      exact ⟨y, hy, h2.1.trans hs.1, fun p t => ⟨(h2.2 p t).1.trans (hs.2 p t).1, (h2.2 p t).2.trans (hs.2 p t).2⟩⟩

end F3D.Props
