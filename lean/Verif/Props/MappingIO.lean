import Verif.Proofs.MappingIO

/-!
# C47: mappings written to a file and read back
-/

namespace F3D
namespace Props
open Ogawa Og FieldIO Mapping MappingIO
open Metadata (encWord decWord)

/-! ## Matrix mappings -/

/-- Two matrix mappings that place every point at the same spot at every time, whatever the extents. -/
def SameMatrix (m m' : Matrix) : Prop :=
  m'.lsToWsCurve = m.lsToWsCurve ∧
  (∀ p t, m'.localToWorldAt p t = m.localToWorldAt p t ∧ m'.worldToLocalAt p t = m.worldToLocalAt p t) ∧
  (∀ p, m'.localToWorld p = m.localToWorld p ∧ m'.worldToLocal p = m.worldToLocal p) ∧
  ∀ e, m'.setExtents e = m.setExtents e

theorem sameMatrix_of_curve (m m' : Matrix) (h : m.update = m) (h' : m'.update = m')
    (hc : m'.lsToWsCurve = m.lsToWsCurve) : SameMatrix m m' := by
  have e1 : m'.lsToWs = m.lsToWs := by rw [← h, ← h']; show sampleM m'.lsToWsCurve 0 = sampleM m.lsToWsCurve 0; rw [hc]
  have e2 : m'.wsToLs = m.wsToLs := by
    rw [← h, ← h']; show (sampleM m'.lsToWsCurve 0).inverse = (sampleM m.lsToWsCurve 0).inverse; rw [hc]
  have e3 : m'.isTimeVarying = m.isTimeVarying := by
    rw [← h, ← h']; show decide (m'.lsToWsCurve.length > 1) = decide (m.lsToWsCurve.length > 1); rw [hc]
  refine ⟨hc, fun p t => ⟨?_, ?_⟩, fun p => ⟨?_, ?_⟩, fun e => ?_⟩
  · unfold Matrix.localToWorldAt; rw [hc, e1, e3]
  · unfold Matrix.worldToLocalAt; rw [hc, e2, e3]
  · unfold Matrix.localToWorld; rw [e1]
  · unfold Matrix.worldToLocal; rw [e2]
  · unfold Matrix.setExtents Matrix.update
    simp only [hc]

theorem run_sorted (f : Frame) (ops : List Mapping.Op) : Curve.Sorted (Matrix.run f ops).lsToWsCurve := by
  rw [(run_spec f ops).2.1]; exact (Curve.build_spec _).1

theorem matrix_back (f : Frame) (ops : List Mapping.Op) (l : List BSample)
    (hl : curveVal l = some (Matrix.run f ops).lsToWsCurve) :
    ∃ m', (curveVal l).map matrixOf = some m' ∧ SameMatrix (Matrix.run f ops) m' := by
  refine ⟨_, by rw [hl]; rfl, ?_⟩
  obtain ⟨_, h2, h3⟩ := matrixOf_spec _ (run_sorted f ops)
  exact sameMatrix_of_curve _ _ (run_spec f ops).2.2 h3 h2

/-- C47: a matrix mapping, after any calls, is written to an Ogawa file and read back as a mapping with the same
samples, which places every point at the same spot at every time. -/
theorem C47_matrix_round_trip (k : Rat) (g : Name) (f : Frame) (ops : List Mapping.Op) (l : List BSample)
    (hl : curveVal l = some (Matrix.run f ops).lsToWsCurve) (hn : l.length < 2 ^ 31) :
    ∃ m', readMapping k (groupKids g (mappingEntries matrixClass (matrixEntries l))) = .ok (some (.matrix m')) ∧
      SameMatrix (Matrix.run f ops) m' := by
  obtain ⟨m', h1, h2⟩ := matrix_back f ops l hl
  refine ⟨m', ?_, h2⟩
  have hs : strAttr kMappingType (groupKids g (mappingEntries matrixClass (matrixEntries l))) = .ok matrixClass := by
    refine strAttr_get g _ _ _ (fixed_ok kMappingType (by simp)).1 ?_ (firstOf_hit _ _ _ _) (by decide)
    intro e he
    simp only [mappingEntries, matrixEntries, List.mem_cons] at he
    rcases he with rfl | rfl | he
    · exact (fixed_ok kMappingType (by simp)).2
    · exact (fixed_ok kNumSamples (by simp)).2
    · exact (numbered_ok _ (matrix_names l 0 e he)).2
  unfold readMapping
  rw [hs]
  simp only [Res.bind]
  rw [if_neg (by decide)]
  simp only [if_true, readMatrix_ok g matrixClass l hn, h1]
  rfl

/-- C47: the same for HDF5 files. -/
theorem C47_matrix_hdf5_round_trip (f : Frame) (ops : List Mapping.Op) (l : List BSample)
    (hl : curveVal l = some (Matrix.run f ops).lsToWsCurve) :
    ∃ m', hReadMatrix (hWriteMatrix l) = .ok (some m') ∧ SameMatrix (Matrix.run f ops) m' := by
  obtain ⟨m', h1, h2⟩ := matrix_back f ops l hl
  exact ⟨m', by rw [hReadMatrix_ok, h1], h2⟩

/-- C47: an HDF5 file in the old format has a single matrix, which becomes the mapping at all times. -/
theorem C47_matrix_hdf5_old_format (rest : HGroup) (b : BMat) (x : M44) (hx : b.val = some x) :
    ∃ m', hReadMatrix ((kMatrixData, .array16 b) :: rest) = .ok (some m') ∧ m'.lsToWsCurve = [(0, x)] ∧
      ∀ p t, m'.localToWorldAt p t = x.multVec p := by
  refine ⟨(Matrix.new Frame.default).setLocalToWorld x, ?_, rfl, fun p t => ?_⟩
  · unfold hReadMatrix hget16
    rw [hget_hit]
    simp only [hx]
    rfl
  · have e : (Matrix.new Frame.default).setLocalToWorld x = matrixOf [(0, x)] := rfl
    have h := (matrixOf_spec [(0, x)] (by simp [Curve.Sorted])).2.2
    rw [e, ← h]
    rfl

/-- Bits of 1, 2 and 1/2. -/
def oneRow : BRow := ⟨0x3FF0000000000000, 0, 0, 0⟩
def sampleBits : List BSample :=
  [(0x3F800000, ⟨oneRow, ⟨0, 0x4000000000000000, 0, 0⟩, ⟨0, 0, 0x3FE0000000000000, 0⟩, ⟨0, 0, 0, 0x3FF0000000000000⟩⟩),
   (0x40200000, ⟨oneRow, ⟨0, 0x3FF0000000000000, 0, 0⟩, ⟨0, 0, 0x3FF0000000000000, 0⟩,
     ⟨0x4000000000000000, 0xC000000000000000, 0, 0x3FF0000000000000⟩⟩)]

example : curveVal sampleBits = some (Matrix.run Frame.default
    [.setLocalToWorldAt (5 / 2) (M44.setTranslation ⟨2, -2, 0⟩), .setLocalToWorldAt 1 (M44.setScale ⟨1, 2, 1 / 2⟩)]).lsToWsCurve ∧
    sampleBits.length < 2 ^ 31 := by decide +kernel

/-! ## Null mappings -/

/-- C47: a null mapping is read back as a null mapping. -/
theorem C47_null_round_trip (k : Rat) (g : Name) :
    readMapping k (groupKids g (mappingEntries nullClass nullEntries)) = .ok (some .null) := by
  have hn : ∀ e ∈ mappingEntries nullClass nullEntries, plainName (nameOf e) := by
    intro e he
    simp only [mappingEntries, nullEntries, List.mem_cons, List.not_mem_nil, or_false] at he
    rcases he with rfl | rfl
    · exact (fixed_ok kMappingType (by simp)).2
    · exact (fixed_ok kNullData (by simp)).2
  have h1 : strAttr kMappingType (groupKids g (mappingEntries nullClass nullEntries)) = .ok nullClass :=
    strAttr_get g _ _ _ (fixed_ok kMappingType (by simp)).1 hn (firstOf_hit _ _ _ _) (by decide)
  have h2 : strAttr kNullData (groupKids g (mappingEntries nullClass nullEntries)) = .ok nullText := by
    refine strAttr_get g _ _ _ (fixed_ok kNullData (by simp)).1 hn ?_ (by decide)
    unfold mappingEntries nullEntries
    rw [firstOf_miss _ _ _ (by show kMappingType ≠ _; names), firstOf_hit]
  unfold readMapping
  rw [h1]
  simp only [Res.bind, h2, if_true]

/-- C47: a mapping of a class that is not one of the three known ones is read as a null pointer. -/
theorem C47_unknown_class (k : Rat) (g cls : Name) (es : List Entry) (hn : ∀ e ∈ es, plainName (nameOf e))
    (h0 : (0 : UInt8) ∉ cls) (h1 : cls ≠ nullClass) (h2 : cls ≠ matrixClass) (h3 : cls ≠ frustumClass) :
    readMapping k (groupKids g (mappingEntries cls es)) = .null := by
  have hs : strAttr kMappingType (groupKids g (mappingEntries cls es)) = .ok cls := by
    refine strAttr_get g _ _ _ (fixed_ok kMappingType (by simp)).1 ?_ (firstOf_hit _ _ _ _) h0
    intro e he
    simp only [mappingEntries, List.mem_cons] at he
    rcases he with rfl | he
    · exact (fixed_ok kMappingType (by simp)).2
    · exact hn e he
  unfold readMapping
  rw [hs]
  simp only [Res.bind]
  rw [if_neg h1, if_neg h2, if_neg h3]

example : (∀ e ∈ nullEntries, plainName (nameOf e)) ∧ (0 : UInt8) ∉ ([77, 121] : Name) ∧ ([77, 121] : Name) ≠ nullClass ∧
    ([77, 121] : Name) ≠ matrixClass ∧ ([77, 121] : Name) ≠ frustumClass := by
  refine ⟨?_, by decide, by decide, by decide, by decide⟩
  intro e he
  simp only [nullEntries, List.mem_singleton] at he
  subst he
  exact (fixed_ok kNullData (by simp)).2

/-! ## Frustum mappings -/

/-- The transforms given to a frustum, the last for every time; without any call, the default. -/
theorem frustum_table (k : Rat) (m0 m : Frustum) (h0 : Frustum.new k = some m0) (calls : List (Rat × M44 × M44))
    (h : runCalls m0 calls = some m) (hz : calls = [] ∨ ∃ c ∈ calls, c.1 = 0) :
    ∃ T : Curve (M44 × M44), T ≠ [] ∧ Curve.Sorted T ∧ Table T m ∧ m.ssToWsCurve = T.map (fun s => (s.1, s.2.1)) := by
  by_cases hne : calls = []
  · subst hne
    simp only [runCalls, List.foldlM_nil, Option.pure_def, Option.some.injEq] at h
    subst h
    exact ⟨_, by simp, by simp [Curve.Sorted], new_table k _ h0, by rw [(new_fields k _ h0).2.2.2]; rfl⟩
  · have hz' := hz.resolve_left hne
    obtain ⟨t, _⟩ := run_table k m0 m h0 calls hne h
    refine ⟨Curve.build calls, ?_, (Curve.build_spec _).1, t, ?_⟩
    · obtain ⟨c, hc, _⟩ := hz'
      intro he
      have hl : ∀ (h : List (Rat × M44 × M44)) (c : Rat × M44 × M44), c ∈ h → Curve.lastFor c.1 h ≠ none := by
        intro h
        induction h with
        | nil => intro c hc; simp at hc
        | cons b l ih =>
          intro c hc hn
          simp only [Curve.lastFor] at hn
          split at hn
          · simp at hn
          · rename_i hn'
            rcases List.mem_cons.1 hc with rfl | hc
            · simp at hn
            · exact ih c hc hn'
      cases hl' : Curve.lastFor c.1 calls with
      | none => exact hl calls c hc hl'
      | some v =>
        have := ((Curve.build_spec calls).2 c.1 v).2 hl'
        rw [he] at this
        simp at this
    · rw [(C54_frustum_samples k m0 m h0 calls hne h).2.2, build_overwritten, build_map (fun v : M44 × M44 => v.1)]
      obtain ⟨c, hc, e⟩ := hz'
      exact ⟨(c.1, c.2.1), List.mem_map.2 ⟨c, hc, rfl⟩, e⟩

/-- C47: writing a frustum mapping reads beyond the end of the camera samples unless no transforms were given, or some
were given for time 0. The same holds for both file formats. -/
theorem C47_frustum_write_defined (k : Rat) (m0 m : Frustum) (h0 : Frustum.new k = some m0)
    (calls : List (Rat × M44 × M44)) (h : runCalls m0 calls = some m) (ss cs : List BSample)
    (hs : curveVal ss = some m.ssToWsCurve) (hc : curveVal cs = some m.csToWsCurve) (d : ZDist) :
    ((frustumEntries ss cs d).isSome ↔ calls = [] ∨ ∃ c ∈ calls, c.1 = 0) ∧
    ((hWriteFrustum ss cs d).isSome ↔ calls = [] ∨ ∃ c ∈ calls, c.1 = 0) := by
  have e : ss.length ≤ cs.length ↔ calls = [] ∨ ∃ c ∈ calls, c.1 = 0 := by
    rw [← curveVal_length _ _ hs, ← curveVal_length _ _ hc]
    constructor
    · intro hle
      by_contra hz
      have hne : calls ≠ [] := fun h => hz (Or.inl h)
      obtain ⟨_, a2, a3⟩ := C54_frustum_samples k m0 m h0 calls hne h
      rw [a2, a3, build_kept, build_map (fun v : M44 × M44 => v.1), build_map (fun v : M44 × M44 => v.2)] at hle
      · simp only [List.length_map] at hle
        omega
      · intro s hs e
        obtain ⟨c, hc, rfl⟩ := List.mem_map.1 hs
        exact hz (Or.inr ⟨c, hc, e⟩)
    · intro hz
      obtain ⟨T, _, _, t, hT⟩ := frustum_table k m0 m h0 calls h hz
      rw [hT, t.2.1, List.length_map, List.length_map]
  rw [← e]
  constructor
  · unfold frustumEntries
    rw [Option.isSome_map, (frustum_isSome ss cs 0).1, decide_eq_true_iff]
  · unfold hWriteFrustum
    rw [Option.isSome_map, (frustum_isSome ss cs 0).2, decide_eq_true_iff]

/-- Two frustum mappings that place every point at the same spot at every time. -/
def SameFrustum (m m' : Frustum) : Prop :=
  m'.zDist = m.zDist ∧
  (∀ p t, m'.localToWorldAt p t = m.localToWorldAt p t ∧ m'.worldToLocalAt p t = m.worldToLocalAt p t)

theorem sameFrustum_of_table (T : Curve (M44 × M44)) (m m' : Frustum) (h : Table T m) (h' : Table T m')
    (hz : m'.zDist = m.zDist) : SameFrustum m m' := by
  obtain ⟨a1, a2, a3, a4, _⟩ := h
  obtain ⟨b1, b2, b3, b4, _⟩ := h'
  refine ⟨hz, fun p t => ⟨?_, ?_⟩⟩
  · unfold Frustum.localToWorldAt
    rw [hz, a1, a2, a3, a4, b1, b2, b3, b4]
  · unfold Frustum.worldToLocalAt
    rw [hz, a1, a2, a3, a4, b1, b2, b3, b4]

theorem build_sorted' {T : Type} (c : Curve T) (h : Curve.Sorted c) : Curve.build c = c := by
  have := Mapping.fold_map (fun x : T => x) c h
  simpa [Curve.build] using this

/-- C47: a frustum mapping that can be written to an HDF5 file, after any calls of `setTransforms` and
`setZDistribution`, is read back as one that places every point at the same spot at every time. -/
theorem C47_frustum_hdf5_round_trip (k : Rat) (m0 m : Frustum) (h0 : Frustum.new k = some m0)
    (calls : List (Rat × M44 × M44)) (h : runCalls m0 calls = some m) (ss cs : List BSample)
    (hs : curveVal ss = some m.ssToWsCurve) (hc : curveVal cs = some m.csToWsCurve) (d : ZDist)
    (g : HGroup) (hg : hWriteFrustum ss cs d = some g) :
    ∃ m', hReadFrustum k g = .ok (some m') ∧ SameFrustum (m.setZDistribution d) m' := by
  have hz := ((C47_frustum_write_defined k m0 m h0 calls h ss cs hs hc d).2).1 (by rw [hg]; rfl)
  obtain ⟨T, hT, hsort, t, hss⟩ := frustum_table k m0 m h0 calls h hz
  have hl : ss.length = cs.length := by
    rw [← curveVal_length _ _ hs, ← curveVal_length _ _ hc, hss, t.2.1, List.length_map, List.length_map]
  rw [hss] at hs
  rw [t.2.1] at hc
  obtain ⟨f1, f2, f3, _⟩ := new_fields k m0 h0
  obtain ⟨m1, hm1⟩ := runCalls_some m0 f1 true f3 T t.2.2.2.2
  obtain ⟨t1, _⟩ := run_table k m0 m1 h0 T hT hm1
  rw [build_sorted' T hsort] at t1
  refine ⟨m1.setZDistribution d, ?_, sameFrustum_of_table T _ _ t t1 rfl⟩
  rw [hReadFrustum_ok k ss cs d g hl hg]
  unfold frustumOf
  rw [zip_val T ss cs hs hc, h0]
  simp only [Option.bind_some]
  unfold runCalls at hm1
  rw [hm1]
  rfl

/-! ## Incomplete groups -/

theorem firstOf_without (k : Kind) (nm nm' : Name) (es : List Entry) (h : nm' ≠ nm) :
    firstOf k nm' (es.filter fun x => nameOf x ≠ nm) = firstOf k nm' es := by
  unfold firstOf
  rw [List.find?_filter]
  congr 1
  funext x
  by_cases h1 : nameOf x = nm'
  · simp [h1, h]
  · simp [h1]

theorem matrix_loop_missing (kids : List Tree) : ∀ (n i : Nat),
    (∀ j < n, ((∃ v, attr .float32 (timeName (i + j)) kids = .ok v) ∨ attr .float32 (timeName (i + j)) kids = .exception) ∧
      ((∃ v, attr .mtx64 (matrixName (i + j)) kids = .ok v) ∨ attr .mtx64 (matrixName (i + j)) kids = .exception)) →
    (∃ j < n, attr .float32 (timeName (i + j)) kids = .exception ∨ attr .mtx64 (matrixName (i + j)) kids = .exception) →
    readMatrixSamples kids i n = .null
  | 0, _, _, h => by obtain ⟨j, hj, -⟩ := h; omega
  | n + 1, i, h, hb => by
    obtain ⟨h1, h2⟩ := h 0 (by omega)
    rw [Nat.add_zero] at h1 h2
    simp only [readMatrixSamples]
    rcases h1 with ⟨v, h1⟩ | h1
    · rcases h2 with ⟨w, h2⟩ | h2
      · have ih := matrix_loop_missing kids n (i + 1)
          (fun j hj => by have := h (j + 1) (by omega); rwa [show i + (j + 1) = i + 1 + j by omega] at this) (by
            obtain ⟨j, hj, hb⟩ := hb
            cases j with
            | zero => rw [Nat.add_zero, h1, h2] at hb; simp at hb
            | succ j => exact ⟨j, by omega, by rwa [show i + (j + 1) = i + 1 + j by omega] at hb⟩)
        rw [h1, h2, ih]
        rfl
      · rw [h1, h2]; rfl
    · rw [h1]; rfl

/-- C47: if the number of samples, or the time or matrix of a sample, is missing in the group of a matrix mapping, no
mapping is read: a null pointer, not a mapping with other samples. -/
theorem C47_incomplete_matrix (k : Rat) (g : Name) (l : List BSample) (hl : l.length < 2 ^ 31) (nm : Name)
    (h : nm = kNumSamples ∨ ∃ i < l.length, nm = timeName i ∨ nm = matrixName i) :
    readMapping k (groupKids g ((mappingEntries matrixClass (matrixEntries l)).filter fun x => nameOf x ≠ nm)) = .null := by
  generalize hes : (mappingEntries matrixClass (matrixEntries l)).filter (fun x => nameOf x ≠ nm) = es
  have hn0 : ∀ e ∈ mappingEntries matrixClass (matrixEntries l), plainName (nameOf e) := by
    intro e he
    simp only [mappingEntries, matrixEntries, List.mem_cons] at he
    rcases he with rfl | rfl | he
    · exact (fixed_ok kMappingType (by simp)).2
    · exact (fixed_ok kNumSamples (by simp)).2
    · exact (numbered_ok _ (matrix_names l 0 e he)).2
  have hn : ∀ e ∈ es, plainName (nameOf e) := by
    intro e he
    rw [← hes] at he
    exact hn0 e (List.mem_filter.1 he).1
  have hmiss : ∀ t, (47 : UInt8) ∉ nm → attr t nm (groupKids g es) = .exception := by
    intro t hs
    have := (C36_absent g nm t es hs hn (by
      intro e he hk
      rw [← hes] at he
      have := (List.mem_filter.1 he).2
      simp only [decide_eq_true_eq] at this
      exact this hk.2)).1
    simp only [attr, this]
  have hkeep : ∀ nm', nm' ≠ nm → firstOf .attribute nm' es = firstOf .attribute nm' (mappingEntries matrixClass (matrixEntries l)) := by
    intro nm' hne
    rw [← hes]
    exact firstOf_without _ _ _ _ hne
  have hcls : kMappingType ≠ nm := by
    rcases h with rfl | ⟨i, -, rfl | rfl⟩ <;> names
  have hs : strAttr kMappingType (groupKids g es) = .ok matrixClass := by
    refine strAttr_get g _ _ _ (fixed_ok kMappingType (by simp)).1 hn ?_ (by decide)
    rw [hkeep _ hcls]
    exact firstOf_hit _ _ _ _
  unfold readMapping
  rw [hs]
  simp only [Res.bind, show ¬ matrixClass = nullClass by decide, if_false, if_true]
  unfold readMatrix
  rcases h with rfl | ⟨i, hi, h⟩
  · rw [hmiss _ (fixed_ok kNumSamples (by simp)).1]
    rfl
  have hnum : attr .int32 kNumSamples (groupKids g es) = .ok (encInt l.length) := by
    refine attr_get g _ _ _ _ (fixed_ok kNumSamples (by simp)).1 hn ?_ (by decide) rfl
    rw [hkeep _ (by rcases h with rfl | rfl <;> names)]
    unfold mappingEntries matrixEntries
    rw [firstOf_miss _ _ _ (by show kMappingType ≠ _; names), firstOf_hit]
  rw [hnum]
  simp only [orNull, Res.bind]
  rw [decInt_len _ hl, matrix_loop_missing]
  · intro j hj
    have h1 := matrix_first l [] 0 j l[j] (List.getElem?_eq_getElem hj)
    rw [List.append_nil] at h1
    constructor
    · by_cases e : timeName (0 + j) = nm
      · right; rw [e]; exact hmiss _ (e ▸ (numbered_ok _ ⟨0 + j, Or.inl rfl⟩).1)
      · left
        refine ⟨_, attr_get g _ _ (encWord l[j].1) _ (numbered_ok _ ⟨0 + j, Or.inl rfl⟩).1 hn ?_ (by decide) rfl⟩
        rw [hkeep _ e]
        unfold mappingEntries matrixEntries
        rw [firstOf_miss _ _ _ (by show kMappingType ≠ _; names), firstOf_miss _ _ _ (by show kNumSamples ≠ _; names)]
        exact h1.1
    · by_cases e : matrixName (0 + j) = nm
      · right; rw [e]; exact hmiss _ (e ▸ (numbered_ok _ ⟨0 + j, Or.inr (Or.inl rfl)⟩).1)
      · left
        refine ⟨_, attr_get g _ _ (encMat l[j].2) _ (numbered_ok _ ⟨0 + j, Or.inr (Or.inl rfl)⟩).1 hn ?_ (by decide)
          (encMat_length _)⟩
        rw [hkeep _ e]
        unfold mappingEntries matrixEntries
        rw [firstOf_miss _ _ _ (by show kMappingType ≠ _; names), firstOf_miss _ _ _ (by show kNumSamples ≠ _; names)]
        exact h1.2
  · refine ⟨i, hi, ?_⟩
    rw [Nat.zero_add]
    rcases h with rfl | rfl
    · exact .inl (hmiss _ (numbered_ok _ ⟨i, Or.inl rfl⟩).1)
    · exact .inr (hmiss _ (numbered_ok _ ⟨i, Or.inr (Or.inl rfl)⟩).1)

/-- Just one matrix is lost from the file of two samples. -/
example : readMapping 1 (groupKids [] ((mappingEntries matrixClass (matrixEntries sampleBits)).filter
      fun x => nameOf x ≠ matrixName 1)) = .null ∧
    ((mappingEntries matrixClass (matrixEntries sampleBits)).filter fun x => nameOf x ≠ matrixName 1).length + 1 =
      (mappingEntries matrixClass (matrixEntries sampleBits)).length :=
  ⟨C47_incomplete_matrix 1 [] sampleBits (by decide +kernel) _ (.inr ⟨1, by decide +kernel, .inr rfl⟩), by decide +kernel⟩

/-! ## Numbers -/

theorem ieee_magnitude (mb a b : Nat) (hab : a < b) :
    (if a / 2 ^ mb = 0 then a % 2 ^ mb * 2 else (2 ^ mb + a % 2 ^ mb) * 2 ^ (a / 2 ^ mb)) <
      (if b / 2 ^ mb = 0 then b % 2 ^ mb * 2 else (2 ^ mb + b % 2 ^ mb) * 2 ^ (b / 2 ^ mb) : Nat) := by
  have hp : 0 < 2 ^ mb := Nat.two_pow_pos mb
  have ha := Nat.div_add_mod a (2 ^ mb)
  have hb := Nat.div_add_mod b (2 ^ mb)
  have la := Nat.mod_lt a hp
  have lb := Nat.mod_lt b hp
  have hle : a / 2 ^ mb ≤ b / 2 ^ mb := Nat.div_le_div_right hab.le
  generalize 2 ^ mb = M at *
  generalize a / M = x at *
  generalize b / M = y at *
  generalize a % M = u at *
  generalize b % M = v at *
  rcases Nat.lt_or_ge x y with h | h
  · rw [if_neg (show ¬ y = 0 by omega)]
    have h2 : 2 ^ (x + 1) ≤ 2 ^ y := Nat.pow_le_pow_right (by omega) h
    have h3 : M * 2 ^ (x + 1) ≤ (M + v) * 2 ^ y := Nat.mul_le_mul (by omega) h2
    have h4 : 0 < 2 ^ x := Nat.two_pow_pos x
    split
    · subst x
      simp only [Nat.zero_add, Nat.pow_one] at h3
      omega
    · have : (M + u) * 2 ^ x < M * 2 ^ (x + 1) := by
        rw [Nat.pow_succ]
        nlinarith
      omega
  · have hxy : x = y := by omega
    subst hxy
    have huv : u < v := by omega
    split
    · omega
    · exact Nat.mul_lt_mul_of_pos_right (by omega) (Nat.two_pow_pos x)

/-- The value of the bits below the sign. -/
theorem ieee_value (eb mb n : Nat) (x : Rat) (h : ieee eb mb n = some x) : ∃ s : Rat, (s = 1 ∨ s = -1) ∧
    (s = -1 ↔ n / 2 ^ (eb + mb) % 2 = 1) ∧
    x = s * ((if n % 2 ^ (eb + mb) / 2 ^ mb = 0 then n % 2 ^ (eb + mb) % 2 ^ mb * 2
      else (2 ^ mb + n % 2 ^ (eb + mb) % 2 ^ mb) * 2 ^ (n % 2 ^ (eb + mb) / 2 ^ mb) : Nat) : Rat) /
      2 ^ (2 ^ (eb - 1) - 1 + mb) := by
  have e1 : n % 2 ^ (eb + mb) % 2 ^ mb = n % 2 ^ mb :=
    Nat.mod_mod_of_dvd n (by rw [Nat.pow_add]; exact Nat.dvd_mul_left _ _)
  have e2 : n % 2 ^ (eb + mb) / 2 ^ mb = n / 2 ^ mb % 2 ^ eb := by
    rw [Nat.add_comm, Nat.pow_add, Nat.mod_mul_right_div_self]
  rw [e1, e2]
  refine ⟨if n / 2 ^ (eb + mb) % 2 = 1 then -1 else 1, by split <;> simp, by split <;> simp_all; norm_num, ?_⟩
  unfold ieee at h
  dsimp only at h
  split at h
  · simp at h
  · split at h
    · rename_i h1
      rw [if_pos h1, ← Option.some.inj h]
      push_cast
      rfl
    · rename_i h1
      rw [if_neg h1, ← Option.some.inj h]
      push_cast
      rfl

/-- C47: numbers with the same value have the same bits, unless they are the two zeros: a mapping that is read back with the
values it had has its bits, too. -/
theorem C47_numbers_distinct (eb mb a b : Nat) (x : Rat) (ha : a < 2 ^ (eb + mb + 1)) (hb : b < 2 ^ (eb + mb + 1))
    (h1 : ieee eb mb a = some x) (h2 : ieee eb mb b = some x) : a = b ∨ x = 0 := by
  obtain ⟨s, hs, hs', hx⟩ := ieee_value eb mb a x h1
  obtain ⟨t, ht, ht', hy⟩ := ieee_value eb mb b x h2
  have hsc : (2 : Rat) ^ (2 ^ (eb - 1) - 1 + mb) ≠ 0 := by positivity
  have hp : 0 < 2 ^ (eb + mb) := Nat.two_pow_pos _
  have m1 := ieee_magnitude mb (a % 2 ^ (eb + mb)) (b % 2 ^ (eb + mb))
  have m2 := ieee_magnitude mb (b % 2 ^ (eb + mb)) (a % 2 ^ (eb + mb))
  have da := Nat.div_add_mod a (2 ^ (eb + mb))
  have db := Nat.div_add_mod b (2 ^ (eb + mb))
  have qa : a / 2 ^ (eb + mb) < 2 := Nat.div_lt_of_lt_mul (by rwa [Nat.pow_succ] at ha)
  have qb : b / 2 ^ (eb + mb) < 2 := Nat.div_lt_of_lt_mul (by rwa [Nat.pow_succ] at hb)
  generalize (2 : Rat) ^ (2 ^ (eb - 1) - 1 + mb) = c at *
  generalize (if a % 2 ^ (eb + mb) / 2 ^ mb = 0 then a % 2 ^ (eb + mb) % 2 ^ mb * 2
      else (2 ^ mb + a % 2 ^ (eb + mb) % 2 ^ mb) * 2 ^ (a % 2 ^ (eb + mb) / 2 ^ mb)) = A at *
  generalize (if b % 2 ^ (eb + mb) / 2 ^ mb = 0 then b % 2 ^ (eb + mb) % 2 ^ mb * 2
      else (2 ^ mb + b % 2 ^ (eb + mb) % 2 ^ mb) * 2 ^ (b % 2 ^ (eb + mb) / 2 ^ mb)) = B at *
  generalize a % 2 ^ (eb + mb) = ra at *
  generalize b % 2 ^ (eb + mb) = rb at *
  generalize a / 2 ^ (eb + mb) = ga at *
  generalize b / 2 ^ (eb + mb) = gb at *
  have hxy : s * (A : Rat) = t * (B : Rat) := by
    have := hx.symm.trans hy
    rwa [div_left_inj' hsc] at this
  have key : s = t → a = b := by
    intro e
    subst e
    have hAB : (A : Rat) = B := by
      rcases hs with rfl | rfl
      · simpa using hxy
      · simpa using hxy
    have hAB : A = B := by exact_mod_cast hAB
    have hr : ra = rb := by
      rcases Nat.lt_trichotomy ra rb with h | h | h
      · have := m1 h; omega
      · exact h
      · have := m2 h; omega
    have hg : ga = gb := by
      have : ga % 2 = 1 ↔ gb % 2 = 1 := hs'.symm.trans ht'
      omega
    rw [← da, ← db, hr, hg]
  have hA0 : (0 : Rat) ≤ A := Nat.cast_nonneg A
  have hB0 : (0 : Rat) ≤ B := Nat.cast_nonneg B
  rcases hs with rfl | rfl <;> rcases ht with rfl | rfl
  · exact .inl (key rfl)
  · right
    have : (A : Rat) = 0 := by linarith
    rw [hx, this]; simp
  · right
    have : (A : Rat) = 0 := by linarith
    rw [hx, this]; simp
  · exact .inl (key rfl)

/-- A denormal number. -/
example : floatVal 3 = some (3 / 2 ^ 149) := by decide +kernel

theorem hget_append (g : HGroup) (p : Name × HVal) (nm : Name) (h : p.1 ≠ nm) : hget (g ++ [p]) nm = hget g nm := by
  unfold hget
  rw [List.find?_append]
  cases g.find? fun q => q.1 = nm with
  | none => simp [h]
  | some x => simp

theorem readSamples_append (g : HGroup) (v : HVal) : ∀ n i,
    hReadFrustumSamples (g ++ [(kZDist, v)]) i n = hReadFrustumSamples g i n
  | 0, _ => rfl
  | n + 1, i => by
    have h1 := (numbered_ne (timeName i) ⟨i, .inl rfl⟩).1
    have h2 := (numbered_ne (screenName i) ⟨i, .inr (.inr (.inl rfl))⟩).1
    have h3 := (numbered_ne (cameraName i) ⟨i, .inr (.inr (.inr rfl))⟩).1
    simp only [hReadFrustumSamples, hgetFloat, hget4x4]
    rw [hget_append _ _ _ (Ne.symm h1), hget_append _ _ _ (Ne.symm h2), hget_append _ _ _ (Ne.symm h3),
      readSamples_append g v n (i + 1)]

/-- C47: a frustum mapping in an HDF5 file that states no distribution of slices, as files of earlier versions, is read as
one with the perspective distribution, the transforms as they were written. -/
theorem C47_frustum_hdf5_no_distribution (k : Rat) (m0 m : Frustum) (h0 : Frustum.new k = some m0)
    (calls : List (Rat × M44 × M44)) (h : runCalls m0 calls = some m) (ss cs : List BSample)
    (hs : curveVal ss = some m.ssToWsCurve) (hc : curveVal cs = some m.csToWsCurve) (d : ZDist)
    (g : HGroup) (hg : hWriteFrustum ss cs d = some g) :
    ∃ m', hReadFrustum k (g.filter fun p => p.1 ≠ kZDist) = .ok (some m') ∧ SameFrustum (m.setZDistribution .perspective) m' := by
  simp only [hWriteFrustum, Option.map_eq_some_iff] at hg
  obtain ⟨g', hg', rfl⟩ := hg
  have hk := hfrustum_keys ss cs 0 g' hg'
  have e1 : ((kNumSamples, HVal.int ss.length) :: (g' ++ [(kZDist, HVal.int (distCode d))])).filter (fun p => p.1 ≠ kZDist) =
      (kNumSamples, HVal.int ss.length) :: g' := by
    rw [List.filter_cons_of_pos (by exact decide_eq_true (show kNumSamples ≠ kZDist by decide)), List.filter_append, List.filter_eq_self.2]
    · simp
    · intro p hp
      simpa using (numbered_ne _ (hk p hp)).1
  have e2 : hWriteFrustum ss cs .perspective =
      some (((kNumSamples, HVal.int ss.length) :: g') ++ [(kZDist, HVal.int (distCode .perspective))]) := by
    rw [hWriteFrustum, hg']; rfl
  obtain ⟨m', h1, h2⟩ := C47_frustum_hdf5_round_trip k m0 m h0 calls h ss cs hs hc .perspective _ e2
  refine ⟨m', ?_, h2⟩
  rw [e1, ← h1]
  have hn : hget ((kNumSamples, HVal.int ss.length) :: g') kZDist = none := by
    unfold hget
    rw [Option.map_eq_none_iff, List.find?_eq_none]
    intro p hp
    simp only [List.mem_cons] at hp
    rcases hp with rfl | hp
    · simpa using (show kNumSamples ≠ kZDist by decide)
    · simpa using (numbered_ne _ (hk p hp)).1
  have hz : hget (((kNumSamples, HVal.int ss.length) :: g') ++ [(kZDist, HVal.int (distCode .perspective))]) kZDist =
      some (.int (distCode .perspective)) := by
    unfold hget at hn ⊢
    rw [Option.map_eq_none_iff] at hn
    rw [List.find?_append, hn]
    simp
  unfold hReadFrustum
  rw [readSamples_append]
  simp only [hgetInt]
  rw [hget_append _ _ kNumSamples (by decide), hn, hz]
  rfl

/-- C47: reading a frustum mapping from an Ogawa file loses all transforms: whatever was written, the default frustum
is returned, with the distribution of slices that was written. -/
theorem C47_frustum_ogawa_forgets (k : Rat) (g : Name) (ss cs : List BSample) (d : ZDist) (es : List Entry)
    (he : frustumEntries ss cs d = some es) :
    readMapping k (groupKids g (mappingEntries frustumClass es)) =
      .ok ((Frustum.new k).map fun m => .frustum (m.setZDistribution d)) := by
  simp only [frustumEntries, Option.map_eq_some_iff] at he
  obtain ⟨es', he', rfl⟩ := he
  have hnum := frustum_names ss cs 0 es' he'
  have hn : ∀ e ∈ mappingEntries frustumClass (.attribute kNumSamples .int32 (encInt ss.length) ::
      (es' ++ [.attribute kZDist .int32 (encInt (distCode d))])), plainName (nameOf e) := by
    intro e he
    simp only [mappingEntries, List.mem_cons, List.mem_append, List.not_mem_nil, or_false] at he
    rcases he with rfl | rfl | he | rfl
    · exact (fixed_ok kMappingType (by simp)).2
    · exact (fixed_ok kNumSamples (by simp)).2
    · exact (numbered_ok _ (hnum e he)).2
    · exact (fixed_ok kZDist (by simp)).2
  have h1 := strAttr_get g kMappingType frustumClass _ (fixed_ok kMappingType (by simp)).1 hn (firstOf_hit _ _ _ _) (by decide)
  have h2 := attr_get g kNumSamples .int32 (encInt ss.length) _ (fixed_ok kNumSamples (by simp)).1 hn (by
    unfold mappingEntries
    rw [firstOf_miss _ _ _ (by show kMappingType ≠ _; names), firstOf_hit]) (by decide) rfl
  have h3 := attr_get g kZDist .int32 (encInt (distCode d)) _ (fixed_ok kZDist (by simp)).1 hn (by
    unfold mappingEntries
    rw [firstOf_miss _ _ _ (by show kMappingType ≠ _; names), firstOf_miss _ _ _ (by show kNumSamples ≠ _; names)]
    clear hn h1 h2 he'
    induction es' with
    | nil => exact firstOf_hit _ _ _ _
    | cons e l ih =>
      rw [List.cons_append, firstOf_miss _ _ _ (numbered_ne _ (hnum e (by simp))).1]
      exact ih (fun e he => hnum e (List.mem_cons_of_mem _ he))) (by decide) rfl
  unfold readMapping
  rw [h1]
  simp only [Res.bind]
  rw [if_neg (by decide), if_neg (by decide)]
  simp only [if_true]
  unfold readFrustum
  rw [h2, h3]
  have hd : distOf (decInt (encInt (distCode d))) = some d := by cases d <;> decide
  simp only [orNull, Res.bind, readFrustumSamples, hd, frustumOf, List.mapM_nil, Option.pure_def, Option.bind_some,
    List.foldlM_nil]
  cases Frustum.new k <;> rfl

/-- A camera five units along x, with the default lens; its bits. -/
def movedCalls : List (Rat × M44 × M44) :=
  [(0, (standardSsToWs 2).mul (M44.setTranslation ⟨5, 0, 0⟩), M44.setTranslation ⟨5, 0, 0⟩)]
def movedCam : List BSample :=
  [(0, ⟨oneRow, ⟨0, 0x3FF0000000000000, 0, 0⟩, ⟨0, 0, 0x3FF0000000000000, 0⟩, ⟨0x4014000000000000, 0, 0, 0x3FF0000000000000⟩⟩)]

def movedScreen : List BSample :=
  [(0, ⟨⟨0x3FE0000000000000, 0, 0, 0⟩, ⟨0, 0x3FE0000000000000, 0, 0⟩, ⟨0xC004000000000000, 0, 0, 0xBFE0000000000000⟩,
    ⟨0x4014000000000000, 0, 0xBFF0000000000000, 0x3FF0000000000000⟩⟩)]

/-- The state of the moved camera. -/
def movedFrustum : Option Frustum := (Frustum.new 2).bind fun m => runCalls m movedCalls

/-- C47: a frustum with a moved camera is written to an Ogawa file and read back at another place. -/
theorem C47_frustum_ogawa_witness : ∃ m0 m es m',
    Frustum.new 2 = some m0 ∧ runCalls m0 movedCalls = some m ∧
    curveVal movedScreen = some m.ssToWsCurve ∧ curveVal movedCam = some m.csToWsCurve ∧
    frustumEntries movedScreen movedCam .perspective = some es ∧
    readMapping 2 (groupKids kMapping (mappingEntries frustumClass es)) = .ok (some (.frustum m')) ∧
    m.localToWorldAt ⟨1 / 2, 1 / 2, 0⟩ 0 = some ⟨5, 0, -1⟩ ∧ m'.localToWorldAt ⟨1 / 2, 1 / 2, 0⟩ 0 = some ⟨0, 0, -1⟩ := by
  have h0 : (Frustum.new 2).isSome = true := by decide +kernel
  obtain ⟨m0, hm0⟩ := Option.isSome_iff_exists.1 h0
  have h1 : movedFrustum.isSome = true := by decide +kernel
  obtain ⟨m, hm⟩ := Option.isSome_iff_exists.1 h1
  have h2 : (frustumEntries movedScreen movedCam .perspective).isSome = true := by decide +kernel
  obtain ⟨es, hes⟩ := Option.isSome_iff_exists.1 h2
  have a : movedFrustum.map (fun m => (m.ssToWsCurve, m.csToWsCurve, m.localToWorldAt ⟨1 / 2, 1 / 2, 0⟩ 0)) =
      (curveVal movedScreen).bind fun s => (curveVal movedCam).map fun c => (s, c, some ⟨5, 0, -1⟩) := by decide +kernel
  have b : (Frustum.new 2).map (fun m => (m.setZDistribution .perspective).localToWorldAt ⟨1 / 2, 1 / 2, 0⟩ 0) =
      some (some ⟨0, 0, -1⟩) := by decide +kernel
  refine ⟨m0, m, es, m0.setZDistribution .perspective, hm0, ?_, ?_, ?_, hes, ?_, ?_, ?_⟩
  · unfold movedFrustum at hm; rw [hm0] at hm; exact hm
  · rw [hm] at a
    cases hs : curveVal movedScreen with
    | none => rw [hs] at a; simp at a
    | some x => cases hc : curveVal movedCam with
      | none => rw [hs, hc] at a; simp at a
      | some y => rw [hs, hc] at a; simp only [Option.map_some, Option.bind_some, Option.some.injEq, Prod.mk.injEq] at a; rw [a.1]
  · rw [hm] at a
    cases hs : curveVal movedScreen with
    | none => rw [hs] at a; simp at a
    | some x => cases hc : curveVal movedCam with
      | none => rw [hs, hc] at a; simp at a
      | some y => rw [hs, hc] at a; simp only [Option.map_some, Option.bind_some, Option.some.injEq, Prod.mk.injEq] at a; rw [a.2.1]
  · rw [C47_frustum_ogawa_forgets 2 kMapping _ _ _ es hes, hm0]; rfl
  · rw [hm] at a
    cases hs : curveVal movedScreen with
    | none => rw [hs] at a; simp at a
    | some x => cases hc : curveVal movedCam with
      | none => rw [hs, hc] at a; simp at a
      | some y => rw [hs, hc] at a; simp only [Option.map_some, Option.bind_some, Option.some.injEq, Prod.mk.injEq] at a; exact a.2.2
  · rw [hm0] at b; simpa using b

/-- The moved camera meets the hypotheses of the round trip through HDF5. -/
example : (hWriteFrustum movedScreen movedCam .uniform).isSome = true := by decide +kernel

end Props
end F3D
