import Verif.Props.Hdf5FilesLimits
import Verif.Model.Hdf5Mip

/-!
# HDF5 files of dense and sparse fields (C80, with C79)
-/

namespace F3D.Props
open F3D F3D.Ogawa F3D.Og F3D.FieldIO F3D.Hdf5
open _root_.F3D.MappingIO (kMapping)
open _root_.F3D.Metadata (Meta)
open _root_.F3D.Files (kGlobal kClassType intName FieldClass Loaded layerPath StrictlySorted Home)

variable {M L α : Type}

/-- Fields that a program can have, of a size that the format can hold. -/
def HeldByFormat [DecidableEq α] (gzip : Bool) (e : Elem α) (zero : α) : AnyField α → Prop
  | .dense f => (∃ ext dw f0 ops, Dense.setSize zero ext dw = .ok f0 ∧ denseRun zero f0 ops = some f) ∧ ValuesFit e f.dw ∧
    (gzip = true → 2 ≤ f.dw.nx * f.dw.ny * f.dw.nz * dims e.type)
  | .sparse f => SparseReachable zero f ∧ BlocksFit e f

theorem any_back [DecidableEq α] (conv : HType → HType → List UInt8 → List UInt8) (gzip : Bool) (maxMem : Nat)
    (hmax : 0 < maxMem) (e : Elem α) (L : Lawful e) (hv : isVoxelType e.type = true) (zero dflt : α) (x : AnyField α)
    (hx : HeldByFormat gzip e zero x) (path : Name) (g : Obj) (hg : FreshLayer g) :
    ∃ g', x.write gzip e g = (.ok, g') ∧ g'.isGroup = true ∧ LayerKept g g' ∧
      getInt kComponents g' = .ok (dims e.type) ∧ readAny conv maxMem e zero dflt path x.cls g' = .ok x := by
  have F := hg.free
  cases x with
  | dense f =>
    obtain ⟨⟨ext, dw, f0, ops, h0, hf⟩, hfit, h2⟩ := hx
    have hw : f0.WF := by
      by_cases hw : dw.isEmpty = true
      · have hb : dw.max.x < dw.min.x ∨ dw.max.y < dw.min.y ∨ dw.max.z < dw.min.z := by
          simpa [Box3i.isEmpty, or_assoc] using hw
        simp [Dense.setSize, hb] at h0
      · obtain ⟨k, hk, kwf, _⟩ := Dense.setSize_ok (dflt := zero) (e := ext) (Bool.eq_false_iff.mpr hw)
        rw [h0] at hk; cases hk; exact kwf
    have wf := dense_run_wf zero ops f0 f hw hf
    obtain ⟨hi, hl⟩ := dense_fits e f wf hfit
    rw [← hl] at h2
    refine ⟨_, writeDense_ok gzip e f g F wf hi h2, rfl, addTo_kept _ _ _,
      getInt_add g F _ _ kComponents _ (by decide) rfl, ?_⟩
    unfold readAny
    rw [if_pos (by rfl), readDense_back conv e L hv dflt f g F wf hi]
    rfl
  | sparse f =>
    obtain ⟨hf, hfit⟩ := hx
    obtain ⟨m, hr⟩ := reachable_refines hf
    have hi := blocks_fit hr.wf hfit
    refine ⟨_, writeSparse_ok gzip e f g F hr.wf hi, rfl, addTo_kept _ _ _,
      getInt_add g F _ _ kComponents _ (by decide) rfl, ?_⟩
    unfold readAny
    have h1 : (AnyField.sparse f).cls ≠ MipIO.denseClass := by
      show MipIO.sparseClass ≠ _
      decide
    rw [if_neg h1, if_pos (by rfl), readSparse_back conv maxMem hmax e L hv zero dflt f g F hr.wf hr.fits hi]
    rfl

/-- **C80 for dense and sparse fields of any voxel type**: a file into which any such fields were written meets what
`C80_read_back`, `C80_writes_succeed` and `C80_listing` ask for, and the value that comes back for a layer is the field that was
written. -/
theorem C80_dense_and_sparse_fit [DecidableEq α] (conv : HType → HType → List UInt8 → List UInt8) (gzip : Bool)
    (maxMem : Nat) (hmax : 0 < maxMem) (e : Elem α) (Le : Lawful e) (hv : isVoxelType e.type = true) (zero dflt : α)
    (C : Hdf5.MapIO M) (cs : List (Hdf5.Call M)) (field : Hdf5.Write M → AnyField α)
    (hf : ∀ w, .write w ∈ cs → HeldByFormat gzip e zero (field w) ∧ w.cls = (field w).cls ∧
      w.body = (field w).write gzip e ∧ w.isVec = decide (dims e.type = 3))
    (hn : ∀ w, .write w ∈ cs → ((47 : UInt8) ∉ w.part ∧ (0 : UInt8) ∉ w.part) ∧ OneStep w.layer ∧ NamesFit w.info ∧
      ∃ g, C.write w.mapping .new = (.ok, g) ∧ g.isGroup = true ∧ named kClassType g.attrs = none) :
    (∀ w, .write w ∈ cs → Fits C w) ∧
      BodiesBack (readAny conv maxMem e zero dflt) (fun _ w => some (field w)) cs := by
  constructor
  · intro w hw
    obtain ⟨h1, h2, h3, h4⟩ := hf w hw
    obtain ⟨n1, n2, n3, n4⟩ := hn w hw
    refine ⟨n1, n2, ?_, n3, n4, ?_⟩
    · rw [h2]
      cases field w
      · show (0 : UInt8) ∉ MipIO.denseClass
        decide
      · show (0 : UInt8) ∉ MipIO.sparseClass
        decide
    · intro g hg
      obtain ⟨g', a, b, c, d, -⟩ := any_back conv gzip maxMem hmax e Le hv zero dflt (field w) h1 [] g hg
      refine ⟨g', by rw [h3]; exact a, b, c, ?_⟩
      rw [d, h4]
      cases e.type <;> rfl
  · intro path w g hw hg
    obtain ⟨h1, h2, h3, h4⟩ := hf w hw
    obtain ⟨g', a, b, c, d, r⟩ := any_back conv gzip maxMem hmax e Le hv zero dflt (field w) h1 path g hg
    rw [h3, a, h2]
    exact r

/-! ## Cases -/

/-- Mappings that are numbers; 9 is of a class that cannot be written. -/
def attrMaps : Hdf5.MapIO Nat := ⟨fun a b => a == b, fun m =>
  if m = 9 then putAttr [109] (.ints [9]) ⨾ fun g => (.failed, g) else putAttr [109] (.ints [m])⟩

def readAttrMap (g : Obj) : Res Nat := (getInt [109] g).bind fun v => if v = 9 then .null else .ok v.toNat

theorem attrMaps_same : SameMaps attrMaps :=
  ⟨fun m => by simp [attrMaps], fun a b h => by simp only [attrMaps, beq_iff_eq] at *; omega,
    fun a b c h k => by simp only [attrMaps, beq_iff_eq] at *; omega⟩

theorem attrMaps_write (m : Nat) (h : m ≠ 9) :
    attrMaps.write m .new = (.ok, .group [([109], .ints [m])] []) ∧
      readAttrMap (.group [([109], .ints [m])] []) = .ok m := by
  constructor
  · simp only [attrMaps, if_neg h]
    rfl
  · unfold readAttrMap getInt getInts
    simp [named, Obj.attrs, Res.bind, show ¬ (m : Int) = 9 by omega]

theorem sampleMeta_fits : NamesFit sampleMeta :=
  ⟨C45_iteration_order false _ (by simp), sampleMeta_plain.1, fun n k k' v v' h h' => (sampleMeta_plain.2.2 n k k' v v' h h').2⟩

/-- A scalar layer. -/
def anyLayer (part layer : Name) (m : Nat) (x : AnyField (UInt8 × UInt8)) : Hdf5.Write Nat :=
  ⟨part, layer, false, m, sampleMeta, x.cls, x.write true half16⟩

/-- Two layers "a" in partitions of the name "p", a third that has the names and the mapping of the first, and one in
partition "q". -/
def sessionCalls : List (Hdf5.Call Nat) :=
  [.write (anyLayer [112] [97] 1 (.dense sampleDense)), .global sampleMeta,
   .write (anyLayer [112] [97] 2 (.sparse rowField)), .write (anyLayer [112] [97] 1 (.sparse rowField)),
   .write (anyLayer [113] [98] 1 (.dense sampleDense))]

theorem session_calls : Session sessionCalls := by
  intro c hc
  simp only [sessionCalls, List.mem_cons, List.not_mem_nil, or_false] at hc
  rcases hc with rfl | rfl | rfl | rfl | rfl
  · exact .inl ⟨_, rfl⟩
  · exact .inr ⟨_, rfl⟩
  · exact .inl ⟨_, rfl⟩
  · exact .inl ⟨_, rfl⟩
  · exact .inl ⟨_, rfl⟩

theorem sampleDense_held : HeldByFormat true half16 (0, 0) (.dense sampleDense) :=
  ⟨⟨⟨⟨0, 0, 0⟩, ⟨1, 0, 0⟩⟩, ⟨⟨-1, 0, 0⟩, ⟨1, 1, 0⟩⟩, sampleDense0, [.write ⟨-1, 1, 0⟩ (7, 8)], by rfl, by rfl⟩,
    by unfold ValuesFit; decide, by decide⟩

theorem rowField_held : HeldByFormat true half16 (0, 0) (.sparse rowField) :=
  ⟨rowField_reachable, by unfold BlocksFit; decide⟩

theorem anyLayer_fits (part layer : Name) (m : Nat) (x : AnyField (UInt8 × UInt8)) (hx : HeldByFormat true half16 (0, 0) x)
    (hp : (47 : UInt8) ∉ part ∧ (0 : UInt8) ∉ part) (hl : OneStep layer) (h9 : m ≠ 9) :
    Fits attrMaps (anyLayer part layer m x) ∧
      ∀ path g, FreshLayer g → readAny (fun _ _ b => b) 3 half16 (0, 0) (0, 0) path (anyLayer part layer m x).cls
        ((anyLayer part layer m x).body g).2 = .ok x := by
  have h := C80_dense_and_sparse_fit (fun _ _ b => b) true 3 (by omega) half16 half16_lawful rfl (0, 0) (0, 0) attrMaps
    [.write (anyLayer part layer m x)] (fun _ => x)
    (fun w hw => by
      simp only [List.mem_singleton, Hdf5.Call.write.injEq] at hw
      subst hw
      exact ⟨hx, rfl, rfl, rfl⟩)
    (fun w hw => by
      simp only [List.mem_singleton, Hdf5.Call.write.injEq] at hw
      subst hw
      exact ⟨hp, hl, sampleMeta_fits, _, (attrMaps_write m h9).1, rfl, by
        have hk : ([109] : Name) ≠ kClassType := by decide
        show named kClassType [([109], _)] = none
        rw [named, if_neg hk]; rfl⟩)
  exact ⟨h.1 _ (by simp), fun path g hg => h.2 path _ g (by simp) hg⟩

theorem one_step_a : OneStep [97] := ⟨by decide, by decide, by decide, by decide⟩
theorem one_step_b : OneStep [98] := ⟨by decide, by decide, by decide, by decide⟩

/-- What was written in the sample. -/
def written (w : Hdf5.Write Nat) : AnyField (UInt8 × UInt8) :=
  if w.cls = (AnyField.dense sampleDense).cls then .dense sampleDense else .sparse rowField

theorem session_fits : (∀ w, .write w ∈ sessionCalls → Fits attrMaps w) ∧ (∀ m, .global m ∈ sessionCalls → NamesFit m) ∧
    MapsBack attrMaps readAttrMap id sessionCalls ∧
    BodiesBack (readAny (fun _ _ b => b) 3 half16 (0, 0) (0, 0)) (fun _ w => some (written w)) sessionCalls := by
  have d1 : written (anyLayer [112] [97] 1 (.dense sampleDense)) = .dense sampleDense := if_pos rfl
  have d2 : written (anyLayer [113] [98] 1 (.dense sampleDense)) = .dense sampleDense := if_pos rfl
  have hs : (AnyField.sparse rowField).cls ≠ (AnyField.dense sampleDense).cls := by decide
  have s1 : written (anyLayer [112] [97] 1 (.sparse rowField)) = .sparse rowField := if_neg hs
  have s2 : written (anyLayer [112] [97] 2 (.sparse rowField)) = .sparse rowField := if_neg hs
  have hp : (47 : UInt8) ∉ [112] ∧ (0 : UInt8) ∉ [112] := by decide
  have hq : (47 : UInt8) ∉ [113] ∧ (0 : UInt8) ∉ [113] := by decide
  refine ⟨?_, ?_, ?_, ?_⟩
  · intro w hw
    simp only [sessionCalls, List.mem_cons, List.not_mem_nil, or_false, Hdf5.Call.write.injEq, reduceCtorEq, false_or] at hw
    rcases hw with rfl | rfl | rfl | rfl
    · exact (anyLayer_fits _ _ _ _ sampleDense_held hp one_step_a (by decide)).1
    · exact (anyLayer_fits _ _ _ _ rowField_held hp one_step_a (by decide)).1
    · exact (anyLayer_fits _ _ _ _ rowField_held hp one_step_a (by decide)).1
    · exact (anyLayer_fits _ _ _ _ sampleDense_held hq one_step_b (by decide)).1
  · intro m hm
    simp only [sessionCalls, List.mem_cons, List.not_mem_nil, or_false, Hdf5.Call.global.injEq, reduceCtorEq, false_or] at hm
    subst hm
    exact sampleMeta_fits
  · intro w hw
    simp only [sessionCalls, List.mem_cons, List.not_mem_nil, or_false, Hdf5.Call.write.injEq, reduceCtorEq, false_or] at hw
    rcases hw with rfl | rfl | rfl | rfl <;>
    · show readAttrMap (attrMaps.write _ .new).2 = _
      simp only [anyLayer]
      rw [(attrMaps_write _ (by decide)).1]
      exact (attrMaps_write _ (by decide)).2
  · intro path w g hw hg
    simp only [sessionCalls, List.mem_cons, List.not_mem_nil, or_false, Hdf5.Call.write.injEq, reduceCtorEq, false_or] at hw
    rcases hw with rfl | rfl | rfl | rfl
    · show _ = Res.ok (written _)
      rw [d1]; exact (anyLayer_fits _ _ _ _ sampleDense_held hp one_step_a (by decide)).2 path g hg
    · show _ = Res.ok (written _)
      rw [s2]; exact (anyLayer_fits _ _ _ _ rowField_held hp one_step_a (by decide)).2 path g hg
    · show _ = Res.ok (written _)
      rw [s1]; exact (anyLayer_fits _ _ _ _ rowField_held hp one_step_a (by decide)).2 path g hg
    · show _ = Res.ok (written _)
      rw [d2]; exact (anyLayer_fits _ _ _ _ sampleDense_held hq one_step_b (by decide)).2 path g hg

/-- Dense and sparse fields have no metadata of their own, and `mappingChanged` does nothing to them, export/Field.h:287-288. -/
instance : FieldClass (AnyField α) := ⟨fun _ => Meta.empty, Prod.mk⟩

/-- HDF5 visits in the order in which things were made, or the other way round. -/
theorem order_visits : Hdf5.Visits ⟨id, id⟩ ∧ Hdf5.Visits ⟨List.reverse, List.reverse⟩ :=
  ⟨⟨fun _ => .refl _, fun _ => .refl _⟩, ⟨fun l => l.reverse_perm, fun l => l.reverse_perm⟩⟩

/-- The sample meets the hypotheses of `C80_read_back` and `C80_listing` … -/
example := C80_read_back attrMaps sessionCalls session_calls session_fits.1 session_fits.2.1 ⟨List.reverse, List.reverse⟩
  order_visits.2 readAttrMap id session_fits.2.2.1 (readAny (fun _ _ b => b) 3 half16 (0, 0) (0, 0))
  (fun _ w => some (written w)) session_fits.2.2.2
example := C80_listing attrMaps sessionCalls session_calls session_fits.1 session_fits.2.1 ⟨id, id⟩ order_visits.1
  readAttrMap id session_fits.2.2.1

/-- … and of `C80_writes_succeed`. -/
example : ∃ rs o, Hdf5.Out.run attrMaps (Hdf5.Out.new.create true) sessionCalls = some (rs, o) ∧
    ∀ (i : Nat) w, sessionCalls[i]? = some (.write w) → rs[i]? = some .ok := by
  refine C80_writes_succeed attrMaps sessionCalls session_calls session_fits.1 attrMaps_same.refl attrMaps_same.symm ?_ ?_
  · intro w hw
    simp only [sessionCalls, List.mem_cons, List.not_mem_nil, or_false, Hdf5.Call.write.injEq, reduceCtorEq, false_or] at hw
    rcases hw with rfl | rfl | rfl | rfl <;> simp only [anyLayer] <;> decide
  · intro w w' hw hw' _ _
    simp only [sessionCalls, List.mem_cons, List.not_mem_nil, or_false, Hdf5.Call.write.injEq, reduceCtorEq, false_or] at hw hw'
    rcases hw with rfl | rfl | rfl | rfl <;> rcases hw' with rfl | rfl | rfl | rfl <;> rfl

/-- A field of one value is not written when there is compression. -/
theorem one_voxel_fails (g : Obj) : (Hdf5.writeDense true half16 oneVoxel g).1 ≠ .ok := by
  unfold Hdf5.writeDense
  refine seq_not_ok (fun g => ?_) g
  rw [if_pos (by decide)]
  refine seq_not_ok (fun g => seq_not_ok (fun g => seq_not_ok (fun g => seq_not_ok (fun g => ?_) g) g) g) g
  have hc : putChunked true kData (htype half16.type) ((oneVoxel.memXY * oneVoxel.dw.res.z) * dims half16.type).toNat
      (half16.encAll (oneVoxel.data.take (oneVoxel.memXY * oneVoxel.dw.res.z).toNat)) g = (.failed, g) := by rfl
  rw [hc]
  exact fun h => nomatch h

/-- A sample for `C80_failed_field_spoils_reading`: after the sample session, one voxel is written under names that are in
use. -/
example := C80_failed_field_spoils_reading attrMaps sessionCalls session_calls session_fits.1 session_fits.2.1 ⟨id, id⟩
  order_visits.1 (anyLayer [113] [98] 2 (.dense oneVoxel))
  ⟨by decide, one_step_b, by decide, sampleMeta_fits, ⟨_, (attrMaps_write 2 (by decide)).1, rfl, by decide⟩, fun g hg => by
    obtain ⟨g', h1, h2, h3, -⟩ := C79_dense_single_value_not_written (β := UInt8 × UInt8) (fun _ _ b => b) half16 oneVoxel g
      hg ⟨by decide, by decide, by decide, by decide⟩ (by unfold ValuesFit; decide) (by decide)
    have : (anyLayer [113] [98] 2 (.dense oneVoxel)).body g = (.failed, g') := h1
    refine ⟨g', by simp only [forced]; rw [this], ?_, h3, h2⟩
    cases g' with
    | group _ _ => rfl
    | data d => simp [getInt, getInts, Obj.attrs, named, Res.bind] at h2⟩
  one_voxel_fails attrMaps_same.refl attrMaps_same.symm (by decide)
  (by
    intro w' hw' _ _
    simp only [sessionCalls, List.mem_cons, List.not_mem_nil, or_false, Hdf5.Call.write.injEq, reduceCtorEq, false_or] at hw'
    rcases hw' with rfl | rfl | rfl | rfl <;> rfl)
  (by decide) readAttrMap id
  (by
    intro w hw
    rw [List.mem_append, List.mem_singleton] at hw
    rcases hw with hw | hw
    · exact session_fits.2.2.1 w hw
    · simp only [Hdf5.Call.write.injEq] at hw
      subst hw
      show readAttrMap (attrMaps.write 2 .new).2 = _
      rw [(attrMaps_write _ (by decide)).1]
      exact (attrMaps_write _ (by decide)).2)
  (readAny (fun _ _ b => b) 3 half16 (0, 0) (0, 0))
  (by
    intro path g hg
    obtain ⟨g', h1, -, -, h2⟩ := C79_dense_single_value_not_written (β := UInt8 × UInt8) (fun _ _ b => b) half16 oneVoxel g
      hg ⟨by decide, by decide, by decide, by decide⟩ (by unfold ValuesFit; decide) (by decide)
    have : (anyLayer [113] [98] 2 (.dense oneVoxel)).body g = (.failed, g') := h1
    rw [this]
    unfold readAny
    rw [if_pos (by rfl), h2]
    rfl)

/-- A mapping that cannot be written (9), in a partition "r" of its own, and an absolute layer name. -/
example := C80_failed_mapping_spoils_file (L := Nat) attrMaps sessionCalls session_calls session_fits.1 ⟨id, id⟩
  order_visits.1 (anyLayer [114] [97] 9 (.dense sampleDense)) (by decide) (by rfl)
  (by
    intro w' hw'
    simp only [sessionCalls, List.mem_cons, List.not_mem_nil, or_false, Hdf5.Call.write.injEq, reduceCtorEq, false_or] at hw'
    rcases hw' with rfl | rfl | rfl | rfl <;> simp only [anyLayer] <;> decide)

example (m : Nat) : readAttrMap (attrMaps.write 9 .new).2 ≠ .ok m := by
  have : readAttrMap (attrMaps.write 9 .new).2 = .null := by rfl
  rw [this]
  simp

example := C80_absolute_layer_name_spoils_file (L := Nat) attrMaps sessionCalls session_calls session_fits.1 ⟨id, id⟩
  order_visits.1 (anyLayer [114] [47, 97] 1 (.dense sampleDense)) [97] one_step_a rfl (by decide) (by decide)
  (anyLayer_fits [114] [97] 1 _ sampleDense_held (by decide) one_step_a (by decide)).1
  (by
    intro g hg hk
    have hd := sampleDense_held
    obtain ⟨⟨ext, dw, f0, ops, h0, hf⟩, hfit, h2⟩ := hd
    have wf : sampleDense.WF := ⟨by decide, by decide, by decide, by decide⟩
    obtain ⟨hi, hl⟩ := dense_fits half16 sampleDense wf hfit
    rw [← hl] at h2
    have hw := writeDense_ok true half16 sampleDense g hg.free wf hi h2
    show named kMapping (Hdf5.writeDense true half16 sampleDense g).2.links = none
    rw [hw]
    have hkd : kData ≠ kMapping := by decide
    show named kMapping (g.links ++ [(kData, _)]) = none
    rw [named_append, hk, named, if_neg hkd]
    rfl)
  (by decide)
  (by
    intro w' hw'
    simp only [sessionCalls, List.mem_cons, List.not_mem_nil, or_false, Hdf5.Call.write.injEq, reduceCtorEq, false_or] at hw'
    rcases hw' with rfl | rfl | rfl | rfl <;> simp only [anyLayer] <;> decide)

/-- Metadata with a name of two kinds. -/
example : lookup ((Metadata.Meta.empty.setInt [110] 5).setStr [110] [65]) [110] .int = some (.int 5) ∧
    lookup ((Metadata.Meta.empty.setInt [110] 5).setStr [110] [65]) [110] .str = some (.str [65]) := by decide

/-- A vector layer that has the names and the mapping of a scalar layer of the sample meets `Fits`. -/
example : Fits attrMaps ⟨[113], [98], true, 1, sampleMeta, [88], putAttr kComponents (.ints [3])⟩ :=
  ⟨by decide, one_step_b, by decide, sampleMeta_fits, ⟨_, (attrMaps_write 1 (by decide)).1, rfl, by decide⟩, fun g hg => by
    have h := hg.2.1 kComponents (by decide)
    cases g with
    | data d => exact absurd hg.1 (by simp [Obj.isGroup])
    | group as ls =>
      have h : named kComponents as = none := h
      have hc : Hdf5.cstr kComponents = kComponents := by decide
      have hz : kComponents ≠ [] := by decide
      refine ⟨.group (as ++ [(kComponents, .ints [3])]) ls, ?_, rfl, ⟨fun _ _ h => named_left h, fun _ _ h => h⟩, ?_⟩
      · simp only [putAttr]
        rw [hc, if_neg (by simp [h, hz])]
      · unfold getInt getInts
        simp only [Obj.attrs]
        rw [named_last _ h]
        rfl⟩

end F3D.Props
