import Verif.Props.FileObject

/-!
# C81: cases
-/

namespace F3D.Props
open Og Ogawa FieldIO FileObject
open _root_.F3D.Metadata (Meta readMeta readOne)
open _root_.F3D.Files (kGlobal FieldClass Loaded)

/-! ## Cases -/

/-- Readers of mappings for the samples of `C43` and `C80`. -/
def bothMaps : Maps Nat := ⟨fun kids => .ok kids.length, readAttrMap, ⟨id, id⟩⟩

/-- The Ogawa file of the sample is opened; so is it by an object that has met it before, in vain looked for another file,
and was closed: the hypotheses of `C81_ogawa_after_ogawa`. -/
theorem ogawa_history : ∃ i s, Files.openFile bothMaps.ogawa (rootKids sampleFile.entries) = .ok i ∧
    OgawaOnly [.open (.ogawa (rootKids sampleFile.entries)), .open .missing, .close] ∧
    FileObject.In.run bothMaps .new [.open (.ogawa (rootKids sampleFile.entries)), .open .missing, .close] = some s := by
  obtain ⟨i, hi, -⟩ := C43_read_all numberMaps Files.Out.new sampleFile fileCalls _ file_wrote file_plain
    (fun kids => .ok kids.length) file_readable (fun _ => readNumber) _ file_reads
  obtain ⟨t, ht, -⟩ := C81_new_object_ogawa (F := UInt8) bothMaps (rootKids sampleFile.entries) i hi
  refine ⟨i, (t.clear.close).close, hi, ?_, ?_⟩
  · intro c hc
    simp only [List.mem_cons, List.not_mem_nil, or_false] at hc
    rcases hc with rfl | rfl | rfl <;> exact True.intro
  · have h1 : FileObject.In.step bothMaps .new (.open (.ogawa (rootKids sampleFile.entries))) = some t := by
      show (FileObject.In.open bothMaps .new (.ogawa (rootKids sampleFile.entries))).map (·.2) = some t
      rw [ht]
      rfl
    unfold FileObject.In.run
    rw [h1]
    rfl

/-- An HDF5 file of the sample of `C80`, opened after that: the hypotheses of `C81_hdf5_after_anything`,
`C81_typed_read_of_hdf5_is_empty` and, with the Ogawa file opened again, of `C81_no_ogawa_after_hdf5`. -/
theorem hdf5_history : ∃ root i s t, Hdf5.In.openFile bothMaps.ord bothMaps.hdf5 root Hdf5.In.new = some (true, i) ∧
    FileObject.In.run bothMaps .new [.open (.ogawa (rootKids sampleFile.entries)), .open .missing, .close] = some s ∧
    s.open bothMaps (.hdf5 root) = some (true, t) ∧
    FileObject.In.run bothMaps .new ([.open (.ogawa (rootKids sampleFile.entries)), .open .missing, .close] ++
      .open (.hdf5 root) :: [.close]) = some t.close := by
  obtain ⟨-, s, -, -, hs⟩ := ogawa_history
  obtain ⟨rs, o, i, -, -, ho, -⟩ := C80_read_all attrMaps sessionCalls session_calls session_fits.1 session_fits.2.1
    ⟨id, id⟩ order_visits.1 readAttrMap id session_fits.2.2.1 (Hdf5.readAny (fun _ _ b => b) 3 half16 (0, 0) (0, 0))
    (fun _ w => some (written w)) session_fits.2.2.2
  obtain ⟨t, ht, -⟩ := C81_hdf5_after_anything (F := UInt8) bothMaps _ s hs o.root i ho
  refine ⟨o.root, i, s, t, ho, hs, ht, ?_⟩
  rw [run_split, hs]
  simp only [Option.bind_some, FileObject.In.run, FileObject.In.step, ht, Option.map_some]

/-- A file without layers, with the number 5 under the name "n". -/
def numberedRoot : List Tree := blob rootName ++ [.data (le32 Kind.group.code)] ++
  [encodeTo 4 Files.versionEntry, encodeTo 4 (.group kGlobal [.attribute [110] .int32 [5, 0, 0, 0]])]

/-- The same without it. -/
def emptyRoot : List Tree := blob rootName ++ [.data (le32 Kind.group.code)] ++ [encodeTo 4 Files.versionEntry]

/-- The hypotheses of `C81_metadata_stays`: the number is found in the object after it has opened the second file. -/
theorem metadata_history : ∃ s i, FileObject.In.run bothMaps .new [.open (.ogawa numberedRoot)] = some s ∧
    lookup s.metadata [110] .int = some (.int 5) ∧ Files.openFile bothMaps.ogawa emptyRoot = .ok i ∧
    lookup i.info [110] .int = none := by
  have h1 : ((FileObject.In.run bothMaps .new [.open (.ogawa numberedRoot)]).map
      fun s => lookup s.metadata [110] .int) = some (some (.int 5)) := by decide +kernel
  have h2 : (match Files.openFile bothMaps.ogawa emptyRoot with
      | .ok i => some (lookup i.info [110] .int)
      | _ => none) = some none := by decide +kernel
  obtain ⟨s, hs, e⟩ := Option.map_eq_some_iff.1 h1
  cases hi : Files.openFile bothMaps.ogawa emptyRoot with
  | ok i =>
    rw [hi] at h2
    exact ⟨s, i, hs, e, rfl, by simpa using h2⟩
  | _ => rw [hi] at h2; simp at h2

/-- Both formats of the samples. -/
def bothFormats : Formats Nat := ⟨numberMaps, attrMaps⟩

/-- The calls of the sample of `C80` as calls on a file object. -/
def inHdf5 : Hdf5.Call Nat → OutCall Nat
  | .write w => .write (numbered w.part w.layer w.mapping 0) w
  | .global m => .global [] m
  | .create ok => .create false ok
  | .close => .close

theorem session_writing : Writing (sessionCalls.map inHdf5) := by
  intro c hc
  obtain ⟨x, hx, rfl⟩ := List.mem_map.1 hc
  rcases session_calls x hx with ⟨w, rfl⟩ | ⟨m, rfl⟩
  · exact .inl ⟨_, _, rfl⟩
  · exact .inr ⟨_, _, rfl⟩

theorem session_back : (sessionCalls.map inHdf5).filterMap forHdf5 = sessionCalls := by rfl

/-- A layer is written to an Ogawa file. -/
def ogawaFirst : List (OutCall Nat) :=
  [.create true true, .write (numbered [112] [98] 1 10) (anyLayer [112] [97] 1 (.dense sampleDense)), .close]

theorem ogawaFirst_only : OgawaOut ogawaFirst := by
  intro c hc ok
  simp only [ogawaFirst, List.mem_cons, List.not_mem_nil, or_false] at hc
  rcases hc with rfl | rfl | rfl <;> simp

/-- A history with both formats: the hypotheses of the theorems on writing. -/
theorem output_history : ∃ s1 rs s, FileObject.Out.run bothFormats .new ogawaFirst = some ([.written, .written, .written], s1) ∧
    (∃ o, s1.own = some o) ∧
    FileObject.Out.run bothFormats s1 (.create false true :: sessionCalls.map inHdf5) = some (rs, s) := by
  have h : ∃ o, Files.Out.run bothFormats.ogawa .new (ogawaFirst.map forOgawa) = some ([.written, .written, .written], o) :=
    ⟨_, rfl⟩
  obtain ⟨o, ho⟩ := h
  obtain ⟨rs, o', -, -, h5, -⟩ := C80_read_all attrMaps sessionCalls session_calls session_fits.1 session_fits.2.1
    ⟨id, id⟩ order_visits.1 readAttrMap id session_fits.2.2.1 (Hdf5.readAny (fun _ _ b => b) 3 half16 (0, 0) (0, 0))
    (fun _ w => some (written w)) session_fits.2.2.2
  obtain ⟨t, ht, -⟩ := C81_write_hdf5_after_anything bothFormats ⟨some o, none⟩ (sessionCalls.map inHdf5) session_writing
    rs o' (by rw [session_back]; exact h5)
  refine ⟨⟨some o, none⟩, _, t, ?_, ⟨o, rfl⟩, ht⟩
  rw [C81_write_ogawa bothFormats ogawaFirst ogawaFirst_only, ho]
  rfl

end F3D.Props
