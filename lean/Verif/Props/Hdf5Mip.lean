import Verif.Proofs.Hdf5Mip
import Verif.Props.Hdf5WholeFile

/-!
# C85: MIP fields in HDF5 files
-/

namespace F3D.Props
open F3D F3D.Ogawa F3D.Og F3D.FieldIO F3D.Hdf5
open _root_.F3D.MipIO (denseClass sparseClass mipClass kMipGroup kLevels levelName levelPath setupLazyLoad Lazy mipRes)
open _root_.F3D.MappingIO (Loaded)
open _root_.F3D.Metadata (Meta)
open _root_.F3D.MipField (kMipOffset Off)
open _root_.F3D.Files (kClassType intName FieldClass layerPath)

variable {α : Type} {k : Rat}

/-- What is read of a MIP field that was written. -/
def mipBack (type : DataType) (cls path : Name) (levels : List (Hdf5.AnyField α)) : Lazy where
  cls := cls
  type := type
  extents := ((levels.head?).map Hdf5.AnyField.extents).getD ⟨⟨0, 0, 0⟩, ⟨0, 0, 0⟩⟩
  dw := ((levels.head?).map Hdf5.AnyField.dw).getD ⟨⟨0, 0, 0⟩, ⟨0, 0, 0⟩⟩
  res := levels.map fun l => mipRes l.extents
  paths := (List.range levels.length).map (levelPath path)

theorem held_class [DecidableEq α] {e : Elem α} {zero : α} {cls : Name} {levels : List (Hdf5.AnyField α)}
    (H : HeldMip e zero cls levels) : cls = denseClass ∨ cls = sparseClass := by
  obtain ⟨l, ls, rfl, -⟩ := H.shrinks
  have := (H.held l (by simp)).2
  cases l with
  | dense f => exact .inl this.symm
  | sparse f => exact .inr this.symm

theorem hdf5_mip_written [DecidableEq α] (conv : HType → HType → List UInt8 → List UInt8) (gzip : Bool)
    (maxMem : Nat) (hmax : 0 < maxMem) (e : Elem α) (L : Lawful e) (hv : isVoxelType e.type = true) (zero dflt : α)
    (cls : Name) (levels : List (Hdf5.AnyField α)) (H : HeldMip e zero cls levels) (g : Obj) (hg : FreshLayer g) :
    ∃ g', Hdf5.writeMip gzip e cls levels g = (.ok, g') ∧ g'.isGroup = true ∧ LayerKept g g' ∧
      getInt kComponents g' = .ok (dims e.type) ∧
      ∀ path, Hdf5.readMip e.type path g' = .ok (mipBack e.type cls path levels) ∧
        ((0 : UInt8) ∉ path → ∀ root, openGroup root path = some g' →
          SameHdf5Mip conv gzip maxMem e zero dflt root cls levels (mipBack e.type cls path levels)) ∧
        ∀ t, t ≠ e.type → Hdf5.readMip t path g' = .null := by
  have hlev := fun x (hx : x ∈ levels) => level_written conv gzip maxMem hmax e L hv zero dflt x (H.held x hx).1
  have hw1 : ∀ f ∈ levels, (f.write gzip e .new).1 = .ok ∨ (f.write gzip e .new).1 = .failed := by
    intro f hf
    obtain ⟨r, g', h1, h2, -⟩ := hlev f hf []
    rw [h1]; exact h2
  have hw2 : ∀ f ∈ levels, (f.write gzip e .new).2.isGroup = true ∧
      getInts 6 kExtents (f.write gzip e .new).2 = .ok (boxInts f.extents) ∧
      getInts 6 kDataWindow (f.write gzip e .new).2 = .ok (boxInts f.dw) := by
    intro f hf
    obtain ⟨r, g', h1, -, h3, h4, h5, -⟩ := hlev f hf []
    rw [h1]; exact ⟨h3, h4, h5⟩
  have hcls := held_class H
  obtain ⟨l, ls, hl, hsh⟩ := H.shrinks
  have hwr : Hdf5.writeMip gzip e cls levels = writeMipAs gzip e cls l.extents l.dw levels := by rw [hl]; rfl
  refine ⟨_, by rw [hwr]; exact writeMipAs_ok gzip e cls l.extents l.dw levels g hg hw1, rfl, addTo_kept _ _ _,
    getInt_add g hg.free _ _ kComponents _ (by decide) rfl, fun path => ?_⟩
  have hr := readMip_setup e hv gzip cls hcls l.extents l.dw levels H.few g hg path hw2
  refine ⟨?_, ?_, fun t ht => by rw [hr t, if_neg ht]⟩
  · rw [hr e.type, if_pos rfl, hl]
    show setupLazyLoad cls e.type _ ((l.extents, l.dw) :: ls.map _) = _
    have hsh' := shrinks_decreasing _ _ hsh
    rw [setupLazyLoad, if_pos (by rw [List.map_map]; exact hsh')]
    simp [mipBack, List.map_map, Function.comp_def]
  · intro h0 root hroot
    refine ⟨rfl, rfl, fun x hx => ?_, ?_, ?_, ?_, ?_⟩
    · simp [mipBack, hx]
    · simp only [mipBack]
      rw [List.forall₂_map_right_iff]
      exact List.forall₂_same.2 fun _ _ => ⟨rfl, rfl, rfl⟩
    all_goals
      have hopen : ∀ i x, levels[i]? = some x → openGroup root (levelPath path i) = some (x.write gzip e .new).2 := by
        intro i x hi
        have s1 : Hdf5.Step (levelName i) := by
          obtain ⟨a, -, b⟩ := levelName_ok i
          refine ⟨by simp [levelName, MipIO.kLevel, ascii], ?_, a, b⟩
          intro h
          have := congrArg List.length h
          simp [levelName, MipIO.kLevel, ascii] at this
        have s2 : Hdf5.Step kMipGroup := ⟨by decide, by decide, by decide, by decide⟩
        have hm : named kMipGroup (addTo g (mipAttrs e cls l.extents l.dw) [(kMipGroup, levelsObj gzip e levels)]).links =
            some (levelsObj gzip e levels) := by
          rw [addTo, Obj.links]
          exact named_last _ (hg.2.2 _ (by decide))
        have hk := levelLinks_get gzip e levels 0 i x hi
        rw [Nat.zero_add] at hk
        rw [levelPath, open_below root _ path _ h0 (by
          have h1 := s1.nul
          have h2 := s2.nul
          simp [h1, h2]) hroot, open_below _ (levelsObj gzip e levels) kMipGroup (levelName i) s2.nul s1.nul
            (open_link _ _ _ s2 hm rfl), open_link (levelsObj gzip e levels) _ _ s1 hk (hw2 x (List.mem_of_getElem? hi)).1]
      have hpath : ∀ i x, levels[i]? = some x → (mipBack e.type cls path levels).paths[i]? = some (levelPath path i) := by
        intro i x hi
        have hlt : i < levels.length := (List.getElem?_eq_some_iff.1 hi).1
        simp [mipBack, hlt]
    · intro i x hi hn
      have hx := List.mem_of_getElem? hi
      obtain ⟨r, g', h1, -, -, -, -, -, h7⟩ := hlev x hx (levelPath path i)
      unfold loadLevel
      rw [hpath i x hi, Option.map_some, hopen i x hi]
      simp only [mipBack, ← (H.held x hx).2, h1, h7 hn]
    · intro i x hi hn
      have hx := List.mem_of_getElem? hi
      obtain ⟨r, g', h1, -, -, -, -, h6, -⟩ := hlev x hx (levelPath path i)
      unfold loadLevel
      rw [hpath i x hi, Option.map_some, hopen i x hi]
      simp only [mipBack, ← (H.held x hx).2, h1, h6 hn]
    · intro i hi
      have : (mipBack e.type cls path levels).paths[i]? = none := by simp [mipBack, hi]
      rw [loadLevel, this]
      rfl

/-- **C85.** A MIP field with any number of dense or sparse levels of any voxel type is written to the group of its layer,
among whatever else is there. The group is read at its path in the file: that gives a MIP field of the class of the levels,
with the windows, and the number of levels and the resolutions that were written. Loading any level later from the file gives
exactly the level that was written: its windows and every voxel. The exception are levels of a single value in a library with
compression: these cannot be loaded, although writing them has succeeded (see `C85_single_value_level_lost`). -/
theorem C85_round_trip [DecidableEq α] (conv : HType → HType → List UInt8 → List UInt8) (gzip : Bool)
    (maxMem : Nat) (hmax : 0 < maxMem) (e : Elem α) (L : Lawful e) (hv : isVoxelType e.type = true) (zero dflt : α)
    (cls : Name) (levels : List (Hdf5.AnyField α)) (H : HeldMip e zero cls levels) (g : Obj) (hg : FreshLayer g) (path : Name)
    (h0 : (0 : UInt8) ∉ path) :
    ∃ g' m, Hdf5.writeMip gzip e cls levels g = (.ok, g') ∧ LayerKept g g' ∧ Hdf5.readMip e.type path g' = .ok m ∧
      ∀ root, openGroup root path = some g' → SameHdf5Mip conv gzip maxMem e zero dflt root cls levels m := by
  obtain ⟨g', h1, -, h3, -, h5⟩ := hdf5_mip_written conv gzip maxMem hmax e L hv zero dflt cls levels H g hg
  obtain ⟨a, b, -⟩ := h5 path
  exact ⟨g', _, h1, h3, a, b h0⟩

/-- **C85, other voxel types** give a null pointer. -/
theorem C85_other_type_is_null [DecidableEq α] (gzip : Bool) (e : Elem α) (L : Lawful e) (hv : isVoxelType e.type = true)
    (zero : α) (cls : Name) (levels : List (Hdf5.AnyField α)) (H : HeldMip e zero cls levels) (g : Obj) (hg : FreshLayer g)
    (path : Name) (t : DataType) (ht : t ≠ e.type) :
    ∃ g', Hdf5.writeMip gzip e cls levels g = (.ok, g') ∧ Hdf5.readMip t path g' = .null := by
  obtain ⟨g', h1, -, -, -, h5⟩ := hdf5_mip_written (fun _ _ b => b) gzip 1 (by omega) e L hv zero zero cls levels H g hg
  exact ⟨g', h1, (h5 path).2.2 t ht⟩

/-- **Disagreement**: with compression, writing a MIP field that has a dense level of a single value returns true, but the
level is not in the file: the field is read, and loading the level throws. Without compression every level can be loaded. -/
theorem C85_single_value_level_lost [DecidableEq α] (conv : HType → HType → List UInt8 → List UInt8)
    (maxMem : Nat) (hmax : 0 < maxMem) (e : Elem α) (L : Lawful e) (hv : isVoxelType e.type = true) (zero dflt : α)
    (cls : Name) (levels : List (Hdf5.AnyField α)) (H : HeldMip e zero cls levels) (g : Obj) (hg : FreshLayer g) (path : Name)
    (h0 : (0 : UInt8) ∉ path) (i : Nat) (f : Dense α) (hi : levels[i]? = some (.dense f))
    (h1 : f.dw.nx * f.dw.ny * f.dw.nz * dims e.type = 1) :
    (∃ g' m, Hdf5.writeMip true e cls levels g = (.ok, g') ∧ Hdf5.readMip e.type path g' = .ok m ∧
      ∀ root, openGroup root path = some g' → loadLevel conv maxMem e zero dflt root m i = some .exception) ∧
    ∃ g' m, Hdf5.writeMip false e cls levels g = (.ok, g') ∧ Hdf5.readMip e.type path g' = .ok m ∧
      ∀ root, openGroup root path = some g' → ∀ j x, levels[j]? = some x →
        loadLevel conv maxMem e zero dflt root m j = some (.ok x) := by
  constructor
  · obtain ⟨g', m, a, -, b, c⟩ := C85_round_trip conv true maxMem hmax e L hv zero dflt cls levels H g hg path h0
    exact ⟨g', m, a, b, fun root hr => (c root hr).lost i _ hi ⟨rfl, h1⟩⟩
  · obtain ⟨g', m, a, -, b, c⟩ := C85_round_trip conv false maxMem hmax e L hv zero dflt cls levels H g hg path h0
    refine ⟨g', m, a, b, fun root hr j x hj => (c root hr).level j x hj ?_⟩
    cases x with
    | dense f => exact fun h => nomatch h.1
    | sparse f => exact id

/-- **C85, loading from any file.** Whatever is in the file, loading a level gives a field or fails, never a null pointer. -/
theorem C85_load_not_null (conv : HType → HType → List UInt8 → List UInt8) (maxMem : Nat) (e : Elem α) (zero dflt : α)
    (root : Obj) (m : Lazy) (i : Nat) : loadLevel conv maxMem e zero dflt root m i ≠ some .null := by
  unfold loadLevel
  cases m.paths[i]? with
  | none => exact fun h => nomatch h
  | some path =>
    simp only [Option.map_some, ne_eq, Option.some.injEq]
    split
    · exact fun h => nomatch h
    · split
      · exact fun h => nomatch h
      · next h => exact h

/-- **C85, levels that do not shrink**, or no levels at all: a file in which a level has more voxels than the one before in
some direction, or as many in all, gives an exception, not a field. -/
theorem C85_levels_checked [DecidableEq α] (gzip : Bool) (e : Elem α) (L : Lawful e) (hv : isVoxelType e.type = true)
    (zero : α) (cls : Name) (hcls : cls = denseClass ∨ cls = sparseClass) (extents dw : Box3i)
    (levels : List (Hdf5.AnyField α)) (hheld : ∀ x ∈ levels, HeldByFormat false e zero x) (hf : levels.length < 2 ^ 31)
    (hbad : ∀ l ls, levels = l :: ls → ¬ Shrinks l.extents.size (ls.map fun x => x.extents.size))
    (g : Obj) (hg : FreshLayer g) (path : Name) :
    ∃ g', writeMipAs gzip e cls extents dw levels g = (.ok, g') ∧ Hdf5.readMip e.type path g' = .exception := by
  have hlev := fun x (hx : x ∈ levels) => level_written (fun _ _ b => b) gzip 1 (by omega) e L hv zero zero x (hheld x hx) []
  refine ⟨_, writeMipAs_ok gzip e cls extents dw levels g hg (fun f hf => ?_), ?_⟩
  · obtain ⟨r, g', h1, h2, -⟩ := hlev f hf
    rw [h1]; exact h2
  · rw [readMip_setup e hv gzip cls hcls extents dw levels hf g hg path (fun f hf => by
      obtain ⟨r, g', h1, -, h3, h4, h5, -⟩ := hlev f hf
      rw [h1]; exact ⟨h3, h4, h5⟩) e.type, if_pos rfl]
    cases levels with
    | nil => rfl
    | cons l ls =>
      rw [List.map_cons, setupLazyLoad]
      refine if_neg fun h => hbad l ls rfl ?_
      rw [List.map_map] at h
      exact decreasing_shrinks _ _ h

/-! ## Whole files -/

/-- What is read of a field in a layer at the path. -/
def contentBack (e : Elem α) (path : Name) : Hdf5.Content α → LayerIO.AnyField α
  | .single (.dense f) => .dense f
  | .single (.sparse f) => .sparse f
  | .mip cls levels => .mip (mipBack e.type cls path levels) ⟨0, 0, 0⟩

theorem content_written [DecidableEq α] (conv : HType → HType → List UInt8 → List UInt8) (gzip : Bool)
    (maxMem : Nat) (hmax : 0 < maxMem) (e : Elem α) (L : Lawful e) (hv : isVoxelType e.type = true) (zero dflt : α)
    (c : Hdf5.Content α) (H : HeldContent gzip e zero c) (g : Obj) (hg : FreshLayer g) (path : Name) :
    ∃ g', c.write gzip e g = (.ok, g') ∧ g'.isGroup = true ∧ LayerKept g g' ∧ getInt kComponents g' = .ok (dims e.type) ∧
      Hdf5.readField conv maxMem e zero dflt path c.cls g' = .ok (contentBack e path c) := by
  cases c with
  | single f =>
    obtain ⟨g', h1, h2, h3, h4, h5⟩ := any_back conv gzip maxMem hmax e L hv zero dflt f H path g hg
    refine ⟨g', h1, h2, h3, h4, ?_⟩
    unfold Hdf5.readField
    have hne : (Hdf5.Content.single f).cls ≠ mipClass := by
      cases f with
      | dense f => show denseClass ≠ mipClass; decide
      | sparse f => show sparseClass ≠ mipClass; decide
    rw [if_neg hne]
    show (readAny conv maxMem e zero dflt path f.cls g').bind _ = _
    rw [h5]
    cases f <;> rfl
  | mip cls levels =>
    obtain ⟨g', h1, h2, h3, h4, h5⟩ := hdf5_mip_written conv gzip maxMem hmax e L hv zero dflt cls levels H g hg
    refine ⟨g', h1, h2, h3, h4, ?_⟩
    unfold Hdf5.readField
    rw [if_pos (show (Hdf5.Content.mip cls levels).cls = mipClass by rfl), (h5 path).1]
    rfl

/-- What `setMapping` makes of a MIP field that was read with its metadata. -/
theorem mapped_back (e : Elem α) (path : Name) (c : Hdf5.Content α) (m m' : Meta)
    (h : Over m (FieldClass.start (contentBack e path c)) m') :
    MetaBack c m (FieldClass.mapped (contentBack e path c) m').2 ∧
      (FieldClass.mapped (contentBack e path c) m').1 =
        match c with
        | .mip cls levels => .mip (mipBack e.type cls path levels) (offsetIn m)
        | .single f => contentBack e path (.single f) := by
  cases c with
  | single f =>
    have hst : FieldClass.start (contentBack e path (.single f)) = Meta.empty := by cases f <;> rfl
    have hmp : FieldClass.mapped (contentBack e path (.single f)) m' = (contentBack e path (.single f), m') := by
      cases f <;> rfl
    rw [hmp]
    refine ⟨fun n kd => ?_, rfl⟩
    have h7 : lookup Meta.empty n kd = none := by cases kd <;> rfl
    have := h n kd
    rw [hst, h7, Option.or_none] at this
    exact this
  | mip cls levels =>
    have hoff : (⟨⟨0, 0, 0⟩, m'⟩ : Off).stored = offsetIn m := by
      have h1 := h kMipOffset .vecInt
      rw [offsetIn, Off.stored, Metadata.Meta.getVecInt]
      have hd : lookup (FieldClass.start (contentBack e path (.mip cls levels))) kMipOffset .vecInt =
        some (.vecInt ⟨0, 0, 0⟩) := rfl
      rw [hd] at h1
      cases hx : lookup m kMipOffset .vecInt with
      | none =>
        rw [hx] at h1
        simp only [lookup, Option.map_none, Option.none_or, Option.map_eq_some_iff, MVal.vecInt.injEq, exists_eq_right] at h1
        rw [h1]
      | some v =>
        rw [hx] at h1
        have hx' := hx
        simp only [lookup, Option.map_eq_some_iff] at hx'
        obtain ⟨v', -, rfl⟩ := hx'
        simp only [lookup, Option.map_some, Option.some_or, inFile, Option.map_eq_some_iff, MVal.vecInt.injEq,
          exists_eq_right] at h1
        rw [h1]
    have hmp : FieldClass.mapped (contentBack e path (.mip cls levels)) m' =
        (.mip (mipBack e.type cls path levels) (⟨⟨0, 0, 0⟩, m'⟩ : Off).stored,
          m'.setVecInt kMipOffset (⟨⟨0, 0, 0⟩, m'⟩ : Off).stored) := rfl
    rw [hmp, hoff]
    refine ⟨fun n kd => ?_, rfl⟩
    show lookup (m'.setVecInt kMipOffset (offsetIn m)) n kd =
      if kMipOffset = n ∧ MKind.vecInt = kd then some (.vecInt (offsetIn m)) else (lookup m n kd).map inFile
    rw [lookup_setVecInt]
    by_cases hnk : kMipOffset = n ∧ MKind.vecInt = kd
    · rw [if_pos hnk, if_pos hnk]
    · rw [if_neg hnk, if_neg hnk, h n kd]
      have hs : lookup (FieldClass.start (contentBack e path (.mip cls levels))) n kd = none := by
        show lookup (Metadata.Meta.empty.setVecInt kMipOffset ⟨0, 0, 0⟩) n kd = none
        rw [lookup_setVecInt, if_neg hnk]
        cases kd <;> rfl
      rw [hs, Option.or_none]

/-- **C85, whole files.** A program makes an HDF5 file and writes any dense, sparse and MIP fields of a voxel type to it, with
mappings of any of the classes of the library. Every write succeeds. The file can be opened, and what is read under any
partition and layer name are exactly the fields that were written under it, each of them once: the windows, every voxel (a
MIP field: every voxel of every level, when it is loaded from the file, but see `C85_single_value_level_lost`), the metadata, and
a mapping that the library takes for identical to that of the field; nothing is read as a layer of the other kind. -/
theorem C85_file_round_trip [DecidableEq α] (R : Identical.Reals) (conv : HType → HType → List UInt8 → List UInt8) (gzip : Bool)
    (maxMem : Nat) (hmax : 0 < maxMem) (e : Elem α) (L : Lawful e) (hv : isVoxelType e.type = true) (zero dflt : α)
    (cs : List (Hdf5.Call (FileMap k))) (hse : Session cs) (content : Hdf5.Write (FileMap k) → Hdf5.Content α)
    (hw : ∀ w, .write w ∈ cs → WritableContent gzip e zero content w) (hg : ∀ m, .global m ∈ cs → NamesFit m) (ord : Order)
    (V : Hdf5.Visits ord) :
    ∃ rs o i, Hdf5.Out.run (libraryMaps R k) (Hdf5.Out.new.create true) cs = some (rs, o) ∧
      (∀ (i : Nat) w, cs[i]? = some (.write w) → rs[i]? = some .ok) ∧
      In.openFile ord (Hdf5.readMap k) o.root In.new = some (true, i) ∧
      (Hdf5.globals cs = none → i.info = .empty) ∧ (∀ m, Hdf5.globals cs = some m → Over m .empty i.info) ∧
      ∀ u l, u ≠ [] → l ≠ [] → ∃ ws loaded,
        i.readLayers ord (Hdf5.readField conv maxMem e zero dflt) (decide (dims e.type = 3)) u l = .ok loaded ∧
        i.readLayers ord (Hdf5.readField conv maxMem e zero dflt) (!decide (dims e.type = 3)) u l = .ok [] ∧
        ws.Perm ((asked cs).filter fun w => w.part = u ∧ w.layer = l) ∧
        List.Forall₂ (SameContentLayer R conv gzip maxMem e zero dflt o.root cs content) ws loaded := by
  have hrt : ∀ w, Hdf5.Call.write w ∈ cs → _ := fun w h => C84_mapping_round_trip k w.mapping (hw w h).mapping
  have K : ∀ w, Hdf5.Call.write w ∈ cs → Fits (libraryMaps R k) w := by
    intro w h
    have W := hw w h
    refine ⟨W.part, W.layer, ?_, W.info, ?_, ?_⟩
    · rw [W.cls]
      cases content w with
      | single f =>
        cases f with
        | dense f => show (0 : UInt8) ∉ denseClass; decide
        | sparse f => show (0 : UInt8) ∉ sparseClass; decide
      | mip cls levels => show (0 : UInt8) ∉ mipClass; decide
    · obtain ⟨g, x, h1, h2, h3, -, -⟩ := hrt w h
      exact ⟨g, h1, h2, h3⟩
    · intro g hg
      obtain ⟨g', a, b, c, d, -⟩ := content_written conv gzip maxMem hmax e L hv zero dflt (content w) W.held g hg []
      refine ⟨g', by rw [W.body]; exact a, b, c, ?_⟩
      rw [d, W.kind]
      cases e.type <;> rfl
  have B : BodiesBack (Hdf5.readField conv maxMem e zero dflt) (fun path w => some (contentBack e path (content w))) cs := by
    intro path w g h hg
    have W := hw w h
    obtain ⟨g', a, -, -, -, r⟩ := content_written conv gzip maxMem hmax e L hv zero dflt (content w) W.held g hg path
    rw [W.body, a, W.cls]
    exact r
  obtain ⟨back, hback⟩ : ∃ back : FileMap k → Loaded, ∀ m : FileMap k, m.Held →
      Hdf5.readMap k (writeMapBits m.bits .new).2 = .ok (back m) ∧ SameMapping m (back m) := by
    refine (Classical.skolem (b := fun _ : FileMap k => Loaded) (p := fun m x => m.Held →
      Hdf5.readMap k (writeMapBits m.bits .new).2 = .ok x ∧ SameMapping m x)).1 fun m => ?_
    by_cases h : m.Held
    · obtain ⟨g, x, h1, -, -, h4, h5⟩ := C84_mapping_round_trip k m h
      exact ⟨x, fun _ => by rw [h1]; exact ⟨h4, h5⟩⟩
    · exact ⟨.null, fun h' => absurd h' h⟩
  have hm : MapsBack (libraryMaps R k) (Hdf5.readMap k) back cs := fun w h => (hback _ (hw w h).mapping).1
  have E := C84_comparison R k
  obtain ⟨rs, o, i, mp, inf, h1, h2, h3, h4, h5, h6, h7⟩ := C80_read_back (libraryMaps R k) cs hse K hg ord V (Hdf5.readMap k) back hm
    (Hdf5.readField conv maxMem e zero dflt) (fun path w => some (contentBack e path (content w))) B
  obtain ⟨rs', o', g1, g2⟩ := C80_writes_succeed (libraryMaps R k) cs hse K E.refl E.symm (fun w h => (hw w h).notMapping)
    (fun w w' h h' _ _ => by rw [(hw w h).kind, (hw w' h').kind])
  rw [h1] at g1
  cases g1
  have hst := all_stored cs rs h2 g2
  rw [hst] at h7
  refine ⟨rs, o, i, h1, g2, h3, h4, h5, fun u l hu hl => ?_⟩
  obtain ⟨qs, q1, q2, q3, q4⟩ := h7 (decide (dims e.type = 3)) u l hu hl
  obtain ⟨qs', q1', q2', -, -⟩ := h7 (!decide (dims e.type = 3)) u l hu hl
  have hsel : ((asked cs).filter fun w => w.part = u ∧ w.layer = l ∧ w.isVec = decide (dims e.type = 3)) =
      (asked cs).filter fun w => w.part = u ∧ w.layer = l := by
    apply List.filter_congr
    intro w h
    rw [(hw w (mem_asked.1 h)).kind]
    simp
  have hno : ((asked cs).filter fun w => w.part = u ∧ w.layer = l ∧ w.isVec = !decide (dims e.type = 3)) = [] := by
    rw [List.filter_eq_nil_iff]
    intro w h
    rw [(hw w (mem_asked.1 h)).kind]
    simp
  rw [hsel] at q2
  rw [hno] at q2'
  have hq' : qs' = [] := by simpa using q2'.eq_nil
  rw [hq'] at q1'
  refine ⟨qs.map (·.2.1), _, q1, q1', q2, ?_⟩
  have hmem : ∀ q ∈ qs, Hdf5.Call.write q.2.1 ∈ cs ∧ q.2.1.part = u ∧ q.2.1.layer = l := by
    intro q hq
    have := q2.subset (List.mem_map.2 ⟨q, hq, rfl⟩)
    rw [List.mem_filter] at this
    simp only [decide_eq_true_eq] at this
    exact ⟨mem_asked.1 this.1, this.2⟩
  clear q1 q1' q2 q2' q3 hsel hno hq'
  induction qs with
  | nil => exact .nil
  | cons q qs ih =>
    obtain ⟨hc, hp, hl'⟩ := hmem q (by simp)
    refine .cons ?_ (ih (fun q hq => q4 q (by simp [hq])) (fun q hq => hmem q (by simp [hq])))
    obtain ⟨a, -, ⟨w', b, c, d⟩, z0, g, hgf, hopen⟩ := q4 q (by simp)
    have W := hw _ hc
    obtain ⟨b1, b2⟩ := mapped_back e (layerPath (intName u q.1) l) (content q.2.1) q.2.1.info _ (h6 q.2.1 _ hc)
    refine ⟨hp.symm, hl'.symm, b1, ?_, w', back q.2.2, b, c.trans hp.symm, by rw [d]; exact a, rfl, ?_⟩
    · show SameContent conv gzip maxMem e zero dflt o.root (offsetIn q.2.1.info) (content q.2.1) (FieldClass.mapped _ _).1
      rw [b2]
      have hheld := W.held
      have hbody := W.body
      clear b1 b2
      generalize content q.2.1 = ct at *
      cases ct with
      | single f => cases f <;> exact rfl
      | mip cls levels =>
        obtain ⟨g', e1, -, -, -, e5⟩ := hdf5_mip_written conv gzip maxMem hmax e L hv zero dflt cls levels hheld g hgf
        refine ⟨_, rfl, (e5 (layerPath (intName u q.1) l)).2.1 z0 o.root ?_⟩
        rw [hopen, hbody]
        show some (Hdf5.writeMip gzip e cls levels g).2 = some g'
        rw [e1]
    · rw [d]
      exact (hback _ (by rw [← d]; exact (hw w' b).mapping)).2

end F3D.Props
