import Verif.Spec.ReadAs
import Verif.Props.CopyFrom
import Verif.Props.Hdf5WholeFile

/-!
# C91: layers that are converted when they are read
-/

namespace F3D.Props
open ReadAs Copy Mapping
open _root_.F3D.Identical (Map)

variable {α : Type}

/-! ## The mapping -/

theorem voxelSize_frustum (m m1 : Frustum) (h : m.computeVoxelSize = some m1) :
    m1 = { m with wsVoxelSizeSq := m1.wsVoxelSizeSq } := by
  unfold Frustum.computeVoxelSize at h
  simp only [bind, Option.bind_eq_some_iff] at h
  obtain ⟨l, -, h⟩ := h
  have := Option.some.inj h
  rw [← this]

theorem voxelSize_defined (m m' : Frustum) (hf : m'.frame = m.frame)
    (hs : ∀ p, m'.localToWorldAt p 0 = m.localToWorldAt p 0) :
    m'.computeVoxelSize.isSome = m.computeVoxelSize.isSome := by
  have e : ∀ i j k, m'.sliceSq i j k = m.sliceSq i j k := by
    intro i j k
    unfold Frustum.sliceSq Frustum.voxelToWorldAt
    rw [hf, hs, hs, hs, hs]
  unfold Frustum.computeVoxelSize
  simp only [hf, e, bind]
  cases (List.range ((Cont.trunc m.frame.res.z).toNat - 1)).mapM fun (d : Nat) =>
      m.sliceSq (Cont.trunc (m.frame.origin.x + m.frame.res.x / 2)) (Cont.trunc (m.frame.origin.y + m.frame.res.y / 2))
        (Cont.trunc m.frame.origin.z + d) <;> rfl

/-- A mapping with the extents of a field takes the extents of an empty field and then its own again, and puts every point
where it did. -/
theorem copy_places (e w : Box3i) (m m1 : Map) (h : setExtents m e = some m1) :
    ∃ d, Defn.new.copy ⟨e, w, m1⟩ = some d ∧ toWorld d.map = toWorld m1 := by
  cases m with
  | null => cases h; exact ⟨_, rfl, rfl⟩
  | matrix m =>
    cases h
    refine ⟨_, rfl, ?_⟩
    show some (Matrix.voxelToWorldAt _) = some (Matrix.voxelToWorldAt _)
    congr 1
  | frustum m =>
    simp only [setExtents, Option.map_eq_some_iff] at h
    obtain ⟨n, hn, rfl⟩ := h
    have en := voxelSize_frustum _ _ hn
    unfold Frustum.setExtents at hn
    have d0 : ∃ n0, n.setExtents Defn.new.extents = some n0 := by
      apply Option.isSome_iff_exists.1
      unfold Frustum.setExtents Frustum.computeVoxelSize
      have : (Cont.trunc ((Frame.ofExtents Defn.new.extents).res.z)).toNat = 0 := by decide
      simp only [this, bind]
      rfl
    obtain ⟨n0, h0⟩ := d0
    have e0 := voxelSize_frustum _ _ h0
    have d1 : (n0.setExtents e).isSome = true := by
      unfold Frustum.setExtents
      rw [voxelSize_defined { m with frame := Frame.ofExtents e } { n0 with frame := Frame.ofExtents e } rfl ?_, hn]
      · rfl
      · intro p
        rw [e0, en]
        rfl
    obtain ⟨n1, h1⟩ := Option.isSome_iff_exists.1 d1
    have e1 := voxelSize_frustum _ _ h1
    refine ⟨⟨e, w, .frustum n1⟩, ?_, ?_⟩
    · simp only [Defn.copy, Defn.setMapping, Defn.setSize, setExtents, h0, Option.map_some, Option.bind_some, h1]
    · show some (Frustum.voxelToWorldAt _) = some (Frustum.voxelToWorldAt _)
      rw [e1, e0, en]
      rfl

/-! ## One layer -/

/-- **C91, a layer of another class.** Converting it to a dense or sparse field ends, with one result: a field of that class
with the names, metadata, windows and voxels of the layer, and a mapping that puts every point where that of the layer does.
A layer of the class that was asked for is given as it is. -/
theorem C91_layer [DecidableEq α] (zero dflt : α) (c : Cls) (f : Item α) (hf : Whole f)
    (hw : f.data.dw.isEmpty = false) (hs : c = .sparse → c.casts f.data = false → SparseWindow f.data.dw) :
    ∃ r, (∀ x, Converts zero dflt c f x ↔ x = some r) ∧ SameAs c f r ∧ (c.casts f.data = true → r = f) := by
  by_cases hc : c.casts f.data = true
  · exact ⟨f, fun x => by unfold Converts; rw [if_pos hc], ⟨rfl, rfl, rfl, rfl, rfl, rfl, hc, fun _ _ => rfl⟩, fun _ => rfl⟩
  · obtain ⟨m, hm⟩ := hf.mapping
    obtain ⟨d, hd, hp⟩ := copy_places f.data.extents f.data.dw m f.map hm
    obtain ⟨val, hval⟩ : ∃ val : V3i → α, ∀ p, f.data.dw.contains p = true → f.data.value p = some (val p) := by
      refine (Classical.skolem (b := fun _ : V3i => α) (p := fun p v => f.data.dw.contains p = true → f.data.value p = some v)).1
        fun p => ?_
      by_cases h : f.data.dw.contains p = true
      · obtain ⟨v, hv⟩ := hf.voxels p h; exact ⟨v, fun _ => hv⟩
      · exact ⟨zero, fun k => absurd k h⟩
    have hd' : Defn.new.copy f.source.toDefn = some d := hd
    cases c with
    | dense =>
      have := C72_copy_to_dense dflt id f.source val hval
      rw [if_neg (by rw [show f.source.dw = f.data.dw from rfl, hw]; simp)] at this
      obtain ⟨g, h1, h2, h3, h4⟩ := this
      refine ⟨⟨f.name, f.attr, f.info, d.map, .dense g⟩, fun x => ?_, ⟨rfl, rfl, rfl, h2, h3, hp, rfl, fun p hp => ?_⟩,
        fun k => absurd k hc⟩
      · unfold Converts
        rw [if_neg hc, hd']
        constructor
        · rintro ⟨g', k1, rfl⟩
          rw [(h1 g').1 k1]; rfl
        · rintro rfl
          exact ⟨some g, (h1 _).2 rfl, rfl⟩
      · show g.value p = f.data.value p
        rw [h4 p hp, hval p hp]; rfl
    | sparse =>
      obtain ⟨g, h1, h2, h3, -, h4⟩ := C72_copy_to_sparse zero id f.source val hval (hs rfl (Bool.not_eq_true _ ▸ hc)) (Sparse.empty zero)
      refine ⟨⟨f.name, f.attr, f.info, d.map, .sparse g⟩, fun x => ?_, ⟨rfl, rfl, rfl, h2, h3, hp, rfl, fun p hp => ?_⟩,
        fun k => absurd k hc⟩
      · unfold Converts
        rw [if_neg hc, hd']
        constructor
        · rintro ⟨g', k1, rfl⟩
          rw [(h1 g').1 k1]; rfl
        · rintro rfl
          exact ⟨some g, (h1 _).2 rfl, rfl⟩
      · show g.value p = f.data.value p
        rw [(h4 p hp).1, hval p hp]; rfl

/-- **C91, all layers of a call.** The call ends with one field for each layer, in the order of the layers. -/
theorem C91_layers [DecidableEq α] (zero dflt : α) (c : Cls) (fs : List (Item α))
    (hf : ∀ f ∈ fs, Whole f ∧ f.data.dw.isEmpty = false ∧ (c = .sparse → c.casts f.data = false → SparseWindow f.data.dw)) :
    ∃ rs, (∀ xs, ConvertsAll zero dflt c fs xs ↔ xs = rs) ∧ List.Forall₂ (SameAs c) fs rs := by
  induction fs with
  | nil => exact ⟨[], fun xs => ⟨fun h => by cases h; rfl, by rintro rfl; exact .nil⟩, .nil⟩
  | cons f fs ih =>
    obtain ⟨r, h1, h2, -⟩ := C91_layer zero dflt c f (hf f (by simp)).1 (hf f (by simp)).2.1 (hf f (by simp)).2.2
    obtain ⟨rs, h3, h4⟩ := ih fun g hg => hf g (by simp [hg])
    refine ⟨r :: rs, fun xs => ⟨fun h => ?_, ?_⟩, .cons h2 h4⟩
    · cases h with
      | cons a b => rw [Option.some.inj ((h1 _).1 a), (h3 _).1 b]
    · rintro rfl
      exact .cons ((h1 _).2 rfl) ((h3 _).2 rfl)

/-- … but a single layer without voxels makes the whole call throw, when dense fields are asked for. -/
theorem C91_layer_without_voxels (zero dflt : α) (fs : List (Item α)) (f : Item α) (hf : f ∈ fs) (hm : Whole f)
    (hc : Cls.dense.casts f.data = false) (he : f.data.dw.isEmpty = true) : ∀ rs, ¬ ConvertsAll zero dflt .dense fs rs := by
  have key : ∀ r, ¬ Converts zero dflt .dense f r := by
    intro r h
    obtain ⟨m, hm⟩ := hm.mapping
    obtain ⟨d, hd, hp⟩ := copy_places f.data.extents f.data.dw m f.map hm
    have hd' : Defn.new.copy f.source.toDefn = some d := hd
    unfold Converts at h
    rw [if_neg (by simp [hc]), hd'] at h
    obtain ⟨g, hg, -⟩ := h
    have no : ∀ p, f.source.dw.contains p = true → f.source.value p = some zero := by
      intro p hp
      have := Mac.nonempty_of_contains hp
      rw [show f.source.dw = f.data.dw from rfl, he] at this
      cases this
    have := C72_copy_to_dense dflt id f.source (fun _ => zero) no
    rw [if_pos (show f.source.dw.isEmpty = true from he)] at this
    exact this g hg
  intro rs h
  induction h with
  | nil => cases hf
  | cons a b ih =>
    rcases List.mem_cons.1 hf with rfl | h
    · exact key _ a
    · exact ih h

/-- **C91 is false of MAC fields.** Reading vector layers as MAC fields gives fields with the windows of the layers, but every
voxel is zero, whatever the layer holds. -/
theorem C91_as_mac_loses_voxels (f : Item V3q) (hf : Whole f) (hw : f.data.dw.isEmpty = false) :
    ∃ g : Mac, (∀ r, ConvertsToMac f r ↔ r = some g) ∧ g.extents = f.data.extents ∧ g.dw = f.data.dw ∧
      ∀ p, f.data.dw.contains p = true → g.value p = some ⟨0, 0, 0⟩ := by
  obtain ⟨val, hval⟩ : ∃ val : V3i → V3q, ∀ p, f.data.dw.contains p = true → f.data.value p = some (val p) := by
    refine (Classical.skolem (b := fun _ : V3i => V3q) (p := fun p v => f.data.dw.contains p = true → f.data.value p = some v)).1
      fun p => ?_
    by_cases h : f.data.dw.contains p = true
    · obtain ⟨v, hv⟩ := hf.voxels p h; exact ⟨v, fun _ => hv⟩
    · exact ⟨⟨0, 0, 0⟩, fun k => absurd k h⟩
  obtain ⟨g, h1, h2⟩ := C72_copy_to_mac_copies_nothing f.source val hval hw Mac.fresh
  obtain ⟨wf, e1, e2⟩ := Mac.setSize_wf h1
  refine ⟨g, h2, e2, e1, fun p hp => ?_⟩
  obtain ⟨g', h3, h4⟩ := C08_mac_value_is_face_average Mac.fresh g _ _ h1 [] (by simp) (fun _ _ => 0) (mac_fresh_zero h1)
  cases h3
  have := (h4 p hp).1
  rw [this]
  simp [List.foldl]

/-- A layer that is read as a sparse field, and was none, has all its blocks allocated, in blocks of 16 voxels a side, even if
every voxel is zero. -/
theorem C91_as_sparse_is_full [DecidableEq α] (zero dflt : α) (f : Item α) (hf : Whole f) (hw : SparseWindow f.data.dw)
    (hc : Cls.sparse.casts f.data = false) (r : Item α) (h : Converts zero dflt .sparse f (some r)) :
    ∃ g, r.data = .sparse g ∧ g.order = 4 ∧
      ∀ p, f.data.dw.contains p = true → g.voxelIsInAllocatedBlock p = some true := by
  obtain ⟨m, hm⟩ := hf.mapping
  obtain ⟨d, hd, -⟩ := copy_places f.data.extents f.data.dw m f.map hm
  have hd' : Defn.new.copy f.source.toDefn = some d := hd
  obtain ⟨val, hval⟩ : ∃ val : V3i → α, ∀ p, f.data.dw.contains p = true → f.data.value p = some (val p) := by
    refine (Classical.skolem (b := fun _ : V3i => α) (p := fun p v => f.data.dw.contains p = true → f.data.value p = some v)).1
      fun p => ?_
    by_cases h : f.data.dw.contains p = true
    · obtain ⟨v, hv⟩ := hf.voxels p h; exact ⟨v, fun _ => hv⟩
    · exact ⟨zero, fun k => absurd k h⟩
  obtain ⟨g, h1, -, -, h3, h4⟩ := C72_copy_to_sparse zero id f.source val hval hw (Sparse.empty zero)
  unfold Converts at h
  rw [if_neg (by simp [hc]), hd'] at h
  obtain ⟨g', k1, k2⟩ := h
  rw [(h1 g').1 k1] at k2
  cases k2
  exact ⟨g, rfl, h3, fun p hp => (h4 p hp).2⟩

/-! ## Whole files -/

section
open _root_.F3D.Hdf5 Og Ogawa FieldIO
open _root_.F3D.Metadata (Meta)

variable {k : Rat}

/-- A field in a file. -/
def contentsOf : Hdf5.AnyField α → Contents α
  | .dense f => .dense f
  | .sparse f => .sparse f

/-- A field that was read is the one that was written, in class `c`. -/
structure WrittenAs (c : Cls) (field : Hdf5.Write (FileMap k) → Hdf5.AnyField α) (w : Hdf5.Write (FileMap k)) (r : Item α) : Prop where
  name : r.name = w.part
  attr : r.attr = w.layer
  info : Over w.info Meta.empty r.info
  extents : r.data.extents = (contentsOf (field w)).extents
  window : r.data.dw = (contentsOf (field w)).dw
  place : ∃ m, setExtents w.mapping.obj r.data.extents = some m ∧ toWorld r.map = toWorld m
  cls : c.casts r.data = true
  voxels : ∀ p, r.data.dw.contains p = true → ∃ v, r.data.value p = some v ∧ (contentsOf (field w)).value p = some v

theorem held_whole [DecidableEq α] (gzip : Bool) (e : FieldIO.Elem α) (zero : α) (x : Hdf5.AnyField α)
    (h : HeldByFormat gzip e zero x) : (contentsOf x).dw.isEmpty = false ∧
      ∀ p, (contentsOf x).dw.contains p = true → ∃ v, (contentsOf x).value p = some v := by
  cases x with
  | dense f =>
    obtain ⟨⟨ext, dw, f0, ops, h0, hf⟩, -⟩ := h
    have hw : f0.WF := by
      by_cases hw : dw.isEmpty = true
      · have hb : dw.max.x < dw.min.x ∨ dw.max.y < dw.min.y ∨ dw.max.z < dw.min.z := by
          simpa [Box3i.isEmpty, or_assoc] using hw
        simp [Dense.setSize, hb] at h0
      · obtain ⟨k, hk, kwf, _⟩ := Dense.setSize_ok (dflt := zero) (e := ext) (Bool.eq_false_iff.mpr hw)
        rw [h0] at hk; cases hk; exact kwf
    have wf := dense_run_wf zero ops f0 f hw hf
    exact ⟨wf.ne, fun p hp => Dense.value_isSome wf hp⟩
  | sparse f =>
    obtain ⟨m, hm⟩ := reachable_refines h.1
    exact ⟨hm.wf.ne, fun p hp => ⟨_, hm.value p hp⟩⟩

/-- A mapping that was read takes the extents of a field as the one that was written did, and puts points in the same
places. -/
theorem read_mapping_places (m : FileMap k) (x : MappingIO.Loaded) (h : SameMapping m x) (e : Box3i) (m1 : Map)
    (h1 : setExtents m.obj e = some m1) : ∃ m2, setExtents (asMap x) e = some m2 ∧ toWorld m2 = toWorld m1 := by
  cases m with
  | null => cases h; cases h1; exact ⟨_, rfl, rfl⟩
  | matrix m =>
    obtain ⟨m', rfl, h⟩ := h
    cases h1
    exact ⟨_, rfl, by rw [h.2.2.2 e]⟩
  | frustum m =>
    obtain ⟨m', rfl, hz, h⟩ := h
    simp only [FileMap.obj, setExtents, Option.map_eq_some_iff] at h1
    obtain ⟨n, hn, rfl⟩ := h1
    have en := voxelSize_frustum _ _ hn
    have d : (m'.setExtents e).isSome = true := by
      unfold Frustum.setExtents at hn ⊢
      rw [voxelSize_defined { m.obj.setZDistribution m.dist with frame := Frame.ofExtents e }
        { m' with frame := Frame.ofExtents e } rfl ?_, hn]
      · rfl
      · intro p
        exact (h p 0).1
    obtain ⟨n', hn'⟩ := Option.isSome_iff_exists.1 d
    have en' := voxelSize_frustum _ _ hn'
    refine ⟨.frustum n', by simp [asMap, setExtents, hn'], ?_⟩
    show some (Frustum.voxelToWorldAt _) = some (Frustum.voxelToWorldAt _)
    rw [en', en]
    congr 1
    funext p t
    exact (h _ t).1

/-- **C91, whole files.** A program makes an HDF5 file and writes any dense and sparse fields of a voxel type to it, with
mappings of the library. When the file is read again with a partition and layer name, as dense or as sparse fields, the call
ends, and gives exactly the fields that were written under these names, each of them once, all in the class that was asked
for: with the names, metadata, windows and voxels of the field, and a mapping that puts every point where that of the field
does. -/
theorem C91_file [DecidableEq α] (R : Identical.Reals) (conv : HType → HType → List UInt8 → List UInt8) (gzip : Bool)
    (maxMem : Nat) (hmax : 0 < maxMem) (e : FieldIO.Elem α) (L : Lawful e) (hv : isVoxelType e.type = true) (zero dflt : α)
    (cs : List (Hdf5.Call (FileMap k))) (hse : Hdf5.Session cs) (field : Hdf5.Write (FileMap k) → Hdf5.AnyField α)
    (hw : ∀ w, .write w ∈ cs → Writable gzip e zero field w) (hg : ∀ m, .global m ∈ cs → NamesFit m) (ord : Order)
    (V : Hdf5.Visits ord)
    (hn : ∀ w w', .write w ∈ cs → .write w' ∈ cs → w'.part = w.part → NoShear R w.mapping w'.mapping)
    (hm : ∀ w, .write w ∈ cs → (setExtents w.mapping.obj (contentsOf (field w)).extents).isSome = true) :
    ∃ rs o i, Hdf5.Out.run (libraryMaps R k) (Hdf5.Out.new.create true) cs = some (rs, o) ∧
      (∀ (i : Nat) w, cs[i]? = some (.write w) → rs[i]? = some .ok) ∧
      Hdf5.In.openFile ord (Hdf5.readMap k) o.root In.new = some (true, i) ∧
      ∀ (c : Cls) u l, u ≠ [] → l ≠ [] →
        (c = .sparse → ∀ w, .write w ∈ cs → w.part = u ∧ w.layer = l → SparseWindow (contentsOf (field w)).dw) →
        ∃ ws out,
          (∀ xs, ReadsLayersAs zero dflt c ord i (readAny conv maxMem e zero dflt) (decide (dims e.type = 3)) u l xs ↔ xs = out) ∧
          ws.Perm ((asked cs).filter fun w => w.part = u ∧ w.layer = l) ∧
          List.Forall₂ (WrittenAs c field) ws out := by
  obtain ⟨rs, o, i, h1, h2, h3, h4⟩ := C84_file_round_trip_own_mappings R conv gzip maxMem hmax e L hv zero dflt cs hse field
    hw hg ord V hn
  refine ⟨rs, o, i, h1, h2, h3, fun c u l hu hl hsw => ?_⟩
  obtain ⟨ws, loaded, q1, q2, q3⟩ := h4 u l hu hl
  have hmem : ∀ w ∈ ws, Hdf5.Call.write w ∈ cs ∧ w.part = u ∧ w.layer = l := fun w h => by
    have := List.mem_filter.1 (q2.subset h)
    exact ⟨mem_asked.1 this.1, by simpa using this.2⟩
  have key : ∃ fs, loaded.mapM fieldOf = some fs ∧ List.Forall₂ (fun w f => f.name = w.part ∧ f.attr = w.layer ∧
      Over w.info Meta.empty f.info ∧ f.data = contentsOf (field w) ∧
      (∃ m, setExtents w.mapping.obj (contentsOf (field w)).extents = some m ∧ toWorld f.map = toWorld m) ∧
      ∃ m, setExtents m f.data.extents = some f.map) ws fs := by
    clear q1 q2
    induction q3 with
    | nil => exact ⟨[], rfl, .nil⟩
    | @cons w r ws loaded a b ih =>
      obtain ⟨fs, f1, f2⟩ := ih fun w h => hmem w (by simp [h])
      obtain ⟨m1, hm1⟩ := Option.isSome_iff_exists.1 (hm w (hmem w (by simp)).1)
      obtain ⟨x, hx, hsm⟩ := a.mapping
      obtain ⟨m2, hm2, hpl⟩ := read_mapping_places w.mapping x hsm _ m1 hm1
      have hd : contentsOf r.data = contentsOf (field w) := by rw [a.data]
      have hfo : fieldOf r = some ⟨r.name, r.attr, r.info, m2, contentsOf r.data⟩ := by
        have : fieldOf r = (setExtents ((r.mapping.map asMap).getD Defn.new.map) (contentsOf r.data).extents).map fun m =>
            ⟨r.name, r.attr, r.info, m, contentsOf r.data⟩ := by
          unfold fieldOf contentsOf
          cases r.data <;> rfl
        rw [this, hx, hd]
        simp [hm2]
      refine ⟨⟨r.name, r.attr, r.info, m2, contentsOf r.data⟩ :: fs, by simp [List.mapM_cons, hfo, f1],
        .cons ⟨a.name, a.attr, a.info, hd, ⟨m1, hm1, hpl⟩, asMap x, by rw [← hm2, ← hd]⟩ f2⟩
  obtain ⟨fs, f1, f2⟩ := key
  obtain ⟨out, o1, o2⟩ := C91_layers zero dflt c fs (by
    clear q1 q2 q3 f1
    induction f2 with
    | nil => simp
    | @cons w f ws fs a b ih =>
      intro g hg
      rcases List.mem_cons.1 hg with rfl | hg
      · obtain ⟨-, -, -, hd, -, hmm⟩ := a
        obtain ⟨w1, w2, w3⟩ := hmem w (by simp)
        obtain ⟨x1, x2⟩ := held_whole gzip e zero _ (hw w w1).held
        refine ⟨⟨by rw [hd]; exact x2, hmm⟩, by rw [hd]; exact x1, fun hc _ => by rw [hd]; exact hsw hc w w1 ⟨w2, w3⟩⟩
      · exact ih (fun w h => hmem w (by simp [h])) g hg)
  refine ⟨ws, out, fun xs => ⟨?_, ?_⟩, q2, ?_⟩
  · rintro ⟨ls, fs', k1, k2, k3⟩
    rw [q1] at k1
    cases k1
    rw [f1] at k2
    cases k2
    exact (o1 xs).1 k3
  · rintro rfl
    exact ⟨loaded, fs, q1, f1, (o1 _).2 rfl⟩
  · clear q1 q2 q3 f1 o1
    induction f2 generalizing out with
    | nil => cases o2; exact .nil
    | @cons w f ws fs a b ih =>
      cases o2 with
      | cons c1 c2 =>
        refine .cons ?_ (ih (fun w h => hmem w (by simp [h])) _ c2)
        obtain ⟨a1, a2, a3, hd, ⟨m, a5, a6⟩, -⟩ := a
        have hd1 := c1.extents
        have hd2 := c1.window
        rw [hd] at hd1 hd2
        refine ⟨c1.name.trans a1, c1.attr.trans a2, by rw [c1.info]; exact a3, hd1, hd2, ⟨m, by rw [hd1]; exact a5,
          c1.place.trans a6⟩, c1.cls, fun p hp => ?_⟩
        rw [hd2] at hp
        obtain ⟨v, hv⟩ := (held_whole gzip e zero _ (hw w (hmem w (by simp)).1).held).2 p hp
        have := c1.voxels p (by rw [hd]; exact hp)
        rw [hd] at this
        exact ⟨v, this.trans hv, hv⟩

end

end F3D.Props
