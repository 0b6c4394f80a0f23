import Verif.Props.Hdf5Mapping

/-!
# C84: whole HDF5 files with fields and mappings
-/

namespace F3D.Props
open _root_.F3D.Hdf5 Ogawa Og FieldIO Mapping _root_.F3D.Identical
open _root_.F3D.MappingIO (Loaded kMapping)
open _root_.F3D.Metadata (Meta)
open _root_.F3D.Files (kClassType FieldClass)

variable {k : Rat} {α : Type}

/-- A layer that was read is the one that was written; its mapping is that of a field in a partition of the same name, which
the library takes for identical. -/
structure SameHdf5Layer (R : Reals) (cs : List (Hdf5.Call (FileMap k))) (field : Hdf5.Write (FileMap k) → AnyField α)
    (w : Hdf5.Write (FileMap k)) (r : Files.Loaded Loaded (AnyField α)) : Prop where
  name : r.name = w.part
  attr : r.attr = w.layer
  info : Over w.info Meta.empty r.info
  data : r.data = field w
  mapping : ∃ w' x, .write w' ∈ cs ∧ w'.part = w.part ∧ (libraryMaps R k).ident w.mapping w'.mapping = true ∧
    r.mapping = some x ∧ SameMapping w'.mapping x

/-- … with its own mapping. -/
structure OwnHdf5Layer (field : Hdf5.Write (FileMap k) → AnyField α) (w : Hdf5.Write (FileMap k))
    (r : Files.Loaded Loaded (AnyField α)) : Prop where
  name : r.name = w.part
  attr : r.attr = w.layer
  info : Over w.info Meta.empty r.info
  data : r.data = field w
  mapping : ∃ x, r.mapping = some x ∧ SameMapping w.mapping x

/-- What a program writes: dense and sparse fields of one voxel type that the format can hold, under names that are single
steps of a path, with mappings that can be written. -/
structure Writable [DecidableEq α] (gzip : Bool) (e : Elem α) (zero : α) (field : Hdf5.Write (FileMap k) → AnyField α)
    (w : Hdf5.Write (FileMap k)) : Prop where
  held : HeldByFormat gzip e zero (field w)
  cls : w.cls = (field w).cls
  body : w.body = (field w).write gzip e
  kind : w.isVec = decide (dims e.type = 3)
  part : (47 : UInt8) ∉ w.part ∧ (0 : UInt8) ∉ w.part
  layer : OneStep w.layer
  notMapping : w.layer ≠ kMapping
  info : NamesFit w.info
  mapping : w.mapping.Held

theorem all_stored : ∀ (cs : List (Hdf5.Call (FileMap k))) (rs : List Ret), rs.length = cs.length →
    (∀ (i : Nat) w, cs[i]? = some (.write w) → rs[i]? = some .ok) → Hdf5.stored cs rs = asked cs
  | [], [], _, _ => rfl
  | [], _ :: _, h, _ => by simp at h
  | _ :: _, [], h, _ => by simp at h
  | c :: cs, r :: rs, h, hok => by
    have ih := all_stored cs rs (by simpa using h) (fun i w hi => by
      have := hok (i + 1) w (by simpa using hi)
      simpa using this)
    cases c with
    | write w =>
      have := hok 0 w rfl
      simp only [List.getElem?_cons_zero, Option.some.injEq] at this
      subst this
      show w :: Hdf5.stored cs rs = w :: asked cs
      rw [ih]
    | create ok => cases r <;> exact ih
    | global m => cases r <;> exact ih
    | close => cases r <;> exact ih

/-- **C84, whole files.** A program makes an HDF5 file and writes any dense and sparse fields of a voxel type to it, with
mappings of any of the classes of the library. Every write succeeds. The file can be opened, and what is read under any
partition and layer name are exactly the fields that were written under it, each of them once: every voxel, the metadata,
and a mapping that the library takes for identical to that of the field; nothing is read as a layer of the other kind. -/
theorem C84_file_round_trip [DecidableEq α] (R : Reals) (conv : HType → HType → List UInt8 → List UInt8) (gzip : Bool)
    (maxMem : Nat) (hmax : 0 < maxMem) (e : Elem α) (L : Lawful e) (hv : isVoxelType e.type = true) (zero dflt : α)
    (cs : List (Hdf5.Call (FileMap k))) (hse : Session cs) (field : Hdf5.Write (FileMap k) → AnyField α)
    (hw : ∀ w, .write w ∈ cs → Writable gzip e zero field w) (hg : ∀ m, .global m ∈ cs → NamesFit m) (ord : Order)
    (V : Hdf5.Visits ord) :
    ∃ rs o i, Hdf5.Out.run (libraryMaps R k) (Hdf5.Out.new.create true) cs = some (rs, o) ∧
      (∀ (i : Nat) w, cs[i]? = some (.write w) → rs[i]? = some .ok) ∧
      In.openFile ord (Hdf5.readMap k) o.root In.new = some (true, i) ∧
      (Hdf5.globals cs = none → i.info = .empty) ∧ (∀ m, Hdf5.globals cs = some m → Over m .empty i.info) ∧
      ∀ u l, u ≠ [] → l ≠ [] → ∃ ws loaded,
        i.readLayers ord (readAny conv maxMem e zero dflt) (decide (dims e.type = 3)) u l = .ok loaded ∧
        i.readLayers ord (readAny conv maxMem e zero dflt) (!decide (dims e.type = 3)) u l = .ok [] ∧
        ws.Perm ((asked cs).filter fun w => w.part = u ∧ w.layer = l) ∧
        List.Forall₂ (SameHdf5Layer R cs field) ws loaded := by
  have hrt : ∀ w, Hdf5.Call.write w ∈ cs → _ := fun w h => C84_mapping_round_trip k w.mapping (hw w h).mapping
  obtain ⟨K, B⟩ := C80_dense_and_sparse_fit conv gzip maxMem hmax e L hv zero dflt (libraryMaps R k) cs field
    (fun w h => ⟨(hw w h).held, (hw w h).cls, (hw w h).body, (hw w h).kind⟩)
    (fun w h => ⟨(hw w h).part, (hw w h).layer, (hw w h).info, by
      obtain ⟨g, x, h1, h2, h3, -, -⟩ := hrt w h
      exact ⟨g, h1, h2, h3⟩⟩)
  obtain ⟨back, hback⟩ : ∃ back : FileMap k → Loaded, ∀ m : FileMap k, m.Held →
      Hdf5.readMap k (writeMapBits m.bits .new).2 = .ok (back m) ∧ SameMapping m (back m) := by
    refine (Classical.skolem (b := fun _ : FileMap k => Loaded) (p := fun m x => m.Held →
      Hdf5.readMap k (writeMapBits m.bits .new).2 = .ok x ∧ SameMapping m x)).1 fun m => ?_
    by_cases h : m.Held
    · obtain ⟨g, x, h1, -, -, h4, h5⟩ := C84_mapping_round_trip k m h
      exact ⟨x, fun _ => by rw [h1]; exact ⟨h4, h5⟩⟩
    · exact ⟨.null, fun h' => absurd h' h⟩
  have hm : MapsBack (libraryMaps R k) (Hdf5.readMap k) back cs := fun w h => (hback _ (hw w h).mapping).1
  have E := C84_comparison R k
  obtain ⟨rs, o, i, mp, inf, h1, h2, h3, h4, h5, h6, h7⟩ := C80_read_back (libraryMaps R k) cs hse K hg ord V (Hdf5.readMap k) back hm
    (readAny conv maxMem e zero dflt) (fun _ w => some (field w)) B
  obtain ⟨rs', o', g1, g2⟩ := C80_writes_succeed (libraryMaps R k) cs hse K E.refl E.symm (fun w h => (hw w h).notMapping)
    (fun w w' h h' _ _ => by rw [(hw w h).kind, (hw w' h').kind])
  rw [h1] at g1
  cases g1
  have hst := all_stored cs rs h2 g2
  rw [hst] at h7
  refine ⟨rs, o, i, h1, g2, h3, h4, h5, fun u l hu hl => ?_⟩
  obtain ⟨qs, q1, q2, q3, q4⟩ := h7 (decide (dims e.type = 3)) u l hu hl
  obtain ⟨qs', q1', q2', -, -⟩ := h7 (!decide (dims e.type = 3)) u l hu hl
  have hsel : ((asked cs).filter fun w => w.part = u ∧ w.layer = l ∧ w.isVec = decide (dims e.type = 3)) =
      (asked cs).filter fun w => w.part = u ∧ w.layer = l := by
    apply List.filter_congr
    intro w h
    rw [(hw w (mem_asked.1 h)).kind]
    simp
  have hno : ((asked cs).filter fun w => w.part = u ∧ w.layer = l ∧ w.isVec = !decide (dims e.type = 3)) = [] := by
    rw [List.filter_eq_nil_iff]
    intro w h
    rw [(hw w (mem_asked.1 h)).kind]
    simp
  rw [hsel] at q2
  rw [hno] at q2'
  have hq' : qs' = [] := by simpa using q2'.eq_nil
  rw [hq'] at q1'
  refine ⟨qs.map (·.2.1), _, q1, q1', q2, ?_⟩
  have hmem : ∀ q ∈ qs, Hdf5.Call.write q.2.1 ∈ cs ∧ q.2.1.part = u ∧ q.2.1.layer = l := by
    intro q hq
    have := q2.subset (List.mem_map.2 ⟨q, hq, rfl⟩)
    rw [List.mem_filter] at this
    simp only [decide_eq_true_eq] at this
    exact ⟨mem_asked.1 this.1, this.2⟩
  clear q1 q1' q2 q2' q3 hsel hno hq'
  induction qs with
  | nil => exact .nil
  | cons q qs ih =>
    obtain ⟨hc, hp, hl'⟩ := hmem q (by simp)
    refine .cons ?_ (ih (fun q hq => q4 q (by simp [hq])) (fun q hq => hmem q (by simp [hq])))
    obtain ⟨a, -, ⟨w', b, c, d⟩, -⟩ := q4 q (by simp)
    refine ⟨hp.symm, hl'.symm, h6 _ _ hc, rfl, w', back q.2.2, b, c.trans hp.symm, by rw [d]; exact a, rfl, ?_⟩
    rw [d]
    exact (hback _ (by rw [← d]; exact (hw w' b).mapping)).2

/-- … and if no two fields in partitions of one name have mappings that differ in nothing but shear, every field comes back
with its own mapping. -/
theorem C84_file_round_trip_own_mappings [DecidableEq α] (R : Reals) (conv : HType → HType → List UInt8 → List UInt8)
    (gzip : Bool) (maxMem : Nat) (hmax : 0 < maxMem) (e : Elem α) (L : Lawful e) (hv : isVoxelType e.type = true)
    (zero dflt : α) (cs : List (Hdf5.Call (FileMap k))) (hse : Session cs) (field : Hdf5.Write (FileMap k) → AnyField α)
    (hw : ∀ w, .write w ∈ cs → Writable gzip e zero field w) (hg : ∀ m, .global m ∈ cs → NamesFit m) (ord : Order)
    (V : Hdf5.Visits ord)
    (hn : ∀ w w', .write w ∈ cs → .write w' ∈ cs → w'.part = w.part → NoShear R w.mapping w'.mapping) :
    ∃ rs o i, Hdf5.Out.run (libraryMaps R k) (Hdf5.Out.new.create true) cs = some (rs, o) ∧
      (∀ (i : Nat) w, cs[i]? = some (.write w) → rs[i]? = some .ok) ∧
      In.openFile ord (Hdf5.readMap k) o.root In.new = some (true, i) ∧
      ∀ u l, u ≠ [] → l ≠ [] → ∃ ws loaded,
        i.readLayers ord (readAny conv maxMem e zero dflt) (decide (dims e.type = 3)) u l = .ok loaded ∧
        ws.Perm ((asked cs).filter fun w => w.part = u ∧ w.layer = l) ∧ List.Forall₂ (OwnHdf5Layer field) ws loaded := by
  obtain ⟨rs, o, i, h1, h2, h3, -, -, h6⟩ := C84_file_round_trip R conv gzip maxMem hmax e L hv zero dflt cs hse field hw hg ord V
  refine ⟨rs, o, i, h1, h2, h3, fun u l hu hl => ?_⟩
  obtain ⟨ws, loaded, q1, -, q2, q3⟩ := h6 u l hu hl
  refine ⟨ws, loaded, q1, q2, ?_⟩
  have hmem : ∀ w ∈ ws, Hdf5.Call.write w ∈ cs := fun w h => mem_asked.1 (List.mem_filter.1 (q2.subset h)).1
  clear q1 q2
  induction q3 with
  | nil => exact .nil
  | @cons w r ws rs hr _ ih =>
    refine .cons ?_ (ih fun w h => hmem w (by simp [h]))
    obtain ⟨w', x, a, b, c, d, s⟩ := hr.mapping
    exact ⟨hr.name, hr.attr, hr.info, hr.data, x, d, identical_same R _ _ c (hn w w' (hmem w (by simp)) a b) x s⟩

end F3D.Props
