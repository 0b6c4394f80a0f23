import Verif.Proofs.LazyFile
import Verif.Props.WholeFile

/-!
# C89: fields whose blocks come from Ogawa files
-/

namespace F3D.Props
open F3D
open Files Og Ogawa FieldIO LayerIO
open _root_.F3D.MappingIO (kMapping)
open _root_.F3D.BlockThreads (WState Exclusive exclusive_single)
open _root_.F3D.Metadata (entries)
open _root_.F3D.MipIO (sparseClass)
open _root_.F3D.Dyn (St)
open _root_.F3D.LazyFile (Source)

section
variable {α : Type} [DecidableEq α]

/-- What an unlimited read gives can be used, whoever wrote the file. -/
theorem served (e : Elem α) (L : Lawful e) (z : Zlib) (zero dflt : α) (src : Source) (kids : List Tree) (g : Sparse α)
    (hk : src.layer = some (some kids)) (hr : UnlimitedRead e z zero dflt kids g) (hi : IntactLayer e z kids g)
    (hw : SparseWindow g.dw) : LazyFile.Serves e z zero dflt src g ∧ Refines g (mapOf zero g) := by
  obtain ⟨h1, h2, h3⟩ := LazyFile.serves e L z zero dflt src kids g hk hr hi
  have hfit : Sparse.Fits g.dw := (refines_fresh zero g.extents g.dw hw).fits
  exact ⟨h1, LazyFile.refines_mapOf zero g (LazyFile.read_wf zero g hw.1 hfit h2 h1.size h3) hfit⟩

theorem disk_run (e : Elem α) (z : Zlib) (zero dflt : α) (disk : Nat → Source) (files : Nat → Sparse α)
    (layers : Nat → SparseMap α) (hs : ∀ l, LazyFile.Serves e z zero dflt (disk l) (files l))
    (hf : ∀ l, Refines (files l) (layers l)) (evs : List (FieldEvent α)) (hok : World.empty.allPermitted zero layers evs) :
    ∃ s, diskRun e z zero dflt disk St.init evs = .ok (s, World.empty.answers zero layers evs) ∧
      (∀ f h, (World.empty.run zero layers evs).fld f = some h → SeenFrom e z disk s f h) ∧
      (∀ f, (World.empty.run zero layers evs).fld f = none → s.flds f = none) := by
  obtain ⟨s, h1, I⟩ := fieldRun_ok zero layers hf evs _ _ inv_init hok
  refine ⟨s, LazyFile.run_follows hs evs h1, fun f h hw => ?_, fun f hf => (I.dead f).mpr hf⟩
  obtain ⟨k1, k2⟩ := seen_of I zero layers hw
  refine ⟨k1, fun p hp => ?_⟩
  obtain ⟨t, ht⟩ := k2 p hp
  exact ⟨t, LazyFile.read_follows hs ht⟩

/-- **C89.** Reading with limited memory agrees with reading without a limit. Take any layers of any Ogawa files, whoever
wrote them, that can be read without a limit and whose data is compressed and intact. Read any of them with limited
memory, copy, assign, edit, read and destroy the fields in any permitted order, while blocks are evicted at any moment:
every call ends without an exception, and every voxel that is read is that of the field which reading the layer without
a limit gives (with the edits made to it since). -/
theorem C89_limited_agrees (e : Elem α) (L : Lawful e) (z : Zlib) (zero dflt : α) (disk : Nat → Source)
    (kids : Nat → List Tree) (g : Nat → Sparse α) (hk : ∀ l, (disk l).layer = some (some (kids l)))
    (hr : ∀ l, UnlimitedRead e z zero dflt (kids l) (g l)) (hi : ∀ l, IntactLayer e z (kids l) (g l))
    (hw : ∀ l, SparseWindow (g l).dw) (evs : List (FieldEvent α))
    (hok : World.empty.allPermitted zero (fun l => mapOf zero (g l)) evs) :
    ∃ s, diskRun e z zero dflt disk St.init evs = .ok (s, World.empty.answers zero (fun l => mapOf zero (g l)) evs) ∧
      (∀ f h, (World.empty.run zero (fun l => mapOf zero (g l)) evs).fld f = some h → SeenFrom e z disk s f h) ∧
      (∀ f, (World.empty.run zero (fun l => mapOf zero (g l)) evs).fld f = none → s.flds f = none) :=
  disk_run e z zero dflt disk g _ (fun l => (served e L z zero dflt _ _ _ (hk l) (hr l) (hi l) (hw l)).1)
    (fun l => (served e L z zero dflt _ _ _ (hk l) (hr l) (hi l) (hw l)).2) evs hok

/-- A layer that the library wrote, for any order in which its threads added the blocks. -/
theorem written_layer (e : Elem α) (L : Lawful e) (hv : isVoxelType e.type = true) (z : Zlib) (hz : ZlibOk z)
    (zero dflt : α) (nm : Name) (pre post : List Entry) (hp : Foreign pre) (hq : ∀ x ∈ post, plainName (nameOf x))
    (f : Sparse α) (hf : SparseReachable zero f) (hs : Storable f) (log : List Nat) (es : List Entry)
    (hes : sparseEntries e z f log = some es) (hl : log.length = ((flags f).filter id).length) :
    UnlimitedRead e z zero dflt (groupKids nm (pre ++ es ++ post)) { f with blocks := reread f log } ∧
      IntactLayer e z (groupKids nm (pre ++ es ++ post)) { f with blocks := reread f log } := by
  obtain ⟨m, hr⟩ := reachable_refines hf
  obtain ⟨rest, h⟩ := (readSparse_ok e L hv z hz zero dflt nm pre post hp hq f hr.wf hr.fits hs.ext hs.dw
    (by have := hs.order; omega) hs.blocks log es hes hl 1 (by omega) []).2
  exact ⟨⟨1, _, by omega, h⟩, LazyFile.written_intact e L hv z hz nm pre post hp hq f hr.wf hs.blocks log es hes⟩

/-- The order of the blocks when the writers did not interleave in the update of the write counter, or all blocks are
allocated. -/
theorem written_log (e : Elem α) (z : Zlib) (f : Sparse α) (wthreads : Nat) (hW : 0 < wthreads) (wsched : List Nat)
    (oob : Bool) (es : List Entry) (hw : writeSparse e z wthreads wsched oob f = .ok es)
    (hx : Exclusive (flags f) oob (WState.init wthreads (flags f)) wsched ∨ ∀ b ∈ f.blocks, b.isAllocated = true) :
    sparseEntries e z f (allocatedBlocks (flags f)) = some es := by
  unfold writeSparse at hw
  simp only at hw
  split at hw
  · split at hw
    · rename_i hfin
      split at hw
      · simp at hw
      · rename_i es' h
        simp only [Res.ok.injEq] at hw
        subst hw
        rw [← h]
        congr 1
        rcases hx with hex | hall
        · exact ((C40_atomic_update wthreads hW (flags f) oob wsched hex).2 ((any_finished _).mp hfin)).symm
        · have hflag : ∀ b ∈ flags f, b = true := by
            intro b hb
            rw [flags, List.mem_map] at hb
            obtain ⟨b', h, rfl⟩ := hb
            exact hall b' h
          have hal : allocatedBlocks (flags f) = List.range (flags f).length := by
            unfold allocatedBlocks
            rw [List.filter_eq_self]
            intro i hi
            rw [List.mem_range] at hi
            rw [List.getD_eq_getElem?_getD, List.getElem?_eq_getElem hi]
            exact hflag _ (List.getElem_mem hi)
          rw [hal]
          exact ((C40_all_allocated wthreads hW (flags f) hflag oob wsched).2.1 ((any_finished _).mp hfin)).symm
    · simp at hw
  · rename_i hany
    split at hw
    · simp at hw
    · rename_i es' h
      simp only [Res.ok.injEq] at hw
      subst hw
      rw [← h]
      congr 1
      rw [← List.length_eq_zero_iff, allocatedBlocks_length, List.length_eq_zero_iff, List.filter_eq_nil_iff]
      intro b hb hb'
      exact hany (List.any_eq_true.mpr ⟨b, hb, hb'⟩)

/-- What a layer with a field made by a program and written by the library serves. -/
theorem written_served (e : Elem α) (L : Lawful e) (hv : isVoxelType e.type = true) (z : Zlib) (hz : ZlibOk z)
    (zero dflt : α) (src : Source) (nm : Name) (pre post : List Entry) (hp : Foreign pre)
    (hq : ∀ x ∈ post, plainName (nameOf x)) (f : Sparse α) (es : List Entry) (hw : SparseWritten e z zero f es)
    (hk : src.layer = some (some (groupKids nm (pre ++ es ++ post)))) : LazyFile.Serves e z zero dflt src f := by
  obtain ⟨hr, hst, wt, ws, oob, hW, hw, hex⟩ := hw
  obtain ⟨h1, h2⟩ := written_layer e L hv z hz zero dflt nm pre post hp hq f hr hst _ es
    (written_log e z f wt hW ws oob es hw hex) (by rw [allocatedBlocks_length])
  rw [reread_allocated] at h1 h2
  exact (LazyFile.serves e L z zero dflt src _ f hk h1 h2).1

/-- **C89, files that the library wrote.** Fields made by programs are written to layers (anything may be stored before
and after them in their groups); the layers are read with limited memory, and the fields are used in any permitted order
while blocks are evicted at any moment: every voxel that is read is the value of the user's map. -/
theorem C89_written_files (e : Elem α) (L : Lawful e) (hv : isVoxelType e.type = true) (z : Zlib) (hz : ZlibOk z)
    (zero dflt : α) (files : Nat → Sparse α) (layers : Nat → SparseMap α) (hs : StoredLayers zero files layers)
    (nm : Nat → Name) (pre post es : Nat → List Entry) (hp : ∀ l, Foreign (pre l))
    (hq : ∀ l, ∀ x ∈ post l, plainName (nameOf x)) (hw : ∀ l, SparseWritten e z zero (files l) (es l))
    (disk : Nat → Source) (hk : ∀ l, (disk l).layer = some (some (groupKids (nm l) (pre l ++ es l ++ post l))))
    (evs : List (FieldEvent α)) (hok : World.empty.allPermitted zero layers evs) :
    ∃ s, diskRun e z zero dflt disk St.init evs = .ok (s, World.empty.answers zero layers evs) ∧
      (∀ f h, (World.empty.run zero layers evs).fld f = some h → SeenFrom e z disk s f h) ∧
      (∀ f, (World.empty.run zero layers evs).fld f = none → s.flds f = none) :=
  disk_run e z zero dflt disk files layers
    (fun l => written_served e L hv z hz zero dflt _ _ _ _ (hp l) (hq l) _ _ (hw l) (hk l)) (stored_refines hs) evs hok

/-- **C89, any schedule of the writers.** Even if the writing threads exchanged blocks (C38), reading with limited memory
gives the same voxels as reading without a limit. -/
theorem C89_any_schedule (e : Elem α) (L : Lawful e) (hv : isVoxelType e.type = true) (z : Zlib) (hz : ZlibOk z)
    (zero dflt : α) (files : Nat → Sparse α) (hf : ∀ l, SparseReachable zero (files l)) (hst : ∀ l, Storable (files l))
    (threads : Nat → Nat) (hT : ∀ l, 0 < threads l) (sched : Nat → List Nat) (oob : Nat → Bool) (nm : Nat → Name)
    (pre post es : Nat → List Entry) (hp : ∀ l, Foreign (pre l)) (hq : ∀ l, ∀ x ∈ post l, plainName (nameOf x))
    (hw : ∀ l, writeSparse e z (threads l) (sched l) (oob l) (files l) = .ok (es l)) (disk : Nat → Source)
    (hk : ∀ l, (disk l).layer = some (some (groupKids (nm l) (pre l ++ es l ++ post l)))) :
    ∃ g : Nat → Sparse α, (∀ l, UnlimitedRead e z zero dflt (groupKids (nm l) (pre l ++ es l ++ post l)) (g l) ∧
        (g l).dw = (files l).dw ∧ (g l).extents = (files l).extents ∧ (g l).order = (files l).order ∧
        flags (g l) = flags (files l)) ∧
      ∀ evs, World.empty.allPermitted zero (fun l => mapOf zero (g l)) evs →
        ∃ s, diskRun e z zero dflt disk St.init evs = .ok (s, World.empty.answers zero (fun l => mapOf zero (g l)) evs) ∧
          (∀ f h, (World.empty.run zero (fun l => mapOf zero (g l)) evs).fld f = some h → SeenFrom e z disk s f h) ∧
          (∀ f, (World.empty.run zero (fun l => mapOf zero (g l)) evs).fld f = none → s.flds f = none) := by
  have key : ∀ l, ∃ log, sparseEntries e z (files l) log = some (es l) ∧
      log.length = ((flags (files l)).filter id).length := by
    intro l
    have h := hw l
    unfold writeSparse at h
    simp only at h
    split at h
    · split at h
      · rename_i hfin
        split at h
        · simp at h
        · rename_i es' h'
          simp only [Res.ok.injEq] at h
          subst h
          refine ⟨_, h', ?_⟩
          have hcount := (C40_each_block_at_most_once (threads l) (hT l) (flags (files l)) (oob l) (sched l)).2
            ((any_finished _).mp hfin)
          generalize ((WState.init (threads l) (flags (files l))).run (flags (files l)) (oob l) (sched l)).log = log at *
          rw [← allocatedBlocks_length]
          apply List.Perm.length_eq
          rw [List.perm_iff_count]
          intro i
          rw [hcount i]
          unfold allocatedBlocks
          by_cases hi : (flags (files l)).getD i false = true
          · rw [if_pos hi, List.count_filter (by simpa using hi), List.nodup_range.count, if_pos]
            rw [List.mem_range]
            rw [List.getD_eq_getElem?_getD] at hi
            refine Classical.byContradiction fun h => ?_
            rw [List.getElem?_eq_none (by omega)] at hi
            simp at hi
          · rw [if_neg hi, List.count_eq_zero.mpr]
            rw [List.mem_filter]
            exact fun h => hi h.2
      · simp at h
    · rename_i hany
      split at h
      · simp at h
      · rename_i es' h'
        simp only [Res.ok.injEq] at h
        subst h
        refine ⟨[], h', ?_⟩
        symm
        rw [List.length_nil, List.length_eq_zero_iff, List.filter_eq_nil_iff]
        intro b hb hb'
        exact hany (List.any_eq_true.mpr ⟨b, hb, hb'⟩)
  have key2 := fun l => (key l).imp fun log h =>
    written_layer e L hv z hz zero dflt (nm l) (pre l) (post l) (hp l) (hq l) (files l) (hf l) (hst l) log (es l) h.1 h.2
  have hcl := fun l => (key2 l).choose_spec
  refine ⟨fun l => { files l with blocks := reread (files l) (key2 l).choose }, fun l => ⟨(hcl l).1, rfl, rfl, rfl, ?_⟩, ?_⟩
  · show (reread _ _).map _ = (files l).blocks.map _
    apply List.ext_getElem?
    intro i
    rw [reread, List.getElem?_map, List.getElem?_map, List.getElem?_mapIdx]
    cases (files l).blocks[i]? with
    | none => rfl
    | some b => simp only [Option.map_some]; split <;> rfl
  · intro evs hok
    have hwf : ∀ l, (files l).WF ∧ Sparse.Fits (files l).dw := fun l => by
      obtain ⟨m, hr⟩ := reachable_refines (hf l)
      exact ⟨hr.wf, hr.fits⟩
    have hsv := fun l => LazyFile.serves e L z zero dflt (disk l) _ _ (hk l) (hcl l).1 (hcl l).2
    refine disk_run e z zero dflt disk _ _ (fun l => (hsv l).1) (fun l => ?_) evs hok
    exact LazyFile.refines_mapOf zero _ (LazyFile.read_wf zero _ (hwf l).1.ne (hwf l).2 (hsv l).2.1 (hsv l).1.size (hsv l).2.2)
      (hwf l).2

/-- **C89, whole files.** A file object writes any fields, mappings and metadata in any order and closes the file. Every
layer is in the file. The sparse ones are read from the contents of the file with limited memory, under the path that
reading layers uses, and used in any permitted order while blocks are evicted at any moment: every voxel that is read is
that of the field that was written. -/
theorem C89_whole_file (e : Elem α) (L : Lawful e) (hv : isVoxelType e.type = true) (z : Zlib)
    (hz : ZlibOk z) (zero dflt : α) (ident : AnyMap → AnyMap → Bool) (hr : ∀ m, ident m m = true)
    (hsy : ∀ a b, ident a b = true → ident b a = true) (o₀ : Out AnyMap) (cs : List (FileOp α))
    (hcs : ∀ c ∈ cs, GoodOp e z zero dflt c) :
    ∃ o, Wrote ⟨ident, writeMap⟩ o₀ (cs.map (FileOp.call e)) (List.replicate cs.length .written) o ∧
      (∀ x, FileOp.layer x ∈ cs → x.attr ≠ kMapping → ∃ k, At o (x.write e) k) ∧
      ∀ (layer : Nat → Layer α) (k : Nat → Nat) (f : Nat → Sparse α) (es : Nat → List Entry),
        (∀ l, FileOp.layer (layer l) ∈ cs ∧ At o ((layer l).write e) (k l) ∧ (layer l).content = .sparse (f l) (es l)) →
        ∀ evs, World.empty.allPermitted zero (fun l => mapOf zero (f l)) evs →
          let disk := fun l => (⟨rootKids o.entries, layerPath (intName (layer l).name (k l)) (layer l).attr⟩ : Source)
          ∃ s, diskRun e z zero dflt disk St.init evs = .ok (s, World.empty.answers zero (fun l => mapOf zero (f l)) evs) ∧
            (∀ f' h, (World.empty.run zero (fun l => mapOf zero (f l)) evs).fld f' = some h → SeenFrom e z disk s f' h) ∧
            (∀ f', (World.empty.run zero (fun l => mapOf zero (f l)) evs).fld f' = none → s.flds f' = none) := by
  obtain ⟨o, H, hst⟩ := ops_written e z zero dflt ident hr hsy o₀ cs hcs
  have P : Plain (cs.map (FileOp.call e)) := by
    constructor
    · intro w hw
      obtain ⟨l, hl, rfl⟩ := write_mem e cs w hw
      exact (show GoodLayer e z zero dflt l from hcs _ hl).name.2
    · intro w hw
      obtain ⟨l, hl, rfl⟩ := write_mem e cs w hw
      exact (show GoodLayer e z zero dflt l from hcs _ hl).attr.2
  refine ⟨o, H, ?_, ?_⟩
  · intro x hx hxm'
    obtain ⟨hs, I⟩ := inv_wrote H
    have hw : ∀ w ∈ stored (cs.map (FileOp.call e)) (List.replicate cs.length .written),
      Call.write w ∈ cs.map (FileOp.call e) := fun w h => stored_mem _ _ w h
    have hxm : x.write e ∈ stored (cs.map (FileOp.call e)) (List.replicate cs.length .written) := by
      rw [hst]
      refine List.mem_map.2 ⟨x, ?_, rfl⟩
      exact List.mem_filterMap.2 ⟨_, hx, rfl⟩
    obtain ⟨h, hh, hxh⟩ := (mem_stored I _).1 hxm
    exact ⟨_, at_home I P hw h hh _ hxh hxm'⟩
  · intro layer k f es hl evs hok disk
    have hgood : ∀ l, SparseWritten e z zero (f l) (es l) := by
      intro l
      obtain ⟨h1, _, h3⟩ := hl l
      have := (show GoodLayer e z zero dflt (layer l) from hcs _ h1).content
      rw [h3] at this
      exact this
    refine disk_run e z zero dflt disk f _ (fun l => ?_) (fun l => ?_) evs hok
    · obtain ⟨h1, h2, h3⟩ := hl l
      have hat := at_path h2
      refine written_served e L hv z hz zero dflt (disk l) (layer l).attr _ []
        (layer_pre_foreign sparseClass (entries (layer l).info)) (by simp) (f l) (es l) (hgood l) ?_
      show find .group _ (rootKids o.entries) = _
      refine hat.trans ?_
      have e3 : layerGroup ((layer l).write e) = [.attribute kClassType .string kLayerText,
          .group kMetadata (entries (layer l).info), .attribute kClassName .string sparseClass] ++ es l ++ [] := by
        simp [layerGroup, Layer.write, h3, Content.body, fieldEntries]
      rw [e3]
      rfl
    · obtain ⟨m, hr⟩ := reachable_refines (hgood l).1
      exact LazyFile.refines_mapOf zero _ hr.wf hr.fits

/-! ## Where reading with limited memory differs -/

theorem read_filled (g : Sparse α) (p : V3i) (hp : g.dw.contains p = true) (a : Bool) (v w : α) :
    (⟨a, v, some (List.replicate (numVoxels g.order) w)⟩ : Block α).read
      (Block.offset g.order (g.voxelInBlock (g.offsetCoord p))) = some w := by
  rw [Sparse.off_eq hp]
  have := Sparse.offN_lt g p
  rw [nv_eq] at this
  simp only [Block.read]
  rw [if_pos (by omega), List.getElem?_replicate, if_pos (by simpa using this)]

theorem block_at {g : Sparse α} {p : V3i} {b : Block α} (hb : g.block? (g.blockId (g.blockCoord (g.offsetCoord p))) = some b) :
    g.blocks[(g.blockId (g.blockCoord (g.offsetCoord p))).toNat]? = some b := by
  unfold Sparse.block? at hb
  split at hb
  · exact hb
  · simp at hb

theorem value_filled {g : Sparse α} {p : V3i} {b : Block α} (hp : g.dw.contains p = true)
    (hb : g.block? (g.blockId (g.blockCoord (g.offsetCoord p))) = some b) (ha : b.isAllocated = true) (w : α)
    (hd : b.data = some (List.replicate (numVoxels g.order) w)) : g.value p = some w := by
  unfold Sparse.value
  simp only
  rw [hb]
  simp only [ha, if_true]
  have hb' : b = ⟨b.isAllocated, b.emptyValue, some (List.replicate (numVoxels g.order) w)⟩ := by cases b; simp_all
  rw [hb']
  exact read_filled g p hp _ _ w

/-- **Disagreement.** A layer whose blocks are not compressed can be read without a limit. With limited memory it opens,
and the first voxel that is read from an allocated block throws: the loader always looks for compressed data. -/
theorem C89_uncompressed_throws (e : Elem α) (z : Zlib) (zero dflt : α) (src : Source) (kids : List Tree) (g : Sparse α)
    (hk : src.layer = some (some kids)) (hr : UnlimitedRead e z zero dflt kids g)
    (hc : ∃ c, attr .uint8 kCompressed kids = .ok c) (hd : find .compressed kData kids = some none)
    (hn : ∃ n, attr .uint32 kOccupied kids = .ok n ∧ 0 < unle n) (p : V3i)
    (hp : (mapOf zero g).alloc (g.blockCoord (g.offsetCoord p))) :
    (∃ s, LazyFile.openLayer e zero dflt (fun _ => src) St.init 0 = .ok s) ∧
      diskRun e z zero dflt (fun _ => src) St.init [.openLayer 0, .read 0 p] = .exception := by
  obtain ⟨threads, sched, hT, hr⟩ := hr
  obtain ⟨c, hc⟩ := hc
  obtain ⟨n, hn, hn0⟩ := hn
  obtain ⟨b, hb, ha⟩ := hp
  obtain ⟨ob, nb, h1, h2, h3, h4, h5, h6⟩ := LazyFile.opens e z zero dflt kids g threads hT sched hr c hc
  rw [hn] at h3; cases h3
  obtain ⟨s, k1, -, k2⟩ := LazyFile.first_read e z zero dflt src kids g hk _ h4 h5 p b hb ha
  obtain ⟨t, k2⟩ := k2 hn0
  refine ⟨⟨s, k1⟩, ?_⟩
  have h7 : LazyFile.openReader e (unle n) src = .exception := by
    unfold LazyFile.openReader dataset findTyped
    rw [hk]
    simp only
    rw [hd]
    rfl
  have h8 : LazyFile.refNumbers src = .ok (numVoxels (unle ob), unle n) := by
    unfold LazyFile.refNumbers
    rw [hk]
    simp only
    rw [h1, bind_ok, hn, bind_ok]
  simp only [diskRun, diskStep, k1, bind_ok]
  rw [k2, h8, bind_ok, h7]
  rfl

/-- **Disagreement.** A layer that says it has no occupied blocks, although some are flagged as allocated: without a limit
their voxels are zero; with limited memory reading one never succeeds. -/
theorem C89_wrong_count (e : Elem α) (z : Zlib) (zero dflt : α) (src : Source) (kids : List Tree) (g : Sparse α)
    (hk : src.layer = some (some kids)) (hr : UnlimitedRead e z zero dflt kids g)
    (hc : ∃ c, attr .uint8 kCompressed kids = .ok c) (hn : ∃ n, attr .uint32 kOccupied kids = .ok n ∧ unle n = 0) (p : V3i)
    (hpw : g.dw.contains p = true)
    (hp : (mapOf zero g).alloc (g.blockCoord (g.offsetCoord p))) :
    g.value p = some zero ∧ (∃ s, LazyFile.openLayer e zero dflt (fun _ => src) St.init 0 = .ok s) ∧
      ∀ r, diskRun e z zero dflt (fun _ => src) St.init [.openLayer 0, .read 0 p] ≠ .ok r := by
  obtain ⟨threads, sched, hT, hr⟩ := hr
  obtain ⟨c, hc⟩ := hc
  obtain ⟨n, hn, hn0⟩ := hn
  obtain ⟨b, hb, ha⟩ := hp
  obtain ⟨ob, nb, h1, h2, h3, h4, h5, h6⟩ := LazyFile.opens e z zero dflt kids g threads hT sched hr c hc
  rw [hn] at h3; cases h3
  obtain ⟨s, k1, k2, -⟩ := LazyFile.first_read e z zero dflt src kids g hk _ h4 h5 p b hb ha
  refine ⟨?_, ⟨s, k1⟩, ?_⟩
  · exact value_filled hpw hb ha zero ((h6 _ b (block_at hb) ha).1 hn0)
  · intro r
    simp only [diskRun, diskStep, k1, bind_ok]
    rw [k2 hn0]
    cases LazyFile.refNumbers src with
    | ok nums =>
      simp only [bind_ok]
      cases LazyFile.openReader e nums.2 src <;> simp [Res.bind]
    | _ => simp [Res.bind]

/-- **Disagreement.** A layer with compressed blocks of which none can be uncompressed: without a limit the voxels of the
allocated blocks are zero; with limited memory they are the empty values of their blocks. No error is reported. -/
theorem C89_damaged_blocks (e : Elem α) (z : Zlib) (zero dflt : α) (src : Source) (kids : List Tree) (g : Sparse α)
    (hk : src.layer = some (some kids)) (hr : UnlimitedRead e z zero dflt kids g)
    (hc : ∃ c, attr .uint8 kCompressed kids = .ok c ∧ unle c ≠ 0)
    (hn : ∃ n, attr .uint32 kOccupied kids = .ok n ∧ 0 < unle n)
    (hbad : ∀ d i bs, dataset .compressed e.type kData kids = .ok d → element d i = some bs →
      z.decomp (numVoxels g.order * e.type.bytes) bs = none)
    (p : V3i) (hpw : g.dw.contains p = true) (b : Block α)
    (hb : g.block? (g.blockId (g.blockCoord (g.offsetCoord p))) = some b) (ha : b.isAllocated = true) :
    g.value p = some zero ∧
      ∃ s, diskRun e z zero dflt (fun _ => src) St.init [.openLayer 0, .read 0 p] = .ok (s, [none, some b.emptyValue]) := by
  obtain ⟨threads, sched, hT, hr⟩ := hr
  obtain ⟨c, hc, hc0⟩ := hc
  obtain ⟨n, hn, hn0⟩ := hn
  obtain ⟨ob, nb, h1, h2, h3, h4, h5, h6⟩ := LazyFile.opens e z zero dflt kids g threads hT sched hr c hc
  rw [hn] at h3; cases h3
  obtain ⟨s, k1, -, k2⟩ := LazyFile.first_read e z zero dflt src kids g hk _ h4 h5 p b hb ha
  obtain ⟨t, k2⟩ := k2 hn0
  obtain ⟨d, q1, q2, q3, q4⟩ := (h6 _ b (block_at hb) ha).2 hn0
  simp only [hc0, if_false, ne_eq, not_false_eq_true, decide_true] at q1 q3 q4
  unfold readBlock at q4
  simp only [if_true] at q4
  cases hel : element d (datasetIdx (g.blocks.map (·.isAllocated)) (g.blockId (g.blockCoord (g.offsetCoord p))).toNat) with
  | none => rw [hel] at q4; simp at q4
  | some bs =>
    rw [hel] at q4
    simp only at q4
    split at q4
    · rename_i hbound
      rw [hbad d _ bs q1 hel] at q4
      simp only [Option.some.injEq] at q4
      refine ⟨value_filled hpw hb ha zero (by rw [← q4]), ?_⟩
      have h7 : LazyFile.openReader e (unle n) src = .ok d := by
        unfold LazyFile.openReader
        rw [hk]
        simp only
        rw [q1, bind_ok, if_neg (by simp [q2]), q3]
        simp
      have h8 : LazyFile.refNumbers src = .ok (numVoxels g.order, unle n) := by
        unfold LazyFile.refNumbers
        rw [hk]
        simp only
        rw [h1, bind_ok, hn, bind_ok, h2]
      have h9 : LazyFile.loadBlock e z (numVoxels g.order) d (datasetIdx (g.blocks.map (·.isAllocated))
          (g.blockId (g.blockCoord (g.offsetCoord p))).toNat) { b with data := none } =
          .ok ⟨true, b.emptyValue, some (List.replicate (numVoxels g.order) b.emptyValue)⟩ := by
        unfold LazyFile.loadBlock readBlock Block.resize
        simp only [if_true]
        rw [hel]
        simp only [hbound, if_true]
        rw [hbad d _ bs q1 hel]
        rfl
      refine ⟨t ⟨true, b.emptyValue, some (List.replicate (numVoxels g.order) b.emptyValue)⟩, ?_⟩
      simp only [diskRun, diskStep, k1, bind_ok]
      rw [k2, h8, bind_ok, h7, bind_ok, h9, bind_ok, read_filled g p hpw]
      rfl
    · simp at q4

/-- A layer whose number of blocks is not that of its block resolution is not opened. -/
theorem C89_count_of_blocks (e : Elem α) (zero dflt : α) (src : Source) (kids : List Tree) (hk : src.layer = some (some kids))
    (n r : List UInt8) (hn : attr .uint32 kNumBlocks kids = .ok n) (hr : attr .veci32 kBlockRes kids = .ok r)
    (hd : (decV3i r).x * (decV3i r).y * (decV3i r).z ≠ decInt n) (s s' : St α) :
    LazyFile.openLayer e zero dflt (fun _ => src) s 0 ≠ .ok s' := by
  unfold LazyFile.openLayer LazyFile.readLayer
  rw [hk]
  simp only
  cases readWindows kids with
  | ok w =>
    cases attr .uint8 kComponents kids with
    | ok c =>
      cases attr .uint8 kBlockOrder kids with
      | ok o =>
        simp only [bind_ok]
        rw [hn, bind_ok, hr, bind_ok, if_pos hd]
        simp [Res.bind]
      | _ => simp [Res.bind]
    | _ => simp [Res.bind]
  | _ => simp [Res.bind]

/-- A layer of another voxel type gives nothing, without an error. -/
theorem C89_other_type (e : Elem α) (zero dflt : α) (src : Source) (kids : List Tree) (hk : src.layer = some (some kids))
    (n r c : List UInt8) (hw : ∃ w, readWindows kids = .ok w) (hc : ∃ m, attr .uint8 kComponents kids = .ok m)
    (ho : ∃ o, attr .uint8 kBlockOrder kids = .ok o) (hn : attr .uint32 kNumBlocks kids = .ok n)
    (hr : attr .veci32 kBlockRes kids = .ok r) (hd : (decV3i r).x * (decV3i r).y * (decV3i r).z = decInt n)
    (hq : ∃ m, attr .uint32 kOccupied kids = .ok m) (hz : attr .uint8 kCompressed kids = .ok c) (t : Option (List UInt8))
    (ht : typeOf (if unle c = 0 then .dataset else .compressed) kData kids = some t) (hne : t ≠ some (le32 e.type.code)) (s : St α) :
    LazyFile.openLayer e zero dflt (fun _ => src) s 0 = .null := by
  obtain ⟨w, hw⟩ := hw
  obtain ⟨m, hc⟩ := hc
  obtain ⟨o, ho⟩ := ho
  obtain ⟨q, hq⟩ := hq
  unfold LazyFile.openLayer LazyFile.readLayer
  rw [hk]
  simp only
  rw [hw, bind_ok, hc, bind_ok, ho, bind_ok, hn, bind_ok, hr, bind_ok, if_neg (by simpa using hd), hq, bind_ok, hz, bind_ok, ht]
  simp only [hne, false_and, if_false]
  rfl

end

/-! ### Cases -/

/-- A layer of one voxel in one allocated block with the empty value (7, 7). -/
def tinyLayer (compressed : UInt8) (occupied : Nat) (data : Entry) : List Entry :=
  [.attribute kVersion .int32 (encInt 1)] ++ windowEntries ⟨⟨0, 0, 0⟩, ⟨0, 0, 0⟩⟩ ⟨⟨0, 0, 0⟩, ⟨0, 0, 0⟩⟩ ++
  [.attribute kComponents .uint8 [1], .attribute kBits .uint8 [16], .attribute kBlockOrder .uint8 [0],
   .attribute kNumBlocks .uint32 (le32 1), .attribute kBlockRes .veci32 (encV3i ⟨1, 1, 1⟩),
   .attribute kCompressed .uint8 [compressed], .dataset kAllocated .uint8 [[1]], .dataset kEmpty .float16 [[7, 7]],
   .attribute kOccupied .uint32 (le32 occupied), data]

/-- Data that no decompressor accepts. -/
def brokenZlib : Zlib := { storeZlib with decomp := fun _ _ => none }

def tinyField (v : UInt8 × UInt8) : Sparse (UInt8 × UInt8) :=
  { ((Sparse.empty (0, 0)).setSize (0, 0) ⟨⟨0, 0, 0⟩, ⟨0, 0, 0⟩⟩ ⟨⟨0, 0, 0⟩, ⟨0, 0, 0⟩⟩).setBlockOrder (0, 0) 0 with
    blocks := [⟨true, (7, 7), some [v]⟩] }

theorem tiny_names (c : UInt8) (n : Nat) (data : Entry) (hd : nameOf data = kData) :
    ∀ x ∈ tinyLayer c n data, plainName (nameOf x) := by
  intro x hx
  have : nameOf x ∈ formatNames := by
    simp only [tinyLayer, windowEntries, List.mem_append, List.mem_cons, List.not_mem_nil, or_false] at hx
    rcases hx with (rfl | rfl | rfl | rfl | rfl) | rfl | rfl | rfl | rfl | rfl | rfl | rfl | rfl | rfl | rfl <;>
      first | (rw [hd]; decide) | (simp only [nameOf]; decide)
  exact (formatNames_ok _ this).2

theorem tiny_attrs (c : UInt8) (n : Nat) (data : Entry) (hd : nameOf data = kData) :
    attr .uint8 kCompressed (groupKids [76] (tinyLayer c n data)) = .ok [c] ∧
    attr .uint32 kOccupied (groupKids [76] (tinyLayer c n data)) = .ok (le32 n) := by
  have hn := tiny_names c n data hd
  have s := fun nm hm => (formatNames_ok nm hm).1
  exact ⟨attr_get _ _ _ _ _ (s _ (by decide)) hn rfl (by decide) rfl,
    attr_get _ _ _ _ _ (s _ (by decide)) hn rfl (by decide) rfl⟩

theorem read_one_block (z : Zlib) (c : Bool) (d : List Tree) (b b' : Block (UInt8 × UInt8)) (ha : b.isAllocated = true)
    (h : readBlock half16 z 1 c d 0 b = some b') : ∃ sched, readBlocks half16 z 1 c d [true] 1 sched [b] = .ok [b'] := by
  obtain ⟨rest, hfin⟩ := finishes (fun b : Option (Block (UInt8 × UInt8)) => b.any (·.isAllocated))
    (fun i b => b.bind (readBlock half16 z 1 c d (datasetIdx [true] i))) 1 [some b] []
  rw [List.nil_append] at hfin
  refine ⟨rest, ?_⟩
  have hk := (C39_every_block_once (fun b : Option (Block (UInt8 × UInt8)) => b.any (·.isAllocated))
    (fun i b => b.bind (readBlock half16 z 1 c d (datasetIdx [true] i))) 1 (by omega) [some b] rest hfin).1
  unfold readBlocks
  simp only [List.map_cons, List.map_nil]
  rw [hk, if_pos (List.all_eq_true.mpr fun pc hpc => by simpa using hfin pc hpc)]
  have : datasetIdx [true] 0 = 0 := rfl
  simp [ha, this, h]

theorem tiny_read (z : Zlib) (c : Bool) (n : Nat) (hn32 : n ≤ 1) (bytes : List UInt8) (hb : bytes ≠ []) (v : UInt8 × UInt8)
    (hv : n = 1 → ∀ d, element d 0 = some bytes →
      readBlock half16 z 1 c d 0 ⟨true, (7, 7), some [(0, 0)]⟩ = some ⟨true, (7, 7), some [v]⟩)
    (hv0 : n = 0 → v = (0, 0)) (k : Nat) (hk : n = 1 → k = 1) (hk' : n = 0 → k = 0) :
    UnlimitedRead half16 z (0, 0) (0, 0) (groupKids [76] (tinyLayer (if c then 1 else 0) n
      (if c then .compressed kData .float16 (List.replicate k bytes) else .dataset kData .float16 (List.replicate k bytes))))
      (tinyField v) := by
  generalize hdata : (if c then Entry.compressed kData .float16 (List.replicate k bytes)
    else .dataset kData .float16 (List.replicate k bytes)) = data
  have hd : nameOf data = kData := by rw [← hdata]; cases c <;> rfl
  generalize hcc : (if c then (1 : UInt8) else 0) = cc
  have hn := tiny_names cc n data hd
  have s := fun nm hm => (formatNames_ok nm hm).1
  obtain ⟨a1, a2⟩ := tiny_attrs cc n data hd
  have hw := readWindows_ok [76] (tinyLayer cc n data) ⟨⟨0, 0, 0⟩, ⟨0, 0, 0⟩⟩ ⟨⟨0, 0, 0⟩, ⟨0, 0, 0⟩⟩ hn
    (by refine ⟨⟨?_, ?_, ?_⟩, ⟨?_, ?_, ?_⟩⟩ <;> constructor <;> decide)
    (by refine ⟨⟨?_, ?_, ?_⟩, ⟨?_, ?_, ?_⟩⟩ <;> constructor <;> decide) rfl rfl rfl rfl rfl
  have b1 := attr_get [76] kComponents .uint8 [1] (tinyLayer cc n data) (s _ (by decide)) hn rfl (by decide) rfl
  have b2 := attr_get [76] kBlockOrder .uint8 [0] (tinyLayer cc n data) (s _ (by decide)) hn rfl (by decide) rfl
  have b3 := attr_get [76] kNumBlocks .uint32 (le32 1) (tinyLayer cc n data) (s _ (by decide)) hn rfl (by decide) rfl
  have b4 := attr_get [76] kBlockRes .veci32 (encV3i ⟨1, 1, 1⟩) (tinyLayer cc n data) (s _ (by decide)) hn rfl (by decide) rfl
  obtain ⟨⟨d1, c1, c2, c3⟩, _⟩ := dataset_get false [76] kAllocated .uint8 [[1]] (tinyLayer cc n data) (s _ (by decide)) hn
    (by decide) rfl
  obtain ⟨⟨d2, e1, e2, e3⟩, _⟩ := dataset_get false [76] kEmpty .float16 [[7, 7]] (tinyLayer cc n data) (s _ (by decide)) hn
    (by decide) rfl
  obtain ⟨⟨d3, f1, f2, f3⟩, f4⟩ := dataset_get c [76] kData .float16 (List.replicate k bytes) (tinyLayer cc n data)
    (s _ (by decide)) hn (by intro x hx; rw [(List.mem_replicate.1 hx).2]; exact hb) (by rw [← hdata]; cases c <;> rfl)
  simp only [Bool.false_eq_true, if_false] at c1 e1
  have hkind : (if unle [cc] = 0 then Kind.dataset else .compressed) = if c then .compressed else .dataset := by
    rw [← hcc]; cases c <;> rfl
  obtain ⟨sched, hsched⟩ : ∃ sched, n = 1 → readBlocks half16 z 1 c d3 [true] 1 sched [⟨true, (7, 7), some [(0, 0)]⟩] =
      .ok [⟨true, (7, 7), some [v]⟩] := by
    by_cases h1 : n = 1
    · obtain ⟨sched, h⟩ := read_one_block z c d3 _ _ rfl (hv h1 d3 (by rw [f3 0, hk h1]; rfl))
      exact ⟨sched, fun _ => h⟩
    · exact ⟨[], fun h => absurd h h1⟩
  refine ⟨1, sched, by omega, ?_⟩
  unfold readSparse
  rw [hw, bind_ok, b1, bind_ok, b2, bind_ok, b3, bind_ok, b4, bind_ok]
  rw [if_neg (by decide), a2, bind_ok, a1, bind_ok, hkind, f4]
  simp only
  rw [if_pos ⟨rfl, rfl⟩]
  unfold readSparseData
  simp only
  rw [a2, bind_ok, c1, bind_ok]
  have g1 : fetchArray byteElem (List.replicate (decInt (le32 1)).toNat 0) d1 = .ok [1] := by
    unfold fetchArray; rw [c3 0]; rfl
  have g2 : fetchArray half16 (List.replicate (decInt (le32 1)).toNat (0, 0)) d2 = .ok [(7, 7)] := by
    unfold fetchArray; rw [e3 0]; rfl
  rw [g1, bind_ok, if_neg (by decide)]
  have e1' : dataset .dataset half16.type kEmpty (groupKids [76] (tinyLayer cc n data)) = .ok d2 := e1
  rw [e1', bind_ok, g2, bind_ok, a1, bind_ok]
  rcases (show n = 0 ∨ n = 1 by omega) with h0 | h1
  · subst h0
    rw [if_neg (by decide), hv0 rfl]
    rfl
  · subst h1
    rw [if_pos (by decide)]
    have hk2 : (if decide (unle [cc] ≠ 0) = true then Kind.compressed else .dataset) = if c then .compressed else .dataset := by
      rw [← hcc]; cases c <;> rfl
    have f1' : dataset (if c then .compressed else .dataset) half16.type kData (groupKids [76] (tinyLayer cc 1 data)) = .ok d3 := f1
    rw [hk2, f1', bind_ok, f2, if_neg (by rw [hk rfl, List.length_replicate]; decide)]
    have hdec : decide (unle [cc] ≠ 0) = c := by rw [← hcc]; cases c <;> rfl
    rw [hdec]
    have this : readBlocks half16 z (numVoxels (unle [0])) c d3 (List.map (fun b : UInt8 => decide (b ≠ 0)) [1]) 1 sched
        [⟨true, (7, 7), some [(0, 0)]⟩] = .ok [⟨true, (7, 7), some [v]⟩] := hsched rfl
    have hset : setupRead (numVoxels (unle [0])) (List.map (fun b : UInt8 => decide (b ≠ 0)) [1]) [(7, 7)]
        (((Sparse.empty ((0, 0) : UInt8 × UInt8)).setSize (0, 0) ⟨⟨0, 0, 0⟩, ⟨0, 0, 0⟩⟩ ⟨⟨0, 0, 0⟩, ⟨0, 0, 0⟩⟩).setBlockOrder
          (0, 0) (unle [0])).blocks = [⟨true, (7, 7), some [(0, 0)]⟩] := by decide
    rw [hset, this, bind_ok]
    rfl

/-- The archive has the layer under the name "L". -/
theorem tiny_source (es : List Entry) : (⟨groupKids [47] [.group [76] es], [76]⟩ : Source).layer = some (some (groupKids [76] es)) := by
  refine (find_group [47] [76] _ es (by decide) ?_ rfl).trans rfl
  intro x hx
  rw [List.mem_singleton] at hx
  subst hx
  exact ⟨by simp [nameOf], by simp [nameOf]⟩

/-- An uncompressed layer with the voxel (1, 2): reading it with limited memory throws. -/
example : ∃ src : Source, ∃ kids, src.layer = some (some kids) ∧
    UnlimitedRead half16 storeZlib (0, 0) (0, 0) kids (tinyField (1, 2)) ∧ (tinyField (1, 2)).value ⟨0, 0, 0⟩ = some (1, 2) ∧
    diskRun half16 storeZlib (0, 0) (0, 0) (fun _ => src) St.init [.openLayer 0, .read 0 ⟨0, 0, 0⟩] = .exception := by
  have hr := tiny_read storeZlib false 1 (by omega) [1, 2] (by decide) (1, 2)
    (by intro _ d hd; unfold readBlock; rw [hd]; rfl) (by simp) 1 (fun _ => rfl) (by simp)
  refine ⟨_, _, tiny_source _, hr, by decide, ?_⟩
  obtain ⟨a1, a2⟩ := tiny_attrs 0 1 (.dataset kData .float16 [[1, 2]]) rfl
  refine (C89_uncompressed_throws half16 storeZlib (0, 0) (0, 0) _ _ _ (tiny_source _) hr ⟨_, a1⟩ ?_ ⟨_, a2, by decide⟩
    ⟨0, 0, 0⟩ ⟨_, rfl, rfl⟩).2
  rw [(C35_first_of_kind .compressed kData [76] _ (by decide) (tiny_names _ _ _ rfl)).2]
  decide

/-- An allocated block that is not counted. -/
example : ∃ src : Source, ∃ kids, src.layer = some (some kids) ∧
    UnlimitedRead half16 storeZlib (0, 0) (0, 0) kids (tinyField (0, 0)) ∧
    ∀ r, diskRun half16 storeZlib (0, 0) (0, 0) (fun _ => src) St.init [.openLayer 0, .read 0 ⟨0, 0, 0⟩] ≠ .ok r := by
  have hr := tiny_read storeZlib true 0 (by omega) [1, 2] (by decide) (0, 0) (by simp) (by simp) 0 (by simp) (by simp)
  refine ⟨_, _, tiny_source _, hr, ?_⟩
  obtain ⟨a1, a2⟩ := tiny_attrs 1 0 (.compressed kData .float16 []) rfl
  exact (C89_wrong_count half16 storeZlib (0, 0) (0, 0) _ _ _ (tiny_source _) hr ⟨_, a1⟩ ⟨_, a2, by decide⟩
    ⟨0, 0, 0⟩ (by decide) ⟨_, rfl, rfl⟩).2.2

/-- A block that cannot be uncompressed: (0, 0) without a limit, (7, 7) with limited memory. -/
example : ∃ src : Source, ∃ kids, src.layer = some (some kids) ∧
    UnlimitedRead half16 brokenZlib (0, 0) (0, 0) kids (tinyField (0, 0)) ∧ (tinyField (0, 0)).value ⟨0, 0, 0⟩ = some (0, 0) ∧
    ∃ s, diskRun half16 brokenZlib (0, 0) (0, 0) (fun _ => src) St.init [.openLayer 0, .read 0 ⟨0, 0, 0⟩] =
      .ok (s, [none, some (7, 7)]) := by
  have hr := tiny_read brokenZlib true 1 (by omega) [1, 2] (by decide) (0, 0)
    (by intro _ d hd; unfold readBlock; rw [hd]; rfl) (by simp) 1 (fun _ => rfl) (by simp)
  refine ⟨_, _, tiny_source _, hr, by decide, ?_⟩
  obtain ⟨a1, a2⟩ := tiny_attrs 1 1 (.compressed kData .float16 [[1, 2]]) rfl
  exact (C89_damaged_blocks half16 brokenZlib (0, 0) (0, 0) _ _ _ (tiny_source _) hr ⟨_, a1, by decide⟩ ⟨_, a2, by decide⟩
    (fun _ _ _ _ _ => rfl) ⟨0, 0, 0⟩ (by decide) _ rfl rfl).2

/-- An intact layer of this kind, read with limited memory: the voxel is there, also after its block was evicted. -/
example : ∃ src : Source, ∃ s, diskRun half16 storeZlib (0, 0) (0, 0) (fun _ => src) St.init
    [.openLayer 0, .read 0 ⟨0, 0, 0⟩, .evict (0, 0), .copy 0, .read 1 ⟨0, 0, 0⟩] =
      .ok (s, [none, some (1, 2), none, none, some (1, 2)]) := by
  have hr := tiny_read storeZlib true 1 (by omega) [1, 1, 2] (by decide) (1, 2)
    (by intro _ d hd; unfold readBlock; rw [hd]; rfl) (by simp) 1 (fun _ => rfl) (by simp)
  obtain ⟨a1, a2⟩ := tiny_attrs 1 1 (.compressed kData .float16 [[1, 1, 2]]) rfl
  have hint : IntactLayer half16 storeZlib (groupKids [76] (tinyLayer 1 1 (.compressed kData .float16 [[1, 1, 2]])))
      (tinyField (1, 2)) := by
    refine ⟨⟨_, a1, by decide⟩, ⟨_, a2, by decide⟩, ?_⟩
    intro d i bs hd hi
    obtain ⟨⟨d', h1, h2, h3⟩, -⟩ := dataset_get true [76] kData .float16 [[1, 1, 2]]
      (tinyLayer 1 1 (.compressed kData .float16 [[1, 1, 2]])) (by decide) (tiny_names _ _ _ rfl) (by decide) rfl
    have hd' : dataset .compressed .float16 kData (groupKids [76] (tinyLayer 1 1 (.compressed kData .float16 [[1, 1, 2]]))) =
      .ok d := hd
    simp only [if_true] at h1
    rw [hd'] at h1; cases h1
    rw [h3 i] at hi
    cases i with
    | zero => simp at hi; subst hi; exact ⟨[1, 2], by decide, by decide⟩
    | succ i => simp at hi
  have hw : SparseWindow (tinyField (1, 2)).dw := by
    unfold SparseWindow
    decide
  obtain ⟨s, h, -⟩ := C89_limited_agrees half16 half16_lawful storeZlib (0, 0) (0, 0) (fun _ => _) (fun _ => _) (fun _ => _)
    (fun _ => tiny_source _) (fun _ => hr) (fun _ => hint) (fun _ => hw)
    [.openLayer 0, .read 0 ⟨0, 0, 0⟩, .evict (0, 0), .copy 0, .read 1 ⟨0, 0, 0⟩]
    (by
      have hd : (mapOf (0, 0) (tinyField (1, 2))).dw = ⟨⟨0, 0, 0⟩, ⟨0, 0, 0⟩⟩ := rfl
      simp [World.allPermitted, World.permits, World.apply, World.push, World.put, World.empty, World.copyable, hd]
      decide)
  exact ⟨_, s, h⟩

/-- A whole file with a sparse layer among others: with limited memory its voxels are those of the field. -/
example : ∃ o k s, At o ((⟨[112], [97], .null, Metadata.Meta.empty, .sparse rowField rowEntries⟩ : Layer (UInt8 × UInt8)).write half16) k ∧
    diskRun half16 storeZlib (0, 0) (0, 0) (fun _ => ⟨rootKids o.entries, layerPath (intName [112] k) [97]⟩) St.init
      [.openLayer 0, .read 0 ⟨3, 0, 0⟩, .flush, .read 0 ⟨3, 0, 0⟩] = .ok (s, [none, some (13, 0), none, some (13, 0)]) := by
  have hid : ∀ m, sameSamples m m = true := by intro m; cases m <;> simp [sameSamples]
  have hsy : ∀ a b, sameSamples a b = true → sameSamples b a = true := by
    intro a b h
    cases a <;> cases b <;> simp_all [sameSamples]
  obtain ⟨o, H, h1, h2⟩ := C89_whole_file half16 half16_lawful rfl storeZlib storeZlib_ok (0, 0) (0, 0) sameSamples hid hsy
    Out.new fileOps fileOps_good
  have hm : FileOp.layer (⟨[112], [97], .null, Metadata.Meta.empty, .sparse rowField rowEntries⟩ : Layer (UInt8 × UInt8)) ∈ fileOps := by
    simp [fileOps]
  obtain ⟨k, hk⟩ := h1 _ hm (by decide)
  obtain ⟨s, hs, -⟩ := h2 (fun _ => _) (fun _ => k) (fun _ => rowField) (fun _ => rowEntries) (fun _ => ⟨hm, hk, rfl⟩)
    [.openLayer 0, .read 0 ⟨3, 0, 0⟩, .flush, .read 0 ⟨3, 0, 0⟩]
    (by
      have hd : (mapOf (0, 0) rowField).dw = rowBox := rfl
      simp [World.allPermitted, World.permits, World.apply, World.push, World.empty, hd]
      decide)
  refine ⟨o, k, s, hk, hs.trans ?_⟩
  have hv : (mapOf (0, 0) rowField).val ⟨3, 0, 0⟩ = (13, 0) := by
    show (rowField.value ⟨3, 0, 0⟩).getD (0, 0) = _
    decide
  simp [World.answers, World.answer, World.apply, World.push, World.put, World.empty, hv]

end F3D.Props
