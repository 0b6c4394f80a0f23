import Verif.Props.Proxy
import Verif.Props.FilesAll
import Verif.Props.FileObject

/-!
# C82 for HDF5 files and through `Field3DInputFile`; C83: the field of a proxy
-/

namespace F3D.Props
open Og Ogawa FieldIO
open _root_.F3D.MappingIO (kMapping)
open _root_.F3D.Metadata (Meta)
open _root_.F3D.Files (kMetadata intName FieldClass layerPath Home)
open MipIO (kMipGroup kLevels)
open Proxy (Windows kMipLevels)

variable {M L α : Type}

section
open Hdf5

/-- The IO class writes the windows, and the number of levels of a MIP field: zero stands for no group of levels. -/
def Outlined (w : Hdf5.Write M) (ext dw : Box3i) (k : Int) : Prop :=
  ∀ g, FreshLayer g →
    getInts 6 kExtents (w.body g).2 = .ok [ext.min.x, ext.min.y, ext.min.z, ext.max.x, ext.max.y, ext.max.z] ∧
    getInts 6 kDataWindow (w.body g).2 = .ok [dw.min.x, dw.min.y, dw.min.z, dw.max.x, dw.max.y, dw.max.z] ∧
    ((named kMipGroup (w.body g).2.links = none ∧ k = 0) ∨
      ∃ as ls, named kMipGroup (w.body g).2.links = some (.group as ls) ∧ getInt kLevels (.group as ls) = .ok k)

/-- The metadata of a proxy: that of the layer (strings end at their first NUL), but for the number of levels. -/
def ProxyMetaHdf5 (m : Meta) (k : Int) (m' : Meta) : Prop :=
  ∀ n kd, lookup m' n kd = if levelCountName = n ∧ MKind.int = kd then some (.int k) else (lookup m n kd).map inFile

theorem proxy_body {C : Hdf5.MapIO M} (ord : Order) (w : Hdf5.Write M) (K : Fits C w) (ext dw : Box3i) (k : Int)
    (h : Outlined w ext dw k) :
    Proxy.bodyHdf5 ord (layerObj w) = .ok (⟨ext, dw⟩, (readMeta ord (.group (metaAttrs w.info) []) .empty).setInt kMipLevels k) := by
  obtain ⟨e1, e2⟩ := Proxy.body_layerObj w K
  obtain ⟨h1, h2, h3⟩ := h _ (layerStart_fresh w)
  rw [← e1] at h1 h2 h3
  unfold Proxy.bodyHdf5
  rw [h1, h2, e2]
  rcases h3 with ⟨h3, rfl⟩ | ⟨as, ls, h3, h4⟩
  · rw [h3]; rfl
  · rw [h3]; simp only [bind_ok, h4]; rfl

theorem proxy_info {C : Hdf5.MapIO M} (ord : Order) (V : Hdf5.Visits ord) (w : Hdf5.Write M) (K : Fits C w) (k : Int) :
    ProxyMetaHdf5 w.info k ((readMeta ord (.group (metaAttrs w.info) []) .empty).setInt kMipLevels k) := by
  intro n kd
  have h5 := readMeta_back ord V.attrs w.info .empty K.info.order K.info.kind [] n kd
  have h6 := lookup_put (readMeta ord (.group (metaAttrs w.info) []) .empty) kMipLevels n (.int k) kd
  refine h6.trans ?_
  rw [h5]
  have h7 : lookup Meta.empty n kd = none := by cases kd <;> rfl
  rw [h7, Option.or_none]
  rfl

/-- **C82, HDF5 by name.** In a new file into which layers and metadata were written in any order of calls, reading the
proxies of a partition and layer name gives one for each layer of the kind that is asked for that was written under these
names, with its windows, its metadata with the number of levels, and the mapping of its partition; they come in the order in
which the layers themselves are read (C80). -/
theorem C82_hdf5_by_name (C : Hdf5.MapIO M) (cs : List (Hdf5.Call M)) (hse : Session cs)
    (K : ∀ w, .write w ∈ cs → Fits C w) (hg : ∀ m, .global m ∈ cs → NamesFit m) (ord : Order) (V : Hdf5.Visits ord)
    (readMap : Obj → Res L) (back : M → L) (hm : MapsBack C readMap back cs) (out : Hdf5.Write M → Box3i × Box3i × Int)
    (hout : ∀ w, .write w ∈ cs → Outlined w (out w).1 (out w).2.1 (out w).2.2) (rs : List Hdf5.Ret) (o : Hdf5.Out M)
    (hrun : Hdf5.Out.run C (Hdf5.Out.new.create true) cs = some (rs, o)) (i : Hdf5.In L)
    (hi : In.openFile ord readMap o.root In.new = some (true, i)) (v : Bool) (u l : Name) (hu : u ≠ []) (hl : l ≠ []) :
    ∃ (qs : List (Nat × Hdf5.Write M × M)) (info : Hdf5.Write M → Meta),
      (∀ w, .write w ∈ cs → ProxyMetaHdf5 w.info (out w).2.2 (info w)) ∧
      Proxy.readLayerHdf5 ord i v u l = .ok (qs.map fun q =>
        ⟨u, l, some (back q.2.2), info q.2.1, ⟨(out q.2.1).1, (out q.2.1).2.1⟩⟩) ∧
      (∀ (F : Type) [FieldClass F] (readField : Name → Name → Obj → Res F) (val : Name → Hdf5.Write M → Option F),
        BodiesBack readField val cs → ∃ fi : Hdf5.Write M → F → Meta,
        i.readLayers ord readField v u l = .ok (qs.filterMap fun q =>
          (val (layerPath (intName u q.1) l) q.2.1).map fun f =>
            ⟨u, l, some (back q.2.2), (FieldClass.mapped f (fi q.2.1 f)).2, (FieldClass.mapped f (fi q.2.1 f)).1⟩)) ∧
      (qs.map (·.2.1)).Perm ((Hdf5.stored cs rs).filter fun w => w.part = u ∧ w.layer = l ∧ w.isVec = v) ∧
      (qs.map (·.1)).Nodup ∧
      ∀ q ∈ qs, C.ident q.2.1.mapping q.2.2 = true ∧ ∃ w, .write w ∈ cs ∧ w.part = u ∧ w.mapping = q.2.2 := by
  obtain ⟨rs', o', hs, h1, S, h3, h4, -⟩ := session_sim C cs hse K []
  rw [hrun] at h1
  simp only [Option.some.injEq, Prod.mk.injEq] at h1
  obtain ⟨rfl, rfl⟩ := h1
  rw [List.append_nil] at S
  have K' : ∀ w ∈ asked cs, Fits C w := fun w hw => K w (mem_asked.1 hw)
  have hws : ∀ w ∈ Hdf5.stored cs rs, w ∈ asked cs := fun w hw => mem_asked.2 (stored_asked cs rs w hw)
  obtain ⟨hs', names, inf, hp, ho, g1, g2⟩ := open_back S K' (fun m hm => hg m (globals_mem cs m hm)) ord V readMap back
    (fun w hw => hm w (mem_asked.1 hw))
  rw [hi] at ho
  simp only [Option.some.injEq, Prod.mk.injEq, true_and] at ho
  subst ho
  let info : Hdf5.Write M → Meta := fun w => (readMeta ord (.group (metaAttrs w.info) []) .empty).setInt kMipLevels (out w).2.2
  have hv : ∀ w ∈ Hdf5.stored cs rs, Proxy.bodyHdf5 ord (layerObj w) = .ok (⟨(out w).1, (out w).2.1⟩, info w) := fun w hw =>
    proxy_body ord w (K' w (hws w hw)) _ _ _ (hout w (mem_asked.1 (hws w hw)))
  refine ⟨(picked hs' u l v).map fun q => (q.1.idx, q.2.mapping, q.1.mapping.mapping), info,
    fun w hw => proxy_info ord V w (K w hw) _, ?_, ?_, ?_, ?_, ?_⟩
  · rw [Proxy.readLayerHdf5_picked S K' hws h4 ord V back names inf hp (fun w => (⟨(out w).1, (out w).2.1⟩, info w)) hv v u l hu hl,
      List.map_map]
    congr 1
    apply List.map_congr_left
    intro q hq
    obtain ⟨a, b, c, d, e⟩ := picked_mem hq
    have a' := hp.mem_iff.1 a
    obtain ⟨t1, t2⟩ := home_tag S q.1 a' q.2 c
    have hpart : q.2.mapping.part = u := by
      rw [← b, ← (S.inv.fits q.1 a' q.2 c).1, t2]; rfl
    have hlay : q.2.mapping.layer = l := by rw [← e, t2]; rfl
    simp only [Function.comp, Proxy.backHdf5, hpart, hlay]
  · intro F _ readField val hb
    refine ⟨infoBack ord, ?_⟩
    rw [read_picked S K' hws h4 ord V back names inf hp readField val
      (fun path w g hw => hb path w g (mem_asked.1 hw)) v u l hu hl, List.filterMap_map]
    congr 1
    apply List.filterMap_congr
    intro q hq
    obtain ⟨a, b, c, d, e⟩ := picked_mem hq
    have hlay : q.2.mapping.layer = l := by
      have := (home_tag S q.1 (hp.mem_iff.1 a) q.2 c).2
      rw [← e]; rw [this]; rfl
    simp only [oneBack, Function.comp, b, hlay]
  · rw [List.map_map]
    exact picked_perm S hp u l v
  · rw [List.map_map]
    exact picked_nodup S hp u l v
  · intro q hq
    obtain ⟨p, hp', rfl⟩ := List.mem_map.1 hq
    obtain ⟨a, b, c, d, e⟩ := picked_mem hp'
    have a' := hp.mem_iff.1 a
    obtain ⟨k1, k2⟩ := home_known S p.1 a'
    exact ⟨(S.inv.fits p.1 a' p.2 c).2.2.1, p.1.mapping, mem_asked.1 k1, by rw [k2, b], rfl⟩

/-- **C82, all of them, HDF5.** Reading the proxies of a layer name, or of all layers if the name is empty, gives one for each
layer of the kind of that name in a partition with a name, sorted by the names of partition and layer. -/
theorem C82_hdf5_all (C : Hdf5.MapIO M) (cs : List (Hdf5.Call M)) (hse : Session cs)
    (K : ∀ w, .write w ∈ cs → Fits C w) (hg : ∀ m, .global m ∈ cs → NamesFit m) (ord : Order) (V : Hdf5.Visits ord)
    (readMap : Obj → Res L) (back : M → L) (hm : MapsBack C readMap back cs) (out : Hdf5.Write M → Box3i × Box3i × Int)
    (hout : ∀ w, .write w ∈ cs → Outlined w (out w).1 (out w).2.1 (out w).2.2) (rs : List Hdf5.Ret) (o : Hdf5.Out M)
    (hrun : Hdf5.Out.run C (Hdf5.Out.new.create true) cs = some (rs, o)) (i : Hdf5.In L)
    (hi : In.openFile ord readMap o.root In.new = some (true, i)) (v : Bool) (l : Name) :
    ∃ (qs : List (Nat × Hdf5.Write M × M)) (info : Hdf5.Write M → Meta),
      (∀ w, .write w ∈ cs → ProxyMetaHdf5 w.info (out w).2.2 (info w)) ∧
      Proxy.readAllHdf5 ord i v l = .ok (qs.map fun q =>
        ⟨q.2.1.part, q.2.1.layer, some (back q.2.2), info q.2.1, ⟨(out q.2.1).1, (out q.2.1).2.1⟩⟩) ∧
      (qs.map (·.2.1)).Perm ((Hdf5.stored cs rs).filter fun w => w.part ≠ [] ∧ w.isVec = v ∧ (l = [] ∨ w.layer = l)) ∧
      (∀ q ∈ qs, C.ident q.2.1.mapping q.2.2 = true ∧ ∃ w, .write w ∈ cs ∧ w.part = q.2.1.part ∧ w.mapping = q.2.2) ∧
      qs.Pairwise fun a b => Metadata.nameLt a.2.1.part b.2.1.part = true ∨
        a.2.1.part = b.2.1.part ∧ (Metadata.nameLt a.2.1.layer b.2.1.layer = true ∨
          a.2.1.layer = b.2.1.layer ∧ a.1 ≠ b.1) := by
  obtain ⟨rs', o', i', h1, h2, -, hli⟩ := C80_listing C cs hse K hg ord V readMap back hm
  rw [hrun] at h1
  simp only [Option.some.injEq, Prod.mk.injEq] at h1
  obtain ⟨rfl, rfl⟩ := h1
  rw [hi] at h2
  simp only [Option.some.injEq, Prod.mk.injEq, true_and] at h2
  subst h2
  obtain ⟨-, hl1, -, hl3⟩ := hli v
  obtain ⟨rs', o', hs, h1, S, h3, h4, -⟩ := session_sim C cs hse K []
  rw [hrun] at h1
  simp only [Option.some.injEq, Prod.mk.injEq] at h1
  obtain ⟨rfl, rfl⟩ := h1
  rw [List.append_nil] at S
  have K' : ∀ w ∈ asked cs, Fits C w := fun w hw => K w (mem_asked.1 hw)
  have hws : ∀ w ∈ Hdf5.stored cs rs, w ∈ asked cs := fun w hw => mem_asked.2 (stored_asked cs rs w hw)
  obtain ⟨hs', names, inf, hp, ho, g1, g2⟩ := open_back S K' (fun m hm => hg m (globals_mem cs m hm)) ord V readMap back
    (fun w hw => hm w (mem_asked.1 hw))
  rw [hi] at ho
  simp only [Option.some.injEq, Prod.mk.injEq, true_and] at ho
  let info : Hdf5.Write M → Meta := fun w => (readMeta ord (.group (metaAttrs w.info) []) .empty).setInt kMipLevels (out w).2.2
  have hv : ∀ w ∈ Hdf5.stored cs rs, Proxy.bodyHdf5 ord (layerObj w) = .ok (⟨(out w).1, (out w).2.1⟩, info w) := fun w hw =>
    proxy_body ord w (K' w (hws w hw)) _ _ _ (hout w (mem_asked.1 (hws w hw)))
  have hkey : ∀ u x, (u, x) ∈ Proxy.wanted (i.listing v) l ↔
      (l = [] ∨ x = l) ∧ ∃ w ∈ Hdf5.stored cs rs, w.part = u ∧ w.layer = x ∧ w.isVec = v := by
    intro u x
    rw [Proxy.mem_wanted, (hl3 u).2 x]
    constructor
    · rintro ⟨-, h2, h3⟩
      exact ⟨h3, h2⟩
    · rintro ⟨h3, w, h2, h4, h5⟩
      exact ⟨h4 ▸ hl1 w h2, ⟨w, h2, h4, h5⟩, h3⟩
  have hne : ∀ k ∈ Proxy.wanted (i.listing v) l, k.2 ≠ [] := by
    intro k hk
    obtain ⟨-, w, h2, -, h5, -⟩ := (hkey k.1 k.2).1 hk
    exact h5 ▸ (K w (stored_asked cs rs w h2)).layer.ne
  let one : Name × Name → List (Nat × Hdf5.Write M × M) := fun k =>
    if k.1 = [] then [] else (picked hs' k.1 k.2 v).map fun q => (q.1.idx, q.2.mapping, q.1.mapping.mapping)
  let show' : Nat × Hdf5.Write M × M → Files.Loaded L Windows := fun q =>
    ⟨q.2.1.part, q.2.1.layer, some (back q.2.2), info q.2.1, ⟨(out q.2.1).1, (out q.2.1).2.1⟩⟩
  have hone : ∀ k ∈ Proxy.wanted (i.listing v) l, Proxy.readLayerHdf5 ord i v k.1 k.2 = .ok ((one k).map show') := by
    intro k hk
    by_cases hu : k.1 = []
    · rw [Proxy.readLayerHdf5_empty ord i v _ _ (.inl hu)]
      simp [one, hu]
    · rw [ho, Proxy.readLayerHdf5_picked S K' hws h4 ord V back names inf hp
        (fun w => (⟨(out w).1, (out w).2.1⟩, info w)) hv v k.1 k.2 hu (hne k hk)]
      simp only [one, if_neg hu, List.map_map]
      rfl
  have hmem : ∀ k ∈ Proxy.wanted (i.listing v) l, ∀ q ∈ one k, q.2.1.part = k.1 ∧ q.2.1.layer = k.2 ∧
      C.ident q.2.1.mapping q.2.2 = true ∧ ∃ w, .write w ∈ cs ∧ w.part = k.1 ∧ w.mapping = q.2.2 := by
    intro k hk q hq
    by_cases hu : k.1 = []
    · simp [one, hu] at hq
    · simp only [one, if_neg hu] at hq
      obtain ⟨p, hp', rfl⟩ := List.mem_map.1 hq
      obtain ⟨a, b, c, d, e⟩ := picked_mem hp'
      have a' := hp.mem_iff.1 a
      obtain ⟨k1, k2⟩ := home_known S p.1 a'
      obtain ⟨t1, t2⟩ := home_tag S p.1 a' p.2 c
      refine ⟨?_, ?_, (S.inv.fits p.1 a' p.2 c).2.2.1, p.1.mapping, mem_asked.1 k1, by rw [k2, b], rfl⟩
      · show p.2.mapping.part = _
        rw [← b, ← (S.inv.fits p.1 a' p.2 c).1, t2]; rfl
      · show p.2.mapping.layer = _
        rw [← e, t2]; rfl
  refine ⟨(Proxy.wanted (i.listing v) l).flatMap one, info, fun w hw => proxy_info ord V w (K w hw) _, ?_, ?_, ?_, ?_⟩
  · unfold Proxy.readAllHdf5
    rw [Proxy.gather_ok _ (fun k => (one k).map show') _ hone]
    show Res.ok _ = _
    rw [List.map_flatMap, List.flatMap_def]
  · have hperm : (((Proxy.wanted (i.listing v) l).flatMap one).map (·.2.1)).Perm
        ((Proxy.wanted (i.listing v) l).flatMap fun k =>
          ((Hdf5.stored cs rs).filter fun w => w.part ≠ [] ∧ w.isVec = v).filter fun w =>
            decide ((w.part, w.layer) = k)) := by
      rw [List.map_flatMap]
      refine List.Perm.flatMap_left _ fun k hk => ?_
      by_cases hu : k.1 = []
      · simp only [one, if_pos hu, List.map_nil]
        rw [List.filter_filter, List.filter_eq_nil_iff.2]
        intro w _
        simp only [Bool.and_eq_true, decide_eq_true_eq, not_and]
        rintro rfl h
        exact absurd hu h
      · simp only [one, if_neg hu, List.map_map]
        refine (picked_perm S hp k.1 k.2 v).trans ?_
        rw [List.filter_filter]
        apply List.Perm.of_eq
        apply List.filter_congr
        intro w _
        by_cases e : w.part = k.1
        · simp [e, hu, Prod.ext_iff]
        · simp [e, Prod.ext_iff]
    refine hperm.trans ((Proxy.perm_keys (fun w : Hdf5.Write M => (w.part, w.layer)) _ _ (Proxy.wanted_nodup _ _)).trans ?_)
    rw [List.filter_filter]
    apply List.Perm.of_eq
    apply List.filter_congr
    intro w hx
    rw [← Bool.decide_and, decide_eq_decide, hkey]
    constructor
    · rintro ⟨⟨h1, -⟩, h2, h3⟩
      exact ⟨h2, h3, h1⟩
    · rintro ⟨h2, h3, h1⟩
      exact ⟨⟨h1, w, hx, rfl, rfl, h3⟩, h2, h3⟩
  · intro q hq
    obtain ⟨k, hk, hq⟩ := List.mem_flatMap.1 hq
    obtain ⟨e1, e2, e3, w, e4, e5, e6⟩ := hmem k hk q hq
    exact ⟨e3, w, e4, e5.trans e1.symm, e6⟩
  · rw [List.pairwise_flatMap]
    refine ⟨fun k hk => ?_, ?_⟩
    · have hn : ((one k).map (·.1)).Nodup := by
        by_cases hu : k.1 = []
        · simp [one, hu]
        · simp only [one, if_neg hu, List.map_map]
          exact picked_nodup S hp k.1 k.2 v
      refine (List.pairwise_map.1 hn).imp_of_mem ?_
      intro a b ha hb hab
      obtain ⟨a1, a2, -⟩ := hmem k hk a ha
      obtain ⟨b1, b2, -⟩ := hmem k hk b hb
      exact .inr ⟨a1.trans b1.symm, .inr ⟨a2.trans b2.symm, hab⟩⟩
    · refine (Proxy.wanted_sorted (i.listing v) l).imp_of_mem ?_
      intro k k' hk hk' hkk a ha b hb
      obtain ⟨a1, a2, -⟩ := hmem k hk a ha
      obtain ⟨b1, b2, -⟩ := hmem k' hk' b hb
      rw [a1, a2, b1, b2]
      rcases hkk with h | ⟨h, h'⟩
      · exact .inl h
      · exact .inr ⟨h, .inl h'⟩

/-! ## The fields of the library -/

/-- A field of given windows, written with the names that no other file object has. -/
theorem outlined_add (g : Obj) (hg : FreshLayer g) (as : List (Name × Attr))
    (ls : List (Name × Obj)) (ext dw : Box3i) (h1 : named kExtents as = some (.ints (boxInts ext)))
    (h2 : named kDataWindow as = some (.ints (boxInts dw))) (h3 : ∀ p ∈ ls, p.1 ∈ dataNames) :
    getInts 6 kExtents (addTo g as ls) = .ok [ext.min.x, ext.min.y, ext.min.z, ext.max.x, ext.max.y, ext.max.z] ∧
    getInts 6 kDataWindow (addTo g as ls) = .ok [dw.min.x, dw.min.y, dw.min.z, dw.max.x, dw.max.y, dw.max.z] ∧
    named kMipGroup (addTo g as ls).links = none := by
  refine ⟨getInts_add g hg.free as ls kExtents 6 _ (by decide) h1 rfl, getInts_add g hg.free as ls kDataWindow 6 _ (by decide) h2 rfl, ?_⟩
  have hk : named kMipGroup g.links = none := hg.2.2 _ (by decide)
  show named kMipGroup (g.links ++ ls) = none
  rw [named_append_none hk, named_none]
  intro p hp e
  have : kMipGroup ∉ dataNames := by decide
  exact this (e ▸ h3 p hp)

/-- **C82, the fields that HDF5 files hold.** Dense and sparse fields of any voxel type and MAC fields give proxies with their
windows and no levels. -/
theorem C82_hdf5_fields [DecidableEq α] (gzip : Bool) (e : Elem α) (zero : α) (w : Hdf5.Write M) :
    (∀ x : AnyField α, HeldByFormat gzip e zero x → w.body = x.write gzip e →
      Outlined w (match x with | .dense f => f.extents | .sparse f => f.extents)
        (match x with | .dense f => f.dw | .sparse f => f.dw) 0) ∧
    (∀ (er : Elem Rat) (f : Mac), f.WF → f.dw.isEmpty = false → MacFits f.dw → w.body = Hdf5.writeMac gzip er f →
      Outlined w f.extents f.dw 0) := by
  constructor
  · intro x hx hb g hg
    rw [hb]
    have F := hg.free
    cases x with
    | dense f =>
      obtain ⟨⟨ext, dw, f0, ops, h0, hf⟩, hfit, h2⟩ := hx
      have hw : f0.WF := by
        by_cases hw : dw.isEmpty = true
        · have hb : dw.max.x < dw.min.x ∨ dw.max.y < dw.min.y ∨ dw.max.z < dw.min.z := by
            simpa [Box3i.isEmpty, or_assoc] using hw
          simp [Dense.setSize, hb] at h0
        · obtain ⟨k, hk, kwf, _⟩ := Dense.setSize_ok (dflt := zero) (e := ext) (Bool.eq_false_iff.mpr hw)
          rw [h0] at hk; cases hk; exact kwf
      have wf := dense_run_wf zero ops f0 f hw hf
      obtain ⟨hi, hl⟩ := dense_fits e f wf hfit
      rw [← hl] at h2
      have hwr : (AnyField.dense f).write gzip e g = _ := writeDense_ok gzip e f g F wf hi h2
      rw [hwr]
      obtain ⟨a, b, c⟩ := outlined_add g hg (denseAttrs e f)
        [(kData, .data ⟨htype e.type, [f.data.length * dims e.type], [e.encAll f.data]⟩)] f.extents f.dw rfl rfl
        (by intro p hp; rw [List.mem_singleton] at hp; subst hp; show kData ∈ dataNames; decide)
      exact ⟨a, b, .inl ⟨c, rfl⟩⟩
    | sparse f =>
      obtain ⟨hf, hfit⟩ := hx
      obtain ⟨m, hr⟩ := reachable_refines hf
      have hi := blocks_fit hr.wf hfit
      have hwr : (AnyField.sparse f).write gzip e g = _ := writeSparse_ok gzip e f g F hr.wf hi
      rw [hwr]
      obtain ⟨a, b, c⟩ := outlined_add g hg (sparseAttrs e f) (sparseLinks e f) f.extents f.dw rfl rfl
        (by
          intro p hp
          have hk1 : kAllocated ∈ dataNames := by decide
          have hk2 : kEmpty ∈ dataNames := by decide
          have hk3 : kData ∈ dataNames := by decide
          unfold sparseLinks at hp
          split at hp
          · simp only [List.cons_append, List.nil_append, List.mem_cons, List.not_mem_nil, or_false] at hp
            rcases hp with rfl | rfl | rfl
            · exact hk1
            · exact hk2
            · exact hk3
          · simp only [List.append_nil, List.mem_cons, List.not_mem_nil, or_false] at hp
            rcases hp with rfl | rfl
            · exact hk1
            · exact hk2)
      exact ⟨a, b, .inl ⟨c, rfl⟩⟩
  · intro er f wf hne hfit hb g hg
    rw [hb]
    have F := hg.free
    have hl := fun c => mac_length wf hne hfit c
    rw [writeMac_ok gzip er f g F (fun c => (hl c).2) (fun _ c => (hl c).1)]
    obtain ⟨a, b, c⟩ := outlined_add g hg (macAttrs er f) (macData er f) f.extents f.dw rfl rfl
      (by
        intro p hp
        have hk1 : kUData ∈ dataNames := by decide
        have hk2 : kVData ∈ dataNames := by decide
        have hk3 : kWData ∈ dataNames := by decide
        simp only [macData, List.mem_cons, List.not_mem_nil, or_false] at hp
        rcases hp with rfl | rfl | rfl
        · exact hk1
        · exact hk2
        · exact hk3)
    exact ⟨a, b, .inl ⟨c, rfl⟩⟩

end

/-! ## Through `Field3DInputFile` -/

section
open FileObject

/-- **C82 through a file object.** The proxies that an object gives are those of the format of the file that it opened: an
HDF5 file, whatever was done with the object before; an Ogawa file, if only Ogawa files were opened with it before. -/
theorem C82_through_file_object (R : Maps L) (cs : List InCall) (s : FileObject.In L)
    (hs : FileObject.In.run R .new cs = some s) :
    (∀ root (i : Hdf5.In L), Hdf5.In.openFile R.ord R.hdf5 root Hdf5.In.new = some (true, i) →
      ∃ t, s.open R (.hdf5 root) = some (true, t) ∧
        (∀ v u l, Proxy.readLayerOf R t v u l = Proxy.readLayerHdf5 R.ord i v u l) ∧
        ∀ v l, Proxy.readAllOf R t v l = Proxy.readAllHdf5 R.ord i v l) ∧
    (OgawaOnly cs → ∀ root (i : Files.In L), Files.openFile R.ogawa root = .ok i →
      ∃ t, s.open R (.ogawa root) = some (true, t) ∧
        (∀ v u l, Proxy.readLayerOf R t v u l = Proxy.readLayer i v u l) ∧
        ∀ v l, Proxy.readAllOf R t v l = Proxy.readAll i v l) := by
  constructor
  · intro root i h
    refine ⟨{ s.clear with hdf5 := some i }, ?_, fun _ _ _ => rfl, fun _ _ => rfl⟩
    show openHdf5 R root s.clear = _
    unfold openHdf5
    rw [h]
  · intro ho root i h
    have h0 := run_own R cs .new s ho rfl hs
    obtain ⟨m, h1, h2⟩ := openOwn_ok R.ogawa root s.own.info i h
    have hc := clear_none h0
    refine ⟨⟨⟨i.parts, m, i.root⟩, none⟩, ?_, fun _ _ _ => rfl, fun _ _ => rfl⟩
    simp only [FileObject.In.open]
    rw [hc, h1]

end

/-! ## C83: the field of a proxy -/

section
open Proxy (Empty EmptyOp)

/-- The last windows that were set. -/
def lastSize (init : Box3i × Box3i) : List (EmptyOp α) → Box3i × Box3i
  | [] => init
  | .setSize e d :: os => lastSize (e, d) os
  | _ :: os => lastSize init os

/-- The last value that `clear` was called with. -/
def lastClear (init : Option α) : List (EmptyOp α) → Option α
  | [] => init
  | .clear v :: os => lastClear (some v) os
  | _ :: os => lastClear init os

/-- The last value that `clear` or `setConstantvalue` was called with. -/
def lastConstantSet (init : Option α) : List (EmptyOp α) → Option α
  | [] => init
  | .clear v :: os => lastConstantSet (some v) os
  | .setConstant v :: os => lastConstantSet (some v) os
  | _ :: os => lastConstantSet init os

/-- Every write is inside the window of its time. -/
def WritesInside (dw : Box3i) : List (EmptyOp α) → Prop
  | [] => True
  | .setSize _ d :: os => WritesInside d os
  | .write p _ :: os => dw.contains p = true ∧ WritesInside dw os
  | _ :: os => WritesInside dw os

theorem empty_run : ∀ (ops : List (EmptyOp α)) (f : Empty α),
    (WritesInside f.dw ops → f.run ops = some ⟨(lastSize (f.extents, f.dw) ops).1, (lastSize (f.extents, f.dw) ops).2,
      lastClear f.dflt ops, lastConstantSet f.const ops⟩) ∧ (¬ WritesInside f.dw ops → f.run ops = none)
  | [], f => ⟨fun _ => rfl, fun h => absurd True.intro h⟩
  | .setSize e d :: os, f => empty_run os { f with extents := e, dw := d }
  | .clear v :: os, f => empty_run os { f with dflt := some v, const := some v }
  | .setConstant v :: os, f => empty_run os { f with const := some v }
  | .write p v :: os, f => by
    have ih := empty_run os f
    have e : f.run (.write p v :: os) = (if f.dw.contains p then some f else none).bind fun f => f.run os := rfl
    rw [e]
    by_cases h : f.dw.contains p = true
    · rw [if_pos h]
      exact ⟨fun hw => ih.1 hw.2, fun hw => ih.2 fun h' => hw ⟨h, h'⟩⟩
    · rw [if_neg h]
      exact ⟨fun hw => absurd hw.1 h, fun _ => rfl⟩

/-- **C83.** A field without voxels, after any calls that keep to its data window: its windows are those that were last set;
inside the data window every voxel has the value of the last `clear`, no value that was set if there was none; writing to
voxels and setting the constant value change no voxel; the constant value is that of the last call that set it. -/
theorem C83_empty_field (ops : List (EmptyOp α)) (f : Empty α) (hw : WritesInside f.dw ops) :
    ∃ g, f.run ops = some g ∧ (g.extents, g.dw) = lastSize (f.extents, f.dw) ops ∧
      (∀ p, g.value p = if g.dw.contains p then lastClear f.dflt ops else none) ∧ g.constant = lastConstantSet f.const ops :=
  ⟨_, (empty_run ops f).1 hw, rfl, fun _ => rfl, rfl⟩

/-- A call that does not keep to the data window is undefined behaviour, wherever it comes. -/
theorem C83_write_outside (ops : List (EmptyOp α)) (f : Empty α) (hw : ¬ WritesInside f.dw ops) : f.run ops = none :=
  (empty_run ops f).2 hw

/-- **Disagreement**: what is written to a voxel and the constant value that is set are not what the voxels have. -/
theorem C83_values_are_not_kept (f : Empty α) (v : α) :
    (∃ g, f.run [.setConstant v] = some g ∧ g.constant = some v ∧ ∀ p, g.value p = f.value p) ∧
    ∀ p, f.dw.contains p = true → ∃ g, f.run [.write p v] = some g ∧ ∀ q, g.value q = f.value q := by
  refine ⟨⟨_, rfl, rfl, fun _ => rfl⟩, fun p hp => ⟨f, ?_, fun _ => rfl⟩⟩
  show (if f.dw.contains p then some f else none).bind _ = _
  rw [if_pos hp]
  rfl

/-- **Disagreement**: the field of a proxy has the windows of the layer, but its voxels and its constant value were never
set; reading them is undefined until `clear` is called. -/
theorem C83_proxy_has_no_values (w : Windows) :
    (w.field : Empty α).extents = w.extents ∧ (w.field : Empty α).dw = w.dw ∧ (w.field : Empty α).constant = none ∧
    (∀ p, (w.field : Empty α).value p = none) ∧
    ∀ ops : List (EmptyOp α), (∀ v, .clear v ∉ ops) → ∀ g, (w.field : Empty α).run ops = some g → ∀ p, g.value p = none := by
  refine ⟨rfl, rfl, rfl, fun p => ?_, fun ops hc g hg p => ?_⟩
  · show (if _ then none else none) = none
    split <;> rfl
  · by_cases hw : WritesInside (w.field : Empty α).dw ops
    · rw [(empty_run ops _).1 hw, Option.some.injEq] at hg
      subst hg
      have : ∀ (ops : List (EmptyOp α)), (∀ v, .clear v ∉ ops) → lastClear none ops = none := by
        intro ops
        induction ops with
        | nil => intro _; rfl
        | cons o os ih =>
          intro h
          cases o with
          | clear v => exact absurd List.mem_cons_self (h v)
          | setSize _ _ => exact ih fun v hv => h v (by simp [hv])
          | setConstant _ => exact ih fun v hv => h v (by simp [hv])
          | write _ _ => exact ih fun v hv => h v (by simp [hv])
      show (if _ then lastClear none ops else none) = none
      rw [this ops hc]
      split <;> rfl
    · rw [(empty_run ops _).2 hw] at hg
      exact absurd hg (by simp)

/-- Calls that meet the hypotheses. -/
example : WritesInside (Empty.new : Empty Int).dw
    [.setSize ⟨⟨0, 0, 0⟩, ⟨1, 1, 1⟩⟩ ⟨⟨0, 0, 0⟩, ⟨0, 1, 0⟩⟩, .clear 4, .write ⟨0, 1, 0⟩ 7, .setConstant 5] :=
  ⟨by decide, True.intro⟩

end

/-! ## Cases -/

/-- The windows of the layers of the sample. -/
def sampleOutline (w : Hdf5.Write Nat) : Box3i × Box3i × Int :=
  match written w with
  | .dense f => (f.extents, f.dw, 0)
  | .sparse f => (f.extents, f.dw, 0)

theorem session_outlined (w : Hdf5.Write Nat) (hw : .write w ∈ sessionCalls) :
    Outlined w (sampleOutline w).1 (sampleOutline w).2.1 (sampleOutline w).2.2 := by
  have hs : (Hdf5.AnyField.sparse rowField).cls ≠ (Hdf5.AnyField.dense sampleDense).cls := by decide
  have hd : ∀ p l m, sampleOutline (anyLayer p l m (.dense sampleDense)) = (sampleDense.extents, sampleDense.dw, 0) := by
    intro p l m
    have h : written (anyLayer p l m (.dense sampleDense)) = .dense sampleDense := if_pos rfl
    unfold sampleOutline
    rw [h]
  have hp : ∀ p l m, sampleOutline (anyLayer p l m (.sparse rowField)) = (rowField.extents, rowField.dw, 0) := by
    intro p l m
    have h : written (anyLayer p l m (.sparse rowField)) = .sparse rowField := if_neg hs
    unfold sampleOutline
    rw [h]
  have h1 := fun w : Hdf5.Write Nat => (C82_hdf5_fields true half16 (0, 0) w).1 (.dense sampleDense) sampleDense_held
  have h2 := fun w : Hdf5.Write Nat => (C82_hdf5_fields true half16 (0, 0) w).1 (.sparse rowField) rowField_held
  simp only [sessionCalls, List.mem_cons, List.not_mem_nil, or_false, Hdf5.Call.write.injEq, reduceCtorEq, false_or] at hw
  rcases hw with rfl | rfl | rfl | rfl
  · rw [hd]; exact h1 _ rfl
  · rw [hp]; exact h2 _ rfl
  · rw [hp]; exact h2 _ rfl
  · rw [hd]; exact h1 _ rfl

/-- The sample session meets the hypotheses: its proxies come back, one for each of the four layers that were asked for and
stored. -/
example : ∃ rs o i, Hdf5.Out.run attrMaps (Hdf5.Out.new.create true) sessionCalls = some (rs, o) ∧
    Hdf5.In.openFile ⟨List.reverse, List.reverse⟩ readAttrMap o.root Hdf5.In.new = some (true, i) ∧
    (∃ ps, Proxy.readAllHdf5 ⟨List.reverse, List.reverse⟩ i false [] = .ok ps) ∧
    ∃ ps, Proxy.readLayerHdf5 ⟨List.reverse, List.reverse⟩ i false [112] [97] = .ok ps := by
  obtain ⟨rs, o, i, h1, h2, -⟩ := C80_listing attrMaps sessionCalls session_calls session_fits.1 session_fits.2.1
    ⟨List.reverse, List.reverse⟩ order_visits.2 readAttrMap id session_fits.2.2.1
  obtain ⟨qs, inf, -, h3, -⟩ := C82_hdf5_all attrMaps sessionCalls session_calls session_fits.1 session_fits.2.1
    ⟨List.reverse, List.reverse⟩ order_visits.2 readAttrMap id session_fits.2.2.1 sampleOutline session_outlined rs o h1 i h2 false []
  obtain ⟨qs', inf', -, h4, -⟩ := C82_hdf5_by_name attrMaps sessionCalls session_calls session_fits.1 session_fits.2.1
    ⟨List.reverse, List.reverse⟩ order_visits.2 readAttrMap id session_fits.2.2.1 sampleOutline session_outlined rs o h1 i h2 false
    [112] [97] (by decide) (by decide)
  exact ⟨rs, o, i, h1, h2, ⟨_, h3⟩, ⟨_, h4⟩⟩

end F3D.Props
