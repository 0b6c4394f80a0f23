import Verif.Proofs.Proxy
import Verif.Props.WholeFile

/-!
# C82: proxies of layers

A proxy stands for a layer and has its windows, its metadata with the number of MIP levels, its names and its mapping, but no
voxels. `readProxyLayer` gives those of a partition and layer name, `readProxyScalarLayers` and `readProxyVectorLayers` those
of a layer name, or of all.
-/

namespace F3D.Props
open Files Og Ogawa FieldIO LayerIO MappingIO
open MipIO (denseClass sparseClass mipClass Level writeMip mipEntries kMipGroup kLevels)
open Metadata (Meta readMeta entries)
open Proxy (Windows kMipLevels)

variable {M L : Type}

/-- Of every layer, the windows, the metadata and the number of levels can be read. See `C82_whole_file` for the fields that
the library writes. -/
def ProxiesAs (val : Write M → Windows × Meta) (ws : List (Write M)) : Prop :=
  ∀ w ∈ ws, w.layer ≠ kMapping → Proxy.body (groupKids w.layer (layerGroup w)) = .ok (val w)

/-- **C82, by name.** In a file that was written by an object (new or used before), reading the proxies of a partition and
layer name gives one for each layer that was written under exactly these names, with the windows and metadata of that layer
and the mapping of its partition. They come in the order in which the layers themselves are read (C43), so that the two lists
belong together, whether scalar or vector layers are asked for. -/
theorem C82_proxies_by_name (C : MapIO M) (o₀ o : Out M) (cs : List (Call M)) (rs : List Ret) (H : Wrote C o₀ cs rs o)
    (P : Plain cs) (readMap : List Tree → Res L) (R : Readable C readMap cs) (val : Write M → Windows × Meta)
    (hv : ProxiesAs val (stored cs rs)) (i : In L) (hi : openFile readMap (rootKids o.entries) = .ok i) (v : Bool) (u l : Name)
    (hu : u ≠ []) (hl : l ≠ []) (hm : l ≠ kMapping) :
    ∃ qs : List (Nat × Write M × M),
      Proxy.readLayer i v u l = .ok (qs.map fun q => ⟨u, l, mapBack C readMap q.2.2, (val q.2.1).2, (val q.2.1).1⟩) ∧
      (∀ (F : Type) [FieldClass F] (readField : Name → Name → List Tree → Res F) (fval : Name → Write M → Option (F × Meta)),
        ReadsAs readField fval cs →
        i.readLayers readField u l = .ok (qs.filterMap fun q => (fval (layerPath (intName u q.1) l) q.2.1).map fun b =>
          ⟨u, l, mapBack C readMap q.2.2, b.2, b.1⟩)) ∧
      (qs.map (·.2.1)).Perm ((stored cs rs).filter fun w => w.part = u ∧ w.layer = l) ∧
      (∀ q ∈ qs, C.ident q.2.1.mapping q.2.2 = true ∧ At o q.2.1 q.1 ∧
        ∃ w, Call.write w ∈ cs ∧ w.part = u ∧ w.mapping = q.2.2) ∧
      ∀ m, (qs.map (·.2.1)).filter (same u l m) = (stored cs rs).filter (same u l m) := by
  obtain ⟨hs, I⟩ := inv_wrote H
  have hw : ∀ w ∈ stored cs rs, Call.write w ∈ cs := fun w h => stored_mem cs rs w h
  obtain ⟨info, hi'⟩ := open_file I P hw readMap R
  rw [hi] at hi'
  simp only [Res.ok.injEq] at hi'
  subst hi'
  obtain ⟨h1, h2, -, h4⟩ := named_homes I u l hm
  refine ⟨(namedHomes hs u l).map fun q => (q.1.idx, q.2, q.1.mapping), ?_, ?_, h1, ?_, h4⟩
  · rw [Proxy.readLayer_homes I P hw readMap val hv info v u l hu hl, List.map_map]
    congr 1
    apply List.map_congr_left
    intro q hq
    obtain ⟨h, hh, e1, e2, -, -, e3⟩ := h2 _ (List.mem_map.2 ⟨q, hq, rfl⟩)
    simp only at e2 e3
    have e4 := (I.fits h hh q.2 e2).1
    simp only [Function.comp, Proxy.back, e4, e1, e3]
  · intro F _ readField fval hf
    rw [read_layers_homes I P hw readMap readField fval hf info u l hu hl, List.filterMap_map]
    rfl
  · intro q hq
    obtain ⟨h, hh, hu', hx, e1, e2, hl'⟩ := h2 q hq
    have hfit := I.fits h hh q.2.1 hx
    refine ⟨by rw [e2]; exact hfit.2.2.1, by rw [e1]; exact at_home I P hw h hh q.2.1 hx (by rw [hl']; exact hm), ?_⟩
    obtain ⟨w, hw1, hw2, hw3⟩ := I.known h hh
    exact ⟨w, hw1, by rw [hw2, hu'], by rw [hw3, e2]⟩

/-- **C82, all of them.** In a file that was written by a new object, reading the proxies of a layer name, or of all layers if
the name is empty, gives one for each layer of that name in a partition with a name, sorted by the names of partition and
layer. -/
theorem C82_all_proxies (C : MapIO M) (o : Out M) (cs : List (Call M)) (rs : List Ret) (H : Wrote C Out.new cs rs o)
    (P : Plain cs) (readMap : List Tree → Res L) (R : Readable C readMap cs) (val : Write M → Windows × Meta)
    (hv : ProxiesAs val (stored cs rs)) (i : In L) (hi : openFile readMap (rootKids o.entries) = .ok i) (v : Bool) (l : Name) :
    ∃ qs : List (Nat × Write M × M),
      Proxy.readAll i v l = .ok (qs.map fun q =>
        ⟨q.2.1.part, q.2.1.layer, mapBack C readMap q.2.2, (val q.2.1).2, (val q.2.1).1⟩) ∧
      (qs.map (·.2.1)).Perm ((stored cs rs).filter fun w => w.part ≠ [] ∧ w.layer ≠ kMapping ∧ (l = [] ∨ w.layer = l)) ∧
      (∀ q ∈ qs, C.ident q.2.1.mapping q.2.2 = true ∧ At o q.2.1 q.1 ∧
        ∃ w, Call.write w ∈ cs ∧ w.part = q.2.1.part ∧ w.mapping = q.2.2) ∧
      qs.Pairwise fun a b => Metadata.nameLt a.2.1.part b.2.1.part = true ∨
        a.2.1.part = b.2.1.part ∧ (Metadata.nameLt a.2.1.layer b.2.1.layer = true ∨ a.2.1.layer = b.2.1.layer ∧ a.1 < b.1) := by
  obtain ⟨i', hi', -, hl1, -, hl3⟩ := C44_listing_of_file C o cs rs H P readMap R
  rw [hi] at hi'
  simp only [Res.ok.injEq] at hi'
  subst hi'
  obtain ⟨hs, I⟩ := inv_wrote H
  have hw : ∀ w ∈ stored cs rs, Call.write w ∈ cs := fun w h => stored_mem cs rs w h
  obtain ⟨info, hi'⟩ := open_file I P hw readMap R
  rw [hi] at hi'
  simp only [Res.ok.injEq] at hi'
  have hkey : ∀ u x, (u, x) ∈ Proxy.wanted i.listing l ↔
      (x ≠ kMapping ∧ (l = [] ∨ x = l)) ∧ ∃ w ∈ stored cs rs, w.part = u ∧ w.layer = x := by
    intro u x
    rw [Proxy.mem_wanted, (hl3 u).2 x]
    constructor
    · rintro ⟨-, ⟨h1, h2⟩, h3⟩
      exact ⟨⟨h1, h3⟩, h2⟩
    · rintro ⟨⟨h1, h3⟩, w, h2, h4, h5⟩
      exact ⟨h4 ▸ hl1 w h2, ⟨h1, w, h2, h4, h5⟩, h3⟩
  have hne : ∀ k ∈ Proxy.wanted i.listing l, k.2 ≠ [] ∧ k.2 ≠ kMapping := by
    intro k hk
    obtain ⟨⟨h1, -⟩, w, h2, -, h5⟩ := (hkey k.1 k.2).1 hk
    exact ⟨h5 ▸ (P.layer w (hw w h2)).1, h1⟩
  let one : Name × Name → List (Nat × Write M × M) := fun k =>
    if k.1 = [] then [] else (namedHomes hs k.1 k.2).map fun q => (q.1.idx, q.2, q.1.mapping)
  let show' : Nat × Write M × M → Loaded L Windows := fun q =>
    ⟨q.2.1.part, q.2.1.layer, mapBack C readMap q.2.2, (val q.2.1).2, (val q.2.1).1⟩
  have hone : ∀ k ∈ Proxy.wanted i.listing l, Proxy.readLayer i v k.1 k.2 = .ok ((one k).map show') := by
    intro k hk
    by_cases hu : k.1 = []
    · rw [Proxy.readLayer_empty i v _ _ (.inl hu)]
      simp [one, hu]
    · rw [hi', Proxy.readLayer_homes I P hw readMap val hv info v k.1 k.2 hu (hne k hk).1]
      simp only [one, if_neg hu, List.map_map]
      rfl
  have hmem : ∀ k ∈ Proxy.wanted i.listing l, ∀ q ∈ one k, ∃ h ∈ hs, h.user = k.1 ∧ q.2.1 ∈ h.writes ∧ q.1 = h.idx ∧
      q.2.2 = h.mapping ∧ q.2.1.layer = k.2 ∧ q.2.1.part = k.1 := by
    intro k hk q hq
    by_cases hu : k.1 = []
    · simp [one, hu] at hq
    · simp only [one, if_neg hu] at hq
      obtain ⟨h, hh, e1, e2, e3, e4, e5⟩ := (named_homes I k.1 k.2 (hne k hk).2).2.1 q hq
      exact ⟨h, hh, e1, e2, e3, e4, e5, (I.fits h hh q.2.1 e2).1.trans e1⟩
  refine ⟨(Proxy.wanted i.listing l).flatMap one, ?_, ?_, ?_, ?_⟩
  · unfold Proxy.readAll
    rw [Proxy.gather_ok _ (fun k => (one k).map show') _ hone]
    show Res.ok _ = _
    rw [List.map_flatMap, List.flatMap_def]
  · have hp : (((Proxy.wanted i.listing l).flatMap one).map (·.2.1)).Perm
        ((Proxy.wanted i.listing l).flatMap fun k => ((stored cs rs).filter fun w => w.part ≠ []).filter fun w =>
          decide ((w.part, w.layer) = k)) := by
      rw [List.map_flatMap]
      refine List.Perm.flatMap_left _ fun k hk => ?_
      by_cases hu : k.1 = []
      · simp only [one, if_pos hu, List.map_nil]
        rw [List.filter_filter, List.filter_eq_nil_iff.2]
        intro w _
        simp only [ne_eq, decide_not, Bool.and_eq_true, Bool.not_eq_true', decide_eq_false_iff_not, decide_eq_true_eq, not_and]
        rintro rfl
        simpa using hu
      · simp only [one, if_neg hu]
        refine (named_homes I k.1 k.2 (hne k hk).2).1.trans ?_
        rw [List.filter_filter]
        apply List.Perm.of_eq
        apply List.filter_congr
        intro w _
        by_cases e : w.part = k.1
        · simp [e, hu, Prod.ext_iff]
        · simp [e, Prod.ext_iff]
    refine hp.trans ((Proxy.perm_keys (fun w : Write M => (w.part, w.layer)) _ _ (Proxy.wanted_nodup _ _)).trans ?_)
    rw [List.filter_filter]
    apply List.Perm.of_eq
    apply List.filter_congr
    intro w hx
    have := hkey w.part w.layer
    by_cases e : w.part = []
    · simp [e]
    · simp only [this, ne_eq, e, not_false_eq_true, decide_true, Bool.and_true, true_and, decide_eq_decide]
      exact ⟨fun h => h.1, fun h => ⟨h, w, hx, rfl, rfl⟩⟩
  · intro q hq
    obtain ⟨k, hk, hq⟩ := List.mem_flatMap.1 hq
    obtain ⟨h, hh, e1, hx, e3, e4, e5, e6⟩ := hmem k hk q hq
    have hfit := I.fits h hh q.2.1 hx
    refine ⟨by rw [e4]; exact hfit.2.2.1, by rw [e3]; exact at_home I P hw h hh q.2.1 hx (by rw [e5]; exact (hne k hk).2), ?_⟩
    obtain ⟨w, hw1, hw2, hw3⟩ := I.known h hh
    exact ⟨w, hw1, by rw [hw2, e1, e6], by rw [hw3, e4]⟩
  · rw [List.pairwise_flatMap]
    refine ⟨fun k hk => ?_, ?_⟩
    · have hp : ((one k).map (·.1)).Pairwise (· < ·) := by
        by_cases hu : k.1 = []
        · simp [one, hu]
        · simp only [one, if_neg hu]
          exact (named_homes I k.1 k.2 (hne k hk).2).2.2.1
      refine (List.pairwise_map.1 hp).imp_of_mem ?_
      intro a b ha hb hab
      obtain ⟨-, -, -, -, -, -, a1, a2⟩ := hmem k hk a ha
      obtain ⟨-, -, -, -, -, -, b1, b2⟩ := hmem k hk b hb
      exact .inr ⟨a2.trans b2.symm, .inr ⟨a1.trans b1.symm, hab⟩⟩
    · refine (Proxy.wanted_sorted i.listing l).imp_of_mem ?_
      intro k k' hk hk' hkk a ha b hb
      obtain ⟨-, -, -, -, -, -, a1, a2⟩ := hmem k hk a ha
      obtain ⟨-, -, -, -, -, -, b1, b2⟩ := hmem k' hk' b hb
      rw [a1, a2, b1, b2]
      rcases hkk with h | ⟨h, h'⟩
      · exact .inl h
      · exact .inr ⟨h, .inl h'⟩

/-! ## The fields of the library -/

variable {α : Type}

/-- The windows of a field, and the number of its MIP levels. -/
def outline : Content α → Option (Box3i × Box3i × Nat)
  | .dense f => some (f.extents, f.dw, 0)
  | .sparse f _ => some (f.extents, f.dw, 0)
  | .mip _ (l :: ls) => some (l.single.extents, l.single.dw, (l :: ls).length)
  | .other _ _ f => some (f.extents, f.dw, 0)
  | .otherMip _ _ _ (l :: ls) => some (l.single.extents, l.single.dw, (l :: ls).length)
  | _ => none

/-- "mip_levels", under which a proxy has the number of levels in its metadata. -/
def levelCountName : Name := ascii ['m', 'i', 'p', '_', 'l', 'e', 'v', 'e', 'l', 's']

/-- The metadata of a proxy: that of the layer, but for the number of levels. -/
def ProxyMeta (m : Meta) (k : Int) (m' : Meta) : Prop :=
  ∀ n kd, lookup m' n kd = if levelCountName = n ∧ MKind.int = kd then some (.int k) else lookup m n kd

/-- A proxy has the names, the windows and the metadata of the layer; its mapping is that of a field `l'` with the same name,
which is identical to that of the field. -/
structure SameProxy (ident : AnyMap → AnyMap → Bool) (cs : List (FileOp α)) (l : Layer α)
    (r : Files.Loaded MappingIO.Loaded Windows) : Prop where
  name : r.name = l.name
  attr : r.attr = l.attr
  data : ∃ k, outline l.content = some (r.data.extents, r.data.dw, k) ∧ ProxyMeta l.info k r.info
  mapping : ∃ l' x, FileOp.layer l' ∈ cs ∧ l'.name = l.name ∧ ident l.mapping l'.mapping = true ∧ r.mapping = some x ∧
    SameMap l'.mapping x

/-- What a proxy needs to find in the group of a layer. -/
theorem proxy_of (w : Write M) (cls : Name) (es : List Entry) (hb : w.body = fieldEntries cls es)
    (hes : ∀ x ∈ es, plainName (nameOf x)) (extents dw : Box3i) (tail : List Entry)
    (hsh : es = [.attribute kVersion .int32 (encInt 1)] ++ windowEntries extents dw ++ tail)
    (hx : V32 extents.min ∧ V32 extents.max) (hd : V32 dw.min ∧ V32 dw.max) (m : Meta)
    (hw : readMeta (groupKids kMetadata w.mdata) Meta.empty = some m) (k : Int)
    (hk : Proxy.levels (groupKids w.layer (layerGroup w)) = some k) :
    Proxy.body (groupKids w.layer (layerGroup w)) = .ok (⟨extents, dw⟩, m.setInt kMipLevels k) := by
  have hl : layerGroup w = [.attribute kClassType .string kLayerText, .group kMetadata w.mdata,
      .attribute kClassName .string cls] ++ es := by
    unfold layerGroup; rw [hb]; rfl
  have hn : ∀ x ∈ layerGroup w, plainName (nameOf x) := by
    intro x hx
    rw [hl, List.mem_append] at hx
    rcases hx with h | h
    · exact (layer_pre_foreign cls w.mdata x h).1
    · exact hes x h
  have hf : ∀ nm, nm = kExtMin ∨ nm = kExtMax ∨ nm = kDwMin ∨ nm = kDwMax →
      firstOf .attribute nm (layerGroup w) = some (.attribute nm .veci32
        (if nm = kExtMin then encV3i extents.min else if nm = kExtMax then encV3i extents.max
          else if nm = kDwMin then encV3i dw.min else encV3i dw.max)) := by
    intro nm h
    rw [hl, foreign_first (layer_pre_foreign cls w.mdata) _ _ (by rcases h with rfl | rfl | rfl | rfl <;> decide), hsh]
    exact windows_first _ extents dw tail rfl nm h
  have hm : find .group kMetadata (groupKids w.layer (layerGroup w)) = some (some (groupKids kMetadata w.mdata)) := by
    refine find_group w.layer kMetadata _ _ (by decide) hn ?_
    rw [hl]
    simp [firstOf, kindOf, nameOf]
  have s := fun nm hm => (formatNames_ok nm hm).1
  unfold Proxy.body Proxy.windows
  rw [attr_get w.layer kExtMin _ _ _ (s _ (by decide)) hn (hf _ (.inl rfl)) (by decide) rfl,
    attr_get w.layer kExtMax _ _ _ (s _ (by decide)) hn (hf _ (.inr (.inl rfl))) (by decide) rfl,
    attr_get w.layer kDwMin _ _ _ (s _ (by decide)) hn (hf _ (.inr (.inr (.inl rfl)))) (by decide) rfl,
    attr_get w.layer kDwMax _ _ _ (s _ (by decide)) hn (hf _ (.inr (.inr (.inr rfl)))) (by decide) rfl, hm, hk]
  simp only [bind_ok, hw]
  show Res.ok ((⟨⟨decV3i (encV3i extents.min), decV3i (encV3i extents.max)⟩,
    ⟨decV3i (encV3i dw.min), decV3i (encV3i dw.max)⟩⟩ : Windows), m.setInt kMipLevels k) = _
  rw [decV3i_encV3i _ hx.1, decV3i_encV3i _ hx.2, decV3i_encV3i _ hd.1, decV3i_encV3i _ hd.2]

theorem no_levels (w : Write M) (cls : Name) (es : List Entry) (hb : w.body = fieldEntries cls es)
    (hes : ∀ x ∈ es, nameOf x ∈ formatNames) : Proxy.levels (groupKids w.layer (layerGroup w)) = some 0 := by
  have hl : layerGroup w = [.attribute kClassType .string kLayerText, .group kMetadata w.mdata,
      .attribute kClassName .string cls] ++ es := by
    unfold layerGroup; rw [hb]; rfl
  have hn : ∀ x ∈ layerGroup w, plainName (nameOf x) ∧ nameOf x ≠ kMipGroup := by
    intro x hx
    rw [hl, List.mem_append] at hx
    rcases hx with h | h
    · refine ⟨(layer_pre_foreign cls w.mdata x h).1, fun e => (layer_pre_mip cls w.mdata x h).2 (e ▸ by decide)⟩
    · exact ⟨(formatNames_ok _ (hes x h)).2, fun e => absurd (e ▸ hes x h) (by decide)⟩
  have : find .group kMipGroup (groupKids w.layer (layerGroup w)) = some none := by
    refine find_no_group w.layer kMipGroup _ (by decide) (fun x hx => (hn x hx).1) ?_
    unfold firstOf
    rw [List.find?_eq_none]
    intro x hx
    simp [(hn x hx).2]
  unfold Proxy.levels
  rw [this]

theorem mip_levels [DecidableEq α] (e : Elem α) (hv : isVoxelType e.type = true) (z : Zlib) (zero dflt : α) (cls : Name)
    (levels : List (Level α)) (H : GoodMip e z zero dflt cls levels) (w : Write M)
    (hb : w.body = fieldEntries mipClass (writeMip e cls levels)) :
    Proxy.levels (groupKids w.layer (layerGroup w)) = some (levels.length : Int) := by
  have hl : layerGroup w = [.attribute kClassType .string kLayerText, .group kMetadata w.mdata,
      .attribute kClassName .string mipClass] ++ writeMip e cls levels ++ [] := by
    unfold layerGroup; rw [hb]; simp [fieldEntries]
  have h1 := (mip_read e hv z zero dflt cls levels H w.layer [] _ [] (layer_pre_mip mipClass w.mdata) (by simp)).2.1
  obtain ⟨⟨a, h2, h3⟩, -, -⟩ := C36_attribute_round_trip kMipGroup kLevels .uint32 (le32 (levels.map (Level.entries e)).length)
    (mipGroup (levels.map (Level.entries e))) (by decide) (mipGroup_plain (levels.map (Level.entries e))) rfl (by intro _; rfl)
  have hlen : decInt (le32 (levels.map (Level.entries e)).length) = (levels.length : Int) := by
    rw [List.length_map]
    have hf := H.few
    have := decInt_encInt (levels.length : Int) ⟨by omega, by omega⟩
    rw [encInt, Int.emod_eq_of_lt (by omega) (by omega), Int.toNat_natCast] at this
    exact this
  unfold Proxy.levels
  rw [hl, h1]
  simp only [h2, h3]
  rw [if_neg (by decide)]
  exact congrArg some hlen

theorem proxy_layer [DecidableEq α] (e : Elem α) (hv : isVoxelType e.type = true) (z : Zlib) (zero dflt : α) (l : Layer α)
    (hl : GoodLayer e z zero dflt l) (ext dw : Box3i) (k : Nat) (ho : outline l.content = some (ext, dw, k)) :
    ∃ m, ProxyMeta l.info k m ∧ Proxy.body (groupKids l.attr (layerGroup (l.write e))) = .ok (⟨ext, dw⟩, m) := by
  obtain ⟨m, hm, hlk⟩ := C46_round_trip kMetadata l.info hl.info.plain hl.info.fits hl.info.distinct hl.info.noNul
  refine ⟨m.setInt kMipLevels k, fun n kd => ?_, ?_⟩
  · rw [← hlk]
    exact lookup_put m kMipLevels n (.int k) kd
  have hcont := hl.content
  obtain ⟨nm, at', mp, inf, c⟩ := l
  simp only at hcont hm ho ⊢
  cases c with
  | dense f =>
    simp only [outline, Option.some.injEq, Prod.mk.injEq] at ho
    obtain ⟨rfl, rfl, rfl⟩ := ho
    exact proxy_of (Layer.write e ⟨nm, at', mp, inf, .dense f⟩) denseClass _ rfl (fun x hx => (formatNames_ok _ (dense_names e f x hx)).2)
      _ _ _ rfl hcont.2.1 hcont.2.2 m hm _ (no_levels _ denseClass _ rfl (dense_names e f))
  | sparse f es =>
    simp only [outline, Option.some.injEq, Prod.mk.injEq] at ho
    obtain ⟨rfl, rfl, rfl⟩ := ho
    obtain ⟨-, hst, t, s, o, -, hw, -⟩ := hcont
    obtain ⟨h1, tail, h2⟩ := written_sparse_shape e z f t s o es hw
    exact proxy_of (Layer.write e ⟨nm, at', mp, inf, .sparse f es⟩) sparseClass es rfl (fun x hx => (formatNames_ok _ (h1 x hx)).2)
      _ _ _ h2 hst.ext hst.dw m hm _ (no_levels _ sparseClass _ rfl h1)
  | mip cls levels =>
    have H := hcont
    cases levels with
    | nil => simp [outline] at ho
    | cons l ls =>
      simp only [outline, Option.some.injEq, Prod.mk.injEq] at ho
      obtain ⟨rfl, rfl, rfl⟩ := ho
      obtain ⟨-, -, h3, h4⟩ := level_shape e z zero dflt l (H.good l (by simp)).1
      exact proxy_of (Layer.write e ⟨nm, at', mp, inf, .mip cls (l :: ls)⟩) mipClass _ rfl (written_mip_names e cls (l :: ls))
        _ _ _ rfl h3 h4 m hm _ (mip_levels e hv z zero dflt cls (l :: ls) H _ rfl)
  | other β e' f =>
    simp only [outline, Option.some.injEq, Prod.mk.injEq] at ho
    obtain ⟨rfl, rfl, rfl⟩ := ho
    obtain ⟨-, -, -, -, -, h1, h2⟩ := hcont
    exact proxy_of (Layer.write e ⟨nm, at', mp, inf, .other β e' f⟩) denseClass _ rfl
      (fun x hx => (formatNames_ok _ (dense_names e' f x hx)).2) _ _ _ rfl h1 h2 m hm _
      (no_levels _ denseClass _ rfl (dense_names e' f))
  | otherMip β e' cls levels =>
    obtain ⟨hv', -, _, z', zero', dflt', H⟩ := hcont
    cases levels with
    | nil => simp [outline] at ho
    | cons l ls =>
      simp only [outline, Option.some.injEq, Prod.mk.injEq] at ho
      obtain ⟨rfl, rfl, rfl⟩ := ho
      obtain ⟨-, -, h3, h4⟩ := level_shape e' z' zero' dflt' l (H.good l (by simp)).1
      exact proxy_of (Layer.write e ⟨nm, at', mp, inf, .otherMip β e' cls (l :: ls)⟩) mipClass _ rfl
        (written_mip_names e' cls (l :: ls)) _ _ _ rfl h3 h4 m hm _
        (mip_levels e' hv' z' zero' dflt' cls (l :: ls) H _ rfl)
  | foreign cls es => simp [outline] at ho

theorem ops_plain [DecidableEq α] (e : Elem α) (z : Zlib) (zero dflt : α) (k : Rat) (ident : AnyMap → AnyMap → Bool)
    (cs : List (FileOp α)) (hcs : ∀ c ∈ cs, GoodOp e z zero dflt c) :
    Plain (cs.map (FileOp.call e)) ∧ Readable ⟨ident, writeMap⟩ (readMap k) (cs.map (FileOp.call e)) := by
  refine ⟨⟨?_, ?_⟩, ⟨?_, ?_⟩⟩
  · intro w hw
    obtain ⟨l, hl, rfl⟩ := write_mem e cs w hw
    have hg : GoodLayer e z zero dflt l := hcs _ hl
    exact hg.name.2
  · intro w hw
    obtain ⟨l, hl, rfl⟩ := write_mem e cs w hw
    have hg : GoodLayer e z zero dflt l := hcs _ hl
    exact hg.attr.2
  · intro w _
    obtain ⟨x, hx, -⟩ := read_map_back k w.mapping
    exact .inl ⟨x, hx⟩
  · intro es hes
    obtain ⟨m, hm, rfl⟩ := global_mem e cs es hes
    have hg : GoodMeta m := hcs _ hm
    obtain ⟨m', h, -⟩ := C46_round_trip kGlobal m hg.plain hg.fits hg.distinct hg.noNul
    rw [h]; rfl

/-- From the layers that were written to the program that wrote them. -/
theorem proxies_same [DecidableEq α] (e : Elem α) (z : Zlib) (zero dflt : α) (k : Rat) (ident : AnyMap → AnyMap → Bool)
    (cs : List (FileOp α)) (hcs : ∀ c ∈ cs, GoodOp e z zero dflt c)
    (val : Write AnyMap → Windows × Meta) (hval : ∀ l, FileOp.layer l ∈ cs → ∃ ext dw k, outline l.content = some (ext, dw, k) ∧
      ∃ m, ProxyMeta l.info k m ∧ val (l.write e) = (⟨ext, dw⟩, m)) (o : Out AnyMap) (keep : Name → Name → Bool)
    (qs : List (Nat × Write AnyMap × AnyMap))
    (hp : (qs.map (·.2.1)).Perm (((layersOf cs).map (Layer.write e)).filter fun w => keep w.part w.layer))
    (hq : ∀ q ∈ qs, ident q.2.1.mapping q.2.2 = true ∧ At o q.2.1 q.1 ∧
        ∃ w, Call.write w ∈ cs.map (FileOp.call e) ∧ w.part = q.2.1.part ∧ w.mapping = q.2.2) :
    ∃ ls : List (Layer α), ls.Perm ((layersOf cs).filter fun l => keep l.name l.attr) ∧
      List.Forall₂ (fun (q : Nat × Write AnyMap × AnyMap) (l : Layer α) => q.2.1 = l.write e ∧
        SameProxy ident cs l ⟨q.2.1.part, q.2.1.layer, mapBack ⟨ident, writeMap⟩ (readMap k) q.2.2, (val q.2.1).2, (val q.2.1).1⟩)
        qs ls := by
  have e1 : (((layersOf cs).map (Layer.write e)).filter fun w => keep w.part w.layer) =
      ((layersOf cs).filter fun x => keep x.name x.attr).map (Layer.write e) := by
    rw [List.filter_map]; rfl
  rw [e1] at hp
  obtain ⟨ls, h4, h5⟩ := List.perm_comp_forall₂ (r := fun w (x : Layer α) => w = x.write e) hp
    (v := (layersOf cs).filter fun x => keep x.name x.attr) (by
      rw [List.forall₂_map_left_iff]
      exact List.forall₂_same.2 fun _ _ => rfl)
  refine ⟨ls, h5, ?_⟩
  have hmem : ∀ x ∈ ls, FileOp.layer x ∈ cs := by
    intro x hx
    have := h5.mem_iff.1 hx
    rw [List.mem_filter] at this
    obtain ⟨c, hc, h⟩ := List.mem_filterMap.1 this.1
    cases c with
    | layer l' => simp only [Option.some.injEq] at h; exact h ▸ hc
    | info m' => simp at h
  clear hp h5 e1
  rw [List.forall₂_map_left_iff] at h4
  induction h4 with
  | nil => exact .nil
  | @cons q x qs ls hqx hrest ih =>
    refine .cons ⟨hqx, ?_⟩ (ih (fun q hq' => hq q (by simp [hq'])) fun y hy => hmem y (by simp [hy]))
    obtain ⟨ext, dw, j, ho, m, hm, hv⟩ := hval x (hmem x (by simp))
    obtain ⟨h1, -, w, hw1, hw2, hw3⟩ := hq q (by simp)
    obtain ⟨l', hl', rfl⟩ := write_mem e cs w hw1
    have hw3' : l'.mapping = q.2.2 := hw3
    rw [hqx] at h1 hw2
    rw [hqx, hv]
    obtain ⟨y, hy, hs⟩ := read_map_back k q.2.2
    refine ⟨rfl, rfl, ⟨j, ho, hm⟩, l', y, hl', hw2, ?_, ?_, hw3' ▸ hs⟩
    · rw [hw3']; exact h1
    · show mapBack ⟨ident, writeMap⟩ (readMap k) q.2.2 = some y
      unfold mapBack
      rw [hy]

theorem forall₂_split {β γ δ : Type*} {R : β → γ → Prop} {S : γ → δ → Prop} {f : β → δ} : ∀ {qs : List β} {ls : List γ},
    List.Forall₂ (fun q l => R q l ∧ S l (f q)) qs ls → List.Forall₂ S ls (qs.map f)
  | _, _, .nil => .nil
  | _, _, .cons h t => .cons h.2 (forall₂_split t)

theorem pairwise_forall₂ {β γ : Type*} {R : β → γ → Prop} {S : β → β → Prop} {T : γ → γ → Prop}
    (hST : ∀ a b c d, R a c → R b d → S a b → T c d) : ∀ {qs : List β} {ls : List γ},
    List.Forall₂ R qs ls → qs.Pairwise S → ls.Pairwise T
  | _, _, .nil, _ => .nil
  | _, _, @List.Forall₂.cons _ _ _ a b l1 l2 h t, hp => by
    rw [List.pairwise_cons] at hp
    refine List.pairwise_cons.2 ⟨fun d hd => ?_, pairwise_forall₂ hST t hp.2⟩
    obtain ⟨i, hi, rfl⟩ := List.mem_iff_getElem.1 hd
    have hlen := t.length_eq
    have hi' : i < l1.length := by omega
    exact hST _ _ _ _ h (t.get hi' hi) (hp.1 _ (List.getElem_mem hi'))

/-- **C82, fields of the library.** A file object writes any dense, sparse and MIP fields of any voxel types with any names,
mappings and metadata, and closes the file. From the bytes of the file, reading the proxies of a partition and layer name gives
exactly one for each field that was written under these names: with its windows, its metadata, the number of its MIP levels
(zero for other fields) as the integer "mip_levels", its names, and a mapping that is identical to that of the field. If the
object was new, reading all proxies, or those of a layer name, gives one for each field under a partition name that is not
empty, sorted by name. The voxels are not read, so that the threads that read blocks have no part in it. -/
theorem C82_whole_file [DecidableEq α] (e : Elem α) (hv : isVoxelType e.type = true) (z : Zlib)
    (zero dflt : α) (k : Rat) (ident : AnyMap → AnyMap → Bool) (hr : ∀ m, ident m m = true)
    (hsy : ∀ a b, ident a b = true → ident b a = true) (o₀ : Out AnyMap) (cs : List (FileOp α))
    (hcs : ∀ c ∈ cs, GoodOp e z zero dflt c) (hout : ∀ l, FileOp.layer l ∈ cs → outline l.content ≠ none) :
    ∃ o, Wrote ⟨ident, writeMap⟩ o₀ (cs.map (FileOp.call e)) (List.replicate cs.length .written) o ∧
      ∀ (ops : List Ogawa.Op) (n : Nat), treeOf (Doc.init.run ops) n 0 = .group (rootKids o.entries) →
        (∀ g, Ogawa.Op.addData g [] ∉ ops) → (Writer.init.run ops).closed = true →
        (Writer.init.run ops).file.length < 2 ^ 63 →
        ∃ root kids i, openArchive (Writer.init.run ops).file = .archive true root ∧
          explore (Writer.init.run ops).file false n root = some (.group kids) ∧ openFile (readMap k) kids = .ok i ∧
          (∀ v u l, u ≠ [] → l ≠ [] → l ≠ kMapping → ∃ (ls : List (Layer α)) (ps : List (Files.Loaded MappingIO.Loaded Windows)),
            Proxy.readLayer i v u l = .ok ps ∧ ls.Perm ((layersOf cs).filter fun x => x.name = u ∧ x.attr = l) ∧
            List.Forall₂ (SameProxy ident cs) ls ps) ∧
          (o₀ = Out.new → ∀ v l, ∃ (ls : List (Layer α)) (ps : List (Files.Loaded MappingIO.Loaded Windows)),
            Proxy.readAll i v l = .ok ps ∧
            ls.Perm ((layersOf cs).filter fun x => x.name ≠ [] ∧ x.attr ≠ kMapping ∧ (l = [] ∨ x.attr = l)) ∧
            List.Forall₂ (SameProxy ident cs) ls ps ∧
            ls.Pairwise fun a b => Metadata.nameLt a.name b.name = true ∨ a.name = b.name ∧
              (Metadata.nameLt a.attr b.attr = true ∨ a.attr = b.attr)) := by
  obtain ⟨o, H, hst⟩ := ops_written e z zero dflt ident hr hsy o₀ cs hcs
  refine ⟨o, H, fun ops n htree hne hclosed hlen => ?_⟩
  obtain ⟨-, root, hroot, hex⟩ := C30_archive_reads_back ops hne hclosed hlen
  obtain ⟨P, R⟩ := ops_plain e z zero dflt k ident cs hcs
  obtain ⟨hs, I⟩ := inv_wrote H
  obtain ⟨info, hi⟩ := open_file I P (fun w h => stored_mem _ _ w h) (readMap k) R
  have hval : ∃ val : Write AnyMap → Windows × Meta, ∀ l, FileOp.layer l ∈ cs →
      Proxy.body (groupKids l.attr (layerGroup (l.write e))) = .ok (val (l.write e)) ∧
      ∃ ext dw k, outline l.content = some (ext, dw, k) ∧ ∃ m, ProxyMeta l.info k m ∧ val (l.write e) = (⟨ext, dw⟩, m) := by
    refine ⟨fun w => match Proxy.body (groupKids w.layer (layerGroup w)) with
      | .ok b => b
      | _ => (⟨⟨⟨0, 0, 0⟩, ⟨0, 0, 0⟩⟩, ⟨⟨0, 0, 0⟩, ⟨0, 0, 0⟩⟩⟩, Meta.empty), fun l hl => ?_⟩
    cases ho : outline l.content with
    | none => exact absurd ho (hout l hl)
    | some x =>
      obtain ⟨ext, dw, j⟩ := x
      obtain ⟨m, hm, hb⟩ := proxy_layer e hv z zero dflt l (hcs _ hl) ext dw j ho
      have hb' : Proxy.body (groupKids (l.write e).layer (layerGroup (l.write e))) = .ok (⟨ext, dw⟩, m) := hb
      simp only [hb']
      exact ⟨hb, ext, dw, j, rfl, m, hm, rfl⟩
  obtain ⟨val, hval⟩ := hval
  have hv' : ProxiesAs val (stored (cs.map (FileOp.call e)) (List.replicate cs.length .written)) := by
    intro w hw _
    rw [hst] at hw
    obtain ⟨l, hl, rfl⟩ := List.mem_map.1 hw
    obtain ⟨c, hc, h⟩ := List.mem_filterMap.1 hl
    cases c with
    | layer l' => simp only [Option.some.injEq] at h; exact (hval l (h ▸ hc)).1
    | info m' => simp at h
  refine ⟨root, rootKids o.entries, _, hroot, by rw [hex, htree], hi, ?_, ?_⟩
  · intro v u l hu hl hm
    obtain ⟨qs, h1, -, h2, h3, -⟩ := C82_proxies_by_name ⟨ident, writeMap⟩ o₀ o _ _ H P (readMap k) R val hv' _ hi v u l hu hl hm
    rw [hst] at h2
    have hnm : ∀ q ∈ qs, q.2.1.part = u ∧ q.2.1.layer = l := by
      intro q hq
      have := h2.mem_iff.1 (List.mem_map.2 ⟨q, hq, rfl⟩)
      simpa using (List.mem_filter.1 this).2
    obtain ⟨ls, h4, h5⟩ := proxies_same e z zero dflt k ident cs hcs val (fun l hl => (hval l hl).2) o
      (fun a b => decide (a = u ∧ b = l)) qs h2 (fun q hq => ⟨(h3 q hq).1, (h3 q hq).2.1, by rw [(hnm q hq).1]; exact (h3 q hq).2.2⟩)
    refine ⟨ls, _, h1, h4, ?_⟩
    have e2 : (qs.map fun q => (⟨u, l, mapBack ⟨ident, writeMap⟩ (readMap k) q.2.2, (val q.2.1).2, (val q.2.1).1⟩ :
        Files.Loaded MappingIO.Loaded Windows)) = qs.map fun q => ⟨q.2.1.part, q.2.1.layer,
        mapBack ⟨ident, writeMap⟩ (readMap k) q.2.2, (val q.2.1).2, (val q.2.1).1⟩ := by
      apply List.map_congr_left
      intro q hq
      rw [(hnm q hq).1, (hnm q hq).2]
    rw [e2]
    exact forall₂_split h5
  · rintro rfl v l
    obtain ⟨qs, h1, h2, h3, h6⟩ := C82_all_proxies ⟨ident, writeMap⟩ o _ _ H P (readMap k) R val hv' _ hi v l
    rw [hst] at h2
    obtain ⟨ls, h4, h5⟩ := proxies_same e z zero dflt k ident cs hcs val (fun l hl => (hval l hl).2) o
      (fun a b => decide (a ≠ [] ∧ b ≠ kMapping ∧ (l = [] ∨ b = l))) qs h2 h3
    refine ⟨ls, _, h1, h4, forall₂_split h5, ?_⟩
    refine pairwise_forall₂ ?_ h5 h6
    rintro a b c d ⟨ha, -⟩ ⟨hb, -⟩ hab
    rw [ha, hb] at hab
    rcases hab with h | ⟨h, h' | ⟨h', -⟩⟩
    · exact .inl h
    · exact .inr ⟨h, .inl h'⟩
    · exact .inr ⟨h, .inr h'⟩

/-! ## Where there are no proxies -/

/-- A layer without the attribute of its extents has no proxy. -/
theorem no_windows (w : Write M) (hn : ∀ x ∈ layerGroup w, plainName (nameOf x)) (h : ∀ x ∈ w.body, nameOf x ≠ kExtMin) :
    Proxy.body (groupKids w.layer (layerGroup w)) = .exception := by
  have h1 := (C36_absent w.layer kExtMin .veci32 (layerGroup w) (by decide) hn (by
    intro x hx
    unfold layerGroup at hx
    simp only [List.cons_append, List.nil_append, List.mem_cons] at hx
    rcases hx with rfl | rfl | hx
    · rintro ⟨-, h⟩; exact absurd h (show ¬ kClassType = kExtMin by decide)
    · rintro ⟨h, -⟩; exact absurd h (by simp [kindOf])
    · exact fun h' => h x hx h'.2)).1
  unfold Proxy.body Proxy.windows attr
  rw [h1]
  rfl

/-- **Disagreement**: one layer whose group has no windows, as every MAC field leaves it (C42), makes `readProxyLayer` throw for
its names, and the functions for all layers or for its layer name throw whatever else is in the file; reading the fields
themselves only leaves it out. -/
theorem C82_layer_without_windows (C : MapIO M) (o₀ o : Out M) (cs : List (Call M)) (rs : List Ret) (H : Wrote C o₀ cs rs o)
    (P : Plain cs) (readMap : List Tree → Res L) (R : Readable C readMap cs) (i : In L)
    (hi : openFile readMap (rootKids o.entries) = .ok i)
    (hv : ∀ w ∈ stored cs rs, w.layer ≠ kMapping → Proxy.body (groupKids w.layer (layerGroup w)) = .exception ∨
      ∃ b, Proxy.body (groupKids w.layer (layerGroup w)) = .ok b)
    (w : Write M) (hw : w ∈ stored cs rs) (hu : w.part ≠ []) (hm : w.layer ≠ kMapping) (φ : Type) (mac : φ) (cls : Name)
    (hb : w.body = fieldEntries cls (writeMac mac).1) (v : Bool) :
    Proxy.readLayer i v w.part w.layer = .exception ∧
    (o₀ = Out.new → ∀ l, l = [] ∨ l = w.layer → Proxy.readAll i v l = .exception) := by
  obtain ⟨hs, I⟩ := inv_wrote H
  have hw' : ∀ w ∈ stored cs rs, Call.write w ∈ cs := fun w h => stored_mem cs rs w h
  obtain ⟨info, hi'⟩ := open_file I P hw' readMap R
  rw [hi] at hi'
  simp only [Res.ok.injEq] at hi'
  have hl : ∀ w ∈ stored cs rs, w.layer ≠ [] := fun w h => (P.layer w (hw' w h)).1
  have hexc : Proxy.body (groupKids w.layer (layerGroup w)) = .exception := by
    refine no_windows w ?_ ?_
    · intro x hx
      have h0 : layerGroup w = [.attribute kClassType .string kLayerText, .group kMetadata w.mdata,
          .attribute kClassName .string cls] := by
        unfold layerGroup; rw [hb]; rfl
      rw [h0] at hx
      exact (layer_pre_foreign cls w.mdata x hx).1
    · intro x hx
      rw [hb] at hx
      have : x = .attribute kClassName .string cls := by simpa [fieldEntries, writeMac] using hx
      subst this
      show kClassName ≠ kExtMin
      decide
  have heither : ∀ u l, u ≠ [] → l ≠ [] → ∀ r ∈ (namedHomes hs u l).map (fun q =>
      (Proxy.body (groupKids q.2.layer (layerGroup q.2))).bind fun b =>
        Res.ok (⟨q.2.part, q.2.layer, mapBack C readMap q.1.mapping, b.2, b.1⟩ : Files.Loaded L Windows)),
      r = .exception ∨ ∃ b, r = .ok b := by
    intro u l _ _ r hr
    obtain ⟨q, hq, rfl⟩ := List.mem_map.1 hr
    obtain ⟨-, h1, h2, -, -⟩ := Proxy.mem_named I hq
    rcases hv q.2 h1 h2 with h | ⟨b, h⟩
    · exact .inl (by rw [h]; rfl)
    · exact .inr ⟨_, by rw [h]; rfl⟩
  have h1 : Proxy.readLayer i v w.part w.layer = .exception := by
    rw [hi', Proxy.readLayer_gather I P hw' readMap info v _ _ hu (hl w hw), Proxy.gather_exception _ (heither _ _ hu (hl w hw))]
    · rfl
    · obtain ⟨p1, -, -, -⟩ := named_homes I w.part w.layer hm
      have : w ∈ ((namedHomes hs w.part w.layer).map fun q => (q.1.idx, q.2, q.1.mapping)).map (·.2.1) :=
        p1.mem_iff.2 (List.mem_filter.2 ⟨hw, by simp⟩)
      rw [List.map_map] at this
      obtain ⟨q, hq, e⟩ := List.mem_map.1 this
      have e' : q.2 = w := e
      refine List.mem_map.2 ⟨q, hq, ?_⟩
      rw [e', hexc]
      rfl
  refine ⟨h1, ?_⟩
  rintro rfl l hll
  obtain ⟨i', hi2, -, hl1, -, hl3⟩ := C44_listing_of_file C o cs rs H P readMap R
  rw [hi] at hi2
  simp only [Res.ok.injEq] at hi2
  subst hi2
  unfold Proxy.readAll
  rw [Proxy.gather_exception]
  · rfl
  · intro r hr
    obtain ⟨k, hk, rfl⟩ := List.mem_map.1 hr
    obtain ⟨-, h2, -⟩ := Proxy.mem_wanted.1 hk
    obtain ⟨-, w', hw'', -, e2⟩ := ((hl3 k.1).2 k.2).1 h2
    by_cases hk1 : k.1 = []
    · exact .inr ⟨_, Proxy.readLayer_empty i v _ _ (.inl hk1)⟩
    · rw [hi', Proxy.readLayer_gather I P hw' readMap info v _ _ hk1 (e2 ▸ hl w' hw'')]
      rcases Proxy.gather_either _ (heither k.1 k.2 hk1 (e2 ▸ hl w' hw'')) with h | ⟨b, h⟩
      · exact .inl (by rw [h]; rfl)
      · exact .inr ⟨b, by rw [h]; rfl⟩
  · refine List.mem_map.2 ⟨(w.part, w.layer), ?_, h1⟩
    refine Proxy.mem_wanted.2 ⟨hl1 w hw, ((hl3 w.part).2 w.layer).2 ⟨hm, w, hw, rfl, rfl⟩, ?_⟩
    rcases hll with h | h
    · exact .inl h
    · exact .inr h.symm

/-- Every proxy has the partition name that was asked for. -/
theorem proxy_names (i : In L) (v : Bool) (u l : Name) (r : List (Files.Loaded L Windows)) (h : Proxy.readLayer i v u l = .ok r) :
    ∀ p ∈ r, p.name = u := by
  unfold Proxy.readLayer at h
  split at h
  · simp only [Res.ok.injEq] at h; subst h; simp
  · intro p hp
    have hg : ∀ g : Res (List (Files.Loaded L Windows)), Proxy.orEmpty g = .ok r → g = .ok r := by
      intro g hg
      cases g with
      | null => simp only [Proxy.orEmpty, Res.ok.injEq] at hg; subst hg; simp at hp
      | _ => exact hg
    have := Proxy.gather_mem (hg _ h) p hp
    obtain ⟨n, -, hn⟩ := List.mem_flatMap.1 this
    split at hn
    · obtain ⟨x, -, hx⟩ := List.mem_map.1 hn
      unfold Proxy.readAt at hx
      split at hx
      · simp at hx
      · split at hx
        · split at hx
          · simp at hx
          · simp at hx
          · split at hx
            · simp at hx
            · simp at hx
            · split at hx
              · rename_i lk _ _
                cases hb : Proxy.body lk with
                | ok b => rw [hb] at hx; simp only [Res.bind, Res.ok.injEq] at hx; rw [← hx]
                | _ => rw [hb] at hx; simp [Res.bind] at hx
              · simp at hx
        · simp at hx
    · simp at hn

/-- **Disagreement**: from a second file that was written by the same object, the functions that go by layer names give no
proxy of any layer under a partition name that has at most as many partitions as in the first file; `C82_proxies_by_name` gives
all of them. -/
theorem C82_second_file_has_no_proxies (C : MapIO M) (o₀ o₁ o₂ : Out M) (cs₁ cs₂ : List (Call M)) (rs₁ rs₂ : List Ret)
    (H₁ : Wrote C o₀ cs₁ rs₁ o₁) (H₂ : Wrote C o₁ cs₂ rs₂ o₂) (u : Name) (hu : (47 : UInt8) ∉ u)
    (hle : o₂.listing.numInt u ≤ o₁.listing.numInt u) (P : Plain cs₂) (readMap : List Tree → Res L) (R : Readable C readMap cs₂)
    (i : In L) (hi : openFile readMap (rootKids o₂.entries) = .ok i) (v : Bool) (l : Name) (r : List (Files.Loaded L Windows))
    (hr : Proxy.readAll i v l = .ok r) : ∀ p ∈ r, p.name ≠ u := by
  have hnone := (C44_second_file_loses_layers C o₀ o₁ o₂ cs₁ cs₂ rs₁ rs₂ H₁ H₂ u hu hle).2 readMap i P R hi
  unfold Proxy.readAll at hr
  cases hg : Proxy.gather ((Proxy.wanted i.listing l).map fun x => Proxy.readLayer i v x.1 x.2) with
  | ok rs =>
    rw [hg] at hr
    simp only [Res.bind, Res.ok.injEq] at hr
    subst hr
    intro p hp hpu
    obtain ⟨ps, hps, hp⟩ := List.mem_flatten.1 hp
    obtain ⟨k, hk, hk'⟩ := List.mem_map.1 (Proxy.gather_mem hg ps hps)
    have hn := proxy_names i v k.1 k.2 ps hk' p hp
    obtain ⟨-, h2, -⟩ := Proxy.mem_wanted.1 hk
    rw [← hn, hpu, hnone] at h2
    simp at h2
  | _ => rw [hg] at hr; simp [Res.bind] at hr

end F3D.Props
