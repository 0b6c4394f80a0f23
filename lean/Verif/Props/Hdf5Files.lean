import Verif.Proofs.Hdf5Read
import Verif.Spec.Files

/-!
# HDF5 files: partitions and layers (C80)

`ord` is the order in which the library visits links and attributes: any order that visits each once.
-/

namespace F3D.Props
open F3D F3D.Ogawa F3D.Og F3D.FieldIO F3D.Hdf5
open _root_.F3D.MappingIO (kMapping)
open _root_.F3D.Metadata (Meta)
open _root_.F3D.Files (kGlobal kClassType intName FieldClass Loaded layerPath StrictlySorted Home)

variable {M L F : Type}

/-- The layers that were asked to be written. -/
def asked (cs : List (Hdf5.Call M)) : List (Hdf5.Write M) := cs.filterMap fun c => match c with | .write w => some w | _ => none

theorem mem_asked {cs : List (Hdf5.Call M)} {w : Hdf5.Write M} : w ∈ asked cs ↔ Hdf5.Call.write w ∈ cs := by
  unfold asked
  rw [List.mem_filterMap]
  constructor
  · rintro ⟨c, hc, e⟩
    cases c <;> simp_all
  · intro h
    exact ⟨_, h, rfl⟩

theorem stored_asked : ∀ (cs : List (Hdf5.Call M)) (rs : List Ret) (w : Hdf5.Write M), w ∈ Hdf5.stored cs rs →
    Hdf5.Call.write w ∈ cs
  | [], _, w, h => by simp [Hdf5.stored] at h
  | c :: cs, [], w, h => by cases c <;> simp [Hdf5.stored] at h
  | c :: cs, r :: rs, w, h => by
    have key : (∃ x, c = .write x ∧ (w = x ∨ w ∈ Hdf5.stored cs rs)) ∨ w ∈ Hdf5.stored cs rs := by
      cases c with
      | write x =>
        cases r <;> simp only [Hdf5.stored] at h
        case ok => rw [List.mem_cons] at h; exact .inl ⟨x, rfl, h⟩
        all_goals exact .inr h
      | _ => exact .inr (by simpa [Hdf5.stored] using h)
    rcases key with ⟨x, rfl, rfl | h⟩ | h
    · simp
    · exact List.mem_cons_of_mem _ (stored_asked cs rs w h)
    · exact List.mem_cons_of_mem _ (stored_asked cs rs w h)

theorem globals_mem : ∀ (cs : List (Hdf5.Call M)) (m : Meta), Hdf5.globals cs = some m → Hdf5.Call.global m ∈ cs
  | [], m, h => by simp [Hdf5.globals] at h
  | c :: cs, m, h => by
    cases c with
    | global m' => simp only [Hdf5.globals, Option.some.injEq] at h; subst h; simp
    | _ => exact List.mem_cons_of_mem _ (globals_mem cs m (by simpa [Hdf5.globals] using h))

theorem globals_none : ∀ (cs : List (Hdf5.Call M)), Hdf5.globals cs = none ↔ ∀ m, Hdf5.Call.global m ∉ cs
  | [] => by simp [Hdf5.globals]
  | c :: cs => by
    cases c with
    | global m => simp only [Hdf5.globals, reduceCtorEq, false_iff]; exact fun h => h m (by simp)
    | _ => simp [Hdf5.globals, globals_none cs]

/-- What is known after a session. -/
theorem session_sim (C : MapIO M) (cs : List (Hdf5.Call M)) (hse : Session cs) (K : ∀ w, .write w ∈ cs → Fits C w)
    (more : List (Hdf5.Write M)) :
    ∃ rs o hs, Hdf5.Out.run C (Hdf5.Out.new.create true) cs = some (rs, o) ∧
      Sim C (asked cs ++ more) o hs (Hdf5.stored cs rs) (Hdf5.globals cs) ∧ rs.length = cs.length ∧
      (∀ w ∈ Hdf5.stored cs rs, w.layer ≠ kMapping) ∧
      ∀ (i : Nat) (w : Hdf5.Write M), cs[i]? = some (.write w) →
        rs[i]? = some .ok ∨ (rs[i]? = some .failed ∧ Reason C (cs ++ more.map .write) w) := by
  have h0 : ∀ w, w ∈ asked cs ++ more ↔ Hdf5.Call.write w ∈ cs ++ more.map .write := by
    intro w
    rw [List.mem_append, List.mem_append, mem_asked]
    simp
  obtain ⟨rs, o, hs, h1, h2, h3, h4, h5⟩ := sim_run h0 cs _ [] [] none (sim_new C _) (by simp) hse (by
    intro c hc; exact List.mem_append_left _ hc) K
  exact ⟨rs, o, hs, h1, by simpa using h2, h3, h4, h5⟩

/-! ## Writing and reading back -/

/-- **C80.** A new file into which layers and metadata were written in any order of calls, of which some may have failed,
can be opened, and `readScalarLayers` and `readVectorLayers` with a partition and layer name give back exactly the layers of
that kind that were written under these names: with the field that was written, its metadata, and the mapping of the
partition, which was read back from the mapping of a field under that partition name that is identical to that of the
field. Different results come from different partitions. The metadata of the file is that of the first call. The group of
each layer can be opened by its path, and holds what its IO class wrote. -/
theorem C80_read_back [FieldClass F] (C : MapIO M) (cs : List (Hdf5.Call M)) (hse : Session cs)
    (K : ∀ w, .write w ∈ cs → Fits C w) (hg : ∀ m, .global m ∈ cs → NamesFit m) (ord : Order) (V : Hdf5.Visits ord)
    (readMap : Obj → Res L) (back : M → L) (hm : MapsBack C readMap back cs)
    (readField : Name → Name → Obj → Res F) (val : Name → Hdf5.Write M → Option F) (hv : BodiesBack readField val cs) :
    ∃ (rs : List Ret) (o : Hdf5.Out M) (i : Hdf5.In L) (mapOfPart : Name → Nat → Option M)
      (info : Hdf5.Write M → F → Meta),
      Hdf5.Out.run C (Hdf5.Out.new.create true) cs = some (rs, o) ∧ rs.length = cs.length ∧
      In.openFile ord readMap o.root In.new = some (true, i) ∧
      (Hdf5.globals cs = none → i.info = .empty) ∧ (∀ m, Hdf5.globals cs = some m → Over m .empty i.info) ∧
      (∀ w f, .write w ∈ cs → Over w.info (FieldClass.start f) (info w f)) ∧
      ∀ isVec u l, u ≠ [] → l ≠ [] → ∃ qs : List (Nat × Hdf5.Write M × M),
        i.readLayers ord readField isVec u l = .ok (qs.filterMap fun q =>
          (val (layerPath (intName u q.1) l) q.2.1).map fun f =>
            ⟨u, l, some (back q.2.2), (FieldClass.mapped f (info q.2.1 f)).2, (FieldClass.mapped f (info q.2.1 f)).1⟩) ∧
        (qs.map (·.2.1)).Perm ((Hdf5.stored cs rs).filter fun w => w.part = u ∧ w.layer = l ∧ w.isVec = isVec) ∧
        (qs.map (·.1)).Nodup ∧
        ∀ q ∈ qs, C.ident q.2.1.mapping q.2.2 = true ∧ mapOfPart u q.1 = some q.2.2 ∧
          (∃ w, .write w ∈ cs ∧ w.part = u ∧ w.mapping = q.2.2) ∧ (0 : UInt8) ∉ layerPath (intName u q.1) l ∧
          ∃ g, FreshLayer g ∧ openGroup o.root (layerPath (intName u q.1) l) = some (q.2.1.body g).2 := by
  obtain ⟨rs, o, hs, h1, S, h3, h4, -⟩ := session_sim C cs hse K []
  rw [List.append_nil] at S
  have K' : ∀ w ∈ asked cs, Fits C w := fun w hw => K w (mem_asked.1 hw)
  have hws : ∀ w ∈ Hdf5.stored cs rs, w ∈ asked cs := fun w hw => mem_asked.2 (stored_asked cs rs w hw)
  obtain ⟨hs', names, inf, hp, ho, g1, g2⟩ := open_back S K' (fun m hm => hg m (globals_mem cs m hm)) ord V readMap back
    (fun w hw => hm w (mem_asked.1 hw))
  refine ⟨rs, o, _, fun u k => (hs.find? fun h => h.key = (u, k)).map (·.mapping.mapping), infoBack ord, h1, h3, ho, g1, g2,
    fun w f hw => infoBack_over ord V w (K w hw).info f, ?_⟩
  intro v u l hu hl
  refine ⟨(picked hs' u l v).map fun q => (q.1.idx, q.2.mapping, q.1.mapping.mapping), ?_, ?_, ?_, ?_⟩
  · rw [read_picked S K' hws h4 ord V back names inf hp readField val
      (fun path w g hw => hv path w g (mem_asked.1 hw)) v u l hu hl, List.filterMap_map]
    congr 1
    apply List.filterMap_congr
    intro q hq
    obtain ⟨a, b, c, d, e⟩ := picked_mem hq
    have hlay : q.2.mapping.layer = l := by
      have := (home_tag S q.1 (hp.mem_iff.1 a) q.2 c).2
      rw [← e]; rw [this]; rfl
    simp only [oneBack, Function.comp, b, hlay]
  · rw [List.map_map]
    exact picked_perm S hp u l v
  · rw [List.map_map]
    exact picked_nodup S hp u l v
  · intro q hq
    obtain ⟨p, hp', rfl⟩ := List.mem_map.1 hq
    obtain ⟨a, b, c, d, e⟩ := picked_mem hp'
    have a' := hp.mem_iff.1 a
    obtain ⟨k1, k2⟩ := home_known S p.1 a'
    have Kf := home_fits S K' hws p.1 a' p.2 c
    have t2 := (home_tag S p.1 a' p.2 c).2
    have hlay : p.2.layer = p.2.mapping.layer := by rw [t2]; rfl
    obtain ⟨g', e1, e2, e3, -, -⟩ := layerObj_eq p.2.mapping Kf
    have hst : Step p.2.layer := by rw [hlay]; exact Kf.layer.step
    have hn := home_step S K' p.1 a'
    have hop := open_child S p.1 a' (layerPath (intName p.1.user p.1.idx) p.2.layer) p.2.layer (locate_rel hn hst)
      (layerObj p.2.mapping) (layer_named S h4 p.1 a' p.2 c) (by rw [e2]; exact e3)
    have hll : p.2.layer = l := e
    refine ⟨(S.inv.fits p.1 a' p.2 c).2.2.1, ?_, ⟨p.1.mapping, mem_asked.1 k1, by rw [k2, b], rfl⟩, ?_,
      layerStart p.2.mapping, layerStart_fresh _, ?_⟩
    rotate_left
    · have h1 := hn.nul
      have h2 := hst.nul
      rw [b] at h1
      rw [hll] at h2
      simp [layerPath, h1, h2]
    · rw [b, hll] at hop
      rw [hop, e2, e1]
    have hkey : p.1.key = (u, p.1.idx) := by rw [Home.key, b]
    cases hf : hs.find? fun h => h.key = (u, p.1.idx) with
    | none =>
      have := List.find?_eq_none.1 hf p.1 a'
      simp [hkey] at this
    | some g =>
      have hg := List.find?_some hf
      simp only [decide_eq_true_eq] at hg
      have : g = p.1 := Files.eq_of_key S.inv.uniq (List.mem_of_find?_eq_some hf) a' (hg.trans hkey.symm)
      subst this
      show (hs.find? fun h => h.key = (u, p.1.idx)).map (·.mapping.mapping) = _
      rw [hf]; rfl

/-- Every write succeeds if comparing mappings is reflexive and symmetric, no layer is named "mapping", and no two layers of
the same names are of different kinds. -/
theorem C80_writes_succeed (C : MapIO M) (cs : List (Hdf5.Call M)) (hse : Session cs) (K : ∀ w, .write w ∈ cs → Fits C w)
    (hrefl : ∀ m, C.ident m m = true) (hsymm : ∀ a b, C.ident a b = true → C.ident b a = true)
    (hname : ∀ w, .write w ∈ cs → w.layer ≠ kMapping)
    (hkind : ∀ w w', .write w ∈ cs → .write w' ∈ cs → w'.part = w.part → w'.layer = w.layer → w'.isVec = w.isVec) :
    ∃ rs o, Hdf5.Out.run C (Hdf5.Out.new.create true) cs = some (rs, o) ∧
      ∀ (i : Nat) w, cs[i]? = some (.write w) → rs[i]? = some .ok := by
  obtain ⟨rs, o, hs, h1, -, -, -, h5⟩ := session_sim C cs hse K []
  refine ⟨rs, o, h1, fun i w hi => ?_⟩
  rcases h5 i w hi with h | ⟨-, h⟩
  · exact h
  · have hw : Hdf5.Call.write w ∈ cs := List.mem_of_getElem? hi
    exfalso
    rcases h with h | h | ⟨m, h, h'⟩ | ⟨w', a, b, c, d⟩
    · exact hname w hw h
    · rw [hrefl] at h; simp at h
    · rw [hsymm _ _ h] at h'; simp at h'
    · exact d (hkind w w' hw (by simpa using a) b c)

/-- The metadata of the file can be written once, at any time; a second call fails and changes nothing in what is read. -/
theorem C80_file_metadata_once (C : MapIO M) (cs : List (Hdf5.Call M)) (hse : Session cs)
    (K : ∀ w, .write w ∈ cs → Fits C w) (m : Meta) :
    ∃ rs o r o', Hdf5.Out.run C (Hdf5.Out.new.create true) cs = some (rs, o) ∧ Hdf5.writeGlobal m o = (r, o') ∧
      ((∀ m', .global m' ∉ cs) → NamesFit m → r = .ok) ∧ ((∃ m', .global m' ∈ cs) → r = .failed ∧ o'.root = o.root) := by
  obtain ⟨rs, o, hs, h1, S, -, -, -⟩ := session_sim C cs hse K []
  obtain ⟨r, o', e, -, S', a, b⟩ := sim_global S m
  refine ⟨rs, o, r, o', h1, e, ?_, ?_⟩
  · intro hn hf
    rw [a ((globals_none cs).2 hn), writeMeta_new m hf.order hf.plain hf.kind]
  · rintro ⟨m', hm'⟩
    have hne : Hdf5.globals cs ≠ none := fun h => (globals_none cs).1 h m' hm'
    refine ⟨b hne, ?_⟩
    obtain ⟨ls, hr, hn, hl, hgl⟩ := S.root
    unfold Hdf5.writeGlobal at e
    rw [if_pos S.isOpen, hr] at e
    have hmk := make_root step_global verAttrs ls
    rw [if_pos (by rw [hgl]; cases hx : Hdf5.globals cs with | none => exact absurd hx hne | some _ => rfl)] at hmk
    have e3 : (makeGroup [] kGlobal ⨾ inside [kGlobal] (Hdf5.writeMeta m)) (.group verAttrs ls) =
        (.failed, .group verAttrs ls) := by
      unfold W.seq; rw [hmk]
    rw [e3] at e
    rw [Prod.mk.injEq] at e
    rw [← e.2, hr]

/-! ## Names -/

theorem layers_home (f : Home (Hdf5.Write M) → List Name) (hs : Homes M) (hn : (hs.map Home.key).Nodup) (u l : Name)
    (hi : ∀ h ∈ hs, h.idx < (Files.ofUser h.user hs).length) :
    l ∈ Files.Listing.layerNames (hs.map fun h => (intName h.user h.idx, f h)) u ↔ ∃ h ∈ hs, h.user = u ∧ l ∈ f h := by
  have key := Files.layerNames_home id
    (hs.map fun h : Home (Hdf5.Write M) => ({ h with writes := (f h).map fun l => ⟨[], l, h.mapping, [], []⟩ } : Home (Hdf5.Write M)))
    (by rw [List.map_map]; exact hn) u l
  have e1 : Files.homeList id (hs.map fun h : Home (Hdf5.Write M) =>
      ({ h with writes := (f h).map fun l => ⟨[], l, h.mapping, [], []⟩ } : Home (Hdf5.Write M))) =
      hs.map fun h => (intName h.user h.idx, f h) := by
    unfold Files.homeList
    rw [List.map_map]
    apply List.map_congr_left
    intro h _
    simp [Function.comp_def]
  rw [e1] at key
  rw [key]
  have e2 : (Files.ofUser u (hs.map fun h : Home (Hdf5.Write M) =>
      ({ h with writes := (f h).map fun l => ⟨[], l, h.mapping, [], []⟩ } : Home (Hdf5.Write M)))).length =
      (Files.ofUser u hs).length := by
    unfold Files.ofUser
    rw [List.filter_map, List.length_map]
    rfl
  rw [e2]
  constructor
  · rintro ⟨h, hh, hu, -, hl⟩
    obtain ⟨k, hk, rfl⟩ := List.mem_map.1 hh
    refine ⟨k, hk, hu, ?_⟩
    simpa [Function.comp_def] using hl
  · rintro ⟨h, hh, hu, hl⟩
    refine ⟨_, List.mem_map.2 ⟨h, hh, rfl⟩, hu, ?_, ?_⟩
    · have := hi h hh
      rw [hu] at this
      exact this
    · simpa [Function.comp_def] using hl

theorem names_home (f : Home (Hdf5.Write M) → List Name) (hs : Homes M) (u : Name) :
    u ∈ Files.Listing.partitionNames (hs.map fun h => (intName h.user h.idx, f h)) ↔ ∃ h ∈ hs, h.user = u := by
  unfold Files.Listing.partitionNames
  rw [Files.makeUnique_mem, List.map_map]
  simp [Files.remove_intName]

/-- What the lists of names have in them: the layers of the kind that were written, and partition names that were tried. -/
def Lists (l : Bool → Files.Listing) (cs : List (Hdf5.Call M)) (rs : List Ret) : Prop :=
  ∀ isVec, StrictlySorted (l isVec).partitionNames ∧
    (∀ w ∈ Hdf5.stored cs rs, w.part ∈ (l isVec).partitionNames) ∧
    (∀ u ∈ (l isVec).partitionNames, ∃ w, .write w ∈ cs ∧ w.part = u) ∧
    ∀ u, StrictlySorted ((l isVec).layerNames u) ∧
      ∀ n, n ∈ (l isVec).layerNames u ↔ ∃ w ∈ Hdf5.stored cs rs, w.part = u ∧ w.layer = n ∧ w.isVec = isVec

/-- `getPartitionNames`, `getScalarLayerNames` and `getVectorLayerNames` are sorted without repetition; they list exactly
the layers of their kind that were written: those of the object that writes, and those of one that opens the file. -/
theorem C80_listing (C : MapIO M) (cs : List (Hdf5.Call M)) (hse : Session cs)
    (K : ∀ w, .write w ∈ cs → Fits C w) (hg : ∀ m, .global m ∈ cs → NamesFit m) (ord : Order) (V : Hdf5.Visits ord)
    (readMap : Obj → Res L) (back : M → L) (hm : MapsBack C readMap back cs) :
    ∃ (rs : List Ret) (o : Hdf5.Out M) (i : Hdf5.In L),
      Hdf5.Out.run C (Hdf5.Out.new.create true) cs = some (rs, o) ∧
      In.openFile ord readMap o.root In.new = some (true, i) ∧ Lists o.listing cs rs ∧ Lists i.listing cs rs := by
  obtain ⟨rs, o, hs, h1, S, h3, h4, -⟩ := session_sim C cs hse K []
  rw [List.append_nil] at S
  have K' : ∀ w ∈ asked cs, Fits C w := fun w hw => K w (mem_asked.1 hw)
  have hws : ∀ w ∈ Hdf5.stored cs rs, w ∈ asked cs := fun w hw => mem_asked.2 (stored_asked cs rs w hw)
  obtain ⟨hs', names, inf, hp, ho, g1, g2⟩ := open_back S K' (fun m hm => hg m (globals_mem cs m hm)) ord V readMap back
    (fun w hw => hm w (mem_asked.1 hw))
  have hidx : ∀ h ∈ hs, h.idx < (Files.ofUser h.user hs).length := fun h hh => by
    have := (Files.idx_bounds S.inv h hh).2; omega
  have hmem : ∀ w, w ∈ Hdf5.stored cs rs ↔ ∃ h ∈ hs, tag w ∈ h.writes := by
    intro w
    have := Files.mem_stored S.inv (tag w)
    rw [← this]
    constructor
    · intro h; exact List.mem_map.2 ⟨w, h, rfl⟩
    · intro h
      obtain ⟨w', h', e⟩ := List.mem_map.1 h
      have : w' = w := congrArg Files.Write.mapping e
      rwa [← this]
  have core : ∀ (gs : Homes M) (l : Bool → Files.Listing) (f : Bool → Home (Hdf5.Write M) → List Name),
      gs.Perm hs → (∀ v, l v = gs.map fun h => (intName h.user h.idx, f v h)) →
      (∀ v, ∀ h ∈ hs, ∀ n, n ∈ f v h ↔ n ∈ layersIn v h) → Lists l cs rs := by
    intro gs l f hgs hl hf v
    have hu : ∀ u, (u ∈ (l v).partitionNames ↔ ∃ h ∈ hs, h.user = u) := by
      intro u
      rw [hl, names_home]
      simp only [hgs.mem_iff]
    refine ⟨Files.makeUnique_sorted _, ?_, ?_, ?_⟩
    · intro w hw
      obtain ⟨h, hh, hx⟩ := (hmem w).1 hw
      exact (hu _).2 ⟨h, hh, (S.inv.fits h hh _ hx).1.symm⟩
    · intro u hu'
      obtain ⟨h, hh, rfl⟩ := (hu u).1 hu'
      obtain ⟨a, b⟩ := home_known S h hh
      exact ⟨_, mem_asked.1 a, b⟩
    · intro u
      refine ⟨Files.makeUnique_sorted _, fun n => ?_⟩
      rw [hl, layers_home (f v) gs ((hgs.map _).nodup_iff.2 S.inv.uniq) u n (by
        intro h hh
        have := hidx h (hgs.mem_iff.1 hh)
        have e : (Files.ofUser h.user gs).length = (Files.ofUser h.user hs).length := (hgs.filter _).length_eq
        omega)]
      constructor
      · rintro ⟨h, hh, hu', hn⟩
        have hh := hgs.mem_iff.1 hh
        obtain ⟨x, hx, rfl⟩ := List.mem_map.1 ((hf v h hh n).1 hn)
        obtain ⟨hx, hv⟩ := List.mem_filter.1 hx
        obtain ⟨t1, t2⟩ := home_tag S h hh x hx
        refine ⟨x.mapping, t1, ?_, ?_, by simpa using hv⟩
        · have := (S.inv.fits h hh x hx).1
          rw [← hu', ← this, t2]; rfl
        · rw [t2]; rfl
      · rintro ⟨w, hw, hwu, hwl, hwv⟩
        obtain ⟨h, hh, hx⟩ := (hmem w).1 hw
        refine ⟨h, hgs.mem_iff.2 hh, ?_, (hf v h hh n).2 (List.mem_map.2 ⟨tag w, List.mem_filter.2 ⟨hx, ?_⟩, hwl⟩)⟩
        · rw [← hwu]; exact (S.inv.fits h hh _ hx).1.symm
        · exact decide_eq_true hwv
  refine ⟨rs, o, _, h1, ho, ?_, ?_⟩
  · refine core hs _ layersIn (.refl _) ?_ (fun _ _ _ _ => Iff.rfl)
    intro v
    unfold Hdf5.Out.listing
    rw [S.parts, List.map_map]
    cases v <;> rfl
  · refine core hs' _ (fun v h => layersWith ord (if v then 3 else 1) (partObj C h)) hp ?_ ?_
    · intro v
      unfold In.listing
      rw [List.map_map]
      apply List.map_congr_left
      intro k _
      cases v <;> rfl
    · intro v h hh n
      exact (layers_found S K' hws ord V h hh v).mem_iff

end F3D.Props
