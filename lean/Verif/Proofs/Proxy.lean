import Verif.Model.Proxy
import Verif.Props.Files
import Verif.Props.Hdf5Files

/-!
# Proxies of layers that were written
-/

namespace F3D.Proxy
open Ogawa Og FieldIO
open Metadata (Meta nameLt)
open MappingIO (kMapping)
open Files (kMetadata Loaded Listing removeUniqueId layerPath intName StrictlySorted)
open Props (groupKids)

variable {M L : Type}

theorem gather_ok {β γ : Type} (f : β → Res γ) (v : β → γ) : ∀ l : List β, (∀ x ∈ l, f x = .ok (v x)) →
    gather (l.map f) = .ok (l.map v)
  | [], _ => rfl
  | x :: l, h => by
    rw [List.map_cons, gather, h x (by simp), Res.bind, gather_ok f v l (fun y hy => h y (by simp [hy]))]
    rfl

/-- The elements with keys in a list, collected key by key. -/
theorem perm_keys {α κ : Type} [DecidableEq κ] (key : α → κ) (ws : List α) : ∀ ks : List κ, ks.Nodup →
    (ks.flatMap fun k => ws.filter fun w => decide (key w = k)).Perm (ws.filter fun w => decide (key w ∈ ks))
  | [], _ => by simp
  | k :: ks, h => by
    rw [List.nodup_cons] at h
    rw [List.flatMap_cons]
    have h1 := perm_keys key ws ks h.2
    refine (h1.append_left _).trans ?_
    clear h1
    induction ws with
    | nil => simp
    | cons w ws ih =>
      by_cases e : key w = k
      · have hn : key w ∉ ks := by rw [e]; exact h.1
        rw [List.filter_cons_of_pos (by simpa using e), List.filter_cons_of_neg (by simpa using hn),
          List.filter_cons_of_pos (by simp [e])]
        exact ih.cons w
      · by_cases e2 : key w ∈ ks
        · rw [List.filter_cons_of_neg (by simpa using e), List.filter_cons_of_pos (by simpa using e2),
            List.filter_cons_of_pos (by simp [e2])]
          exact (List.perm_middle).trans (ih.cons w)
        · rw [List.filter_cons_of_neg (by simpa using e), List.filter_cons_of_neg (by simpa using e2),
            List.filter_cons_of_neg (by simp [e, e2])]
          exact ih

theorem nodup_of_sorted {l : List Name} (h : StrictlySorted l) : l.Nodup := by
  refine List.Pairwise.imp ?_ h
  intro a b hab e
  subst e
  rw [Files.nameLt_irrefl] at hab
  exact Bool.noConfusion hab

theorem mem_wanted {ps : Listing} {l u x : Name} :
    (u, x) ∈ wanted ps l ↔ u ∈ ps.partitionNames ∧ x ∈ ps.layerNames u ∧ (l = [] ∨ x = l) := by
  simp only [wanted, List.mem_flatMap, List.mem_map, List.mem_filter, Prod.mk.injEq, decide_eq_true_eq]
  constructor
  · rintro ⟨a, ha, b, ⟨hb, hp⟩, rfl, rfl⟩
    exact ⟨ha, hb, hp⟩
  · rintro ⟨ha, hb, hp⟩
    exact ⟨u, ha, x, ⟨hb, hp⟩, rfl, rfl⟩

/-- The names come sorted: by partition, then by layer. -/
theorem wanted_sorted (ps : Listing) (l : Name) :
    (wanted ps l).Pairwise fun a b => nameLt a.1 b.1 = true ∨ a.1 = b.1 ∧ nameLt a.2 b.2 = true := by
  unfold wanted
  rw [List.pairwise_flatMap]
  refine ⟨fun u _ => ?_, ?_⟩
  · rw [List.pairwise_map]
    refine List.Pairwise.imp ?_ ((Files.makeUnique_sorted _).filter _)
    intro a b h
    exact .inr ⟨rfl, h⟩
  · refine List.Pairwise.imp ?_ (Files.makeUnique_sorted _)
    intro a b hab x hx y hy
    simp only [List.mem_map] at hx hy
    obtain ⟨_, -, rfl⟩ := hx
    obtain ⟨_, -, rfl⟩ := hy
    exact .inl hab

theorem wanted_nodup (ps : Listing) (l : Name) : (wanted ps l).Nodup := by
  refine List.Pairwise.imp ?_ (wanted_sorted ps l)
  rintro a b h rfl
  rcases h with h | ⟨-, h⟩ <;> rw [Files.nameLt_irrefl] at h <;> exact Bool.noConfusion h

/-! ## Ogawa -/

section
open Files

variable {C : MapIO M} {base cs o hs ws}

/-- What a proxy of a layer is. -/
def back (C : MapIO M) (readMap : List Tree → Res L) (val : Write M → Windows × Meta) (w : Write M) (m : M) :
    Loaded L Windows := ⟨w.part, w.layer, mapBack C readMap m, (val w).2, (val w).1⟩

theorem readAt_home (I : Inv C base cs o hs ws) (P : Plain cs) (hw : ∀ w ∈ ws, Call.write w ∈ cs)
    (readMap : List Tree → Res L) (info : Meta) (h : Home M) (hh : h ∈ hs) (w : Write M) (hx : w ∈ h.writes)
    (hm : w.layer ≠ kMapping) :
    readAt ⟨inParts C readMap hs, info, rootKids o.entries⟩ h.user (intName h.user h.idx) w.layer =
      (body (groupKids w.layer (layerGroup w))).bind fun b => .ok ⟨w.part, w.layer, mapBack C readMap h.mapping, b.2, b.1⟩ := by
  unfold readAt
  simp only [find_in readMap hs I.uniq h hh]
  have hl : w.layer ∈ (h.writes.map (·.layer)).filter fun x => x ≠ kMapping := by
    rw [List.mem_filter]
    exact ⟨List.mem_map_of_mem hx, by simpa using hm⟩
  rw [if_pos hl, root_find I P h hh]
  simp only
  rw [part_layer I P hw h hh _ w hx hm]
  simp only [Props.valid_groupKids, if_true]
  rw [(I.fits h hh w hx).1]

theorem home_layers (I : Inv C base cs o hs ws) (readMap : List Tree → Res L) (info : Meta) (root : List Tree) (h : Home M)
    (hh : h ∈ hs) (l : Name) {β : Type} (g : Name → β) :
    ((((In.listing ⟨inParts C readMap hs, info, root⟩).layersOf (intName h.user h.idx)).getD []).filter
      fun x => decide (x = l)).map g =
      (h.writes.filter fun w => w.layer ≠ kMapping && decide (w.layer = l)).map fun w => g w.layer := by
  have e : (In.listing ⟨inParts C readMap hs, info, root⟩).layersOf (intName h.user h.idx) =
      some ((h.writes.map (·.layer)).filter fun x => x ≠ kMapping) := by
    rw [listing_inParts readMap info _ hs, layersOf_home _ _ I.uniq, (find_key I.uniq h.user h.idx h).2 ⟨hh, rfl⟩]
    rfl
  rw [e, Option.getD_some, List.filter_filter, List.filter_map, List.map_map]
  have e2 : h.writes.filter ((fun a => decide (a = l) && decide (a ≠ kMapping)) ∘ fun x : Write M => x.layer) =
      h.writes.filter fun w => w.layer ≠ kMapping && decide (w.layer = l) := by
    apply List.filter_congr
    intro x _
    simp [Bool.and_comm]
  rw [e2]
  rfl

/-- The layers that are read, one by one. -/
theorem readLayer_gather (I : Inv C base cs o hs ws) (P : Plain cs) (hw : ∀ w ∈ ws, Call.write w ∈ cs)
    (readMap : List Tree → Res L) (info : Meta) (v : Bool) (u l : Name) (hu : u ≠ []) (hl : l ≠ []) :
    readLayer ⟨inParts C readMap hs, info, rootKids o.entries⟩ v u l =
      orEmpty (gather ((Props.namedHomes hs u l).map fun q => (body (groupKids q.2.layer (layerGroup q.2))).bind fun b =>
        .ok ⟨q.2.part, q.2.layer, mapBack C readMap q.1.mapping, b.2, b.1⟩)) := by
  unfold readLayer
  rw [if_neg (by simp [hu, hl])]
  have e : (inParts C readMap hs).map (·.name) = hs.map fun h => intName h.user h.idx := by
    simp [inParts, List.map_map, Function.comp_def]
  let f : Home M × Write M → Res (Loaded L Windows) := fun q =>
    readAt ⟨inParts C readMap hs, info, rootKids o.entries⟩ u (intName q.1.user q.1.idx) q.2.layer
  have h1 : ((⟨inParts C readMap hs, info, rootKids o.entries⟩ : In L).parts.map (·.name)).flatMap (fun n =>
      if removeUniqueId n = u then
        ((((⟨inParts C readMap hs, info, rootKids o.entries⟩ : In L).listing.layersOf n).getD []).filter
          fun x => decide (x = l)).map fun x => readAt ⟨inParts C readMap hs, info, rootKids o.entries⟩ u n x
      else []) = (Props.namedHomes hs u l).map f := by
    show List.flatMap _ ((inParts C readMap hs).map (·.name)) = _
    rw [e, List.flatMap_map, Props.namedHomes, List.map_flatMap, ofUser]
    have key : ∀ gs : List (Home M), (∀ h ∈ gs, h ∈ hs) →
        (gs.flatMap fun h => if removeUniqueId (intName h.user h.idx) = u then
          ((((⟨inParts C readMap hs, info, rootKids o.entries⟩ : In L).listing.layersOf
            (intName h.user h.idx)).getD []).filter fun x => decide (x = l)).map fun x =>
            readAt ⟨inParts C readMap hs, info, rootKids o.entries⟩ u (intName h.user h.idx) x else []) =
        ((gs.filter fun h => h.user = u).flatMap fun h =>
          ((h.writes.filter fun w => w.layer ≠ kMapping && decide (w.layer = l)).map fun w => (h, w)).map f) := by
      intro gs
      induction gs with
      | nil => intro _; rfl
      | cons h gs ih =>
        intro hg
        rw [List.flatMap_cons, ih (fun x hx => hg x (by simp [hx])), remove_intName]
        by_cases eu : h.user = u
        · rw [if_pos eu, List.filter_cons, if_pos (by simpa using eu), List.flatMap_cons,
            home_layers I readMap info _ h (hg h (by simp)) l, List.map_map]
          rfl
        · rw [if_neg eu, List.filter_cons, if_neg (by simpa using eu), List.nil_append]
    exact key hs (fun _ h => h)
  rw [h1]
  congr 2
  apply List.map_congr_left
  intro q hq
  simp only [Props.namedHomes, List.mem_flatMap, List.mem_map, List.mem_filter] at hq
  obtain ⟨h, hh, w, ⟨hx, hp⟩, rfl⟩ := hq
  obtain ⟨hh, hu'⟩ := mem_ofUser.1 hh
  simp only [ne_eq, decide_not, Bool.and_eq_true, Bool.not_eq_true', decide_eq_false_iff_not, decide_eq_true_eq] at hp
  simp only [f]
  rw [← hu', readAt_home I P hw readMap info h hh w hx hp.1]

theorem mem_named (I : Inv C base cs o hs ws) {u l : Name} {q : Home M × Write M} (hq : q ∈ Props.namedHomes hs u l) :
    q.1 ∈ hs ∧ q.2 ∈ ws ∧ q.2.layer ≠ kMapping ∧ q.2.layer = l ∧ q.2.part = u := by
  simp only [Props.namedHomes, List.mem_flatMap, List.mem_map, List.mem_filter] at hq
  obtain ⟨h, hh, w, ⟨hx, hp⟩, rfl⟩ := hq
  obtain ⟨hh, hu'⟩ := mem_ofUser.1 hh
  simp only [ne_eq, decide_not, Bool.and_eq_true, Bool.not_eq_true', decide_eq_false_iff_not, decide_eq_true_eq] at hp
  exact ⟨hh, (I.perm.mem_iff).1 (List.mem_flatMap.2 ⟨h, hh, hx⟩), hp.1, hp.2, (I.fits h hh w hx).1.trans hu'⟩

theorem readLayer_homes (I : Inv C base cs o hs ws) (P : Plain cs) (hw : ∀ w ∈ ws, Call.write w ∈ cs)
    (readMap : List Tree → Res L) (val : Write M → Windows × Meta)
    (hv : ∀ w ∈ ws, w.layer ≠ kMapping → body (groupKids w.layer (layerGroup w)) = .ok (val w)) (info : Meta) (v : Bool)
    (u l : Name) (hu : u ≠ []) (hl : l ≠ []) :
    readLayer ⟨inParts C readMap hs, info, rootKids o.entries⟩ v u l =
      .ok ((Props.namedHomes hs u l).map fun q => back C readMap val q.2 q.1.mapping) := by
  rw [readLayer_gather I P hw readMap info v u l hu hl, gather_ok _ fun q => back C readMap val q.2 q.1.mapping]
  · rfl
  · intro q hq
    obtain ⟨-, h1, h2, -, -⟩ := mem_named I hq
    rw [hv q.2 h1 h2]
    rfl

/-- An exception is not caught by the loops. -/
theorem gather_exception {β : Type} : ∀ l : List (Res β), (∀ r ∈ l, r = .exception ∨ ∃ b, r = .ok b) → .exception ∈ l →
    gather l = .exception
  | r :: l, h, hm => by
    rcases h r (by simp) with rfl | ⟨b, rfl⟩
    · rfl
    · have := gather_exception l (fun r hr => h r (by simp [hr])) (by simpa using hm)
      rw [gather, this]
      rfl

/-- The outcomes of the loops, when there is nothing but values and exceptions. -/
theorem gather_either {β : Type} : ∀ l : List (Res β), (∀ r ∈ l, r = .exception ∨ ∃ b, r = .ok b) →
    gather l = .exception ∨ ∃ b, gather l = .ok b
  | [], _ => .inr ⟨[], rfl⟩
  | r :: l, h => by
    rcases h r (by simp) with rfl | ⟨b, rfl⟩
    · exact .inl rfl
    · rcases gather_either l (fun r hr => h r (by simp [hr])) with h' | ⟨c, h'⟩
      · exact .inl (by rw [gather, h']; rfl)
      · exact .inr ⟨b :: c, by rw [gather, h']; rfl⟩

theorem gather_mem {β : Type} : ∀ {l : List (Res β)} {r : List β}, gather l = .ok r → ∀ b ∈ r, Res.ok b ∈ l
  | [], r, h, b, hb => by simp [gather] at h; subst h; simp at hb
  | x :: l, r, h, b, hb => by
    rw [gather] at h
    cases x with
    | ok y =>
      cases h' : gather l with
      | ok ys =>
        rw [h'] at h
        simp only [Res.bind, Res.ok.injEq] at h
        subst h
        rcases List.mem_cons.1 hb with rfl | hb
        · simp
        · exact List.mem_cons_of_mem _ (gather_mem h' b hb)
      | _ => rw [h'] at h; simp [Res.bind] at h
    | _ => simp [Res.bind] at h

theorem readLayer_empty (i : In L) (v : Bool) (u l : Name) (h : u = [] ∨ l = []) : readLayer i v u l = .ok [] := by
  unfold readLayer
  rw [if_pos (Or.comm.1 h)]

end

/-! ## HDF5 -/

section
open Hdf5

/-- What a proxy of a layer is. -/
def backHdf5 (back : M → L) (val : Hdf5.Write M → Windows × Meta) (w : Hdf5.Write M) (m : M) : Loaded L Windows :=
  ⟨w.part, w.layer, some (back m), (val w).2, (val w).1⟩

variable {C : Hdf5.MapIO M} {cs0 : List (Hdf5.Write M)} {o : Hdf5.Out M} {hs : Homes M} {ws : List (Hdf5.Write M)}
  {gm : Option Meta}

theorem readAt_one (S : Sim C cs0 o hs ws gm) (K : ∀ w ∈ cs0, Fits C w) (hws : ∀ w ∈ ws, w ∈ cs0)
    (hmap : ∀ w ∈ ws, w.layer ≠ kMapping) (ord : Order) (V : Hdf5.Visits ord) (back : M → L) (names : List Name) (info : Meta)
    {hs' : Homes M} (hp : hs'.Perm hs) (h : Files.Home (Hdf5.Write M)) (hh : h ∈ hs') (f : Files.Write (Hdf5.Write M))
    (hf : f ∈ h.writes) (u : Name) :
    readAtHdf5 ord ⟨names, hs'.map (inPart C ord back), info, some o.root⟩ f.mapping.isVec u
        (intName h.user h.idx) f.layer =
      (bodyHdf5 ord (layerObj f.mapping)).bind fun b =>
        .ok ⟨u, f.layer, some (back h.mapping.mapping), b.2, b.1⟩ := by
  have hh0 : h ∈ hs := hp.mem_iff.1 hh
  have Kf := home_fits S K hws h hh0 f hf
  obtain ⟨t1, t2⟩ := home_tag S h hh0 f hf
  have hlay : f.layer = f.mapping.layer := by rw [t2]; rfl
  obtain ⟨g', e1, e2, e3, e4, e5⟩ := layerObj_eq f.mapping Kf
  unfold readAtHdf5
  simp only [find_in_map ord back hs' (names_nodup S hp) h hh]
  have hmem : f.layer ∈ (if f.mapping.isVec = true then (inPart C ord back h).vector else (inPart C ord back h).scalar) := by
    have hin : f.layer ∈ layersIn f.mapping.isVec h := by
      unfold layersIn
      exact List.mem_map.2 ⟨f, List.mem_filter.2 ⟨hf, by simp⟩, rfl⟩
    have := (layers_found S K hws ord V h hh0 f.mapping.isVec).mem_iff.2 hin
    cases hv : f.mapping.isVec <;> rw [hv] at this <;> exact this
  rw [if_pos hmem]
  have hst : Step f.layer := by rw [hlay]; exact Kf.layer.step
  have hop := open_child S h hh0 (layerPath (intName h.user h.idx) f.layer) f.layer
    (locate_rel (home_step S K h hh0) hst) (layerObj f.mapping) (layer_named S hmap h hh0 f hf) (by rw [e2]; exact e3)
  rw [Option.bind_some, hop]
  rfl

/-- The group of a layer for a proxy: what the IO class wrote, and the metadata. -/
theorem body_layerObj (w : Hdf5.Write M) (K : Fits C w) :
    layerObj w = (w.body (layerStart w)).2 ∧ named kMetadata (layerObj w).links = some (.group (metaAttrs w.info) []) := by
  obtain ⟨g', e1, e2, e3, e4, e5⟩ := layerObj_eq w K
  refine ⟨by rw [e2, e1], ?_⟩
  rw [e2]
  exact e4.2 kMetadata _ (by
    show named kMetadata [(kMetadata, _)] = _
    rw [named, if_pos rfl])

theorem readLayerHdf5_picked (S : Sim C cs0 o hs ws gm) (K : ∀ w ∈ cs0, Fits C w) (hws : ∀ w ∈ ws, w ∈ cs0)
    (hmap : ∀ w ∈ ws, w.layer ≠ kMapping) (ord : Order) (V : Hdf5.Visits ord) (back : M → L) (names : List Name) (info : Meta)
    {hs' : Homes M} (hp : hs'.Perm hs) (val : Hdf5.Write M → Windows × Meta)
    (hv : ∀ w ∈ ws, bodyHdf5 ord (layerObj w) = .ok (val w)) (v : Bool) (u l : Name) (hu : u ≠ []) (hl : l ≠ []) :
    readLayerHdf5 ord ⟨names, hs'.map (inPart C ord back), info, some o.root⟩ v u l =
      .ok ((picked hs' u l v).map fun q => backHdf5 back val q.2.mapping q.1.mapping.mapping) := by
  unfold readLayerHdf5
  rw [if_neg (by simp [hu, hl])]
  let r : Files.Home (Hdf5.Write M) × Files.Write (Hdf5.Write M) → Res (Loaded L Windows) := fun q =>
    readAtHdf5 ord ⟨names, hs'.map (inPart C ord back), info, some o.root⟩ v u (intName q.1.user q.1.idx) q.2.layer
  have e : In.listing (⟨names, hs'.map (inPart C ord back), info, some o.root⟩ : Hdf5.In L) v =
      hs'.map fun h => (intName h.user h.idx, layersWith ord (if v then 3 else 1) (partObj C h)) := by
    unfold In.listing
    rw [List.map_map]
    apply List.map_congr_left
    intro k _
    cases v <;> rfl
  have key : ∀ gs : Homes M, (∀ h ∈ gs, h ∈ hs') →
      (gs.flatMap fun h => if removeUniqueId (inPart C ord back h).name = u then
        ((((In.listing ⟨names, hs'.map (inPart C ord back), info, some o.root⟩ v).layersOf
          (inPart C ord back h).name).getD []).filter fun x => decide (x = l)).map fun x =>
            readAtHdf5 ord ⟨names, hs'.map (inPart C ord back), info, some o.root⟩ v u (inPart C ord back h).name x
      else []) =
      ((gs.filter fun h => h.user = u).flatMap fun h =>
        ((h.writes.filter fun f => decide (f.mapping.isVec = v ∧ f.layer = l)).map fun f => (h, f)).map r) := by
    intro gs
    induction gs with
    | nil => intro _; rfl
    | cons h gs ih =>
      intro hg
      rw [List.flatMap_cons, ih (fun x hx => hg x (by simp [hx]))]
      have hrm : removeUniqueId (inPart C ord back h).name = h.user := Files.remove_intName _ _
      rw [hrm]
      by_cases eu : h.user = u
      · rw [if_pos eu, List.filter_cons, if_pos (by simpa using eu), List.flatMap_cons]
        have hh := hg h (by simp)
        have en : (inPart C ord back h).name = intName h.user h.idx := rfl
        rw [en, e, layersOf_map _ hs' (names_nodup S hp) h hh, Option.getD_some,
          filter_perm_eq (layers_found S K hws ord V h (hp.mem_iff.1 hh) v), layersIn, List.filter_map, List.map_map,
          List.filter_filter]
        have e2 : (h.writes.filter fun f => ((fun x => decide (x = l)) ∘ fun f : Files.Write (Hdf5.Write M) => f.layer) f &&
            decide (f.mapping.isVec = v)) = h.writes.filter fun f => decide (f.mapping.isVec = v ∧ f.layer = l) := by
          apply List.filter_congr
          intro f _
          by_cases e1 : f.mapping.isVec = v <;> by_cases e2 : f.layer = l <;> simp [e1, e2]
        rw [e2, List.map_map]
        rfl
      · rw [if_neg eu, List.filter_cons, if_neg (by simpa using eu), List.nil_append]
  have h1 := key hs' (fun _ h => h)
  have h2 : ((⟨names, hs'.map (inPart C ord back), info, some o.root⟩ : Hdf5.In L).parts.map (·.name)).flatMap (fun n =>
      if removeUniqueId n = u then
        ((((In.listing ⟨names, hs'.map (inPart C ord back), info, some o.root⟩ v).layersOf n).getD []).filter
          fun x => decide (x = l)).map fun x =>
            readAtHdf5 ord ⟨names, hs'.map (inPart C ord back), info, some o.root⟩ v u n x
      else []) = (picked hs' u l v).map r := by
    rw [List.map_map, List.flatMap_map, picked, List.map_flatMap, Files.ofUser]
    exact h1
  rw [h2, gather_ok r fun q => backHdf5 back val q.2.mapping q.1.mapping.mapping]
  · rfl
  · intro q hq
    obtain ⟨a, b, c, d, e'⟩ := picked_mem hq
    have a' := hp.mem_iff.1 a
    obtain ⟨t1, t2⟩ := home_tag S q.1 a' q.2 c
    have hpart : q.2.mapping.part = u := by
      rw [← b, ← (S.inv.fits q.1 a' q.2 c).1, t2]; rfl
    have hlay : q.2.layer = q.2.mapping.layer := by rw [t2]; rfl
    simp only [r]
    rw [← d, readAt_one S K hws hmap ord V back names info hp q.1 a q.2 c u, hv _ t1]
    simp only [Res.bind, backHdf5, hpart, hlay]

theorem readLayerHdf5_empty (ord : Order) (i : Hdf5.In L) (v : Bool) (u l : Name) (h : u = [] ∨ l = []) :
    readLayerHdf5 ord i v u l = .ok [] := by
  unfold readLayerHdf5
  rw [if_pos (Or.comm.1 h)]

end

end F3D.Proxy
