import Verif.Props.Files
import Verif.Props.Hdf5FilesFields

/-!
# Reading all layers, or all layers of a name, whatever their partition (C43, C80)
-/

namespace F3D.Props
open Og Ogawa FieldIO
open _root_.F3D.MappingIO (kMapping)
open _root_.F3D.Metadata (Meta)
open _root_.F3D.Files (kGlobal kClassType intName FieldClass Loaded layerPath StrictlySorted Home removeUniqueId)

variable {M L F : Type} [FieldClass F]

/-! ## Ogawa -/

/-- **C43, reading by layer name alone**: the layers of the name in all partitions, and for the empty name all layers, every
one of them once, under the names it was written with (those named "mapping" are not found). -/
theorem C43_read_all (C : Files.MapIO M) (o₀ o : Files.Out M) (cs : List (Files.Call M)) (rs : List Files.Ret)
    (H : Files.Wrote C o₀ cs rs o) (P : Files.Plain cs) (readMap : List Tree → Res L) (R : Files.Readable C readMap cs)
    (readField : Name → Name → List Tree → Res F)
    (val : Name → Files.Write M → Option (F × Meta)) (hv : ReadsAs readField val cs) :
    ∃ i : Files.In L, Files.openFile readMap (rootKids o.entries) = .ok i ∧ ∀ l, ∃ qs : List (Nat × Files.Write M × M),
      i.readAll readField l = .ok (qs.filterMap fun q =>
        (val (layerPath (intName q.2.1.part q.1) q.2.1.layer) q.2.1).map fun b =>
          ⟨q.2.1.part, q.2.1.layer, Files.mapBack C readMap q.2.2, b.2, b.1⟩) ∧
      (qs.map (·.2.1)).Perm ((Files.stored cs rs).filter fun w => w.layer ≠ kMapping ∧ (l = [] ∨ w.layer = l)) ∧
      ∀ q ∈ qs, C.ident q.2.1.mapping q.2.2 = true ∧ Files.At o q.2.1 q.1 ∧
        ∃ w, .write w ∈ cs ∧ w.part = q.2.1.part ∧ w.mapping = q.2.2 := by
  obtain ⟨hs, I⟩ := Files.inv_wrote H
  have hw : ∀ w ∈ Files.stored cs rs, Files.Call.write w ∈ cs := fun w h => Files.stored_mem cs rs w h
  obtain ⟨info, hi⟩ := Files.open_file I P hw readMap R
  refine ⟨_, hi, fun l => ?_⟩
  let sel : Files.Write M → Bool := fun w => w.layer ≠ kMapping && decide (l = [] ∨ w.layer = l)
  let ps : List (Home M × Files.Write M) := hs.flatMap fun h => (h.writes.filter sel).map fun w => (h, w)
  have hmem : ∀ q ∈ ps, q.1 ∈ hs ∧ q.2 ∈ q.1.writes ∧ sel q.2 = true := by
    intro q hq
    simp only [ps, List.mem_flatMap, List.mem_map, List.mem_filter] at hq
    obtain ⟨h, hh, w, ⟨hx, hp⟩, rfl⟩ := hq
    exact ⟨hh, hx, hp⟩
  refine ⟨ps.map fun q => (q.1.idx, q.2, q.1.mapping), ?_, ?_, ?_⟩
  · rw [List.filterMap_map]
    rw [← Files.collect_ok (fun q : Home M × Files.Write M => Files.layerBack C readMap readField q.1 q.2)]
    · unfold Files.In.readAll
      congr 1
      show List.flatMap _ ((Files.inParts C readMap hs).map (·.name)) = _
      have e : (Files.inParts C readMap hs).map (·.name) = hs.map fun h => intName h.user h.idx := by
        simp [Files.inParts, List.map_map, Function.comp_def]
      rw [e, List.flatMap_map, List.map_flatMap]
      apply List.flatMap_congr
      intro h hh
      have := Files.read_home I P hw readMap readField info h hh (fun x => decide (l = [] ∨ x = l))
      simp only at this
      rw [this, List.map_map]
      rfl
    · intro q hq
      obtain ⟨h1, h2, h3⟩ := hmem q hq
      have hu := (I.fits q.1 h1 q.2 h2).1
      have h4 := hv (layerPath (intName q.1.user q.1.idx) q.2.layer) q.2 (Files.home_write I hw q.1 h1 q.2 h2)
      unfold Files.layerBack
      rw [h4]
      simp only [Function.comp, hu]
      cases val (layerPath (intName q.1.user q.1.idx) q.2.layer) q.2 <;> rfl
  · rw [List.map_map]
    have hall : ps.map (·.2) = (hs.flatMap (·.writes)).filter sel := by
      simp only [ps]
      rw [List.map_flatMap, List.filter_flatMap]
      apply List.flatMap_congr
      intro h _
      rw [List.map_map]
      exact List.map_id _
    show (ps.map (·.2)).Perm _
    rw [hall]
    have : (Files.stored cs rs).filter (fun w => decide (w.layer ≠ kMapping ∧ (l = [] ∨ w.layer = l))) =
        (Files.stored cs rs).filter sel := by
      apply List.filter_congr
      intro w _
      simp only [sel, Bool.decide_and]
    rw [this]
    exact I.perm.filter _
  · intro q hq
    obtain ⟨p, hp, rfl⟩ := List.mem_map.1 hq
    obtain ⟨h1, h2, h3⟩ := hmem p hp
    have hfit := I.fits p.1 h1 p.2 h2
    have hne : p.2.layer ≠ kMapping := by
      simp only [sel, ne_eq, decide_not, Bool.and_eq_true, Bool.not_eq_true', decide_eq_false_iff_not] at h3
      exact h3.1
    obtain ⟨w, k1, k2, k3⟩ := I.known p.1 h1
    exact ⟨hfit.2.2.1, at_home I P hw p.1 h1 p.2 h2 hne, w, k1, by rw [k2]; exact hfit.1.symm, k3⟩

example := C43_read_all numberMaps Files.Out.new sampleFile fileCalls _ file_wrote file_plain (fun kids => .ok kids.length)
  file_readable (fun _ => readNumber) _ file_reads

/-! ## HDF5 -/

theorem perm_lift {α β : Type} (f : α → β) {k m : List β} (hp : k.Perm m) : ∀ l : List α, m = l.map f →
    ∃ l' : List α, l'.Perm l ∧ l'.map f = k := by
  induction hp with
  | nil =>
    intro l h
    cases l with
    | nil => exact ⟨[], .refl _, rfl⟩
    | cons => simp at h
  | cons x _ ih =>
    intro l h
    cases l with
    | nil => simp at h
    | cons a l =>
      simp only [List.map_cons, List.cons.injEq] at h
      obtain ⟨l', h1, h2⟩ := ih l h.2
      exact ⟨a :: l', h1.cons a, by rw [List.map_cons, h2, h.1]⟩
  | swap x y l0 =>
    intro l h
    match l with
    | [] => simp at h
    | [a] => simp at h
    | a :: b :: l =>
      simp only [List.map_cons, List.cons.injEq] at h
      obtain ⟨rfl, rfl, rfl⟩ := h
      exact ⟨b :: a :: l, List.Perm.swap a b l, rfl⟩
  | trans _ _ ih1 ih2 =>
    intro l h
    obtain ⟨l1, a1, a2⟩ := ih2 l h
    obtain ⟨l2, b1, b2⟩ := ih1 l1 a2.symm
    exact ⟨l2, b1.trans a1, b2⟩

section
open Hdf5

/-- The layers of one partition. -/
theorem read_home_all {C : Hdf5.MapIO M} {cs0 o hs ws gm} (S : Sim C cs0 o hs ws gm) (K : ∀ w ∈ cs0, Fits C w)
    (hws : ∀ w ∈ ws, w ∈ cs0) (hmap : ∀ w ∈ ws, w.layer ≠ kMapping) (ord : Order) (V : Hdf5.Visits ord) (back : M → L)
    (names : List Name) (info : Meta) {hs' : Homes M} (hp : hs'.Perm hs) (readField : Name → Name → Obj → Res F)
    (h : Home (Hdf5.Write M)) (hh : h ∈ hs') (v : Bool) (p : Name → Bool) :
    ∃ fs : List (Files.Write (Hdf5.Write M)), fs.Perm (h.writes.filter fun f => decide (f.mapping.isVec = v) && p f.layer) ∧
    ((((In.listing ⟨names, hs'.map (inPart C ord back), info, some o.root⟩ v).layersOf (intName h.user h.idx)).getD []).filter
      p).map (fun x => In.readLayer ord ⟨names, hs'.map (inPart C ord back), info, some o.root⟩
        readField v (intName h.user h.idx) x) = fs.map fun f => resBack ord back readField h f.mapping := by
  have hh0 : h ∈ hs := hp.mem_iff.1 hh
  have e : In.listing (⟨names, hs'.map (inPart C ord back), info, some o.root⟩ : Hdf5.In L) v =
      hs'.map fun h => (intName h.user h.idx, layersWith ord (if v then 3 else 1) (partObj C h)) := by
    unfold In.listing
    rw [List.map_map]
    apply List.map_congr_left
    intro k _
    cases v <;> rfl
  obtain ⟨fs, h1, h2⟩ := perm_lift (fun f : Files.Write (Hdf5.Write M) => f.layer) (layers_found S K hws ord V h hh0 v) _ rfl
  refine ⟨fs.filter fun f => p f.layer, ?_, ?_⟩
  · have := h1.filter fun f => p f.layer
    rw [List.filter_filter] at this
    refine this.trans (.of_eq ?_)
    apply List.filter_congr
    intro f _
    exact Bool.and_comm _ _
  · rw [e, layersOf_map _ hs' (names_nodup S hp) h hh, Option.getD_some, ← h2, List.filter_map, List.map_map]
    show List.map _ (fs.filter fun f => p f.layer) = _
    apply List.map_congr_left
    intro f hf
    have hf' := h1.mem_iff.1 (List.mem_filter.1 hf).1
    rw [List.mem_filter] at hf'
    have hv : f.mapping.isVec = v := of_decide_eq_true hf'.2
    have := read_one S K hws hmap ord V back names info hp readField h hh f hf'.1
    rw [← this, hv]
    rfl

/-- **C80, reading by layer name alone**: the layers of the kind with that name in all partitions, and for the empty name all
layers of the kind, every one of them once, under the names it was written with. -/
theorem C80_read_all (C : Hdf5.MapIO M) (cs : List (Hdf5.Call M)) (hse : Session cs)
    (K : ∀ w, .write w ∈ cs → Fits C w) (hg : ∀ m, .global m ∈ cs → NamesFit m) (ord : Order) (V : Hdf5.Visits ord)
    (readMap : Obj → Res L) (back : M → L) (hm : MapsBack C readMap back cs)
    (readField : Name → Name → Obj → Res F) (val : Name → Hdf5.Write M → Option F) (hv : BodiesBack readField val cs) :
    ∃ (rs : List Ret) (o : Hdf5.Out M) (i : Hdf5.In L) (info : Hdf5.Write M → F → Meta),
      Hdf5.Out.run C (Hdf5.Out.new.create true) cs = some (rs, o) ∧
      In.openFile ord readMap o.root In.new = some (true, i) ∧
      (∀ w f, .write w ∈ cs → Over w.info (FieldClass.start f) (info w f)) ∧
      ∀ isVec l, ∃ qs : List (Nat × Hdf5.Write M × M),
        i.readAll ord readField isVec l = .ok (qs.filterMap fun q =>
          (val (layerPath (intName q.2.1.part q.1) q.2.1.layer) q.2.1).map fun f =>
            ⟨q.2.1.part, q.2.1.layer, some (back q.2.2), (FieldClass.mapped f (info q.2.1 f)).2,
              (FieldClass.mapped f (info q.2.1 f)).1⟩) ∧
        (qs.map (·.2.1)).Perm ((Hdf5.stored cs rs).filter fun w => w.isVec = isVec ∧ (l = [] ∨ w.layer = l)) ∧
        ∀ q ∈ qs, C.ident q.2.1.mapping q.2.2 = true ∧
          ∃ w, .write w ∈ cs ∧ w.part = q.2.1.part ∧ w.mapping = q.2.2 := by
  obtain ⟨rs, o, hs, h1, S, h3, h4, -⟩ := session_sim C cs hse K []
  rw [List.append_nil] at S
  have K' : ∀ w ∈ asked cs, Fits C w := fun w hw => K w (mem_asked.1 hw)
  have hws : ∀ w ∈ Hdf5.stored cs rs, w ∈ asked cs := fun w hw => mem_asked.2 (stored_asked cs rs w hw)
  obtain ⟨hs', names, inf, hp, ho, g1, g2⟩ := open_back S K' (fun m hm => hg m (globals_mem cs m hm)) ord V readMap back
    (fun w hw => hm w (mem_asked.1 hw))
  refine ⟨rs, o, _, infoBack ord, h1, ho, fun w f hw => infoBack_over ord V w (K w hw).info f, ?_⟩
  intro v l
  let sel : Files.Write (Hdf5.Write M) → Bool := fun f => decide (f.mapping.isVec = v) && decide (l = [] ∨ f.layer = l)
  have key : ∀ gs : Homes M, (∀ h ∈ gs, h ∈ hs') → ∃ ps : List (Home (Hdf5.Write M) × Files.Write (Hdf5.Write M)),
      (∀ q ∈ ps, q.1 ∈ gs ∧ q.2 ∈ q.1.writes) ∧ (ps.map (·.2)).Perm ((gs.flatMap (·.writes)).filter sel) ∧
      (gs.flatMap fun h => ((((In.listing ⟨names, hs'.map (inPart C ord back), inf, some o.root⟩ v).layersOf
        (intName h.user h.idx)).getD []).filter fun x => decide (l = [] ∨ x = l)).map fun x =>
          In.readLayer ord ⟨names, hs'.map (inPart C ord back), inf, some o.root⟩ readField v (intName h.user h.idx) x) =
      ps.map fun q => resBack ord back readField q.1 q.2.mapping := by
    intro gs
    induction gs with
    | nil => intro _; exact ⟨[], by simp, .refl _, rfl⟩
    | cons h gs ih =>
      intro hgs
      obtain ⟨ps, a, b, c⟩ := ih (fun x hx => hgs x (by simp [hx]))
      obtain ⟨fs, d, e⟩ := read_home_all S K' hws h4 ord V back names inf hp readField h (hgs h (by simp)) v
        (fun x => decide (l = [] ∨ x = l))
      refine ⟨fs.map (fun f => (h, f)) ++ ps, ?_, ?_, ?_⟩
      · intro q hq
        rw [List.mem_append] at hq
        rcases hq with hq | hq
        · obtain ⟨f, hf, rfl⟩ := List.mem_map.1 hq
          exact ⟨by simp, (List.mem_filter.1 (d.mem_iff.1 hf)).1⟩
        · exact ⟨by simp [(a q hq).1], (a q hq).2⟩
      · rw [List.map_append, List.map_map, List.flatMap_cons, List.filter_append]
        refine List.Perm.append ?_ b
        show (fs.map id).Perm _
        rw [List.map_id]
        exact d
      · rw [List.flatMap_cons, c, e, List.map_append, List.map_map]
        rfl
  obtain ⟨ps, a, b, c⟩ := key hs' (fun _ h => h)
  have htag : ∀ q ∈ ps, q.1 ∈ hs ∧ q.2 ∈ q.1.writes ∧ q.2.mapping.part = q.1.user ∧ q.2.mapping ∈ asked cs := by
    intro q hq
    have h1 := hp.mem_iff.1 (a q hq).1
    have h2 := (a q hq).2
    obtain ⟨t1, t2⟩ := home_tag S q.1 h1 q.2 h2
    refine ⟨h1, h2, ?_, hws _ t1⟩
    rw [← (S.inv.fits q.1 h1 q.2 h2).1, t2]
    rfl
  refine ⟨ps.map fun q => (q.1.idx, q.2.mapping, q.1.mapping.mapping), ?_, ?_, ?_⟩
  · have : In.readAll ord ⟨names, hs'.map (inPart C ord back), inf, some o.root⟩ readField v l =
        Files.collect (ps.map fun q => resBack ord back readField q.1 q.2.mapping) := by
      rw [← c]
      unfold In.readAll
      congr 1
      rw [List.map_map, List.flatMap_map]
      rfl
    rw [this, List.filterMap_map]
    apply Files.collect_ok
    intro q hq
    obtain ⟨-, -, t3, t4⟩ := htag q hq
    unfold resBack
    rw [hv _ _ _ (mem_asked.1 t4) (layerStart_fresh _)]
    simp only [Function.comp, t3]
    cases val (layerPath (intName q.1.user q.1.idx) q.2.mapping.layer) q.2.mapping <;> rfl
  · rw [List.map_map]
    have h5 : (ps.map fun q => q.2.mapping).Perm (((hs'.flatMap (·.writes)).filter sel).map (·.mapping)) := by
      have := b.map fun f => f.mapping
      rw [List.map_map] at this
      exact this
    refine h5.trans ?_
    have h6 : ((hs'.flatMap (·.writes)).filter sel).Perm (((Hdf5.stored cs rs).map tag).filter sel) :=
      ((hp.flatMap_right _).trans S.inv.perm).filter _
    refine (h6.map _).trans (.of_eq ?_)
    rw [List.filter_map, List.map_map]
    show List.map id _ = _
    rw [List.map_id]
    apply List.filter_congr
    intro w _
    simp only [sel, Function.comp, Bool.decide_and]
    rfl
  · intro q hq
    obtain ⟨p, hp', rfl⟩ := List.mem_map.1 hq
    obtain ⟨t1, t2, t3, t4⟩ := htag p hp'
    obtain ⟨k1, k2⟩ := home_known S p.1 t1
    exact ⟨(S.inv.fits p.1 t1 p.2 t2).2.2.1, p.1.mapping, mem_asked.1 k1, by rw [k2, t3], rfl⟩

/-- The sample of `Hdf5FilesFields` meets the hypotheses. -/
example := C80_read_all attrMaps sessionCalls session_calls session_fits.1 session_fits.2.1 ⟨List.reverse, List.reverse⟩
  order_visits.2 readAttrMap id session_fits.2.2.1 (readAny (fun _ _ b => b) 3 half16 (0, 0) (0, 0))
  (fun _ w => some (written w)) session_fits.2.2.2

end

end F3D.Props
