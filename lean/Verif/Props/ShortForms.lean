import Verif.Spec.ShortForms
import Verif.Props.FileObject
import Verif.Props.Hdf5FilesFields

/-!
# C90: layers written with fewer names
-/

namespace F3D.Props
open Og Ogawa FieldIO FileObject ShortForms
open _root_.F3D.Metadata (Meta)
open _root_.F3D.MappingIO (kMapping)
open _root_.F3D.Files (FieldClass Loaded intName layerPath mapBack Plain Readable)
open _root_.F3D.Hdf5 (Obj Fits MapsBack BodiesBack)

variable {M L F : Type}

/-! ## Ogawa -/

theorem forms_ogawa (C : Formats M) (cs : List (ShortForms.Call M)) : ∀ o : Files.Out M,
    ShortForms.run C ⟨some o, none⟩ cs = (Files.Out.run C.ogawa o (asOgawa cs)).map fun x => (x.1, ⟨some x.2, none⟩) := by
  induction cs with
  | nil => intro o; rfl
  | cons c cs ih =>
    intro o
    have e : ogawaWrite c = inOgawa (place c).1 (place c).2 c.field := by
      unfold ogawaWrite place
      cases c.form <;> rfl
    have key : ∀ r : Files.Ret × Files.Out M,
        (match (r.1, (⟨some r.2, none⟩ : FileObject.Out M)) with
          | (.crash, _) => none
          | (q, s) => (ShortForms.run C s cs).map fun (x : List Files.Ret × FileObject.Out M) => (q :: x.1, x.2)) =
        (match r with
          | (.crash, _) => none
          | (q, o) => (Files.Out.run C.ogawa o (asOgawa cs)).map
              fun (x : List Files.Ret × Files.Out M) => (q :: x.1, x.2)).map fun (x : List Files.Ret × Files.Out M) =>
            (x.1, (⟨some x.2, none⟩ : FileObject.Out M)) := by
      rintro ⟨r, o'⟩
      cases r <;> simp only [Option.map_none] <;> rw [ih, Option.map_map, Option.map_map] <;> rfl
    unfold ShortForms.run
    show _ = (Files.Out.run C.ogawa o (.write _ :: asOgawa cs)).map _
    unfold Files.Out.run
    rw [← e]
    exact key (Files.writeLayer C.ogawa (ogawaWrite c) o)

theorem stored_ogawa (cs : List (ShortForms.Call M)) : ∀ rs : List Files.Ret,
    Files.stored (asOgawa cs) rs = (ShortForms.stored cs rs).map fun c => inOgawa (place c).1 (place c).2 c.field := by
  induction cs with
  | nil => intro rs; cases rs <;> rfl
  | cons c cs ih =>
    intro rs
    cases rs with
    | nil => rfl
    | cons r rs =>
      cases r
      case written => exact congrArg _ (ih rs)
      all_goals exact ih rs

/-- **C90, Ogawa files.** Fields are written to a new file with calls of all three forms, in any order, and some may have
failed. Then reading by partition and layer name gives exactly the fields that were written and belong there: with the
names of the call, in the partition "default" if only the layer was named, and with name and attribute of the field if
nothing was named. -/
theorem C90_ogawa [FieldClass F] (C : Formats M) (cs : List (ShortForms.Call M)) (rs : List Files.Ret) (s : FileObject.Out M)
    (h : ShortForms.run C (Out.new.create true true) cs = some (rs, s))
    (P : Plain (asOgawa cs)) (readMap : List Tree → Res L) (R : Readable C.ogawa readMap (asOgawa cs))
    (readField : Name → Name → List Tree → Res F) (val : Name → Files.Write M → Option (F × Meta))
    (hv : Props.ReadsAs readField val (asOgawa cs)) :
    ∃ (o : Files.Out M) (i : Files.In L), s = ⟨some o, none⟩ ∧ Files.openFile readMap (rootKids o.entries) = .ok i ∧
      ∀ u l, u ≠ [] → l ≠ [] → l ≠ kMapping → ∃ qs : List (Nat × Files.Write M × M),
        i.readLayers readField u l = .ok (qs.filterMap fun q => (val (layerPath (intName u q.1) l) q.2.1).map fun b =>
          ⟨u, l, mapBack C.ogawa readMap q.2.2, b.2, b.1⟩) ∧
        (qs.map (·.2.1)).Perm (((ShortForms.stored cs rs).filter fun c => place c = (u, l)).map fun c => inOgawa u l c.field) ∧
        ∀ q ∈ qs, C.ogawa.ident q.2.1.mapping q.2.2 = true := by
  have e : (Out.new.create true true : FileObject.Out M) = ⟨some (Files.Out.new.create true), none⟩ := rfl
  rw [e, forms_ogawa, Option.map_eq_some_iff] at h
  obtain ⟨⟨rs', o⟩, hr, hx⟩ := h
  simp only [Prod.mk.injEq] at hx
  obtain ⟨rfl, rfl⟩ := hx
  have hse : Files.Session (asOgawa cs) := by
    intro c hc
    obtain ⟨x, -, rfl⟩ := List.mem_map.1 hc
    exact .inl ⟨_, rfl⟩
  have hb := C43_read_back C.ogawa Files.Out.new o (asOgawa cs) rs' ⟨hse, hr⟩ P readMap R readField val hv
  obtain ⟨i, mp, hi, hq⟩ := hb
  refine ⟨o, i, rfl, hi, fun u l hu hl hm => ?_⟩
  obtain ⟨qs, q1, q2, q3, -, -⟩ := hq u l hu hl hm
  refine ⟨qs, q1, ?_, fun q hq' => (q3 q hq').1⟩
  rw [stored_ogawa, List.filter_map] at q2
  refine q2.trans (List.Perm.of_eq ?_)
  have hf : ((fun w : Files.Write M => decide (w.part = u ∧ w.layer = l)) ∘ fun c : ShortForms.Call M =>
      inOgawa (place c).1 (place c).2 c.field) = fun c => decide (place c = (u, l)) := by
    funext c
    rw [Function.comp, decide_eq_decide, Prod.ext_iff]
    rfl
  rw [hf]
  apply List.map_congr_left
  intro c hc
  have := (List.mem_filter.1 hc).2
  simp only [decide_eq_true_eq] at this
  rw [this]

/-! ## HDF5 -/

/-- The place where `Field3DOutputFileHDF5` puts a field. -/
def placeHdf5 (c : ShortForms.Call M) : Name × Name :=
  match c.form with
  | .named l => (l, defaultName)
  | _ => place c

/-- The calls that get as far as `writeLayer`. -/
def accepted (c : ShortForms.Call M) : Bool :=
  match c.form with
  | .bare => decide (c.field.name ≠ [] ∧ c.field.attr ≠ [])
  | _ => true

theorem hdf5Write_eq (c : ShortForms.Call M) :
    hdf5Write c = if accepted c then some (inHdf5 (placeHdf5 c).1 (placeHdf5 c).2 c.field) else none := by
  unfold hdf5Write accepted placeHdf5 place
  cases c.form with
  | full p l => rfl
  | named l => rfl
  | bare =>
    by_cases h1 : c.field.name = []
    · simp [h1]
    · by_cases h2 : c.field.attr = []
      · simp [h1, h2]
      · simp [h1, h2, toHdf5, inHdf5]

/-- The calls on the HDF5 object. -/
def onHdf5 (cs : List (ShortForms.Call M)) : List (Hdf5.Call M) :=
  (cs.filter accepted).map fun c => .write (inHdf5 (placeHdf5 c).1 (placeHdf5 c).2 c.field)

theorem forms_hdf5 (C : Formats M) (cs : List (ShortForms.Call M)) : ∀ (own : Option (Files.Out M)) (o o' : Hdf5.Out M)
    (rs : List Hdf5.Ret), Hdf5.Out.run C.hdf5 o (onHdf5 cs) = some (rs, o') →
    ∃ rs', ShortForms.run C ⟨own, some o⟩ cs = some (rs', ⟨own, some o'⟩) ∧ rs'.length = cs.length ∧
      Hdf5.stored (onHdf5 cs) rs = (ShortForms.stored cs rs').map fun c => inHdf5 (placeHdf5 c).1 (placeHdf5 c).2 c.field := by
  induction cs with
  | nil =>
    intro own o o' rs h
    cases h
    exact ⟨[], rfl, rfl, rfl⟩
  | cons c cs ih =>
    intro own o o' rs h
    by_cases ha : accepted c = true
    · have e : onHdf5 (c :: cs) = .write (inHdf5 (placeHdf5 c).1 (placeHdf5 c).2 c.field) :: onHdf5 cs := by
        simp [onHdf5, ha]
      rw [e] at h ⊢
      unfold Hdf5.Out.run at h
      have hs : Hdf5.Out.step C.hdf5 o (.write (inHdf5 (placeHdf5 c).1 (placeHdf5 c).2 c.field)) =
        Hdf5.writeLayer C.hdf5 (inHdf5 (placeHdf5 c).1 (placeHdf5 c).2 c.field) o := rfl
      rw [hs] at h
      have hw : ShortForms.write C ⟨own, some o⟩ c =
          (retOf (Hdf5.writeLayer C.hdf5 (inHdf5 (placeHdf5 c).1 (placeHdf5 c).2 c.field) o).1,
            ⟨own, some (Hdf5.writeLayer C.hdf5 (inHdf5 (placeHdf5 c).1 (placeHdf5 c).2 c.field) o).2⟩) := by
        simp only [ShortForms.write, hdf5Write_eq, ha, if_true]
      generalize Hdf5.writeLayer C.hdf5 (inHdf5 (placeHdf5 c).1 (placeHdf5 c).2 c.field) o = r at h hw
      obtain ⟨r, o1⟩ := r
      have go : ∀ q : Files.Ret, retOf r = q → q ≠ .crash →
          ((Hdf5.Out.run C.hdf5 o1 (onHdf5 cs)).map fun (x : List Hdf5.Ret × Hdf5.Out M) => (r :: x.1, x.2)) = some (rs, o') →
          ∃ rs', ShortForms.run C ⟨own, some o⟩ (c :: cs) = some (rs', ⟨own, some o'⟩) ∧ rs'.length = (c :: cs).length ∧
            Hdf5.stored (.write (inHdf5 (placeHdf5 c).1 (placeHdf5 c).2 c.field) :: onHdf5 cs) rs =
              (ShortForms.stored (c :: cs) rs').map fun c => inHdf5 (placeHdf5 c).1 (placeHdf5 c).2 c.field := by
        intro q hq hne hx
        obtain ⟨⟨rs1, o2⟩, h1, h2⟩ := Option.map_eq_some_iff.1 hx
        simp only [Prod.mk.injEq] at h2
        obtain ⟨rfl, rfl⟩ := h2
        obtain ⟨rs', i1, i2, i3⟩ := ih own o1 o2 rs1 h1
        refine ⟨q :: rs', ?_, by simp [i2], ?_⟩
        · unfold ShortForms.run
          rw [hw]
          simp only [hq]
          cases q with
          | crash => exact absurd rfl hne
          | _ => simp only [i1]; rfl
        · cases r <;> simp only [retOf] at hq <;> subst hq <;>
            simp only [Hdf5.stored, ShortForms.stored, List.map_cons, i3]
      cases r with
      | crash => simp at h
      | ok => exact go .written rfl (by simp) h
      | failed => exact go .failed rfl (by simp) h
      | threw => exact go .threw rfl (by simp) h
    · have e : onHdf5 (c :: cs) = onHdf5 cs := by simp [onHdf5, ha]
      rw [e] at h ⊢
      obtain ⟨rs', i1, i2, i3⟩ := ih own o o' rs h
      refine ⟨.failed :: rs', ?_, by simp [i2], ?_⟩
      · unfold ShortForms.run
        have hw : ShortForms.write C ⟨own, some o⟩ c = (.failed, ⟨own, some o⟩) := by
          simp only [ShortForms.write, hdf5Write_eq, ha, Bool.false_eq_true, if_false]
        rw [hw]
        simp only [i1]
        rfl
      · rw [i3]; rfl

theorem stored_sub (cs : List (ShortForms.Call M)) : ∀ rs : List Files.Ret, ∀ c ∈ ShortForms.stored cs rs, c ∈ cs := by
  induction cs with
  | nil => intro rs c h; cases rs <;> cases h
  | cons d cs ih =>
    intro rs c h
    cases rs with
    | nil => cases h
    | cons r rs =>
      cases r
      case written =>
        rcases List.mem_cons.1 h with rfl | h
        · exact List.mem_cons_self
        · exact List.mem_cons_of_mem _ (ih rs c h)
      all_goals exact List.mem_cons_of_mem _ (ih rs c h)

theorem read_forms [FieldClass F] (C : Formats M) (cs : List (ShortForms.Call M)) (s0 : FileObject.Out M)
    (K : ∀ c ∈ cs, accepted c = true → Fits C.hdf5 (inHdf5 (placeHdf5 c).1 (placeHdf5 c).2 c.field))
    (ord : Hdf5.Order) (V : Hdf5.Visits ord)
    (readMap : Obj → Res L) (back : M → L) (hm : MapsBack C.hdf5 readMap back (onHdf5 cs))
    (readField : Name → Name → Obj → Res F) (val : Name → Hdf5.Write M → Option F) (hv : BodiesBack readField val (onHdf5 cs)) :
    ∃ (rs : List Files.Ret) (own : Option (Files.Out M)) (o : Hdf5.Out M) (i : Hdf5.In L) (info : Hdf5.Write M → F → Meta),
      ShortForms.run C (s0.create false true) cs = some (rs, ⟨own, some o⟩) ∧ rs.length = cs.length ∧
      Hdf5.In.openFile ord readMap o.root Hdf5.In.new = some (true, i) ∧
      (∀ w f, .write w ∈ onHdf5 cs → Hdf5.Over w.info (FieldClass.start f) (info w f)) ∧
      ∀ isVec u l, u ≠ [] → l ≠ [] → ∃ qs : List (Nat × Hdf5.Write M × M),
        i.readLayers ord readField isVec u l = .ok (qs.filterMap fun q =>
          (val (layerPath (intName u q.1) l) q.2.1).map fun f =>
            ⟨u, l, some (back q.2.2), (FieldClass.mapped f (info q.2.1 f)).2, (FieldClass.mapped f (info q.2.1 f)).1⟩) ∧
        (qs.map (·.2.1)).Perm (((ShortForms.stored cs rs).filter fun c => placeHdf5 c = (u, l) ∧ c.field.isVec = isVec).map
          fun c => inHdf5 u l c.field) ∧
        ∀ q ∈ qs, C.hdf5.ident q.2.1.mapping q.2.2 = true := by
  have hse : Hdf5.Session (onHdf5 cs) := by
    intro c hc
    obtain ⟨x, -, rfl⟩ := List.mem_map.1 hc
    exact .inl ⟨_, rfl⟩
  have K' : ∀ w, .write w ∈ onHdf5 cs → Fits C.hdf5 w := by
    intro w hw
    obtain ⟨c, hc, e⟩ := List.mem_map.1 hw
    cases e
    exact K c (List.mem_filter.1 hc).1 (List.mem_filter.1 hc).2
  have hg : ∀ m, .global m ∈ onHdf5 cs → Hdf5.NamesFit m := by
    intro m hm
    obtain ⟨c, -, e⟩ := List.mem_map.1 hm
    cases e
  have hb := C80_read_back C.hdf5 (onHdf5 cs) hse K' hg ord V readMap back hm readField val hv
  obtain ⟨rs, o, i, mp, info, h1, -, h3, -, -, h6, h7⟩ := hb
  obtain ⟨rs', r1, r2, r3⟩ := forms_hdf5 C cs s0.own _ _ _ h1
  refine ⟨rs', s0.own, o, i, info, r1, r2, h3, h6, fun isVec u l hu hl => ?_⟩
  obtain ⟨qs, q1, q2, -, q4⟩ := h7 isVec u l hu hl
  refine ⟨qs, q1, ?_, fun q hq => (q4 q hq).1⟩
  rw [r3, List.filter_map] at q2
  refine q2.trans (List.Perm.of_eq ?_)
  have hf : ((fun w : Hdf5.Write M => decide (w.part = u ∧ w.layer = l ∧ w.isVec = isVec)) ∘ fun c : ShortForms.Call M =>
      inHdf5 (placeHdf5 c).1 (placeHdf5 c).2 c.field) = fun c => decide (placeHdf5 c = (u, l) ∧ c.field.isVec = isVec) := by
    funext c
    rw [Function.comp, decide_eq_decide, Prod.ext_iff, and_assoc]
    rfl
  rw [hf]
  apply List.map_congr_left
  intro c hc
  have := (List.mem_filter.1 hc).2
  simp only [decide_eq_true_eq] at this
  rw [this.1]

/-- Both names are there: the call has them or the field has. -/
def HasNames (c : ShortForms.Call M) : Prop := c.form = .bare → c.field.name ≠ [] ∧ c.field.attr ≠ []

theorem accepted_iff (c : ShortForms.Call M) : accepted c = true ↔ HasNames c := by
  unfold accepted HasNames
  cases c.form <;> simp

/-- **C90, HDF5 files.** Fields are written to a new file with calls that name partition and layer, or neither. Nothing
crashes. Calls for fields without name or attribute return false, the others may fail for other reasons. Reading by
partition and layer name gives exactly the fields of the kind for which the call returned true and that belong there. -/
theorem C90_hdf5 [FieldClass F] (C : Formats M) (cs : List (ShortForms.Call M)) (s0 : FileObject.Out M)
    (hn : ∀ c ∈ cs, ∀ l, c.form ≠ .named l)
    (K : ∀ c ∈ cs, HasNames c → Fits C.hdf5 (inHdf5 (place c).1 (place c).2 c.field))
    (ord : Hdf5.Order) (V : Hdf5.Visits ord)
    (readMap : Obj → Res L) (back : M → L) (hm : MapsBack C.hdf5 readMap back (asHdf5 cs))
    (readField : Name → Name → Obj → Res F) (val : Name → Hdf5.Write M → Option F) (hv : BodiesBack readField val (asHdf5 cs)) :
    ∃ (rs : List Files.Ret) (own : Option (Files.Out M)) (o : Hdf5.Out M) (i : Hdf5.In L) (info : Hdf5.Write M → F → Meta),
      ShortForms.run C (s0.create false true) cs = some (rs, ⟨own, some o⟩) ∧ rs.length = cs.length ∧
      Hdf5.In.openFile ord readMap o.root Hdf5.In.new = some (true, i) ∧
      (∀ c ∈ cs, HasNames c → ∀ f, Hdf5.Over c.field.info (FieldClass.start f)
        (info (inHdf5 (place c).1 (place c).2 c.field) f)) ∧
      ∀ isVec u l, u ≠ [] → l ≠ [] → ∃ qs : List (Nat × Hdf5.Write M × M),
        i.readLayers ord readField isVec u l = .ok (qs.filterMap fun q =>
          (val (layerPath (intName u q.1) l) q.2.1).map fun f =>
            ⟨u, l, some (back q.2.2), (FieldClass.mapped f (info q.2.1 f)).2, (FieldClass.mapped f (info q.2.1 f)).1⟩) ∧
        (qs.map (·.2.1)).Perm (((ShortForms.stored cs rs).filter fun c => place c = (u, l) ∧ c.field.isVec = isVec).map
          fun c => inHdf5 u l c.field) ∧
        ∀ q ∈ qs, C.hdf5.ident q.2.1.mapping q.2.2 = true := by
  have hp : ∀ c ∈ cs, placeHdf5 c = place c := by
    intro c hc
    unfold placeHdf5
    cases h : c.form with
    | named l => exact absurd h (hn c hc l)
    | _ => rfl
  have sub : ∀ w, .write w ∈ onHdf5 cs → .write w ∈ asHdf5 cs := by
    intro w hw
    obtain ⟨c, hc, e⟩ := List.mem_map.1 hw
    have hc := (List.mem_filter.1 hc).1
    rw [hp c hc] at e
    exact List.mem_map.2 ⟨c, hc, e⟩
  obtain ⟨rs, own, o, i, info, h1, h2, h3, h4, h5⟩ := read_forms C cs s0
    (fun c hc ha => by rw [hp c hc]; exact K c hc ((accepted_iff c).1 ha)) ord V readMap back
    (fun w hw => hm w (sub w hw)) readField val (fun path w g hw => hv path w g (sub w hw))
  refine ⟨rs, own, o, i, info, h1, h2, h3, fun c hc ha f => ?_, fun isVec u l hu hl => ?_⟩
  · refine h4 _ f (List.mem_map.2 ⟨c, List.mem_filter.2 ⟨hc, (accepted_iff c).2 ha⟩, ?_⟩)
    rw [hp c hc]
  · obtain ⟨qs, q1, q2, q3⟩ := h5 isVec u l hu hl
    refine ⟨qs, q1, q2.trans (List.Perm.of_eq ?_), q3⟩
    congr 1
    apply List.filter_congr
    intro c hc
    rw [hp c (stored_sub cs rs c hc)]

/-- **C90 is false of calls that name only the layer, in HDF5 files.** They are documented to write to the partition
"default", but write a layer of the name "default" to a partition with the name of the layer. Reading in the partition
"default" finds nothing, whatever the layer (other than one of the name "default"), and everything is where nobody put it. -/
theorem C90_named_layer_swapped [FieldClass F] (C : Formats M) (cs : List (ShortForms.Call M)) (s0 : FileObject.Out M)
    (hn : ∀ c ∈ cs, ∃ l, c.form = .named l)
    (K : ∀ c ∈ cs, ∀ l, c.form = .named l → Fits C.hdf5 (inHdf5 l defaultName c.field))
    (ord : Hdf5.Order) (V : Hdf5.Visits ord)
    (readMap : Obj → Res L) (back : M → L)
    (hm : ∀ c ∈ cs, readMap (C.hdf5.write c.field.mapping .new).2 = .ok (back c.field.mapping))
    (readField : Name → Name → Obj → Res F) (val : Name → Hdf5.Write M → Option F)
    (hv : ∀ path, ∀ c ∈ cs, ∀ l, c.form = .named l → ∀ g, FreshLayer g → readField path c.field.cls (c.field.body g).2 =
      match val path (inHdf5 l defaultName c.field) with
      | some f => .ok f
      | none => .null) :
    ∃ (rs : List Files.Ret) (own : Option (Files.Out M)) (o : Hdf5.Out M) (i : Hdf5.In L) (info : Hdf5.Write M → F → Meta),
      ShortForms.run C (s0.create false true) cs = some (rs, ⟨own, some o⟩) ∧ rs.length = cs.length ∧
      Hdf5.In.openFile ord readMap o.root Hdf5.In.new = some (true, i) ∧
      (∀ isVec u l, u ≠ [] → l ≠ [] → l ≠ defaultName → i.readLayers ord readField isVec u l = .ok []) ∧
      ∀ isVec u, u ≠ [] → ∃ qs : List (Nat × Hdf5.Write M × M),
        i.readLayers ord readField isVec u defaultName = .ok (qs.filterMap fun q =>
          (val (layerPath (intName u q.1) defaultName) q.2.1).map fun f =>
            ⟨u, defaultName, some (back q.2.2), (FieldClass.mapped f (info q.2.1 f)).2, (FieldClass.mapped f (info q.2.1 f)).1⟩) ∧
        (qs.map (·.2.1)).Perm (((ShortForms.stored cs rs).filter fun c => place c = (defaultName, u) ∧ c.field.isVec = isVec).map
          fun c => inHdf5 u defaultName c.field) := by
  have hf : ∀ c ∈ cs, ∃ l, c.form = .named l ∧ placeHdf5 c = (l, defaultName) ∧ place c = (defaultName, l) := by
    intro c hc
    obtain ⟨l, h⟩ := hn c hc
    exact ⟨l, h, by simp only [placeHdf5, h], by simp only [place, h]⟩
  have inv : ∀ w, .write w ∈ onHdf5 cs → ∃ c ∈ cs, ∃ l, c.form = .named l ∧ w = inHdf5 l defaultName c.field := by
    intro w hw
    obtain ⟨c, hc, e⟩ := List.mem_map.1 hw
    have hc := (List.mem_filter.1 hc).1
    obtain ⟨l, h, e1, -⟩ := hf c hc
    rw [e1] at e
    cases e
    exact ⟨c, hc, l, h, rfl⟩
  obtain ⟨rs, own, o, i, info, h1, h2, h3, h4, h5⟩ := read_forms C cs s0
    (fun c hc ha => by obtain ⟨l, h, e1, -⟩ := hf c hc; rw [e1]; exact K c hc l h) ord V readMap back
    (fun w hw => by obtain ⟨c, hc, l, h, rfl⟩ := inv w hw; exact hm c hc) readField val
    (fun path w g hw hg => by obtain ⟨c, hc, l, h, rfl⟩ := inv w hw; exact hv path c hc l h g hg)
  refine ⟨rs, own, o, i, info, h1, h2, h3, fun isVec u l hu hl hne => ?_, fun isVec u hu => ?_⟩
  · obtain ⟨qs, q1, q2, q3⟩ := h5 isVec u l hu hl
    have e : ((ShortForms.stored cs rs).filter fun c => placeHdf5 c = (u, l) ∧ c.field.isVec = isVec) = [] := by
      rw [List.filter_eq_nil_iff]
      intro c hc
      obtain ⟨l', -, e1, -⟩ := hf c (stored_sub cs rs c hc)
      rw [e1, decide_eq_true_eq]
      rintro ⟨x, -⟩
      exact hne (Prod.mk.inj x).2.symm
    rw [e, List.map_nil, List.perm_nil, List.map_eq_nil_iff] at q2
    subst q2
    exact q1
  · obtain ⟨qs, q1, q2, q3⟩ := h5 isVec u defaultName hu (by decide)
    refine ⟨qs, q1, q2.trans (List.Perm.of_eq ?_)⟩
    congr 1
    apply List.filter_congr
    intro c hc
    obtain ⟨l', -, e1, e2⟩ := hf c (stored_sub cs rs c hc)
    rw [e1, e2]
    simp [and_comm]

/-! ## Fields without names -/

/-- **C90 is false of fields without a name, in Ogawa files.** In HDF5 files the call without names returns false for a
field without name or attribute, and changes nothing. In Ogawa files it returns true, but when the name is empty no
reading by partition and layer name gives the field: whatever the names, and whatever else is written. -/
theorem C90_no_name [FieldClass F] (C : Formats M) (c : ShortForms.Call M) (hb : c.form = .bare) :
    (¬ (c.field.name ≠ [] ∧ c.field.attr ≠ []) → ∀ (own : Option (Files.Out M)) (o : Hdf5.Out M),
      ShortForms.write C ⟨own, some o⟩ c = (.failed, ⟨own, some o⟩)) ∧
    (c.field.name = [] → (∀ m, C.ogawa.ident m m = true) → (∀ a b, C.ogawa.ident a b = true → C.ogawa.ident b a = true) →
      ∀ (cs : List (ShortForms.Call M)), Sound C.ogawa (asOgawa (cs ++ [c])) → Plain (asOgawa (cs ++ [c])) →
      ∀ (readMap : List Tree → Res L), Readable C.ogawa readMap (asOgawa (cs ++ [c])) →
      ∀ (readField : Name → Name → List Tree → Res F) (val : Name → Files.Write M → Option (F × Meta)),
        Props.ReadsAs readField val (asOgawa (cs ++ [c])) →
      ∃ (o : Files.Out M) (i : Files.In L),
        ShortForms.run C (Out.new.create true true) (cs ++ [c]) = some (List.replicate (cs.length + 1) .written, ⟨some o, none⟩) ∧
        Files.openFile readMap (rootKids o.entries) = .ok i ∧
        ∀ u l, l ≠ kMapping → ∃ qs : List (Nat × Files.Write M × M),
          i.readLayers readField u l = .ok (qs.filterMap fun q => (val (layerPath (intName u q.1) l) q.2.1).map fun b =>
            ⟨u, l, mapBack C.ogawa readMap q.2.2, b.2, b.1⟩) ∧
          (qs.map (·.2.1)).Perm ((if u = [] ∨ l = [] then [] else cs.filter fun c => place c = (u, l)).map
            fun c => inOgawa u l c.field)) := by
  constructor
  · intro h own o
    have ha : accepted c = false := by
      rw [← Bool.not_eq_true, accepted_iff]
      exact fun k => h (k hb)
    simp [ShortForms.write, hdf5Write_eq, ha]
  · intro hz hr hsy cs S P readMap R readField val hv
    have hse : Files.Session (asOgawa (cs ++ [c])) := by
      intro c hc
      obtain ⟨x, -, rfl⟩ := List.mem_map.1 hc
      exact .inl ⟨_, rfl⟩
    obtain ⟨o, hw, -⟩ := C43_writes_succeed C.ogawa hr hsy Files.Out.new (asOgawa (cs ++ [c])) hse S
    have hlen : (asOgawa (cs ++ [c])).length = cs.length + 1 := by simp [asOgawa]
    have hrun : ShortForms.run C (Out.new.create true true) (cs ++ [c]) =
        some (List.replicate (cs.length + 1) .written, ⟨some o, none⟩) := by
      have e : (Out.new.create true true : FileObject.Out M) = ⟨some (Files.Out.new.create true), none⟩ := rfl
      rw [e, forms_ogawa, hw.2, hlen]
      rfl
    obtain ⟨o', i, e, hi, h⟩ := C90_ogawa C (cs ++ [c]) _ _ hrun P readMap R readField val hv
    cases e
    refine ⟨o, i, hrun, hi, fun u l hm => ?_⟩
    by_cases hul : u = [] ∨ l = []
    · refine ⟨[], ?_, ?_⟩
      · unfold Files.In.readLayers
        rw [if_pos hul.symm]
        rfl
      · rw [if_pos hul]
        exact List.Perm.refl _
    · obtain ⟨qs, q1, q2, -⟩ := h u l (fun k => hul (.inl k)) (fun k => hul (.inr k)) hm
      refine ⟨qs, q1, ?_⟩
      rw [if_neg hul]
      have hst : ∀ l : List (ShortForms.Call M), ShortForms.stored l (List.replicate l.length .written) = l := by
        intro l
        induction l with
        | nil => rfl
        | cons x l ih => exact congrArg _ ih
      have := hst (cs ++ [c])
      rw [List.length_append, List.length_singleton] at this
      rw [this, List.filter_append] at q2
      have hp : place c = ([], c.field.attr) := by simp only [place, hb, hz]
      rw [List.filter_cons_of_neg (by
        rw [hp, decide_eq_true_eq]
        intro k
        exact hul (.inl (Prod.mk.inj k).1.symm)), List.filter_nil, List.append_nil] at q2
      exact q2

/-! ## Cases -/

/-- A scalar field, with the contents of `numbered` in Ogawa files and those of `sampleDense` in HDF5 files. -/
def formField (name attr : Name) (m : Nat) (x : UInt8) : ShortForms.Field Nat :=
  ⟨name, attr, false, m, [], (numbered [] [] m x).body, sampleMeta, (Hdf5.AnyField.dense sampleDense).cls,
    (Hdf5.AnyField.dense sampleDense).write true half16⟩

def bothForms : Formats Nat := ⟨numberMaps, attrMaps⟩

/-- A field "a" in "p", one that is written as "b" in "q", and another "a" in "p". -/
def formCalls : List (ShortForms.Call Nat) :=
  [⟨.bare, formField [112] [97] 1 10⟩, ⟨.full [113] [98], formField [112] [97] 2 20⟩, ⟨.bare, formField [112] [97] 1 40⟩]

/-- The fields as layers "a" and "b". -/
def namedCalls : List (ShortForms.Call Nat) :=
  [⟨.named [97], formField [] [] 1 10⟩, ⟨.named [98], formField [] [] 2 20⟩, ⟨.named [97], formField [] [] 1 40⟩]

theorem form_ogawa (cs : List (ShortForms.Call Nat)) (h : ∀ c ∈ cs, ∃ name attr m x, c.field = formField name attr m x ∧ m ≠ 9 ∧
    (0 : UInt8) ∉ (place c).1 ∧ plainName (place c).2 ∧ (47 : UInt8) ∉ (place c).1 ∧ (47 : UInt8) ∉ (place c).2) :
    Plain (asOgawa cs) ∧ Readable bothForms.ogawa (fun kids => .ok kids.length) (asOgawa cs) ∧
      Props.ReadsAs (fun _ => readNumber) (fun _ w => some ((match w.body with
        | [_, .attribute _ _ v] => v.getD 0 0
        | _ => 0), Meta.empty)) (asOgawa cs) ∧ Sound bothForms.ogawa (asOgawa cs) := by
  have key : ∀ w, .write w ∈ asOgawa cs → ∃ p l m x, w = numbered p l m x ∧ m ≠ 9 ∧
      (0 : UInt8) ∉ p ∧ plainName l ∧ (47 : UInt8) ∉ p ∧ (47 : UInt8) ∉ l := by
    intro w hw
    obtain ⟨c, hc, e⟩ := List.mem_map.1 hw
    obtain ⟨n, a, m, x, hf, hr⟩ := h c hc
    cases e
    rw [hf]
    exact ⟨_, _, m, x, rfl, hr⟩
  refine ⟨⟨fun w hw => ?_, fun w hw => ?_⟩, ⟨fun w hw => .inl ⟨_, rfl⟩, fun es he => ?_⟩, fun _ w hw => ?_, fun w hw => ?_⟩
  · obtain ⟨p, l, m, x, rfl, -, h1, -⟩ := key w hw; exact h1
  · obtain ⟨p, l, m, x, rfl, -, -, h1, -⟩ := key w hw; exact h1
  · obtain ⟨c, hc, e⟩ := List.mem_map.1 he
    cases e
  · obtain ⟨p, l, m, x, rfl, -⟩ := key w hw
    exact read_numbered _ _ _ _
  · obtain ⟨p, l, m, x, rfl, h9, -, -, h1, h2⟩ := key w hw
    exact ⟨h1, h2, by simp [numbered, bothForms, numberMaps, h9]⟩

theorem form_calls_ogawa : ∀ c ∈ formCalls ++ namedCalls, ∃ name attr m x, c.field = formField name attr m x ∧ m ≠ 9 ∧
    (0 : UInt8) ∉ (place c).1 ∧ plainName (place c).2 ∧ (47 : UInt8) ∉ (place c).1 ∧ (47 : UInt8) ∉ (place c).2 := by
  intro c hc
  simp only [formCalls, namedCalls, List.cons_append, List.nil_append, List.mem_cons, List.not_mem_nil, or_false] at hc
  rcases hc with rfl | rfl | rfl | rfl | rfl | rfl <;>
    exact ⟨_, _, _, _, rfl, by decide, by decide, ⟨by decide, by decide⟩, by decide, by decide⟩

/-- All three forms are used, all calls succeed, and the hypotheses of `C90_ogawa` hold. -/
example : ∃ o, ShortForms.run bothForms (Out.new.create true true) (formCalls ++ namedCalls) =
    some (List.replicate 6 .written, ⟨some o, none⟩) := by
  have h := form_ogawa _ form_calls_ogawa
  obtain ⟨o, hw, -⟩ := C43_writes_succeed numberMaps (by simp [numberMaps])
    (fun a b h => by simp only [numberMaps, beq_iff_eq] at h ⊢; exact h.symm) Files.Out.new
    (asOgawa (formCalls ++ namedCalls)) (by
      intro c hc
      obtain ⟨x, -, rfl⟩ := List.mem_map.1 hc
      exact .inl ⟨_, rfl⟩) h.2.2.2
  refine ⟨o, ?_⟩
  have e : (Out.new.create true true : FileObject.Out Nat) = ⟨some (Files.Out.new.create true), none⟩ := rfl
  rw [e, forms_ogawa]
  show Option.map _ (Files.Out.run numberMaps _ _) = _
  rw [hw.2]
  rfl
example (rs : List Files.Ret) (s : FileObject.Out Nat)
    (h : ShortForms.run bothForms (Out.new.create true true) (formCalls ++ namedCalls) = some (rs, s)) :=
  have k := form_ogawa _ form_calls_ogawa
  C90_ogawa bothForms _ rs s h k.1 _ k.2.1 _ _ k.2.2.1

/-- A field without a name comes last: the hypotheses of `C90_no_name` hold. -/
example :=
  have k := form_ogawa (formCalls ++ namedCalls ++ [⟨.bare, formField [] [97] 1 3⟩]) (by
    intro c hc
    rcases List.mem_append.1 hc with hc | hc
    · exact form_calls_ogawa c hc
    · simp only [List.mem_singleton] at hc
      subst hc
      exact ⟨_, _, _, _, rfl, by decide, by decide, ⟨by decide, by decide⟩, by decide, by decide⟩)
  (C90_no_name bothForms ⟨.bare, formField [] [97] 1 3⟩ rfl).2 rfl (by simp [bothForms, numberMaps])
    (fun a b h => by simp only [bothForms, numberMaps, beq_iff_eq] at h ⊢; exact h.symm) _ k.2.2.2 k.1 _ k.2.1 _ _ k.2.2.1

/-- `C90_hdf5`. -/
example := C90_hdf5 (F := Hdf5.AnyField (UInt8 × UInt8)) bothForms (⟨.bare, formField [] [97] 1 3⟩ :: formCalls) Out.new
  (by
    intro c hc
    simp only [formCalls, List.mem_cons, List.not_mem_nil, or_false] at hc
    rcases hc with rfl | rfl | rfl | rfl <;> simp)
  (by
    intro c hc hh
    simp only [formCalls, List.mem_cons, List.not_mem_nil, or_false] at hc
    rcases hc with rfl | rfl | rfl | rfl
    · exact absurd rfl (hh rfl).1
    · exact (anyLayer_fits _ _ _ _ sampleDense_held (by decide) one_step_a (by decide)).1
    · exact (anyLayer_fits _ _ _ _ sampleDense_held (by decide) one_step_b (by decide)).1
    · exact (anyLayer_fits _ _ _ _ sampleDense_held (by decide) one_step_a (by decide)).1)
  ⟨List.reverse, List.reverse⟩ order_visits.2 readAttrMap id
  (by
    intro w hw
    simp only [asHdf5, formCalls, List.map_cons, List.map_nil, List.mem_cons, List.not_mem_nil, or_false,
      Hdf5.Call.write.injEq] at hw
    rcases hw with rfl | rfl | rfl | rfl <;>
    · show readAttrMap (attrMaps.write _ .new).2 = .ok _
      simp only [inHdf5, formField]
      rw [(attrMaps_write _ (by decide)).1]
      exact (attrMaps_write _ (by decide)).2)
  (Hdf5.readAny (fun _ _ b => b) 3 half16 (0, 0) (0, 0)) (fun _ _ => some (.dense sampleDense))
  (by
    intro path w g hw hg
    simp only [asHdf5, formCalls, List.map_cons, List.map_nil, List.mem_cons, List.not_mem_nil, or_false,
      Hdf5.Call.write.injEq] at hw
    rcases hw with rfl | rfl | rfl | rfl <;>
      exact (anyLayer_fits [112] [97] 1 _ sampleDense_held (by decide) one_step_a (by decide)).2 path g hg)

theorem one_step_default : Hdf5.OneStep defaultName := ⟨by decide, by decide, by decide, by decide⟩

/-- `C90_named_layer_swapped`. -/
example := C90_named_layer_swapped (F := Hdf5.AnyField (UInt8 × UInt8)) bothForms namedCalls Out.new
  (by
    intro c hc
    simp only [namedCalls, List.mem_cons, List.not_mem_nil, or_false] at hc
    rcases hc with rfl | rfl | rfl <;> exact ⟨_, rfl⟩)
  (by
    intro c hc l hl
    simp only [namedCalls, List.mem_cons, List.not_mem_nil, or_false] at hc
    rcases hc with rfl | rfl | rfl <;> cases hl
    · exact (anyLayer_fits _ _ _ _ sampleDense_held (by decide) one_step_default (by decide)).1
    · exact (anyLayer_fits _ _ _ _ sampleDense_held (by decide) one_step_default (by decide)).1
    · exact (anyLayer_fits _ _ _ _ sampleDense_held (by decide) one_step_default (by decide)).1)
  ⟨id, id⟩ order_visits.1 readAttrMap id
  (by
    intro c hc
    simp only [namedCalls, List.mem_cons, List.not_mem_nil, or_false] at hc
    rcases hc with rfl | rfl | rfl <;>
    · show readAttrMap (attrMaps.write _ .new).2 = .ok _
      simp only [formField]
      rw [(attrMaps_write _ (by decide)).1]
      exact (attrMaps_write _ (by decide)).2)
  (Hdf5.readAny (fun _ _ b => b) 3 half16 (0, 0) (0, 0)) (fun _ _ => some (.dense sampleDense))
  (by
    intro path c hc l hl g hg
    simp only [namedCalls, List.mem_cons, List.not_mem_nil, or_false] at hc
    rcases hc with rfl | rfl | rfl <;>
      exact (anyLayer_fits [112] [97] 1 _ sampleDense_held (by decide) one_step_a (by decide)).2 path g hg)

end F3D.Props
