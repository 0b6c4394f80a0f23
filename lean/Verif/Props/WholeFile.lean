import Verif.Model.LayerIO
import Verif.Props.Files
import Verif.Props.MipIO
import Verif.Props.Metadata
import Verif.Props.MappingIO
import Verif.Proofs.OgawaSize

/-!
# C70: a whole file, from the calls that write it to the fields that are read from its bytes
-/

namespace F3D.Props
open Files Og Ogawa FieldIO LayerIO MappingIO
open MipIO (denseClass sparseClass mipClass Level Lazy readMip writeMip mipEntries)
open BlockThreads (WState Exclusive exclusive_single)
open Mapping (Matrix)
open Metadata (Meta readMeta entries)
open MipField (Off kMipOffset)

/-! ## The metadata of the file -/

variable {M L : Type}

def entriesOf (l : List (Slot M)) : List Entry := l.filterMap fun s => match s with | .entry e => some e | .part _ => none

theorem entriesOf_change (n : Name) (f : Part M → Part M) : ∀ l : List (Slot M), entriesOf (change n f l) = entriesOf l
  | [] => rfl
  | .entry e :: l => by
    have ih := entriesOf_change n f l
    simp only [entriesOf] at ih
    simp [change, entriesOf, ih]
  | .part p :: l => by
    have ih := entriesOf_change n f l
    rw [change]
    simp only [entriesOf] at ih
    split <;> simp [entriesOf, ih]

theorem entriesOf_append (a b : List (Slot M)) : entriesOf (a ++ b) = entriesOf a ++ entriesOf b := by
  simp [entriesOf]

theorem createPart_entries (C : MapIO M) (n : Name) (m : M) (o : Out M) :
    entriesOf (createPart C n m o).2.slots = entriesOf o.slots := by
  unfold createPart
  dsimp only
  split
  · rfl
  · split
    · simp only [entriesOf_change, entriesOf_append]; simp [entriesOf]
    · simp only [entriesOf_append]; simp [entriesOf]

theorem addLayer_entries (C : MapIO M) (w : Write M) (n : Name) (o : Out M) :
    entriesOf (addLayer C w n o).2.slots = entriesOf o.slots := by
  unfold addLayer
  split
  · rfl
  · split
    · rfl
    · split
      · split
        · rfl
        · simp only [entriesOf_change]
      · rfl

theorem addNew_entries (C : MapIO M) (w : Write M) (n : Name) (o : Out M) :
    entriesOf (addNew C w n o).2.slots = entriesOf o.slots := by
  have h := createPart_entries C n w.mapping o
  unfold addNew
  split
  · rename_i o' e
    rw [addLayer_entries, ← h, e]
  · exact h

theorem writeLayer_entries (C : MapIO M) (w : Write M) (o : Out M) :
    entriesOf (writeLayer C w o).2.slots = entriesOf o.slots := by
  unfold writeLayer
  dsimp only
  split
  · split
    · rfl
    · split
      · rw [addNew_entries]
      · split
        · rw [addNew_entries]
        · rw [addLayer_entries]
    · split
      · rw [addNew_entries]
      · split
        · rw [addNew_entries]
        · rw [addLayer_entries]
  · rfl

theorem writeLayer_open (C : MapIO M) (w : Write M) (o : Out M) : (writeLayer C w o).2.isOpen = o.isOpen := by
  have h1 : ∀ (n : Name) (o : Out M), (addLayer C w n o).2.isOpen = o.isOpen := by
    intro n o
    unfold addLayer
    (repeat' split) <;> rfl
  have h2 : ∀ (n : Name) (o : Out M), (createPart C n w.mapping o).2.isOpen = o.isOpen := by
    intro n o
    unfold createPart
    dsimp only
    (repeat' split) <;> rfl
  have h3 : ∀ (n : Name) (o : Out M), (addNew C w n o).2.isOpen = o.isOpen := by
    intro n o
    have h := h2 n o
    unfold addNew
    split
    · rename_i o' e
      rw [h1, ← h, e]
    · exact h
  unfold writeLayer
  dsimp only
  split
  · split
    · rfl
    · split
      · rw [h3]
      · split
        · rw [h3]
        · rw [h1]
    · split
      · rw [h3]
      · split
        · rw [h3]
        · rw [h1]
  · rfl

/-- The metadata given for the file, in order. -/
def globalsOf (cs : List (Call M)) : List (List Entry) :=
  cs.filterMap fun c => match c with | .global es => some es | _ => none

theorem run_entries (C : MapIO M) : ∀ (cs : List (Call M)) (o o' : Out M) (rs : List Ret), Session cs → o.isOpen = true →
    Out.run C o cs = some (rs, o') → entriesOf o'.slots = entriesOf o.slots ++ (globalsOf cs).map (.group kGlobal)
  | [], o, o', rs, _, _, h => by
    simp only [Out.run, Option.some.injEq, Prod.mk.injEq] at h
    simp [globalsOf, h.2]
  | c :: cs, o, o', rs, hs, ho, h => by
    rw [Out.run] at h
    have hs' : Session cs := fun x hx => hs x (by simp [hx])
    rcases hs c (by simp) with ⟨w, rfl⟩ | ⟨es, rfl⟩
    · have e : o.step C (.write w) = writeLayer C w o := rfl
      rw [e] at h
      have h1 := writeLayer_entries C w o
      have h2 := writeLayer_open C w o
      generalize writeLayer C w o = r at h h1 h2
      obtain ⟨r, o1⟩ := r
      have hg : globalsOf (.write w :: cs) = globalsOf cs := rfl
      simp only at h1 h2
      cases r
      · simp at h
      all_goals
        simp only [Option.map_eq_some_iff, Prod.mk.injEq] at h
        obtain ⟨x, hx, -, rfl⟩ := h
        rw [run_entries C cs o1 x.2 x.1 hs' (by rw [h2, ho]) hx, h1, hg]
    · have e : o.step C (.global es) = (.written, { o with slots := o.slots ++ [.entry (.group kGlobal es)] }) := by
        simp [Out.step, writeGlobal, ho]
      rw [e] at h
      simp only [Option.map_eq_some_iff, Prod.mk.injEq] at h
      obtain ⟨x, hx, -, rfl⟩ := h
      have hg : globalsOf (.global es :: cs) = es :: globalsOf cs := rfl
      rw [run_entries C cs { o with slots := o.slots ++ [.entry (.group kGlobal es)] } x.2 x.1 hs' ho hx, entriesOf_append, hg]
      simp [entriesOf]

theorem firstOf_slots : ∀ l : List (Slot M), (∀ p ∈ partsOf l, p.name ≠ kGlobal) →
    firstOf .group kGlobal (l.map Slot.encode) = firstOf .group kGlobal (entriesOf l)
  | [], _ => rfl
  | .entry e :: l, h => by
    have ih := firstOf_slots l (fun p hp => h p (by rw [mem_parts] at hp ⊢; simp [hp]))
    have e1 : entriesOf (Slot.entry e :: l) = e :: entriesOf l := rfl
    rw [e1, List.map_cons]
    simp only [firstOf, List.find?_cons] at ih ⊢
    rw [ih]
    rfl
  | .part p :: l, h => by
    have ih := firstOf_slots l (fun p hp => h p (by rw [mem_parts] at hp ⊢; simp [hp]))
    have e1 : entriesOf (Slot.part p :: l) = entriesOf l := rfl
    have hp := h p (by rw [mem_parts]; simp)
    rw [e1, List.map_cons, ← ih]
    simp only [firstOf, List.find?_cons, Slot.encode, kindOf, nameOf]
    simp [hp]

/-- **C43, metadata of the file**: what is read is the metadata that was written first; none, if there was none. -/
theorem C43_file_metadata (C : MapIO M) (o₀ o : Out M) (cs : List (Call M)) (rs : List Ret) (H : Wrote C o₀ cs rs o)
    (P : Plain cs) (readMap : List Tree → Res L) (R : Readable C readMap cs) (i : In L)
    (hi : openFile readMap (rootKids o.entries) = .ok i) :
    match (globalsOf cs).head? with
    | none => i.info = Meta.empty
    | some es => readMeta (groupKids kGlobal es) Meta.empty = some i.info := by
  obtain ⟨hs, I⟩ := inv_wrote H
  have hw : ∀ w ∈ stored cs rs, Call.write w ∈ cs := fun w h => stored_mem cs rs w h
  have he := run_entries C cs (o₀.create true) o rs H.1 rfl H.2
  have h0 : entriesOf (o₀.create true).slots = [versionEntry] := rfl
  rw [h0] at he
  have hp : ∀ p ∈ partsOf o.slots, p.name ≠ kGlobal := by
    intro p hp
    have : p ∈ o.parts := hp
    rw [I.parts] at this
    obtain ⟨h, hh, rfl⟩ := List.mem_map.1 this
    exact intName_ne_global _ _
  have hf := firstOf_slots o.slots hp
  rw [he] at hf
  have hpl := root_plain I P
  have hs1 : (47 : UInt8) ∉ kGlobal := by decide
  unfold openFile at hi
  rw [version_ok I P] at hi
  simp only at hi
  rw [read_info I P hw readMap R] at hi
  cases hg : globalsOf cs with
  | nil =>
    rw [hg] at hf
    have : find .group kGlobal (rootKids o.entries) = some none :=
      find_no_group rootName _ _ hs1 hpl (by exact hf)
    rw [this] at hi
    simp only [Res.ok.injEq] at hi
    simp only [List.head?_nil]
    rw [← hi]
  | cons es gs =>
    rw [hg] at hf
    have hfind : find .group kGlobal (rootKids o.entries) = some (some (groupKids kGlobal es)) :=
      find_group rootName _ _ _ hs1 hpl (by
        refine Eq.trans hf ?_
        simp [firstOf, versionEntry, kindOf, nameOf])
    rw [hfind] at hi
    simp only at hi
    simp only [List.head?_cons]
    cases hr : readMeta (groupKids kGlobal es) Meta.empty with
    | none => rw [hr] at hi; simp at hi
    | some m =>
      rw [hr] at hi
      simp only [Res.ok.injEq] at hi
      rw [← hi]

/-- **C43, a file that could not be made**: no call writes anything, and nothing of the file before is kept. -/
theorem C43_failed_create (C : MapIO M) (o : Out M) (w : Write M) :
    (o.create false).step C (.write w) = (.failed, o.create false) ∧ (o.create false).listing = [] := by
  constructor <;> rfl

/-! ## What is written -/

variable {α : Type}

/-- What is needed of a field: it is one that a program can build (see C75 for MIP fields). -/
def GoodContent [DecidableEq α] (e : Elem α) (z : Zlib) (zero dflt : α) : Content α → Prop
  | .dense f => DenseStorable dflt f
  | .sparse f es => SparseWritten e z zero f es
  | .mip cls levels => GoodMip e z zero dflt cls levels
  | .other β e' f => Lawful e' ∧ isVoxelType e'.type = true ∧ e.type ≠ e'.type ∧ ∃ dflt : β, DenseStorable dflt f
  | .otherMip β e' cls levels => isVoxelType e'.type = true ∧ e.type ≠ e'.type ∧
      ∃ (_ : DecidableEq β) (z' : Zlib) (zero dflt : β), GoodMip e' z' zero dflt cls levels
  | .foreign cls es => cls ≠ denseClass ∧ cls ≠ sparseClass ∧ cls ≠ mipClass ∧ (0 : UInt8) ∉ cls ∧ ∀ x ∈ es, plainName (nameOf x)

/-- What is needed of metadata (C46). -/
structure GoodMeta (m : Meta) : Prop where
  plain : PlainNames m
  fits : Fits32 m
  distinct : DistinctNames m
  noNul : ∀ n v, lookup m n .str = some (.str v) → (0 : UInt8) ∉ v

/-- What is needed of a layer: names without '/' and NUL, a layer name that is not empty. -/
structure GoodLayer [DecidableEq α] (e : Elem α) (z : Zlib) (zero dflt : α) (l : Layer α) : Prop where
  name : (47 : UInt8) ∉ l.name ∧ (0 : UInt8) ∉ l.name
  attr : (47 : UInt8) ∉ l.attr ∧ plainName l.attr
  info : GoodMeta l.info
  content : GoodContent e z zero dflt l.content

def GoodOp [DecidableEq α] (e : Elem α) (z : Zlib) (zero dflt : α) : FileOp α → Prop
  | .layer l => GoodLayer e z zero dflt l
  | .info m => GoodMeta m

/-- The layers of a program, in order. -/
def layersOf (cs : List (FileOp α)) : List (Layer α) := cs.filterMap fun c => match c with | .layer l => some l | _ => none

/-- The metadata of the file, in order. -/
def infosOf (cs : List (FileOp α)) : List Meta := cs.filterMap fun c => match c with | .info m => some m | _ => none

/-- The field is of the voxel type and of a class of the library. -/
def wellTyped : Content α → Bool
  | .dense _ => true
  | .sparse _ _ => true
  | .mip _ _ => true
  | .other _ _ _ => false
  | .otherMip _ _ _ _ => false
  | .foreign _ _ => false

/-- The MIP offset in the metadata. -/
def offsetIn (m : Meta) : V3i :=
  match lookup m kMipOffset .vecInt with
  | some (.vecInt v) => v
  | _ => ⟨0, 0, 0⟩

/-- The metadata of a field that was read, if this was written: a MIP field always has an offset in it. -/
def withOffset : Content α → Meta → Meta
  | .mip _ _, m => m.setVecInt kMipOffset (offsetIn m)
  | _, m => m

/-- A field that was read from a file with these contents is the one that was written, with this offset if it is a MIP
field. -/
def SameField (e : Elem α) (z : Zlib) (zero dflt : α) (root : List Tree) (off : V3i) : Content α → AnyField α → Prop
  | .dense f, x => x = .dense f
  | .sparse f _, x => x = .sparse f
  | .mip cls levels, x => ∃ m, x = .mip m off ∧ SameMip e z zero dflt root cls levels m
  | _, _ => False

/-- What is read of a field in a layer at the path. -/
def contentValue (e : Elem α) (path : Name) (off : V3i) : Content α → Option (AnyField α)
  | .dense f => some (.dense f)
  | .sparse f _ => some (.sparse f)
  | .mip cls levels => some (.mip (lazyOf e.type cls path (levels.map Level.single)) off)
  | .other _ _ _ => none
  | .otherMip _ _ _ _ => none
  | .foreign _ _ => none

theorem value_isSome (e : Elem α) (path : Name) (off : V3i) (c : Content α) : (contentValue e path off c).isSome = wellTyped c := by
  cases c <;> rfl

/-- The same metadata: the same names with values of the same kinds. -/
def SameMeta (m m' : Meta) : Prop := ∀ n k, lookup m' n k = lookup m n k

/-- A mapping that was read is what was written. -/
def SameMap : AnyMap → MappingIO.Loaded → Prop
  | .null, x => x = .null
  | .matrix mm, x => ∃ m', x = .matrix m' ∧ SameMatrix (Matrix.run mm.frame mm.ops) m'

/-- A field that was read is the one that was written; its mapping is that of a field `l'` with the same name, which is
identical to that of the field. -/
structure SameLayer (e : Elem α) (z : Zlib) (zero dflt : α) (root : List Tree) (ident : AnyMap → AnyMap → Bool)
    (cs : List (FileOp α)) (l : Layer α) (r : Files.Loaded MappingIO.Loaded (AnyField α)) : Prop where
  name : r.name = l.name
  attr : r.attr = l.attr
  info : SameMeta (withOffset l.content l.info) r.info
  field : SameField e z zero dflt root (offsetIn l.info) l.content r.data
  mapping : ∃ l' x, FileOp.layer l' ∈ cs ∧ l'.name = l.name ∧ ident l.mapping l'.mapping = true ∧ r.mapping = some x ∧
    SameMap l'.mapping x

/-! ## One layer -/

theorem layer_pre_foreign (cls : Name) (es : List Entry) : Foreign [.attribute kClassType .string kLayerText, .group kMetadata es,
    .attribute kClassName .string cls] := by
  intro x hx
  simp only [List.mem_cons, List.not_mem_nil, or_false] at hx
  rcases hx with rfl | rfl | rfl
  · exact ⟨show plainName kClassType from ⟨by decide, by decide⟩, show kClassType ∉ formatNames by decide +kernel⟩
  · exact ⟨show plainName kMetadata from ⟨by decide, by decide⟩, show kMetadata ∉ formatNames by decide +kernel⟩
  · exact ⟨show plainName kClassName from ⟨by decide, by decide⟩, show kClassName ∉ formatNames by decide +kernel⟩

/-- The group of a layer: class and metadata are found, whatever the IO class adds. -/
theorem read_body_of {F : Type} [FieldClass F] (w : Write M) (cls : Name) (es : List Entry) (hb : w.body = fieldEntries cls es)
    (hc : (0 : UInt8) ∉ cls) (hes : ∀ x ∈ es, plainName (nameOf x)) (rf : Name → List Tree → Res F) (m0 m : Meta)
    (hst : ∀ f, rf cls (groupKids w.layer (layerGroup w)) = .ok f → FieldClass.start f = m0)
    (hm : readMeta (groupKids kMetadata w.mdata) m0 = some m) :
    readBody rf (groupKids w.layer (layerGroup w)) =
      (rf cls (groupKids w.layer (layerGroup w))).bind fun f => .ok (FieldClass.mapped f m) := by
  have hl : layerGroup w = [.attribute kClassType .string kLayerText, .group kMetadata w.mdata,
      .attribute kClassName .string cls] ++ es := by
    unfold layerGroup; rw [hb]; rfl
  have hn : ∀ x ∈ layerGroup w, plainName (nameOf x) := by
    intro x hx
    rw [hl, List.mem_append] at hx
    rcases hx with h | h
    · exact (layer_pre_foreign cls w.mdata x h).1
    · exact hes x h
  have h1 : firstOf .attribute kClassName (layerGroup w) = some (.attribute kClassName .string cls) := by
    rw [hl]
    simp [firstOf, kindOf, nameOf, show ¬ kClassType = kClassName by decide]
  have h2 : firstOf .group kMetadata (layerGroup w) = some (.group kMetadata w.mdata) := by
    rw [hl]
    simp [firstOf, kindOf, nameOf]
  obtain ⟨⟨a, h3, h4⟩, _, _⟩ := C36_attribute_round_trip w.layer kClassName .string cls _ (by decide) hn h1
    (fun h => absurd rfl h)
  have h5 := find_group w.layer kMetadata _ _ (by decide) hn h2
  unfold readBody
  rw [h3]
  simp only
  rw [h4]
  simp only [if_true, Option.getD_some]
  rw [C36_string_without_nul cls hc, h5]
  cases hr : rf cls (groupKids w.layer (layerGroup w)) with
  | ok f => simp only [Res.bind, hst f hr, hm]
  | _ => rfl

/-- **C43, older files**: a layer without metadata is read all the same, with no metadata. -/
theorem C43_layer_without_metadata {F : Type} [FieldClass F] (g cls : Name) (es : List Entry) (hn : ∀ x ∈ es, plainName (nameOf x))
    (hc : (0 : UInt8) ∉ cls) (h1 : firstOf .attribute kClassName es = some (.attribute kClassName .string cls))
    (h2 : firstOf .group kMetadata es = none) (rf : Name → List Tree → Res F) (f : F)
    (hf : rf cls (groupKids g es) = .ok f) : readBody rf (groupKids g es) = .ok (FieldClass.mapped f (FieldClass.start f)) := by
  obtain ⟨⟨a, h3, h4⟩, _, _⟩ := C36_attribute_round_trip g kClassName .string cls _ (by decide) hn h1
    (fun h => absurd rfl h)
  have h5 := find_no_group g kMetadata es (by decide) hn h2
  unfold readBody
  rw [h3]
  simp only
  rw [h4]
  simp only [if_true, Option.getD_some]
  rw [C36_string_without_nul cls hc, hf, h5]
  rfl

example : firstOf .group kMetadata (fieldEntries denseClass (denseEntries half16 (⟨⟨⟨0, 0, 0⟩, ⟨0, 0, 0⟩⟩, ⟨⟨0, 0, 0⟩, ⟨0, 0, 0⟩⟩,
    1, 1, [(1, 2)]⟩))) = none := by decide +kernel

theorem wf_of_storable {dflt : α} {f : Dense α} (h : DenseStorable dflt f) : f.WF := by
  obtain ⟨⟨ext, dw, f0, ops, h0, hf⟩, -, -⟩ := h
  have hw : f0.WF := by
    by_cases hw : dw.isEmpty = true
    · have hb : dw.max.x < dw.min.x ∨ dw.max.y < dw.min.y ∨ dw.max.z < dw.min.z := by
        simpa [Box3i.isEmpty, or_assoc] using hw
      simp [Dense.setSize, hb] at h0
    · obtain ⟨k, hk, kwf, _⟩ := Dense.setSize_ok (dflt := dflt) (e := ext) (Bool.eq_false_iff.mpr hw)
      rw [h0] at hk; cases hk; exact kwf
  exact dense_run_wf dflt ops f0 f hw hf

theorem layer_pre_mip (cls : Name) (es : List Entry) : MipForeign [.attribute kClassType .string kLayerText, .group kMetadata es,
    .attribute kClassName .string cls] := by
  intro x hx
  simp only [List.mem_cons, List.not_mem_nil, or_false] at hx
  rcases hx with rfl | rfl | rfl
  · exact ⟨show plainName kClassType from ⟨by decide, by decide⟩, show kClassType ∉ mipNames by decide +kernel⟩
  · exact ⟨show plainName kMetadata from ⟨by decide, by decide⟩, show kMetadata ∉ mipNames by decide +kernel⟩
  · exact ⟨show plainName kClassName from ⟨by decide, by decide⟩, show kClassName ∉ mipNames by decide +kernel⟩

theorem written_mip_names (e : Elem α) (cls : Name) (levels : List (Level α)) : ∀ x ∈ writeMip e cls levels, plainName (nameOf x) := by
  intro x hx
  cases levels with
  | nil => simp [writeMip] at hx
  | cons l ls => exact (mipNames_ok _ (mip_entry_names _ _ _ _ _ x hx)).2

theorem written_sparse_names (e : Elem α) (z : Zlib) (f : Sparse α) (threads : Nat) (sched : List Nat) (oob : Bool)
    (es : List Entry) (h : writeSparse e z threads sched oob f = .ok es) : ∀ x ∈ es, nameOf x ∈ formatNames := by
  unfold writeSparse at h
  simp only at h
  split at h
  · split at h
    · split at h
      · simp at h
      · rename_i es' h'
        simp only [Res.ok.injEq] at h
        subst h
        exact plain_sparse e z f _ _ h'
    · simp at h
  · split at h
    · simp at h
    · rename_i es' h'
      simp only [Res.ok.injEq] at h
      subst h
      exact plain_sparse e z f _ _ h'

theorem mip_or_not (e : Elem α) (z : Zlib) (zero dflt : α) (threads : Nat) (sched : List Tree → List Nat) (path cls : Name)
    (kids : List Tree) (f : AnyField α) (h : readField e z zero dflt threads sched path cls kids = .ok f) :
    (cls ≠ mipClass ∧ FieldClass.start f = Meta.empty) ∨
      (cls = mipClass ∧ FieldClass.start f = Off.new.mappingChanged.info) := by
  unfold readField at h
  split at h
  · rename_i hc
    refine .inl ⟨by rw [hc]; decide, ?_⟩
    generalize readDense e dflt kids = r at h
    cases r <;> simp only [Res.bind, Res.ok.injEq, reduceCtorEq] at h
    subst h; rfl
  · split at h
    · rename_i hc
      refine .inl ⟨by rw [hc]; decide, ?_⟩
      generalize readSparse e z zero dflt threads (sched kids) kids = r at h
      cases r <;> simp only [Res.bind, Res.ok.injEq, reduceCtorEq] at h
      subst h; rfl
    · split at h
      · rename_i hc
        refine .inr ⟨hc, ?_⟩
        generalize readMip e.type path kids = r at h
        cases r <;> simp only [Res.bind, Res.ok.injEq, reduceCtorEq] at h
        subst h; rfl
      · simp at h

theorem not_mip (e : Elem α) (z : Zlib) (zero dflt : α) (threads : Nat) (sched : List Tree → List Nat) (path cls : Name)
    (kids : List Tree) (hc : cls ≠ mipClass) (f : AnyField α)
    (h : readField e z zero dflt threads sched path cls kids = .ok f) : FieldClass.start f = Meta.empty := by
  rcases mip_or_not e z zero dflt threads sched path cls kids f h with h | h
  · exact h.2
  · exact absurd h.1 hc

theorem mip_start (e : Elem α) (z : Zlib) (zero dflt : α) (threads : Nat) (sched : List Tree → List Nat) (path : Name)
    (kids : List Tree) (f : AnyField α) (h : readField e z zero dflt threads sched path mipClass kids = .ok f) :
    FieldClass.start f = Off.new.mappingChanged.info := by
  rcases mip_or_not e z zero dflt threads sched path mipClass kids f h with h | h
  · exact absurd rfl h.1
  · exact h.2

theorem lookup_setVecInt (m : Meta) (n' n : Name) (v : V3i) (k : MKind) :
    lookup (m.setVecInt n' v) n k = if n' = n ∧ MKind.vecInt = k then some (.vecInt v) else lookup m n k :=
  lookup_put m n' n (.vecInt v) k

/-- A dense or MIP layer is read back. -/
theorem read_dense_body [DecidableEq α] (e : Elem α) (L : Lawful e) (hv : isVoxelType e.type = true) (z : Zlib)
    (zero dflt : α) (threads : Nat) (sched : List Tree → List Nat) (path : Name) (l : Layer α) (hl : GoodLayer e z zero dflt l)
    (hd : ∀ f es, l.content ≠ .sparse f es) :
    ∃ m, SameMeta (withOffset l.content l.info) m ∧
      readBody (readField e z zero dflt threads sched path) (groupKids l.attr (layerGroup (l.write e))) =
      match contentValue e path (offsetIn l.info) l.content with
      | some f => .ok (f, m)
      | none => .null := by
  obtain ⟨m, hm, hlk⟩ := C46_round_trip kMetadata l.info hl.info.plain hl.info.fits hl.info.distinct hl.info.noNul
  have hcont := hl.content
  obtain ⟨nm, at', mp, inf, c⟩ := l
  simp only at hcont hm hlk hd ⊢
  cases c with
  | dense f =>
    refine ⟨m, hlk, ?_⟩
    have hb := read_body_of (F := AnyField α) (Layer.write e ⟨nm, at', mp, inf, .dense f⟩) denseClass (denseEntries e f) rfl
      (by decide) (fun x hx => (formatNames_ok _ (dense_names e f x hx)).2) (readField e z zero dflt threads sched path) Meta.empty m (not_mip e z zero dflt threads sched path _ _ (by decide)) hm
    refine Eq.trans hb ?_
    obtain ⟨⟨ext, dw, f0, ops, h0, hf⟩, hx, hd⟩ := hcont
    have := C37_dense_round_trip e L hv dflt at' _ [] (layer_pre_foreign denseClass (entries inf)) (by simp) ext dw f0 h0 ops f
      hf hx hd
    rw [List.append_nil] at this
    show Res.bind (Res.bind (readDense e dflt _) _) _ = _
    have e2 : readDense e dflt (groupKids (Layer.write e ⟨nm, at', mp, inf, .dense f⟩).layer
      (layerGroup (Layer.write e ⟨nm, at', mp, inf, .dense f⟩))) = .ok f := this
    rw [e2]
    rfl
  | other β e' f =>
    refine ⟨m, hlk, ?_⟩
    have hb := read_body_of (F := AnyField α) (Layer.write e ⟨nm, at', mp, inf, .other β e' f⟩) denseClass (denseEntries e' f)
      rfl (by decide) (fun x hx => (formatNames_ok _ (dense_names e' f x hx)).2) (readField e z zero dflt threads sched path) Meta.empty m (not_mip e z zero dflt threads sched path _ _ (by decide)) hm
    refine Eq.trans hb ?_
    obtain ⟨L', hv', ht, dflt', hs⟩ := hcont
    have := C37_other_type_is_null e' L' hv' e ht dflt at' _ [] (layer_pre_foreign denseClass (entries inf)) (by simp) f
      (wf_of_storable hs) hs.2.1 hs.2.2
    rw [List.append_nil] at this
    show Res.bind (Res.bind (readDense e dflt _) _) _ = _
    have e2 : readDense e dflt (groupKids (Layer.write e ⟨nm, at', mp, inf, .other β e' f⟩).layer
      (layerGroup (Layer.write e ⟨nm, at', mp, inf, .other β e' f⟩))) = .null := this
    rw [e2]
    rfl
  | foreign cls es =>
    refine ⟨m, hlk, ?_⟩
    obtain ⟨h1, h2, h5, h3, h4⟩ := hcont
    have hb := read_body_of (F := AnyField α) (Layer.write e ⟨nm, at', mp, inf, .foreign cls es⟩) cls es
      rfl h3 h4 (readField e z zero dflt threads sched path) Meta.empty m (not_mip e z zero dflt threads sched path _ _ h5) hm
    refine Eq.trans hb ?_
    unfold readField
    rw [if_neg h1, if_neg h2, if_neg h5]
    rfl
  | mip cls levels =>
    obtain ⟨m', hm', hlk'⟩ := C46_into_existing kMetadata inf Off.new.mappingChanged.info hl.info.plain hl.info.fits
      hl.info.distinct hl.info.noNul
    have hoff : (⟨⟨0, 0, 0⟩, m'⟩ : Off).stored = offsetIn inf := by
      have h1 := hlk' kMipOffset .vecInt
      rw [offsetIn, Off.stored, Metadata.Meta.getVecInt]
      have hd : lookup Off.new.mappingChanged.info kMipOffset .vecInt = some (.vecInt ⟨0, 0, 0⟩) := rfl
      rw [hd] at h1
      cases hx : lookup inf kMipOffset .vecInt with
      | none =>
        rw [hx] at h1
        simp only [lookup, Option.map_eq_some_iff, MVal.vecInt.injEq, exists_eq_right] at h1
        rw [h1]
      | some v =>
        rw [hx] at h1
        simp only [lookup, Option.map_eq_some_iff] at h1
        obtain ⟨w, h1, rfl⟩ := h1
        rw [h1]
    refine ⟨m'.setVecInt kMipOffset (offsetIn inf), ?_, ?_⟩
    · intro n k
      show lookup (m'.setVecInt kMipOffset (offsetIn inf)) n k = lookup (inf.setVecInt kMipOffset (offsetIn inf)) n k
      rw [lookup_setVecInt, lookup_setVecInt]
      split
      · rfl
      · rename_i hnk
        rw [hlk' n k]
        cases lookup inf n k with
        | some v => rfl
        | none =>
          show lookup (Metadata.Meta.empty.setVecInt kMipOffset ⟨0, 0, 0⟩) n k = none
          rw [lookup_setVecInt, if_neg hnk]
          cases k <;> rfl
    have hb := read_body_of (F := AnyField α) (Layer.write e ⟨nm, at', mp, inf, .mip cls levels⟩) mipClass (writeMip e cls levels)
      rfl (by decide) (written_mip_names e cls levels) (readField e z zero dflt threads sched path) Off.new.mappingChanged.info m' (mip_start e z zero dflt threads sched path _) hm'
    refine Eq.trans hb ?_
    have := (mip_read e hv z zero dflt cls levels hcont at' path _ [] (layer_pre_mip mipClass (entries inf)) (by simp)).1
    rw [List.append_nil] at this
    have e2 : readMip e.type path (groupKids (Layer.write e ⟨nm, at', mp, inf, .mip cls levels⟩).layer
      (layerGroup (Layer.write e ⟨nm, at', mp, inf, .mip cls levels⟩))) =
        .ok (lazyOf e.type cls path (levels.map Level.single)) := this
    unfold readField
    rw [if_neg (by decide), if_neg (by decide), if_pos rfl, e2]
    show Res.ok (AnyField.mip _ (⟨⟨0, 0, 0⟩, m'⟩ : Off).stored, m'.setVecInt kMipOffset (⟨⟨0, 0, 0⟩, m'⟩ : Off).stored) = _
    rw [hoff]
    rfl
  | otherMip β e' cls levels =>
    refine ⟨m, hlk, ?_⟩
    obtain ⟨m', hm', -⟩ := C46_into_existing kMetadata inf Off.new.mappingChanged.info hl.info.plain hl.info.fits
      hl.info.distinct hl.info.noNul
    have hb := read_body_of (F := AnyField α) (Layer.write e ⟨nm, at', mp, inf, .otherMip β e' cls levels⟩) mipClass
      (writeMip e' cls levels) rfl (by decide) (written_mip_names e' cls levels) (readField e z zero dflt threads sched path) Off.new.mappingChanged.info m' (mip_start e z zero dflt threads sched path _) hm'
    refine Eq.trans hb ?_
    obtain ⟨hv', ht, _, z', zero', dflt', H⟩ := hcont
    have := C75_other_type_is_null e' hv' z' zero' dflt' cls levels H at' path _ [] (layer_pre_mip mipClass (entries inf)) (by simp)
      e.type ht
    rw [List.append_nil] at this
    have e2 : readMip e.type path (groupKids (Layer.write e ⟨nm, at', mp, inf, .otherMip β e' cls levels⟩).layer
      (layerGroup (Layer.write e ⟨nm, at', mp, inf, .otherMip β e' cls levels⟩))) = .null := this
    unfold readField
    rw [if_neg (by decide), if_neg (by decide), if_pos rfl, e2]
    rfl
  | sparse f es => exact absurd rfl (hd f es)

/-- A layer is read back: unless the threads that read blocks are still running. -/
theorem read_layer_body [DecidableEq α] (e : Elem α) (L : Lawful e) (hv : isVoxelType e.type = true) (z : Zlib)
    (hz : ZlibOk z) (zero dflt : α) (threads : Nat) (hT : 0 < threads) (sched : List Tree → List Nat) (path : Name)
    (l : Layer α) (hl : GoodLayer e z zero dflt l)
    (hrun : readBody (readField e z zero dflt threads sched path) (groupKids l.attr (layerGroup (l.write e))) ≠ .running) :
    ∃ m, SameMeta (withOffset l.content l.info) m ∧
      readBody (readField e z zero dflt threads sched path) (groupKids l.attr (layerGroup (l.write e))) =
      match contentValue e path (offsetIn l.info) l.content with
      | some f => .ok (f, m)
      | none => .null := by
  by_cases hd : ∀ f es, l.content ≠ .sparse f es
  · exact read_dense_body e L hv z zero dflt threads sched path l hl hd
  obtain ⟨m, hm, hlk⟩ := C46_round_trip kMetadata l.info hl.info.plain hl.info.fits hl.info.distinct hl.info.noNul
  have hs : SameMeta (withOffset l.content l.info) m := by
    obtain ⟨nm, at', mp, inf, c⟩ := l
    cases c with
    | mip cls levels => simp at hd
    | _ => exact hlk
  refine ⟨m, hs, ?_⟩
  have hds : ¬ sparseClass = denseClass := by decide
  have hcont := hl.content
  obtain ⟨nm, at', mp, inf, c⟩ := l
  simp only at hcont hm hrun hd ⊢
  cases c with
  | dense f => simp at hd
  | mip cls levels => simp at hd
  | other β e' f => simp at hd
  | otherMip β e' cls levels => simp at hd
  | foreign cls es => simp at hd
  | sparse f es =>
    obtain ⟨hr, hst, wt, ws, oob, hW, hw, hex⟩ := hcont
    have hb := read_body_of (F := AnyField α) (Layer.write e ⟨nm, at', mp, inf, .sparse f es⟩) sparseClass es
      rfl (by decide) (fun x hx => (formatNames_ok _ (written_sparse_names e z f wt ws oob es hw x hx)).2)
      (readField e z zero dflt threads sched path) Meta.empty m (not_mip e z zero dflt threads sched path _ _ (by decide)) hm
    have e1 : readField e z zero dflt threads sched path sparseClass (groupKids at'
        (layerGroup (Layer.write e ⟨nm, at', mp, inf, .sparse f es⟩))) =
      (readSparse e z zero dflt threads (sched (groupKids at'
        (layerGroup (Layer.write e ⟨nm, at', mp, inf, .sparse f es⟩)))) (groupKids at'
        (layerGroup (Layer.write e ⟨nm, at', mp, inf, .sparse f es⟩)))).bind fun f => .ok (.sparse f) := by
      unfold readField
      rw [if_neg hds, if_pos rfl]
    generalize hsc : sched (groupKids at' (layerGroup (Layer.write e ⟨nm, at', mp, inf, .sparse f es⟩))) = sc at e1
    have e3 : layerGroup (Layer.write e ⟨nm, at', mp, inf, .sparse f es⟩) = [.attribute kClassType .string kLayerText,
      .group kMetadata (entries inf), .attribute kClassName .string sparseClass] ++ es ++ [] := by
      simp [layerGroup, Layer.write, Content.body, fieldEntries]
    have key : readSparse e z zero dflt threads sc (groupKids at'
          (layerGroup (Layer.write e ⟨nm, at', mp, inf, .sparse f es⟩))) = .running ∨
        readSparse e z zero dflt threads sc (groupKids at'
          (layerGroup (Layer.write e ⟨nm, at', mp, inf, .sparse f es⟩))) = .ok f := by
      rw [e3]
      rcases hex with hex | hall
      · exact (C38_sparse_round_trip e L hv z hz zero dflt at' _ [] (layer_pre_foreign sparseClass (entries inf)) (by simp) f hr hst
          wt hW ws oob hex es hw threads hT sc).1
      · exact (C38_fully_allocated_round_trip e L hv z hz zero dflt at' _ [] (layer_pre_foreign sparseClass (entries inf)) (by simp)
          f hr hst hall wt hW ws oob es hw threads hT sc).1
    rcases key with h | h
    · exfalso
      apply hrun
      refine Eq.trans hb ?_
      show Res.bind (readField e z zero dflt threads sched path sparseClass (groupKids at' _)) _ = _
      rw [e1, h]
      rfl
    · refine Eq.trans hb ?_
      show Res.bind (readField e z zero dflt threads sched path sparseClass (groupKids at' _)) _ = _
      rw [e1, h]
      rfl

/-! ## The file -/

theorem write_mem (e : Elem α) (cs : List (FileOp α)) (w : Write AnyMap) (h : Call.write w ∈ cs.map (FileOp.call e)) :
    ∃ l, FileOp.layer l ∈ cs ∧ w = l.write e := by
  obtain ⟨c, hc, h⟩ := List.mem_map.1 h
  cases c with
  | layer l => simp only [FileOp.call, Call.write.injEq] at h; exact ⟨l, hc, h.symm⟩
  | info m => simp [FileOp.call] at h

theorem global_mem (e : Elem α) (cs : List (FileOp α)) (es : List Entry) (h : Call.global es ∈ cs.map (FileOp.call e)) :
    ∃ m, FileOp.info m ∈ cs ∧ es = entries m := by
  obtain ⟨c, hc, h⟩ := List.mem_map.1 h
  cases c with
  | layer l => simp [FileOp.call] at h
  | info m => simp only [FileOp.call, Call.global.injEq] at h; exact ⟨m, hc, h.symm⟩

theorem writes_of_ops (e : Elem α) : ∀ cs : List (FileOp α),
    ((cs.map (FileOp.call e)).filterMap fun c => match c with | .write w => some w | _ => none) =
      (layersOf cs).map (Layer.write e)
  | [] => rfl
  | .layer l :: cs => by
    have ih := writes_of_ops e cs
    have h1 : layersOf (.layer l :: cs) = l :: layersOf cs := rfl
    rw [h1, List.map_cons (f := Layer.write e), ← ih]
    rfl
  | .info m :: cs => by
    have ih := writes_of_ops e cs
    have h1 : layersOf (.info m :: cs) = layersOf cs := rfl
    rw [h1, ← ih]
    rfl

theorem globals_of_ops (e : Elem α) : ∀ cs : List (FileOp α),
    globalsOf (cs.map (FileOp.call e)) = (infosOf cs).map entries
  | [] => rfl
  | .layer l :: cs => globals_of_ops e cs
  | .info m :: cs => by
    have ih := globals_of_ops e cs
    have h1 : infosOf (.info m :: cs) = m :: infosOf cs := rfl
    rw [h1, List.map_cons (f := entries), ← ih]
    rfl

theorem read_map_back (k : Rat) (m : AnyMap) : ∃ x, readMap k (groupKids kMapping (writeMap m).2) = .ok x ∧ SameMap m x := by
  cases m with
  | null =>
    refine ⟨.null, ?_, rfl⟩
    have h := C47_null_round_trip k kMapping
    show Res.bind (readMapping k (groupKids kMapping (mappingEntries nullClass nullEntries))) _ = _
    rw [h]; rfl
  | matrix mm =>
    obtain ⟨m', h1, h2⟩ := C47_matrix_round_trip k kMapping mm.frame mm.ops mm.samples mm.same mm.count
    refine ⟨.matrix m', ?_, m', rfl, h2⟩
    show Res.bind (readMapping k (groupKids kMapping (mappingEntries matrixClass (matrixEntries mm.samples)))) _ = _
    rw [h1]; rfl

/-- What the theorems about files need, for a program that writes fields. -/
theorem ops_reading [DecidableEq α] (e : Elem α) (L : Lawful e) (hv : isVoxelType e.type = true) (z : Zlib)
    (hz : ZlibOk z) (zero dflt : α) (k : Rat) (ident : AnyMap → AnyMap → Bool) (cs : List (FileOp α))
    (hcs : ∀ c ∈ cs, GoodOp e z zero dflt c) (threads : Nat) (hT : 0 < threads) (sched : List Tree → List Nat)
    (hrun : ∀ path l, FileOp.layer l ∈ cs →
      readBody (readField e z zero dflt threads sched path) (groupKids l.attr (layerGroup (l.write e))) ≠ .running) :
    Plain (cs.map (FileOp.call e)) ∧ Readable ⟨ident, writeMap⟩ (readMap k) (cs.map (FileOp.call e)) ∧
      ∃ val : Name → Write AnyMap → Option (AnyField α × Meta),
        ReadsAs (readField e z zero dflt threads sched) val (cs.map (FileOp.call e)) ∧
        ∀ path l, FileOp.layer l ∈ cs →
          ∃ m, SameMeta (withOffset l.content l.info) m ∧
            val path (l.write e) = (contentValue e path (offsetIn l.info) l.content).map (fun f => (f, m)) := by
  have P : Plain (cs.map (FileOp.call e)) := by
    constructor
    · intro w hw
      obtain ⟨l, hl, rfl⟩ := write_mem e cs w hw
      have hg : GoodLayer e z zero dflt l := hcs _ hl
      exact hg.name.2
    · intro w hw
      obtain ⟨l, hl, rfl⟩ := write_mem e cs w hw
      have hg : GoodLayer e z zero dflt l := hcs _ hl
      exact hg.attr.2
  have R : Readable ⟨ident, writeMap⟩ (readMap k) (cs.map (FileOp.call e)) := by
    constructor
    · intro w _
      obtain ⟨x, hx, -⟩ := read_map_back k w.mapping
      exact .inl ⟨x, hx⟩
    · intro es hes
      obtain ⟨m, hm, rfl⟩ := global_mem e cs es hes
      have hg : GoodMeta m := hcs _ hm
      obtain ⟨m', h, -⟩ := C46_round_trip kGlobal m hg.plain hg.fits hg.distinct hg.noNul
      rw [h]; rfl
  let rf := readField e z zero dflt threads sched
  let val : Name → Write AnyMap → Option (AnyField α × Meta) := fun path w =>
    match readBody (rf path) (groupKids w.layer (layerGroup w)) with
    | .ok b => some b
    | _ => none
  have hval : ∀ path l, FileOp.layer l ∈ cs → ∃ m, SameMeta (withOffset l.content l.info) m ∧ val path (l.write e) =
      (contentValue e path (offsetIn l.info) l.content).map (fun f => (f, m)) ∧ readBody (rf path) (groupKids l.attr (layerGroup (l.write e))) =
        (match contentValue e path (offsetIn l.info) l.content with
        | some f => .ok (f, m)
        | none => .null) := by
    intro path l hl
    obtain ⟨m, hm, h⟩ := read_layer_body e L hv z hz zero dflt threads hT sched path l (hcs _ hl) (hrun path l hl)
    refine ⟨m, hm, ?_, h⟩
    show (match readBody (rf path) (groupKids l.attr (layerGroup (l.write e))) with
    | .ok b => some b
    | _ => none) = _
    rw [h]
    cases contentValue e path (offsetIn l.info) l.content <;> rfl
  have hv' : ReadsAs rf val (cs.map (FileOp.call e)) := by
    intro path w hw
    obtain ⟨l, hl, rfl⟩ := write_mem e cs w hw
    obtain ⟨m, -, h1, h2⟩ := hval path l hl
    rw [h1]
    refine Eq.trans h2 ?_
    cases contentValue e path (offsetIn l.info) l.content <;> rfl
  exact ⟨P, R, val, hv', fun path l hl => by
    obtain ⟨m, h1, h2, -⟩ := hval path l hl
    exact ⟨m, h1, h2⟩⟩

/-- All calls of a program that writes fields succeed. -/
theorem ops_written [DecidableEq α] (e : Elem α) (z : Zlib) (zero dflt : α) (ident : AnyMap → AnyMap → Bool)
    (hr : ∀ m, ident m m = true) (hsy : ∀ a b, ident a b = true → ident b a = true) (o₀ : Out AnyMap) (cs : List (FileOp α))
    (hcs : ∀ c ∈ cs, GoodOp e z zero dflt c) :
    ∃ o, Wrote ⟨ident, writeMap⟩ o₀ (cs.map (FileOp.call e)) (List.replicate cs.length .written) o ∧
      stored (cs.map (FileOp.call e)) (List.replicate cs.length .written) = (layersOf cs).map (Layer.write e) := by
  have hsess : Session (cs.map (FileOp.call e)) := by
    intro c hc
    obtain ⟨x, -, rfl⟩ := List.mem_map.1 hc
    cases x with
    | layer l => exact .inl ⟨_, rfl⟩
    | info m => exact .inr ⟨_, rfl⟩
  have S : Sound ⟨ident, writeMap⟩ (cs.map (FileOp.call e)) := by
    intro w hw
    obtain ⟨l, hl, rfl⟩ := write_mem e cs w hw
    have hg : GoodLayer e z zero dflt l := hcs _ hl
    refine ⟨hg.name.1, hg.attr.1, ?_⟩
    show (writeMap l.mapping).1 = true
    cases l.mapping <;> rfl
  obtain ⟨o, H, hst⟩ := C43_writes_succeed ⟨ident, writeMap⟩ hr hsy o₀ _ hsess S
  rw [List.length_map] at hst
  replace hst := hst.trans (Eq.trans (List.filterMap_congr (fun c _ => by cases c <;> rfl)) (writes_of_ops e cs))
  rw [List.length_map] at H
  exact ⟨o, H, hst⟩

theorem field_same [DecidableEq α] (e : Elem α) (L : Lawful e) (hv : isVoxelType e.type = true) (z : Zlib) (hz : ZlibOk z)
    (zero dflt : α) (l : Layer α) (hl : GoodLayer e z zero dflt l) (path : Name) (root : List Tree)
    (hroot : find .group path root = some (some (groupKids l.attr (layerGroup (l.write e))))) (x : AnyField α)
    (hx : contentValue e path (offsetIn l.info) l.content = some x) :
    SameField e z zero dflt root (offsetIn l.info) l.content x := by
  have hcont := hl.content
  obtain ⟨nm, at', mp, inf, c⟩ := l
  simp only at hcont hroot hx ⊢
  cases c with
  | dense f => simp only [contentValue, Option.some.injEq] at hx; exact hx.symm
  | sparse f es => simp only [contentValue, Option.some.injEq] at hx; exact hx.symm
  | mip cls levels =>
    simp only [contentValue, Option.some.injEq] at hx
    refine ⟨_, hx.symm, ?_⟩
    have := (mip_read e hv z zero dflt cls levels hcont at' path _ [] (layer_pre_mip mipClass (entries inf)) (by simp)).2.1
    rw [List.append_nil] at this
    exact lazy_same e L hv z hz zero dflt cls levels hcont path root _ hroot this
  | other β e' f => simp [contentValue] at hx
  | otherMip β e' cls levels => simp [contentValue] at hx
  | foreign cls es => simp [contentValue] at hx

/-- The path of a layer leads to it. -/
theorem at_path {o : Out M} {w : Write M} {k : Nat} (h : At o w k) :
    find .group (layerPath (intName w.part k) w.layer) (rootKids o.entries) = some (some (groupKids w.layer (layerGroup w))) := by
  obtain ⟨pk, lk, h1, h2, h3⟩ := h
  rw [layerPath, find_below _ _ _ _ _ h1, h2]
  rw [Entry.encode] at h3
  simp only [Tree.group.injEq] at h3
  rw [← h3]
  rfl

/-- **C70.** A file object writes any dense, sparse and MIP fields with any names, mappings and metadata, and metadata of the
file, in any order, and closes the file. Every call succeeds. Whatever the order in which the parts of these contents
were put into the archive, the bytes of the file open as an archive, and the tree of groups in it as a file; and reading
any partition and layer name gives exactly the fields that were written under it, each of them once: every voxel, the
windows, the metadata, the names, and a mapping that is identical to that of the field; the levels of MIP fields can be
loaded from the file when they are needed. Fields of other voxel types and of unknown classes are left out. -/
theorem C70_file_round_trip [DecidableEq α] (e : Elem α) (L : Lawful e) (hv : isVoxelType e.type = true) (z : Zlib)
    (hz : ZlibOk z) (zero dflt : α) (k : Rat) (ident : AnyMap → AnyMap → Bool) (hr : ∀ m, ident m m = true)
    (hsy : ∀ a b, ident a b = true → ident b a = true) (o₀ : Out AnyMap) (cs : List (FileOp α))
    (hcs : ∀ c ∈ cs, GoodOp e z zero dflt c) (threads : Nat) (hT : 0 < threads) (sched : List Tree → List Nat)
    (hrun : ∀ path l, FileOp.layer l ∈ cs →
      readBody (readField e z zero dflt threads sched path) (groupKids l.attr (layerGroup (l.write e))) ≠ .running) :
    ∃ o, Wrote ⟨ident, writeMap⟩ o₀ (cs.map (FileOp.call e)) (List.replicate cs.length .written) o ∧
      ∀ (ops : List Ogawa.Op) (n : Nat), treeOf (Doc.init.run ops) n 0 = .group (rootKids o.entries) →
        (∀ g, Ogawa.Op.addData g [] ∉ ops) → (Writer.init.run ops).closed = true →
        (Writer.init.run ops).file.length < 2 ^ 63 →
        ∃ root kids i, openArchive (Writer.init.run ops).file = .archive true root ∧
          explore (Writer.init.run ops).file false n root = some (.group kids) ∧ openFile (readMap k) kids = .ok i ∧
          SameMeta ((infosOf cs).headD Meta.empty) i.info ∧
          ∀ u l, u ≠ [] → l ≠ [] → l ≠ kMapping → ∃ (ls : List (Layer α)) (rs : List (Files.Loaded MappingIO.Loaded (AnyField α))),
            i.readLayers (readField e z zero dflt threads sched) u l = .ok rs ∧
            ls.Perm ((layersOf cs).filter fun x => x.name = u ∧ x.attr = l) ∧
            List.Forall₂ (SameLayer e z zero dflt kids ident cs) (ls.filter fun x => wellTyped x.content) rs := by
  obtain ⟨o, H, hst⟩ := ops_written e z zero dflt ident hr hsy o₀ cs hcs
  refine ⟨o, H, fun ops n htree hne hclosed hlen => ?_⟩
  obtain ⟨-, root, hroot, hex⟩ := C30_archive_reads_back ops hne hclosed hlen
  obtain ⟨P, R, val, hv', hval⟩ := ops_reading e L hv z hz zero dflt k ident cs hcs threads hT sched hrun
  obtain ⟨i, _, hi, hread⟩ := C43_read_back ⟨ident, writeMap⟩ o₀ o _ _ H P (readMap k) R _ val hv'
  have hinfo := C43_file_metadata ⟨ident, writeMap⟩ o₀ o _ _ H P (readMap k) R i hi
  refine ⟨root, rootKids o.entries, i, hroot, by rw [hex, htree], hi, ?_, ?_⟩
  · rw [globals_of_ops] at hinfo
    cases hf : infosOf cs with
    | nil =>
      rw [hf] at hinfo
      simp only [List.map_nil, List.head?_nil] at hinfo
      intro a b
      rw [hinfo]
      rfl
    | cons m ms =>
      rw [hf] at hinfo
      simp only [List.map_cons, List.head?_cons] at hinfo
      have hm : FileOp.info m ∈ cs := by
        have : m ∈ infosOf cs := by rw [hf]; simp
        obtain ⟨c, hc, h⟩ := List.mem_filterMap.1 this
        cases c with
        | layer l => simp at h
        | info m' => simp only [Option.some.injEq] at h; exact h ▸ hc
      have hg : GoodMeta m := hcs _ hm
      obtain ⟨m', h, hs⟩ := C46_round_trip kGlobal m hg.plain hg.fits hg.distinct hg.noNul
      rw [h] at hinfo
      cases hinfo
      exact hs
  · intro u l hu hl hlm
    obtain ⟨qs, h1, h2, h3, -, -⟩ := hread u l hu hl hlm
    rw [hst] at h2
    have e1 : (((layersOf cs).map (Layer.write e)).filter fun w => w.part = u ∧ w.layer = l) =
        ((layersOf cs).filter fun x => x.name = u ∧ x.attr = l).map (Layer.write e) := by
      rw [List.filter_map]; rfl
    rw [e1] at h2
    obtain ⟨ls, h4, h5⟩ := List.perm_comp_forall₂ (r := fun w (x : Layer α) => w = x.write e) h2
      (v := (layersOf cs).filter fun x => x.name = u ∧ x.attr = l) (by
        rw [List.forall₂_map_left_iff]
        exact List.forall₂_same.2 fun _ _ => rfl)
    refine ⟨ls, _, h1, h5, ?_⟩
    have hmem : ∀ x ∈ ls, FileOp.layer x ∈ cs ∧ x.name = u ∧ x.attr = l := by
      intro x hx
      have := h5.mem_iff.1 hx
      simp only [List.mem_filter, decide_eq_true_eq] at this
      refine ⟨?_, this.2⟩
      obtain ⟨c, hc, h⟩ := List.mem_filterMap.1 this.1
      cases c with
      | layer l' => simp only [Option.some.injEq] at h; exact h ▸ hc
      | info m' => simp at h
    clear h1 h2 h5
    rw [List.forall₂_map_left_iff] at h4
    induction h4 with
    | nil => exact .nil
    | @cons q x qs ls hqx hrest ih =>
      have ih' := ih (fun q hq => h3 q (by simp [hq])) (fun y hy => hmem y (by simp [hy]))
      obtain ⟨hx, hxu, hxl⟩ := hmem x (by simp)
      obtain ⟨m, hm, hv1⟩ := hval (layerPath (intName u q.1) l) x hx
      rw [List.filterMap_cons, List.filter_cons, hqx, hv1, ← value_isSome e (layerPath (intName u q.1) l) (offsetIn x.info)]
      cases hc : contentValue e (layerPath (intName u q.1) l) (offsetIn x.info) x.content with
      | none => simpa using ih'
      | some f =>
        simp only [Option.isSome_some, if_true, Option.map_some]
        have hat := at_path (h3 q (by simp)).2.1
        rw [hqx] at hat
        have hat' : find .group (layerPath (intName u q.1) l) (rootKids o.entries) =
            some (some (groupKids x.attr (layerGroup (x.write e)))) := by
          rw [← hxu, ← hxl]; exact hat
        refine .cons ⟨hxu.symm, hxl.symm, hm, field_same e L hv z hz zero dflt x (hcs _ hx) _ _ hat' f hc, ?_⟩ ih'
        obtain ⟨y, hy, hs⟩ := read_map_back k q.2.2
        obtain ⟨w, hw1, hw2, hw3⟩ := (h3 q (by simp)).2.2.2
        obtain ⟨l', hl', rfl⟩ := write_mem e cs w hw1
        have hw3' : l'.mapping = q.2.2 := hw3
        refine ⟨l', y, hl', hw2.trans hxu.symm, ?_, ?_, hw3' ▸ hs⟩
        · have := (h3 q (by simp)).1
          rw [hqx] at this
          rw [hw3']
          exact this
        · show mapBack ⟨ident, writeMap⟩ (readMap k) q.2.2 = some y
          unfold mapBack
          rw [hy]

/-- The contents put into the archive one after the other. -/
theorem written_tree (kids : List Tree) (h : noEmptyData kids = true)
    (hL : (Writer.init.run (writeTree kids)).file.length < 2 ^ 63) :
    treeOf (Doc.init.run (writeTree kids)) (levels kids) 0 = .group kids ∧
      (∀ g, Ogawa.Op.addData g [] ∉ writeTree kids) ∧ (Writer.init.run (writeTree kids)).closed = true := by
  have hne : ∀ g, Op.addData g [] ∉ writeTree kids := by
    intro g
    simp only [writeTree, List.mem_append, List.mem_cons, List.not_mem_nil, or_false, not_or]
    exact ⟨writeKids_noEmpty kids 0 1 h g, by simp, by simp⟩
  obtain ⟨root, h1, h2, -⟩ := C30_tree_round_trip kids h hL
  have hg := good_run _ hne good_init
  obtain ⟨root', h3, -, -⟩ := good_read hg hL
  have hc : (Writer.init.run (writeTree kids)).closed = true := by
    rw [h1] at h3
    simp only [Opened.archive.injEq] at h3
    exact h3.1.symm
  obtain ⟨-, root', h3, h4⟩ := C30_archive_reads_back _ hne hc hL
  rw [h1] at h3
  simp only [Opened.archive.injEq, true_and] at h3
  subst h3
  have := h4 (levels kids) false
  rw [h2 false] at this
  exact ⟨(Option.some.inj this).symm, hne, hc⟩

/-! ## A file -/

mutual
def depth : Entry → Nat
  | .group _ es => depthAll es + 1
  | _ => 1
def depthAll : List Entry → Nat
  | [] => 0
  | e :: es => max (depth e) (depthAll es)
end

mutual
theorem encodeTo_eq : ∀ (e : Entry) (n : Nat), depth e ≤ n → encodeTo n e = e.encode
  | .group nm es, n, h => by
    simp only [depth] at h
    obtain ⟨n, rfl⟩ : ∃ k, n = k + 1 := ⟨n - 1, by omega⟩
    rw [encodeTo, Entry.encode, encodeAll_eq es n (by omega)]
  | .attribute _ _ _, n, h => by
    simp only [depth] at h
    obtain ⟨n, rfl⟩ : ∃ k, n = k + 1 := ⟨n - 1, by omega⟩
    rw [encodeTo, Entry.encode]
  | .dataset _ _ _, n, h => by
    simp only [depth] at h
    obtain ⟨n, rfl⟩ : ∃ k, n = k + 1 := ⟨n - 1, by omega⟩
    rw [encodeTo, Entry.encode]
  | .compressed _ _ _, n, h => by
    simp only [depth] at h
    obtain ⟨n, rfl⟩ : ∃ k, n = k + 1 := ⟨n - 1, by omega⟩
    rw [encodeTo, Entry.encode]
theorem encodeAll_eq : ∀ (es : List Entry) (n : Nat), depthAll es ≤ n → es.map (encodeTo n) = es.map Entry.encode
  | [], _, _ => rfl
  | e :: es, n, h => by
    simp only [depthAll] at h
    rw [List.map_cons, List.map_cons, encodeTo_eq e n (by omega), encodeAll_eq es n (by omega)]
end

def matrixSample : MatrixMap where
  frame := Mapping.Frame.default
  ops := [.setLocalToWorldAt (5 / 2) (M44.setTranslation ⟨2, -2, 0⟩), .setLocalToWorldAt 1 (M44.setScale ⟨1, 2, 1 / 2⟩)]
  samples := sampleBits
  same := by decide +kernel
  count := by decide

/-- Mappings with the same samples. -/
def sameSamples : AnyMap → AnyMap → Bool
  | .null, .null => true
  | .matrix a, .matrix b => a.samples == b.samples
  | _, _ => false

/-- Single precision values as bit patterns. -/
def single32 : Elem (UInt8 × UInt8 × UInt8 × UInt8) :=
  ⟨.float32, fun a => [a.1, a.2.1, a.2.2.1, a.2.2.2],
    fun bs => (bs.headD 0, (bs.drop 1).headD 0, (bs.drop 2).headD 0, (bs.drop 3).headD 0)⟩

theorem single32_lawful : Lawful single32 := ⟨fun _ => rfl, fun _ => rfl⟩

/-- What one thread writes for the sparse field. -/
def rowEntries : List Entry :=
  match writeSparse half16 storeZlib 1 (List.replicate 66 0) false rowField with
  | .ok es => es
  | _ => []

theorem rowEntries_written : writeSparse half16 storeZlib 1 (List.replicate 66 0) false rowField = .ok rowEntries := by
  rcases C38_write_never_crashes half16 storeZlib rowField
    (Exists.elim (reachable_refines rowField_reachable) fun _ h => h.wf) 1 (by omega) (List.replicate 66 0) false with
    h | ⟨es, h⟩
  · exfalso
    unfold writeSparse at h
    have h1 : (flags rowField).any id = true := by decide
    have h2 := (any_finished _).mpr (C40_one_thread_ends (flags rowField) false 66 (by decide))
    simp only [h1, h2, if_true] at h
    revert h
    cases sparseEntries half16 storeZlib rowField _ <;> simp
  · rw [show rowEntries = es from ?_]
    · exact h
    · unfold rowEntries; rw [h]

/-- Metadata with a MIP offset. -/
def offsetMeta : Meta := Meta.empty.setVecInt kMipOffset ⟨-3, 1, 2⟩

/-- Partition "p" with layers "a" and "b", partition "q" with layers "a", "b" and "c": two mappings, dense, sparse and MIP
fields, two voxel types, metadata of the file and of a field. -/
def fileOps : List (FileOp (UInt8 × UInt8)) :=
  [.info sampleMeta,
   .layer ⟨[112], [97], .matrix matrixSample, sampleMeta, .dense (pairField (7, 0) (8, 1))⟩,
   .layer ⟨[112], [97], .null, Meta.empty, .sparse rowField rowEntries⟩,
   .layer ⟨[112], [98], .null, Meta.empty, .other _ single32 (pairField (1, 2, 3, 4) (5, 6, 7, 8))⟩,
   .layer ⟨[113], [97], .null, Meta.empty, .dense (pairField (9, 0) (9, 1))⟩,
   .layer ⟨[113], [98], .null, Meta.empty, .otherMip _ single32 denseClass (twoLevels (1, 2, 3, 4) (5, 6, 7, 8) (9, 9, 9, 9))⟩,
   .layer ⟨[113], [99], .null, offsetMeta, .mip denseClass (twoLevels (1, 0) (2, 0) (3, 0))⟩]

theorem empty_good : GoodMeta Meta.empty := by
  have h : ∀ n k v, lookup Meta.empty n k ≠ some v := by intro n k v; cases k <;> simp [lookup, Meta.empty, Metadata.Dict.get]
  refine ⟨fun n k v e => absurd e (h n k v), ?_, fun n k k' v v' e _ => absurd e (h n k v), fun n v e => absurd e (h n _ _)⟩
  constructor <;> simp [Meta.empty]

theorem sample_good : GoodMeta sampleMeta := by
  refine ⟨sampleMeta_plain.1, sampleMeta_plain.2.1, sampleMeta_plain.2.2, ?_⟩
  intro n v h
  simp only [lookup, Option.map_eq_some_iff, MVal.str.injEq] at h
  obtain ⟨w, hw, rfl⟩ := h
  have := get_mem _ _ _ hw
  have e : sampleMeta.str = [([110], [104, 105])] := by decide
  rw [e] at this
  simp only [List.mem_singleton, Prod.mk.injEq] at this
  rw [this.2]
  decide

theorem offset_good : GoodMeta offsetMeta := by
  have h : ∀ n k v, lookup offsetMeta n k = some v → n = kMipOffset ∧ k = .vecInt := by
    intro n k v h
    rw [offsetMeta, lookup_setVecInt] at h
    split at h
    · rename_i hnk; exact ⟨hnk.1.symm, hnk.2.symm⟩
    · cases k <;> simp [lookup, Meta.empty, Metadata.Dict.get] at h
  refine ⟨fun n k v hl => ?_, ?_, fun n k k' v v' h1 h2 => ?_, fun n v hl => ?_⟩
  · rw [(h n k v hl).1]
    exact ⟨by decide, by decide⟩
  · unfold Fits32 V32 I32
    decide
  · rw [(h n k v h1).1, (h n k v h1).2, (h n k' v' h2).2]
    exact ⟨by decide, rfl⟩
  · exact absurd (h n _ _ hl).2 (by simp)

theorem fileOps_good : ∀ c ∈ fileOps, GoodOp half16 storeZlib (0, 0) (0, 0) c := by
  have hp : (47 : UInt8) ∉ ([112] : Name) ∧ (0 : UInt8) ∉ ([112] : Name) := by decide
  have hq : (47 : UInt8) ∉ ([113] : Name) ∧ (0 : UInt8) ∉ ([113] : Name) := by decide
  have ha : (47 : UInt8) ∉ ([97] : Name) ∧ plainName [97] := ⟨by decide, by decide, by decide⟩
  have hb : (47 : UInt8) ∉ ([98] : Name) ∧ plainName [98] := ⟨by decide, by decide, by decide⟩
  have hc' : (47 : UInt8) ∉ ([99] : Name) ∧ plainName [99] := ⟨by decide, by decide, by decide⟩
  intro c hc
  simp only [fileOps, List.mem_cons, List.not_mem_nil, or_false] at hc
  rcases hc with rfl | rfl | rfl | rfl | rfl | rfl | rfl
  · exact sample_good
  · exact ⟨hp, ha, sample_good, pair_storable _ _ _⟩
  · refine ⟨hp, ha, empty_good, rowField_reachable, rowField_storable, 1, _, false, by omega, rowEntries_written, .inl ?_⟩
    exact exclusive_single _ _ _ _ (by simp [WState.init]) (by intro t ht; exact List.eq_of_mem_replicate ht)
  · exact ⟨hp, hb, empty_good, single32_lawful, rfl, by decide, (0, 0, 0, 0), pair_storable _ _ _⟩
  · exact ⟨hq, ha, empty_good, pair_storable _ _ _⟩
  · exact ⟨hq, hb, empty_good, rfl, by decide, inferInstance, storeZlib, (0, 0, 0, 0), (0, 0, 0, 0), twoLevels_good _ _ _ _ _ _⟩
  · exact ⟨hq, hc', offset_good, twoLevels_good _ _ _ _ _ _⟩

theorem rowEntries_names : ∀ x ∈ rowEntries, nameOf x ∈ formatNames :=
  written_sparse_names half16 storeZlib rowField 1 _ false rowEntries rowEntries_written

seal rowEntries in
/-- Reading threads that end: the hypotheses of `C70_file_round_trip` are met by these calls. -/
theorem fileOps_read : ∃ sched : List Tree → List Nat, ∀ path l, FileOp.layer l ∈ fileOps →
    readBody (readField half16 storeZlib (0, 0) (0, 0) 3 sched path) (groupKids l.attr (layerGroup (l.write half16))) ≠ .running := by
  obtain ⟨rest, hr⟩ := (C38_sparse_round_trip half16 half16_lawful rfl storeZlib storeZlib_ok (0, 0) (0, 0) [97] _ []
      (layer_pre_foreign sparseClass (entries Meta.empty)) (by simp) rowField rowField_reachable rowField_storable 1 (by omega) _
      false (exclusive_single _ _ _ _ (by simp [WState.init]) (by intro t ht; exact List.eq_of_mem_replicate ht)) rowEntries
      rowEntries_written 3 (by omega) []).2
  refine ⟨fun _ => rest, fun path l hl h => ?_⟩
  have hg : GoodLayer half16 storeZlib (0, 0) (0, 0) l := fileOps_good _ hl
  by_cases hs : ∃ f es, l.content = .sparse f es
  · simp only [fileOps, List.mem_cons, List.not_mem_nil, or_false, FileOp.layer.injEq, reduceCtorEq, false_or] at hl
    have hl' : l = ⟨[112], [97], .null, Meta.empty, .sparse rowField rowEntries⟩ := by
      obtain ⟨f, es, hs⟩ := hs
      rcases hl with rfl | rfl | rfl | rfl | rfl | rfl
      · simp at hs
      · rfl
      all_goals simp at hs
    subst hl'
    have hb := read_body_of (F := AnyField (UInt8 × UInt8))
      (Layer.write half16 ⟨[112], [97], .null, Meta.empty, .sparse rowField rowEntries⟩) sparseClass rowEntries rfl (by decide)
      (fun x hx => (formatNames_ok _ (rowEntries_names x hx)).2)
      (readField half16 storeZlib (0, 0) (0, 0) 3 (fun _ => rest) path) Meta.empty Meta.empty
      (not_mip half16 storeZlib (0, 0) (0, 0) 3 (fun _ => rest) path _ _ (by decide)) (by decide +kernel)
    rw [List.append_nil] at hr
    have h' := hb.symm.trans h
    unfold readField at h'
    rw [if_neg (by decide), if_pos rfl] at h'
    have e2 : readSparse half16 storeZlib (0, 0) (0, 0) 3 rest (groupKids (Layer.write half16
      ⟨[112], [97], .null, Meta.empty, .sparse rowField rowEntries⟩).layer (layerGroup (Layer.write half16
      ⟨[112], [97], .null, Meta.empty, .sparse rowField rowEntries⟩))) = .ok rowField := hr
    rw [e2] at h'
    simp [Res.bind] at h'
  · obtain ⟨m, -, hm⟩ := read_dense_body half16 half16_lawful rfl storeZlib (0, 0) (0, 0) 3 (fun _ => rest) path l hg
      (fun f es e => hs ⟨f, es, e⟩)
    rw [hm] at h
    revert h
    cases contentValue half16 path (offsetIn l.info) l.content <;> simp

/-- The file after the calls. -/
def fileOut : Out AnyMap :=
  ((Out.run ⟨sameSamples, writeMap⟩ (Out.new.create true) (fileOps.map (FileOp.call half16))).map (·.2)).getD Out.new

def fileTree : List Tree := blob rootName ++ [.data (le32 Kind.group.code)] ++ fileOut.entries.map (encodeTo 9)

theorem fileTree_eq : rootKids fileOut.entries = fileTree := by
  rw [fileTree, encodeAll_eq _ _ (by decide +kernel)]
  rfl

/-- `writeKids` by plain recursion. -/
def writeKidsTo : Nat → List Tree → Nat → Nat → Option (List Ogawa.Op × Nat)
  | 0, _, _, _ => none
  | _ + 1, [], _, next => some ([], next)
  | n + 1, .data bs :: ts, g, next => (writeKidsTo n ts g next).map fun r => (.addData g bs :: r.1, r.2)
  | n + 1, .group ks :: ts, g, next =>
    (writeKidsTo n ks next (next + 1)).bind fun r1 => (writeKidsTo n ts g r1.2).map fun r2 =>
      (.addGroup g :: (r1.1 ++ .freeze next :: r2.1), r2.2)

theorem writeKidsTo_eq : ∀ (n : Nat) (ts : List Tree) (g next : Nat) (r : List Ogawa.Op × Nat),
    writeKidsTo n ts g next = some r → writeKids ts g next = r
  | 0, _, _, _, _, h => by simp [writeKidsTo] at h
  | _ + 1, [], _, next, r, h => by
    simp only [writeKidsTo, Option.some.injEq] at h
    rw [writeKids, h]
  | n + 1, .data bs :: ts, g, next, r, h => by
    simp only [writeKidsTo, Option.map_eq_some_iff] at h
    obtain ⟨r1, h1, rfl⟩ := h
    rw [writeKids, writeKidsTo_eq n _ _ _ _ h1]
  | n + 1, .group ks :: ts, g, next, r, h => by
    simp only [writeKidsTo, Option.bind_eq_some_iff, Option.map_eq_some_iff] at h
    obtain ⟨r1, h1, r2, h2, rfl⟩ := h
    rw [writeKids, writeKidsTo_eq n _ _ _ _ h1, writeKidsTo_eq n _ _ _ _ h2]

/-- `noEmptyData` by plain recursion. -/
def noEmptyTo : Nat → List Tree → Bool
  | 0, _ => false
  | _ + 1, [] => true
  | n + 1, .data bs :: ts => !bs.isEmpty && noEmptyTo n ts
  | n + 1, .group ks :: ts => noEmptyTo n ks && noEmptyTo n ts

theorem noEmptyTo_eq : ∀ (n : Nat) (ts : List Tree), noEmptyTo n ts = true → noEmptyData ts = true
  | 0, _, h => by simp [noEmptyTo] at h
  | _ + 1, [], _ => by simp [noEmptyData]
  | n + 1, .data bs :: ts, h => by
    simp only [noEmptyTo, Bool.and_eq_true] at h
    simp [noEmptyData, h.1, noEmptyTo_eq n ts h.2]
  | n + 1, .group ks :: ts, h => by
    simp only [noEmptyTo, Bool.and_eq_true] at h
    simp [noEmptyData, noEmptyTo_eq n ks h.1, noEmptyTo_eq n ts h.2]

def fileKids : List Ogawa.Op := ((writeKidsTo 1000 fileTree 0 1).map (·.1)).getD []

theorem fileKids_eq : writeTree fileTree = fileKids ++ [.freeze 0, .close] := by
  have h : (writeKidsTo 1000 fileTree 0 1).isSome = true := by decide +kernel
  obtain ⟨r, hr⟩ := Option.isSome_iff_exists.1 h
  rw [writeTree, writeKidsTo_eq _ _ _ _ _ hr, fileKids, hr]
  rfl

theorem fileTree_small : noEmptyData fileTree = true ∧ (Writer.init.run (writeTree fileTree)).file.length < 2 ^ 63 := by
  constructor
  · exact noEmptyTo_eq 1000 _ (by decide +kernel)
  · refine Nat.lt_of_le_of_lt (archive_small _) ?_
    rw [fileKids_eq]
    decide +kernel

/-- All of it for these calls: the two layers "a" of partition "p" are read from the bytes of the file, and the MIP field,
whose levels can be loaded. -/
example : ∃ sched root kids i rs, openArchive (Writer.init.run (writeTree fileTree)).file = .archive true root ∧
    explore (Writer.init.run (writeTree fileTree)).file false (levels fileTree) root = some (.group kids) ∧
    openFile (readMap 1) kids = .ok i ∧
    i.readLayers (readField half16 storeZlib (0, 0) (0, 0) 3 sched) [112] [97] = .ok rs ∧ rs.length = 2 ∧
    ∃ r m, i.readLayers (readField half16 storeZlib (0, 0) (0, 0) 3 sched) [113] [99] = .ok [r] ∧ r.data = .mip m ⟨-3, 1, 2⟩ ∧
      LoadsAs half16 storeZlib (0, 0) (0, 0) 2 kids m 0 (.dense (pairField (1, 0) (2, 0))) ∧
      LoadsAs half16 storeZlib (0, 0) (0, 0) 2 kids m 1 (.dense (oneField (3, 0))) := by
  obtain ⟨sched, hs⟩ := fileOps_read
  have hid : ∀ m, sameSamples m m = true := by intro m; cases m <;> simp [sameSamples]
  have hsy : ∀ a b, sameSamples a b = true → sameSamples b a = true := by
    intro a b h
    cases a <;> cases b <;> simp_all [sameSamples]
  obtain ⟨o, H, h⟩ := C70_file_round_trip half16 half16_lawful rfl storeZlib storeZlib_ok (0, 0) (0, 0) 1 sameSamples hid hsy
    Out.new fileOps fileOps_good 3 (by omega) sched hs
  have ho : o = fileOut := by
    rw [fileOut, H.2]
    rfl
  subst ho
  rw [fileTree_eq] at h
  obtain ⟨h1, h2, h3⟩ := written_tree fileTree fileTree_small.1 fileTree_small.2
  obtain ⟨root, kids, i, a1, a2, a3, -, a4⟩ := h _ _ h1 h2 h3 fileTree_small.2
  obtain ⟨ls, rs, b1, b2, b3⟩ := a4 [112] [97] (by decide) (by decide) (by decide)
  obtain ⟨ls', rs', c1, c2, c3⟩ := a4 [113] [99] (by decide) (by decide) (by decide)
  refine ⟨sched, root, kids, i, rs, a1, a2, a3, b1, ?_, ?_⟩
  · rw [← b3.length_eq, (b2.filter _).length_eq]
    rfl
  · have e : (layersOf fileOps).filter (fun x => x.name = [113] ∧ x.attr = [99]) =
        [⟨[113], [99], .null, offsetMeta, .mip denseClass (twoLevels (1, 0) (2, 0) (3, 0))⟩] := rfl
    rw [e, List.perm_singleton] at c2
    subst c2
    cases c3 with
    | @cons _ r _ rs' hr hrest =>
      cases hrest
      obtain ⟨m, hm, hs⟩ := hr.field
      exact ⟨r, m, c1, hm, hs.level 2 (by omega) 0 _ rfl, hs.level 2 (by omega) 1 _ rfl⟩

end F3D.Props
