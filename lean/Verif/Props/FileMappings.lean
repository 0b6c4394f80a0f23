import Verif.Props.Identical
import Verif.Props.WholeFile

/-!
# C70 and C71: files written with the comparison of mappings of the library
-/

namespace F3D.Props
open Files Og Ogawa FieldIO LayerIO MappingIO _root_.F3D.Identical
open MipIO (denseClass sparseClass mipClass)
open Mapping (Matrix Frame ofExtents_ok Proper)
open Metadata (Meta)

variable {α : Type}

theorem mapOf_made (m : AnyMap) : Made 0 (mapOf m) := by
  cases m with
  | null => exact .null
  | matrix m => exact .matrix _ _

theorem fileIdent_iff (R : Reals) (a b : AnyMap) : fileIdent R a b = true ↔ isIdentical R 0 (mapOf a) (mapOf b) = some true := by
  obtain ⟨r, h, -⟩ := isIdentical_spec R 0 0 (mapOf a) (mapOf b) (mapOf_made a) (mapOf_made b)
  unfold fileIdent
  rw [h]; simp

/-- **C71, files.** The comparison that decides about partitions is an equivalence, as C43 and C70 need it. -/
theorem C71_file_comparison (R : Reals) : Equivalence ⟨fileIdent R, writeMap⟩ := by
  obtain ⟨h1, h2, h3⟩ := C71_equivalence R 0
  refine ⟨fun m => ?_, fun a b h => ?_, fun a b c h h' => ?_⟩
  · exact (fileIdent_iff R m m).2 (h1 0 _ (le_refl 0) (mapOf_made m))
  · exact (fileIdent_iff R b a).2 (h2 _ _ (mapOf_made a) (mapOf_made b) ((fileIdent_iff R a b).1 h))
  · exact (fileIdent_iff R a c).2 (h3 _ _ _ (mapOf_made a) (mapOf_made b) (mapOf_made c) ((fileIdent_iff R a b).1 h)
      ((fileIdent_iff R b c).1 h'))

/-- No two layers with one name have matrices, at the same time, that differ in nothing but shear and last column. -/
def NoShearClash (R : Reals) (cs : List (FileOp α)) : Prop :=
  ∀ l l', FileOp.layer l ∈ cs → FileOp.layer l' ∈ cs → l.name = l'.name → ∀ m m', l.mapping = .matrix m → l'.mapping = .matrix m' →
    ∀ x ∈ (Matrix.run m.frame m.ops).lsToWsCurve, ∀ y ∈ (Matrix.run m'.frame m'.ops).lsToWsCurve, x.1 = y.1 →
      SameParts R x.2 y.2 → x.2 = y.2

/-- A field that was read is the one that was written, with its own mapping. -/
structure OwnLayer (e : Elem α) (z : Zlib) (zero dflt : α) (root : List Tree) (l : Layer α) (r : Files.Loaded MappingIO.Loaded (AnyField α)) : Prop where
  name : r.name = l.name
  attr : r.attr = l.attr
  info : SameMeta (withOffset l.content l.info) r.info
  field : SameField e z zero dflt root (offsetIn l.info) l.content r.data
  mapping : ∃ x, r.mapping = some x ∧ SameMap l.mapping x

theorem own_of_same (e : Elem α) (z : Zlib) (zero dflt : α) (root : List Tree) (R : Reals) (cs : List (FileOp α)) (hn : NoShearClash R cs) (l : Layer α) (hl : FileOp.layer l ∈ cs)
    (r : Files.Loaded MappingIO.Loaded (AnyField α)) (h : SameLayer e z zero dflt root (fileIdent R) cs l r) :
    OwnLayer e z zero dflt root l r := by
  refine ⟨h.name, h.attr, h.info, h.field, ?_⟩
  obtain ⟨l', x, hl', hname, hid, hx, hm⟩ := h.mapping
  refine ⟨x, hx, ?_⟩
  rw [fileIdent_iff] at hid
  cases em : l.mapping with
  | null =>
    cases em' : l'.mapping with
    | null => rw [em'] at hm; exact hm
    | matrix m' => rw [em, em'] at hid; simp [mapOf, isIdentical] at hid
  | matrix m =>
    cases em' : l'.mapping with
    | null => rw [em, em'] at hid; simp [mapOf, isIdentical] at hid
    | matrix m' =>
      rw [em, em'] at hid
      obtain ⟨h1, -⟩ := (C71_identical_transforms R m.frame m'.frame m.ops m'.ops).1 hid
        (hn l l' hl hl' hname.symm m m' em em')
      rw [em'] at hm
      obtain ⟨y, hy, h2⟩ := hm
      refine ⟨y, hy, h2.1.trans h1.1, fun p t => ⟨(h2.2.1 p t).1.trans (h1.2.1 p t).1, (h2.2.1 p t).2.trans (h1.2.1 p t).2⟩,
        fun p => ⟨(h2.2.2.1 p).1.trans (h1.2.2.1 p).1, (h2.2.2.1 p).2.trans (h1.2.2.1 p).2⟩, fun b => (h2.2.2.2 b).trans (h1.2.2.2 b)⟩

/-- **C70, own mappings.** With the comparison of the library, if no two layers with one name have mappings that differ in
nothing but shear: what is read from the bytes of the file is every field that was written with its own mapping. -/
theorem C70_file_round_trip_own_mappings [DecidableEq α] (R : Reals) (e : Elem α) (L : Lawful e)
    (hv : isVoxelType e.type = true) (z : Zlib) (hz : ZlibOk z) (zero dflt : α) (k : Rat) (o₀ : Out AnyMap)
    (cs : List (FileOp α)) (hcs : ∀ c ∈ cs, GoodOp e z zero dflt c) (hn : NoShearClash R cs) (threads : Nat)
    (hT : 0 < threads) (sched : List Tree → List Nat)
    (hrun : ∀ path l, FileOp.layer l ∈ cs →
      readBody (readField e z zero dflt threads sched path) (groupKids l.attr (layerGroup (l.write e))) ≠ .running) :
    ∃ o, Wrote ⟨fileIdent R, writeMap⟩ o₀ (cs.map (FileOp.call e)) (List.replicate cs.length .written) o ∧
      ∀ (ops : List Ogawa.Op) (n : Nat), treeOf (Doc.init.run ops) n 0 = .group (rootKids o.entries) →
        (∀ g, Ogawa.Op.addData g [] ∉ ops) → (Writer.init.run ops).closed = true →
        (Writer.init.run ops).file.length < 2 ^ 63 →
        ∃ root kids i, openArchive (Writer.init.run ops).file = .archive true root ∧
          explore (Writer.init.run ops).file false n root = some (.group kids) ∧ openFile (readMap k) kids = .ok i ∧
          SameMeta ((infosOf cs).headD Meta.empty) i.info ∧
          ∀ u l, u ≠ [] → l ≠ [] → l ≠ kMapping → ∃ (ls : List (Layer α)) (rs : List (Files.Loaded MappingIO.Loaded (AnyField α))),
            i.readLayers (readField e z zero dflt threads sched) u l = .ok rs ∧
            ls.Perm ((layersOf cs).filter fun x => x.name = u ∧ x.attr = l) ∧
            List.Forall₂ (OwnLayer e z zero dflt kids) (ls.filter fun x => wellTyped x.content) rs := by
  have E := C71_file_comparison R
  obtain ⟨o, H, hread⟩ := C70_file_round_trip e L hv z hz zero dflt k (fileIdent R) E.refl E.symm o₀ cs hcs threads hT sched hrun
  refine ⟨o, H, fun ops n h1 h2 h3 h4 => ?_⟩
  obtain ⟨root, kids, i, g1, g2, g3, g4, g5⟩ := hread ops n h1 h2 h3 h4
  refine ⟨root, kids, i, g1, g2, g3, g4, fun u l hu hl hm => ?_⟩
  obtain ⟨ls, rs, k1, k2, k3⟩ := g5 u l hu hl hm
  refine ⟨ls, rs, k1, k2, ?_⟩
  have hmem : ∀ x ∈ ls.filter (fun x => wellTyped x.content), FileOp.layer x ∈ cs := by
    intro x hx
    have := (List.mem_filter.1 (k2.mem_iff.1 (List.mem_filter.1 hx).1)).1
    obtain ⟨c, hc, h⟩ := List.mem_filterMap.1 this
    cases c with
    | layer l' => simp only [Option.some.injEq] at h; exact h ▸ hc
    | info m' => simp at h
  clear k1
  revert k3 hmem
  generalize ls.filter (fun x => wellTyped x.content) = xs
  intro k3 hmem
  induction k3 with
  | nil => exact .nil
  | @cons x r xs rs hx _ ih =>
    exact .cons (own_of_same e z zero dflt kids R cs hn x (hmem x (by simp)) r hx) (ih fun y hy => hmem y (by simp [hy]))

/-- **C71, shear in files.** Two fields are written to a file under one name; their extents begin at zero and their
mappings differ by a shear alone. Then both are read with one and the same mapping, so at least one of them comes back with
a mapping that is not the one it was written with. -/
theorem C71_shear_lost_in_files [DecidableEq α] (R : Reals) (hR : ExactRoots R) (e : Elem α) (L : Lawful e)
    (hv : isVoxelType e.type = true) (z : Zlib) (hz : ZlibOk z) (zero dflt : α) (k : Rat) (o₀ : Out AnyMap)
    (f : Frame) (hf : f.Ok) (h0 : f.origin.y = 0) (h h' : Rat) (hne : h ≠ h') (t : V3q) (m m' : MatrixMap)
    (hm : m.frame = f ∧ m.ops = [.setLocalToWorld (shearBy h t)]) (hm' : m'.frame = f ∧ m'.ops = [.setLocalToWorld (shearBy h' t)])
    (a b : Layer α) (ha : GoodLayer e z zero dflt a) (hb : GoodLayer e z zero dflt b) (hname : a.name = b.name)
    (hname' : a.name ≠ []) (hattr : a.attr ≠ b.attr) (hne' : a.attr ≠ [] ∧ b.attr ≠ []) (hmn : a.attr ≠ kMapping ∧ b.attr ≠ kMapping)
    (hma : a.mapping = .matrix m) (hmb : b.mapping = .matrix m')
    (hca : wellTyped a.content) (hcb : wellTyped b.content)
    (threads : Nat) (hT : 0 < threads) (sched : List Tree → List Nat)
    (hrun : ∀ path l, FileOp.layer l ∈ [FileOp.layer a, .layer b] →
      readBody (readField e z zero dflt threads sched path) (groupKids l.attr (layerGroup (l.write e))) ≠ .running) :
    ∃ o i r r', Wrote ⟨fileIdent R, writeMap⟩ o₀ ([FileOp.layer a, .layer b].map (FileOp.call e)) [.written, .written] o ∧
      openFile (readMap k) (rootKids o.entries) = .ok i ∧
      i.readLayers (readField e z zero dflt threads sched) a.name a.attr = .ok [r] ∧
      i.readLayers (readField e z zero dflt threads sched) b.name b.attr = .ok [r'] ∧
      r.mapping = r'.mapping ∧ ¬ (OwnLayer e z zero dflt (rootKids o.entries) a r ∧
        OwnLayer e z zero dflt (rootKids o.entries) b r') := by
  have E := C71_file_comparison R
  have hcs : ∀ c ∈ [FileOp.layer a, .layer b], GoodOp e z zero dflt c := by
    intro c hc
    simp only [List.mem_cons, List.not_mem_nil, or_false] at hc
    rcases hc with rfl | rfl
    · exact ha
    · exact hb
  obtain ⟨o, H, hst⟩ := ops_written e z zero dflt (fileIdent R) E.refl E.symm o₀ _ hcs
  obtain ⟨P, RD, val, hv', hval⟩ := ops_reading e L hv z hz zero dflt k (fileIdent R) _ hcs threads hT sched hrun
  have hst' : stored ([FileOp.layer a, .layer b].map (FileOp.call e)) (List.replicate [FileOp.layer a, .layer b].length .written) =
    [a.write e, b.write e] := hst
  have hd : (stored ([FileOp.layer a, .layer b].map (FileOp.call e))
      (List.replicate [FileOp.layer a, .layer b].length .written)).Pairwise
      fun x y => ¬ (x.part = y.part ∧ x.layer = y.layer ∧ fileIdent R x.mapping y.mapping = true) := by
    rw [hst']
    simp only [List.pairwise_cons, List.mem_singleton, forall_eq, List.not_mem_nil, false_imp_iff, implies_true, List.Pairwise.nil,
      and_true, and_self]
    intro x
    exact hattr x.2.1
  obtain ⟨i, qs, hi, hread, hsame⟩ := C43_identical_mappings_shared ⟨fileIdent R, writeMap⟩ E o₀ o _ _ H P (readMap k) RD _ val hv' hd
  obtain ⟨a1, a2⟩ := hread a.name a.attr hname' hne'.1 hmn.1
  obtain ⟨b1, b2⟩ := hread b.name b.attr (hname ▸ hname') hne'.2 hmn.2
  rw [hst'] at a2 b2
  have ea : [a.write e, b.write e].filter (fun w => decide (w.part = a.name ∧ w.layer = a.attr)) = [a.write e] := by
    have h1 : (a.write e).part = a.name ∧ (a.write e).layer = a.attr := ⟨rfl, rfl⟩
    have h2 : ¬ ((b.write e).part = a.name ∧ (b.write e).layer = a.attr) := fun x => hattr x.2.symm
    simp [h1, h2]
  have eb : [a.write e, b.write e].filter (fun w => decide (w.part = b.name ∧ w.layer = b.attr)) = [b.write e] := by
    have h1 : (b.write e).part = b.name ∧ (b.write e).layer = b.attr := ⟨rfl, rfl⟩
    have h2 : ¬ ((a.write e).part = b.name ∧ (a.write e).layer = b.attr) := fun x => hattr x.2
    simp [h1, h2]
  rw [ea] at a2
  rw [eb] at b2
  obtain ⟨qa, hqa, hqa'⟩ := List.map_eq_singleton_iff.1 (List.perm_singleton.1 a2)
  obtain ⟨qb, hqb, hqb'⟩ := List.map_eq_singleton_iff.1 (List.perm_singleton.1 b2)
  obtain ⟨ma, hma1, hma2⟩ := hval (layerPath (intName a.name qa.1) a.attr) a (by simp)
  obtain ⟨mb, hmb1, hmb2⟩ := hval (layerPath (intName b.name qb.1) b.attr) b (by simp)
  rw [← value_isSome e (layerPath (intName a.name qa.1) a.attr) (offsetIn a.info)] at hca
  rw [← value_isSome e (layerPath (intName b.name qb.1) b.attr) (offsetIn b.info)] at hcb
  obtain ⟨fa, hfa⟩ := Option.isSome_iff_exists.1 hca
  obtain ⟨fb, hfb⟩ := Option.isSome_iff_exists.1 hcb
  rw [hqa] at a1
  rw [hqb] at b1
  simp only [List.filterMap_cons, List.filterMap_nil, hqa', hma2, hfa, Option.map_some] at a1
  simp only [List.filterMap_cons, List.filterMap_nil, hqb', hmb2, hfb, Option.map_some] at b1
  have hid : fileIdent R a.mapping b.mapping = true := by
    rw [fileIdent_iff, hma, hmb]
    simp only [mapOf, hm.1, hm.2, hm'.1, hm'.2]
    exact (C71_shear_ignored R hR 0 (le_refl 0) f hf h0 h h' hne t).1
  have hq : qa.2.2 = qb.2.2 := by
    refine hsame a.name a.attr b.attr hname' hne'.1 hmn.1 hne'.2 hmn.2 qa (by rw [hqa]; simp) qb ?_ ?_
    · rw [hname, hqb]; simp
    · rw [hqa', hqb']; exact hid
  refine ⟨o, i, _, _, H, hi, a1, b1, ?_, ?_⟩
  · simp only [hq]
  · rintro ⟨ra, rb⟩
    obtain ⟨x, hx, sx⟩ := ra.mapping
    obtain ⟨y, hy, sy⟩ := rb.mapping
    simp only at hx hy
    rw [hq, hy] at hx
    simp only [Option.some.injEq] at hx
    subst hx
    rw [hma] at sx
    rw [hmb] at sy
    obtain ⟨x1, rfl, s1⟩ := sx
    obtain ⟨y1, e1, s2⟩ := sy
    simp only [MappingIO.Loaded.matrix.injEq] at e1
    subst e1
    have k1 := (s1.2.1 ⟨0, 1, 0⟩ 0).1
    have k2 := (s2.2.1 ⟨0, 1, 0⟩ 0).1
    rw [hm.1, hm.2] at k1
    rw [hm'.1, hm'.2] at k2
    exact (C71_shear_ignored R hR 0 (le_refl 0) f hf h0 h h' hne t).2 0 (k1.symm.trans k2)

/-! ## A concrete case -/

def originBox : Box3i := ⟨⟨0, 0, 0⟩, ⟨1, 0, 0⟩⟩

/-- The identity, and a shear by 2. -/
def plainMap : MatrixMap where
  frame := Frame.ofExtents originBox
  ops := [.setLocalToWorld (shearBy 0 ⟨0, 0, 0⟩)]
  samples := [(0, ⟨oneRow, ⟨0, 0x3FF0000000000000, 0, 0⟩, ⟨0, 0, 0x3FF0000000000000, 0⟩, ⟨0, 0, 0, 0x3FF0000000000000⟩⟩)]
  same := by decide +kernel
  count := by decide

def shearedMap : MatrixMap where
  frame := Frame.ofExtents originBox
  ops := [.setLocalToWorld (shearBy 2 ⟨0, 0, 0⟩)]
  samples := [(0, ⟨oneRow, ⟨0x4000000000000000, 0x3FF0000000000000, 0, 0⟩, ⟨0, 0, 0x3FF0000000000000, 0⟩,
    ⟨0, 0, 0, 0x3FF0000000000000⟩⟩)]
  same := by decide +kernel
  count := by decide

def plainLayer : Layer (UInt8 × UInt8) := ⟨[112], [97], .matrix plainMap, Meta.empty, .dense (pairField (7, 0) (8, 1))⟩
def shearedLayer : Layer (UInt8 × UInt8) := ⟨[112], [98], .matrix shearedMap, Meta.empty, .dense (pairField (9, 0) (9, 1))⟩

theorem plainLayer_good : GoodLayer half16 storeZlib (0, 0) (0, 0) plainLayer :=
  ⟨by decide, ⟨by decide, by decide, by decide⟩, empty_good, pair_storable _ _ _⟩
theorem shearedLayer_good : GoodLayer half16 storeZlib (0, 0) (0, 0) shearedLayer :=
  ⟨by decide, ⟨by decide, by decide, by decide⟩, empty_good, pair_storable _ _ _⟩

theorem dense_not_running (l : Layer (UInt8 × UInt8)) (hl : GoodLayer half16 storeZlib (0, 0) (0, 0) l) (f : Dense (UInt8 × UInt8))
    (hf : l.content = .dense f) (sched : List Tree → List Nat) (path : Name) :
    readBody (readField half16 storeZlib (0, 0) (0, 0) 1 sched path) (groupKids l.attr (layerGroup (l.write half16))) ≠ .running := by
  obtain ⟨m, -, h⟩ := read_dense_body half16 half16_lawful rfl storeZlib (0, 0) (0, 0) 1 sched path l hl (by intro f es; rw [hf]; simp)
  rw [h, hf]
  simp [contentValue]

example (sched : List Tree → List Nat) : ∃ o i r r', Wrote ⟨fileIdent someReals, writeMap⟩ Out.new
      ([FileOp.layer plainLayer, .layer shearedLayer].map (FileOp.call half16)) [.written, .written] o ∧
      openFile (readMap 2) (rootKids o.entries) = .ok i ∧
      i.readLayers (readField half16 storeZlib (0, 0) (0, 0) 1 sched) [112] [97] = .ok [r] ∧
      i.readLayers (readField half16 storeZlib (0, 0) (0, 0) 1 sched) [112] [98] = .ok [r'] ∧
      r.mapping = r'.mapping ∧ ¬ (OwnLayer half16 storeZlib (0, 0) (0, 0) (rootKids o.entries) plainLayer r ∧
        OwnLayer half16 storeZlib (0, 0) (0, 0) (rootKids o.entries) shearedLayer r') := by
  refine C71_shear_lost_in_files someReals someReals_exact half16 half16_lawful rfl storeZlib storeZlib_ok (0, 0) (0, 0) 2 Out.new
    (Frame.ofExtents originBox) (ofExtents_ok _ (by unfold Proper; decide)) (by decide +kernel) 0 2 (by decide +kernel) ⟨0, 0, 0⟩
    plainMap shearedMap ⟨rfl, rfl⟩ ⟨rfl, rfl⟩ plainLayer shearedLayer plainLayer_good shearedLayer_good rfl (by decide) (by decide)
    ⟨by decide, by decide⟩ ⟨by decide, by decide⟩ rfl rfl rfl rfl 1 (by omega) sched ?_
  intro path l hl
  simp only [List.mem_cons, FileOp.layer.injEq, List.not_mem_nil, or_false] at hl
  rcases hl with rfl | rfl
  · exact dense_not_running _ plainLayer_good _ rfl sched path
  · exact dense_not_running _ shearedLayer_good _ rfl sched path

/-- The layers of the example of C70 do not clash. -/
example : NoShearClash someReals fileOps := by
  intro l l' hl hl' _ m m' e e' x hx y hy ht hs
  have key : ∀ l : Layer (UInt8 × UInt8), FileOp.layer l ∈ fileOps → ∀ m, l.mapping = .matrix m → m = matrixSample := by
    intro l hl m hm
    simp only [fileOps, List.mem_cons, List.not_mem_nil, or_false, reduceCtorEq, FileOp.layer.injEq, false_or] at hl
    rcases hl with rfl | rfl | rfl | rfl | rfl | rfl
    · simp only [AnyMap.matrix.injEq] at hm; exact hm.symm
    all_goals simp at hm
  rw [key l hl m e] at hx
  rw [key l' hl' m' e'] at hy
  have hc : (Matrix.run matrixSample.frame matrixSample.ops).lsToWsCurve =
    [(1, M44.setScale ⟨1, 2, 1 / 2⟩), (5 / 2, M44.setTranslation ⟨2, -2, 0⟩)] := by decide +kernel
  rw [hc] at hx hy
  simp only [List.mem_cons, List.not_mem_nil, or_false] at hx hy
  rcases hx with rfl | rfl <;> rcases hy with rfl | rfl
  · rfl
  · exact absurd ht (by decide +kernel)
  · exact absurd ht (by decide +kernel)
  · rfl

/-- A layer of an unknown class meets the conditions. -/
example : GoodContent half16 storeZlib (0, 0) (0, 0) (.foreign [88] [.attribute [97] .string [1]]) := by
  refine ⟨by decide, by decide, by decide, by decide, ?_⟩
  intro x hx
  simp only [List.mem_singleton] at hx
  subst hx
  exact ⟨by decide, by decide⟩

end F3D.Props
