import Verif.Model.SampleApp
import Verif.Props.Merge
import Verif.Props.WholeFile

/-!
# C106: making sample files
-/

namespace F3D.Props
open Files Og Ogawa FieldIO Merge
open MappingIO (kMapping)
open Metadata (Meta)

variable {M L F : Type} [FieldClass F]

/-! ## Specification -/

/-- The bits of a number, and whether there are three of them. -/
def bitsOf : Voxel → Nat × Bool
  | .half => (16, false)
  | .float => (32, false)
  | .double => (64, false)
  | .v3h => (16, true)
  | .v3f => (32, true)
  | .v3d => (64, true)

/-- The names of the classes. -/
def classNameOf : SampleApp.Cls → List Char
  | .dense => "DenseField".toList
  | .sparse => "SparseField".toList
  | .mac => "MACField".toList

/-- The metadata of the file, by name and kind; the words are `1.0f`. -/
def sampleInfo (t : List Char) : MKind → Option MVal
  | .float => if t = "float_global_metadata".toList then some (.float 0x3f800000) else none
  | .vecFloat => if t = "vec_float_global_metadata".toList then some (.vecFloat ⟨0x3f800000, 0x3f800000, 0x3f800000⟩) else none
  | .int => if t = "int_global_metadata".toList then some (.int 1) else none
  | .vecInt => if t = "vec_int_global_metadata".toList then some (.vecInt ⟨1, 1, 1⟩) else none
  | .str => if t = "str_global_metadata".toList then some (.str [115, 116, 114, 105, 110, 103]) else none

/-! ## Proofs -/

theorem textOf_inj {a b : Name} (h : textOf a = textOf b) : a = b := by
  unfold textOf at h
  refine (List.map_injective_iff.mpr ?_) h
  intro x y hxy
  have hx : x.toNat < 256 := x.toNat_lt
  have hy : y.toNat < 256 := y.toNat_lt
  have key : ∀ n : Nat, n < 256 → (Char.ofNat n).toNat = n := by
    intro n hn
    have hv : n.isValidChar := .inl (by omega)
    simp only [Char.ofNat, hv, dif_pos]
    rfl
  have := congrArg Char.toNat hxy
  rw [key _ hx, key _ hy] at this
  exact UInt8.toNat_inj.mp this

theorem text_iff {k n : Name} {t : List Char} (h : textOf k = t) : (k = n) = (textOf n = t) := by
  apply propext
  constructor
  · rintro rfl; exact h
  · intro e; exact textOf_inj (h.trans e.symm)

theorem globalInfo_eq : SampleApp.globalInfo =
    ⟨[(SampleApp.kVecFloatGlobal, ⟨0x3f800000, 0x3f800000, 0x3f800000⟩)], [(SampleApp.kFloatGlobal, 0x3f800000)],
      [(SampleApp.kVecIntGlobal, ⟨1, 1, 1⟩)], [(SampleApp.kIntGlobal, 1)],
      [(SampleApp.kStrGlobal, [115, 116, 114, 105, 110, 103])]⟩ := rfl

theorem globalInfo_lookup (n : Name) (k : MKind) : lookup SampleApp.globalInfo n k = sampleInfo (textOf n) k := by
  rw [globalInfo_eq]
  have h1 : textOf SampleApp.kFloatGlobal = "float_global_metadata".toList := by decide
  have h2 : textOf SampleApp.kVecFloatGlobal = "vec_float_global_metadata".toList := by decide
  have h3 : textOf SampleApp.kIntGlobal = "int_global_metadata".toList := by decide
  have h4 : textOf SampleApp.kVecIntGlobal = "vec_int_global_metadata".toList := by decide
  have h5 : textOf SampleApp.kStrGlobal = "str_global_metadata".toList := by decide
  cases k <;> simp only [lookup, Metadata.Dict.get, sampleInfo, ← text_iff h1, ← text_iff h2, ← text_iff h3, ← text_iff h4,
    ← text_iff h5] <;> split <;> simp_all

theorem globalInfo_good : GoodMeta SampleApp.globalInfo := by
  have h : ∀ n k v, lookup SampleApp.globalInfo n k = some v → (n, k) ∈ [(SampleApp.kFloatGlobal, MKind.float),
      (SampleApp.kVecFloatGlobal, .vecFloat), (SampleApp.kIntGlobal, .int), (SampleApp.kVecIntGlobal, .vecInt),
      (SampleApp.kStrGlobal, .str)] := by
    intro n k v h
    rw [globalInfo_eq] at h
    cases k <;> simp only [lookup, Metadata.Dict.get] at h <;> split at h <;> simp_all
  refine ⟨fun n k v hl => ?_, ?_, fun n k k' v v' h1 h2 => ?_, fun n v hl => ?_⟩
  · have := h n k v hl
    simp only [List.mem_cons, Prod.mk.injEq, List.not_mem_nil, or_false] at this
    rcases this with ⟨rfl, _⟩ | ⟨rfl, _⟩ | ⟨rfl, _⟩ | ⟨rfl, _⟩ | ⟨rfl, _⟩ <;> exact ⟨by decide, by decide⟩
  · rw [globalInfo_eq]; unfold Fits32 V32 I32; decide
  · have a := h n k v h1
    have b := h n k' v' h2
    simp only [List.mem_cons, Prod.mk.injEq, List.not_mem_nil, or_false] at a b
    rcases a with ⟨rfl, rfl⟩ | ⟨rfl, rfl⟩ | ⟨rfl, rfl⟩ | ⟨rfl, rfl⟩ | ⟨rfl, rfl⟩ <;>
      rcases b with ⟨e, rfl⟩ | ⟨e, rfl⟩ | ⟨e, rfl⟩ | ⟨e, rfl⟩ | ⟨e, rfl⟩ <;>
      first | exact ⟨by decide, rfl⟩ | exact absurd e (by decide)
  · rw [globalInfo_eq] at hl
    simp only [lookup, Metadata.Dict.get] at hl
    split at hl
    · simp at hl; subst hl; decide
    · simp at hl

/-! ## The property -/

/-- **C106, the field.** The field has numbers of the bits asked for, or of 16 bits if there are none of these, and three of them for
a vector field. Its class is the one asked for; a name that is not one of the three, and a MAC field of scalars, give a dense
field. The kind of filling that is asked for changes nothing. -/
theorem C106_field (opt : SampleApp.Options) (fill : Name) :
    bitsOf (SampleApp.voxelOf opt) =
      ((if opt.bits = 64 then 64 else if opt.bits = 32 then 32 else 16), opt.isVectorField) ∧
    (∀ c, textOf opt.fieldType = classNameOf c → (c = .mac → opt.isVectorField = true) → SampleApp.classOf opt = c) ∧
    ((∀ c, textOf opt.fieldType ≠ classNameOf c) → SampleApp.classOf opt = .dense) ∧
    (opt.isVectorField = false → SampleApp.classOf opt ≠ .mac) ∧
    ∀ {M : Type} (K : SampleApp.Content M), SampleApp.layer K { opt with fill := fill } = SampleApp.layer K opt := by
  have hs : textOf SampleApp.kSparse = classNameOf .sparse := by decide
  have hm : textOf SampleApp.kMac = classNameOf .mac := by decide
  refine ⟨?_, ?_, ?_, ?_, fun K => rfl⟩
  · unfold SampleApp.voxelOf
    cases opt.isVectorField <;> by_cases h1 : opt.bits = 64 <;> by_cases h2 : opt.bits = 32 <;> simp [h1, h2, bitsOf]
  · intro c hc hv
    unfold SampleApp.classOf
    cases c with
    | sparse => have := textOf_inj (hc.trans hs.symm); simp [this]
    | mac =>
      have := textOf_inj (hc.trans hm.symm)
      rw [hv rfl, this]; decide
    | dense =>
      have n1 : opt.fieldType ≠ SampleApp.kSparse := by
        intro e; rw [e, hs] at hc; revert hc; decide
      have n2 : opt.fieldType ≠ SampleApp.kMac := by
        intro e; rw [e, hm] at hc; revert hc; decide
      simp [n1, n2]
  · intro h
    have n1 : opt.fieldType ≠ SampleApp.kSparse := fun e => h .sparse (by rw [e, hs])
    have n2 : opt.fieldType ≠ SampleApp.kMac := fun e => h .mac (by rw [e, hm])
    unfold SampleApp.classOf
    simp [n1, n2]
  · intro h
    unfold SampleApp.classOf
    rw [h]
    simp only [Bool.false_eq_true, if_false]
    split <;> simp

/-- **C106, the file.** If the file can be made, and the names can be stored, then the file opens, it has one partition with the name and
one layer with the attribute that were asked for, reading that layer gives one field, with the contents that were made, and the
file has the five entries of metadata. -/
theorem C106_file (C : MapIO M) (hr : ∀ m, C.ident m m = true) (hsy : ∀ a b, C.ident a b = true → C.ident b a = true)
    (K : SampleApp.Content M) (opt : SampleApp.Options)
    (hname : opt.name ≠ [] ∧ (0 : UInt8) ∉ opt.name ∧ (47 : UInt8) ∉ opt.name)
    (hattr : plainName opt.attr ∧ (47 : UInt8) ∉ opt.attr ∧ opt.attr ≠ kMapping)
    (hmap : (C.write (K.mapping opt.resolution)).1 = true)
    (readMap : List Tree → Res L) (x : L) (hx : readMap (groupKids kMapping (C.write (K.mapping opt.resolution)).2) = .ok x)
    (readField : Name → Name → List Tree → Res F) (data : F) (info : Meta)
    (hread : ∀ path, readBody (readField path) (groupKids opt.attr (layerGroup (⟨opt.name, opt.attr,
      K.mapping opt.resolution, K.mdata (SampleApp.voxelOf opt) (SampleApp.classOf opt) opt.resolution,
      K.body (SampleApp.voxelOf opt) (SampleApp.classOf opt) opt.resolution⟩ : Write M))) = .ok (data, info)) :
    ∃ (o : Out M) (i : In L), SampleApp.main C K opt true = some ([.written, .written], o) ∧
      openFile readMap (rootKids o.entries) = .ok i ∧
      i.listing.partitionNames = [opt.name] ∧ i.listing.layerNames opt.name = [opt.attr] ∧
      i.readLayers readField opt.name opt.attr = .ok [⟨opt.name, opt.attr, some x, info, data⟩] ∧
      ∀ n k, lookup i.info n k = sampleInfo (textOf n) k := by
  obtain ⟨gm, hgm, hlk⟩ := C46_round_trip kGlobal SampleApp.globalInfo globalInfo_good.plain globalInfo_good.fits
    globalInfo_good.distinct globalInfo_good.noNul
  obtain ⟨hn, hn0, hn47⟩ := hname
  obtain ⟨ha, ha47, hak⟩ := hattr
  have hmem : ∀ w, Call.write w ∈ [Call.write (SampleApp.layer K opt), .global (Metadata.entries SampleApp.globalInfo)] → w = SampleApp.layer K opt := by
    intro w hw; simpa using hw
  have hses : Session [Call.write (SampleApp.layer K opt), .global (Metadata.entries SampleApp.globalInfo)] := by
    intro c hc
    simp only [List.mem_cons, List.not_mem_nil, or_false] at hc
    rcases hc with rfl | rfl
    · exact .inl ⟨_, rfl⟩
    · exact .inr ⟨_, rfl⟩
  obtain ⟨o, H, hst⟩ := C43_writes_succeed C hr hsy Out.new _ hses
    (fun w hw => by rw [hmem w hw]; exact ⟨hn47, ha47, hmap⟩)
  have P : Plain [Call.write (SampleApp.layer K opt), .global (Metadata.entries SampleApp.globalInfo)] :=
    ⟨fun w hw => by rw [hmem w hw]; exact hn0, fun w hw => by rw [hmem w hw]; exact ha⟩
  have R : Readable C readMap [Call.write (SampleApp.layer K opt), .global (Metadata.entries SampleApp.globalInfo)] := by
    refine ⟨fun w hw => .inl ⟨x, by rw [hmem w hw]; exact hx⟩, fun es he => ?_⟩
    have : es = Metadata.entries SampleApp.globalInfo := by simpa using he
    rw [this, hgm]; rfl
  have hst' : stored [Call.write (SampleApp.layer K opt), .global (Metadata.entries SampleApp.globalInfo)]
      (List.replicate 2 .written) = [SampleApp.layer K opt] := hst
  obtain ⟨i, hi, hs1, hin, hout, hl⟩ := C44_listing_of_file C o _ _ H P readMap R
  obtain ⟨i', mp, hi', hrd⟩ := C43_read_back C Out.new o _ _ H P readMap R readField (fun _ _ => some (data, info))
    (fun path w hw => by rw [hmem w hw]; exact hread path)
  have hii : i' = i := by rw [hi] at hi'; cases hi'; rfl
  subst hii
  have hone : ∀ (l : List Name) (n : Name), StrictlySorted l → n ∈ l → (∀ k ∈ l, k = n) → l = [n] := by
    intro l n hs hm hall
    match l, hs, hm, hall with
    | [a], _, _, hall => rw [hall a (by simp)]
    | a :: b :: t, hs, _, hall =>
      have h1 := hall a (by simp)
      have h2 := hall b (by simp)
      have h3 := (List.pairwise_cons.1 hs).1 b (by simp)
      rw [h1, h2] at h3
      exact absurd h3 (by simp [nameLt_irrefl])
  refine ⟨o, i', H.2, hi', ?_, ?_, ?_, ?_⟩
  · refine hone _ _ hs1 (hin (SampleApp.layer K opt) (by simp only [List.length_cons, List.length_nil]; rw [hst']; simp)) ?_
    intro k hk
    obtain ⟨w, hw, rfl⟩ := hout k hk
    rw [hmem w hw]; rfl
  · refine hone _ _ (hl opt.name).1 (((hl opt.name).2 _).2 ⟨hak, SampleApp.layer K opt, ?_, rfl, rfl⟩) ?_
    · simp only [List.length_cons, List.length_nil]; rw [hst']; simp
    · intro k hk
      obtain ⟨-, w, hw, -, rfl⟩ := ((hl opt.name).2 k).1 hk
      simp only [List.length_cons, List.length_nil] at hw
      rw [hst'] at hw
      simp only [List.mem_singleton] at hw
      rw [hw]; rfl
  · obtain ⟨qs, h1, h2, h3, -, -⟩ := hrd opt.name opt.attr hn ha.1 hak
    simp only [List.length_cons, List.length_nil] at h2
    rw [hst'] at h2
    have hf : [SampleApp.layer K opt].filter (fun w => decide (w.part = opt.name ∧ w.layer = opt.attr)) = [SampleApp.layer K opt] := by
      simp [SampleApp.layer]
    rw [hf] at h2
    have h2' := List.perm_singleton.1 h2
    match qs, h1, h2', h3 with
    | [q], h1, h2', h3 =>
      obtain ⟨-, -, -, w, hw, -, hwm⟩ := h3 q (by simp)
      rw [h1]
      have hm : q.2.2 = K.mapping opt.resolution := by rw [← hwm, hmem w hw]; rfl
      simp [hm, mapBack, hx]
    | a :: b :: t, _, h2', _ => simp at h2'
  · intro n k
    have hf := C43_file_metadata C Out.new o _ _ H P readMap R i' hi'
    have hg : (globalsOf [Call.write (SampleApp.layer K opt), .global (Metadata.entries SampleApp.globalInfo)]).head? =
        some (Metadata.entries SampleApp.globalInfo) := rfl
    rw [hg] at hf
    simp only at hf
    rw [hgm] at hf
    cases hf
    rw [hlk, globalInfo_lookup]

/-- **C106, a fault.** If the file cannot be made the program does not say so: it goes on to write to it, and this is undefined. -/
theorem C106_not_created (C : MapIO M) (K : SampleApp.Content M) (opt : SampleApp.Options) :
    SampleApp.main C K opt false = none := by
  simp [SampleApp.main, Out.run, Out.step, Out.create, Out.close, Out.new, writeLayer, writeGlobal]

/-! ## A case -/

/-- A MAC field "p:v" of vectors of doubles. -/
def macSample : SampleApp.Options := ⟨[112], [118], ⟨4, 5, 6⟩, SampleApp.kMac, [], 64, true⟩

/-- The byte of a field says its type and class. -/
def byteContent : SampleApp.Content Nat :=
  ⟨fun r => r.x.toNat, fun _ _ _ => [], fun v c _ => (numbered [] [] 0 (if v = .v3d ∧ c = .mac then 7 else 1)).body⟩

example : SampleApp.voxelOf macSample = .v3d ∧ SampleApp.classOf macSample = .mac ∧
    SampleApp.classOf { macSample with isVectorField := false } = .dense ∧
    SampleApp.voxelOf { macSample with bits := 8 } = .v3h := by decide

/-- The hypotheses of `C106_file` can be met. -/
theorem C106_witness : ∃ (o : Out Nat) (i : In Nat), SampleApp.main numberMaps byteContent macSample true = some ([.written, .written], o) ∧
    openFile (fun kids => .ok kids.length) (rootKids o.entries) = .ok i ∧
    i.listing.partitionNames = [[112]] ∧ i.listing.layerNames [112] = [[118]] ∧
    (∃ x, i.readLayers (fun _ => readNumber) [112] [118] = .ok [⟨[112], [118], some x, Meta.empty, 7⟩]) ∧
    ∀ n k, lookup i.info n k = sampleInfo (textOf n) k := by
  obtain ⟨o, i, h1, h2, h3, h4, h5, h6⟩ := C106_file numberMaps (by simp [numberMaps])
    (by intro a b h; simp only [numberMaps, beq_iff_eq] at h ⊢; exact h.symm) byteContent macSample
    (by decide) ⟨⟨by decide, by decide⟩, by decide, by decide⟩ (by decide)
    (fun kids => .ok kids.length) _ rfl (fun _ => readNumber) 7 Meta.empty
    (fun _ => read_numbered [112] [118] 4 7)
  exact ⟨o, i, h1, h2, h3, h4, ⟨_, h5⟩, h6⟩

end F3D.Props
