import Verif.Proofs.Hdf5
import Verif.Props.FieldIO
import Verif.Props.Mac
import Verif.Model.MipIO

/-!
# Fields in HDF5 layers (C79)

A layer of an HDF5 file is a group. The field of a layer is written to and read from that group. `conv` is what the
library does to values of another type, `gzip` whether the library can compress, `maxMem` the memory limit of one pass.
-/

namespace F3D.Props
open F3D F3D.Ogawa F3D.Og F3D.FieldIO F3D.Hdf5

/-! ## Specification -/

/-- Nothing with a name of the format is in the group yet. -/
def FreshLayer (g : Obj) : Prop :=
  g.isGroup = true ∧
  (∀ n ∈ [kVersion, kExtents, kDataWindow, kComponents, kBits, kBlockOrder, kNumBlocks, kBlockRes, kOccupied,
      MipIO.kBaseType], named n g.attrs = none) ∧
  (∀ n ∈ [kData, kAllocated, kEmpty, kUData, kVData, kWData, MipIO.kMipGroup], named n g.links = none)

/-- What was in the group is still there. -/
def LayerKept (g g' : Obj) : Prop :=
  (∀ n v, named n g.attrs = some v → named n g'.attrs = some v) ∧
  (∀ n o, named n g.links = some o → named n g'.links = some o)

/-- The number of values is an `int`. -/
def ValuesFit {α : Type} (e : Elem α) (dw : Box3i) : Prop := dw.nx * dw.ny * dw.nz * dims e.type < 2 ^ 31

theorem FreshLayer.free {g : Obj} (h : FreshLayer g) : Free g := by
  refine ⟨h.1, ?_, ?_⟩
  · intro n hn
    apply h.2.1
    revert n
    decide
  · intro n hn
    apply h.2.2
    revert n
    decide

theorem named_left {T : Type} {n : Name} {a b : List (Name × T)} {v : T} (h : named n a = some v) :
    named n (a ++ b) = some v := by
  rw [named_append, h]; rfl

theorem addTo_kept (g : Obj) (l : List (Name × Attr)) (k : List (Name × Obj)) : LayerKept g (addTo g l k) :=
  ⟨fun _ _ h => named_left h, fun _ _ h => named_left h⟩

theorem dense_fits {α : Type} (e : Elem α) (f : Dense α) (hf : f.WF) (h : ValuesFit e f.dw) :
    DenseFits e f ∧ f.data.length = f.dw.nx * f.dw.ny * f.dw.nz := by
  obtain ⟨h1, h2, h3, p1, p2, p3⟩ := f.dw.dims hf.ne
  have hlen := dense_length f hf
  have hl := hf.len
  have hm := hf.mxy
  have q3 : f.dw.res.z = (f.dw.nz : Nat) := by simp [Box3i.res]; omega
  unfold DenseFits
  rw [hm, q3]
  unfold ValuesFit at h
  have hd := dims_pos e.type
  have a1 : f.dw.nx * f.dw.ny ≤ f.dw.nx * f.dw.ny * f.dw.nz := Nat.le_mul_of_pos_right _ p3
  have a2 : f.dw.nx * f.dw.ny * f.dw.nz ≤ f.dw.nx * f.dw.ny * f.dw.nz * dims e.type := Nat.le_mul_of_pos_right _ hd
  refine ⟨⟨?_, ?_, ?_⟩, ?_⟩
  · unfold fitsInt; omega
  · rw [← Int.natCast_mul]; unfold fitsInt; omega
  · rw [← Int.natCast_mul, ← Int.natCast_mul]; unfold fitsInt; omega
  · rw [← hlen, hm, q3, ← Int.natCast_mul, ← Int.natCast_mul, Int.toNat_natCast]

/-- The stored type and the number of components determine the voxel type. -/
theorem type_of_storage {t t' : DataType} (h : isVoxelType t = true) (h' : isVoxelType t' = true) (a : htype t = htype t')
    (b : dims t = dims t') : t = t' := by
  cases t <;> first
    | exact absurd h (by decide)
    | (cases t' <;> first
        | rfl
        | exact absurd h' (by decide)
        | exact absurd a (by decide)
        | exact absurd b (by decide))

theorem storage_of_bits {t t' : DataType} (h : isVoxelType t = true) (b : bitsMatch (bits t) t' = true) :
    htype t = htype t' := by
  unfold bitsMatch at b
  cases t <;> first
    | exact absurd h (by decide)
    | simpa [bits, htype, eq_comm] using b

/-! ## Dense fields -/

/-- A dense field that was sized and then changed in any way is written to any group without a field, and reading the
group gives the same field. What was in the group stays. With compression the field must have two values. -/
theorem C79_dense_round_trip {α : Type} (conv : HType → HType → List UInt8 → List UInt8) (gzip : Bool) (e : Elem α)
    (L : Lawful e) (hv : isVoxelType e.type = true) (dflt : α) (g : Obj) (hg : FreshLayer g)
    (ext dw : Box3i) (f0 : Dense α) (h0 : Dense.setSize dflt ext dw = .ok f0) (ops : List (DenseOp α)) (f : Dense α)
    (hf : denseRun dflt f0 ops = some f) (hfit : ValuesFit e f.dw)
    (h2 : gzip = true → 2 ≤ f.dw.nx * f.dw.ny * f.dw.nz * dims e.type) :
    ∃ g', Hdf5.writeDense gzip e f g = (.ok, g') ∧ Hdf5.readDense conv e dflt g' = .ok f ∧ LayerKept g g' := by
  have hw : f0.WF := by
    by_cases hw : dw.isEmpty = true
    · have hb : dw.max.x < dw.min.x ∨ dw.max.y < dw.min.y ∨ dw.max.z < dw.min.z := by
        simpa [Box3i.isEmpty, or_assoc] using hw
      simp [Dense.setSize, hb] at h0
    · obtain ⟨k, hk, kwf, _⟩ := Dense.setSize_ok (dflt := dflt) (e := ext) (Bool.eq_false_iff.mpr hw)
      rw [h0] at hk; cases hk; exact kwf
  have wf := dense_run_wf dflt ops f0 f hw hf
  obtain ⟨hi, hl⟩ := dense_fits e f wf hfit
  rw [← hl] at h2
  exact ⟨_, writeDense_ok gzip e f g hg.free wf hi h2, readDense_back conv e L hv dflt f g hg.free wf hi, addTo_kept _ _ _⟩

/-- Reading the layer as another voxel type gives no field. -/
theorem C79_dense_other_type_is_null {α β : Type} (conv : HType → HType → List UInt8 → List UInt8) (gzip : Bool)
    (e : Elem α) (hv : isVoxelType e.type = true) (e' : Elem β) (ht : e'.type ≠ e.type) (dflt : β) (g : Obj)
    (hg : FreshLayer g) (f : Dense α) (wf : f.WF) (hfit : ValuesFit e f.dw) (g' : Obj)
    (h : Hdf5.writeDense gzip e f g = (.ok, g')) : Hdf5.readDense conv e' dflt g' = .null := by
  obtain ⟨hi, hl⟩ := dense_fits e f wf hfit
  have hlen := dense_length f wf
  have hpos := dense_nonempty f wf
  have F := hg.free
  have h2 : gzip = true → 2 ≤ f.data.length * dims e.type := by
    intro hz
    subst hz
    by_cases h2 : 2 ≤ f.data.length * dims e.type
    · exact h2
    · rw [writeDense_head true e f g F wf hi, putChunked_small _ _ _ _ (by rw [dense_total e f wf]; omega)] at h
      simp at h
  rw [writeDense_ok gzip e f g F wf hi h2] at h
  cases h
  unfold Hdf5.readDense
  rw [readWindows_add g F _ _ f.extents f.dw rfl rfl rfl, bind_ok,
    getInt_add g F _ _ kComponents (dims e.type) (by decide) rfl, bind_ok,
    getData_add g F _ _ kData _ (by decide) rfl, bind_ok]
  simp only [extent1, bind_ok]
  obtain ⟨h1, h2, h3, p1, p2, p3⟩ := f.dw.dims wf.ne
  have hsz : f.dw.max - f.dw.min + V3i.all 1 = f.dw.res := rfl
  obtain ⟨i1, i2, i3⟩ := hi
  have hxy : f.memXY = f.dw.res.x * f.dw.res.y := by
    rw [wf.mxy]
    have q1 : f.dw.res.x = (f.dw.nx : Nat) := by simp [Box3i.res]; omega
    have q2 : f.dw.res.y = (f.dw.ny : Nat) := by simp [Box3i.res]; omega
    rw [q1, q2]
  rw [hsz, ← hxy, if_neg (by simp [i1, i2]), if_neg (by have := dims_pos e.type; omega)]
  have hdiv : f.data.length * dims e.type / ((dims e.type : Int)).toNat = f.data.length := by
    rw [Int.toNat_natCast, Nat.mul_div_cancel _ (dims_pos e.type)]
  have hvol : f.memXY * f.dw.res.z = (f.data.length : Int) := by omega
  rw [hdiv, asInt_small _ (by unfold fitsInt at i2; omega), hvol, if_neg (show ¬ ((dims e.type : Int) < 0) by omega),
    if_neg (by simp)]
  rw [if_neg]
  rintro ⟨a, b, c⟩
  exact ht (type_of_storage hv c a (by exact_mod_cast b)).symm

/-- **Disagreement**: with compression a field with a single value is not written. The call returns `false`, but the
layer is there, with the attributes of a field, and every attempt to read it throws. -/
theorem C79_dense_single_value_not_written {α β : Type} (conv : HType → HType → List UInt8 → List UInt8) (e : Elem α)
    (f : Dense α) (g : Obj) (hg : FreshLayer g) (wf : f.WF) (hfit : ValuesFit e f.dw)
    (h1 : f.dw.nx * f.dw.ny * f.dw.nz * dims e.type = 1) :
    ∃ g', Hdf5.writeDense true e f g = (.failed, g') ∧ getInt kComponents g' = .ok (dims e.type) ∧ LayerKept g g' ∧
      ∀ (e' : Elem β) (dflt : β), Hdf5.readDense conv e' dflt g' = .exception := by
  obtain ⟨hi, hl⟩ := dense_fits e f wf hfit
  have F := hg.free
  refine ⟨addTo g (denseAttrs e f) [], ?_, getInt_add g F _ _ kComponents (dims e.type) (by decide) rfl,
    addTo_kept _ _ _, ?_⟩
  · rw [writeDense_head true e f g F wf hi, putChunked_small _ _ _ _ (by rw [dense_total e f wf, hl, h1]; omega)]
  · intro e' dflt
    unfold Hdf5.readDense
    rw [readWindows_add g F _ _ f.extents f.dw rfl rfl rfl, bind_ok,
      getInt_add g F _ _ kComponents (dims e.type) (by decide) rfl, bind_ok]
    have : Hdf5.getData kData (addTo g (denseAttrs e f) []) = .exception := by
      unfold Hdf5.getData
      rw [addTo, Obj.links, List.append_nil, F.links kData (by decide)]
    rw [this]
    rfl

/-- A group holds one field: writing a second one throws and leaves the group as it is. -/
theorem C79_dense_second_field_refused {α : Type} (gzip : Bool) (e : Elem α) (f : Dense α) (g : Obj) (v : Attr)
    (hg : g.isGroup = true) (h : named kVersion g.attrs = some v) : Hdf5.writeDense gzip e f g = (.threw, g) := by
  cases g with
  | data d => simp [Obj.isGroup] at hg
  | group as ls =>
    unfold Hdf5.writeDense W.seq must putAttr
    dsimp only
    rw [if_pos (.inr (by rw [show Hdf5.cstr kVersion = kVersion by decide, show named kVersion as = some v from h]; rfl))]

/-- A dense layer of any file. -/
def denseLayer (t : HType) (ext dw : Box3i) (components : Int) (n : Nat) (bytes : List UInt8) : Obj :=
  .group [(kVersion, .ints [1]), (kExtents, .ints (boxInts ext)), (kDataWindow, .ints (boxInts dw)),
    (kComponents, .ints [components])] [(kData, .data ⟨t, [n], [bytes]⟩)]

/-- **Disagreement**: the number of values of a file is divided, rounding down, by the number of components before it is
compared with the window, so a file with one or two values too many for its vectors passes the check; reading it
writes past the end of the field. -/
theorem C79_dense_extra_values_overrun {α : Type} (conv : HType → HType → List UInt8 → List UInt8) (e : Elem α)
    (L : Lawful e) (hv : isVoxelType e.type = true) (dflt : α) (ext dw : Box3i) (hne : dw.isEmpty = false)
    (hfit : ValuesFit e dw) (extra : Nat) (hx : 0 < extra) (hx' : extra < dims e.type) (bytes : List UInt8)
    (hb : bytes.length = (dw.nx * dw.ny * dw.nz * dims e.type + extra) * (htype e.type).size) :
    Hdf5.readDense conv e dflt (denseLayer (htype e.type) ext dw (dims e.type)
      (dw.nx * dw.ny * dw.nz * dims e.type + extra) bytes) = .crash := by
  obtain ⟨h1, h2, h3, p1, p2, p3⟩ := dw.dims hne
  have q1 : dw.res.x = (dw.nx : Nat) := by simp [Box3i.res]; omega
  have q2 : dw.res.y = (dw.ny : Nat) := by simp [Box3i.res]; omega
  have q3 : dw.res.z = (dw.nz : Nat) := by simp [Box3i.res]; omega
  have hsz : dw.max - dw.min + V3i.all 1 = dw.res := rfl
  have hd := dims_pos e.type
  have a1 : dw.nx * dw.ny ≤ dw.nx * dw.ny * dw.nz := Nat.le_mul_of_pos_right _ p3
  have a2 : dw.nx * dw.ny * dw.nz ≤ dw.nx * dw.ny * dw.nz * dims e.type := Nat.le_mul_of_pos_right _ hd
  unfold ValuesFit at hfit
  have c1 : fitsInt (dw.res.x * dw.res.y) := by
    rw [q1, q2, ← Int.natCast_mul]; unfold fitsInt; omega
  have c2 : fitsInt (dw.res.x * dw.res.y * dw.res.z) := by
    rw [q1, q2, q3, ← Int.natCast_mul, ← Int.natCast_mul]; unfold fitsInt; omega
  have e1 : Hdf5.readWindows (denseLayer (htype e.type) ext dw (dims e.type)
      (dw.nx * dw.ny * dw.nz * dims e.type + extra) bytes) = .ok (ext, dw) := rfl
  have e2 : getInt kComponents (denseLayer (htype e.type) ext dw (dims e.type)
      (dw.nx * dw.ny * dw.nz * dims e.type + extra) bytes) = .ok (dims e.type : Int) := rfl
  have e3 : Hdf5.getData kData (denseLayer (htype e.type) ext dw (dims e.type)
      (dw.nx * dw.ny * dw.nz * dims e.type + extra) bytes) =
      .ok ⟨htype e.type, [dw.nx * dw.ny * dw.nz * dims e.type + extra], [bytes]⟩ := rfl
  unfold Hdf5.readDense
  rw [e1, bind_ok, e2, bind_ok, e3, bind_ok]
  simp only [extent1, bind_ok]
  have hdiv : (dw.nx * dw.ny * dw.nz * dims e.type + extra) / ((dims e.type : Int)).toNat = dw.nx * dw.ny * dw.nz := by
    rw [Int.toNat_natCast, Nat.mul_comm _ (dims e.type), Nat.mul_add_div hd, Nat.div_eq_of_lt hx']
    omega
  rw [hsz, if_neg (by simp [c1, c2]), if_neg (by omega), if_neg (show ¬ ((dims e.type : Int) < 0) by omega), hdiv,
    asInt_small _ (by omega), if_neg (by rw [q1, q2, q3]; push_cast; simp), if_pos (by simp [hv])]
  obtain ⟨f0, e1, w0, e2, e3, e4⟩ := Dense.setSize_ok (dflt := dflt) (e := ext) hne
  rw [e1]
  dsimp only
  have : readInto conv e ⟨htype e.type, [dw.nx * dw.ny * dw.nz * dims e.type + extra], [bytes]⟩ f0.data = .crash := by
    unfold readInto DataSet.bytesAs
    rw [if_pos rfl]
    simp only [List.flatten_cons, List.flatten_nil, List.append_nil]
    have hl : f0.data.length = dw.nx * dw.ny * dw.nz := by
      have := (dense_fits e f0 w0 (by rw [e2]; exact hfit)).2
      rw [this, e2]
    have hs : (htype e.type).size * dims e.type = e.type.bytes ∧ 0 < (htype e.type).size := by
      revert hv
      generalize e.type = t
      intro hv
      cases t <;> first | (constructor <;> decide) | simp [isVoxelType] at hv
    rw [Elem.overlay, if_neg]
    rw [encAll_length L, hl, hb, ← hs.1, Nat.add_mul]
    have : 0 < extra * (htype e.type).size := Nat.mul_pos hx hs.2
    rw [Nat.mul_assoc _ (dims e.type), Nat.mul_comm (dims e.type)]
    omega
  rw [this]
  rfl

/-! ## MAC fields -/

/-- The value survives conversion to the stored type. -/
def Representable (e : Elem Rat) (x : Rat) : Prop := (e.enc x).length = e.type.bytes ∧ e.dec (e.enc x) = x

theorem representable_exact {e : Elem Rat} {xs : List Rat} (h : ∀ x ∈ xs, Representable e x) : Exact e xs :=
  ⟨fun x hx => (h x hx).1, fun x hx => (h x hx).2⟩

/-- The number of values of every component is an `int`. -/
def MacFits (dw : Box3i) : Prop := (dw.nx + 1) * (dw.ny + 1) * (dw.nz + 1) < 2 ^ 31

theorem mac_length {f : Mac} (wf : f.WF) (hne : f.dw.isEmpty = false) (hfit : MacFits f.dw) (c : MacComp) :
    2 ≤ (f.comp c).data.length ∧ fitsInt (f.comp c).data.length := by
  obtain ⟨h1, h2, h3, p1, p2, p3⟩ := f.dw.dims hne
  unfold MacFits at hfit
  obtain ⟨a, b, d, ha, hb, hd, e1, e2⟩ : ∃ a b d : Nat, a ≤ f.dw.nx + 1 ∧ b ≤ f.dw.ny + 1 ∧ d ≤ f.dw.nz + 1 ∧
      (Mac.compWindow f.dw c).res = ⟨a, b, d⟩ ∧ 2 ≤ a * b * d := by
    cases c
    · refine ⟨f.dw.nx + 1, f.dw.ny, f.dw.nz, by omega, by omega, by omega, ?_, ?_⟩
      · apply V3i.ext' <;> simp [Box3i.res, Mac.compWindow] <;> omega
      · calc 2 = 2 * 1 * 1 := rfl
          _ ≤ _ := Nat.mul_le_mul (Nat.mul_le_mul (by omega) p2) p3
    · refine ⟨f.dw.nx, f.dw.ny + 1, f.dw.nz, by omega, by omega, by omega, ?_, ?_⟩
      · apply V3i.ext' <;> simp [Box3i.res, Mac.compWindow] <;> omega
      · calc 2 = 1 * 2 * 1 := rfl
          _ ≤ _ := Nat.mul_le_mul (Nat.mul_le_mul p1 (by omega)) p3
    · refine ⟨f.dw.nx, f.dw.ny, f.dw.nz + 1, by omega, by omega, by omega, ?_, ?_⟩
      · apply V3i.ext' <;> simp [Box3i.res, Mac.compWindow] <;> omega
      · calc 2 = 1 * 1 * 2 := rfl
          _ ≤ _ := Nat.mul_le_mul (Nat.mul_le_mul p1 p2) (by omega)
  have hl : (f.comp c).data.length = a * b * d := by
    rw [wf.len c, wf.size c, e1]
    dsimp only
    rw [← Int.natCast_mul, ← Int.natCast_mul, Int.toNat_natCast]
  have hle : a * b * d ≤ (f.dw.nx + 1) * (f.dw.ny + 1) * (f.dw.nz + 1) :=
    Nat.mul_le_mul (Nat.mul_le_mul ha hb) hd
  rw [hl]
  exact ⟨e2, by unfold fitsInt; omega⟩

/-- A MAC field that was sized and then changed in any way is written to any group without a field, with and without
compression, and reading the group gives the same field, provided its values are values of the stored type. -/
theorem C79_mac_round_trip (conv : HType → HType → List UInt8 → List UInt8) (gzip : Bool) (e : Elem Rat)
    (hv : isVoxelType e.type = true) (g : Obj) (hg : FreshLayer g) (ext dw : Box3i) (hne : dw.isEmpty = false)
    (hfit : MacFits dw) (f0 : Mac) (h0 : Mac.fresh.setSize ext dw = some f0) (ops : List MacOp)
    (hok : ∀ op ∈ ops, macAllowed dw op) :
    ∃ f, macRun f0 ops = some f ∧
      ((∀ c, ∀ x ∈ (f.comp c).data, Representable e x) → Representable e 0 →
        ∃ g', Hdf5.writeMac gzip e f g = (.ok, g') ∧ Hdf5.readMac conv e Mac.fresh g' = .ok f ∧ LayerKept g g') := by
  obtain ⟨wf0, d0, x0⟩ := Mac.setSize_wf h0
  obtain ⟨f, h1, h2, h3, h4, h5⟩ := mac_run_refines ops f0 (fun _ _ => 0) wf0 (mac_fresh_zero h0) (by rw [d0]; exact hok)
  refine ⟨f, h1, fun hr hz => ?_⟩
  have F := hg.free
  have hd : f.dw = dw := by rw [h3, d0]
  have hl := fun c => mac_length h2 (by rw [hd]; exact hne) (by rw [hd]; exact hfit) c
  exact ⟨_, writeMac_ok gzip e f g F (fun c => (hl c).2) (fun _ c => (hl c).1),
    readMac_back conv e hv f Mac.fresh g F h2 (fun c => representable_exact (hr c))
      (by intro c; cases c <;> exact ⟨by simp [Mac.fresh, Mac.comp], by simp [Mac.fresh, Mac.comp]⟩)
      (representable_exact (by intro x hx; rw [List.mem_singleton.mp hx]; exact hz)), addTo_kept _ _ _⟩

/-- Reading the layer as another voxel type gives no field. -/
theorem C79_mac_other_type_is_null (conv : HType → HType → List UInt8 → List UInt8) (gzip : Bool) (e e' : Elem Rat)
    (hv : isVoxelType e.type = true) (hv' : isVoxelType e'.type = true) (hd : dims e'.type = dims e.type)
    (ht : e'.type ≠ e.type) (init : Mac) (g : Obj) (hg : FreshLayer g) (f : Mac) (wf : f.WF)
    (hne : f.dw.isEmpty = false) (hfit : MacFits f.dw) (g' : Obj) (h : Hdf5.writeMac gzip e f g = (.ok, g')) :
    Hdf5.readMac conv e' init g' = .null := by
  have F := hg.free
  have hl := fun c => mac_length wf hne hfit c
  rw [writeMac_ok gzip e f g F (fun c => (hl c).2) (fun _ c => (hl c).1)] at h
  cases h
  unfold Hdf5.readMac
  rw [readWindows_add g F _ _ f.extents f.dw rfl rfl rfl, bind_ok,
    getInt_add g F _ _ kComponents 3 (by decide) rfl, bind_ok,
    getInt_add g F _ _ kBits (bits e.type) (by decide) rfl, bind_ok, if_neg]
  intro b
  exact ht (type_of_storage hv hv' (storage_of_bits hv b) hd.symm).symm

/-- A MAC layer of any file. -/
def macLayer (t : HType) (b : Int) (ext dw : Box3i) (u v w : List UInt8) (nu nv nw : Nat) : Obj :=
  .group [(kVersion, .ints [1]), (kExtents, .ints (boxInts ext)), (kDataWindow, .ints (boxInts dw)),
    (kComponents, .ints [3]), (kBits, .ints [b])]
    [(kUData, .data ⟨t, [nu], [u]⟩), (kVData, .data ⟨t, [nv], [v]⟩), (kWData, .data ⟨t, [nw], [w]⟩)]

/-- **Disagreement**: the sizes of the stored components are not compared with the window: a file with more values than
the component has room for is read past the end of the field. -/
theorem C79_mac_extra_values_overrun (conv : HType → HType → List UInt8 → List UInt8) (e : Elem Rat)
    (hv : isVoxelType e.type = true) (hz : Representable e 0) (ext dw : Box3i)
    (hnn : 0 ≤ dw.res.x ∧ 0 ≤ dw.res.y ∧ 0 ≤ dw.res.z) (u v w : List UInt8) (nu nv nw : Nat)
    (h : ((dw.res.x + 1) * dw.res.y * dw.res.z).toNat * e.type.bytes < u.length) :
    Hdf5.readMac conv e Mac.fresh (macLayer (htype e.type) (bits e.type) ext dw u v w nu nv nw) = .crash := by
  obtain ⟨f, h1, h2, h3, h4, h5⟩ := Mac.setSize_spec Mac.fresh ext dw hnn
  have e1 : Hdf5.readWindows (macLayer (htype e.type) (bits e.type) ext dw u v w nu nv nw) = .ok (ext, dw) := rfl
  have e2 : getInt kComponents (macLayer (htype e.type) (bits e.type) ext dw u v w nu nv nw) = .ok 3 := rfl
  have e3 : getInt kBits (macLayer (htype e.type) (bits e.type) ext dw u v w nu nv nw) = .ok (bits e.type : Int) := rfl
  have e4 : Hdf5.getData kUData (macLayer (htype e.type) (bits e.type) ext dw u v w nu nv nw) =
    .ok ⟨htype e.type, [nu], [u]⟩ := rfl
  unfold Hdf5.readMac
  rw [e1, bind_ok, e2, bind_ok, e3, bind_ok, if_pos (bitsMatch_bits _ hv)]
  dsimp only
  rw [h1]
  dsimp only
  have hc : Hdf5.readMacComp conv e kUData f.cu (macLayer (htype e.type) (bits e.type) ext dw u v w nu nv nw) = .crash := by
    unfold Hdf5.readMacComp
    rw [e4, bind_ok]
    simp only [extent1, bind_ok]
    unfold readInto DataSet.bytesAs
    rw [if_pos rfl]
    simp only [List.flatten_cons, List.flatten_nil, List.append_nil]
    have hE : Exact e f.cu.data := by
      have := h5 .u
      simp only [Mac.comp] at this
      rw [this]
      exact exact_resize _ ⟨by simp [Mac.fresh], by simp [Mac.fresh]⟩
        (representable_exact (by intro x hx; rw [List.mem_singleton.mp hx]; exact hz))
    have hl : f.cu.data.length = ((dw.res.x + 1) * dw.res.y * dw.res.z).toNat := by
      have a := h2.len .u
      have b := h2.size .u
      simp only [Mac.comp] at a b
      rw [a, b, h3]
      have : (Mac.compWindow dw .u).res = ⟨dw.res.x + 1, dw.res.y, dw.res.z⟩ := by
        apply V3i.ext' <;> simp [Box3i.res, Mac.compWindow] <;> omega
      rw [this]
    rw [Elem.overlay, if_neg (by rw [exact_length _ hE, hl]; omega)]
    rfl
  rw [hc]
  rfl

/-! ## Sparse fields -/

/-- The number of blocks is an `int`, and so is the number of values of a block. -/
def BlocksFit {α : Type} (e : Elem α) (f : Sparse α) : Prop :=
  f.blocks.length < 2 ^ 31 ∧ 2 ^ (3 * f.order) * dims e.type < 2 ^ 31

theorem blocks_fit {α : Type} {e : Elem α} {f : Sparse α} (wf : f.WF) (h : BlocksFit e f) : SparseFits e f := by
  obtain ⟨h1, h2, h3, p1, p2, p3⟩ := f.dw.dims wf.ne
  refine ⟨?_, ?_, ?_⟩
  · have := h.2
    rw [Nat.mul_comm 3] at this
    unfold numVoxels fitsInt
    omega
  · have : 0 < Sparse.bn f.order f.dw.nz := Sparse.bn_pos p3
    rw [wf.bx, wf.by', ← Int.natCast_mul]
    have hl := wf.len
    have := Nat.le_mul_of_pos_right (Sparse.bn f.order f.dw.nx * Sparse.bn f.order f.dw.ny) this
    have := h.1
    unfold fitsInt
    omega
  · rw [numBlocks_eq f wf]
    have := h.1
    unfold fitsInt
    omega

/-- A sparse field with any history is written to any group without a field, with and without compression, and reading
the group, whatever the memory limit of a pass, gives the same field: windows, block order, which blocks are allocated,
empty values and voxels. -/
theorem C79_sparse_round_trip {α : Type} [DecidableEq α] (conv : HType → HType → List UInt8 → List UInt8) (gzip : Bool) (maxMem : Nat)
    (hmax : 0 < maxMem) (e : Elem α) (L : Lawful e) (hv : isVoxelType e.type = true) (zero dflt : α) (g : Obj)
    (hg : FreshLayer g) (f : Sparse α) (hf : SparseReachable zero f) (hfit : BlocksFit e f) :
    ∃ g', Hdf5.writeSparse gzip e f g = (.ok, g') ∧ Hdf5.readSparse conv maxMem e zero dflt g' = .ok f ∧
      LayerKept g g' := by
  obtain ⟨m, hr⟩ := reachable_refines hf
  have hi := blocks_fit hr.wf hfit
  exact ⟨_, writeSparse_ok gzip e f g hg.free hr.wf hi,
    readSparse_back conv maxMem hmax e L hv zero dflt f g hg.free hr.wf hr.fits hi, addTo_kept _ _ _⟩

/-- Reading the layer as another voxel type gives no field. -/
theorem C79_sparse_other_type_is_null {α β : Type} [DecidableEq α] (conv : HType → HType → List UInt8 → List UInt8) (gzip : Bool)
    (maxMem : Nat) (e : Elem α) (hv : isVoxelType e.type = true) (e' : Elem β) (ht : e'.type ≠ e.type) (zero : α)
    (zero' dflt' : β) (g : Obj) (hg : FreshLayer g) (f : Sparse α) (hf : SparseReachable zero f) (hfit : BlocksFit e f)
    (g' : Obj) (h : Hdf5.writeSparse gzip e f g = (.ok, g')) :
    Hdf5.readSparse conv maxMem e' zero' dflt' g' = .null := by
  obtain ⟨m, hr⟩ := reachable_refines hf
  have hi := blocks_fit hr.wf hfit
  have F := hg.free
  rw [writeSparse_ok gzip e f g F hr.wf hi] at h
  cases h
  have hn := numBlocks_eq f hr.wf
  unfold Hdf5.readSparse
  rw [readWindows_add g F _ _ f.extents f.dw rfl rfl rfl, bind_ok,
    getInt_add g F _ _ kComponents (dims e.type) (by decide) rfl, bind_ok,
    getInt_add g F _ _ kBlockOrder f.order (by decide) rfl, bind_ok,
    getInt_add g F _ _ kNumBlocks (f.bres.x * f.bres.y * f.bres.z) (by decide) rfl, bind_ok,
    getInts_add g F _ _ kBlockRes 3 [f.bres.x, f.bres.y, f.bres.z] (by decide) rfl rfl, bind_ok]
  simp only [List.getD_cons_zero, List.getD_cons_succ]
  rw [if_neg (by simp [hi.2.1, hi.2.2]), if_neg (by simp), if_neg (by omega),
    getInt_add g F _ _ kOccupied _ (by decide) rfl, bind_ok,
    getInt_add g F _ _ kBits (bits e.type) (by decide) rfl, bind_ok, if_neg]
  rintro ⟨a, b, c⟩
  refine ht (type_of_storage hv c ?_ (by exact_mod_cast a)).symm
  exact storage_of_bits hv b

theorem mapM_none {β γ : Type} (f : β → Option γ) : ∀ (l : List β) (x : β), x ∈ l → f x = none → l.mapM f = none
  | y :: ys, x, hx, h => by
    rw [List.mapM_cons]
    rcases List.mem_cons.mp hx with rfl | hx
    · rw [h]; rfl
    · rw [mapM_none f ys x hx h]
      cases f y <;> rfl

/-- **Disagreement**: a field with a block that is allocated but not in memory (it comes from a file that was opened with
a limit on memory) cannot be written: the null pointer of the block is passed to the library. -/
theorem C79_block_not_in_memory_crashes {α : Type} (gzip : Bool) (e : Elem α) (f : Sparse α) (g : Obj)
    (hg : FreshLayer g) (hl : (f.bres.x * f.bres.y * f.bres.z) = f.blocks.length) (hi : SparseFits e f) (b : Block α)
    (hb : b ∈ f.blocks) (ha : b.isAllocated = true) (hd : b.data = none) :
    (Hdf5.writeSparse gzip e f g).1 = .crash := by
  have F := hg.free
  have hn : (f.bres.x * f.bres.y * f.bres.z).toNat = f.blocks.length := by rw [hl, Int.toNat_natCast]
  have hm : b ∈ f.blocks.filter (·.isAllocated) := List.mem_filter.mpr ⟨hb, ha⟩
  have hrows : rowsOf e f.order f.blocks = none := by
    unfold rowsOf
    exact mapM_none _ _ b hm (by unfold rowBytes; rw [hd])
  unfold Hdf5.writeSparse
  conv => lhs; rw [← addTo_nil F.group]
  rw [seq_ok (put_field g F _ _ _ _ (by decide) rfl), hn, if_pos ⟨hi.1, hi.2.1, hi.2.2, Nat.le_refl _⟩,
    List.take_length]
  rw [seq_ok (put_field g F _ _ _ _ (by decide) rfl), seq_ok (put_field g F _ _ _ _ (by decide) rfl),
    seq_ok (put_field g F _ _ _ _ (by decide) rfl), seq_ok (put_field g F _ _ _ _ (by decide) rfl),
    seq_ok (put_field g F _ _ _ _ (by decide) rfl), seq_ok (put_field g F _ _ _ _ (by decide) rfl),
    seq_ok (put_field g F _ _ _ _ (by decide) rfl)]
  unfold putSimple
  rw [seq_ok (must_ok (putData_add g _ _ kAllocated none _ (F.links _ (by decide)) rfl (by simp))),
    seq_ok (must_ok (putData_add g _ _ kEmpty none _ (F.links _ (by decide)) rfl (by simp))),
    seq_ok (must_ok (put_field g F _ _ _ _ (by decide) rfl)),
    if_pos (List.length_pos_iff_exists_mem.mpr ⟨b, hm⟩), hrows]

/-! ## Examples -/

/-- The layer group as the file object hands it to the writer: it holds the class name and the metadata group. -/
def newLayer : Obj := .group [(ascii ['c', 'l', 'a', 's', 's', '_', 'n', 'a', 'm', 'e'], .str [68])]
  [(ascii ['m', 'e', 't', 'a', 'd', 'a', 't', 'a'], .new)]

theorem newLayer_fresh : FreshLayer newLayer := by
  refine ⟨rfl, ?_, ?_⟩
  · decide
  · intro n hn
    have : n ≠ ascii ['m', 'e', 't', 'a', 'd', 'a', 't', 'a'] := by
      revert n; decide
    unfold newLayer Obj.links named
    rw [if_neg (fun h => this h.symm)]
    rfl

example (conv : HType → HType → List UInt8 → List UInt8) : ∃ g', Hdf5.writeDense true half16 sampleDense newLayer = (.ok, g') ∧
    Hdf5.readDense conv half16 (0, 0) g' = .ok sampleDense ∧ LayerKept newLayer g' :=
  C79_dense_round_trip conv true half16 half16_lawful rfl (0, 0) newLayer newLayer_fresh
    ⟨⟨0, 0, 0⟩, ⟨1, 0, 0⟩⟩ ⟨⟨-1, 0, 0⟩, ⟨1, 1, 0⟩⟩ sampleDense0 (by rfl)
    [.write ⟨-1, 1, 0⟩ (7, 8)] sampleDense (by rfl) (by unfold ValuesFit; decide) (by decide)

example (conv : HType → HType → List UInt8 → List UInt8) :
    ∃ g', Hdf5.writeSparse true half16 rowField newLayer = (.ok, g') ∧
    Hdf5.readSparse conv 3 half16 (0, 0) (0, 0) g' = .ok rowField ∧ LayerKept newLayer g' :=
  C79_sparse_round_trip conv true 3 (by omega) half16 half16_lawful rfl (0, 0) (0, 0) newLayer newLayer_fresh rowField
    rowField_reachable (by unfold BlocksFit; decide)

/-- One voxel of one value. -/
def oneVoxel : Dense (UInt8 × UInt8) := ⟨⟨⟨0, 0, 0⟩, ⟨0, 0, 0⟩⟩, ⟨⟨0, 0, 0⟩, ⟨0, 0, 0⟩⟩, 1, 1, [(7, 8)]⟩

example (conv : HType → HType → List UInt8 → List UInt8) : ∃ g',
    Hdf5.writeDense true half16 oneVoxel newLayer = (.failed, g') ∧
    getInt kComponents g' = .ok 1 ∧ LayerKept newLayer g' ∧
    ∀ (e' : Elem (UInt8 × UInt8)) dflt, Hdf5.readDense conv e' dflt g' = .exception :=
  C79_dense_single_value_not_written conv half16 oneVoxel newLayer newLayer_fresh
    ⟨by decide, by decide, by decide, by decide⟩ (by unfold ValuesFit; decide) (by decide)

/-- Whole numbers up to 255, enough to see that the theorem on MAC fields applies. -/
def small32 : Elem Rat := ⟨.float32, fun x => [UInt8.ofNat x.num.toNat, 0, 0, 0], fun bs => ((bs.headD 0).toNat : Rat)⟩

example (conv : HType → HType → List UInt8 → List UInt8) : ∃ f0 f, Mac.fresh.setSize ⟨⟨0, 0, 0⟩, ⟨1, 0, 0⟩⟩ ⟨⟨0, 0, 0⟩, ⟨1, 0, 0⟩⟩ = some f0 ∧
    macRun f0 [.write .u ⟨2, 0, 0⟩ 5, .write .v ⟨0, 1, 0⟩ 7] = some f ∧ f.cu.data = [0, 0, 5] ∧
    ∃ g', Hdf5.writeMac true small32 f newLayer = (.ok, g') ∧ Hdf5.readMac conv small32 Mac.fresh g' = .ok f ∧
      LayerKept newLayer g' := by
  obtain ⟨f, h1, h2⟩ := C79_mac_round_trip conv true small32 rfl newLayer newLayer_fresh ⟨⟨0, 0, 0⟩, ⟨1, 0, 0⟩⟩
    ⟨⟨0, 0, 0⟩, ⟨1, 0, 0⟩⟩ (by decide) (by unfold MacFits; decide) _ rfl [.write .u ⟨2, 0, 0⟩ 5, .write .v ⟨0, 1, 0⟩ 7]
    (by intro op h; simp only [List.mem_cons, List.not_mem_nil, or_false] at h; rcases h with rfl | rfl <;>
        (unfold macAllowed IsFace; decide))
  have hf : macRun _ _ = some f := h1
  refine ⟨_, f, rfl, h1, ?_, h2 ?_ ?_⟩
  · have : some f.cu.data = some [0, 0, 5] := by
      rw [show some f.cu.data = (some f).map (·.cu.data) from rfl, ← h1]
      decide +kernel
    simpa using this
  · have : (some f).all (fun f => decide (∀ c ∈ [MacComp.u, .v, .w], ∀ x ∈ (f.comp c).data,
        (small32.enc x).length = small32.type.bytes ∧ small32.dec (small32.enc x) = x)) = true := by
      rw [← h1]
      decide +kernel
    simp only [Option.all_some, decide_eq_true_eq] at this
    intro c
    exact this c (by cases c <;> simp)
  · unfold Representable
    decide +kernel

example (conv : HType → HType → List UInt8 → List UInt8) (e : Elem (UInt8 × UInt8 × UInt8)) (L : Lawful e)
    (h : e.type = .vec16) (dflt : UInt8 × UInt8 × UInt8) :
    Hdf5.readDense conv e dflt (denseLayer (htype e.type) ⟨⟨0, 0, 0⟩, ⟨1, 0, 0⟩⟩ ⟨⟨0, 0, 0⟩, ⟨1, 0, 0⟩⟩ (dims e.type)
      (2 * 1 * 1 * dims e.type + 1) (List.replicate 14 0)) = .crash := by
  refine C79_dense_extra_values_overrun conv e L (by rw [h]; rfl) dflt _ ⟨⟨0, 0, 0⟩, ⟨1, 0, 0⟩⟩ (by decide)
    (by unfold ValuesFit; rw [h]; decide) 1 (by omega) (by rw [h]; decide) _ (by rw [h]; decide)

example (conv : HType → HType → List UInt8 → List UInt8) (v w : List UInt8) (nu nv nw : Nat) :
    Hdf5.readMac conv small32 Mac.fresh (macLayer .float 32 ⟨⟨0, 0, 0⟩, ⟨1, 0, 0⟩⟩ ⟨⟨0, 0, 0⟩, ⟨1, 0, 0⟩⟩
      (List.replicate 13 0) v w nu nv nw) = .crash :=
  C79_mac_extra_values_overrun conv small32 rfl (by unfold Representable; decide +kernel) _ _ (by decide) _ v w nu nv nw
    (by decide)

end F3D.Props
