import Verif.Model.Hdf5
import Verif.Proofs.FieldIO
import Verif.Props.Hdf5Blocks
import Verif.Proofs.Mac

/-! Lemmas about groups of HDF5 files. -/

namespace F3D
namespace Hdf5
open Ogawa Og FieldIO

theorem named_append {T : Type} (n : Name) (a b : List (Name × T)) :
    named n (a ++ b) = (named n a).or (named n b) := by
  induction a with
  | nil => simp [named]
  | cons p a ih =>
    rw [List.cons_append, named, named]
    split
    · simp
    · exact ih

theorem named_append_none {T : Type} {n : Name} {a b : List (Name × T)} (h : named n a = none) :
    named n (a ++ b) = named n b := by rw [named_append, h]; rfl

/-- The group with more attributes and links. -/
def addTo (g : Obj) (l : List (Name × Attr)) (k : List (Name × Obj)) : Obj := .group (g.attrs ++ l) (g.links ++ k)

theorem addTo_nil {g : Obj} (h : g.isGroup = true) : addTo g [] [] = g := by
  cases g with
  | group as ls => simp [addTo, Obj.attrs, Obj.links]
  | data d => simp [Obj.isGroup] at h

theorem seq_ok {a b : W} {g g1 : Obj} (h : a g = (.ok, g1)) : (a ⨾ b) g = b g1 := by
  unfold W.seq; rw [h]

theorem must_ok {a : W} {g g1 : Obj} (h : a g = (.ok, g1)) : must a g = (.ok, g1) := by
  unfold must; rw [h]

theorem putAttr_add (g : Obj) (l : List (Name × Attr)) (k : List (Name × Obj)) (n : Name) (v : Attr)
    (hc : cstr n = n) (hn : n ≠ []) (h1 : named n g.attrs = none) (h2 : named n l = none) :
    putAttr n v (addTo g l k) = (.ok, addTo g (l ++ [(n, v)]) k) := by
  unfold addTo putAttr
  dsimp only
  rw [hc, named_append, h1, h2]
  simp [hn]

theorem putData_add (g : Obj) (l : List (Name × Attr)) (k : List (Name × Obj)) (n : Name) (c : Option (List Nat))
    (d : DataSet) (h1 : named n g.links = none) (h2 : named n k = none)
    (hc : ∀ x, c = some x → ∀ p ∈ x.zip d.dims, p.1 ≤ p.2) :
    putData n c d (addTo g l k) = (.ok, addTo g l (k ++ [(n, .data d)])) := by
  unfold addTo putData
  dsimp only
  rw [named_append, h1, h2, if_neg]
  · simp
  · cases c with
    | none => simp
    | some x =>
      have := hc x rfl
      simp only [Option.or_none, Option.isSome_none, Bool.false_eq_true, Option.any_some, List.any_eq_true,
        decide_eq_true_eq, false_or, not_exists, not_and, Nat.not_lt]
      exact fun p hp => this p hp

/-- The names the formats use. -/
def fieldNames : List Name :=
  [kVersion, kExtents, kDataWindow, kComponents, kBits, kBlockOrder, kNumBlocks, kBlockRes, kOccupied]
def dataNames : List Name := [kData, kAllocated, kEmpty, kUData, kVData, kWData]

theorem fieldNames_ok : ∀ n ∈ fieldNames, cstr n = n ∧ n ≠ [] := by decide

/-- Nothing in the group has one of the names. -/
structure Free (g : Obj) : Prop where
  group : g.isGroup = true
  attrs : ∀ n ∈ fieldNames, named n g.attrs = none
  links : ∀ n ∈ dataNames, named n g.links = none

theorem put_field (g : Obj) (F : Free g) (l : List (Name × Attr)) (k : List (Name × Obj)) (n : Name) (v : Attr)
    (hm : n ∈ fieldNames) (h2 : named n l = none) :
    putAttr n v (addTo g l k) = (.ok, addTo g (l ++ [(n, v)]) k) :=
  putAttr_add g l k n v (fieldNames_ok n hm).1 (fieldNames_ok n hm).2 (F.attrs n hm) h2

theorem getInts_add (g : Obj) (F : Free g) (l : List (Name × Attr)) (k : List (Name × Obj)) (n : Name) (m : Nat)
    (v : List Int) (hm : n ∈ fieldNames) (h2 : named n l = some (.ints v)) (hl : v.length = m) :
    getInts m n (addTo g l k) = .ok v := by
  unfold getInts
  have : named n (addTo g l k).attrs = some (.ints v) := by
    rw [addTo, Obj.attrs, named_append_none (F.attrs n hm), h2]
  rw [this]; simp [hl]

theorem getInt_add (g : Obj) (F : Free g) (l : List (Name × Attr)) (k : List (Name × Obj)) (n : Name)
    (v : Int) (hm : n ∈ fieldNames) (h2 : named n l = some (.ints [v])) :
    getInt n (addTo g l k) = .ok v := by
  unfold getInt
  rw [getInts_add g F l k n 1 [v] hm h2 rfl]; rfl

theorem getData_add (g : Obj) (F : Free g) (l : List (Name × Attr)) (k : List (Name × Obj)) (n : Name)
    (d : DataSet) (hm : n ∈ dataNames) (h2 : named n k = some (.data d)) :
    getData n (addTo g l k) = .ok d := by
  unfold getData
  have : named n (addTo g l k).links = some (.data d) := by
    rw [addTo, Obj.links, named_append_none (F.links n hm), h2]
  rw [this]

theorem boxOf_ints (b : Box3i) : boxOf (boxInts b) = b := by
  obtain ⟨⟨a, b, c⟩, ⟨d, e, f⟩⟩ := b; rfl

theorem readWindows_add (g : Obj) (F : Free g) (l : List (Name × Attr)) (k : List (Name × Obj)) (a b : Box3i)
    (h1 : named kVersion l = some (.ints [1])) (h2 : named kExtents l = some (.ints (boxInts a)))
    (h3 : named kDataWindow l = some (.ints (boxInts b))) : readWindows (addTo g l k) = .ok (a, b) := by
  unfold readWindows
  rw [getInt_add g F l k kVersion 1 (by decide) h1, getInts_add g F l k kExtents 6 _ (by decide) h2 rfl,
    getInts_add g F l k kDataWindow 6 _ (by decide) h3 rfl]
  simp [Res.bind, boxOf_ints]

theorem asInt_small (n : Nat) (h : n < 2 ^ 31) : asInt n = n := by
  unfold asInt; omega

theorem chunkSize_le (n : Nat) : chunkSize n ≤ n := by
  unfold chunkSize; omega

theorem putChunked_add (gzip : Bool) (g : Obj) (F : Free g) (l : List (Name × Attr)) (k : List (Name × Obj)) (n : Name)
    (type : HType) (total : Nat) (bytes : List UInt8) (hm : n ∈ dataNames) (h2 : named n k = none)
    (hg : gzip = true → 2 ≤ total) :
    putChunked gzip n type total bytes (addTo g l k) = (.ok, addTo g l (k ++ [(n, .data ⟨type, [total], [bytes]⟩)])) := by
  unfold putChunked
  cases gzip with
  | true =>
    have := hg rfl
    rw [if_pos rfl, if_neg (by unfold chunkSize; omega)]
    refine must_ok (putData_add g l k n _ _ (F.links n hm) h2 ?_)
    intro x hx p hp
    cases hx
    simp only [List.zip_cons_cons, List.zip_nil_left, List.mem_singleton] at hp
    subst hp
    exact chunkSize_le total
  | false =>
    rw [if_neg (by simp)]
    exact must_ok (putData_add g l k n _ _ (F.links n hm) h2 (by simp))

/-- With gzip a dataset of fewer than two values cannot be made. -/
theorem putChunked_small (n : Name) (type : HType) (total : Nat) (bytes : List UInt8) (h : total < 2) (g : Obj) :
    putChunked true n type total bytes g = (.failed, g) := by
  unfold putChunked
  rw [if_pos rfl, if_pos (by unfold chunkSize; omega)]

/-- The attributes of a dense layer. -/
def denseAttrs {α : Type} (e : Elem α) (f : Dense α) : List (Name × Attr) :=
  [(kVersion, .ints [1]), (kExtents, .ints (boxInts f.extents)), (kDataWindow, .ints (boxInts f.dw)),
   (kComponents, .ints [(dims e.type : Int)]), (kBits, .ints [(bits e.type : Int)])]

/-- The number of values fits an `int`. -/
def DenseFits {α : Type} (e : Elem α) (f : Dense α) : Prop :=
  fitsInt f.memXY ∧ fitsInt (f.memXY * f.dw.res.z) ∧ fitsInt (f.memXY * f.dw.res.z * dims e.type)

theorem writeDense_head {α : Type} (gzip : Bool) (e : Elem α) (f : Dense α) (g : Obj) (F : Free g) (hf : f.WF)
    (hi : DenseFits e f) :
    writeDense gzip e f g = putChunked gzip kData (htype e.type) (f.memXY * f.dw.res.z * dims e.type).toNat
      (e.encAll f.data) (addTo g (denseAttrs e f) []) := by
  have hlen := dense_length f hf
  unfold writeDense
  conv => lhs; rw [← addTo_nil F.group]
  rw [seq_ok (must_ok (put_field g F _ _ _ _ (by decide) rfl)), if_pos ⟨hi.1, hi.2.1, hi.2.2, by omega⟩,
    seq_ok (must_ok (put_field g F _ _ _ _ (by decide) rfl)), seq_ok (must_ok (put_field g F _ _ _ _ (by decide) rfl)),
    seq_ok (must_ok (put_field g F _ _ _ _ (by decide) rfl)), seq_ok (put_field g F _ _ _ _ (by decide) rfl), hlen,
    List.take_length]
  rfl

theorem dense_total {α : Type} (e : Elem α) (f : Dense α) (hf : f.WF) :
    (f.memXY * f.dw.res.z * dims e.type).toNat = f.data.length * dims e.type := by
  have hlen := dense_length f hf
  have hpos := dense_nonempty f hf
  have : f.memXY * f.dw.res.z = (f.data.length : Int) := by omega
  rw [this, ← Int.natCast_mul, Int.toNat_natCast]

theorem dims_pos (t : DataType) : 0 < dims t := by cases t <;> simp [dims]

theorem writeDense_ok {α : Type} (gzip : Bool) (e : Elem α) (f : Dense α) (g : Obj) (F : Free g) (hf : f.WF)
    (hi : DenseFits e f) (hg : gzip = true → 2 ≤ f.data.length * dims e.type) :
    writeDense gzip e f g = (.ok, addTo g (denseAttrs e f)
      [(kData, .data ⟨htype e.type, [f.data.length * dims e.type], [e.encAll f.data]⟩)]) := by
  rw [writeDense_head gzip e f g F hf hi, dense_total e f hf,
    putChunked_add gzip g F _ [] kData _ _ _ (by decide) rfl hg]
  rfl

theorem readInto_same {α : Type} (conv : HType → HType → List UInt8 → List UInt8) (e : Elem α) (L : Lawful e)
    (ds : List Nat) (xs buf : List α) (h : buf.length = xs.length) :
    readInto conv e ⟨htype e.type, ds, [e.encAll xs]⟩ buf = .ok xs := by
  unfold readInto DataSet.bytesAs
  rw [if_pos rfl]
  simp only [List.flatten_cons, List.flatten_nil, List.append_nil]
  rw [overlay_encAll L xs buf h]

theorem readDense_back {α : Type} (conv : HType → HType → List UInt8 → List UInt8) (e : Elem α) (L : Lawful e)
    (hv : isVoxelType e.type = true) (dflt : α) (f : Dense α) (g : Obj) (F : Free g) (hf : f.WF) (hi : DenseFits e f) :
    readDense conv e dflt (addTo g (denseAttrs e f)
      [(kData, .data ⟨htype e.type, [f.data.length * dims e.type], [e.encAll f.data]⟩)]) = .ok f := by
  have hlen := dense_length f hf
  have hpos := dense_nonempty f hf
  unfold readDense
  rw [readWindows_add g F _ _ f.extents f.dw rfl rfl rfl, bind_ok,
    getInt_add g F _ _ kComponents (dims e.type) (by decide) rfl, bind_ok,
    getData_add g F _ _ kData _ (by decide) rfl, bind_ok]
  simp only [extent1, bind_ok]
  obtain ⟨h1, h2, h3, p1, p2, p3⟩ := f.dw.dims hf.ne
  have hsz : f.dw.max - f.dw.min + V3i.all 1 = f.dw.res := rfl
  obtain ⟨i1, i2, i3⟩ := hi
  have hxy : f.memXY = f.dw.res.x * f.dw.res.y := by
    rw [hf.mxy]
    have q1 : f.dw.res.x = (f.dw.nx : Nat) := by simp [Box3i.res]; omega
    have q2 : f.dw.res.y = (f.dw.ny : Nat) := by simp [Box3i.res]; omega
    rw [q1, q2]
  rw [hsz, ← hxy, if_neg (by simp [i1, i2]), if_neg (by have := dims_pos e.type; omega)]
  have hdiv : f.data.length * dims e.type / ((dims e.type : Int)).toNat = f.data.length := by
    rw [Int.toNat_natCast, Nat.mul_div_cancel _ (dims_pos e.type)]
  have hvol : f.memXY * f.dw.res.z = (f.data.length : Int) := by omega
  rw [hdiv, asInt_small _ (by unfold fitsInt at i2; omega), hvol, if_neg (show ¬ ((dims e.type : Int) < 0) by omega), if_neg (by simp), if_pos (by simp [hv])]
  obtain ⟨f0, e1, w0, e2, e3, e4⟩ := Dense.setSize_ok (dflt := dflt) (e := f.extents) hf.ne
  rw [e1]
  dsimp only
  rw [readInto_same conv e L _ f.data f0.data (by rw [e4, List.length_replicate, hf.len]), bind_ok]
  simp only [Res.ok.injEq]
  have a := hf.mx; have b := hf.mxy; have c := w0.mx; have d := w0.mxy
  rw [e2] at c d
  cases f; cases f0
  simp_all

/-! ## MAC fields -/

/-- The codec is exact on the given values. -/
structure Exact {α : Type} (e : Elem α) (xs : List α) : Prop where
  size : ∀ x ∈ xs, (e.enc x).length = e.type.bytes
  inv : ∀ x ∈ xs, e.dec (e.enc x) = x

theorem Exact.of {α : Type} {e : Elem α} (L : Lawful e) (xs : List α) : Exact e xs :=
  ⟨fun x _ => L.size x, fun x _ => L.inv x⟩

theorem exact_length {α : Type} {e : Elem α} : ∀ (xs : List α), Exact e xs →
    (e.encAll xs).length = xs.length * e.type.bytes
  | [], _ => by simp [Elem.encAll]
  | x :: xs, h => by
    have ih := exact_length xs ⟨fun y hy => h.size y (List.mem_cons_of_mem _ hy), fun y hy => h.inv y (List.mem_cons_of_mem _ hy)⟩
    simp only [Elem.encAll, List.flatMap_cons, List.length_append, List.length_cons] at ih ⊢
    rw [h.size x List.mem_cons_self, ih, Nat.add_mul]
    omega

theorem exact_decAll {α : Type} {e : Elem α} : ∀ (xs : List α), Exact e xs → ∀ rest,
    e.decAll xs.length (e.encAll xs ++ rest) = xs
  | [], _, _ => rfl
  | x :: xs, h, rest => by
    have ih := exact_decAll xs ⟨fun y hy => h.size y (List.mem_cons_of_mem _ hy), fun y hy => h.inv y (List.mem_cons_of_mem _ hy)⟩ rest
    have hs := h.size x List.mem_cons_self
    simp only [Elem.encAll, List.flatMap_cons, List.length_cons, List.append_assoc] at ih ⊢
    rw [Elem.decAll, List.take_left' hs, List.drop_left' hs, h.inv x List.mem_cons_self, ih]

theorem readInto_exact {α : Type} (conv : HType → HType → List UInt8 → List UInt8) (e : Elem α)
    (ds : List Nat) (xs buf : List α) (E : Exact e xs) (E0 : Exact e buf)
    (h : buf.length = xs.length) :
    readInto conv e ⟨htype e.type, ds, [e.encAll xs]⟩ buf = .ok xs := by
  unfold readInto DataSet.bytesAs
  rw [if_pos rfl]
  simp only [List.flatten_cons, List.flatten_nil, List.append_nil]
  rw [Elem.overlay, if_pos (by rw [exact_length _ E, exact_length _ E0, h]; exact Nat.le_refl _), h, exact_decAll _ E]

def macAttrs (e : Elem Rat) (f : Mac) : List (Name × Attr) :=
  [(kVersion, .ints [1]), (kExtents, .ints (boxInts f.extents)), (kDataWindow, .ints (boxInts f.dw)),
   (kComponents, .ints [3]), (kBits, .ints [(bits e.type : Int)])]

def macData (e : Elem Rat) (f : Mac) : List (Name × Obj) :=
  [(kUData, .data ⟨htype e.type, [f.cu.data.length], [e.encAll f.cu.data]⟩),
   (kVData, .data ⟨htype e.type, [f.cv.data.length], [e.encAll f.cv.data]⟩),
   (kWData, .data ⟨htype e.type, [f.cw.data.length], [e.encAll f.cw.data]⟩)]

theorem writeMacComp_ok (gzip : Bool) (e : Elem Rat) (g : Obj) (F : Free g) (l : List (Name × Attr))
    (k : List (Name × Obj)) (n : Name) (c : Mac.Comp) (hm : n ∈ dataNames) (h2 : named n k = none)
    (hi : fitsInt c.data.length) (hg : gzip = true → 2 ≤ c.data.length) :
    writeMacComp gzip e n c (addTo g l k) =
      (.ok, addTo g l (k ++ [(n, .data ⟨htype e.type, [c.data.length], [e.encAll c.data]⟩)])) := by
  unfold writeMacComp
  rw [if_pos hi]
  exact must_ok (putChunked_add gzip g F l k n _ _ _ hm h2 hg)

theorem writeMac_ok (gzip : Bool) (e : Elem Rat) (f : Mac) (g : Obj) (F : Free g)
    (hi : ∀ c, fitsInt (f.comp c).data.length) (hg : gzip = true → ∀ c, 2 ≤ (f.comp c).data.length) :
    writeMac gzip e f g = (.ok, addTo g (macAttrs e f) (macData e f)) := by
  unfold writeMac
  conv => lhs; rw [← addTo_nil F.group]
  rw [seq_ok (must_ok (put_field g F _ _ _ _ (by decide) rfl)),
    seq_ok (must_ok (put_field g F _ _ _ _ (by decide) rfl)), seq_ok (must_ok (put_field g F _ _ _ _ (by decide) rfl)),
    seq_ok (must_ok (put_field g F _ _ _ _ (by decide) rfl)), seq_ok (must_ok (put_field g F _ _ _ _ (by decide) rfl)),
    seq_ok (writeMacComp_ok gzip e g F _ _ kUData f.cu (by decide) rfl (hi .u) (fun h => hg h .u)),
    seq_ok (writeMacComp_ok gzip e g F _ _ kVData f.cv (by decide) rfl (hi .v) (fun h => hg h .v)),
    writeMacComp_ok gzip e g F _ _ kWData f.cw (by decide) rfl (hi .w) (fun h => hg h .w)]
  rfl

theorem bitsMatch_bits (t : DataType) (h : isVoxelType t = true) : bitsMatch (bits t) t = true := by
  cases t <;> first | rfl | simp [isVoxelType] at h

theorem readMacComp_ok (conv : HType → HType → List UInt8 → List UInt8) (e : Elem Rat) (g : Obj) (F : Free g)
    (l : List (Name × Attr)) (k : List (Name × Obj)) (n : Name) (xs : List Rat) (c : Mac.Comp) (hm : n ∈ dataNames)
    (h2 : named n k = some (.data ⟨htype e.type, [xs.length], [e.encAll xs]⟩)) (E : Exact e xs)
    (E0 : Exact e c.data) (h : c.data.length = xs.length) :
    readMacComp conv e n c (addTo g l k) = .ok { c with data := xs } := by
  unfold readMacComp
  rw [getData_add g F l k n _ hm h2, bind_ok]
  simp only [extent1, bind_ok]
  rw [readInto_exact conv e _ xs c.data E E0 h, bind_ok]

/-- A MAC field is the windows and the values of its components. -/
theorem mac_eq {f h : Mac} (wf : f.WF) (wh : h.WF) (he : h.extents = f.extents) (hd : h.dw = f.dw) :
    (⟨h.extents, h.dw, { h.cu with data := f.cu.data }, { h.cv with data := f.cv.data },
      { h.cw with data := f.cw.data }⟩ : Mac) = f := by
  have su := wf.size .u; have sv := wf.size .v; have sw := wf.size .w
  have tu := wh.size .u; have tv := wh.size .v; have tw := wh.size .w
  have xu := wf.xy .u; have xv := wf.xy .v; have xw := wf.xy .w
  have yu := wh.xy .u; have yv := wh.xy .v; have yw := wh.xy .w
  simp only [Mac.comp] at su sv sw tu tv tw xu xv xw yu yv yw
  rw [hd, ← su] at tu
  rw [hd, ← sv] at tv
  rw [hd, ← sw] at tw
  rw [tu, ← xu] at yu
  rw [tv, ← xv] at yv
  rw [tw, ← xw] at yw
  dsimp only
  rw [he, hd, tu, tv, tw, yu, yv, yw]

theorem exact_resize {e : Elem Rat} {l : List Rat} (n : Nat) (E : Exact e l) (E0 : Exact e [0]) :
    Exact e (Mac.resizeVec l n) := by
  have : ∀ x ∈ Mac.resizeVec l n, x ∈ l ∨ x = 0 := by
    intro x hx
    unfold Mac.resizeVec at hx
    rcases List.mem_append.mp hx with h | h
    · exact .inl (List.mem_of_mem_take h)
    · exact .inr (List.mem_replicate.mp h).2
  constructor
  · intro x hx
    rcases this x hx with h | h
    · exact E.size x h
    · subst h; exact E0.size 0 (by simp)
  · intro x hx
    rcases this x hx with h | h
    · exact E.inv x h
    · subst h; exact E0.inv 0 (by simp)

theorem readMac_back (conv : HType → HType → List UInt8 → List UInt8) (e : Elem Rat) (hv : isVoxelType e.type = true)
    (f init : Mac) (g : Obj) (F : Free g) (wf : f.WF) (E : ∀ c, Exact e (f.comp c).data)
    (Ei : ∀ c, Exact e (init.comp c).data) (E0 : Exact e [0]) :
    readMac conv e init (addTo g (macAttrs e f) (macData e f)) = .ok f := by
  obtain ⟨h, h1, h2, h3, h4, h5⟩ := Mac.setSize_spec init f.extents f.dw wf.nonneg
  unfold readMac
  rw [readWindows_add g F _ _ f.extents f.dw rfl rfl rfl, bind_ok,
    getInt_add g F _ _ kComponents 3 (by decide) rfl, bind_ok,
    getInt_add g F _ _ kBits (bits e.type) (by decide) rfl, bind_ok, if_pos (bitsMatch_bits _ hv)]
  dsimp only
  rw [h1]
  dsimp only
  have hl : ∀ c, (h.comp c).data.length = (f.comp c).data.length := by
    intro c
    rw [h2.len c, wf.len c, h2.size c, wf.size c, h3]
  have hE : ∀ c, Exact e (h.comp c).data := by
    intro c
    rw [h5 c]
    exact exact_resize _ (Ei c) E0
  rw [readMacComp_ok conv e g F _ _ kUData f.cu.data h.cu (by decide) rfl (E .u) (hE .u) (hl .u), bind_ok,
    readMacComp_ok conv e g F _ _ kVData f.cv.data h.cv (by decide) rfl (E .v) (hE .v) (hl .v), bind_ok,
    readMacComp_ok conv e g F _ _ kWData f.cw.data h.cw (by decide) rfl (E .w) (hE .w) (hl .w), bind_ok]
  exact congrArg Res.ok (mac_eq wf h2 h4 h3)

/-! ## Sparse fields -/

def sparseAttrs {α : Type} (e : Elem α) (f : Sparse α) : List (Name × Attr) :=
  [(kVersion, .ints [1]), (kExtents, .ints (boxInts f.extents)), (kDataWindow, .ints (boxInts f.dw)),
   (kComponents, .ints [(dims e.type : Int)]), (kBlockOrder, .ints [(f.order : Int)]),
   (kNumBlocks, .ints [f.bres.x * f.bres.y * f.bres.z]), (kBlockRes, .ints [f.bres.x, f.bres.y, f.bres.z]),
   (kBits, .ints [(bits e.type : Int)]),
   (kOccupied, .ints [((f.blocks.filter (·.isAllocated)).length : Int)])]

/-- The data of the allocated blocks in the order of the table. -/
def dataRows {α : Type} (e : Elem α) (bs : List (Block α)) : List (List UInt8) :=
  (bs.filter (·.isAllocated)).map fun b => e.encAll (b.data.getD [])

def sparseLinks {α : Type} (e : Elem α) (f : Sparse α) : List (Name × Obj) :=
  [(kAllocated, .data ⟨.char, [f.blocks.length], [f.blocks.map fun b => if b.isAllocated then 1 else 0]⟩),
   (kEmpty, .data ⟨htype e.type, [f.blocks.length * dims e.type], [e.encAll (f.blocks.map (·.emptyValue))]⟩)] ++
  (if 0 < (f.blocks.filter (·.isAllocated)).length then
    [(kData, .data ⟨htype e.type, [(f.blocks.filter (·.isAllocated)).length, numVoxels f.order * dims e.type],
      dataRows e f.blocks⟩)] else [])

/-- The sizes fit an `int`. -/
def SparseFits {α : Type} (e : Elem α) (f : Sparse α) : Prop :=
  fitsInt (numVoxels f.order * dims e.type : Nat) ∧ fitsInt (f.bres.x * f.bres.y) ∧
    fitsInt (f.bres.x * f.bres.y * f.bres.z)

theorem rowsOf_ok {α : Type} (e : Elem α) (o : Nat) : ∀ (bs : List (Block α)),
    (∀ b ∈ bs, b.isAllocated = true → ∃ d, b.data = some d ∧ d.length = numVoxels o) →
    rowsOf e o bs = some (dataRows e bs)
  | [], _ => rfl
  | b :: bs, h => by
    have ih := rowsOf_ok e o bs (fun x hx => h x (List.mem_cons_of_mem _ hx))
    unfold rowsOf dataRows at ih ⊢
    by_cases ha : b.isAllocated = true
    · obtain ⟨d, hd, hl⟩ := h b List.mem_cons_self ha
      rw [List.filter_cons_of_pos ha, List.mapM_cons, ih]
      unfold rowBytes
      rw [hd]
      dsimp only
      rw [if_pos (by omega), ← hl, List.take_length]
      simp [hd]
    · rw [List.filter_cons_of_neg ha, ih]

theorem kdata_free (e1 e2 : Obj) : named kData [(kAllocated, e1), (kEmpty, e2)] = none := rfl

theorem writeSparse_ok {α : Type} (gzip : Bool) (e : Elem α) (f : Sparse α) (g : Obj) (F : Free g) (hf : f.WF)
    (hi : SparseFits e f) :
    writeSparse gzip e f g = (.ok, addTo g (sparseAttrs e f) (sparseLinks e f)) := by
  have hn : (f.bres.x * f.bres.y * f.bres.z).toNat = f.blocks.length := by rw [numBlocks_eq f hf, Int.toNat_natCast]
  unfold writeSparse
  conv => lhs; rw [← addTo_nil F.group]
  rw [seq_ok (put_field g F _ _ _ _ (by decide) rfl), hn, if_pos ⟨hi.1, hi.2.1, hi.2.2, Nat.le_refl _⟩,
    List.take_length]
  rw [seq_ok (put_field g F _ _ _ _ (by decide) rfl), seq_ok (put_field g F _ _ _ _ (by decide) rfl),
    seq_ok (put_field g F _ _ _ _ (by decide) rfl), seq_ok (put_field g F _ _ _ _ (by decide) rfl),
    seq_ok (put_field g F _ _ _ _ (by decide) rfl), seq_ok (put_field g F _ _ _ _ (by decide) rfl),
    seq_ok (put_field g F _ _ _ _ (by decide) rfl)]
  unfold putSimple
  rw [seq_ok (must_ok (putData_add g _ _ kAllocated none _ (F.links _ (by decide)) rfl (by simp))),
    seq_ok (must_ok (putData_add g _ _ kEmpty none _ (F.links _ (by decide)) rfl (by simp))),
    seq_ok (must_ok (put_field g F _ _ _ _ (by decide) rfl))]
  by_cases ho : 0 < (f.blocks.filter (·.isAllocated)).length
  · rw [if_pos ho, rowsOf_ok e f.order f.blocks (by
      intro b hb ha
      have hb' := hf.blk b hb
      rw [Sparse.BWF, if_pos ha] at hb'
      obtain ⟨d, hd, hl⟩ := hb'
      exact ⟨d, hd, by rw [hl, nv_eq]⟩)]
    dsimp only
    rw [must_ok (putData_add g _ _ kData _ _ (F.links _ (by decide)) rfl (by
      intro x hx p hp
      cases gzip with
      | false => simp at hx
      | true =>
        simp only [if_true, Option.some.injEq] at hx
        subst hx
        simp only [List.zip_cons_cons, List.zip_nil_left, List.mem_cons, List.not_mem_nil, or_false] at hp
        rcases hp with rfl | rfl
        · exact ho
        · exact Nat.le_refl _))]
    unfold sparseLinks
    rw [if_pos ho]
    rfl
  · rw [if_neg ho]
    unfold sparseLinks done
    rw [if_neg ho]
    rfl

/-- The row of an allocated block. -/
theorem filter_rowOf {β : Type} (p : β → Bool) : ∀ (bs : List β) (i : Nat) (b : β), bs[i]? = some b → p b = true →
    (bs.filter p)[Props.rowOf (bs.map p) i]? = some b
  | [], i, b, h, _ => by simp at h
  | x :: xs, 0, b, h, hp => by
    simp only [List.getElem?_cons_zero, Option.some.injEq] at h
    subst h
    simp [Props.rowOf, hp]
  | x :: xs, i + 1, b, h, hp => by
    rw [List.getElem?_cons_succ] at h
    have ih := filter_rowOf p xs i b h hp
    unfold Props.rowOf at ih ⊢
    rw [List.map_cons, List.take_succ_cons, List.count_cons]
    by_cases hx : p x = true
    · rw [List.filter_cons_of_pos hx, hx]
      simpa using ih
    · rw [List.filter_cons_of_neg hx]
      simpa [hx] using ih

theorem count_flags {β : Type} (p : β → Bool) (bs : List β) : (bs.map p).count true = (bs.filter p).length := by
  rw [List.count_eq_length_filter, List.filter_map, List.length_map]
  congr 2
  funext x
  simp

theorem getSimple_back {β : Type} (conv : HType → HType → List UInt8 → List UInt8) (e : Elem β) (L : Lawful e) (dflt : β)
    (g : Obj) (F : Free g) (l : List (Name × Attr)) (k : List (Name × Obj)) (n : Name) (xs : List β) (hm : n ∈ dataNames)
    (h : named n k = some (.data ⟨htype e.type, [xs.length * dims e.type], [e.encAll xs]⟩)) :
    getSimple conv e dflt n (addTo g l k) = .ok xs := by
  unfold getSimple
  rw [getData_add g F l k n _ hm h, bind_ok]
  simp only [extent1, bind_ok]
  rw [Nat.mul_div_cancel _ (dims_pos e.type), readInto_same conv e L _ xs _ (by simp)]

theorem any_flags {β : Type} (p : β → Bool) (bs : List β) : (bs.map p).any id = true ↔ 0 < (bs.filter p).length := by
  rw [List.length_pos_iff_exists_mem]
  simp

/-- The blocks after the passes are the blocks that were written. -/
theorem blocks_back {α : Type} (e : Elem α) (L : Lawful e) (zero : α) (nv max size : Nat) (hmax : 0 < max)
    (bs : List (Block α)) (hb : ∀ b ∈ bs, Sparse.BWF nv b) (ho : 0 < (bs.filter (·.isAllocated)).length) :
    ∃ ds, Hdf5Blocks.passes max size ((dataRows e bs).map fun r => some (e.decAll nv r))
        (Hdf5Blocks.numbered (bs.map (·.isAllocated))) 0 ((bs.map (blank zero nv)).map (·.data)) = some ds ∧
      ((bs.map (blank zero nv)).mapIdx fun i b => { b with data := (ds[i]?).getD b.data }) = bs := by
  have hc := count_flags (·.isAllocated) bs
  have key := Props.C41_every_block_gets_its_row max size hmax (bs.map (·.isAllocated))
    ((dataRows e bs).map fun r => some (e.decAll nv r)) ((bs.map (blank zero nv)).map (·.data)) (by simp)
    (by rw [hc]; simp [dataRows])
  unfold Hdf5Blocks.readAllBlocks at key
  rw [if_pos (by omega), if_pos (by rw [hc]; simp [dataRows])] at key
  refine ⟨_, key, ?_⟩
  apply List.ext_getElem?
  intro i
  rw [List.getElem?_mapIdx, List.getElem?_map]
  cases hi : bs[i]? with
  | none => rfl
  | some b =>
    simp only [Option.map_some, Option.some.injEq]
    have hw := hb b (List.mem_of_getElem? hi)
    unfold Props.expected
    rw [List.getElem?_mapIdx]
    simp only [List.getElem?_map, hi, Option.map_some, Option.some.injEq, Option.getD_some]
    unfold Sparse.BWF at hw
    by_cases ha : b.isAllocated = true
    · rw [if_pos ha] at hw
      obtain ⟨d, hd, hl⟩ := hw
      rw [if_pos ha, dataRows, List.getElem?_map, filter_rowOf (·.isAllocated) bs i b hi ha]
      simp only [Option.map_some, Option.getD_some]
      have := decAll_encAll L d []
      rw [List.append_nil, hl] at this
      rw [hd, Option.getD_some, this]
      cases b
      simp only [blank] at *
      simp_all
    · rw [if_neg ha] at hw
      rw [if_neg ha]
      cases b
      simp only [blank] at *
      simp_all

theorem readSparse_back {α : Type} (conv : HType → HType → List UInt8 → List UInt8) (maxMem : Nat) (hmax : 0 < maxMem)
    (e : Elem α) (L : Lawful e) (hv : isVoxelType e.type = true) (zero dflt : α) (f : Sparse α) (g : Obj) (F : Free g)
    (hf : f.WF) (hfit : Sparse.Fits f.dw) (hi : SparseFits e f) :
    readSparse conv maxMem e zero dflt (addTo g (sparseAttrs e f) (sparseLinks e f)) = .ok f := by
  have hn := numBlocks_eq f hf
  unfold readSparse
  rw [readWindows_add g F _ _ f.extents f.dw rfl rfl rfl, bind_ok,
    getInt_add g F _ _ kComponents (dims e.type) (by decide) rfl, bind_ok,
    getInt_add g F _ _ kBlockOrder f.order (by decide) rfl, bind_ok,
    getInt_add g F _ _ kNumBlocks (f.bres.x * f.bres.y * f.bres.z) (by decide) rfl, bind_ok,
    getInts_add g F _ _ kBlockRes 3 [f.bres.x, f.bres.y, f.bres.z] (by decide) rfl rfl, bind_ok]
  simp only [List.getD_cons_zero, List.getD_cons_succ]
  rw [if_neg (by simp [hi.2.1, hi.2.2]), if_neg (by simp), if_neg (by omega),
    getInt_add g F _ _ kOccupied _ (by decide) rfl, bind_ok,
    getInt_add g F _ _ kBits (bits e.type) (by decide) rfl, bind_ok, if_pos (by simp [bitsMatch_bits _ hv, hv]),
    Int.toNat_natCast, if_neg (by have := hi.1; push_cast at this; simp [this]), hn, Int.toNat_natCast, fresh_eq zero f hf hfit]
  unfold readSparseData
  rw [getInt_add g F _ _ kOccupied _ (by decide) rfl, bind_ok]
  have e1 : getSimple conv byteElem 0 kAllocated (addTo g (sparseAttrs e f) (sparseLinks e f)) =
      .ok (f.blocks.map fun b => if b.isAllocated then 1 else 0) := by
    apply getSimple_back conv byteElem byteElem_lawful 0 g F _ _ kAllocated _ (by decide)
    rw [encAll_byte]
    simp [sparseLinks, named, byteElem, htype, dims]
  have e2 : getSimple conv e dflt kEmpty (addTo g (sparseAttrs e f) (sparseLinks e f)) =
      .ok (f.blocks.map (·.emptyValue)) := by
    apply getSimple_back conv e L dflt g F _ _ kEmpty _ (by decide)
    rw [List.length_map]
    have : (kEmpty == kAllocated) = false := rfl
    rfl
  rw [e1, bind_ok]
  dsimp only
  rw [if_neg (by simp), e2, bind_ok, if_neg (by simp)]
  have t1 : (f.blocks.map fun b => if b.isAllocated then (1 : UInt8) else 0).take f.blocks.length =
      f.blocks.map fun b => if b.isAllocated then (1 : UInt8) else 0 := List.take_of_length_le (by simp)
  have t2 : (f.blocks.map (·.emptyValue)).take f.blocks.length = f.blocks.map (·.emptyValue) :=
    List.take_of_length_le (by simp)
  rw [t1, t2, alloc_bytes, setupRead_fresh]
  by_cases ho : 0 < (f.blocks.filter (·.isAllocated)).length
  · rw [if_pos ⟨by omega, (any_flags _ _).mpr ho⟩]
    have e3 : getRows conv (htype e.type) (numVoxels f.order * dims e.type)
        ((f.blocks.filter (·.isAllocated)).length : Int) (addTo g (sparseAttrs e f) (sparseLinks e f)) =
        .ok (dataRows e f.blocks) := by
      unfold getRows
      rw [getData_add g F _ _ kData ⟨htype e.type, [(f.blocks.filter (·.isAllocated)).length, numVoxels f.order * dims e.type],
        dataRows e f.blocks⟩ (by decide) (by rw [sparseLinks, if_pos ho]; rfl), bind_ok]
      simp
    rw [e3, bind_ok]
    obtain ⟨ds, h1, h2⟩ := blocks_back e L zero (numVoxels f.order) maxMem (e.type.bytes * numVoxels f.order) hmax
      f.blocks (by rw [← nv_eq]; exact hf.blk) ho
    rw [h1]
    dsimp only
    rw [h2]
  · rw [if_neg (by omega)]
    have : f.blocks.map (blank zero (numVoxels f.order)) = f.blocks := by
      conv => rhs; rw [← List.map_id f.blocks]
      apply List.map_congr_left
      intro b hb
      have ha : b.isAllocated = false := by
        rw [List.length_pos_iff_exists_mem] at ho
        simp only [List.mem_filter, not_exists, not_and, Bool.not_eq_true] at ho
        exact ho b hb
      have hw := hf.blk b hb
      rw [Sparse.BWF, if_neg (by simp [ha])] at hw
      cases b
      simp only [blank, id] at *
      simp_all
    rw [this]

end Hdf5
end F3D
