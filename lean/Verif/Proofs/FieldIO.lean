import Verif.Model.FieldIO
import Verif.Props.Og
import Verif.Props.BlockThreads
import Verif.Proofs.Dense
import Verif.Proofs.Sparse

/-! Lemmas for C37, C38. -/

namespace F3D.FieldIO
open Ogawa Og BlockThreads Props

/-- The memory image of a value has the size of its type and determines the value. -/
structure Lawful {α : Type} (e : Elem α) : Prop where
  size : ∀ a, (e.enc a).length = e.type.bytes
  inv : ∀ a, e.dec (e.enc a) = a

section Arrays
variable {α : Type} {e : Elem α} (L : Lawful e)
include L

theorem encAll_length (xs : List α) : (e.encAll xs).length = xs.length * e.type.bytes := by
  induction xs with
  | nil => simp [Elem.encAll]
  | cons x xs ih =>
    rw [Elem.encAll, List.flatMap_cons, List.length_append, L.size, List.length_cons, Nat.succ_mul]
    have : (List.flatMap e.enc xs).length = xs.length * e.type.bytes := ih
    omega

theorem decAll_encAll (xs : List α) (rest : List UInt8) : e.decAll xs.length (e.encAll xs ++ rest) = xs := by
  induction xs with
  | nil => rfl
  | cons x xs ih =>
    have h1 : e.encAll (x :: xs) ++ rest = e.enc x ++ (e.encAll xs ++ rest) := by
      simp [Elem.encAll, List.flatMap_cons]
    rw [h1, List.length_cons, Elem.decAll, List.take_left' (L.size x), List.drop_left' (L.size x), L.inv, ih]

theorem overlay_encAll (xs buf : List α) (h : buf.length = xs.length) : e.overlay buf (e.encAll xs) = some xs := by
  rw [Elem.overlay, if_pos (by rw [encAll_length L, encAll_length L, h]; exact Nat.le_refl _), h, decAll_encAll L]

end Arrays

theorem byteElem_lawful : Lawful byteElem := ⟨fun _ => rfl, fun _ => rfl⟩

theorem unle_le32 (n : Nat) (h : n < 2 ^ 32) : unle (le32 n) = n := by
  simp only [le32, unle, UInt8.toNat_ofNat']
  omega

theorem decInt_encInt (i : Int) (h : -2 ^ 31 ≤ i ∧ i < 2 ^ 31) : decInt (encInt i) = i := by
  have : (i % 2 ^ 32).toNat < 2 ^ 32 := by omega
  rw [decInt, encInt, unle_le32 _ this]
  generalize hm : (i % 2 ^ 32).toNat = m at *
  show (if m < 2 ^ 31 then (m : Int) else m - 2 ^ 32) = i
  split <;> omega

/-- Coordinates that an `int` holds. -/
def I32 (i : Int) : Prop := -2 ^ 31 ≤ i ∧ i < 2 ^ 31
def V32 (v : V3i) : Prop := I32 v.x ∧ I32 v.y ∧ I32 v.z

theorem decV3i_encV3i (v : V3i) (h : V32 v) : decV3i (encV3i v) = v := by
  have l : ∀ i, (encInt i).length = 4 := fun _ => rfl
  obtain ⟨x, y, z⟩ := v
  have e1 : (encV3i ⟨x, y, z⟩).take 4 = encInt x := rfl
  have e2 : ((encV3i ⟨x, y, z⟩).drop 4).take 4 = encInt y := rfl
  have e3 : ((encV3i ⟨x, y, z⟩).drop 8).take 4 = encInt z := rfl
  rw [decV3i, e1, e2, e3, decInt_encInt x h.1, decInt_encInt y h.2.1, decInt_encInt z h.2.2]

/-! ## Entries -/

theorem firstOf_skip (k : Kind) (nm : Name) (pre es : List Entry) (h : ∀ x ∈ pre, nameOf x ≠ nm) :
    firstOf k nm (pre ++ es) = firstOf k nm es := by
  induction pre with
  | nil => rfl
  | cons x xs ih =>
    have hx := h x (by simp)
    rw [List.cons_append, firstOf, List.find?_cons_of_neg (by simp [hx])]
    exact ih (fun y hy => h y (by simp [hy]))

theorem attr_get (g nm : Name) (t : DataType) (v : List UInt8) (es : List Entry) (hs : (47 : UInt8) ∉ nm)
    (hn : ∀ x ∈ es, plainName (nameOf x)) (hf : firstOf .attribute nm es = some (.attribute nm t v))
    (ht : t ≠ .string) (hv : v.length = t.bytes) : attr t nm (groupKids g es) = .ok v := by
  obtain ⟨⟨a, h1, h2⟩, _, _⟩ := C36_attribute_round_trip g nm t v es hs hn hf (fun _ => hv)
  rw [if_neg ht] at h2
  simp only [attr, h1, h2]

/-- The dataset found, with the elements written. -/
theorem dataset_get (c : Bool) (g nm : Name) (t : DataType) (els : List (List UInt8)) (es : List Entry)
    (hs : (47 : UInt8) ∉ nm) (hn : ∀ x ∈ es, plainName (nameOf x)) (he : ∀ x ∈ els, x ≠ [])
    (hf : firstOf (if c then .compressed else .dataset) nm es =
      some (if c then .compressed nm t els else .dataset nm t els)) :
    (∃ d, dataset (if c then .compressed else .dataset) t nm (groupKids g es) = .ok d ∧
      numElements d = els.length ∧ ∀ i : Nat, element d i = els[i]?) ∧
    typeOf (if c then .compressed else .dataset) nm (groupKids g es) = some (some (le32 t.code)) := by
  obtain ⟨⟨d, h1, h2, h3⟩, _⟩ := C36_dataset_round_trip c g nm t els es hs hn he hf
  refine ⟨⟨d, by simp only [dataset, h1], h2, h3⟩, ?_⟩
  have hp : plainName nm := by
    have := hn _ (List.mem_of_find?_eq_some hf)
    cases c <;> simpa [nameOf] using this
  obtain ⟨ks, hk⟩ := kidsOf_encode (if c then Entry.compressed nm t els else Entry.dataset nm t els)
  have hfind := ((C35_first_of_kind (if c then .compressed else .dataset) nm g es hs hn).1 ks).2 ⟨_, hf, hk⟩
  obtain ⟨c, hks⟩ := dataset_kids nm t els _ ks hp.1 hk
  rw [typeOf, hfind, hks]
  simp [readDataType, readData, getData, le32]

@[simp] theorem bind_ok {β γ : Type} (b : β) (f : β → Res γ) : (Res.ok b).bind f = f b := rfl

/-- The names the format uses for its own entries. -/
def formatNames : List Name :=
  [kVersion, kExtMin, kExtMax, kDwMin, kDwMax, kComponents, kBits, kData, kBlockOrder, kNumBlocks, kBlockRes,
   kOccupied, kCompressed, kAllocated, kEmpty]

theorem formatNames_ok : ∀ nm ∈ formatNames, (47 : UInt8) ∉ nm ∧ nm ≠ [] ∧ (0 : UInt8) ∉ nm := by decide +kernel

/-- Other entries of a layer group: real names, none of the names of the format. -/
def Foreign (pre : List Entry) : Prop := ∀ x ∈ pre, plainName (nameOf x) ∧ nameOf x ∉ formatNames

theorem foreign_first {pre : List Entry} (h : Foreign pre) (k : Kind) (nm : Name) (hm : nm ∈ formatNames)
    (es : List Entry) : firstOf k nm (pre ++ es) = firstOf k nm es :=
  firstOf_skip k nm pre es fun x hx e => (h x hx).2 (e ▸ hm)

theorem readWindows_ok (g : Name) (es : List Entry) (extents dw : Box3i)
    (hn : ∀ x ∈ es, plainName (nameOf x)) (hx : V32 extents.min ∧ V32 extents.max) (hd : V32 dw.min ∧ V32 dw.max)
    (h0 : firstOf .attribute kVersion es = some (.attribute kVersion .int32 (encInt 1)))
    (h1 : firstOf .attribute kExtMin es = some (.attribute kExtMin .veci32 (encV3i extents.min)))
    (h2 : firstOf .attribute kExtMax es = some (.attribute kExtMax .veci32 (encV3i extents.max)))
    (h3 : firstOf .attribute kDwMin es = some (.attribute kDwMin .veci32 (encV3i dw.min)))
    (h4 : firstOf .attribute kDwMax es = some (.attribute kDwMax .veci32 (encV3i dw.max))) :
    readWindows (groupKids g es) = .ok (extents, dw) := by
  have s := fun nm hm => (formatNames_ok nm hm).1
  rw [readWindows, attr_get g kVersion _ _ es (s _ (by decide)) hn h0 (by decide) rfl,
    attr_get g kExtMin _ _ es (s _ (by decide)) hn h1 (by decide) rfl,
    attr_get g kExtMax _ _ es (s _ (by decide)) hn h2 (by decide) rfl,
    attr_get g kDwMin _ _ es (s _ (by decide)) hn h3 (by decide) rfl,
    attr_get g kDwMax _ _ es (s _ (by decide)) hn h4 (by decide) rfl]
  simp only [bind_ok]
  rw [decInt_encInt 1 (by omega), decV3i_encV3i _ hx.1, decV3i_encV3i _ hx.2, decV3i_encV3i _ hd.1,
    decV3i_encV3i _ hd.2]
  simp

/-! ## Dense -/

theorem dense_length {α : Type} (f : Dense α) (h : f.WF) : (f.memXY * f.dw.res.z).toNat = f.data.length := by
  obtain ⟨h1, h2, h3, p1, p2, p3⟩ := f.dw.dims h.ne
  have hz : f.dw.res.z = (f.dw.nz : Nat) := by simp [Box3i.res]; omega
  rw [hz, h.mxy, h.len, ← Int.natCast_mul, ← Int.natCast_mul, Int.toNat_natCast]
  rfl

theorem dense_nonempty {α : Type} (f : Dense α) (hf : f.WF) : 0 < f.data.length := by
  obtain ⟨_, _, _, p1, p2, p3⟩ := f.dw.dims hf.ne
  rw [hf.len]
  exact Nat.mul_pos (Nat.mul_pos (by omega) (by omega)) (by omega)

theorem readDense_ok {α : Type} (e : Elem α) (L : Lawful e) (hv : isVoxelType e.type = true) (dflt : α) (g : Name)
    (pre post : List Entry) (hp : Foreign pre) (hq : ∀ x ∈ post, plainName (nameOf x)) (f : Dense α) (hf : f.WF)
    (hx : V32 f.extents.min ∧ V32 f.extents.max) (hd : V32 f.dw.min ∧ V32 f.dw.max) :
    readDense e dflt (groupKids g (pre ++ denseEntries e f ++ post)) = .ok f := by
  have hn : ∀ x ∈ pre ++ denseEntries e f ++ post, plainName (nameOf x) := by
    intro x hx
    rw [List.mem_append, List.mem_append] at hx
    rcases hx with (h | h) | h
    · exact (hp x h).1
    · have : nameOf x ∈ formatNames := by
        simp only [denseEntries, windowEntries, List.mem_append, List.mem_cons, List.not_mem_nil, or_false] at h
        rcases h with (rfl | rfl | rfl | rfl | rfl) | rfl | rfl | rfl <;> simp only [nameOf] <;> decide
      exact (formatNames_ok _ this).2
    · exact hq x h
  have ff : ∀ k nm, nm ∈ formatNames →
      firstOf k nm (pre ++ denseEntries e f ++ post) = firstOf k nm (denseEntries e f ++ post) := by
    intro k nm hm
    rw [List.append_assoc, foreign_first hp k nm hm]
  have s := fun nm hm => (formatNames_ok nm hm).1
  have hlen := dense_length f hf
  have hdat : f.data ≠ [] := by
    intro h
    obtain ⟨_, _, _, p1, p2, p3⟩ := f.dw.dims hf.ne
    have h5 := hf.len
    rw [h] at h5
    have : 0 < f.dw.vol := Nat.mul_pos (Nat.mul_pos (by omega) (by omega)) (by omega)
    simp at h5; omega
  have hw := readWindows_ok g _ f.extents f.dw hn hx hd (by rw [ff _ _ (by decide)]; rfl)
    (by rw [ff _ _ (by decide)]; rfl) (by rw [ff _ _ (by decide)]; rfl) (by rw [ff _ _ (by decide)]; rfl)
    (by rw [ff _ _ (by decide)]; rfl)
  have hc := attr_get g kComponents .int32 (encInt (dims e.type)) _ (s _ (by decide)) hn
    (by rw [ff _ _ (by decide)]; rfl) (by decide) rfl
  have hb : 0 < e.type.bytes := by revert hv; cases e.type <;> simp [isVoxelType, DataType.bytes]
  obtain ⟨⟨d, h1, h2, h3⟩, h4⟩ := dataset_get false g kData e.type
    [e.encAll (f.data.take (f.memXY * f.dw.res.z).toNat)] _ (s _ (by decide)) hn
    (by
      intro x hx
      rw [List.mem_singleton] at hx
      intro h0
      rw [h0, hlen, List.take_length] at hx
      have h5 := congrArg List.length hx
      rw [encAll_length L] at h5
      have h6 : 0 < f.data.length := List.length_pos_iff.mpr hdat
      have := Nat.mul_pos h6 hb
      simp at h5; omega)
    (by rw [ff _ _ (by decide)]; rfl)
  simp only [Bool.false_eq_true, if_false] at h1 h4
  rw [readDense, hw, bind_ok, hc, bind_ok, h4]
  simp only [hv, and_self, if_true]
  obtain ⟨f0, e1, w0, e2, e3, e4⟩ := Dense.setSize_ok (dflt := dflt) (e := f.extents) hf.ne
  rw [readDenseData, e1]
  simp only [h1, bind_ok]
  rw [h3 0]
  simp only [List.getElem?_cons_zero]
  rw [hlen, List.take_length, overlay_encAll L f.data f0.data (by rw [e4, List.length_replicate, hf.len])]
  simp only [Res.ok.injEq]
  have a := hf.mx; have b := hf.mxy; have c := w0.mx; have d := w0.mxy
  rw [e2] at c d
  cases f; cases f0
  simp_all

/-! ## Sparse -/

/-- What is assumed of zlib: decompressing into a buffer of the original size gives the original bytes, compressed data
is not empty and is no longer than `compressBound` says. -/
structure ZlibOk (z : Zlib) : Prop where
  ne : ∀ x, z.comp x ≠ []
  bound : ∀ x, (z.comp x).length ≤ z.bound x.length
  inv : ∀ x, z.decomp x.length (z.comp x) = some x

theorem mapM_get {β γ : Type} (f : β → Option γ) : ∀ (l : List β) (r : List γ), l.mapM f = some r →
    r.length = l.length ∧ ∀ i : Nat, r[i]? = (l[i]?).bind f
  | [], r, h => by
    simp at h; subst h; simp
  | x :: xs, r, h => by
    rw [List.mapM_cons] at h
    cases hx : f x with
    | none => rw [hx] at h; simp at h
    | some y =>
      cases hs : xs.mapM f with
      | none => rw [hx, hs] at h; simp at h
      | some ys =>
        rw [hx, hs] at h
        simp at h
        subst h
        obtain ⟨h1, h2⟩ := mapM_get f xs ys hs
        refine ⟨by simp [h1], ?_⟩
        intro i
        cases i with
        | zero => simp [hx]
        | succ i => simpa using h2 i

theorem mapM_some {β γ : Type} (f : β → Option γ) (g : β → γ) (l : List β) (h : ∀ x ∈ l, f x = some (g x)) :
    l.mapM f = some (l.map g) := by
  induction l with
  | nil => rfl
  | cons x xs ih =>
    rw [List.mapM_cons, h x (by simp), ih (fun y hy => h y (by simp [hy]))]
    rfl

/-- The blocks after reading a file whose stored blocks were added in the order `log`: each allocated block gets the
data of the block that was added at its place. -/
def reread {α : Type} (f : Sparse α) (log : List Nat) : List (Block α) :=
  f.blocks.mapIdx fun i b =>
    if b.isAllocated then
      { b with data := ((log[datasetIdx (flags f) i]?).bind (f.blocks[·]?)).bind (·.data) }
    else b

theorem occupied_eq {α : Type} (f : Sparse α) :
    (f.blocks.filter (·.isAllocated)).length = ((flags f).filter id).length := by
  rw [flags, List.filter_map, List.length_map]; rfl

theorem datasetIdx_lt (a : List Bool) (i : Nat) (h : a[i]? = some true) : datasetIdx a i < (a.filter id).length := by
  have hi := (List.getElem?_eq_some_iff.mp h).1
  have e : a = a.take i ++ true :: a.drop (i + 1) := by
    have h1 := List.take_append_drop i a
    rw [List.drop_eq_getElem_cons hi] at h1
    rw [(List.getElem?_eq_some_iff.mp h).2] at h1
    exact h1.symm
  unfold datasetIdx
  conv => rhs; rw [e]
  rw [List.filter_append, List.length_append, List.filter_cons_of_pos (by rfl), List.length_cons]
  omega

/-- The blank block set up before the data is read. -/
def blank {α : Type} (zero : α) (nv : Nat) (b : Block α) : Block α :=
  ⟨b.isAllocated, b.emptyValue, if b.isAllocated then some (List.replicate nv zero) else none⟩

theorem setupRead_fresh {α : Type} (zero : α) (nv : Nat) (bs : List (Block α)) :
    setupRead nv (bs.map (·.isAllocated)) (bs.map (·.emptyValue)) (List.replicate bs.length (Block.fresh zero)) =
      bs.map (blank zero nv) := by
  apply List.ext_getElem?
  intro i
  rw [setupRead, List.getElem?_mapIdx, List.getElem?_map, List.getElem?_replicate]
  by_cases hi : i < bs.length
  · simp only [hi, if_true, Option.map_some, List.getElem?_map, List.getElem?_eq_getElem]
    rcases Bool.eq_false_or_eq_true (bs[i].isAllocated) with h | h <;> simp [h, blank, Block.resize, Block.fresh]
  · simp [hi]

theorem readBlocks_ok {α : Type} (e : Elem α) (L : Lawful e) (z : Zlib) (hz : ZlibOk z) (zero : α) (f : Sparse α)
    (nv : Nat) (hb : ∀ b ∈ f.blocks, Sparse.BWF nv b) (hnv : nv = numVoxels f.order) (log : List Nat) (els : List (List UInt8))
    (hm : log.mapM (blockBytes e z f) = some els) (hl : log.length = ((flags f).filter id).length) (d : List Tree)
    (hd : ∀ i : Nat, element d i = els[i]?) (threads : Nat) (hT : 0 < threads) (sched : List Nat) :
    let r := readBlocks e z nv true d (flags f) threads sched (f.blocks.map (blank zero nv))
    r = .running ∨ r = .ok (reread f log) := by
  intro r
  have key : ∀ (i : Nat) b, f.blocks[i]? = some b → b.isAllocated = true →
      ∃ b', readBlock e z nv true d (datasetIdx (flags f) i) (blank zero nv b) = some b' ∧
        (reread f log)[i]? = some b' := by
    intro i b hi ha
    have hflag : (flags f)[i]? = some true := by rw [flags, List.getElem?_map, hi]; simp [ha]
    have hlt := datasetIdx_lt _ i hflag
    rw [← hl] at hlt
    obtain ⟨m1, m2⟩ := mapM_get _ log els hm
    have hj := List.getElem?_eq_getElem hlt
    generalize log[datasetIdx (flags f) i] = j at hj
    have h2 := m2 (datasetIdx (flags f) i)
    rw [hj, Option.bind_some] at h2
    have hlt' : datasetIdx (flags f) i < els.length := by omega
    rw [List.getElem?_eq_getElem hlt'] at h2
    have h2' := h2.symm
    unfold blockBytes at h2'
    cases hbj : f.blocks[j]? with
    | none => rw [hbj] at h2'; simp at h2'
    | some bj =>
      rw [hbj] at h2'
      simp only at h2'
      cases hdj : bj.data with
      | none => rw [hdj] at h2'; simp at h2'
      | some dj =>
        have w := hb bj (List.mem_of_getElem? hbj)
        have hlen : dj.length = nv := by
          unfold Sparse.BWF at w
          by_cases hal : bj.isAllocated = true
          · rw [if_pos hal] at w
            obtain ⟨d', h, h'⟩ := w
            rw [hdj] at h; cases h; exact h'
          · rw [if_neg hal, hdj] at w; simp at w
        rw [hdj] at h2'
        simp only [← hnv, ← hlen, Nat.le_refl, if_true, List.take_length, Option.some.injEq] at h2'
        refine ⟨{ blank zero nv b with data := some dj }, ?_, ?_⟩
        · have hel : element d (datasetIdx (flags f) i) = some (z.comp (e.encAll dj)) := by
            rw [hd, List.getElem?_eq_getElem hlt', h2']
          have hsz : nv * e.type.bytes = (e.encAll dj).length := by rw [encAll_length L, hlen]
          simp only [readBlock, blank, ha, if_true, hel, hsz, hz.bound, hz.inv]
          rw [overlay_encAll L dj _ (by simp [hlen])]
          rfl
        · rw [reread, List.getElem?_mapIdx, hi, Option.map_some, hj]
          simp [ha, hbj, hdj, blank]
  have hlen : (f.blocks.map (blank zero nv)).length = f.blocks.length := by simp
  by_cases hf : ((RState.init threads ((f.blocks.map (blank zero nv)).map some)).run (fun b => b.any (·.isAllocated))
    (fun i b => b.bind (readBlock e z nv true d (datasetIdx (flags f) i))) sched).finished
  · right
    have h := (C39_every_block_once _ _ threads hT _ sched hf).1
    have hall : ((RState.init threads ((f.blocks.map (blank zero nv)).map some)).run (fun b => b.any (·.isAllocated))
        (fun i b => b.bind (readBlock e z nv true d (datasetIdx (flags f) i))) sched).th.all (· = .done) = true := by
      rw [List.all_eq_true]; intro pc hpc; simp [hf pc hpc]
    show readBlocks _ _ _ _ _ _ _ _ _ = _
    unfold readBlocks
    simp only [hall, if_true]
    rw [h]
    have : ((f.blocks.map (blank zero nv)).map some).mapIdx (fun i b => if b.any (·.isAllocated) = true then
        b.bind (readBlock e z nv true d (datasetIdx (flags f) i)) else b) = (reread f log).map some := by
      apply List.ext_getElem?
      intro i
      rw [List.getElem?_mapIdx, List.getElem?_map, List.getElem?_map, List.getElem?_map]
      cases hi : f.blocks[i]? with
      | none => simp [reread, hi]
      | some b =>
        by_cases ha : b.isAllocated = true
        · obtain ⟨b', k1, k2⟩ := key i b hi ha
          simp [k2, blank, ha]
          simpa [blank, ha] using k1
        · have hd : b.data = none := by
            have := hb b (List.mem_of_getElem? hi)
            simpa [Sparse.BWF, ha] using this
          rw [reread, List.getElem?_mapIdx, hi]
          cases b; simp_all [blank]
    rw [this, mapM_some id (fun b => b.getD (Block.fresh zero))]
    · simp [Function.comp_def]
    · intro x hx
      rw [List.mem_map] at hx
      obtain ⟨y, _, rfl⟩ := hx; rfl
  · left
    show readBlocks _ _ _ _ _ _ _ _ _ = _
    unfold readBlocks
    rw [if_neg]
    intro h
    apply hf
    intro pc hpc
    have := List.all_eq_true.mp h pc hpc
    simpa using this

theorem finishes {β : Type} (alloc : β → Bool) (fill : Nat → β → β) (threads : Nat) (bs : List β) (sched : List Nat) :
    ∃ rest, ((RState.init threads bs).run alloc fill (sched ++ rest)).finished := by
  have main : ∀ (k : Nat) (s : RState β), RInv alloc fill bs s → rmeasure bs.length s ≤ k →
      ∃ rest, (s.run alloc fill rest).finished := by
    intro k
    induction k with
    | zero =>
      intro s inv hm
      refine ⟨[], ?_⟩
      intro pc hpc
      by_cases h : pc = .done
      · exact h
      · obtain ⟨t, ht⟩ := List.getElem?_of_mem hpc
        have := rmeasure_step alloc fill inv t pc ht h
        omega
    | succ k ih =>
      intro s inv hm
      by_cases hf : s.finished
      · exact ⟨[], hf⟩
      · have : ∃ pc ∈ s.th, pc ≠ RPc.done := by
          refine Classical.byContradiction fun hh => hf ?_
          intro pc hpc
          exact Classical.byContradiction fun h => hh ⟨pc, hpc, h⟩
        obtain ⟨pc, hpc, h⟩ := this
        obtain ⟨t, ht⟩ := List.getElem?_of_mem hpc
        have := rmeasure_step alloc fill inv t pc ht h
        obtain ⟨rest, hr⟩ := ih _ (rinv_step alloc fill inv t) (by omega)
        exact ⟨t :: rest, hr⟩
  obtain ⟨rest, hr⟩ := main _ _ (rinv_run alloc fill sched (rinv_init alloc fill threads bs)) (Nat.le_refl _)
  exact ⟨rest, by rw [RState.run, List.foldl_append]; exact hr⟩

theorem nv_eq {α : Type} (f : Sparse α) : f.bvol = numVoxels f.order := by
  unfold Sparse.bvol numVoxels
  rw [← Nat.pow_add, ← Nat.pow_add]; congr 1; omega

/-- A field as the reader sets it up is the original with blank blocks. -/
theorem fresh_eq {α : Type} (zero : α) (f : Sparse α) (hf : f.WF) (hfit : Sparse.Fits f.dw) :
    ((Sparse.empty zero).setSize zero f.extents f.dw).setBlockOrder zero f.order =
      { f with blocks := List.replicate f.blocks.length (Block.fresh zero) } := by
  have key : ∀ g : Sparse α, g.extents = f.extents → g.dw = f.dw → g.order = f.order →
      Sparse.setupBlocks zero g = { f with blocks := List.replicate f.blocks.length (Block.fresh zero) } := by
    intro g h1 h2 h3
    obtain ⟨w, hb⟩ := Sparse.setupBlocks_wf (zero := zero) (f := g) (by rw [h2]; exact hf.ne) (by rw [h2]; exact hfit)
    have a1 := w.bx; have a2 := w.by'; have a3 := w.bz; have a4 := w.bxy
    have b1 := hf.bx; have b2 := hf.by'; have b3 := hf.bz; have b4 := hf.bxy; have b5 := hf.len
    have c1 : (Sparse.setupBlocks zero g).dw = f.dw := h2
    have c2 : (Sparse.setupBlocks zero g).order = f.order := h3
    have c3 : (Sparse.setupBlocks zero g).extents = f.extents := h1
    rw [c1, c2] at a1 a2 a3 a4
    rw [h2, h3, ← b5] at hb
    rw [← b1] at a1; rw [← b2] at a2; rw [← b3] at a3; rw [← b4] at a4
    generalize Sparse.setupBlocks zero g = s at *
    cases s; cases f
    simp_all
    apply V3i.ext' <;> omega
  exact key _ rfl rfl rfl

theorem numBlocks_eq {α : Type} (f : Sparse α) (hf : f.WF) :
    f.bres.x * f.bres.y * f.bres.z = (f.blocks.length : Nat) := by
  rw [hf.bx, hf.by', hf.bz, hf.len]; push_cast; rfl

theorem plain_sparse {α : Type} (e : Elem α) (z : Zlib) (f : Sparse α) (log : List Nat) (es : List Entry)
    (h : sparseEntries e z f log = some es) : ∀ x ∈ es, nameOf x ∈ formatNames := by
  unfold sparseEntries at h
  cases hm : log.mapM (blockBytes e z f) with
  | none => rw [hm] at h; simp at h
  | some els =>
    rw [hm] at h
    simp only [Option.some.injEq] at h
    subst h
    intro x h
    simp only [windowEntries, List.mem_append, List.mem_cons, List.not_mem_nil, or_false] at h
    rcases h with (rfl | rfl | rfl | rfl | rfl) | rfl | rfl | rfl | rfl | rfl | rfl | rfl | rfl | rfl | rfl <;>
      simp only [nameOf] <;> decide

theorem bn_le (o n : Nat) (h : 0 < n) : Sparse.bn o n ≤ n := by
  unfold Sparse.bn
  have hp : 0 < 2 ^ o := Nat.pow_pos (by omega)
  rw [Nat.div_le_iff_le_mul_add_pred hp]
  have := Nat.le_mul_of_pos_left n hp
  omega

theorem alloc_bytes {α : Type} (bs : List (Block α)) :
    (bs.map fun b => if b.isAllocated then (1 : UInt8) else 0).map (fun b => decide (b ≠ 0)) =
      bs.map (·.isAllocated) := by
  rw [List.map_map]
  apply List.map_congr_left
  intro b _
  rcases Bool.eq_false_or_eq_true b.isAllocated with h | h <;> simp [h]

theorem encAll_byte (xs : List UInt8) : byteElem.encAll xs = xs := by
  simp [Elem.encAll, byteElem]

theorem readSparse_eq {α : Type} (e : Elem α) (L : Lawful e) (hv : isVoxelType e.type = true) (z : Zlib)
    (hz : ZlibOk z) (zero dflt : α) (g : Name) (pre post : List Entry) (hp : Foreign pre)
    (hq : ∀ x ∈ post, plainName (nameOf x)) (f : Sparse α) (hf : f.WF) (hfit : Sparse.Fits f.dw)
    (hx : V32 f.extents.min ∧ V32 f.extents.max) (hd : V32 f.dw.min ∧ V32 f.dw.max)
    (ho : f.order < 256) (hN : f.blocks.length < 2 ^ 31) (log : List Nat) (es : List Entry)
    (hes : sparseEntries e z f log = some es) (hl : log.length = ((flags f).filter id).length) :
    ∃ els d, log.mapM (blockBytes e z f) = some els ∧ (∀ i : Nat, element d i = els[i]?) ∧ ∀ threads sched,
      readSparse e z zero dflt threads sched (groupKids g (pre ++ es ++ post)) =
        if 0 < log.length then
          (readBlocks e z f.bvol true d (flags f) threads sched (f.blocks.map (blank zero f.bvol))).bind fun bs =>
            .ok { f with blocks := bs }
        else .ok { f with blocks := f.blocks.map (blank zero f.bvol) } := by
  have hpl := plain_sparse e z f log es hes
  have hn : ∀ x ∈ pre ++ es ++ post, plainName (nameOf x) := by
    intro x hx
    rw [List.mem_append, List.mem_append] at hx
    rcases hx with (h | h) | h
    · exact (hp x h).1
    · exact (formatNames_ok _ (hpl x h)).2
    · exact hq x h
  have ff : ∀ k nm, nm ∈ formatNames →
      firstOf k nm (pre ++ es ++ post) = firstOf k nm (es ++ post) := by
    intro k nm hm
    rw [List.append_assoc, foreign_first hp k nm hm]
  have s := fun nm hm => (formatNames_ok nm hm).1
  unfold sparseEntries at hes
  have hnb := numBlocks_eq f hf
  have hnb' : (f.bres.x * f.bres.y * f.bres.z).toNat = f.blocks.length := by rw [hnb]; rfl
  simp only [hnb', List.take_length] at hes
  obtain ⟨_, _, _, p1, p2, p3⟩ := f.dw.dims hf.ne
  have hpos : 0 < f.blocks.length := by
    have q : ∀ n, 0 < n → 0 < Sparse.bn f.order n := by
      intro n hn
      unfold Sparse.bn
      have hp : 0 < 2 ^ f.order := Nat.pow_pos (by omega)
      exact Nat.div_pos (by omega) hp
    rw [hf.len]
    exact Nat.mul_pos (Nat.mul_pos (q _ (by omega)) (q _ (by omega))) (q _ (by omega))
  have hbres : V32 f.bres := by
    have q1 := bn_le f.order f.dw.nx (by omega)
    have q2 := bn_le f.order f.dw.ny (by omega)
    have q3 := bn_le f.order f.dw.nz (by omega)
    obtain ⟨g1, g2, g3⟩ := hfit
    have b1 := hf.bx; have b2 := hf.by'; have b3 := hf.bz
    refine ⟨⟨?_, ?_⟩, ⟨?_, ?_⟩, ⟨?_, ?_⟩⟩ <;> omega
  have hocc := occupied_eq f
  cases hm : log.mapM (blockBytes e z f) with
  | none => rw [hm] at hes; simp at hes
  | some els =>
    rw [hm] at hes
    simp only [Option.some.injEq] at hes
    obtain ⟨hlen, hget⟩ := mapM_get _ log els hm
    have hw := readWindows_ok g _ f.extents f.dw hn hx hd (by rw [ff _ _ (by decide), ← hes]; rfl)
      (by rw [ff _ _ (by decide), ← hes]; rfl) (by rw [ff _ _ (by decide), ← hes]; rfl)
      (by rw [ff _ _ (by decide), ← hes]; rfl) (by rw [ff _ _ (by decide), ← hes]; rfl)
    have hc := attr_get g kComponents .uint8 [UInt8.ofNat (dims e.type)] _ (s _ (by decide)) hn
      (by rw [ff _ _ (by decide), ← hes]; rfl) (by decide) rfl
    have hord := attr_get g kBlockOrder .uint8 [UInt8.ofNat f.order] _ (s _ (by decide)) hn
      (by rw [ff _ _ (by decide), ← hes]; rfl) (by decide) rfl
    have hnum := attr_get g kNumBlocks .uint32 (le32 f.blocks.length) _ (s _ (by decide)) hn
      (by rw [ff _ _ (by decide), ← hes]; rfl) (by decide) rfl
    have hbr := attr_get g kBlockRes .veci32 (encV3i f.bres) _ (s _ (by decide)) hn
      (by rw [ff _ _ (by decide), ← hes]; rfl) (by decide) rfl
    have hcmp := attr_get g kCompressed .uint8 [1] _ (s _ (by decide)) hn
      (by rw [ff _ _ (by decide), ← hes]; rfl) (by decide) rfl
    have hoc := attr_get g kOccupied .uint32 (le32 (f.blocks.filter (·.isAllocated)).length) _ (s _ (by decide)) hn
      (by rw [ff _ _ (by decide), ← hes]; rfl) (by decide) rfl
    have hb : 0 < e.type.bytes := by revert hv; cases e.type <;> simp [isVoxelType, DataType.bytes]
    obtain ⟨⟨d, h1, h2, h3⟩, h4⟩ := dataset_get true g kData e.type els _ (s _ (by decide)) hn
      (by
        intro x hx h0
        subst h0
        obtain ⟨i, hi⟩ := List.getElem?_of_mem hx
        rw [hget i] at hi
        cases hj : log[i]? with
        | none => rw [hj] at hi; simp at hi
        | some j =>
          rw [hj] at hi
          simp only [Option.bind_some, blockBytes] at hi
          split at hi
          · simp at hi
          · split at hi
            · simp at hi
            · split at hi
              · simp only [Option.some.injEq] at hi
                exact hz.ne _ hi
              · simp at hi)
      (by rw [ff _ _ (by decide), ← hes]; rfl)
    obtain ⟨⟨da, a1, a2, a3⟩, a4⟩ := dataset_get false g kAllocated .uint8
      [f.blocks.map fun b => if b.isAllocated then (1 : UInt8) else 0] _ (s _ (by decide)) hn
      (by
        intro x hx h0
        rw [List.mem_singleton] at hx
        rw [h0] at hx
        have := congrArg List.length hx
        simp at this; omega)
      (by rw [ff _ _ (by decide), ← hes]; rfl)
    obtain ⟨⟨de, b1, b2, b3⟩, b4⟩ := dataset_get false g kEmpty e.type
      [e.encAll (f.blocks.map (·.emptyValue))] _ (s _ (by decide)) hn
      (by
        intro x hx h0
        rw [List.mem_singleton] at hx
        rw [h0] at hx
        have := congrArg List.length hx
        rw [encAll_length L, List.length_map] at this
        have := Nat.mul_pos hpos hb
        simp at *; omega)
      (by rw [ff _ _ (by decide), ← hes]; rfl)
    simp only [if_true, Bool.false_eq_true, if_false] at h1 h4 a1 b1
    refine ⟨els, d, rfl, h3, ?_⟩
    intro threads sched
    have e1 : decInt (le32 f.blocks.length) = f.blocks.length := by
      unfold decInt
      rw [unle_le32 _ (by omega)]
      simp only [hN, if_true]
    have e2 : unle [UInt8.ofNat f.order] = f.order := by
      simp only [unle, UInt8.toNat_ofNat']; omega
    have e3 : unle (le32 (f.blocks.filter (·.isAllocated)).length) = log.length := by
      have := List.length_filter_le (·.isAllocated) f.blocks
      rw [unle_le32 _ (by omega), hl, hocc]
    have e4 : unle [(1 : UInt8)] = 1 := by decide
    rw [readSparse, hw, bind_ok, hc, bind_ok, hord, bind_ok, hnum, bind_ok, hbr, bind_ok]
    simp only [decV3i_encV3i _ hbres, e1, hnb, ne_eq, not_true_eq_false, if_false]
    rw [hoc, bind_ok, hcmp, bind_ok]
    simp only [e4, Nat.one_ne_zero, if_false, h4, hv, and_self, if_true]
    rw [readSparseData, hoc, bind_ok, a1, bind_ok]
    have f1 : fetchArray byteElem (List.replicate (f.blocks.length : Int).toNat 0) da =
        .ok (f.blocks.map fun b => if b.isAllocated then (1 : UInt8) else 0) := by
      rw [fetchArray, a3 0]
      simp only [List.getElem?_cons_zero]
      have := overlay_encAll byteElem_lawful (f.blocks.map fun b => if b.isAllocated then (1 : UInt8) else 0)
        (List.replicate (f.blocks.length : Int).toNat 0) (by simp)
      rw [encAll_byte] at this
      rw [this]
    have f2 : fetchArray e (List.replicate (f.blocks.length : Int).toNat dflt) de = .ok (f.blocks.map (·.emptyValue)) := by
      rw [fetchArray, b3 0]
      simp only [List.getElem?_cons_zero]
      rw [overlay_encAll L _ _ (by simp)]
    rw [f1, bind_ok, e2, fresh_eq zero f hf hfit]
    rw [if_neg (by simp), b1, bind_ok, f2, bind_ok, hcmp, bind_ok]
    simp only [e4, alloc_bytes]
    rw [e3, ← nv_eq, setupRead_fresh]
    by_cases h0 : 0 < log.length
    · rw [if_pos h0, if_pos h0]
      simp only [ne_eq, Nat.one_ne_zero, not_false_eq_true, decide_true, if_true, h1, bind_ok]
      rw [if_neg (by rw [h2, hlen]; simp)]
      rfl
    · rw [if_neg h0, if_neg h0]

theorem readSparse_ok {α : Type} (e : Elem α) (L : Lawful e) (hv : isVoxelType e.type = true) (z : Zlib)
    (hz : ZlibOk z) (zero dflt : α) (g : Name) (pre post : List Entry) (hp : Foreign pre)
    (hq : ∀ x ∈ post, plainName (nameOf x)) (f : Sparse α) (hf : f.WF) (hfit : Sparse.Fits f.dw)
    (hx : V32 f.extents.min ∧ V32 f.extents.max) (hd : V32 f.dw.min ∧ V32 f.dw.max)
    (ho : f.order < 256) (hN : f.blocks.length < 2 ^ 31) (log : List Nat) (es : List Entry)
    (hes : sparseEntries e z f log = some es) (hl : log.length = ((flags f).filter id).length)
    (threads : Nat) (hT : 0 < threads) (sched : List Nat) :
    (readSparse e z zero dflt threads sched (groupKids g (pre ++ es ++ post)) = .running ∨
      readSparse e z zero dflt threads sched (groupKids g (pre ++ es ++ post)) =
        .ok { f with blocks := reread f log }) ∧
    ∃ rest, readSparse e z zero dflt threads (sched ++ rest) (groupKids g (pre ++ es ++ post)) =
        .ok { f with blocks := reread f log } := by
  obtain ⟨els, d, hm, h1, h2⟩ := readSparse_eq e L hv z hz zero dflt g pre post hp hq f hf hfit hx hd ho hN log es hes hl
  by_cases h0 : 0 < log.length
  · have h3 := fun sched => readBlocks_ok e L z hz zero f f.bvol hf.blk (nv_eq f) log els hm hl d h1 threads hT sched
    constructor
    · rw [h2 threads sched, if_pos h0]
      rcases h3 sched with h | h
      · rw [h]; exact Or.inl rfl
      · rw [h]; exact Or.inr rfl
    · obtain ⟨rest, hr⟩ := finishes (fun b => Option.any (·.isAllocated) b)
        (fun i b => b.bind (readBlock e z f.bvol true d (datasetIdx (flags f) i))) threads
        ((f.blocks.map (blank zero f.bvol)).map some) sched
      refine ⟨rest, ?_⟩
      rw [h2 threads _, if_pos h0]
      rcases h3 (sched ++ rest) with h | h
      · exfalso
        unfold readBlocks at h
        rw [if_pos (by rw [List.all_eq_true]; intro pc hpc; simp [hr pc hpc])] at h
        revert h
        cases (List.mapM id (RState.run (fun b => Option.any (·.isAllocated) b)
          (fun i b => b.bind (readBlock e z f.bvol true d (datasetIdx (flags f) i)))
          (RState.init threads ((f.blocks.map (blank zero f.bvol)).map some)) (sched ++ rest)).blocks) <;> simp
      · rw [h]; rfl
  · have hno : ∀ b ∈ f.blocks, b.isAllocated = false := by
      intro b hb
      have h5 : ((flags f).filter id).length = 0 := by omega
      rw [List.length_eq_zero_iff, List.filter_eq_nil_iff] at h5
      have := h5 b.isAllocated (by rw [flags, List.mem_map]; exact ⟨b, hb, rfl⟩)
      simpa using this
    have e1 : f.blocks.map (blank zero f.bvol) = f.blocks := by
      conv => rhs; rw [← List.map_id f.blocks]
      apply List.map_congr_left
      intro b hb
      have := hf.blk b hb
      have h6 := hno b hb
      simp only [Sparse.BWF, h6, Bool.false_eq_true, if_false] at this
      cases b; simp_all [blank]
    have e2 : reread f log = f.blocks := by
      apply List.ext_getElem?
      intro i
      rw [reread, List.getElem?_mapIdx]
      cases hi : f.blocks[i]? with
      | none => rfl
      | some b => simp [hno b (List.mem_of_getElem? hi)]
    rw [h2, if_neg h0, e1, e2]
    exact ⟨Or.inr rfl, [], by rw [h2, if_neg h0, e1]⟩

/-- Blocks stored in block order come back as they were. -/
theorem reread_allocated {α : Type} (f : Sparse α) : reread f (allocatedBlocks (flags f)) = f.blocks := by
  have key : ∀ (a : List Bool) (i : Nat), a[i]? = some true → (allocatedBlocks a)[datasetIdx a i]? = some i := by
    intro a i h
    have hi := (List.getElem?_eq_some_iff.mp h).1
    have split : allocatedBlocks a = written a i ++ i :: (List.range' (i + 1) (a.length - (i + 1))).filter (fun j => a.getD j false) := by
      unfold allocatedBlocks written
      have : List.range a.length = List.range i ++ i :: List.range' (i + 1) (a.length - (i + 1)) := by
        rw [List.range_eq_range', List.range_eq_range']
        have : a.length = i + (1 + (a.length - (i + 1))) := by omega
        conv => lhs; rw [this, ← List.range'_append_1, ← List.range'_append_1]
        simp
      rw [this, List.filter_append, List.filter_cons_of_pos (by simp [List.getD, h])]
      simp [List.getD]
    have len : ∀ i, i ≤ a.length → (written a i).length = datasetIdx a i := by
      intro i hi
      unfold datasetIdx
      induction i with
      | zero => simp [written]
      | succ i ih =>
        have hlt : i < a.length := hi
        rw [written_succ, List.take_add_one, List.filter_append, List.length_append, List.length_append, ih (by omega),
          List.getElem?_eq_getElem hlt]
        rcases Bool.eq_false_or_eq_true a[i] with h | h <;> simp [h]
    rw [split, ← len i (by omega), List.getElem?_append_right (Nat.le_refl _), Nat.sub_self]
    rfl
  apply List.ext_getElem?
  intro i
  rw [reread, List.getElem?_mapIdx]
  cases hi : f.blocks[i]? with
  | none => rfl
  | some b =>
    by_cases ha : b.isAllocated = true
    · have hk := key (flags f) i (by rw [flags, List.getElem?_map, hi]; simp [ha])
      cases b; simp_all
    · simp [ha]

end F3D.FieldIO
