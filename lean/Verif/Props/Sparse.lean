import Verif.Proofs.SparseIter
import Verif.Props.Iteration

/-!
# C02-C06, C09 (sparse): SparseField as a voxel map with block allocation
-/

namespace F3D.Props
open F3D

/-! ## Specification -/

/-- The block that a voxel belongs to: blocks are cubes of side `2^order`, counted from the low
corner of the data window. -/
def blockOf (dw : Box3i) (order : Nat) (p : V3i) : V3i :=
  ⟨(p.x - dw.min.x) / (2 ^ order : Nat), (p.y - dw.min.y) / (2 ^ order : Nat),
   (p.z - dw.min.z) / (2 ^ order : Nat)⟩

/-- The voxel at the low corner of a block. -/
def blockCorner (dw : Box3i) (order : Nat) (b : V3i) : V3i :=
  ⟨dw.min.x + b.x * (2 ^ order : Nat), dw.min.y + b.y * (2 ^ order : Nat),
   dw.min.z + b.z * (2 ^ order : Nat)⟩

/-- The abstract sparse field: windows, block order, a value per voxel and the set of allocated
blocks. -/
structure SparseMap (α : Type) where
  extents : Box3i
  dw : Box3i
  order : Nat
  val : V3i → α
  alloc : V3i → Prop

/-- Voxels of the data window in a block. -/
def SparseMap.inBlock {α : Type} (m : SparseMap α) (b p : V3i) : Prop :=
  m.dw.contains p = true ∧ blockOf m.dw m.order p = b

inductive SparseOp (α : Type) where
  | write (p : V3i) (v : α)
  | clear (v : α)
  | resize (extents dw : Box3i)
  | setBlockOrder (o : Nat)
  | setBlockEmptyValue (b : V3i) (v : α)
  | releaseAllEqual
  | releaseMaxAbs (less : α → Bool)

/-- Which blocks the max-abs release frees: allocated ones of which no voxel of the window has a
magnitude below the threshold. -/
def SparseMap.freedByMaxAbs {α : Type} (m : SparseMap α) (less : α → Bool) (b : V3i) : Prop :=
  m.alloc b ∧ ∀ p, m.inBlock b p → less (m.val p) = false

open Classical in
/-- What each operation does to the abstract field. -/
noncomputable def SparseMap.apply {α : Type} (zero : α) (m : SparseMap α) : SparseOp α → SparseMap α
  | .write q v => { m with
      val := fun p => if p = q then v else m.val p
      alloc := fun b => m.alloc b ∨ b = blockOf m.dw m.order q }
  | .clear v => { m with val := fun _ => v, alloc := fun _ => False }
  | .resize e w => ⟨e, w, m.order, fun _ => zero, fun _ => False⟩
  | .setBlockOrder o => ⟨m.extents, m.dw, o, fun _ => zero, fun _ => False⟩
  | .setBlockEmptyValue b v => { m with
      val := fun p => if blockOf m.dw m.order p = b then v else m.val p
      alloc := fun b' => m.alloc b' ∧ b' ≠ b }
  | .releaseAllEqual => { m with
      alloc := fun b => m.alloc b ∧ ∃ p q, m.inBlock b p ∧ m.inBlock b q ∧ m.val p ≠ m.val q }
  | .releaseMaxAbs less => { m with
      val := fun p => if m.freedByMaxAbs less (blockOf m.dw m.order p)
        then m.val (blockCorner m.dw m.order (blockOf m.dw m.order p)) else m.val p
      alloc := fun b => m.alloc b ∧ ¬ m.freedByMaxAbs less b }

/-- A window a sparse field can have: non-empty along each axis, and at most `2^24` voxels along
each axis (the block counts are computed in single precision). -/
def SparseWindow (w : Box3i) : Prop :=
  w.isEmpty = false ∧ w.max.x - w.min.x < 2 ^ 24 ∧ w.max.y - w.min.y < 2 ^ 24 ∧
  w.max.z - w.min.z < 2 ^ 24

/-- Preconditions of the documented interface. -/
def SparseMap.allowed {α : Type} (m : SparseMap α) : SparseOp α → Prop
  | .write q _ => m.dw.contains q = true
  | .resize _ w => SparseWindow w
  | .setBlockEmptyValue b _ => ∃ p, m.inBlock b p
  | _ => True

def SparseMap.allAllowed {α : Type} (zero : α) : SparseMap α → List (SparseOp α) → Prop
  | _, [] => True
  | m, op :: ops => m.allowed op ∧ (m.apply zero op).allAllowed zero ops

/-- The same operations on the model; `none` is undefined behaviour. -/
def sparseStep {α : Type} [DecidableEq α] (zero : α) (f : Sparse α) : SparseOp α → Option (Sparse α)
  | .write q v => f.write q v
  | .clear v => some (f.clear zero v)
  | .resize e w => some (f.setSize zero e w)
  | .setBlockOrder o => some (f.setBlockOrder zero o)
  | .setBlockEmptyValue b v => f.setBlockEmptyValue b v
  | .releaseAllEqual => f.releaseAllEqual.map (·.1)
  | .releaseMaxAbs less => (f.releaseMaxAbs less).map (·.1)

def sparseRun {α : Type} [DecidableEq α] (zero : α) :
    Sparse α → List (SparseOp α) → Option (Sparse α)
  | f, [] => some f
  | f, op :: ops => (sparseStep zero f op).bind (fun g => sparseRun zero g ops)

/-- The abstract field of a default-constructed sparse field (block order 4) after
`setSize(extents, dataWindow)`. -/
def SparseMap.fresh {α : Type} (zero : α) (e w : Box3i) : SparseMap α :=
  ⟨e, w, 4, fun _ => zero, fun _ => False⟩

/-- What a user can observe of a field agrees with an abstract field: windows, block order, every
voxel value, and for every block whether it is allocated, plus the empty value of unallocated
blocks. -/
structure Observes {α : Type} (f : Sparse α) (m : SparseMap α) : Prop where
  extents : f.extents = m.extents
  dw : f.dw = m.dw
  order : f.order = m.order
  value : ∀ p, m.dw.contains p = true → f.value p = some (m.val p)
  voxelAlloc : ∀ p, m.dw.contains p = true →
    ∃ r, f.voxelIsInAllocatedBlock p = some r ∧ (r = true ↔ m.alloc (blockOf m.dw m.order p))
  blockAlloc : ∀ b p, m.inBlock b p → ∃ r, f.blockIsAllocated b = some r ∧ (r = true ↔ m.alloc b)
  emptyValue : ∀ b p, m.inBlock b p → ¬ m.alloc b → f.getBlockEmptyValue b = some (m.val p)

/-! ## Refinement -/

section
variable {α : Type}

theorem fits_of {w : Box3i} (h : SparseWindow w) : Sparse.Fits w := by
  obtain ⟨h1, h2, h3, h4⟩ := h
  obtain ⟨d1, d2, d3, _, _, _⟩ := w.dims h1
  unfold Sparse.Fits
  omega

theorem blockCoord_blockOf (f : Sparse α) (p : V3i) :
    f.blockCoord (f.offsetCoord p) = blockOf f.dw f.order p := rfl

theorem idN_blockOf {f : Sparse α} (wf : f.WF) {p q : V3i} (hp : f.dw.contains p = true)
    (hq : f.dw.contains q = true) :
    f.idN p = f.idN q ↔ blockOf f.dw f.order p = blockOf f.dw f.order q := by
  rw [Sparse.idN_eq_iff wf hp hq, ← blockCoord_blockOf, ← blockCoord_blockOf,
    Sparse.blockCoord_eq hp, Sparse.blockCoord_eq hq]
  constructor
  · rintro ⟨h1, h2, h3⟩; rw [h1, h2, h3]
  · intro h
    have h1 := congrArg V3i.x h
    have h2 := congrArg V3i.y h
    have h3 := congrArg V3i.z h
    exact ⟨Int.ofNat_inj.mp h1, Int.ofNat_inj.mp h2, Int.ofNat_inj.mp h3⟩

/-- The invariant of the refinement. -/
structure Refines (f : Sparse α) (m : SparseMap α) : Prop where
  wf : f.WF
  fits : Sparse.Fits f.dw
  extents : f.extents = m.extents
  dw : f.dw = m.dw
  order : f.order = m.order
  value : ∀ p, f.dw.contains p = true → f.value p = some (m.val p)
  alloc : ∀ p, f.dw.contains p = true → (f.allocAt p ↔ m.alloc (blockOf f.dw f.order p))

theorem Refines.observes {f : Sparse α} {m : SparseMap α} (r : Refines f m) : Observes f m := by
  have hblk : ∀ p, m.dw.contains p = true → ∃ b, f.blocks[f.idN p]? = some b ∧
      f.block? (f.blockId (blockOf m.dw m.order p)) = some b ∧
      (b.isAllocated = true ↔ m.alloc (blockOf m.dw m.order p)) := by
    intro p hp
    have hp' : f.dw.contains p = true := by rw [r.dw]; exact hp
    obtain ⟨b, hb, _⟩ := Sparse.get_block r.wf hp'
    refine ⟨b, hb, ?_, ?_⟩
    · rw [← r.dw, ← r.order, ← blockCoord_blockOf, Sparse.id_eq r.wf hp', Sparse.block?_nat, hb]
    · rw [← r.dw, ← r.order, ← r.alloc p hp']
      unfold Sparse.allocAt; rw [hb]; simp
  refine ⟨r.extents, r.dw, r.order, ?_, ?_, ?_, ?_⟩
  · intro p hp; exact r.value p (by rw [r.dw]; exact hp)
  · intro p hp
    obtain ⟨b, hb, hb2, ha⟩ := hblk p hp
    refine ⟨b.isAllocated, ?_, ha⟩
    unfold Sparse.voxelIsInAllocatedBlock Sparse.blockIsAllocated
    rw [blockCoord_blockOf, r.dw, r.order, hb2]; rfl
  · rintro b p ⟨hp, rfl⟩
    obtain ⟨b, hb, hb2, ha⟩ := hblk p hp
    exact ⟨b.isAllocated, by unfold Sparse.blockIsAllocated; rw [hb2]; rfl, ha⟩
  · rintro b p ⟨hp, rfl⟩ hna
    obtain ⟨b, hb, hb2, ha⟩ := hblk p hp
    have hp' : f.dw.contains p = true := by rw [r.dw]; exact hp
    have hv := r.value p hp'
    rw [Sparse.value_of_block r.wf hp' hb] at hv
    have : b.isAllocated = false := by
      cases h : b.isAllocated
      · rfl
      · exact absurd (ha.mp h) hna
    unfold Sparse.getBlockEmptyValue
    rw [hb2, ← hv]
    simp [Sparse.bval, this]

/-- A field of fresh blocks with one empty value. -/
theorem refines_uniform {f : Sparse α} {m : SparseMap α} (wf : f.WF) (fits : Sparse.Fits f.dw)
    (he : f.extents = m.extents) (hd : f.dw = m.dw) (ho : f.order = m.order) (v : α)
    (hv : ∀ p, m.val p = v) (hm : ∀ b, ¬ m.alloc b)
    (hb : ∀ b ∈ f.blocks, b.isAllocated = false ∧ b.emptyValue = v) : Refines f m := by
  refine ⟨wf, fits, he, hd, ho, ?_, ?_⟩
  · intro p hp
    obtain ⟨b, hbk, _⟩ := Sparse.get_block wf hp
    rw [Sparse.value_of_block wf hp hbk, hv]
    obtain ⟨h1, h2⟩ := hb b (List.mem_of_getElem? hbk)
    simp [Sparse.bval, h1, h2]
  · intro p hp
    constructor
    · rintro ⟨b, hbk, ha⟩
      rw [(hb b (List.mem_of_getElem? hbk)).1] at ha
      cases ha
    · intro h; exact absurd h (hm _)

theorem refines_setup {f : Sparse α} {m : SparseMap α} (zero : α) (hne : f.dw.isEmpty = false)
    (fits : Sparse.Fits f.dw) (he : f.extents = m.extents) (hd : f.dw = m.dw)
    (ho : f.order = m.order) (hv : ∀ p, m.val p = zero) (hm : ∀ b, ¬ m.alloc b) :
    Refines (f.setupBlocks zero) m := by
  obtain ⟨wf, hb⟩ := Sparse.setupBlocks_wf (zero := zero) hne fits
  refine refines_uniform wf fits he hd ho zero hv hm ?_
  intro b hmem
  rw [hb] at hmem
  rw [List.eq_of_mem_replicate hmem]
  exact ⟨rfl, rfl⟩

theorem lowCorner_eq {f : Sparse α} {p : V3i} (hp : f.dw.contains p = true) :
    f.lowCorner p = blockCorner f.dw f.order (blockOf f.dw f.order p) := by
  rw [← blockCoord_blockOf, Sparse.blockCoord_eq hp]
  unfold Sparse.lowCorner Sparse.voxAt blockCorner
  simp only [Nat.zero_mod, Nat.zero_div, Nat.add_zero]
  push_cast
  rfl

/-- Releasing blocks refines its abstract counterpart for any rejecting test. -/
theorem refines_release {f : Sparse α} {m m' : SparseMap α} (r : Refines f m)
    (bad : α → α → Bool) (he : m'.extents = m.extents) (hd : m'.dw = m.dw) (ho : m'.order = m.order)
    (hval : ∀ p, m.dw.contains p = true →
      let b := blockOf m.dw m.order p
      let rel := m.alloc b ∧ ∀ q, m.inBlock b q →
        bad (m.val (blockCorner m.dw m.order b)) (m.val q) = false
      (rel → m'.val p = m.val (blockCorner m.dw m.order b) ∧ ¬ m'.alloc b) ∧
      (¬ rel → m'.val p = m.val p ∧ (m'.alloc b ↔ m.alloc b))) :
    ∃ g n, f.releaseBlocks bad = some (g, n) ∧ Refines g m' ∧ g.allocCount + n = f.allocCount := by
  obtain ⟨g, n, hg, gwf, gdw, gext, gord, hcount, hspec⟩ := Sparse.releaseBlocks_spec (bad := bad) r.wf
  refine ⟨g, n, hg, ?_, hcount⟩
  have key : ∀ p, f.dw.contains p = true →
      g.value p = some (m'.val p) ∧ (g.allocAt p ↔ m'.alloc (blockOf f.dw f.order p)) := by
    intro p hp
    have hp' : m.dw.contains p = true := by rw [← r.dw]; exact hp
    obtain ⟨s1, s2⟩ := hspec p hp
    obtain ⟨v1, v2⟩ := hval p hp'
    obtain ⟨c1, c2, c3⟩ := Sparse.lowCorner_spec r.wf hp
    rw [← r.dw, ← r.order] at v1 v2
    have hlow : f.value (f.lowCorner p) = some (m.val (blockCorner f.dw f.order (blockOf f.dw f.order p))) := by
      rw [r.value _ c1, lowCorner_eq hp]
    have hiff : (f.allocAt p ∧ ∃ first, f.value (f.lowCorner p) = some first ∧
            ∀ q e, f.dw.contains q = true → f.idN q = f.idN p → f.value q = some e →
              bad first e = false) ↔
        (m.alloc (blockOf f.dw f.order p) ∧ ∀ q, m.inBlock (blockOf f.dw f.order p) q →
          bad (m.val (blockCorner f.dw f.order (blockOf f.dw f.order p))) (m.val q) = false) := by
      rw [← r.alloc p hp]
      apply and_congr_right
      intro _
      constructor
      · rintro ⟨first, hf, hall⟩ q ⟨hq, hqb⟩
        rw [← r.dw] at hq
        rw [← r.dw, ← r.order] at hqb
        rw [hlow] at hf; cases hf
        exact hall q _ hq ((idN_blockOf r.wf hq hp).mpr hqb) (r.value q hq)
      · intro H
        refine ⟨_, hlow, ?_⟩
        intro q e hq hid hqe
        rw [r.value q hq] at hqe; cases hqe
        refine H q ⟨by rw [← r.dw]; exact hq, ?_⟩
        rw [← r.dw, ← r.order]
        exact (idN_blockOf r.wf hq hp).mp hid
    by_cases hrel : (m.alloc (blockOf f.dw f.order p) ∧ ∀ q, m.inBlock (blockOf f.dw f.order p) q →
          bad (m.val (blockCorner f.dw f.order (blockOf f.dw f.order p))) (m.val q) = false)
    · obtain ⟨a1, a2⟩ := s1 (hiff.mpr hrel)
      obtain ⟨b1, b2⟩ := v1 hrel
      rw [a1, hlow, b1]
      exact ⟨rfl, ⟨fun h => absurd h a2, fun h => absurd h b2⟩⟩
    · obtain ⟨a1, a2⟩ := s2 (fun h => hrel (hiff.mp h))
      obtain ⟨b1, b2⟩ := v2 hrel
      rw [a1, r.value p hp, b1, a2, r.alloc p hp, b2]
      exact ⟨rfl, Iff.rfl⟩
  refine ⟨gwf, by rw [gdw]; exact r.fits, by rw [gext, r.extents, he], by rw [gdw, r.dw, hd],
    by rw [gord, r.order, ho], ?_, ?_⟩
  · intro p hp; rw [gdw] at hp; exact (key p hp).1
  · intro p hp; rw [gdw] at hp; rw [gdw, gord]; exact (key p hp).2

/-- The low corner of the block of a window voxel is in the block. -/
theorem corner_inBlock {f : Sparse α} {m : SparseMap α} (r : Refines f m) {p : V3i}
    (hp : m.dw.contains p = true) :
    m.inBlock (blockOf m.dw m.order p) (blockCorner m.dw m.order (blockOf m.dw m.order p)) := by
  have hp' : f.dw.contains p = true := by rw [r.dw]; exact hp
  obtain ⟨c1, c2, c3⟩ := Sparse.lowCorner_spec r.wf hp'
  rw [← r.dw, ← r.order, ← lowCorner_eq hp']
  refine ⟨by rw [← r.dw]; exact c1, ?_⟩
  rw [← r.dw, ← r.order]
  exact (idN_blockOf r.wf c1 hp').mp c2

theorem refines_releaseEqual [DecidableEq α] {f : Sparse α} {m : SparseMap α} (zero : α)
    (r : Refines f m) :
    ∃ g n, f.releaseAllEqual = some (g, n) ∧ Refines g (m.apply zero .releaseAllEqual) ∧
      g.allocCount + n = f.allocCount := by
  refine refines_release r _ rfl rfl rfl ?_
  intro p hp
  have hc := corner_inBlock r hp
  simp only [SparseMap.apply, decide_eq_false_iff_not, Classical.not_not]
  constructor
  · rintro ⟨h1, h2⟩
    refine ⟨h2 p ⟨hp, rfl⟩, ?_⟩
    rintro ⟨_, a, b, ha, hb, hne⟩
    exact hne (by rw [h2 a ha, h2 b hb])
  · intro h
    refine ⟨trivial, ⟨fun ⟨h1, _⟩ => h1, fun h1 => ⟨h1, ?_⟩⟩⟩
    apply Classical.byContradiction
    intro hno
    apply h
    refine ⟨h1, ?_⟩
    intro q hq
    apply Classical.byContradiction
    intro hne
    exact hno ⟨q, _, hq, hc, hne⟩

theorem refines_releaseMaxAbs {f : Sparse α} {m : SparseMap α} (zero : α) (less : α → Bool)
    (r : Refines f m) :
    ∃ g n, f.releaseMaxAbs less = some (g, n) ∧ Refines g (m.apply zero (.releaseMaxAbs less)) ∧
      g.allocCount + n = f.allocCount := by
  refine refines_release r _ rfl rfl rfl ?_
  intro p hp
  simp only [SparseMap.apply]
  constructor
  · intro h
    have h' : m.freedByMaxAbs less (blockOf m.dw m.order p) := h
    rw [if_pos h']
    exact ⟨rfl, fun ⟨_, h2⟩ => h2 h'⟩
  · intro h
    have h' : ¬ m.freedByMaxAbs less (blockOf m.dw m.order p) := h
    rw [if_neg h']
    exact ⟨rfl, ⟨fun ⟨h1, _⟩ => h1, fun h1 => ⟨h1, h'⟩⟩⟩

theorem setBlockEmptyValue_spec {f : Sparse α} (wf : f.WF) {p : V3i} (hp : f.dw.contains p = true)
    (v : α) :
    ∃ b', f.setBlockEmptyValue (blockOf f.dw f.order p) v = some (f.setBlock (f.idN p : Nat) b') ∧
      Sparse.BWF f.bvol b' ∧ b'.isAllocated = false ∧ b'.emptyValue = v := by
  obtain ⟨b, hb, hw⟩ := Sparse.get_block wf hp
  unfold Sparse.setBlockEmptyValue
  rw [← blockCoord_blockOf]
  simp only [Sparse.id_eq wf hp, Sparse.block?_nat, hb]
  refine ⟨_, rfl, ?_⟩
  cases ha : b.isAllocated with
  | true => simp [Sparse.deallocBlock, Block.clear, Sparse.BWF]
  | false =>
    simp only [Sparse.BWF, ha, Bool.false_eq_true, if_false] at hw
    simp [Sparse.BWF, hw]

/-- One operation. -/
theorem refines_step [DecidableEq α] {f : Sparse α} {m : SparseMap α} (zero : α) (r : Refines f m)
    (op : SparseOp α) (hok : m.allowed op) :
    ∃ g, sparseStep zero f op = some g ∧ Refines g (m.apply zero op) := by
  cases op with
  | write q v =>
    have hq : f.dw.contains q = true := by rw [r.dw]; exact hok
    obtain ⟨g, hg, gwf, gdw, gext, gord, gval, gal⟩ := Sparse.write_value r.wf hq v
    refine ⟨g, hg, gwf, by rw [gdw]; exact r.fits, by rw [gext, r.extents]; rfl,
      by rw [gdw, r.dw]; rfl, by rw [gord, r.order]; rfl, ?_, ?_⟩
    · intro p hp
      rw [gdw] at hp
      rw [gval p hp]
      simp only [SparseMap.apply]
      split
      · rfl
      · exact r.value p hp
    · intro p hp
      rw [gdw] at hp
      rw [gal p hp, r.alloc p hp, idN_blockOf r.wf hp hq, gdw, gord]
      simp only [SparseMap.apply, r.dw, r.order]
  | clear v =>
    refine ⟨_, rfl, ?_⟩
    obtain ⟨wf, hb⟩ := Sparse.setupBlocks_wf (zero := zero) r.wf.ne r.fits
    refine refines_uniform ?_ r.fits r.extents r.dw r.order v (fun _ => rfl) (fun _ h => h) ?_
    · refine ⟨wf.ne, wf.bx, wf.by', wf.bz, wf.bxy, ?_, ?_⟩
      · simp only [Sparse.clear, List.length_map]; exact wf.len
      · intro b hm
        simp only [Sparse.clear, List.mem_map] at hm
        obtain ⟨b0, h0, rfl⟩ := hm
        rw [hb] at h0
        rw [List.eq_of_mem_replicate h0]
        simp [Sparse.BWF, Block.fresh]
    · intro b hm
      simp only [Sparse.clear, List.mem_map] at hm
      obtain ⟨b0, h0, rfl⟩ := hm
      rw [hb] at h0
      rw [List.eq_of_mem_replicate h0]
      exact ⟨rfl, rfl⟩
  | resize e w =>
    exact ⟨_, rfl, refines_setup (f := { f with extents := e, dw := w }) zero hok.1 (fits_of hok)
      rfl rfl r.order (fun _ => rfl) (fun _ h => h)⟩
  | setBlockOrder o =>
    exact ⟨_, rfl, refines_setup (f := { f with order := o }) zero r.wf.ne r.fits
      r.extents r.dw rfl (fun _ => rfl) (fun _ h => h)⟩
  | setBlockEmptyValue b v =>
    obtain ⟨q, hq, rfl⟩ := hok
    have hq' : f.dw.contains q = true := by rw [r.dw]; exact hq
    obtain ⟨b', hg, hbw, hna, hev⟩ := setBlockEmptyValue_spec r.wf hq' v
    rw [r.dw, r.order] at hg
    have hlt := Sparse.idN_lt r.wf hq'
    refine ⟨_, hg, r.wf.setBlock hbw, r.fits, r.extents, r.dw, r.order, ?_, ?_⟩
    · intro p hp
      have hp' : f.dw.contains p = true := hp
      rw [Sparse.value_setBlock r.wf hlt hbw hp']
      simp only [SparseMap.apply]
      have hiff := idN_blockOf r.wf hp' hq'
      rw [r.dw, r.order] at hiff
      by_cases h : f.idN p = f.idN q
      · rw [if_pos h, if_pos (hiff.mp h)]
        simp [Sparse.bval, hna, hev]
      · rw [if_neg h, if_neg (fun h' => h (hiff.mpr h'))]
        exact r.value p hp'
    · intro p hp
      have hp' : f.dw.contains p = true := hp
      have hiff := idN_blockOf r.wf hp' hq'
      have hgoal : (f.setBlock (f.idN q : Nat) b').allocAt p ↔ f.allocAt p ∧ f.idN p ≠ f.idN q := by
        show (∃ x, (f.blocks.set (f.idN q) b')[f.idN p]? = some x ∧ x.isAllocated = true) ↔ _
        by_cases h : f.idN p = f.idN q
        · rw [h, List.getElem?_set_self hlt]; simp [hna]
        · rw [List.getElem?_set_ne (Ne.symm h)]; simp [h, Sparse.allocAt]
      rw [hgoal, r.alloc p hp', Ne, hiff]
      show _ ↔ (m.alloc (blockOf f.dw f.order p) ∧ blockOf f.dw f.order p ≠ blockOf m.dw m.order q)
      rw [r.dw, r.order]
  | releaseAllEqual =>
    obtain ⟨g, n, hg, hr, _⟩ := refines_releaseEqual zero r
    exact ⟨g, by simp [sparseStep, hg], hr⟩
  | releaseMaxAbs less =>
    obtain ⟨g, n, hg, hr, _⟩ := refines_releaseMaxAbs zero less r
    exact ⟨g, by simp [sparseStep, hg], hr⟩

theorem refines_run [DecidableEq α] (zero : α) (ops : List (SparseOp α)) :
    ∀ (f : Sparse α) (m : SparseMap α), Refines f m → m.allAllowed zero ops →
      ∃ g, sparseRun zero f ops = some g ∧ Refines g (ops.foldl (SparseMap.apply zero) m) := by
  induction ops with
  | nil => intro f m r _; exact ⟨f, rfl, r⟩
  | cons op ops ih =>
    intro f m r ⟨h1, h2⟩
    obtain ⟨g, hg, hr⟩ := refines_step zero r op h1
    obtain ⟨k, hk, hr'⟩ := ih g _ hr h2
    exact ⟨k, by simp only [sparseRun, hg, Option.bind_some]; exact hk, hr'⟩

theorem refines_fresh (zero : α) (e w : Box3i) (hw : SparseWindow w) :
    Refines ((Sparse.empty zero).setSize zero e w) (SparseMap.fresh zero e w) :=
  refines_setup (f := { Sparse.empty zero with extents := e, dw := w }) zero hw.1 (fits_of hw)
    rfl rfl rfl (fun _ => rfl) (fun _ h => h)

end

/-! ## C02, C06 -/

/-- C02: a default-constructed sparse field, sized to any window of up to `2^24` voxels per axis,
run through any allowed history of writes, clears, resizes, block order changes, empty value
changes and releases (all-equal and max-abs), never leaves its block table or block data, and then
agrees with the abstract field in everything that can be observed: windows, every voxel value,
the allocation state of every block and the empty values. C06 is the allocation part: the abstract
field allocates only in `write`, exactly the block of the voxel written. -/
theorem C02_sparse_faithful_map {α : Type} [DecidableEq α] (zero : α) (e w : Box3i)
    (hw : SparseWindow w) (ops : List (SparseOp α))
    (hok : (SparseMap.fresh zero e w).allAllowed zero ops) :
    ∃ g, sparseRun zero ((Sparse.empty zero).setSize zero e w) ops = some g ∧
      Observes g (ops.foldl (SparseMap.apply zero) (SparseMap.fresh zero e w)) := by
  obtain ⟨g, hg, hr⟩ := refines_run zero ops _ _ (refines_fresh zero e w hw) hok
  exact ⟨g, hg, hr.observes⟩

/-- States that a user can reach with allowed operations. -/
def SparseReachable {α : Type} [DecidableEq α] (zero : α) (f : Sparse α) : Prop :=
  ∃ e w ops, SparseWindow w ∧ (SparseMap.fresh zero e w).allAllowed zero ops ∧
    sparseRun zero ((Sparse.empty zero).setSize zero e w) ops = some f

theorem reachable_refines {α : Type} [DecidableEq α] {zero : α} {f : Sparse α}
    (h : SparseReachable zero f) : ∃ m, Refines f m := by
  obtain ⟨e, w, ops, hw, hok, hrun⟩ := h
  obtain ⟨g, hg, hr⟩ := refines_run zero ops _ _ (refines_fresh zero e w hw) hok
  rw [hrun] at hg; cases hg
  exact ⟨_, hr⟩

/-- C06: in any reachable field a write to a voxel of the window succeeds, changes that voxel only
(so the other voxels of a freshly allocated block keep reading as its empty value), and the blocks
allocated afterwards are those allocated before and the block of the voxel. -/
theorem C06_write_allocates_one_block {α : Type} [DecidableEq α] (zero : α) (f : Sparse α)
    (h : SparseReachable zero f) (q : V3i) (hq : f.dw.contains q = true) (v : α) :
    ∃ g, f.write q v = some g ∧
      g.voxelIsInAllocatedBlock q = some true ∧ g.value q = some v ∧
      (∀ p, f.dw.contains p = true → p ≠ q → g.value p = f.value p) ∧
      (∀ p, f.dw.contains p = true → blockOf f.dw f.order p ≠ blockOf f.dw f.order q →
        g.voxelIsInAllocatedBlock p = f.voxelIsInAllocatedBlock p) := by
  obtain ⟨m, r⟩ := reachable_refines h
  have hq' : m.dw.contains q = true := by rw [← r.dw]; exact hq
  obtain ⟨g, hg, hr⟩ := refines_step zero r (.write q v) hq'
  have o1 := r.observes
  have o2 := hr.observes
  refine ⟨g, hg, ?_, ?_, ?_, ?_⟩
  · obtain ⟨b, hb, hba⟩ := o2.voxelAlloc q hq'
    rw [hb]
    congr 1
    exact hba.mpr (Or.inr rfl)
  · rw [o2.value q hq']; simp [SparseMap.apply]
  · intro p hp hne
    have hp' : m.dw.contains p = true := by rw [← r.dw]; exact hp
    rw [o2.value p hp', o1.value p hp']
    simp [SparseMap.apply, hne]
  · intro p hp hne
    have hp' : m.dw.contains p = true := by rw [← r.dw]; exact hp
    obtain ⟨b, hb, hba⟩ := o2.voxelAlloc p hp'
    obtain ⟨b', hb', hba'⟩ := o1.voxelAlloc p hp'
    rw [hb, hb']
    congr 1
    rw [Bool.eq_iff_iff, hba, hba']
    simp only [SparseMap.apply]
    rw [r.dw, r.order] at hne
    exact ⟨fun h => h.resolve_right hne, Or.inl⟩

/-- C06: a clear leaves no allocated block and sets every voxel. -/
theorem C06_clear_deallocates {α : Type} [DecidableEq α] (zero : α) (f : Sparse α)
    (h : SparseReachable zero f) (v : α) (p : V3i) (hp : f.dw.contains p = true) :
    (f.clear zero v).voxelIsInAllocatedBlock p = some false ∧ (f.clear zero v).value p = some v := by
  obtain ⟨m, r⟩ := reachable_refines h
  obtain ⟨g, hg, hr⟩ := refines_step zero r (.clear v) trivial
  cases hg
  have hp' : m.dw.contains p = true := by rw [← r.dw]; exact hp
  obtain ⟨b, hb, hba⟩ := hr.observes.voxelAlloc p hp'
  refine ⟨?_, hr.observes.value p hp'⟩
  rw [hb]
  congr 1
  cases b
  · rfl
  · exact absurd (hba.mp rfl) (fun h => h)

/-- Non-vacuity of C02: a history that uses every operation. -/
example : (SparseMap.fresh (0 : Int) ⟨⟨0, 0, 0⟩, ⟨20, 3, 2⟩⟩ ⟨⟨-1, 0, 0⟩, ⟨20, 3, 2⟩⟩).allAllowed 0
    [.write ⟨-1, 1, 0⟩ 5, .setBlockEmptyValue ⟨1, 0, 0⟩ 2, .write ⟨18, 0, 0⟩ 2, .releaseAllEqual,
     .clear 3, .write ⟨0, 0, 0⟩ 7, .releaseMaxAbs (fun v => decide (v < 2)), .setBlockOrder 1,
     .resize ⟨⟨0, 0, 0⟩, ⟨0, 0, 5⟩⟩ ⟨⟨0, 0, 0⟩, ⟨0, 0, 5⟩⟩, .write ⟨0, 0, 5⟩ 9] := by
  refine ⟨?_, ⟨⟨18, 0, 0⟩, ?_⟩, ?_, ?_, ?_, ?_, ?_, ?_, ?_, ?_, trivial⟩
  all_goals first
    | exact rfl
    | exact trivial
    | (show SparseWindow _; unfold SparseWindow; decide)
    | (show SparseMap.inBlock _ _ _; exact ⟨rfl, rfl⟩)

/-! ## C04, C05 -/

/-- C04: in any reachable field, `releaseBlocks` with the all-equal check succeeds, changes no
voxel value, frees a block exactly when it was allocated and its voxels inside the window all hold
one value, and so never allocates. The value returned is the number of blocks freed. -/
theorem C04_release_keeps_values {α : Type} [DecidableEq α] (zero : α) (f : Sparse α)
    (h : SparseReachable zero f) :
    ∃ g n, f.releaseAllEqual = some (g, n) ∧ g.dw = f.dw ∧ g.order = f.order ∧
      (∀ p, f.dw.contains p = true → g.value p = f.value p) ∧
      (∀ p, f.dw.contains p = true →
        (g.voxelIsInAllocatedBlock p = some true ↔
          f.voxelIsInAllocatedBlock p = some true ∧
          ∃ q, f.dw.contains q = true ∧ blockOf f.dw f.order q = blockOf f.dw f.order p ∧
            f.value q ≠ f.value p)) ∧
      (g.blocks.filter (·.isAllocated)).length + n = (f.blocks.filter (·.isAllocated)).length ∧
      g.voxelCount + n * (2 ^ f.order * 2 ^ f.order * 2 ^ f.order) = f.voxelCount := by
  obtain ⟨m, r⟩ := reachable_refines h
  obtain ⟨g, n, hg, hr, hc⟩ := refines_releaseEqual zero r
  have o1 := r.observes
  have o2 := hr.observes
  have hord : g.order = f.order := by rw [hr.order, r.order]; rfl
  refine ⟨g, n, hg, by rw [hr.dw, r.dw]; rfl, hord, ?_, ?_, hc, ?_⟩
  · intro p hp
    have hp' : m.dw.contains p = true := by rw [← r.dw]; exact hp
    rw [o2.value p hp', o1.value p hp']; rfl
  · intro p hp
    have hp' : m.dw.contains p = true := by rw [← r.dw]; exact hp
    obtain ⟨b, hb, hba⟩ := o2.voxelAlloc p hp'
    obtain ⟨b', hb', hba'⟩ := o1.voxelAlloc p hp'
    rw [hb, hb', Option.some_inj, Option.some_inj, hba, hba']
    simp only [SparseMap.apply, r.dw, r.order]
    apply and_congr_right
    intro _
    constructor
    · rintro ⟨a, c, ha, hc', hne⟩
      by_cases hav : m.val a = m.val p
      · refine ⟨c, hc'.1, hc'.2, ?_⟩
        rw [o1.value c hc'.1, o1.value p hp']
        intro e; exact hne (by rw [hav]; exact (Option.some_inj.mp e).symm)
      · refine ⟨a, ha.1, ha.2, ?_⟩
        rw [o1.value a ha.1, o1.value p hp']
        intro e; exact hav (Option.some_inj.mp e)
    · rintro ⟨q, hq, hqb, hne⟩
      refine ⟨q, p, ⟨hq, hqb⟩, ⟨hp', rfl⟩, ?_⟩
      rw [o1.value q hq, o1.value p hp'] at hne
      exact fun e => hne (by rw [e])
  · unfold Sparse.voxelCount
    rw [hord, ← Nat.add_mul]
    unfold Sparse.allocCount at hc
    rw [hc]

/-- C05: `releaseBlocks` with the max-abs check frees exactly the allocated blocks none of whose
window voxels has a magnitude below the threshold (`less`); afterwards every voxel of a freed
block reads as the value of the block's first voxel, and no other voxel changes. In particular a
voxel that changes had, and has, a magnitude not below the threshold. -/
theorem C05_release_by_threshold {α : Type} [DecidableEq α] (zero : α) (f : Sparse α)
    (h : SparseReachable zero f) (less : α → Bool) :
    ∃ g n, f.releaseMaxAbs less = some (g, n) ∧ g.dw = f.dw ∧
      (∀ p, f.dw.contains p = true →
        let freed := f.voxelIsInAllocatedBlock p = some true ∧
          ∀ q v, f.dw.contains q = true → blockOf f.dw f.order q = blockOf f.dw f.order p →
            f.value q = some v → less v = false
        (freed → g.voxelIsInAllocatedBlock p = some false ∧
          g.value p = f.value (blockCorner f.dw f.order (blockOf f.dw f.order p))) ∧
        (¬ freed → g.voxelIsInAllocatedBlock p = f.voxelIsInAllocatedBlock p ∧
          g.value p = f.value p)) ∧
      (∀ p v v', f.dw.contains p = true → f.value p = some v → g.value p = some v' → v ≠ v' →
        less v = false ∧ less v' = false) ∧
      (g.blocks.filter (·.isAllocated)).length + n = (f.blocks.filter (·.isAllocated)).length := by
  obtain ⟨m, r⟩ := reachable_refines h
  obtain ⟨g, n, hg, hr, hc⟩ := refines_releaseMaxAbs zero less r
  have o1 := r.observes
  have o2 := hr.observes
  have main : ∀ p, f.dw.contains p = true →
        let freed := f.voxelIsInAllocatedBlock p = some true ∧
          ∀ q v, f.dw.contains q = true → blockOf f.dw f.order q = blockOf f.dw f.order p →
            f.value q = some v → less v = false
        (freed → g.voxelIsInAllocatedBlock p = some false ∧
          g.value p = f.value (blockCorner f.dw f.order (blockOf f.dw f.order p))) ∧
        (¬ freed → g.voxelIsInAllocatedBlock p = f.voxelIsInAllocatedBlock p ∧
          g.value p = f.value p) := by
    intro p hp
    have hp' : m.dw.contains p = true := by rw [← r.dw]; exact hp
    obtain ⟨b, hb, hba⟩ := o2.voxelAlloc p hp'
    obtain ⟨b', hb', hba'⟩ := o1.voxelAlloc p hp'
    have hfr : (f.voxelIsInAllocatedBlock p = some true ∧
          ∀ q v, f.dw.contains q = true → blockOf f.dw f.order q = blockOf f.dw f.order p →
            f.value q = some v → less v = false) ↔
        m.freedByMaxAbs less (blockOf m.dw m.order p) := by
      rw [hb', Option.some_inj, hba', r.dw, r.order]
      unfold SparseMap.freedByMaxAbs
      apply and_congr_right
      intro _
      constructor
      · rintro H q ⟨hq, hqb⟩
        exact H q _ hq hqb (o1.value q hq)
      · intro H q v hq hqb hv
        rw [o1.value q hq] at hv; cases hv
        exact H q ⟨hq, hqb⟩
    simp only
    rw [hfr]
    constructor
    · intro hf
      constructor
      · rw [hb]; congr 1
        cases b
        · rfl
        · exact absurd hf (hba.mp rfl).2
      · rw [o2.value p hp', r.dw, r.order, o1.value _ (corner_inBlock r hp').1]
        simp [SparseMap.apply, hf]
    · intro hf
      constructor
      · rw [hb, hb']; congr 1
        rw [Bool.eq_iff_iff, hba, hba']
        simp only [SparseMap.apply]
        exact ⟨fun h => h.1, fun h => ⟨h, hf⟩⟩
      · rw [o2.value p hp', o1.value p hp']
        simp [SparseMap.apply, hf]
  refine ⟨g, n, hg, by rw [hr.dw, r.dw]; rfl, main, ?_, hc⟩
  intro p v v' hp hv hv' hne
  obtain ⟨m1, m2⟩ := main p hp
  have hp' : m.dw.contains p = true := by rw [← r.dw]; exact hp
  by_cases hf : (f.voxelIsInAllocatedBlock p = some true ∧
          ∀ q v, f.dw.contains q = true → blockOf f.dw f.order q = blockOf f.dw f.order p →
            f.value q = some v → less v = false)
  · have hg' := (m1 hf).2
    refine ⟨hf.2 p v hp rfl hv, ?_⟩
    have hc' := corner_inBlock r hp'
    rw [← r.dw, ← r.order] at hc'
    refine hf.2 _ v' (by rw [r.dw]; exact hc'.1) ?_ (by rw [← hg', hv'])
    have := hc'.2
    rw [← r.dw, ← r.order] at this
    exact this
  · have hg' := (m2 hf).2
    rw [hv, hv'] at hg'
    cases hg'
    exact absurd rfl hne

/-- A one-block field holding `5` and `-5`. -/
def signFlipField : Option (Sparse Int) :=
  sparseRun 0 ((Sparse.empty 0).setSize 0 ⟨⟨0, 0, 0⟩, ⟨1, 0, 0⟩⟩ ⟨⟨0, 0, 0⟩, ⟨1, 0, 0⟩⟩)
    [.setBlockOrder 0, .setBlockOrder 1, .write ⟨0, 0, 0⟩ 5, .write ⟨1, 0, 0⟩ (-5)]

/-- C05: releasing by threshold can flip the sign of voxels: with threshold 3, a block holding `5`
and `-5` is freed and both voxels read `5` afterwards. -/
theorem C05_release_can_flip_sign :
    ∃ f g n, signFlipField = some f ∧ SparseReachable 0 f ∧
      f.value ⟨1, 0, 0⟩ = some (-5) ∧
      f.releaseMaxAbs (fun v => decide (v.natAbs < 3)) = some (g, n) ∧
      g.value ⟨1, 0, 0⟩ = some 5 := by
  have hs : signFlipField.isSome = true := by decide +kernel
  obtain ⟨f, hf⟩ := Option.isSome_iff_exists.mp hs
  have hr : (signFlipField.bind (fun f => (f.releaseMaxAbs (fun v => decide (v.natAbs < 3))).bind
      (fun r => r.1.value ⟨1, 0, 0⟩))) = some 5 := by decide +kernel
  have hv : signFlipField.bind (fun f => f.value ⟨1, 0, 0⟩) = some (-5) := by decide +kernel
  rw [hf] at hr hv
  simp only [Option.bind_some] at hr hv
  cases hg : f.releaseMaxAbs (fun v => decide (v.natAbs < 3)) with
  | none => rw [hg] at hr; cases hr
  | some r =>
    rw [hg] at hr
    refine ⟨f, r.1, r.2, hf, ⟨_, _, _, ?_, ?_, hf⟩, hv, hg, hr⟩
    · unfold SparseWindow; decide
    · refine ⟨trivial, trivial, rfl, rfl, trivial⟩

/-! ## C03 -/

/-- C03: after sizing a field to any window of up to `2^24` voxels per axis, with any block order,
every voxel of the window has a block number inside the block table and an offset inside a block,
distinct voxels have distinct addresses, and the table has no superfluous block. -/
theorem C03_block_addressing {α : Type} (zero : α) (f₀ : Sparse α) (e w : Box3i)
    (hw : SparseWindow w) :
    let f := f₀.setSize zero e w
    let id := fun p => f.blockId (f.blockCoord (f.offsetCoord p))
    let off := fun p => Block.offset f.order (f.voxelInBlock (f.offsetCoord p))
    (∀ p, w.contains p = true → 0 ≤ id p ∧ id p < f.blocks.length ∧
      0 ≤ off p ∧ off p < (2 ^ f.order * 2 ^ f.order * 2 ^ f.order : Nat)) ∧
    (∀ p q, w.contains p = true → w.contains q = true → id p = id q → off p = off q → p = q) ∧
    (∀ i : Nat, i < f.blocks.length → ∃ p, w.contains p = true ∧ id p = i) := by
  intro f id off
  have wf : f.WF := (Sparse.setupBlocks_wf (zero := zero) (f := { f₀ with extents := e, dw := w })
    hw.1 (fits_of hw)).1
  have hdw : f.dw = w := rfl
  have hid : ∀ p, w.contains p = true → id p = (f.idN p : Nat) := fun p hp => Sparse.id_eq wf hp
  have hoff : ∀ p, w.contains p = true → off p = (f.offN p : Nat) := fun p hp => Sparse.off_eq hp
  refine ⟨?_, ?_, ?_⟩
  · intro p hp
    rw [hid p hp, hoff p hp]
    have h1 := Sparse.idN_lt wf hp
    have h2 := Sparse.offN_lt f p
    unfold Sparse.bvol at h2
    omega
  · intro p q hp hq h1 h2
    rw [hid p hp, hid q hq] at h1
    rw [hoff p hp, hoff q hq] at h2
    exact Sparse.addr_inj wf hp hq (by omega) (by omega)
  · intro i hi
    have hi' := hi
    rw [wf.len] at hi'
    obtain ⟨g1, g2, g3⟩ := Grid.dec_bounds hi'
    have hB := Sparse.bvol_pos f
    refine ⟨f.voxAt (i % Sparse.bn f.order f.dw.nx)
      (i / Sparse.bn f.order f.dw.nx % Sparse.bn f.order f.dw.ny)
      (i / (Sparse.bn f.order f.dw.nx * Sparse.bn f.order f.dw.ny)) 0, ?_, ?_⟩
    · rw [← hdw, Sparse.voxAt, Sparse.mem_iff_nat wf.ne]
      have k1 := Sparse.mul_lt_of_lt_bn g1
      have k2 := Sparse.mul_lt_of_lt_bn g2
      have k3 := Sparse.mul_lt_of_lt_bn g3
      simp only [Nat.zero_mod, Nat.zero_div, Nat.add_zero]
      exact ⟨k1, k2, k3⟩
    · rw [hid]
      · rw [(Sparse.voxAt_addr hB).1, Grid.enc_dec]
      · rw [← hdw, Sparse.voxAt, Sparse.mem_iff_nat wf.ne]
        have k1 := Sparse.mul_lt_of_lt_bn g1
        have k2 := Sparse.mul_lt_of_lt_bn g2
        have k3 := Sparse.mul_lt_of_lt_bn g3
        simp only [Nat.zero_mod, Nat.zero_div, Nat.add_zero]
        exact ⟨k1, k2, k3⟩

/-- C03: the block indices that `blockIndexIsValid` accepts are those of the blocks that hold a voxel of the data window. -/
theorem C03_valid_block_indices {α : Type} (zero : α) (f₀ : Sparse α) (e w : Box3i) (hw : SparseWindow w) (b : V3i) :
    (f₀.setSize zero e w).blockIndexIsValid b = true ↔ ∃ p, w.contains p = true ∧
      b = ⟨(p.x - w.min.x) / (2 ^ f₀.order : Nat), (p.y - w.min.y) / (2 ^ f₀.order : Nat), (p.z - w.min.z) / (2 ^ f₀.order : Nat)⟩ := by
  have wf : (f₀.setSize zero e w).WF := (Sparse.setupBlocks_wf (zero := zero) (f := { f₀ with extents := e, dw := w })
    hw.1 (fits_of hw)).1
  have hdw : (f₀.setSize zero e w).dw = w := rfl
  have hord : (f₀.setSize zero e w).order = f₀.order := rfl
  have hne := hw.1
  generalize f₀.setSize zero e w = f at *
  subst hdw
  rw [← hord]
  simp only [Sparse.blockIndexIsValid, Bool.and_eq_true, decide_eq_true_eq, wf.bx, wf.by', wf.bz]
  constructor
  · rintro ⟨⟨⟨⟨⟨h1, h2⟩, h3⟩, h4⟩, h5⟩, h6⟩
    obtain ⟨bx, by', bz⟩ := b
    simp only at h1 h2 h3 h4 h5 h6
    obtain ⟨x, rfl⟩ := Int.eq_ofNat_of_zero_le h1
    obtain ⟨y, rfl⟩ := Int.eq_ofNat_of_zero_le h2
    obtain ⟨z, rfl⟩ := Int.eq_ofNat_of_zero_le h3
    have k1 := Sparse.mul_lt_of_lt_bn (Int.ofNat_lt.1 h4)
    have k2 := Sparse.mul_lt_of_lt_bn (Int.ofNat_lt.1 h5)
    have k3 := Sparse.mul_lt_of_lt_bn (Int.ofNat_lt.1 h6)
    have hpos : ((2 ^ f.order : Nat) : Int) ≠ 0 := by have := Sparse.two_pow_pos' f.order; omega
    refine ⟨⟨f.dw.min.x + (x * 2 ^ f.order : Nat), f.dw.min.y + (y * 2 ^ f.order : Nat), f.dw.min.z + (z * 2 ^ f.order : Nat)⟩, ?_, ?_⟩
    · rw [Sparse.mem_iff_nat wf.ne]
      exact ⟨k1, k2, k3⟩
    · have q : ∀ a : Int, ∀ c : Nat, (a + (c * 2 ^ f.order : Nat) - a) / (2 ^ f.order : Nat) = c := by
        intro a c
        rw [show a + ((c * 2 ^ f.order : Nat) : Int) - a = (c : Int) * (2 ^ f.order : Nat) by push_cast; omega]
        exact Int.mul_ediv_cancel _ hpos
      rw [q, q, q]
  · rintro ⟨p, hp, rfl⟩
    have := Sparse.blockCoord_eq hp
    obtain ⟨g1, g2, g3⟩ := Sparse.r_bounds wf hp
    have e1 : (⟨(p.x - f.dw.min.x) / (2 ^ f.order : Nat), (p.y - f.dw.min.y) / (2 ^ f.order : Nat),
      (p.z - f.dw.min.z) / (2 ^ f.order : Nat)⟩ : V3i) = f.blockCoord (f.offsetCoord p) := rfl
    rw [e1, this]
    have k1 := Sparse.div_lt_bn (o := f.order) g1
    have k2 := Sparse.div_lt_bn (o := f.order) g2
    have k3 := Sparse.div_lt_bn (o := f.order) g3
    simp only
    exact ⟨⟨⟨⟨⟨Int.natCast_nonneg _, Int.natCast_nonneg _⟩, Int.natCast_nonneg _⟩, Int.ofNat_lt.2 k1⟩, Int.ofNat_lt.2 k2⟩,
      Int.ofNat_lt.2 k3⟩

/-- C03: beyond `2^24` voxels along an axis the addressing fails: with block order 0 a row of
`2^24 + 1` voxels gets a table of `2^24` blocks, and the last voxel lies outside it. -/
theorem C03_wide_field_out_of_table {α : Type} (zero : α) (f₀ : Sparse α) (h : f₀.order = 0) :
    let w : Box3i := ⟨⟨0, 0, 0⟩, ⟨2 ^ 24, 0, 0⟩⟩
    let f := f₀.setSize zero w w
    w.contains ⟨2 ^ 24, 0, 0⟩ = true ∧
    f.blocks.length = 2 ^ 24 ∧
    f.blockId (f.blockCoord (f.offsetCoord ⟨2 ^ 24, 0, 0⟩)) = 2 ^ 24 ∧
    f.value ⟨2 ^ 24, 0, 0⟩ = none := by
  intro w f
  have hlen : f.blocks.length = 2 ^ 24 := by
    simp only [f, Sparse.setSize, Sparse.setupBlocks, h, List.length_replicate]
    decide +kernel
  have hid : f.blockId (f.blockCoord (f.offsetCoord ⟨2 ^ 24, 0, 0⟩)) = 2 ^ 24 := by
    simp only [f, Sparse.setSize, Sparse.setupBlocks, h, Sparse.blockId, Sparse.blockCoord,
      Sparse.offsetCoord]
    decide +kernel
  refine ⟨by decide, hlen, hid, ?_⟩
  unfold Sparse.value
  simp only [hid]
  have : f.block? (2 ^ 24) = none := by
    unfold Sparse.block?
    rw [if_pos (by decide)]
    apply List.getElem?_eq_none
    rw [hlen]; decide
  rw [this]

example : SparseWindow ⟨⟨-3, 0, 0⟩, ⟨70, 16, 15⟩⟩ := by unfold SparseWindow; decide

/-! ## C09 (sparse) -/

/-- C09: resizing any sparse field, whatever it held, gives exactly the requested windows, keeps
the block order, makes every voxel of the new window read as zero and leaves no block allocated. -/
theorem C09_sparse_resize {α : Type} (zero : α) (f₀ : Sparse α) (e w : Box3i) (hw : SparseWindow w) :
    let f := f₀.setSize zero e w
    f.extents = e ∧ f.dw = w ∧ f.order = f₀.order ∧
    ∀ p, w.contains p = true → f.value p = some zero ∧ f.voxelIsInAllocatedBlock p = some false := by
  intro f
  have r : Refines f ⟨e, w, f₀.order, fun _ => zero, fun _ => False⟩ :=
    refines_setup (f := { f₀ with extents := e, dw := w }) zero hw.1 (fits_of hw) rfl rfl rfl
      (fun _ => rfl) (fun _ h => h)
  refine ⟨rfl, rfl, rfl, ?_⟩
  intro p hp
  obtain ⟨b, hb, hba⟩ := r.observes.voxelAlloc p hp
  refine ⟨r.observes.value p hp, ?_⟩
  rw [hb]
  cases b
  · rfl
  · exact absurd (hba.mp rfl) (fun h => h)

end F3D.Props
