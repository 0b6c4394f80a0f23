import Verif.Model.Sparse
import Verif.Proofs.Iterate

namespace F3D

theorem toFloat32_id {n : Nat} (h : n ≤ 2 ^ 24) : toFloat32 n = n := by
  unfold toFloat32
  simp only
  by_cases h' : n = 2 ^ 24
  · subst h'; decide
  · have hlt : n < 2 ^ 24 := by omega
    have : n.log2 < 24 := by
      by_cases h0 : n = 0
      · subst h0; decide
      · exact (Nat.log2_lt h0).mpr hlt
    rw [if_pos this]

namespace Sparse
variable {α : Type}

/-- Number of blocks along an axis with `n` voxels. -/
def bn (o n : Nat) : Nat := (n + (2 ^ o - 1)) / 2 ^ o

theorem two_pow_pos' (o : Nat) : 0 < 2 ^ o := Nat.two_pow_pos o

theorem div_lt_bn {o n x : Nat} (h : x < n) : x / 2 ^ o < bn o n := by
  have hB := two_pow_pos' o
  unfold bn
  have h1 : x / 2 ^ o * 2 ^ o ≤ x := Nat.div_mul_le_self _ _
  have : x / 2 ^ o + 1 ≤ (n + (2 ^ o - 1)) / 2 ^ o := by
    rw [Nat.le_div_iff_mul_le hB, Nat.add_mul]
    omega
  omega

theorem mul_lt_of_lt_bn {o n c : Nat} (h : c < bn o n) : c * 2 ^ o < n := by
  have hB := two_pow_pos' o
  unfold bn at h
  have : c + 1 ≤ (n + (2 ^ o - 1)) / 2 ^ o := h
  rw [Nat.le_div_iff_mul_le hB, Nat.add_mul] at this
  omega

theorem bn_pos {o n : Nat} (h : 0 < n) : 0 < bn o n := by
  exact Nat.lt_of_le_of_lt (Nat.zero_le _) (div_lt_bn (o := o) h)

/-- A well-formed block of `N` elements. -/
def BWF (N : Nat) (b : Block α) : Prop :=
  if b.isAllocated then ∃ d, b.data = some d ∧ d.length = N else b.data = none

/-- Voxel count of a block. -/
def bvol (f : Sparse α) : Nat := 2 ^ f.order * 2 ^ f.order * 2 ^ f.order

structure WF (f : Sparse α) : Prop where
  ne : f.dw.isEmpty = false
  bx : f.bres.x = (bn f.order f.dw.nx : Nat)
  by' : f.bres.y = (bn f.order f.dw.ny : Nat)
  bz : f.bres.z = (bn f.order f.dw.nz : Nat)
  bxy : f.bxy = ((bn f.order f.dw.nx * bn f.order f.dw.ny : Nat) : Int)
  len : f.blocks.length = bn f.order f.dw.nx * bn f.order f.dw.ny * bn f.order f.dw.nz
  blk : ∀ b ∈ f.blocks, BWF f.bvol b

/-- Resolutions for which the float computation of the block counts is exact. -/
def Fits (w : Box3i) : Prop := w.nx ≤ 2 ^ 24 ∧ w.ny ≤ 2 ^ 24 ∧ w.nz ≤ 2 ^ 24

theorem blockCount_eq {o : Nat} {r : Int} {n : Nat} (h : r = n) (hn : n ≤ 2 ^ 24) :
    blockCount o r = (bn o n : Nat) := by
  subst h
  unfold blockCount bn
  rw [Int.toNat_natCast, toFloat32_id hn]

theorem size_of_ne {b : Box3i} (h : b.isEmpty = false) : b.size = b.max - b.min := by
  simp [Box3i.size, h]

theorem setupBlocks_wf {zero : α} {f : Sparse α} (h : f.dw.isEmpty = false) (hf : Fits f.dw) :
    (setupBlocks zero f).WF ∧
    (setupBlocks zero f).blocks = List.replicate
      (bn f.order f.dw.nx * bn f.order f.dw.ny * bn f.order f.dw.nz) (Block.fresh zero) := by
  obtain ⟨h1, h2, h3, p1, p2, p3⟩ := f.dw.dims h
  have hsz := size_of_ne h
  have ex : blockCount f.order (f.dw.size + V3i.all 1).x = (bn f.order f.dw.nx : Nat) :=
    blockCount_eq (by rw [hsz]; simp; omega) hf.1
  have ey : blockCount f.order (f.dw.size + V3i.all 1).y = (bn f.order f.dw.ny : Nat) :=
    blockCount_eq (by rw [hsz]; simp; omega) hf.2.1
  have ez : blockCount f.order (f.dw.size + V3i.all 1).z = (bn f.order f.dw.nz : Nat) :=
    blockCount_eq (by rw [hsz]; simp; omega) hf.2.2
  have hb : (setupBlocks zero f).blocks = List.replicate
      (bn f.order f.dw.nx * bn f.order f.dw.ny * bn f.order f.dw.nz) (Block.fresh zero) := by
    simp only [setupBlocks]
    rw [ex, ey, ez]
    congr 1
  refine ⟨⟨h, ex, ey, ez, ?_, ?_, ?_⟩, hb⟩
  · simp only [setupBlocks]; rw [ex, ey]; push_cast; rfl
  · rw [hb, List.length_replicate]; rfl
  · rw [hb]
    intro b hm
    rw [List.eq_of_mem_replicate hm]
    simp [BWF, Block.fresh]

/-! ## Addresses -/

/-- Offset coordinates as naturals. -/
def rx (f : Sparse α) (p : V3i) : Nat := (p.x - f.dw.min.x).toNat
def ry (f : Sparse α) (p : V3i) : Nat := (p.y - f.dw.min.y).toNat
def rz (f : Sparse α) (p : V3i) : Nat := (p.z - f.dw.min.z).toNat

/-- Block number as a natural. -/
def idN (f : Sparse α) (p : V3i) : Nat :=
  Grid.enc (bn f.order f.dw.nx) (bn f.order f.dw.ny)
    (f.rx p / 2 ^ f.order) (f.ry p / 2 ^ f.order) (f.rz p / 2 ^ f.order)

def offN (f : Sparse α) (p : V3i) : Nat :=
  Grid.enc (2 ^ f.order) (2 ^ f.order)
    (f.rx p % 2 ^ f.order) (f.ry p % 2 ^ f.order) (f.rz p % 2 ^ f.order)

theorem offsetCoord_eq {f : Sparse α} {p : V3i} (hp : f.dw.contains p = true) :
    f.offsetCoord p = ⟨f.rx p, f.ry p, f.rz p⟩ := by
  rw [Box3i.contains_iff] at hp
  apply V3i.ext' <;> simp [offsetCoord, rx, ry, rz] <;> omega

theorem blockCoord_eq {f : Sparse α} {p : V3i} (hp : f.dw.contains p = true) :
    f.blockCoord (f.offsetCoord p) =
      ⟨(f.rx p / 2 ^ f.order : Nat), (f.ry p / 2 ^ f.order : Nat), (f.rz p / 2 ^ f.order : Nat)⟩ := by
  rw [offsetCoord_eq hp]
  simp only [blockCoord, ← Int.natCast_ediv]

theorem voxelInBlock_eq {f : Sparse α} {p : V3i} (hp : f.dw.contains p = true) :
    f.voxelInBlock (f.offsetCoord p) =
      ⟨(f.rx p % 2 ^ f.order : Nat), (f.ry p % 2 ^ f.order : Nat), (f.rz p % 2 ^ f.order : Nat)⟩ := by
  rw [offsetCoord_eq hp]
  simp only [voxelInBlock, ← Int.natCast_emod]

theorem blockId_nat {f : Sparse α} (wf : f.WF) (a b c : Nat) :
    f.blockId ⟨a, b, c⟩ = (Grid.enc (bn f.order f.dw.nx) (bn f.order f.dw.ny) a b c : Nat) := by
  unfold blockId Grid.enc
  simp only [wf.bxy, wf.bx]
  push_cast
  omega

theorem id_eq {f : Sparse α} (wf : f.WF) {p : V3i} (hp : f.dw.contains p = true) :
    f.blockId (f.blockCoord (f.offsetCoord p)) = (f.idN p : Nat) := by
  rw [blockCoord_eq hp, blockId_nat wf]; rfl

theorem offset_nat (o a b c : Nat) :
    Block.offset o ⟨a, b, c⟩ = (Grid.enc (2 ^ o) (2 ^ o) a b c : Nat) := by
  unfold Block.offset Grid.enc
  push_cast
  omega

theorem off_eq {f : Sparse α} {p : V3i} (hp : f.dw.contains p = true) :
    Block.offset f.order (f.voxelInBlock (f.offsetCoord p)) = (f.offN p : Nat) := by
  rw [voxelInBlock_eq hp, offset_nat]; rfl

theorem r_bounds {f : Sparse α} (wf : f.WF) {p : V3i} (hp : f.dw.contains p = true) :
    f.rx p < f.dw.nx ∧ f.ry p < f.dw.ny ∧ f.rz p < f.dw.nz :=
  Box3i.toNat_bounds wf.ne hp

theorem idN_lt {f : Sparse α} (wf : f.WF) {p : V3i} (hp : f.dw.contains p = true) :
    f.idN p < f.blocks.length := by
  obtain ⟨h1, h2, h3⟩ := r_bounds wf hp
  rw [wf.len]
  exact Grid.enc_lt (div_lt_bn h1) (div_lt_bn h2) (div_lt_bn h3)

theorem offN_lt (f : Sparse α) (p : V3i) : f.offN p < f.bvol :=
  Grid.enc_lt (Nat.mod_lt _ (two_pow_pos' _)) (Nat.mod_lt _ (two_pow_pos' _))
    (Nat.mod_lt _ (two_pow_pos' _))

theorem idN_eq_iff {f : Sparse α} (wf : f.WF) {p q : V3i} (hp : f.dw.contains p = true)
    (hq : f.dw.contains q = true) :
    f.idN p = f.idN q ↔ f.rx p / 2 ^ f.order = f.rx q / 2 ^ f.order ∧
      f.ry p / 2 ^ f.order = f.ry q / 2 ^ f.order ∧ f.rz p / 2 ^ f.order = f.rz q / 2 ^ f.order := by
  obtain ⟨h1, h2, h3⟩ := r_bounds wf hp
  obtain ⟨g1, g2, g3⟩ := r_bounds wf hq
  constructor
  · intro h
    exact Grid.enc_inj (div_lt_bn h1) (div_lt_bn h2) (div_lt_bn g1) (div_lt_bn g2) h
  · rintro ⟨e1, e2, e3⟩
    unfold idN; rw [e1, e2, e3]

theorem addr_inj {f : Sparse α} (wf : f.WF) {p q : V3i} (hp : f.dw.contains p = true)
    (hq : f.dw.contains q = true) (hid : f.idN p = f.idN q) (hoff : f.offN p = f.offN q) : p = q := by
  obtain ⟨e1, e2, e3⟩ := (idN_eq_iff wf hp hq).mp hid
  have hB := two_pow_pos' f.order
  obtain ⟨o1, o2, o3⟩ := Grid.enc_inj (Nat.mod_lt _ hB) (Nat.mod_lt _ hB) (Nat.mod_lt _ hB)
    (Nat.mod_lt _ hB) hoff
  have d : ∀ a b : Nat, a / 2 ^ f.order = b / 2 ^ f.order → a % 2 ^ f.order = b % 2 ^ f.order → a = b := by
    intro a b h1 h2
    rw [← Nat.div_add_mod a (2 ^ f.order), ← Nat.div_add_mod b (2 ^ f.order), h1, h2]
  have x1 := d _ _ e1 o1
  have x2 := d _ _ e2 o2
  have x3 := d _ _ e3 o3
  rw [Box3i.contains_iff] at hp hq
  simp only [rx, ry, rz] at x1 x2 x3
  apply V3i.ext' <;> omega

/-! ## Blocks -/

/-- Value seen through a block at an offset. -/
def bval (b : Block α) (off : Nat) : Option α :=
  if b.isAllocated then b.read off else some b.emptyValue

theorem bval_some {N : Nat} {b : Block α} (h : BWF N b) {off : Nat} (ho : off < N) :
    ∃ v, bval b off = some v := by
  unfold bval BWF at *
  cases hb : b.isAllocated
  · simp
  · simp only [hb, if_true] at h ⊢
    obtain ⟨d, hd, hl⟩ := h
    simp only [Block.read, hd]
    rw [if_pos (by omega), Int.toNat_natCast]
    exact ⟨_, List.getElem?_eq_getElem (by omega)⟩

theorem block?_nat (f : Sparse α) (i : Nat) : f.block? (i : Int) = f.blocks[i]? := by
  simp [block?]

theorem value_eq {f : Sparse α} (wf : f.WF) {p : V3i} (hp : f.dw.contains p = true) :
    f.value p = f.blocks[f.idN p]?.bind (fun b => bval b (f.offN p)) := by
  unfold value
  simp only [id_eq wf hp, off_eq hp, block?_nat]
  cases f.blocks[f.idN p]? with
  | none => rfl
  | some b => simp [bval]

theorem value_of_block {f : Sparse α} (wf : f.WF) {p : V3i} (hp : f.dw.contains p = true)
    {b : Block α} (hb : f.blocks[f.idN p]? = some b) : f.value p = bval b (f.offN p) := by
  rw [value_eq wf hp, hb]; rfl

theorem get_block {f : Sparse α} (wf : f.WF) {p : V3i} (hp : f.dw.contains p = true) :
    ∃ b, f.blocks[f.idN p]? = some b ∧ BWF f.bvol b := by
  have := idN_lt wf hp
  refine ⟨_, List.getElem?_eq_getElem this, wf.blk _ (List.getElem_mem _)⟩

theorem value_isSome {f : Sparse α} (wf : f.WF) {p : V3i} (hp : f.dw.contains p = true) :
    ∃ v, f.value p = some v := by
  obtain ⟨b, hb, hw⟩ := get_block wf hp
  rw [value_of_block wf hp hb]
  exact bval_some hw (offN_lt f p)

theorem BWF.resize {N : Nat} (b : Block α) : BWF N (b.resize N) := by
  simp [BWF, Block.resize]

theorem BWF.set {N : Nat} {b : Block α} {d : List α} (i : Nat) (v : α)
    (ha : b.isAllocated = true) (hd : d.length = N) :
    BWF N { b with data := some (d.set i v) } := by
  simp [BWF, ha, hd]

theorem bval_resize {N : Nat} {b : Block α} (ha : b.isAllocated = false) {off : Nat} (ho : off < N) :
    bval (b.resize N) off = bval b off := by
  simp [bval, Block.resize, Block.read, ha, ho]

/-- Well-formedness is kept when one block is replaced by a well-formed one. -/
theorem WF.setBlock {f : Sparse α} (wf : f.WF) {i : Nat} {b : Block α} (hb : BWF f.bvol b) :
    (f.setBlock i b).WF where
  ne := wf.ne
  bx := wf.bx
  by' := wf.by'
  bz := wf.bz
  bxy := wf.bxy
  len := by simp only [Sparse.setBlock, List.length_set]; exact wf.len
  blk := by
    intro b' hm
    simp only [Sparse.setBlock] at hm
    rcases List.mem_or_eq_of_mem_set hm with h | h
    · exact wf.blk _ h
    · subst h; exact hb

theorem value_setBlock {f : Sparse α} (wf : f.WF) {i : Nat} (hi : i < f.blocks.length) {b : Block α}
    (hb : BWF f.bvol b) {p : V3i} (hp : f.dw.contains p = true) :
    (f.setBlock i b).value p = if f.idN p = i then bval b (f.offN p) else f.value p := by
  rw [value_eq (wf.setBlock hb) (by exact hp), value_eq wf hp]
  have e1 : (f.setBlock i b).idN p = f.idN p := rfl
  have e2 : (f.setBlock i b).offN p = f.offN p := rfl
  rw [e1, e2]
  simp only [Sparse.setBlock, Int.toNat_natCast]
  split
  · rename_i h
    rw [h, List.getElem?_set_self hi]; rfl
  · rename_i h
    rw [List.getElem?_set_ne (Ne.symm h)]

/-- The combined effect of a write. -/
theorem write_spec {f : Sparse α} (wf : f.WF) {p : V3i} (hp : f.dw.contains p = true) (v : α) :
    ∃ b', f.write p v = some (f.setBlock (f.idN p : Nat) b') ∧ BWF f.bvol b' ∧
      b'.isAllocated = true ∧
      (∀ off, off < f.bvol → bval b' off =
        if off = f.offN p then some v else f.blocks[f.idN p]?.bind (fun b => bval b off)) := by
  obtain ⟨b, hb, hw⟩ := get_block wf hp
  have hlt := idN_lt wf hp
  have hoff := offN_lt f p
  cases ha : b.isAllocated with
  | true =>
    have hw' := hw
    simp only [BWF, ha, if_true] at hw'
    obtain ⟨d, hd, hl⟩ := hw'
    refine ⟨{ b with data := some (d.set (f.offN p) v) }, ?_, BWF.set _ _ ha hl, ha, ?_⟩
    · simp only [write, lvalue, id_eq wf hp, off_eq hp, block?_nat, hb, ha, if_true, store,
        Option.bind_some, Block.write, hd, Int.toNat_natCast]
      rw [if_pos ⟨by omega, by omega⟩]
    · intro off ho
      rw [hb]
      simp only [bval, ha, if_true, Block.read, hd, Option.bind_some, Int.toNat_natCast]
      rw [if_pos (by omega)]
      split
      · rename_i h; subst h
        rw [List.getElem?_set_self (by omega)]
      · rename_i h
        rw [List.getElem?_set_ne (Ne.symm h), if_pos (by omega)]
  | false =>
    have hd : (b.resize f.bvol).data = some (List.replicate f.bvol b.emptyValue) := rfl
    refine ⟨{ b.resize f.bvol with data := some ((List.replicate f.bvol b.emptyValue).set (f.offN p) v) },
      ?_, BWF.set _ _ rfl (by simp), rfl, ?_⟩
    · simp only [write, lvalue, id_eq wf hp, off_eq hp, block?_nat, hb, ha, store]
      rw [if_neg (by simp)]
      simp only
      have : (f.setBlock (f.idN p : Nat) (b.resize (2 ^ f.order * 2 ^ f.order * 2 ^ f.order))).block?
          (f.idN p : Nat) = some (b.resize f.bvol) := by
        rw [block?_nat]
        simp only [Sparse.setBlock, Int.toNat_natCast]
        rw [List.getElem?_set_self hlt]; rfl
      rw [this]
      simp only [Option.bind_some, Block.write, hd, Int.toNat_natCast, List.length_replicate]
      rw [if_pos ⟨by omega, hoff⟩]
      simp [Sparse.setBlock]
    · intro off ho
      rw [hb]
      have hra : (b.resize f.bvol).isAllocated = true := rfl
      simp only [bval, hra, ha, if_true, Block.read, Option.bind_some, Int.toNat_natCast]
      rw [if_pos (by omega)]
      split
      · rename_i h; subst h
        rw [List.getElem?_set_self (by simpa using hoff)]
      · rename_i h
        rw [List.getElem?_set_ne (Ne.symm h)]
        simp [ho]

end Sparse
end F3D
