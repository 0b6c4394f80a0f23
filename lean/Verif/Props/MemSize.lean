import Verif.Model.MemSize
import Verif.Props.Sparse
import Verif.Props.Dense

/-!
# C104: the figures of memory use follow what is allocated
-/

namespace F3D.Props
open F3D

/-! ## Specification -/

/-- Blocks of side `2^order` needed to cover `n` voxels in a row. -/
def blocksInRow (order n : Nat) : Nat := (n + (2 ^ order - 1)) / 2 ^ order

/-- Blocks that cover a window. -/
def blocksOverWindow (order : Nat) (w : Box3i) : Nat :=
  blocksInRow order (w.max.x - w.min.x + 1).toNat * blocksInRow order (w.max.y - w.min.y + 1).toNat *
    blocksInRow order (w.max.z - w.min.z + 1).toNat

/-! ## Lemmas -/

theorem dataSizeLoop_eq {α : Type} {o voxel N : Nat} (ho : o ≤ 10) (bs : List (Block α))
    (hb : ∀ b ∈ bs, Sparse.BWF N b) (acc : Nat) :
    dataSizeLoop o voxel bs acc =
      some (acc + (bs.filter (·.isAllocated)).length * (2 ^ o * 2 ^ o * 2 ^ o) * voxel) := by
  induction bs generalizing acc with
  | nil => simp [dataSizeLoop]
  | cons b bs ih =>
    have h1 := hb b (List.mem_cons_self ..)
    have h2 := fun acc => ih (fun b' h => hb b' (List.mem_cons_of_mem _ h)) acc
    have hs : shift3 o = some (2 ^ o * 2 ^ o * 2 ^ o) := by
      unfold shift3; rw [if_pos (by omega)]
    unfold Sparse.BWF at h1
    unfold dataSizeLoop
    cases ha : b.isAllocated with
    | true =>
      rw [ha, if_pos rfl] at h1
      obtain ⟨d, hd, _⟩ := h1
      simp only [hd, Option.isSome_some, if_true, hs, h2, List.filter_cons, ha, List.length_cons]
      congr 1
      generalize 2 ^ o * 2 ^ o * 2 ^ o = V
      generalize (bs.filter (·.isAllocated)).length = n
      rw [Nat.add_mul, Nat.add_mul, Nat.one_mul]; omega
    | false =>
      rw [ha] at h1
      simp only [Bool.false_eq_true, if_false] at h1
      simp [h1, h2, List.filter_cons, ha]

theorem memSize_wf {α : Type} {f : Sparse α} (wf : f.WF) (ho : f.order ≤ 10) (own block voxel : Nat) :
    f.memSize own block voxel =
      some (own + blocksOverWindow f.order f.dw * block + f.voxelCount * voxel) := by
  unfold Sparse.memSize
  simp only [dataSizeLoop_eq ho f.blocks wf.blk]
  congr 1
  rw [wf.len]
  unfold Sparse.voxelCount
  have : blocksOverWindow f.order f.dw = Sparse.bn f.order f.dw.nx * Sparse.bn f.order f.dw.ny *
      Sparse.bn f.order f.dw.nz := rfl
  rw [this]
  omega

theorem write_allocCount {α : Type} {f : Sparse α} (wf : f.WF) {q : V3i}
    (hq : f.dw.contains q = true) {v : α} {g : Sparse α} (hg : f.write q v = some g) :
    ∃ a, f.voxelIsInAllocatedBlock q = some a ∧ g.order = f.order ∧
      (g.blocks.filter (·.isAllocated)).length =
        (f.blocks.filter (·.isAllocated)).length + (if a then 0 else 1) := by
  obtain ⟨b, hb, hw⟩ := Sparse.get_block wf hq
  obtain ⟨hlt, hbe⟩ := List.getElem?_eq_some_iff.mp hb
  refine ⟨b.isAllocated, ?_, ?_⟩
  · unfold Sparse.voxelIsInAllocatedBlock Sparse.blockIsAllocated
    rw [Sparse.id_eq wf hq, Sparse.block?_nat, hb]; rfl
  · unfold Sparse.write Sparse.lvalue at hg
    simp only [Sparse.id_eq wf hq, Sparse.block?_nat, hb] at hg
    cases ha : b.isAllocated with
    | true =>
      simp only [ha, if_true, Sparse.store, Sparse.block?_nat, hb, Option.bind_some] at hg
      cases hwr : b.write (Block.offset f.order (f.voxelInBlock (f.offsetCoord q))) v with
      | none => rw [hwr] at hg; simp at hg
      | some b' =>
        rw [hwr] at hg
        simp only [Option.some.injEq] at hg
        subst hg
        have hb' : b'.isAllocated = true := by
          unfold Block.write at hwr
          split at hwr
          · simp at hwr
          · split at hwr
            · cases hwr; exact ha
            · simp at hwr
        refine ⟨rfl, ?_⟩
        simp only [Sparse.setBlock, Int.toNat_natCast, ← List.countP_eq_length_filter,
          List.countP_set hlt, hbe, ha, hb', if_true, Nat.add_zero]
        have : 0 < f.blocks.countP (·.isAllocated) :=
          List.countP_pos_iff.mpr ⟨b, hbe ▸ List.getElem_mem hlt, ha⟩
        omega
    | false =>
      simp only [ha, Bool.false_eq_true, if_false, Sparse.store, Sparse.block?_nat, Sparse.setBlock,
        Int.toNat_natCast, List.getElem?_set_self hlt, Option.bind_some] at hg
      split at hg
      · simp at hg
      · rename_i b' hwr
        simp only [Option.some.injEq] at hg
        subst hg
        have hb' : b'.isAllocated = true := by
          unfold Block.write at hwr
          split at hwr
          · simp at hwr
          · split at hwr
            · cases hwr; rfl
            · simp at hwr
        refine ⟨rfl, ?_⟩
        simp only [List.set_set, ← List.countP_eq_length_filter, List.countP_set hlt, hbe, ha, hb',
          if_true]
        simp

/-! ## The property -/

/-- C104: the figure of a sparse field that came about by any operations is the size of the object,
of one entry per block over the window, and of the voxels that `voxelCount` counts. (The order of
the blocks is at most 10: beyond, the code shifts out of the range of `int`.) -/
theorem C104_sparse_figure {α : Type} [DecidableEq α] (zero : α) (f : Sparse α)
    (h : SparseReachable zero f) (ho : f.order ≤ 10) (own block voxel : Nat) :
    f.memSize own block voxel =
      some (own + blocksOverWindow f.order f.dw * block + f.voxelCount * voxel) := by
  obtain ⟨m, r⟩ := reachable_refines h
  exact memSize_wf r.wf ho own block voxel

/-- C104: a write to a voxel adds the voxels of one block to the figure if the block of the voxel
had none, and nothing otherwise. -/
theorem C104_sparse_write {α : Type} [DecidableEq α] (zero : α) (f : Sparse α)
    (h : SparseReachable zero f) (ho : f.order ≤ 10) (own block voxel : Nat) (q : V3i)
    (hq : f.dw.contains q = true) (v : α) :
    ∃ g a m, f.write q v = some g ∧ f.voxelIsInAllocatedBlock q = some a ∧
      f.memSize own block voxel = some m ∧
      g.memSize own block voxel = some (if a then m else m + 8 ^ f.order * voxel) := by
  obtain ⟨m, r⟩ := reachable_refines h
  have hq' : m.dw.contains q = true := by rw [← r.dw]; exact hq
  obtain ⟨g, hg, hr⟩ := refines_step zero r (.write q v) hq'
  obtain ⟨a, h1, h2, h3⟩ := write_allocCount r.wf hq hg
  refine ⟨g, a, _, hg, h1, memSize_wf r.wf ho own block voxel, ?_⟩
  rw [memSize_wf hr.wf (by omega)]
  have hdw : g.dw = f.dw := by rw [hr.dw, r.dw]; rfl
  have h8 : (8 : Nat) ^ f.order = 2 ^ f.order * 2 ^ f.order * 2 ^ f.order := by
    rw [← Nat.mul_pow, ← Nat.mul_pow]
  unfold Sparse.voxelCount
  rw [hdw, h2, h3, h8]
  cases a
  · simp only [Bool.false_eq_true, if_false]
    congr 1
    rw [Nat.add_mul, Nat.add_mul, Nat.one_mul]; omega
  · simp

/-- C104: `releaseBlocks` takes the voxels of as many blocks off the figure as it says it freed. -/
theorem C104_sparse_release {α : Type} [DecidableEq α] (zero : α) (f : Sparse α)
    (h : SparseReachable zero f) (ho : f.order ≤ 10) (own block voxel : Nat) (less : α → Bool) :
    (∃ g n m, f.releaseAllEqual = some (g, n) ∧ g.memSize own block voxel = some m ∧
      f.memSize own block voxel = some (m + n * 8 ^ f.order * voxel)) ∧
    (∃ g n m, f.releaseMaxAbs less = some (g, n) ∧ g.memSize own block voxel = some m ∧
      f.memSize own block voxel = some (m + n * 8 ^ f.order * voxel)) := by
  obtain ⟨m, r⟩ := reachable_refines h
  have h8 : (8 : Nat) ^ f.order = 2 ^ f.order * 2 ^ f.order * 2 ^ f.order := by
    rw [← Nat.mul_pow, ← Nat.mul_pow]
  have key : ∀ bad : α → α → Bool, ∃ g n m, f.releaseBlocks bad = some (g, n) ∧
      g.memSize own block voxel = some m ∧
      f.memSize own block voxel = some (m + n * 8 ^ f.order * voxel) := by
    intro bad
    obtain ⟨g, n, hg, hwf, hdw, _, hord, hc, _⟩ := Sparse.releaseBlocks_spec (bad := bad) r.wf
    refine ⟨g, n, _, hg, memSize_wf hwf (by omega) own block voxel, ?_⟩
    rw [memSize_wf r.wf ho]
    unfold Sparse.allocCount at hc
    unfold Sparse.voxelCount
    rw [hdw, hord, ← hc, h8, Nat.add_mul, Nat.add_mul, Nat.add_assoc, Nat.add_assoc, Nat.add_assoc]
  exact ⟨key _, key _⟩

/-- C104: from order 11 on the figure is undefined as soon as a block has voxels (the shifts leave
the range of `int`), so the limit on the order in the theorems above is needed. -/
theorem C104_sparse_order_limit {α : Type} (f : Sparse α) (ho : 11 ≤ f.order) (b : Block α)
    (hb : b ∈ f.blocks) (hd : b.data.isSome = true) (own block voxel : Nat) :
    f.memSize own block voxel = none := by
  have hs : shift3 f.order = none := by unfold shift3; rw [if_neg (by omega)]
  have key : ∀ (bs : List (Block α)) (acc : Nat), b ∈ bs →
      dataSizeLoop f.order voxel bs acc = none := by
    intro bs
    induction bs with
    | nil => intro _ h; cases h
    | cons c bs ih =>
      intro acc h
      unfold dataSizeLoop
      rw [hs]
      cases hc : c.data.isSome with
      | true => simp
      | false =>
        simp only [Bool.false_eq_true, if_false]
        rcases List.mem_cons.mp h with rfl | h
        · rw [hd] at hc; cases hc
        · exact ih acc h
  unfold Sparse.memSize
  simp only [key f.blocks 0 hb]

/-- C104: after `clear` the figure is that of the object and the entries of the blocks. -/
theorem C104_sparse_clear {α : Type} [DecidableEq α] (zero : α) (f : Sparse α)
    (h : SparseReachable zero f) (ho : f.order ≤ 10) (own block voxel : Nat) (v : α) :
    (f.clear zero v).memSize own block voxel = some (own + blocksOverWindow f.order f.dw * block) := by
  obtain ⟨m, r⟩ := reachable_refines h
  obtain ⟨g, hg, hr⟩ := refines_step zero r (.clear v) trivial
  cases hg
  rw [memSize_wf hr.wf (by exact ho)]
  have : (f.clear zero v).voxelCount = 0 := by
    unfold Sparse.voxelCount Sparse.clear Sparse.setupBlocks
    simp [Block.fresh]
  rw [this]
  simp; rfl

/-- C104: the figure of a dense field that was given a window has room for its voxels. -/
theorem C104_dense {α : Type} (dflt : α) (e w : Box3i) (f : Dense α)
    (h : Dense.setSize dflt e w = .ok f) (base own voxel spare : Nat) :
    own + (w.max.x - w.min.x + 1).toNat * (w.max.y - w.min.y + 1).toNat *
      (w.max.z - w.min.z + 1).toNat * voxel + base ≤ f.memSize base own voxel spare ∧
    f.memSize base own voxel spare = own + (w.max.x - w.min.x + 1).toNat *
      (w.max.y - w.min.y + 1).toNat * (w.max.z - w.min.z + 1).toNat * voxel + base + spare * voxel := by
  have key : f.memSize base own voxel spare = own + (w.max.x - w.min.x + 1).toNat *
      (w.max.y - w.min.y + 1).toNat * (w.max.z - w.min.z + 1).toNat * voxel + base +
        spare * voxel := by
    unfold Dense.setSize at h
    simp only at h
    split at h
    · cases h
    · rename_i hne
      cases h
      unfold Dense.memSize memSizeBase
      simp only [List.length_replicate]
      obtain ⟨x, hx⟩ := Int.eq_ofNat_of_zero_le (a := w.max.x - w.min.x + 1) (by omega)
      obtain ⟨y, hy⟩ := Int.eq_ofNat_of_zero_le (a := w.max.y - w.min.y + 1) (by omega)
      obtain ⟨z, hz⟩ := Int.eq_ofNat_of_zero_le (a := w.max.z - w.min.z + 1) (by omega)
      have e1 : (w.max - w.min + V3i.all 1).x = (x : Int) := hx
      have e2 : (w.max - w.min + V3i.all 1).y = (y : Int) := hy
      have e3 : (w.max - w.min + V3i.all 1).z = (z : Int) := hz
      have e4 : ((x : Int) * y * z).toNat = x * y * z := by norm_cast
      rw [e1, e2, e3, hx, hy, hz, e4]
      simp only [Int.toNat_natCast]
      rw [Nat.add_mul]; omega
  exact ⟨by omega, key⟩

theorem mipMemSize_acc (own : Nat) (ls : List (Option Nat)) (acc : Nat) :
    mipMemSize own ls acc = own + acc + (ls.map (fun l => l.getD 0)).sum := by
  induction ls generalizing acc with
  | nil => simp [mipMemSize, Nat.add_comm]
  | cons l ls ih =>
    cases l <;> simp [mipMemSize, ih]
    omega

theorem mipVoxelCount_acc (ls : List (Option Nat)) (acc : Nat) :
    mipVoxelCount ls acc = acc + (ls.map (fun l => l.getD 0)).sum := by
  induction ls generalizing acc with
  | nil => simp [mipVoxelCount]
  | cons l ls ih =>
    cases l <;> simp [mipVoxelCount, ih]
    omega

theorem sum_set_none (ls : List (Option Nat)) (i m : Nat) (h : ls[i]? = some none) :
    ((ls.set i (some m)).map (fun l => l.getD 0)).sum = (ls.map (fun l => l.getD 0)).sum + m := by
  induction ls generalizing i with
  | nil => simp at h
  | cons l ls ih =>
    cases i with
    | zero => simp at h; subst h; simp [Nat.add_comm]
    | succ i =>
      have h' : ls[i]? = some none := by simpa using h
      have := ih i h'
      rw [List.set_cons_succ, List.map_cons, List.map_cons, List.sum_cons, List.sum_cons, this]
      omega

/-- C104: the figures of a MIP field are the sums over the levels in memory (`none` is a level that
is not in memory), and for the memory its own size: with no level in memory they are its own size
and no voxel, and getting a level into memory adds the figure of that level. -/
theorem C104_mip (own n : Nat) (ls : List (Option Nat)) (i m : Nat) (h : ls[i]? = some none) :
    mipMemSize own (List.replicate n none) 0 = own ∧
    mipVoxelCount (List.replicate n none) 0 = 0 ∧
    mipMemSize own (ls.set i (some m)) 0 = mipMemSize own ls 0 + m ∧
    mipVoxelCount (ls.set i (some m)) 0 = mipVoxelCount ls 0 + m := by
  refine ⟨?_, ?_, ?_, ?_⟩
  · rw [mipMemSize_acc]; simp
  · rw [mipVoxelCount_acc]; simp
  · rw [mipMemSize_acc, mipMemSize_acc, sum_set_none _ _ _ h]; omega
  · rw [mipVoxelCount_acc, mipVoxelCount_acc, sum_set_none _ _ _ h]; omega

example : mipMemSize 100 [none, some 7, none] 0 = 107 := by decide

/-- The faces of the voxels of a window, in all three directions. -/
def voxelFaces (w : Box3i) : Nat :=
  let x := (w.max.x - w.min.x + 1).toNat
  let y := (w.max.y - w.min.y + 1).toNat
  let z := (w.max.z - w.min.z + 1).toNat
  (x + 1) * y * z + x * (y + 1) * z + x * y * (z + 1)

theorem mac_lengths {f g : Mac} {e w : Box3i} (h : f.setSize e w = some g) :
    g.cu.data.length + g.cv.data.length + g.cw.data.length = voxelFaces w := by
  have hl : ∀ (l : List Rat) (n : Nat), (Mac.resizeVec l n).length = n := by
    intro l n; unfold Mac.resizeVec; simp; omega
  unfold Mac.setSize at h
  simp only at h
  split at h
  · cases h
  · rename_i hne
    cases h
    simp only [Mac.resizeComp, hl]
    unfold voxelFaces
    have e1 : (w.max - w.min + V3i.all 1).x = w.max.x - w.min.x + 1 := rfl
    have e2 : (w.max - w.min + V3i.all 1).y = w.max.y - w.min.y + 1 := rfl
    have e3 : (w.max - w.min + V3i.all 1).z = w.max.z - w.min.z + 1 := rfl
    rw [e1, e2, e3] at hne
    obtain ⟨x, hx⟩ := Int.eq_ofNat_of_zero_le (a := w.max.x - w.min.x + 1) (by omega)
    obtain ⟨y, hy⟩ := Int.eq_ofNat_of_zero_le (a := w.max.y - w.min.y + 1) (by omega)
    obtain ⟨z, hz⟩ := Int.eq_ofNat_of_zero_le (a := w.max.z - w.min.z + 1) (by omega)
    have a1 : (w.max - w.min + V3i.all 1 + (⟨1, 0, 0⟩ : V3i)) = ⟨x + 1, y, z⟩ := by
      rw [← hx, ← hy, ← hz]; show V3i.mk _ _ _ = _; congr 1 <;> simp [e1, e2, e3]
    have a2 : (w.max - w.min + V3i.all 1 + (⟨0, 1, 0⟩ : V3i)) = ⟨x, y + 1, z⟩ := by
      rw [← hx, ← hy, ← hz]; show V3i.mk _ _ _ = _; congr 1 <;> simp [e1, e2, e3]
    have a3 : (w.max - w.min + V3i.all 1 + (⟨0, 0, 1⟩ : V3i)) = ⟨x, y, z + 1⟩ := by
      rw [← hx, ← hy, ← hz]; show V3i.mk _ _ _ = _; congr 1 <;> simp [e1, e2, e3]
    rw [a1, a2, a3, hx, hy, hz]
    simp only [Int.toNat_natCast]
    norm_cast

theorem capAfter_le {cap n cap' : Nat} (h : CapAfter cap n cap') : cap ≤ cap' ∧ n ≤ cap' := by
  unfold CapAfter at h
  split at h <;> omega

/-- C104: the figure of a MAC field has room for every face of every window that it ever had: the figure does not shrink with
the field. (A dense field gives its memory back, see `C104_dense`.) -/
theorem C104_mac (ws : List Box3i) (m : MacMem) (h : MacSized ws m) (base own real : Nat) :
    ∀ w ∈ ws, own + voxelFaces w * real + base ≤ m.memSize base own real := by
  have key : ∀ w ∈ ws, voxelFaces w ≤ m.capU + m.capV + m.capW := by
    induction h with
    | new => intro w hw; cases hw
    | size hm hs ha hb hc ih =>
      intro w hw
      have l := mac_lengths hs
      obtain ⟨a1, a2⟩ := capAfter_le ha
      obtain ⟨b1, b2⟩ := capAfter_le hb
      obtain ⟨c1, c2⟩ := capAfter_le hc
      simp only
      rcases List.mem_cons.mp hw with rfl | hw
      · omega
      · have := ih w hw; omega
  intro w hw
  have := Nat.mul_le_mul_right real (key w hw)
  unfold MacMem.memSize memSizeBase
  simp only
  omega

/-- C104: a case. A MAC field with a window of eight voxels and then of one has 36 faces, then 6; after the second call its
figure still has the 36. -/
theorem C104_mac_witness : ∃ m, MacSized [⟨⟨0, 0, 0⟩, ⟨0, 0, 0⟩⟩, ⟨⟨0, 0, 0⟩, ⟨1, 1, 1⟩⟩] m ∧
    m.f.cu.data.length + m.f.cv.data.length + m.f.cw.data.length = 6 ∧ m.memSize 0 100 4 = 100 + 36 * 4 := by
  have h1 : (Mac.fresh.setSize ⟨⟨0, 0, 0⟩, ⟨1, 1, 1⟩⟩ ⟨⟨0, 0, 0⟩, ⟨1, 1, 1⟩⟩).isSome = true := by decide +kernel
  obtain ⟨g, hg⟩ := Option.isSome_iff_exists.mp h1
  have h2 : ((Mac.fresh.setSize ⟨⟨0, 0, 0⟩, ⟨1, 1, 1⟩⟩ ⟨⟨0, 0, 0⟩, ⟨1, 1, 1⟩⟩).bind (fun g =>
      (g.setSize ⟨⟨0, 0, 0⟩, ⟨0, 0, 0⟩⟩ ⟨⟨0, 0, 0⟩, ⟨0, 0, 0⟩⟩).map (fun k => (g.cu.data.length, g.cv.data.length, g.cw.data.length,
        k.cu.data.length, k.cv.data.length, k.cw.data.length)))) = some (12, 12, 12, 2, 2, 2) := by decide +kernel
  rw [hg, Option.bind_some] at h2
  obtain ⟨k, hk, he⟩ := Option.map_eq_some_iff.mp h2
  simp only [Prod.mk.injEq] at he
  obtain ⟨l1, l2, l3, l4, l5, l6⟩ := he
  refine ⟨⟨k, 12, 12, 12⟩, .size (.size .new hg (a := 12) (b := 12) (c := 12) ?_ ?_ ?_) hk ?_ ?_ ?_, ?_, rfl⟩
  all_goals simp only [CapAfter, l1, l2, l3, l4, l5, l6] <;> decide

/-- C104: a field without voxels counts its own size and that of its base class; so does a dense
field, whose own size has the base class in it already: the base class is counted twice. A sparse
field counts it once. -/
theorem C104_base_twice (base extra : Nat) :
    memSizeEmpty base (base + extra) = 2 * base + extra ∧
    (∀ {α : Type} (f : Dense α), f.data = [] →
      f.memSize base (base + extra) 4 0 = 2 * base + extra) ∧
    (∀ {α : Type} (f : Sparse α), f.blocks = [] →
      f.memSize (base + extra) 32 4 = some (base + extra)) := by
  refine ⟨by unfold memSizeEmpty memSizeBase; omega, ?_, ?_⟩
  · intro α f hf
    unfold Dense.memSize memSizeBase
    simp [hf]; omega
  · intro α f hf
    unfold Sparse.memSize
    simp [hf, dataSizeLoop]

/-- C104: a case. The field of `signFlipField` (a window of two voxels, blocks of side 2) has one
block with 8 voxels: with an object of 100 bytes, entries of 32 and voxels of 4 bytes that makes
`100 + 32 + 8 * 4`. Releasing by threshold frees it. -/
theorem C104_witness :
    (signFlipField.bind (fun f => f.memSize 100 32 4)) = some 164 ∧
    (signFlipField.bind (fun f => (f.releaseMaxAbs (fun _ => false)).bind
      (fun r => r.1.memSize 100 32 4))) = some 132 := by
  exact ⟨by decide +kernel, by decide +kernel⟩

end F3D.Props
