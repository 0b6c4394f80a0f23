import Verif.Proofs.SparseRelease

/-! Sparse voxel iterators. -/

namespace F3D
namespace Sparse
variable {α : Type}

/-- Whether the block of `p` is allocated. -/
def al (f : Sparse α) (p : V3i) : Bool := (f.blocks[f.idN p]?.map (·.isAllocated)).getD false

/-- The iterator state at a voxel of the window. -/
def itAt (f : Sparse α) (p : V3i) : Iter :=
  { pos := p,
    ptr := if f.al p then .data (f.idN p : Nat) (f.offN p : Nat) else .emptyVal (f.idN p : Nat),
    isEmptyBlock := !f.al p,
    ticker := (f.rx p % 2 ^ f.order : Nat),
    blockId := (f.idN p : Nat) }

theorem table_size {f : Sparse α} (wf : f.WF) : f.bxy * f.bres.z = (f.blocks.length : Nat) := by
  rw [wf.bxy, wf.bz, wf.len]; push_cast; rfl

theorem setupNextBlock_in {f : Sparse α} (wf : f.WF) {p : V3i} (hp : f.dw.contains p = true)
    (s : Iter) : setupNextBlock f s p = some { f.itAt p with pos := s.pos } := by
  obtain ⟨b, hb, _⟩ := get_block wf hp
  have hlt := idN_lt wf hp
  unfold setupNextBlock
  simp only [id_eq wf hp, off_eq hp, table_size wf, block?_nat, hb]
  rw [if_neg (by omega)]
  have hal : f.al p = b.isAllocated := by simp [al, hb]
  have hv : (f.voxelInBlock (f.offsetCoord p)).x = (f.rx p % 2 ^ f.order : Nat) := by
    rw [voxelInBlock_eq hp]
  cases ha : b.isAllocated <;> simp [itAt, hal, ha, hv]

theorem iterMake_in {f : Sparse α} (wf : f.WF) {p : V3i} (hp : f.dw.contains p = true) :
    f.iterMake p = some (f.itAt p) := by
  unfold iterMake
  rw [setupNextBlock_in wf hp]
  rfl

/-- Setting up at a position at most one slice above the window never fails. -/
theorem setupNextBlock_end {f : Sparse α} (wf : f.WF) {p : V3i} (hx : f.dw.min.x ≤ p.x ∧ p.x ≤ f.dw.max.x)
    (hy : f.dw.min.y ≤ p.y ∧ p.y ≤ f.dw.max.y) (hz : f.dw.min.z ≤ p.z) (s : Iter) :
    ∃ s', setupNextBlock f s p = some s' ∧ s'.pos = s.pos := by
  unfold setupNextBlock
  simp only
  split
  · exact ⟨_, rfl, rfl⟩
  · rename_i h
    rw [table_size wf] at h
    have hnn : 0 ≤ f.blockId (f.blockCoord (f.offsetCoord p)) := by
      unfold blockId blockCoord offsetCoord
      simp only [V3i.sub_x, V3i.sub_y, V3i.sub_z, wf.bxy, wf.bx]
      have k1 : 0 ≤ (p.x - f.dw.min.x) / ((2 ^ f.order : Nat) : Int) :=
        Int.ediv_nonneg (by omega) (Int.natCast_nonneg _)
      have k2 : 0 ≤ (p.y - f.dw.min.y) / ((2 ^ f.order : Nat) : Int) :=
        Int.ediv_nonneg (by omega) (Int.natCast_nonneg _)
      have k3 : 0 ≤ (p.z - f.dw.min.z) / ((2 ^ f.order : Nat) : Int) :=
        Int.ediv_nonneg (by omega) (Int.natCast_nonneg _)
      have t1 := Int.mul_nonneg k3 (Int.natCast_nonneg (bn f.order f.dw.nx * bn f.order f.dw.ny))
      have t2 := Int.mul_nonneg k2 (Int.natCast_nonneg (bn f.order f.dw.nx))
      omega
    have : ∃ b, f.block? (f.blockId (f.blockCoord (f.offsetCoord p))) = some b := by
      unfold block?
      rw [if_pos hnn]
      exact ⟨_, List.getElem?_eq_getElem (by omega)⟩
    obtain ⟨b, hb⟩ := this
    rw [hb]
    simp only
    split <;> exact ⟨_, rfl, rfl⟩

/-- Advancing inside a row and inside a block keeps the block and moves one element on. -/
theorem row_step {f : Sparse α} {p : V3i} (hp : f.dw.contains p = true)
    (hB : f.rx p % 2 ^ f.order + 1 ≠ 2 ^ f.order) :
    let p' : V3i := ⟨p.x + 1, p.y, p.z⟩
    f.idN p' = f.idN p ∧ f.offN p' = f.offN p + 1 ∧ f.rx p' % 2 ^ f.order = f.rx p % 2 ^ f.order + 1 := by
  intro p'
  have hpos := two_pow_pos' f.order
  rw [Box3i.contains_iff] at hp
  have e : f.rx p' = f.rx p + 1 := by simp only [rx, p']; omega
  obtain ⟨m, d⟩ := Grid.succ_mod_div (r := 2 ^ f.order) (i := f.rx p) hpos
  rw [if_neg (by omega)] at m d
  have e2 : f.ry p' = f.ry p := rfl
  have e3 : f.rz p' = f.rz p := rfl
  refine ⟨?_, ?_, ?_⟩
  · unfold idN; rw [e, e2, e3, d]
  · unfold offN; rw [e, e2, e3, m]; unfold Grid.enc; omega
  · rw [e, m]

theorem iterNext_in {f : Sparse α} (wf : f.WF) {w : Box3i} {p : V3i}
    (hsub : ∀ q, w.contains q = true → f.dw.contains q = true)
    (hwne : w.isEmpty = false) (hp : w.contains p = true) (hmax : p ≠ w.max) :
    f.iterNext w (f.itAt p) = some (f.itAt (F3D.iterNext w p)) := by
  have hp' : w.contains (F3D.iterNext w p) = true := by
    rw [Box3i.contains_iff] at hp ⊢
    rw [Box3i.isEmpty_false] at hwne
    have : p.x ≠ w.max.x ∨ p.y ≠ w.max.y ∨ p.z ≠ w.max.z := by
      by_cases h1 : p.x = w.max.x
      · by_cases h2 : p.y = w.max.y
        · right; right; intro h3; exact hmax (V3i.ext' h1 h2 h3)
        · exact Or.inr (Or.inl h2)
      · exact Or.inl h1
    unfold F3D.iterNext
    repeat' split
    all_goals (simp only at *; omega)
  unfold iterNext
  simp only
  split
  · have hpe : (f.itAt p).pos = p := rfl
    rw [hpe, setupNextBlock_in wf (hsub _ hp')]
    rfl
  · rename_i h
    simp only [Bool.or_eq_true, decide_eq_true_eq, not_or] at h
    obtain ⟨h1, h2⟩ := h
    have hx : p.x ≠ w.max.x := h1
    have hstep : F3D.iterNext w p = ⟨p.x + 1, p.y, p.z⟩ := by
      unfold F3D.iterNext; rw [if_neg hx]
    have hB : f.rx p % 2 ^ f.order + 1 ≠ 2 ^ f.order := by
      intro e; apply h2; simp only [itAt]; omega
    obtain ⟨r1, r2, r3⟩ := row_step (hsub _ hp) hB
    have hal : f.al ⟨p.x + 1, p.y, p.z⟩ = f.al p := by unfold al; rw [r1]
    rw [hstep]
    simp only [itAt, hal, r1, r2, r3, hstep]
    congr 1
    rcases Bool.eq_false_or_eq_true (f.al p) with hx' | hx' <;> simp [hx', Ptr.inc]

theorem iterNext_max' {f : Sparse α} (wf : f.WF) {w : Box3i}
    (hsub : ∀ q, w.contains q = true → f.dw.contains q = true) (hwne : w.isEmpty = false) (s : Iter)
    (hs : s.pos = w.max) :
    ∃ s', f.iterNext w s = some s' ∧ s'.pos = iterEnd w := by
  have hmin : w.contains w.min = true := by
    rw [Box3i.isEmpty_false] at hwne; rw [Box3i.contains_iff]; omega
  have hmax : w.contains w.max = true := by
    rw [Box3i.isEmpty_false] at hwne; rw [Box3i.contains_iff]; omega
  have h1 := Box3i.contains_iff.mp (hsub _ hmin)
  have h2 := Box3i.contains_iff.mp (hsub _ hmax)
  have hpos : F3D.iterNext w s.pos = iterEnd w := by rw [hs, iterNext_max]
  unfold iterNext
  simp only [hpos]
  have he : (decide (s.pos.x = w.max.x)) = true := by rw [hs]; simp
  rw [he, Bool.true_or, if_pos rfl]
  have := setupNextBlock_end wf (p := iterEnd w) (by simp only [iterEnd]; omega)
    (by simp only [iterEnd]; omega) (by simp only [iterEnd]; omega)
    { pos := iterEnd w, ptr := if s.isEmptyBlock = true then s.ptr else s.ptr.inc,
      isEmptyBlock := s.isEmptyBlock, ticker := 0, blockId := s.blockId }
  exact this

theorem iterDeref_itAt {f : Sparse α} (wf : f.WF) {p : V3i} (hp : f.dw.contains p = true) :
    f.iterDeref (f.itAt p) = f.value p := by
  obtain ⟨b, hb, _⟩ := get_block wf hp
  have hal : f.al p = b.isAllocated := by simp [al, hb]
  rw [value_of_block wf hp hb]
  unfold iterDeref itAt bval
  cases ha : b.isAllocated <;> simp [hal, ha, block?_nat, hb]

/-! ## Writing through the iterator -/

theorem allocated_of_al {f : Sparse α} (wf : f.WF) {p : V3i} (hp : f.dw.contains p = true) :
    ∃ b, f.blocks[f.idN p]? = some b ∧ BWF f.bvol b ∧ f.al p = b.isAllocated := by
  obtain ⟨b, hb, hw⟩ := get_block wf hp
  exact ⟨b, hb, hw, by simp [al, hb]⟩

/-- Writing through the iterator is `lvalue(p) = v`, and leaves the iterator where a fresh one
would be. -/
theorem iterWrite_eq {f : Sparse α} (wf : f.WF) {p : V3i} (hp : f.dw.contains p = true) (v : α) :
    ∃ g, f.write p v = some g ∧ f.iterWrite (f.itAt p) v = some (g, g.itAt p) := by
  obtain ⟨b, hb, hw, hal⟩ := allocated_of_al wf hp
  obtain ⟨b', hwr, hbw', ha', _⟩ := write_spec wf hp v
  have hlt := idN_lt wf hp
  refine ⟨_, hwr, ?_⟩
  have hg : (f.setBlock (f.idN p : Nat) b').itAt p =
      { pos := p, ptr := .data (f.idN p : Nat) (f.offN p : Nat), isEmptyBlock := false,
        ticker := (f.rx p % 2 ^ f.order : Nat), blockId := (f.idN p : Nat) } := by
    have : (f.setBlock (f.idN p : Nat) b').al p = true := by
      show ((f.setBlock (f.idN p : Nat) b').blocks[f.idN p]?.map (·.isAllocated)).getD false = true
      simp only [Sparse.setBlock, Int.toNat_natCast]
      rw [List.getElem?_set_self hlt]
      simp [ha']
    unfold itAt
    rw [this]
    rfl
  rw [hg]
  unfold iterWrite
  cases ha : b.isAllocated with
  | true =>
    have hit : f.itAt p =
        { pos := p, ptr := .data (f.idN p : Nat) (f.offN p : Nat), isEmptyBlock := false,
          ticker := (f.rx p % 2 ^ f.order : Nat), blockId := (f.idN p : Nat) } := by
      unfold itAt; rw [hal, ha]; rfl
    rw [hit]
    simp only [Bool.false_eq_true, if_false]
    have hst : f.store (f.idN p : Nat) (f.offN p : Nat) v = f.write p v := by
      simp only [write, lvalue, id_eq wf hp, off_eq hp, block?_nat, hb, ha, if_true]
    rw [hst, hwr]
    rfl
  | false =>
    have hit : f.itAt p =
        { pos := p, ptr := .emptyVal (f.idN p : Nat), isEmptyBlock := true,
          ticker := (f.rx p % 2 ^ f.order : Nat), blockId := (f.idN p : Nat) } := by
      unfold itAt; rw [hal, ha]; rfl
    rw [hit]
    have hlv : f.lvalue p = 
        some (f.setBlock (f.idN p : Nat) (b.resize f.bvol), ((f.idN p : Nat) : Int), ((f.offN p : Nat) : Int)) := by
      simp only [lvalue, id_eq wf hp, off_eq hp, block?_nat, hb, ha]
      rw [if_neg (by simp)]
      rfl
    simp only [if_true, hlv]
    have gwf := wf.setBlock (i := f.idN p) (BWF.resize (N := f.bvol) b)
    have hst : (f.setBlock (f.idN p : Nat) (b.resize f.bvol)).store (f.idN p : Nat) (f.offN p : Nat) v
        = f.write p v := by
      simp only [write, hlv]
    rw [setupNextBlock_in gwf hp]
    have hal' : (f.setBlock (f.idN p : Nat) (b.resize f.bvol)).al p = true := by
      show ((f.setBlock (f.idN p : Nat) (b.resize f.bvol)).blocks[f.idN p]?.map (·.isAllocated)).getD false = true
      simp only [Sparse.setBlock, Int.toNat_natCast]
      rw [List.getElem?_set_self hlt]
      simp [Block.resize]
    have hit' : (f.setBlock (f.idN p : Nat) (b.resize f.bvol)).itAt p =
        { pos := p, ptr := .data (f.idN p : Nat) (f.offN p : Nat), isEmptyBlock := false,
          ticker := (f.rx p % 2 ^ f.order : Nat), blockId := (f.idN p : Nat) } := by
      unfold itAt; rw [hal']; rfl
    rw [hit']
    simp only [Option.map_some]
    rw [hst, hwr]
    rfl

/-- What a write does to well-formedness and values. -/
theorem write_value {f : Sparse α} (wf : f.WF) {p : V3i} (hp : f.dw.contains p = true) (v : α) :
    ∃ g, f.write p v = some g ∧ g.WF ∧ g.dw = f.dw ∧ g.extents = f.extents ∧ g.order = f.order ∧
      (∀ q, f.dw.contains q = true → g.value q = if q = p then some v else f.value q) ∧
      (∀ q, f.dw.contains q = true → (g.allocAt q ↔ f.allocAt q ∨ f.idN q = f.idN p)) := by
  obtain ⟨b', hwr, hbw', ha', hval⟩ := write_spec wf hp v
  have hlt := idN_lt wf hp
  refine ⟨_, hwr, wf.setBlock hbw', rfl, rfl, rfl, ?_, ?_⟩
  · intro q hq
    rw [value_setBlock wf hlt hbw' hq]
    by_cases hid : f.idN q = f.idN p
    · rw [if_pos hid, hval _ (offN_lt f q)]
      by_cases hqp : q = p
      · subst hqp; simp
      · rw [if_neg hqp, if_neg (fun h => hqp (addr_inj wf hq hp hid h)), value_eq wf hq, hid]
    · rw [if_neg hid, if_neg (fun h => hid (by rw [h]))]
  · intro q hq
    show (∃ x, (f.blocks.set (f.idN p) b')[f.idN q]? = some x ∧ x.isAllocated = true) ↔ _
    by_cases hid : f.idN q = f.idN p
    · rw [hid, List.getElem?_set_self hlt]
      simp [ha']
    · rw [List.getElem?_set_ne (Ne.symm hid)]
      simp [hid, allocAt]

end Sparse
end F3D
