import Verif.Proofs.SparseIter

/-! The const iterator of a field with a manager. -/

namespace F3D
namespace Sparse
variable {α : Type}

/-- The data window starts at a multiple of the block size. -/
def Aligned (f : Sparse α) : Prop :=
  f.dw.min.x % (2 ^ f.order : Nat) = 0 ∧ f.dw.min.y % (2 ^ f.order : Nat) = 0 ∧
  f.dw.min.z % (2 ^ f.order : Nat) = 0

theorem emod_sub_aligned {a m b : Int} (h : m % b = 0) : (a - m) % b = a % b := by
  rw [Int.sub_emod, h, Int.sub_zero, Int.emod_emod_of_dvd _ (Int.dvd_refl b)]

theorem voxelInBlock_aligned {f : Sparse α} (ha : f.Aligned) (p : V3i) :
    f.voxelInBlock p = f.voxelInBlock (f.offsetCoord p) := by
  unfold voxelInBlock offsetCoord
  simp only [V3i.sub_x, V3i.sub_y, V3i.sub_z]
  rw [emod_sub_aligned ha.1, emod_sub_aligned ha.2.1, emod_sub_aligned ha.2.2]

/-- The dynamic iterator is at voxel `p` (before dereferencing). -/
structure DAt (f : Sparse α) (p : V3i) (d : DynIter) : Prop where
  pos : d.pos = p
  emp : d.isEmptyBlock = !f.al p
  tick : d.ticker = (f.rx p % 2 ^ f.order : Nat)
  bid : d.blockId = (f.idN p : Nat)
  ptrA : f.al p = true → d.activated = true → d.ptr = .data (f.idN p : Nat) (f.offN p : Nat)
  ptrE : f.al p = false → d.ptr = .emptyVal (f.idN p : Nat)

theorem dynSetup_in {f : Sparse α} (wf : f.WF) {p : V3i} (hp : f.dw.contains p = true)
    (s : DynIter) (hs : s.pos = p) : ∃ d, dynSetup f s p = some d ∧ DAt f p d := by
  obtain ⟨b, hb, _⟩ := get_block wf hp
  have hlt := idN_lt wf hp
  have hal : f.al p = b.isAllocated := by simp [al, hb]
  have hv : (f.voxelInBlock (f.offsetCoord p)).x = (f.rx p % 2 ^ f.order : Nat) := by
    rw [voxelInBlock_eq hp]
  unfold dynSetup
  simp only [id_eq wf hp, off_eq hp, table_size wf, block?_nat, hb]
  rw [if_neg (by omega)]
  cases ha : b.isAllocated
  · refine ⟨_, rfl, ?_⟩
    exact ⟨hs, by simp [hal, ha], hv, rfl, by simp [hal, ha], fun _ => rfl⟩
  · refine ⟨_, rfl, ?_⟩
    exact ⟨hs, by simp [hal, ha], hv, rfl, fun _ h => by simp at h, by simp [hal, ha]⟩

theorem dynSetup_end {f : Sparse α} (wf : f.WF) {p : V3i} (hx : f.dw.min.x ≤ p.x ∧ p.x ≤ f.dw.max.x)
    (hy : f.dw.min.y ≤ p.y ∧ p.y ≤ f.dw.max.y) (hz : f.dw.min.z ≤ p.z) (s : DynIter) :
    ∃ s', dynSetup f s p = some s' ∧ s'.pos = s.pos := by
  unfold dynSetup
  simp only
  split
  · exact ⟨_, rfl, rfl⟩
  · rename_i h
    obtain ⟨t, ht, _⟩ := setupNextBlock_end wf hx hy hz ⟨p, .null, false, 0, 0⟩
    unfold setupNextBlock at ht
    simp only at ht
    rw [if_neg h] at ht
    cases hb : f.block? (f.blockId (f.blockCoord (f.offsetCoord p))) with
    | none => rw [hb] at ht; simp at ht
    | some b =>
      simp only
      split <;> exact ⟨_, rfl, rfl⟩

theorem dynDeref_at {f : Sparse α} (wf : f.WF) (hal : f.Aligned) {p : V3i}
    (hp : f.dw.contains p = true) {d : DynIter} (h : DAt f p d) :
    ∃ v d', dynDeref f d = some (v, d') ∧ f.value p = some v ∧ DAt f p d' ∧
      (f.al p = true → d'.activated = true) := by
  obtain ⟨b, hb, hw, hab⟩ := allocated_of_al wf hp
  obtain ⟨v, hv⟩ := bval_some hw (offN_lt f p)
  have hval : f.value p = some v := by rw [value_of_block wf hp hb, hv]
  have hoff : Block.offset f.order (f.voxelInBlock p) = (f.offN p : Nat) := by
    rw [voxelInBlock_aligned hal, off_eq hp]
  cases ha : f.al p with
  | false =>
    have hbf : b.isAllocated = false := by rw [← hab]; exact ha
    have hptr := h.ptrE ha
    have hemp : d.isEmptyBlock = true := by rw [h.emp, ha]; rfl
    refine ⟨v, d, ?_, hval, h, by simp⟩
    unfold dynDeref
    simp only [hemp, Bool.not_true, Bool.false_and, Bool.false_eq_true, if_false, hptr, block?_nat, hb]
    simp only [bval, hbf, Bool.false_eq_true, if_false] at hv
    simp at hv
    simp [hv]
  | true =>
    have hbt : b.isAllocated = true := by rw [← hab]; exact ha
    have hemp : d.isEmptyBlock = false := by rw [h.emp, ha]; rfl
    simp only [bval, hbt, if_true] at hv
    cases hact : d.activated with
    | true =>
      have hptr := h.ptrA ha hact
      refine ⟨v, d, ?_, hval, h, fun _ => hact⟩
      unfold dynDeref
      simp [hemp, hact, hptr, block?_nat, hb, hv]
    | false =>
      refine ⟨v, { d with activated := true, ptr := .data d.blockId (Block.offset f.order (f.voxelInBlock d.pos)) },
        ?_, hval, ?_, fun _ => rfl⟩
      · unfold dynDeref
        simp [hemp, hact, h.pos, hoff, h.bid, block?_nat, hb, hv]
      · exact ⟨h.pos, h.emp, h.tick, h.bid, fun _ _ => by simp only [h.pos, hoff, h.bid],
          fun h' => by rw [ha] at h'; cases h'⟩

theorem dynNext_at {f : Sparse α} (wf : f.WF) {w : Box3i} {p : V3i}
    (hsub : ∀ q, w.contains q = true → f.dw.contains q = true)
    (hp : w.contains p = true) (hp' : w.contains (F3D.iterNext w p) = true)
    {d : DynIter} (h : DAt f p d) :
    ∃ d', dynNext f w d = some d' ∧ DAt f (F3D.iterNext w p) d' := by
  unfold dynNext
  simp only [h.pos]
  split
  · exact dynSetup_in wf (hsub _ hp') _ rfl
  · rename_i hc
    simp only [Bool.or_eq_true, decide_eq_true_eq, not_or] at hc
    obtain ⟨h1, h2⟩ := hc
    have hstep : F3D.iterNext w p = ⟨p.x + 1, p.y, p.z⟩ := by
      unfold F3D.iterNext; rw [if_neg h1]
    have hB : f.rx p % 2 ^ f.order + 1 ≠ 2 ^ f.order := by
      intro e; apply h2; rw [h.tick]; omega
    obtain ⟨r1, r2, r3⟩ := row_step (hsub _ hp) hB
    have hal : f.al ⟨p.x + 1, p.y, p.z⟩ = f.al p := by unfold al; rw [r1]
    rw [hstep]
    refine ⟨_, rfl, rfl, ?_, ?_, ?_, ?_, ?_⟩
    · simp only [hal]; exact h.emp
    · rw [r3]; simp only [h.tick]; omega
    · rw [r1]; exact h.bid
    · intro ha hact
      rw [hal] at ha
      simp only at hact
      have hptr := h.ptrA ha hact
      have hemp : d.isEmptyBlock = false := by rw [h.emp, ha]; rfl
      simp [hemp, hact, hptr, Ptr.inc, r1, r2]
    · intro ha
      rw [hal] at ha
      have hemp : d.isEmptyBlock = true := by rw [h.emp, ha]; rfl
      simp [hemp, h.ptrE ha, r1]

theorem dynNext_max {f : Sparse α} (wf : f.WF) {w : Box3i}
    (hsub : ∀ q, w.contains q = true → f.dw.contains q = true) (hwne : w.isEmpty = false)
    (s : DynIter) (hs : s.pos = w.max) :
    ∃ s', f.dynNext w s = some s' ∧ s'.pos = iterEnd w := by
  have hmin : w.contains w.min = true := by
    rw [Box3i.isEmpty_false] at hwne; rw [Box3i.contains_iff]; omega
  have hmax : w.contains w.max = true := by
    rw [Box3i.isEmpty_false] at hwne; rw [Box3i.contains_iff]; omega
  have h1 := Box3i.contains_iff.mp (hsub _ hmin)
  have h2 := Box3i.contains_iff.mp (hsub _ hmax)
  have hpos : F3D.iterNext w s.pos = iterEnd w := by rw [hs, iterNext_max]
  unfold dynNext
  simp only [hpos]
  have he : (decide (s.pos.x = w.max.x)) = true := by rw [hs]; simp
  rw [he, Bool.true_or, if_pos rfl]
  obtain ⟨s', e1, e2⟩ := dynSetup_end wf (p := iterEnd w) (by simp only [iterEnd]; omega)
    (by simp only [iterEnd]; omega) (by simp only [iterEnd]; omega)
    { pos := iterEnd w, ptr := if (!s.isEmptyBlock && s.activated) = true then s.ptr.inc else s.ptr,
      isEmptyBlock := s.isEmptyBlock, activated := s.activated, ticker := 0, blockId := s.blockId }
  exact ⟨s', e1, e2⟩

end Sparse
end F3D
