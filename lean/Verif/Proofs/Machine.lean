import Verif.Model.Machine
import Verif.Proofs.Dense
import Verif.Proofs.Mac
import Verif.Proofs.Sparse

/-! Lemmas about machine integers. -/

namespace F3D.Machine

theorem inInt_iff {n : Int} : inInt n = true ↔ -2147483648 ≤ n ∧ n ≤ 2147483647 := by
  simp [inInt]

theorem int_ok {ov : Int → Option Int} {n : Int} (h1 : -2147483648 ≤ n) (h2 : n ≤ 2147483647) :
    int ov n = some n := if_pos (inInt_iff.mpr ⟨h1, h2⟩)

theorem int_none {n : Int} (h : ¬ (-2147483648 ≤ n ∧ n ≤ 2147483647)) :
    int undefinedOv n = none := if_neg (fun c => h (inInt_iff.mp c))

theorem size_nat {n : Nat} (h : n < 18446744073709551616) : size (n : Int) = n := by
  unfold size; omega

theorem size_nonneg {n : Int} (h0 : 0 ≤ n) (h : n < 18446744073709551616) : size n = n.toNat := by
  unfold size; omega

theorem size_eq_mod (n : Nat) : size (n : Int) = n % 18446744073709551616 := by
  unfold size; omega

theorem toInt_nat {n : Nat} (h : n ≤ 2147483647) : toInt n = n := by
  unfold toInt; omega

theorem toInt_size {n : Nat} (h : n ≤ 2147483647) : toInt (size (n : Int)) = n := by
  have h1 : size (n : Int) = n := size_nat (by omega)
  rw [h1]
  exact toInt_nat h

/-- The sides of a window fit in an `int`. -/
def SidesFit (w : Box3i) : Prop := w.nx ≤ 2147483647 ∧ w.ny ≤ 2147483647 ∧ w.nz ≤ 2147483647

theorem sides_ok {ov : Int → Option Int} {w : Box3i} (h : w.isEmpty = false) (hs : SidesFit w) :
    sides ov w = some ⟨w.nx, w.ny, w.nz⟩ := by
  obtain ⟨h1, h2, h3, p1, p2, p3⟩ := w.dims h
  obtain ⟨s1, s2, s3⟩ := hs
  simp only [sides, sub3, add3, V3i.all_x, V3i.all_y, V3i.all_z]
  rw [int_ok (n := w.max.x - w.min.x) (by omega) (by omega),
    int_ok (n := w.max.y - w.min.y) (by omega) (by omega),
    int_ok (n := w.max.z - w.min.z) (by omega) (by omega)]
  simp only [Option.bind_some, Option.map_some]
  rw [int_ok (by omega) (by omega), int_ok (by omega) (by omega), int_ok (by omega) (by omega)]
  simp only [Option.bind_some, Option.map_some, h1, h2, h3]

theorem sizePlus_ok {ov : Int → Option Int} {w : Box3i} (h : w.isEmpty = false) (hs : SidesFit w) :
    sizePlus ov w = some ⟨w.nx, w.ny, w.nz⟩ := by
  rw [sizePlus, if_neg (by simp [h]), sides_ok h hs]

theorem offset_ok {ov : Int → Option Int} {w : Box3i} (h : w.isEmpty = false) (hs : SidesFit w)
    {p : V3i} (hp : w.contains p = true) :
    offset ov w p = some ⟨p.x - w.min.x, p.y - w.min.y, p.z - w.min.z⟩ := by
  obtain ⟨h1, h2, h3, p1, p2, p3⟩ := w.dims h
  obtain ⟨s1, s2, s3⟩ := hs
  rw [Box3i.contains_iff] at hp
  simp only [offset, sub3]
  rw [int_ok (by omega) (by omega), int_ok (by omega) (by omega), int_ok (by omega) (by omega)]
  rfl

/-- The product of three non-negative sides as `int`s. -/
theorem volume_ok {ov : Int → Option Int} {a b c : Nat} (hc : 0 < c)
    (h : a * b * c ≤ 2147483647) : volume ov ⟨a, b, c⟩ = some ((a * b * c : Nat) : Int) := by
  have hab : a * b ≤ a * b * c := Nat.le_mul_of_pos_right _ hc
  unfold volume
  have e : ((a : Int) * b) = ((a * b : Nat) : Int) := by push_cast; rfl
  have e2 : (((a * b : Nat) : Int) * c) = ((a * b * c : Nat) : Int) := by push_cast; rfl
  simp only [e]
  rw [int_ok (by omega) (by omega)]
  simp only [Option.bind_some, e2]
  exact int_ok (by omega) (by omega)

theorem volume_none {a b c : Nat} (h : 2147483647 < a * b * c) :
    volume undefinedOv ⟨a, b, c⟩ = none := by
  unfold volume
  have e : ((a : Int) * b) = ((a * b : Nat) : Int) := by push_cast; rfl
  have e2 : (((a * b : Nat) : Int) * c) = ((a * b * c : Nat) : Int) := by push_cast; rfl
  simp only [e]
  by_cases hab : a * b ≤ 2147483647
  · rw [int_ok (by omega) (by omega)]
    simp only [Option.bind_some, e2]
    exact int_none (by omega)
  · rw [int_none (by omega)]; rfl

/-! ## Dense -/

theorem dense_index {α : Type} {ov : Int → Option Int} {f : Dense α} (hne : f.dw.isEmpty = false)
    (hx : f.memX = f.dw.nx) (hxy : f.memXY = f.dw.nx * f.dw.ny) (hs : SidesFit f.dw) {p : V3i}
    (hp : f.dw.contains p = true) :
    denseIndex ov f p = some (f.dw.indexOf p % 18446744073709551616) := by
  obtain ⟨h1, h2, h3, p1, p2, p3⟩ := f.dw.dims hne
  have hb := Box3i.toNat_bounds hne hp
  have hc := hp
  rw [Box3i.contains_iff] at hc
  obtain ⟨s1, s2, s3⟩ := hs
  have hxy' : f.memXY = ((f.dw.nx * f.dw.ny : Nat) : Int) := by rw [hxy]; push_cast; rfl
  simp only [denseIndex]
  rw [offset_ok hne ⟨s1, s2, s3⟩ hp]
  simp only [Option.map_some]
  rw [size_nonneg (n := p.x - f.dw.min.x) (by omega) (by omega),
    size_nonneg (n := p.y - f.dw.min.y) (by omega) (by omega),
    size_nonneg (n := p.z - f.dw.min.z) (by omega) (by omega), hxy', hx]
  simp only [Int.toNat_natCast, size_eq_mod]
  unfold Box3i.indexOf Grid.enc
  generalize (p.x - f.dw.min.x).toNat = a
  generalize (p.y - f.dw.min.y).toNat * f.dw.nx = b
  generalize (p.z - f.dw.min.z).toNat * (f.dw.nx * f.dw.ny) = c
  congr 1
  omega

/-- What `setSize` computes when the sides fit. -/
theorem dense_setSize {α : Type} {ov : Int → Option Int} {most : Nat} {granted : Nat → Bool}
    {dflt : α} {e w : Box3i} (hne : w.isEmpty = false) (hs : SidesFit w) :
    denseSetSize ov most granted dflt e w =
      if most < w.vol % 18446744073709551616 then .lengthError
      else if granted (w.vol % 18446744073709551616) then
        .ok { extents := e, dw := w, memX := w.nx, memXY := w.nx * w.ny,
              data := List.replicate (w.vol % 18446744073709551616) dflt }
      else .memoryException := by
  have h' := Box3i.isEmpty_false.mp hne
  obtain ⟨s1, s2, s3⟩ := hs
  have hxy : w.nx * w.ny < 18446744073709551616 := by
    have : w.nx * w.ny ≤ 2147483647 * 2147483647 := Nat.mul_le_mul s1 s2
    omega
  unfold denseSetSize
  rw [sides_ok hne ⟨s1, s2, s3⟩]
  simp only
  rw [if_neg (by omega), size_nat (n := w.nx) (by omega), size_nat (n := w.ny) (by omega),
    size_nat (n := w.nz) (by omega), size_nat hxy, size_eq_mod]
  unfold Box3i.vol
  push_cast
  rfl

/-! ## MAC -/

theorem mac_index {ov : Int → Option Int} {f : Mac} (wf : f.WF) {c : MacComp} {p : V3i}
    (hp : (Mac.compWindow f.dw c).contains p = true)
    (hn : (f.comp c).data.length ≤ 2147483647) :
    macIndex ov f c p = some (f.index c p) ∧ 0 ≤ f.index c p ∧
      f.index c p < (f.comp c).data.length := by
  have hne := Mac.nonempty_of_contains hp
  have dwf := Mac.asDense_wf wf hne
  have hlt := Box3i.indexOf_lt hne hp
  have hb := Box3i.toNat_bounds hne hp
  obtain ⟨h1, h2, h3, p1, p2, p3⟩ := (Mac.compWindow f.dw c).dims hne
  have hidx := Dense.index_eq dwf hp
  have hidx' : f.index c p = (((Mac.compWindow f.dw c).indexOf p : Nat) : Int) := by
    rw [Mac.index_dense]; exact hidx
  have hlen : (f.comp c).data.length = (Mac.compWindow f.dw c).vol := dwf.len
  have e1 : (f.comp c).size.x = ((Mac.compWindow f.dw c).nx : Int) := dwf.mx
  have e2 : (f.comp c).sizeXY =
      (((Mac.compWindow f.dw c).nx * (Mac.compWindow f.dw c).ny : Nat) : Int) := by
    have := dwf.mxy
    have e : (f.asDense c).memXY = (f.comp c).sizeXY := rfl
    rw [← e, this]; push_cast; rfl
  have hmin := Mac.compWindow_min f.dw c
  refine ⟨?_, by rw [hidx']; omega, by rw [hidx', hlen]; omega⟩
  rw [Box3i.contains_iff, hmin] at hp
  rw [hmin] at hb h1 h2 h3
  rw [hidx']
  unfold Box3i.indexOf Grid.enc at hlt ⊢
  rw [hmin] at hlt ⊢
  rw [hlen] at hn
  unfold macIndex offset sub3
  rw [e1, e2]
  have hx0 : p.x - f.dw.min.x = ((p.x - f.dw.min.x).toNat : Int) := by omega
  have hy0 : p.y - f.dw.min.y = ((p.y - f.dw.min.y).toNat : Int) := by omega
  have hz0 : p.z - f.dw.min.z = ((p.z - f.dw.min.z).toNat : Int) := by omega
  rw [hx0, hy0, hz0]
  simp only [Int.toNat_natCast]
  generalize (p.x - f.dw.min.x).toNat = x at *
  generalize (p.y - f.dw.min.y).toNat = y at *
  generalize (p.z - f.dw.min.z).toNat = z at *
  generalize (Mac.compWindow f.dw c).nx = A at *
  generalize (Mac.compWindow f.dw c).ny = B at *
  generalize (Mac.compWindow f.dw c).vol = V at *
  have hy : y ≤ y * A := Nat.le_mul_of_pos_right _ p1
  have hz : z ≤ z * (A * B) := Nat.le_mul_of_pos_right _ (Nat.mul_pos p1 p2)
  have m1 : ((y : Int) * (A : Int)) = ((y * A : Nat) : Int) := by push_cast; rfl
  have m2 : ((z : Int) * ((A * B : Nat) : Int)) = ((z * (A * B) : Nat) : Int) := by push_cast; rfl
  generalize A * B = C at *
  rw [int_ok (n := (x : Int)) (by omega) (by omega), int_ok (n := (y : Int)) (by omega) (by omega),
    int_ok (n := (z : Int)) (by omega) (by omega)]
  simp only [Option.bind_some, Option.map_some]
  rw [m1, m2]
  generalize y * A = Y at *
  generalize z * C = Z at *
  rw [int_ok (by omega) (by omega)]
  simp only [Option.bind_some]
  rw [int_ok (by omega) (by omega)]
  simp only [Option.bind_some]
  rw [int_ok (by omega) (by omega)]
  simp only [Option.bind_some]
  rw [int_ok (by omega) (by omega)]
  congr 1

theorem mac_face {ov : Int → Option Int} {f : Mac} (wf : f.WF) {c : MacComp} {p : V3i}
    (hp : (Mac.compWindow f.dw c).contains p = true)
    (hn : (f.comp c).data.length ≤ 2147483647) : macFace ov f c p = f.face c p := by
  obtain ⟨h1, h2, h3⟩ := mac_index (ov := ov) wf hp hn
  have hs : size (f.index c p) = (f.index c p).toNat := size_nonneg h2 (by omega)
  unfold macFace Mac.face Mac.readAt
  rw [h1, if_pos h2, Option.bind_some, hs]

theorem mac_write {ov : Int → Option Int} {f : Mac} (wf : f.WF) {c : MacComp} {p : V3i}
    (hp : (Mac.compWindow f.dw c).contains p = true)
    (hn : (f.comp c).data.length ≤ 2147483647) (x : Rat) :
    macWrite ov f c p x = f.write c p x := by
  obtain ⟨h1, h2, h3⟩ := mac_index (ov := ov) wf hp hn
  have hs : size (f.index c p) = (f.index c p).toNat := size_nonneg h2 (by omega)
  unfold macWrite Mac.write
  rw [h1, Option.bind_some, hs]
  rw [if_pos (show (f.index c p).toNat < (f.comp c).data.length by omega)]
  exact (if_pos ⟨h2, by omega⟩).symm

theorem macComp_ok {ov : Int → Option Int} {c : Mac.Comp} {a b d a' b' d' : Nat}
    (ha : a + a' ≤ 2147483647) (hb : b + b' ≤ 2147483647) (hd : d + d' ≤ 2147483647)
    (hd0 : 0 < d + d') (hn : (a + a') * (b + b') * (d + d') ≤ 2147483647) :
    macComp ov c ⟨a, b, d⟩ ⟨a', b', d'⟩ =
      some (Mac.resizeComp c ⟨a + a', b + b', d + d'⟩, (a + a') * (b + b') * (d + d')) := by
  have hab : (a + a') * (b + b') ≤ (a + a') * (b + b') * (d + d') :=
    Nat.le_mul_of_pos_right _ hd0
  have x1 : ((a : Int) + (a' : Int)) = ((a + a' : Nat) : Int) := by push_cast; rfl
  have x2 : ((b : Int) + (b' : Int)) = ((b + b' : Nat) : Int) := by push_cast; rfl
  have x3 : ((d : Int) + (d' : Int)) = ((d + d' : Nat) : Int) := by push_cast; rfl
  unfold macComp add3
  simp only [x1, x2, x3]
  rw [int_ok (by omega) (by omega), int_ok (by omega) (by omega), int_ok (by omega) (by omega)]
  simp only [Option.bind_some, Option.map_some]
  have e : (((a + a' : Nat) : Int) * ((b + b' : Nat) : Int)) = (((a + a') * (b + b') : Nat) : Int) := by
    push_cast; rfl
  rw [e, int_ok (by omega) (by omega), volume_ok hd0 hn]
  simp only [Option.bind_some, Option.map_some]
  rw [size_nat (by omega)]
  unfold Mac.resizeComp
  have e2 : (((a + a' : Nat) : Int) * ((b + b' : Nat) : Int) * ((d + d' : Nat) : Int)).toNat =
      (a + a') * (b + b') * (d + d') := by
    rw [← Int.natCast_mul, ← Int.natCast_mul, Int.toNat_natCast]
  rw [e] at e2
  simp only [e2, e]

theorem macComp_none {c : Mac.Comp} {a b d a' b' d' : Nat}
    (hn : 2147483647 < (a + a') * (b + b') * (d + d')) :
    macComp undefinedOv c ⟨a, b, d⟩ ⟨a', b', d'⟩ = none := by
  have x1 : ((a : Int) + (a' : Int)) = ((a + a' : Nat) : Int) := by push_cast; rfl
  have x2 : ((b : Int) + (b' : Int)) = ((b + b' : Nat) : Int) := by push_cast; rfl
  have x3 : ((d : Int) + (d' : Int)) = ((d + d' : Nat) : Int) := by push_cast; rfl
  have step : ∀ (n : Int), int undefinedOv n = none ∨ int undefinedOv n = some n := by
    intro n
    by_cases h : -2147483648 ≤ n ∧ n ≤ 2147483647
    · exact Or.inr (int_ok h.1 h.2)
    · exact Or.inl (int_none h)
  unfold macComp add3
  simp only [x1, x2, x3]
  rcases step ((a + a' : Nat) : Int) with h | h
  · rw [h]; rfl
  rw [h]
  rcases step ((b + b' : Nat) : Int) with h | h
  · rw [h]; rfl
  rw [h]
  rcases step ((d + d' : Nat) : Int) with h | h
  · rw [h]; rfl
  rw [h]
  simp only [Option.bind_some, Option.map_some]
  rw [volume_none hn]
  cases int undefinedOv (((a + a' : Nat) : Int) * ((b + b' : Nat) : Int)) <;> rfl

/-! ## Sparse -/

theorem shl_ok {ov : Int → Option Int} {a n : Nat} (hn : n < 32) (h : a * 2 ^ n ≤ 2147483647) :
    shl ov a n = some ((a * 2 ^ n : Nat) : Int) := by
  unfold shl
  rw [if_pos ⟨hn, by omega⟩]
  have e : ((a : Int) * 2 ^ n) = ((a * 2 ^ n : Nat) : Int) := by push_cast; rfl
  rw [e]
  exact int_ok (by omega) (by omega)

theorem pow_small {o : Nat} (h : o ≤ 10) : 2 ^ o ≤ 1024 :=
  Nat.le_trans (Nat.pow_le_pow_right (by decide) h) (by decide)

theorem cube_small {o : Nat} (h : o ≤ 10) : 2 ^ o * 2 ^ o * 2 ^ o ≤ 1073741824 := by
  have := pow_small h
  calc 2 ^ o * 2 ^ o * 2 ^ o ≤ 1024 * 1024 * 1024 :=
        Nat.mul_le_mul (Nat.mul_le_mul this this) this
    _ = 1073741824 := by decide

theorem blockOffset_ok {ov : Int → Option Int} {o a b c : Nat} (ho : o ≤ 10) (ha : a < 2 ^ o)
    (hb : b < 2 ^ o) (hc : c < 2 ^ o) :
    blockOffset ov o ⟨a, b, c⟩ = some (Block.offset o ⟨a, b, c⟩) := by
  have h1 := pow_small ho
  have h3 := cube_small ho
  have hlt : Grid.enc (2 ^ o) (2 ^ o) a b c < 2 ^ o * 2 ^ o * 2 ^ o := Grid.enc_lt ha hb hc
  rw [Sparse.offset_nat]
  unfold blockOffset
  unfold Grid.enc at hlt ⊢
  have e1 : c * 2 ^ o * 2 ^ o = c * (2 ^ o * 2 ^ o) := Nat.mul_assoc _ _ _
  have e0 : c * 2 ^ o ≤ c * 2 ^ o * 2 ^ o := Nat.le_mul_of_pos_right _ (Nat.two_pow_pos o)
  simp only
  rw [shl_ok (by omega) (by omega)]
  simp only [Option.bind_some]
  rw [shl_ok (by omega) (by omega)]
  simp only [Option.bind_some]
  rw [shl_ok (by omega) (by omega)]
  simp only [Option.bind_some]
  rw [int_ok (by omega) (by omega)]
  simp only [Option.bind_some]
  rw [int_ok (by omega) (by omega), e1]
  congr 1
  push_cast
  omega

theorem blockVoxels_ok {ov : Int → Option Int} {o : Nat} (ho : o ≤ 10) :
    blockVoxels ov o = some (2 ^ o * 2 ^ o * 2 ^ o) := by
  have h1 := pow_small ho
  have h3 := cube_small ho
  have h2 : 2 ^ o * 2 ^ o ≤ 2 ^ o * 2 ^ o * 2 ^ o := Nat.le_mul_of_pos_right _ (Nat.two_pow_pos o)
  have hs : shl ov 1 o = some ((2 ^ o : Nat) : Int) := by
    have := shl_ok (ov := ov) (a := 1) (n := o) (by omega) (by omega)
    rw [Nat.one_mul] at this
    exact this
  unfold blockVoxels
  rw [hs]
  simp only [Option.bind_some]
  rw [shl_ok (by omega) (by omega)]
  simp only [Option.bind_some]
  rw [shl_ok (by omega) (by omega)]
  simp only [Option.map_some]
  rw [size_nat (by omega)]

theorem shl_one {ov : Int → Option Int} {o : Nat} (ho : o ≤ 30) :
    shl ov 1 o = some ((2 ^ o : Nat) : Int) := by
  have h : 2 ^ o ≤ 2 ^ 30 := Nat.pow_le_pow_right (by decide) ho
  have := shl_ok (ov := ov) (a := 1) (n := o) (by omega) (by omega)
  rw [Nat.one_mul] at this
  exact this

theorem blockId_ok {α : Type} {ov : Int → Option Int} {f : Sparse α} (wf : f.WF) {a b c : Nat}
    (ha : a < Sparse.bn f.order f.dw.nx) (hb : b < Sparse.bn f.order f.dw.ny)
    (hc : c < Sparse.bn f.order f.dw.nz) (hn : f.blocks.length ≤ 2147483647) :
    blockId ov f ⟨a, b, c⟩ = some (f.blockId ⟨a, b, c⟩) := by
  have hlt := Grid.enc_lt ha hb hc
  rw [← wf.len] at hlt
  rw [Sparse.blockId_nat wf]
  unfold blockId
  simp only [wf.bxy, wf.bx]
  unfold Grid.enc at hlt ⊢
  generalize hA : Sparse.bn f.order f.dw.nx = A at *
  generalize hB : Sparse.bn f.order f.dw.ny = B at *
  have e1 : ((c : Int) * ((A * B : Nat) : Int)) = ((c * (A * B) : Nat) : Int) := by push_cast; rfl
  have e2 : ((b : Int) * ((A : Nat) : Int)) = ((b * A : Nat) : Int) := by push_cast; rfl
  rw [e1, e2]
  generalize c * (A * B) = x at *
  generalize b * A = y at *
  rw [int_ok (by omega) (by omega)]
  simp only [Option.bind_some]
  rw [int_ok (by omega) (by omega)]
  simp only [Option.bind_some]
  rw [int_ok (by omega) (by omega)]
  simp only [Option.bind_some]
  rw [int_ok (by omega) (by omega)]
  congr 1
  omega

theorem sparse_address {α : Type} {ov : Int → Option Int} {f : Sparse α} (wf : f.WF)
    (hs : SidesFit f.dw) (ho : f.order ≤ 10) (hn : f.blocks.length ≤ 2147483647) {p : V3i}
    (hp : f.dw.contains p = true) :
    sparseAddress ov f p = some (f.blockId (f.blockCoord (f.offsetCoord p)),
      Block.offset f.order (f.voxelInBlock (f.offsetCoord p))) := by
  obtain ⟨r1, r2, r3⟩ := Sparse.r_bounds wf hp
  have hB := Nat.two_pow_pos f.order
  unfold sparseAddress
  rw [offset_ok wf.ne hs hp]
  simp only [Option.bind_some]
  rw [shl_one (by omega)]
  simp only [Option.bind_some]
  have hq : (⟨p.x - f.dw.min.x, p.y - f.dw.min.y, p.z - f.dw.min.z⟩ : V3i) = f.offsetCoord p := rfl
  rw [hq, Sparse.blockCoord_eq hp, Sparse.voxelInBlock_eq hp,
    blockId_ok wf (Sparse.div_lt_bn r1) (Sparse.div_lt_bn r2) (Sparse.div_lt_bn r3) hn]
  simp only [Option.bind_some]
  rw [blockOffset_ok ho (Nat.mod_lt _ hB) (Nat.mod_lt _ hB) (Nat.mod_lt _ hB)]
  rfl

theorem sparse_value {α : Type} {ov : Int → Option Int} {f : Sparse α} (wf : f.WF)
    (hs : SidesFit f.dw) (ho : f.order ≤ 10) (hn : f.blocks.length ≤ 2147483647) {p : V3i}
    (hp : f.dw.contains p = true) : sparseValue ov f p = f.value p := by
  unfold sparseValue Sparse.value
  rw [sparse_address wf hs ho hn hp]
  simp only [Option.bind_some]
  cases f.block? (f.blockId (f.blockCoord (f.offsetCoord p))) <;> rfl

theorem sparse_write {α : Type} {ov : Int → Option Int} {f : Sparse α} (wf : f.WF)
    (hs : SidesFit f.dw) (ho : f.order ≤ 10) (hn : f.blocks.length ≤ 2147483647) {p : V3i}
    (hp : f.dw.contains p = true) (v : α) : sparseWrite ov f p v = f.write p v := by
  unfold sparseWrite Sparse.write Sparse.lvalue
  rw [sparse_address wf hs ho hn hp, blockVoxels_ok ho]
  simp only [Option.bind_some]
  cases hb : f.block? (f.blockId (f.blockCoord (f.offsetCoord p))) with
  | none => rfl
  | some b =>
    simp only [Option.bind_some]
    by_cases ha : b.isAllocated = true
    · simp only [ha, if_true]
    · simp only [ha, if_false, Bool.false_eq_true]

theorem sparse_setSize {α : Type} {ov : Int → Option Int} {zero : α} {f : Sparse α} {e w : Box3i}
    (hne : w.isEmpty = false) (hf : Sparse.Fits w) (ho : f.order ≤ 30)
    (hn : Sparse.bn f.order w.nx * Sparse.bn f.order w.ny * Sparse.bn f.order w.nz ≤ 2147483647) :
    sparseSetSize ov zero f e w = some (f.setSize zero e w) := by
  obtain ⟨h1, h2, h3, p1, p2, p3⟩ := w.dims hne
  obtain ⟨f1, f2, f3⟩ := hf
  have hsz := Sparse.size_of_ne hne
  have q3 := Sparse.bn_pos (o := f.order) p3
  have le : ∀ n, n ≤ 2 ^ 24 → Sparse.bn f.order n ≤ 2 ^ 24 := by
    intro n hn
    unfold Sparse.bn
    have hB := Nat.two_pow_pos f.order
    have h : n ≤ n * 2 ^ f.order := Nat.le_mul_of_pos_right _ hB
    refine Nat.le_trans (m := n) ?_ hn
    rcases Nat.eq_zero_or_pos n with h0 | h0
    · subst h0
      rw [Nat.zero_add, Nat.div_eq_of_lt (by omega)]; exact Nat.zero_le _
    · apply Nat.le_of_lt_succ
      rw [Nat.div_lt_iff_lt_mul hB, Nat.succ_mul]
      omega
  have c : ∀ n, n ≤ 2 ^ 24 → blockCount ov f.order (n : Nat) = some ((Sparse.bn f.order n : Nat) : Int) := by
    intro n hn
    have := le n hn
    unfold blockCount
    rw [shl_one ho, Sparse.blockCount_eq rfl hn]
    simp only [Option.bind_some]
    rw [if_pos (inInt_iff.mpr ⟨by omega, by omega⟩)]
  unfold sparseSetSize
  rw [sizePlus_ok hne ⟨by omega, by omega, by omega⟩]
  simp only [Option.bind_some]
  rw [c _ f1, c _ f2, c _ f3]
  simp only [Option.bind_some]
  have hle : Sparse.bn f.order w.nx * Sparse.bn f.order w.ny ≤
      Sparse.bn f.order w.nx * Sparse.bn f.order w.ny * Sparse.bn f.order w.nz :=
    Nat.le_mul_of_pos_right _ q3
  have e1 : ((Sparse.bn f.order w.nx : Nat) : Int) * ((Sparse.bn f.order w.ny : Nat) : Int) =
      ((Sparse.bn f.order w.nx * Sparse.bn f.order w.ny : Nat) : Int) := by push_cast; rfl
  rw [e1, int_ok (by omega) (by omega), volume_ok q3 hn]
  simp only [Option.bind_some, Option.map_some]
  rw [size_nat (by omega)]
  have key := (Sparse.setupBlocks_wf (zero := zero) (f := { f with extents := e, dw := w }) hne
    ⟨f1, f2, f3⟩)
  have k1 := key.1.bx
  have k2 := key.1.by'
  have k3 := key.1.bz
  have k4 := key.1.bxy
  have k5 := key.2
  unfold Sparse.setSize
  congr 1
  generalize hg : Sparse.setupBlocks zero { f with extents := e, dw := w } = g at *
  have he : g.extents = e := by rw [← hg]; rfl
  have hd : g.dw = w := by rw [← hg]; rfl
  have hor : g.order = f.order := by rw [← hg]; rfl
  rw [hor, hd] at k1 k2 k3 k4
  obtain ⟨g1, g2, g3, ⟨b1, b2, b3⟩, g5, g6⟩ := g
  dsimp only at he hd hor k1 k2 k3 k4 k5
  rw [he, hd, hor, k1, k2, k3, k4, k5]

theorem bn_last {o n : Nat} (h : 0 < n) : (Sparse.bn o n - 1) * 2 ^ o < n :=
  Sparse.mul_lt_of_lt_bn (by have := Sparse.bn_pos (o := o) h; omega)

theorem sparse_release {α : Type} {ov : Int → Option Int} {f : Sparse α} (wf : f.WF)
    (hs : SidesFit f.dw) (ho : f.order ≤ 10) (bad : α → α → Bool) :
    sparseRelease ov bad f = f.releaseBlocks bad := by
  obtain ⟨h1, h2, h3, p1, p2, p3⟩ := f.dw.dims wf.ne
  have q1 := Sparse.bn_pos (o := f.order) p1
  have q2 := Sparse.bn_pos (o := f.order) p2
  have q3 := Sparse.bn_pos (o := f.order) p3
  have l1 := bn_last (o := f.order) p1
  have l2 := bn_last (o := f.order) p2
  have l3 := bn_last (o := f.order) p3
  have c := cube_small ho
  have step : ∀ (b n : Nat), 0 < b → (b - 1) * 2 ^ f.order < n → n ≤ 2147483647 →
      ∀ g : Int → Option (Sparse α × Nat),
      ((int ov (((b : Int) - 1) * ((2 ^ f.order : Nat) : Int))).bind fun x =>
        (int ov ((n : Int) - x)).bind g) = g ((n : Int) - (((b : Int) - 1) * ((2 ^ f.order : Nat) : Int))) := by
    intro b n hb hl hn g
    have e : ((b : Int) - 1) * ((2 ^ f.order : Nat) : Int) = (((b - 1) * 2 ^ f.order : Nat) : Int) := by
      have : ((b : Int) - 1) = ((b - 1 : Nat) : Int) := by omega
      rw [this]; push_cast; rfl
    rw [e]
    generalize (b - 1) * 2 ^ f.order = x at *
    rw [int_ok (by omega) (by omega)]
    simp only [Option.bind_some]
    rw [int_ok (by omega) (by omega)]
    rfl
  unfold sparseRelease
  rw [sides_ok wf.ne hs]
  simp only [Option.bind_some]
  rw [shl_one (by omega)]
  simp only [Option.bind_some]
  rw [wf.bx, wf.by', wf.bz]
  rw [step _ _ q1 l1 hs.1, step _ _ q2 l2 hs.2.1, step _ _ q3 l3 hs.2.2]
  have hv : volume ov (V3i.all ((2 ^ f.order : Nat) : Int)) = some ((2 ^ f.order * 2 ^ f.order * 2 ^ f.order : Nat) : Int) :=
    volume_ok (Nat.two_pow_pos _) (by omega)
  rw [hv]
  rfl

/-- A window whose corners are `int`s. -/
def Corners (w : Box3i) : Prop :=
  -2147483648 ≤ w.min.x ∧ -2147483648 ≤ w.min.y ∧ -2147483648 ≤ w.min.z ∧
  w.max.x ≤ 2147483647 ∧ w.max.y ≤ 2147483647 ∧ w.max.z ≤ 2147483647

theorem dense_grain {α : Type} {ov : Int → Option Int} {f : Dense α} (hne : f.dw.isEmpty = false)
    (hs : SidesFit f.dw) (hc : Corners f.dw) (hx : f.dw.max.x < 2147483647) {idx : Nat}
    (hi : idx < f.dw.ny * f.dw.nz) : denseGrain ov f.dw idx = some (f.getGrainBounds idx) := by
  obtain ⟨h1, h2, h3, p1, p2, p3⟩ := f.dw.dims hne
  obtain ⟨s1, s2, s3⟩ := hs
  obtain ⟨c1, c2, c3, c4, c5, c6⟩ := hc
  have hsz := Dense.size_of_ne hne
  have rx : (f.dw.size + V3i.all 1).x = f.dw.nx := by rw [hsz]; simp; omega
  have ry : (f.dw.size + V3i.all 1).y = f.dw.ny := by rw [hsz]; simp; omega
  have hy : idx % f.dw.ny < f.dw.ny := Nat.mod_lt _ p2
  have hz : idx / f.dw.ny < f.dw.nz := Nat.div_lt_of_lt_mul hi
  unfold denseGrain
  rw [sizePlus_ok hne ⟨s1, s2, s3⟩]
  simp only [Option.bind_some]
  have e : size (f.dw.ny : Int) = f.dw.ny := size_nat (by omega)
  rw [e, if_neg (by omega), toInt_nat (by omega), toInt_nat (by omega)]
  unfold Dense.getGrainBounds
  simp only [rx, ry]
  rw [← Int.natCast_emod, ← Int.natCast_ediv]
  generalize idx % f.dw.ny = a at *
  generalize idx / f.dw.ny = c at *
  simp only [add3]
  rw [int_ok (by omega) (by omega), int_ok (by omega) (by omega), int_ok (by omega) (by omega)]
  simp only [Option.bind_some, Option.map_some]
  rw [int_ok (by omega) (by omega)]
  rfl

theorem dense_grain_none {w : Box3i} (hne : w.isEmpty = false) (hs : SidesFit w) (hc : Corners w)
    (hx : w.max.x = 2147483647) {idx : Nat} (hi : idx < w.ny * w.nz) :
    denseGrain undefinedOv w idx = none := by
  obtain ⟨h1, h2, h3, p1, p2, p3⟩ := w.dims hne
  obtain ⟨s1, s2, s3⟩ := hs
  obtain ⟨c1, c2, c3, c4, c5, c6⟩ := hc
  have hy : idx % w.ny < w.ny := Nat.mod_lt _ p2
  have hz : idx / w.ny < w.nz := Nat.div_lt_of_lt_mul hi
  unfold denseGrain
  rw [sizePlus_ok hne ⟨s1, s2, s3⟩]
  simp only [Option.bind_some]
  have e : size (w.ny : Int) = w.ny := size_nat (by omega)
  rw [e, if_neg (by omega), toInt_nat (by omega), toInt_nat (by omega)]
  generalize idx % w.ny = a at *
  generalize idx / w.ny = c at *
  simp only [add3]
  rw [int_ok (by omega) (by omega), int_ok (by omega) (by omega), int_ok (by omega) (by omega)]
  simp only [Option.bind_some, Option.map_some]
  rw [int_none (by omega)]
  rfl

theorem indexToCoord_ok {ov : Int → Option Int} {a b d idx : Nat} (ha : 0 < a) (hb : 0 < b)
    (hn : a * b * d ≤ 2147483647) (hi : idx < a * b * d) :
    indexToCoord ov idx ⟨a, b, d⟩ = some (F3D.indexToCoord idx a b) := by
  have hd : 0 < d := by
    rcases Nat.eq_zero_or_pos d with h | h
    · subst h; simp at hi
    · exact h
  have hab : a * b ≤ a * b * d := Nat.le_mul_of_pos_right _ hd
  have h0 : 0 < a * b := Nat.mul_pos ha hb
  have h1 : a ≤ a * b := Nat.le_mul_of_pos_right _ hb
  have h2 : b ≤ a * b := Nat.le_mul_of_pos_left _ ha
  have e : ((a : Int) * b) = ((a * b : Nat) : Int) := by push_cast; rfl
  unfold indexToCoord F3D.indexToCoord
  simp only [e]
  rw [int_ok (by omega) (by omega)]
  simp only [Option.bind_some]
  have q1 := Nat.mod_lt idx ha
  have q2 := Nat.mod_lt (idx / a) hb
  have q3 : idx / (a * b) ≤ idx := Nat.div_le_self _ _
  rw [size_nat (by omega), size_nat (by omega), size_nat (by omega), if_neg (by omega),
    toInt_nat (by omega), toInt_nat (by omega), toInt_nat (by omega)]

theorem sparse_grain {α : Type} {ov : Int → Option Int} {f : Sparse α} (wf : f.WF)
    (hs : SidesFit f.dw) (ho : f.order ≤ 30) (hn : f.blocks.length ≤ 2147483647)
    (hc : Corners f.dw)
    (hx : f.dw.max.x + (2 ^ f.order : Nat) ≤ 2147483648)
    (hy : f.dw.max.y + (2 ^ f.order : Nat) ≤ 2147483648)
    (hz : f.dw.max.z + (2 ^ f.order : Nat) ≤ 2147483648) {idx : Nat}
    (hi : idx < f.blocks.length) : sparseGrain ov f idx = some (f.getGrainBounds idx) := by
  obtain ⟨h1, h2, h3, p1, p2, p3⟩ := f.dw.dims wf.ne
  obtain ⟨s1, s2, s3⟩ := hs
  obtain ⟨c1, c2, c3, c4, c5, c6⟩ := hc
  rw [wf.len] at hi hn
  obtain ⟨d1, d2, d3⟩ := Grid.dec_bounds hi
  have q1 := Sparse.bn_pos (o := f.order) p1
  have q2 := Sparse.bn_pos (o := f.order) p2
  have hB := Nat.two_pow_pos f.order
  unfold sparseGrain Sparse.getGrainBounds
  have hb : f.bres = ⟨(Sparse.bn f.order f.dw.nx : Nat), (Sparse.bn f.order f.dw.ny : Nat),
      (Sparse.bn f.order f.dw.nz : Nat)⟩ := by
    apply V3i.ext' <;> simp [wf.bx, wf.by', wf.bz]
  rw [shl_one ho, hb]
  simp only [Option.bind_some, Int.toNat_natCast]
  rw [indexToCoord_ok q1 q2 hn hi]
  simp only [Option.bind_some, F3D.indexToCoord]
  have l1 := Sparse.mul_lt_of_lt_bn d1
  have l2 := Sparse.mul_lt_of_lt_bn d2
  have l3 := Sparse.mul_lt_of_lt_bn d3
  generalize idx % Sparse.bn f.order f.dw.nx = a at *
  generalize idx / Sparse.bn f.order f.dw.nx % Sparse.bn f.order f.dw.ny = b at *
  generalize idx / (Sparse.bn f.order f.dw.nx * Sparse.bn f.order f.dw.ny) = c at *
  have e : ∀ n : Nat, ((n : Int) * ((2 ^ f.order : Nat) : Int)) = ((n * 2 ^ f.order : Nat) : Int) := by
    intro n; push_cast; rfl
  rw [e, e, e]
  generalize a * 2 ^ f.order = a' at *
  generalize b * 2 ^ f.order = b' at *
  generalize c * 2 ^ f.order = c' at *
  generalize 2 ^ f.order = B at *
  simp only [add3, V3i.all_x, V3i.all_y, V3i.all_z]
  rw [int_ok (by omega) (by omega), int_ok (by omega) (by omega), int_ok (by omega) (by omega)]
  simp only [Option.bind_some, Option.map_some]
  rw [int_ok (by omega) (by omega), int_ok (by omega) (by omega), int_ok (by omega) (by omega)]
  simp only [Option.bind_some, Option.map_some]
  rw [int_ok (by omega) (by omega), int_ok (by omega) (by omega), int_ok (by omega) (by omega)]
  rfl

theorem blockVoxels_none {o : Nat} (ho : 10 < o) : blockVoxels undefinedOv o = none := by
  unfold blockVoxels
  by_cases h : o < 32
  · have : ∀ o : Fin 32, 10 < o.val → (((shl undefinedOv 1 o.val).bind fun a =>
        shl undefinedOv a o.val).bind fun a => shl undefinedOv a o.val) = none := by decide
    rw [this ⟨o, h⟩ ho]
    rfl
  · have : shl undefinedOv 1 o = none := if_neg (fun c => h c.1)
    rw [this]
    rfl

theorem fileBlockVoxels_eq {ov : Int → Option Int} {o : Nat} (ho : o ≤ 10) :
    fileBlockVoxels ov o = some (2 ^ o * 2 ^ o * 2 ^ o) := by
  have h3 := cube_small ho
  have e : 2 ^ (o * 3) = 2 ^ o * 2 ^ o * 2 ^ o := by
    rw [show o * 3 = o + o + o from by omega, Nat.pow_add, Nat.pow_add]
  unfold fileBlockVoxels
  rw [shl_one (by omega), Option.map_some, size_nat (by omega), e]

theorem sparse_setSize_none {α : Type} {zero : α} {f : Sparse α} {e w : Box3i}
    (hne : w.isEmpty = false) (hf : Sparse.Fits w)
    (hn : 2147483647 < Sparse.bn f.order w.nx * Sparse.bn f.order w.ny * Sparse.bn f.order w.nz) :
    sparseSetSize undefinedOv zero f e w = none := by
  obtain ⟨f1, f2, f3⟩ := hf
  unfold sparseSetSize
  rw [sizePlus_ok hne ⟨by omega, by omega, by omega⟩]
  simp only [Option.bind_some]
  have c : ∀ n, n ≤ 2 ^ 24 → blockCount undefinedOv f.order (n : Nat) = none ∨
      blockCount undefinedOv f.order (n : Nat) = some ((Sparse.bn f.order n : Nat) : Int) := by
    intro n hn
    unfold blockCount
    rw [Sparse.blockCount_eq rfl hn]
    cases shl undefinedOv 1 f.order with
    | none => exact Or.inl rfl
    | some s =>
      simp only [Option.bind_some]
      split
      · exact Or.inr rfl
      · exact Or.inl rfl
  rcases c _ f1 with a | a <;> rw [a]
  · rfl
  simp only [Option.bind_some]
  rcases c _ f2 with b | b <;> rw [b]
  · rfl
  simp only [Option.bind_some]
  rcases c _ f3 with d | d <;> rw [d]
  · rfl
  simp only [Option.bind_some]
  rw [volume_none hn]
  cases int undefinedOv (((Sparse.bn f.order w.nx : Nat) : Int) * ((Sparse.bn f.order w.ny : Nat) : Int)) <;> rfl

/-- Where overflow is undefined, a result is the mathematical one. -/
theorem int_exact {n r : Int} (h : int undefinedOv n = some r) : r = n := by
  unfold int undefinedOv at h
  split at h
  · cases h; rfl
  · cases h

theorem blockId_exact {α : Type} {f : Sparse α} {b : V3i} {r : Int}
    (h : blockId undefinedOv f b = some r) : r = f.blockId b := by
  unfold blockId at h
  obtain ⟨a, ha, h⟩ := Option.bind_eq_some_iff.mp h
  obtain ⟨c, hc, h⟩ := Option.bind_eq_some_iff.mp h
  obtain ⟨d, hd, h⟩ := Option.bind_eq_some_iff.mp h
  rw [int_exact h, int_exact hd, int_exact ha, int_exact hc]
  rfl

theorem offset_exact {w : Box3i} {p q : V3i} (h : offset undefinedOv w p = some q) :
    q = ⟨p.x - w.min.x, p.y - w.min.y, p.z - w.min.z⟩ := by
  unfold offset sub3 at h
  obtain ⟨a, ha, h⟩ := Option.bind_eq_some_iff.mp h
  obtain ⟨c, hc, h⟩ := Option.bind_eq_some_iff.mp h
  obtain ⟨d, hd, h⟩ := Option.map_eq_some_iff.mp h
  rw [← h, int_exact ha, int_exact hc, int_exact hd]

theorem address_exact {α : Type} {f : Sparse α} {p : V3i} {a : Int × Int}
    (h : sparseAddress undefinedOv f p = some a) :
    a.1 = f.blockId (f.blockCoord (f.offsetCoord p)) := by
  unfold sparseAddress at h
  obtain ⟨q, hq, h⟩ := Option.bind_eq_some_iff.mp h
  obtain ⟨_, _, h⟩ := Option.bind_eq_some_iff.mp h
  obtain ⟨id, hid, h⟩ := Option.bind_eq_some_iff.mp h
  obtain ⟨_, _, h⟩ := Option.map_eq_some_iff.mp h
  rw [← h, blockId_exact hid, offset_exact hq]
  rfl

end F3D.Machine
