import Verif.Model.Basic

/-! Arithmetic of x-fastest linear indices. -/

namespace F3D.Grid

theorem succ_mod_div {r i : Nat} (hr : 0 < r) :
    ((i + 1) % r = if i % r = r - 1 then 0 else i % r + 1) ∧
    ((i + 1) / r = if i % r = r - 1 then i / r + 1 else i / r) := by
  have h1 : r * (i / r) + i % r = i := Nat.div_add_mod i r
  have h2 : i % r < r := Nat.mod_lt _ hr
  split
  · rename_i h
    have e : i + 1 = r * (i / r + 1) := by rw [Nat.mul_add]; omega
    constructor
    · rw [e]; exact Nat.mul_mod_right _ _
    · conv => lhs; rw [e]
      exact Nat.mul_div_cancel_left _ hr
  · rename_i h
    have e : i + 1 = (i % r + 1) + r * (i / r) := by omega
    have hlt : i % r + 1 < r := by omega
    constructor
    · conv => lhs; rw [e]
      rw [Nat.add_mul_mod_self_left, Nat.mod_eq_of_lt hlt]
    · conv => lhs; rw [e]
      rw [Nat.add_mul_div_left _ _ hr, Nat.div_eq_of_lt hlt, Nat.zero_add]

/-- Linear index of `(x,y,z)` in a grid with row length `rx` and slice height `ry`. -/
def enc (rx ry x y z : Nat) : Nat := x + y * rx + z * (rx * ry)

theorem enc_lt {rx ry rz x y z : Nat} (hx : x < rx) (hy : y < ry) (hz : z < rz) :
    enc rx ry x y z < rx * ry * rz := by
  unfold enc
  have h1 : x + y * rx < rx * ry := by
    calc x + y * rx < rx + y * rx := by omega
      _ = (y + 1) * rx := by rw [Nat.succ_mul]; omega
      _ ≤ ry * rx := Nat.mul_le_mul_right _ hy
      _ = rx * ry := Nat.mul_comm _ _
  calc x + y * rx + z * (rx * ry) < rx * ry + z * (rx * ry) := by omega
    _ = (z + 1) * (rx * ry) := by rw [Nat.succ_mul]; omega
    _ ≤ rz * (rx * ry) := Nat.mul_le_mul_right _ hz
    _ = rx * ry * rz := Nat.mul_comm _ _

theorem enc_row_lt {rx ry x y : Nat} (hx : x < rx) (hy : y < ry) : x + y * rx < rx * ry := by
  have := enc_lt (rz := 1) (z := 0) hx hy (by omega)
  simpa [enc] using this

theorem dec_x {rx ry x y z : Nat} (hx : x < rx) : enc rx ry x y z % rx = x := by
  unfold enc
  have : x + y * rx + z * (rx * ry) = x + rx * (y + z * ry) := by
    rw [Nat.mul_add, Nat.mul_comm rx y, Nat.mul_left_comm rx z ry]; omega
  rw [this, Nat.add_mul_mod_self_left, Nat.mod_eq_of_lt hx]

theorem dec_yz {rx ry x y z : Nat} (hx : x < rx) : enc rx ry x y z / rx = y + z * ry := by
  unfold enc
  have : x + y * rx + z * (rx * ry) = x + rx * (y + z * ry) := by
    rw [Nat.mul_add, Nat.mul_comm rx y, Nat.mul_left_comm rx z ry]; omega
  rw [this, Nat.add_mul_div_left _ _ (by omega), Nat.div_eq_of_lt hx, Nat.zero_add]

theorem dec_y {rx ry x y z : Nat} (hx : x < rx) (hy : y < ry) :
    enc rx ry x y z / rx % ry = y := by
  rw [dec_yz hx, Nat.add_mul_mod_self_right, Nat.mod_eq_of_lt hy]

theorem dec_z {rx ry x y z : Nat} (hx : x < rx) (hy : y < ry) :
    enc rx ry x y z / (rx * ry) = z := by
  rw [← Nat.div_div_eq_div_mul, dec_yz hx, Nat.add_mul_div_right _ _ (by omega),
    Nat.div_eq_of_lt hy, Nat.zero_add]

theorem enc_dec (rx ry i : Nat) :
    enc rx ry (i % rx) (i / rx % ry) (i / (rx * ry)) = i := by
  unfold enc
  rw [← Nat.div_div_eq_div_mul]
  have h1 := Nat.div_add_mod i rx
  have h2 := Nat.div_add_mod (i / rx) ry
  have h3 : (i / rx % ry) * rx + i / rx / ry * (rx * ry) = rx * (i / rx) := by
    conv => rhs; rw [← h2]
    rw [Nat.mul_add, Nat.mul_comm rx (i / rx % ry)]
    rw [Nat.mul_comm (i / rx / ry) (rx * ry), Nat.mul_assoc]; omega
  omega

theorem dec_bounds {rx ry rz i : Nat} (h : i < rx * ry * rz) :
    i % rx < rx ∧ i / rx % ry < ry ∧ i / (rx * ry) < rz := by
  have hx : 0 < rx := Nat.pos_of_ne_zero (by rintro rfl; simp at h)
  have hy : 0 < ry := Nat.pos_of_ne_zero (by rintro rfl; simp at h)
  refine ⟨Nat.mod_lt _ hx, Nat.mod_lt _ hy, ?_⟩
  exact Nat.div_lt_of_lt_mul (by omega)

theorem enc_inj {rx ry x y z x' y' z' : Nat} (hx : x < rx) (hy : y < ry) (hx' : x' < rx)
    (hy' : y' < ry) (h : enc rx ry x y z = enc rx ry x' y' z') : x = x' ∧ y = y' ∧ z = z' := by
  refine ⟨?_, ?_, ?_⟩
  · rw [← dec_x (ry := ry) (y := y) (z := z) hx, h, dec_x hx']
  · rw [← dec_y (z := z) hx hy, h, dec_y hx' hy']
  · rw [← dec_z (z := z) hx hy, h, dec_z hx' hy']

end F3D.Grid
