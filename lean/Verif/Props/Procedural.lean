import Verif.Model.Procedural
import Verif.Proofs.Messages
import Verif.Props.Metadata
import Mathlib.Data.Rat.Floor

/-!
# C100: integer parameters of procedural fields
-/

namespace F3D.Props
open Metadata Procedural
open Og (Name)
open Messages (roundEven roundEven_bounds roundEven_mono roundEven_exact)

/-! ## Specification -/

/-- The value is within 32 bits after the fraction is dropped. -/
def CastsToInt (d : Rat) (k : Int) : Prop :=
  -2 ^ 31 ≤ k ∧ k < 2 ^ 31 ∧ (0 ≤ d → (k : Rat) ≤ d ∧ d < k + 1) ∧ (d < 0 → (k : Rat) - 1 < d ∧ d ≤ k)

/-- `x` is `i` converted to the type: exact for `double`; for `float` exact up to 2^24 and else up to one part in 2^24; for `half`
exact up to 2048, up to one part in 2^11 below 65520, and infinite from there on. -/
def ConvertsTo : Comp → Int → Num → Prop
  | .double, i, x => x = .finite i
  | .float, i, x => ∃ v : Int, x = .finite v ∧ (|i| ≤ 2 ^ 24 → v = i) ∧ |v - i| * 2 ^ 24 ≤ |i|
  | .half, i, x => (65520 ≤ |i| → x = .inf (decide (i < 0))) ∧
      (|i| < 65520 → ∃ v : Int, x = .finite v ∧ (|i| ≤ 2048 → v = i) ∧ |v - i| * 2 ^ 11 ≤ |i|)

/-! ## Lemmas -/

theorem toBits11_small {n : Nat} (h : n ≤ 2048) : toBits11 n = n := by
  unfold toBits11
  split
  · rfl
  · rename_i hk
    have : 2048 ≤ n := by
      have h0 : n ≠ 0 := by rintro rfl; simp at hk
      have := Nat.log2_self_le h0
      have h2 : 2 ^ 11 ≤ 2 ^ n.log2 := Nat.pow_le_pow_right (by omega) (by omega)
      omega
    have : n = 2048 := by omega
    subst this
    decide

theorem toBits11_close (n : Nat) : 2 ^ 11 * n ≤ 2 ^ 11 * toBits11 n + n ∧ 2 ^ 11 * toBits11 n ≤ 2 ^ 11 * n + n := by
  unfold toBits11
  split
  · omega
  · rename_i hk
    have h0 : n ≠ 0 := by rintro rfl; simp at hk
    have hle := Nat.log2_self_le h0
    obtain ⟨a, b⟩ := roundEven_bounds n (2 ^ (n.log2 - 10)) (Nat.two_pow_pos _)
    have e : 2 ^ 10 * 2 ^ (n.log2 - 10) = 2 ^ n.log2 := by rw [← Nat.pow_add]; congr 1; omega
    generalize 2 ^ (n.log2 - 10) = u at *
    generalize roundEven n u * u = r at *
    omega

theorem toBits11_large {n : Nat} (h : 65520 ≤ n) : 65504 < toBits11 n := by
  unfold toBits11
  have h0 : n ≠ 0 := by omega
  have hl : 15 ≤ n.log2 := (Nat.le_log2 h0).2 (by omega)
  rw [if_neg (by omega)]
  rcases Nat.lt_or_ge n 65536 with hn | hn
  · have hl2 : n.log2 < 16 := (Nat.log2_lt h0).2 hn
    have : n.log2 = 15 := by omega
    rw [this]
    have := roundEven_mono (d := 2 ^ (15 - 10)) (by decide) h
    have e : roundEven 65520 (2 ^ (15 - 10)) = 2048 := by decide
    rw [e] at this
    omega
  · have hle := Nat.log2_self_le h0
    have h16 : 16 ≤ n.log2 := (Nat.le_log2 h0).2 (by omega)
    have e : 2 ^ n.log2 = 2 ^ 10 * 2 ^ (n.log2 - 10) := by rw [← Nat.pow_add]; congr 1; omega
    have h1 := roundEven_mono (d := 2 ^ (n.log2 - 10)) (Nat.two_pow_pos _) hle
    rw [e, roundEven_exact _ _ (Nat.two_pow_pos _)] at h1
    have h2 : 2 ^ 10 * 2 ^ (n.log2 - 10) ≤ roundEven n (2 ^ (n.log2 - 10)) * 2 ^ (n.log2 - 10) := Nat.mul_le_mul_right _ h1
    have h3 : 2 ^ 16 ≤ 2 ^ n.log2 := Nat.pow_le_pow_right (by omega) h16
    omega

theorem toBits11_small_max {n : Nat} (h : n < 65520) : toBits11 n ≤ 65504 := by
  rcases Nat.lt_or_ge n 32768 with hn | hn
  · have := (toBits11_close n).2
    omega
  · unfold toBits11
    have h0 : n ≠ 0 := by omega
    have hl : 15 ≤ n.log2 := (Nat.le_log2 h0).2 (by omega)
    have hl2 : n.log2 < 16 := (Nat.log2_lt h0).2 (by omega)
    rw [if_neg (by omega), show n.log2 = 15 by omega]
    have := roundEven_mono (n := n) (m := 65519) (d := 2 ^ (15 - 10)) (by decide) (by omega)
    have e : roundEven 65519 (2 ^ (15 - 10)) = 2047 := by decide
    rw [e] at this
    omega

theorem floatOfInt_natAbs (i : Int) : (Cont.floatOfInt i).natAbs = toFloat32 i.natAbs := by
  unfold Cont.floatOfInt
  split
  · rw [Int.natAbs_natCast]; congr 1; omega
  · rw [Int.natAbs_neg, Int.natAbs_natCast]; congr 1; omega

theorem convert_spec (t : Comp) (i : Int) : ConvertsTo t i (convert t i) := by
  cases t with
  | double => rfl
  | float =>
    refine ⟨_, rfl, ?_, ?_⟩
    · intro h
      unfold Cont.floatOfInt
      have habs := abs_le.1 h
      split <;> rw [toFloat32_id (by omega)] <;> omega
    · have hc := Messages.toFloat32_close
      unfold Cont.floatOfInt
      split
      · rename_i h
        have := hc i.toNat
        rw [abs_of_nonneg h]
        have e : ((i.toNat : Nat) : Int) = i := Int.toNat_of_nonneg h
        generalize toFloat32 i.toNat = f at *
        rcases abs_cases ((f : Int) - i) with ⟨e1, _⟩ | ⟨e1, _⟩ <;> rw [e1] <;> omega
      · rename_i h
        have := hc (-i).toNat
        rw [abs_of_neg (by omega : i < 0)]
        have e : (((-i).toNat : Nat) : Int) = -i := Int.toNat_of_nonneg (by omega)
        generalize toFloat32 (-i).toNat = f at *
        rcases abs_cases (-(f : Int) - i) with ⟨e1, _⟩ | ⟨e1, _⟩ <;> rw [e1] <;> omega
  | half =>
    simp only [ConvertsTo, convert, halfOfInt, floatOfInt_natAbs]
    have hn : |i| = (i.natAbs : Int) := Int.abs_eq_natAbs i
    rw [hn]
    constructor
    · intro h
      have h1 : 65520 ≤ toFloat32 i.natAbs := by
        have := Messages.toFloat32_mono (n := 65520) (m := i.natAbs) (by omega)
        rw [toFloat32_id (by decide)] at this
        exact this
      rw [if_neg (by have := toBits11_large h1; omega)]
    · intro h
      have h1 : toFloat32 i.natAbs = i.natAbs := toFloat32_id (by omega)
      rw [h1, if_pos (toBits11_small_max (by omega))]
      refine ⟨_, rfl, ?_, ?_⟩
      · intro h2
        rw [toBits11_small (by omega)]
        split <;> omega
      · have hc := toBits11_close i.natAbs
        generalize toBits11 i.natAbs = f at *
        split
        · rcases abs_cases (-(f : Int) - i) with ⟨e1, _⟩ | ⟨e1, _⟩ <;> rw [e1] <;> omega
        · rcases abs_cases ((f : Int) - i) with ⟨e1, _⟩ | ⟨e1, _⟩ <;> rw [e1] <;> omega

theorem castInt_spec (d : Rat) (k : Int) : castInt d = some k ↔ CastsToInt d k := by
  unfold castInt Cont.toInt Cont.trunc CastsToInt
  have hm : Cont.intMin = -2 ^ 31 := by decide
  have hM : Cont.intMax = 2 ^ 31 - 1 := by decide
  rw [hm, hM]
  have key : ∀ e : Rat, ∀ j : Int, e.floor = j ↔ (j : Rat) ≤ e ∧ e < j + 1 := by
    intro e j
    have := @Int.floor_eq_iff Rat _ _ _ j e
    exact this
  by_cases h : 0 ≤ d
  · rw [if_pos h]
    have hk := key d
    constructor
    · intro h1
      split at h1
      · rename_i h2
        cases h1
        exact ⟨h2.1, by omega, fun _ => (hk _).1 rfl, fun h3 => absurd h (not_le.2 h3)⟩
      · cases h1
    · rintro ⟨a, b, c, -⟩
      rw [(hk k).2 (c h), if_pos ⟨a, by omega⟩]
  · rw [if_neg h]
    have hneg : d < 0 := not_le.1 h
    have hk := key (-d)
    constructor
    · intro h1
      split at h1
      · rename_i h2
        cases h1
        refine ⟨h2.1, by omega, fun h3 => absurd h3 h, fun _ => ?_⟩
        obtain ⟨a, b⟩ := (hk _).1 rfl
        push_cast
        constructor <;> linarith
      · cases h1
    · rintro ⟨a, b, -, c⟩
      obtain ⟨c1, c2⟩ := c hneg
      have : (-d).floor = -k := (hk _).2 (by push_cast; constructor <;> linarith)
      rw [this, neg_neg, if_pos ⟨a, by omega⟩]

/-! ## C100 -/

/-- **C100.** After any history of changes of the metadata of a procedural field, an integer parameter read as a value of a scalar
type is the last one set under the name, or else the default without its fraction, converted to the type. Floats, strings
and vectors of the same name do not matter. A default that is out of range for an `int` is undefined, also if the parameter is
set. -/
theorem C100_parameter (owner : Bool) (ops : List MetaOp) (t : Comp) (n : Name) (d : Rat) :
    (∀ k, CastsToInt d k → ∃ x, typedInt t ((Obj.new owner).run ops).data n d = some x ∧
      ConvertsTo t (match lastSet n .int ops.reverse with
        | some (.int v) => v
        | _ => k) x) ∧
    ((∀ k, ¬ CastsToInt d k) → typedInt t ((Obj.new owner).run ops).data n d = none) := by
  constructor
  · intro k hk
    refine ⟨_, by rw [typedInt, (castInt_spec d k).2 hk]; rfl, ?_⟩
    rw [← C45_last_set owner ops n .int]
    rcases (C45_getters ((Obj.new owner).run ops).data n).2.1 k with h | ⟨h, h2⟩
    · rw [h]; exact convert_spec t _
    · rw [h]
      show ConvertsTo t k (convert t (((Obj.new owner).run ops).data.getInt n k))
      rw [h2]; exact convert_spec t _
  · intro h
    have : castInt d = none := by
      cases hc : castInt d with
      | none => rfl
      | some k => exact absurd ((castInt_spec d k).1 hc) (h k)
    rw [typedInt, this]; rfl

/-- **C100, vectors.** The same by components. -/
theorem C100_vector_parameter (owner : Bool) (ops : List MetaOp) (t : Comp) (n : Name) (d : Rat × Rat × Rat) (a b c : Int)
    (ha : CastsToInt d.1 a) (hb : CastsToInt d.2.1 b) (hc : CastsToInt d.2.2 c) :
    ∃ x y z, typedVecInt t ((Obj.new owner).run ops).data n d = some (x, y, z) ∧
      (match lastSet n .vecInt ops.reverse with
        | some (.vecInt v) => ConvertsTo t v.x x ∧ ConvertsTo t v.y y ∧ ConvertsTo t v.z z
        | _ => ConvertsTo t a x ∧ ConvertsTo t b y ∧ ConvertsTo t c z) := by
  refine ⟨_, _, _, by rw [typedVecInt, (castInt_spec _ _).2 ha, (castInt_spec _ _).2 hb, (castInt_spec _ _).2 hc]; rfl, ?_⟩
  rw [← C45_last_set owner ops n .vecInt]
  rcases (C45_getters ((Obj.new owner).run ops).data n).2.2.2.1 ⟨a, b, c⟩ with h | ⟨h, h2⟩
  · rw [h]; exact ⟨convert_spec t _, convert_spec t _, convert_spec t _⟩
  · rw [h, h2]; exact ⟨convert_spec t _, convert_spec t _, convert_spec t _⟩

/-- A default of one half comes back as zero, from every type: defaults are not returned as they are. -/
theorem C100_default_fraction_lost (t : Comp) (n : Name) :
    typedInt t Meta.empty n (1 / 2) = some (.finite 0) := by
  have e : castInt (1 / 2) = some 0 := by decide +kernel
  rw [typedInt, e]
  cases t <;> rfl

/-- A parameter of 65520 read in a field of halves is infinite, one of 2049 becomes 2048. -/
theorem C100_half_range (n : Name) (d : Rat) (k : Int) (h : CastsToInt d k) :
    typedInt .half (Meta.empty.setInt n 65520) n d = some (.inf false) ∧
    typedInt .half (Meta.empty.setInt n 2049) n d = some (.finite 2048) := by
  have e := (castInt_spec d k).2 h
  constructor
  · simp only [typedInt, e, Option.map_some, Meta.getInt, Meta.setInt, get_set, if_true, convert]
    decide
  · simp only [typedInt, e, Option.map_some, Meta.getInt, Meta.setInt, get_set, if_true, convert]
    decide

/-- The conditions are met: 2.5 is cast to 2, -2.5 to -2. -/
example : CastsToInt (5 / 2) 2 ∧ CastsToInt (-5 / 2) (-2) := by
  unfold CastsToInt; norm_num

/-- 2^31 is cast to nothing. -/
example : ∀ k, ¬ CastsToInt (2 ^ 31) k := by
  rintro k ⟨-, h, h2, -⟩
  have := (h2 (by norm_num)).2
  have h3 : ((2 : Rat) ^ 31) < ((k + 1 : Int) : Rat) := by push_cast; exact this
  have h4 : ((2 ^ 31 : Int) : Rat) < ((k + 1 : Int) : Rat) := by push_cast; push_cast at h3; exact h3
  have := Int.cast_lt.1 h4
  omega

example : typedInt .float ((Obj.new true).run [.int [97] 7, .float [97] 3, .int [97] 16777217]).data [97] 0 =
    some (.finite 16777216) := by decide +kernel

/-- **C100, float parameters.** After any history of changes of the metadata, a float parameter is the last float set under the name,
converted to the type of the voxels; integers, strings and vectors of the same name do not matter. Without one it is the default, after
a conversion to `float` and back. -/
theorem C100_float_parameter {T : Type} (c : FloatConv T) (owner : Bool) (ops : List MetaOp) (n : Name) (d : T) :
    typedFloat c ((Obj.new owner).run ops).data n d =
      match lastSet n .float ops.reverse with
      | some (.float v) => c.ofFloat v
      | _ => c.ofFloat (c.toFloat d) := by
  rw [← C45_last_set owner ops n .float]
  unfold typedFloat
  rcases (C45_getters ((Obj.new owner).run ops).data n).2.2.1 (c.toFloat d) with h | ⟨h, h2⟩
  · rw [h]
  · rw [h, h2]

/-- **C100, float vector parameters.** The same by components. -/
theorem C100_float_vector_parameter {T : Type} (c : FloatConv T) (owner : Bool) (ops : List MetaOp) (n : Name) (x y z : T) :
    typedVecFloat c ((Obj.new owner).run ops).data n (x, y, z) =
      match lastSet n .vecFloat ops.reverse with
      | some (.vecFloat v) => (c.ofFloat v.x, c.ofFloat v.y, c.ofFloat v.z)
      | _ => (c.ofFloat (c.toFloat x), c.ofFloat (c.toFloat y), c.ofFloat (c.toFloat z)) := by
  rw [← C45_last_set owner ops n .vecFloat]
  unfold typedVecFloat
  rcases (C45_getters ((Obj.new owner).run ops).data n).2.2.2.2 ⟨c.toFloat x, c.toFloat y, c.toFloat z⟩ with h | ⟨h, h2⟩
  · rw [h]
  · rw [h, h2]

/-- **C100, float defaults.** For a type whose values all are floats (`half`, `float`) the default comes back as it is if no float was
set. For a type with more values than there are floats (`double`) some default does not. -/
theorem C100_float_default {T : Type} (c : FloatConv T) (owner : Bool) (ops : List MetaOp) (n : Name)
    (h : lastSet n .float ops.reverse = none) :
    ((∀ d, c.ofFloat (c.toFloat d) = d) → ∀ d, typedFloat c ((Obj.new owner).run ops).data n d = d) ∧
    ((∀ f : UInt32 → T, ∃ d, ∀ w, f w ≠ d) → ∃ d, typedFloat c ((Obj.new owner).run ops).data n d ≠ d) := by
  have key : ∀ d, typedFloat c ((Obj.new owner).run ops).data n d = c.ofFloat (c.toFloat d) := by
    intro d; rw [C100_float_parameter, h]
  constructor
  · intro hr d; rw [key, hr]
  · intro hs
    obtain ⟨d, hd⟩ := hs c.ofFloat
    exact ⟨d, by rw [key]; exact hd _⟩

/-- The cases are met: words for `float`, and words with a further bit in place of `double`. -/
example : typedFloat ⟨id, id⟩ ((Obj.new true).run [.float [97] 3, .int [97] 7, .float [98] 5]).data [97] 9 = 3 := by decide +kernel

example : typedFloat (T := UInt32 × Bool) ⟨fun p => p.1, fun w => (w, false)⟩ ((Obj.new true).run [.int [97] 7]).data [97] (4, true) =
    (4, false) := by decide +kernel

example : typedVecFloat ⟨id, id⟩ ((Obj.new true).run [.vecFloat [97] ⟨1, 2, 3⟩]).data [97] (4, 5, 6) = (1, 2, 3) := by decide +kernel

end F3D.Props
