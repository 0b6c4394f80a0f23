import Verif.Model.Mac
import Verif.Model.Sparse

/-!
# Discrete and continuous voxel coordinates

Models export/Field.h:1055-1141 and `clampForType`, export/Types.h:93-117. `double` values are exact
rationals. `int` is 32 bits; a conversion or addition that overflows is `none`.
-/

namespace F3D
namespace Cont

def intMin : Int := -(2 ^ 31 : Nat)
def intMax : Int := (2 ^ 31 : Nat) - 1

/-- `static_cast<int>(d)` of a double with the integral value `n`; out of range is undefined. -/
def toInt (n : Int) : Option Int := if intMin ≤ n ∧ n ≤ intMax then some n else none

/-- Conversion of a double to an integer type truncates towards zero. -/
def trunc (v : Rat) : Int := if 0 ≤ v then v.floor else -(-v).floor

/-- `contToDisc`, export/Field.h:1061-1064. -/
def contToDisc (c : Rat) : Option Int := toInt c.floor

/-- `discToCont`, export/Field.h:1070-1073. -/
def discToCont (i : Int) : Rat := (i : Rat) + 1 / 2

/-- The vector versions, export/Field.h:1095-1107. -/
def contToDisc3 (c : V3q) : Option V3i := do
  let x ← contToDisc c.x
  let y ← contToDisc c.y
  let z ← contToDisc c.z
  some ⟨x, y, z⟩

def discToCont3 (i : V3i) : V3q := ⟨discToCont i.x, discToCont i.y, discToCont i.z⟩

/-- `Box3d`. -/
structure Box3q where
  min : V3q
  max : V3q
deriving DecidableEq, Repr

/-- `static_cast<float>(i)` for an `int` (rounding is symmetric in the sign). -/
def floatOfInt (i : Int) : Int := if 0 ≤ i then (toFloat32 i.toNat : Nat) else -(toFloat32 (-i).toNat : Nat)

/-- `continuousBounds`, export/Field.h:1111-1121; `max + 1` is an `int` addition. -/
def continuousBounds (b : Box3i) : Option Box3q := do
  let x ← toInt (b.max.x + 1)
  let y ← toInt (b.max.y + 1)
  let z ← toInt (b.max.z + 1)
  some ⟨⟨floatOfInt b.min.x, floatOfInt b.min.y, floatOfInt b.min.z⟩,
        ⟨floatOfInt x, floatOfInt y, floatOfInt z⟩⟩

/-- `clampForType<double, int>`, export/Types.h:93-117. The result type is `int`: `return v`
converts, that is truncates. -/
def clampForInt (v : Rat) : Int :=
  if v < intMin then intMin
  else if v > intMax then intMax
  else trunc v

/-- `discreteBounds`, export/Field.h:1128-1141. `floor` and `ceil` are applied to the `int` that
`clampForType` returns. -/
def discreteBounds (b : Box3q) : Box3i :=
  ⟨⟨(clampForInt b.min.x : Rat).floor, (clampForInt b.min.y : Rat).floor, (clampForInt b.min.z : Rat).floor⟩,
   ⟨(clampForInt b.max.x : Rat).ceil, (clampForInt b.max.y : Rat).ceil, (clampForInt b.max.z : Rat).ceil⟩⟩

end Cont
end F3D
