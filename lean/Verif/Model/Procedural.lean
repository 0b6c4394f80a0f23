import Verif.Model.Metadata
import Verif.Model.Cont
import Verif.Model.Messages

/-!
# Parameters of procedural fields

Models `ProceduralField<Data_T>::typedIntMetadata`, export/ProceduralField.h:212-269: a parameter of a procedural field is metadata,
which is read as a value of the type of the voxels. Values are exact rationals; a value that a `half` cannot hold becomes
infinite. The default is finite. The float versions, lines 273-325, take the conversions between the type and `float` as parameters.
-/

namespace F3D
namespace Procedural
open Metadata (Meta)
open Og (Name)
open Messages (roundEven)

/-- The component types of the six voxel types. -/
inductive Comp
  | half
  | float
  | double
deriving DecidableEq

/-- A number of the type. -/
inductive Num
  | finite (v : Int)
  | inf (negative : Bool)
deriving DecidableEq

/-- Rounding of a natural number to eleven significant bits, ties to even: the constructor `half(float)`. -/
def toBits11 (n : Nat) : Nat :=
  if n.log2 < 11 then n else roundEven n (2 ^ (n.log2 - 10)) * 2 ^ (n.log2 - 10)

/-- Conversion of an `int` to `half`: to `float`, then to `half`, the largest value of which is 65504. -/
def halfOfInt (i : Int) : Num :=
  let m := toBits11 (Cont.floatOfInt i).natAbs
  if m ≤ 65504 then .finite (if i < 0 then -m else m) else .inf (decide (i < 0))

/-- Conversion of an `int` to the type, by the return statements, export/ProceduralField.h:217, 227, 237. -/
def convert : Comp → Int → Num
  | .half, i => halfOfInt i
  | .float, i => .finite (Cont.floatOfInt i)
  | .double, i => .finite i

/-- `static_cast<int>` of the default: truncated; undefined if out of range. -/
def castInt (d : Rat) : Option Int := Cont.toInt (Cont.trunc d)

/-- `typedIntMetadata` for scalar types, export/ProceduralField.h:212-238. The default is converted in any case. -/
def typedInt (t : Comp) (m : Meta) (n : Name) (d : Rat) : Option Num :=
  (castInt d).map fun d => convert t (m.getInt n d)

/-- `typedIntMetadata` for vector types, export/ProceduralField.h:242-269: the conversions from and to `V3i` are by components. -/
def typedVecInt (t : Comp) (m : Meta) (n : Name) (d : Rat × Rat × Rat) : Option (Num × Num × Num) :=
  (castInt d.1).bind fun x => (castInt d.2.1).bind fun y => (castInt d.2.2).map fun z =>
    let v := m.getVecInt n ⟨x, y, z⟩
    (convert t v.x, convert t v.y, convert t v.z)

/-- The conversions between the component type `T` and `float` (a word): `static_cast<float>` of the default, and the conversion of
what is returned. Both are identities for `float`. -/
structure FloatConv (T : Type) where
  toFloat : T → UInt32
  ofFloat : UInt32 → T

/-- `typedFloatMetadata` for scalar types, export/ProceduralField.h:273-299. -/
def typedFloat {T : Type} (c : FloatConv T) (m : Meta) (n : Name) (d : T) : T :=
  c.ofFloat (m.getFloat n (c.toFloat d))

/-- `typedFloatMetadata` for vector types, export/ProceduralField.h:303-327: the conversions from and to `V3f` are by components. -/
def typedVecFloat {T : Type} (c : FloatConv T) (m : Meta) (n : Name) (d : T × T × T) : T × T × T :=
  let v := m.getVecFloat n ⟨c.toFloat d.1, c.toFloat d.2.1, c.toFloat d.2.2⟩
  (c.ofFloat v.x, c.ofFloat v.y, c.ofFloat v.z)

end Procedural
end F3D
