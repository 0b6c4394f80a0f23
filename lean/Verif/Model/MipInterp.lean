import Verif.Model.Interp
import Verif.Model.Curve

/-!
# Sampling MIP fields

Models `MIPLinearInterp`, export/MIPInterp.h, and `MIPField::getVsMIPCoord`, export/MIPField.h. Floating-point
arithmetic is exact.
-/

namespace F3D
namespace MipInterp
open Interp

/-- `m_wsVoxelSize`, export/MIPInterp.h:131-140: `base` is the smallest component of the voxel size of level 0. -/
def levelSizes (base : Rat) (n : Nat) : List Rat := (List.range n).map fun (i : Nat) => base * 2 ^ i

/-- `wsMinVoxelSize`, export/MIPInterp.h:133-135. -/
def minSize (s : V3q) : Rat := min (min s.x s.y) s.z

/-- `InterpInfo`, export/MIPInterp.h:84-105. -/
structure Info where
  lower : Nat
  upper : Nat
  lerpT : Rat
deriving DecidableEq, Repr

/-- The loop of `interpInfo`, export/MIPInterp.h:186-192: `prev` is the size of level `i - 1`, the list holds the sizes
from level `i` on. -/
def interpLoop (spot : Rat) (i : Nat) (prev : Rat) : List Rat → Info
  | [] => ⟨i - 1, i - 1, 0⟩
  | s :: l => if spot ≤ s then ⟨i - 1, i, Curve.lerpfactor spot prev s⟩ else interpLoop spot (i + 1) s l

/-- `interpInfo`, export/MIPInterp.h:176-195; without levels the access of the first size is undefined. -/
def interpInfo (sizes : List Rat) (spot : Rat) : Option Info :=
  match sizes with
  | [] => none
  | s :: l => some (if spot ≤ s then ⟨0, 0, 0⟩ else interpLoop spot 1 s l)

/-- One component of `getVsMIPCoord`, export/MIPField.h:598-615. The shifts of the `int` offset are a floor division and
a multiplication by `2^level`. -/
def mipCoord1 (off : Int) (level : Nat) (p : Rat) : Rat :=
  let offset := off / 2 ^ level * 2 ^ level
  let diff : Rat := ((offset - off : Int) : Rat)
  (p - diff) * (1 / 2 ^ level)

def mipCoord (off : V3i) (level : Nat) (p : V3q) : V3q :=
  ⟨mipCoord1 off.x level p.x, mipCoord1 off.y level p.y, mipCoord1 off.z level p.z⟩

/-- `sample`, export/MIPInterp.h:144-172: `interp l` is the linear interpolator on level `l`. -/
def sample (interp : Nat → V3q → Option Rat) (off : V3i) (sizes : List Rat) (vsP : V3q) (spot : Rat) : Option Rat :=
  match interpInfo sizes spot with
  | none => none
  | some i =>
    if i.lower = i.upper then
      if i.lower = 0 then interp 0 vsP else interp i.lower (mipCoord off i.lower vsP)
    else do
      let v0 ← interp i.lower (mipCoord off i.lower vsP)
      let v1 ← interp i.upper (mipCoord off i.upper vsP)
      some (Curve.lerpQ v0 v1 i.lerpT)

end MipInterp
end F3D
