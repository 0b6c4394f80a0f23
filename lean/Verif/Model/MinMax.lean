import Verif.Model.Resample
import Verif.Model.MipMapping

/-!
# Min and max fields

Models `makeMinMax`, export/MinMaxUtil.h, for `DenseField`s of numbers in exact arithmetic; the resolution of the
source is converted to `float`.
-/

namespace F3D
namespace MinMax
open Identical (Map)
open Resample

/-- One component of `res`, export/MinMaxUtil.h:100-106. The conversion to `int` truncates; `resMult` is taken to be
small enough for it. -/
def res1 (srcRes : Int) (resMult : Rat) : Int := max (Cont.trunc ((toFloat32 srcRes.toNat : Rat) * min 1 resMult)) 2

def resOf (srcRes : V3i) (resMult : Rat) : V3i := ⟨res1 srcRes.x resMult, res1 srcRes.y resMult, res1 srcRes.z resMult⟩

/-- `new Field`, export/MinMaxUtil.h:109-110, with export/Field.h:325-331. -/
def newField : Dense Rat where
  extents := ⟨V3i.all 0, V3i.all (-1)⟩
  dw := ⟨V3i.all 0, V3i.all (-1)⟩
  memX := 0
  memXY := 0
  data := []

/-- `resample` into a new field, the return value of which is ignored, export/MinMaxUtil.h:113-114: a source that is
refused leaves the new field as it is. -/
def resampleInto (flt : Filter) (base : Dense Rat) (res : V3i) : Result (Dense Rat) :=
  (resample flt base res).bind fun r => .ok (r.getD newField)

/-- One of the two fields, export/MinMaxUtil.h:113-119. -/
def makeOne (flt : Filter) (base : Dense Rat) (resMult : Rat) (fuel : Nat) : Made :=
  match resampleInto flt base (resOf (base.dw.size + V3i.all 1) resMult) with
  | .undef => .undef
  | .resizeException => .resizeException
  | .ok src => makeMIP flt src 2 (V3i.all 0) fuel

/-- `makeMinMax`, export/MinMaxUtil.h:86-122: the results of the two calls of `makeMIP`. The filters have width one. -/
def makeMinMax (base : Dense Rat) (resMult : Rat) (fuel : Nat) : Made × Made :=
  (makeOne (minFilter 1) base resMult fuel, makeOne (maxFilter 1) base resMult fuel)

/-- The mapping of the result of `resample`, export/Resample.h:544 with export/Field.h:347-360: that of the source with
the extents of the result. -/
def resampledMapping (m : Map) (newRes : V3i) : Option Map := Copy.setExtents m (boxOf newRes)

/-- The mapping of level `level` of the fields made by `makeMinMax`: `setup`, export/MIPField.h:411, gives the MIP field
the mapping of its level 0 and so calls `mappingChanged`. -/
def levelMapping (root : Rat → Rat) (m : Map) (newRes : V3i) (extents : Box3i) (level : Nat) : Option Map :=
  (resampledMapping m newRes).bind fun m => MipMapping.levelMapping root m (V3i.all 0) extents level

end MinMax
end F3D
