import Verif.Model.Mapping
import Verif.Model.Loops

/-!
# Sampling groups of fields

Models export/FieldWrapper.h, export/FieldSampler.h and the parts of export/FieldGroup.h that call them. World points
and arithmetic are exact; `none` is undefined behaviour (or a result that is not finite). The type of the samples is
`V`, with the addition `add`.
-/

namespace F3D
namespace Sampler

open Cont (Box3q)

/-! ## Wrappers -/

/-- `mapping`: a matrix mapping, or another one (only its `worldToVoxel(wsP, vsP)` matters). -/
inductive Map where
  | matrix (m : Mapping.Matrix)
  | other (f : V3q → Option V3q)

/-- `mapping->worldToVoxel(wsP, vsP)`. -/
def Map.worldToVoxel : Map → V3q → Option V3q
  | .matrix m, p => m.worldToVoxel p
  | .other f, p => f p

/-- `FieldWrapper` and `MIPFieldWrapper`, export/FieldWrapper.h:130-147 and 227-245. `sample` is `interp.sample` at a
point and spot size (ordinary fields ignore the latter). A member never set is `none`. -/
structure Wrapper (V : Type) where
  map : Map
  vsBounds : Box3q
  sample : V3q → Rat → Option V
  worldScale : Rat
  /-- `osToWs` and `wsToOs` once `doOsToWs` is set. -/
  osToWs : Option (M44 × M44)
  wsToVs : Option M44
  wsBounds : Option Box3q
  /-- `doWsBoundsOptimization`. -/
  optimise : Option Bool
  remap : Option (V → V)

/-- The constructor of `FieldWrapper`, export/FieldWrapper.h:68-77. -/
def Wrapper.new {V : Type} (map : Map) (vsBounds : Box3q) (sample : V3q → Rat → Option V) : Wrapper V :=
  ⟨map, vsBounds, sample, 1, none, none, none, some false, none⟩

/-- The constructor of `MIPFieldWrapper`, export/FieldWrapper.h:163-174: `doWsBoundsOptimization` is not
initialised. -/
def Wrapper.newMIP {V : Type} (map : Map) (vsBounds : Box3q) (sample : V3q → Rat → Option V) : Wrapper V :=
  ⟨map, vsBounds, sample, 1, none, none, none, none, none⟩

/-- `Imath::Box3f(min, max)`: each component is rounded to `float` by `rnd`. -/
def roundBox (rnd : Rat → Rat) (b : Box3q) : Box3q :=
  ⟨⟨rnd b.min.x, rnd b.min.y, rnd b.min.z⟩, ⟨rnd b.max.x, rnd b.max.y, rnd b.max.z⟩⟩

/-- `setWsBoundsOptimization`, export/FieldWrapper.h:100-122 and 197-219. `Imath::transform` is the box of the
transformed corners. -/
def Wrapper.setOptimise {V : Type} (rnd : Rat → Rat) (w : Wrapper V) (on : Bool) : Option (Wrapper V) :=
  if !on then some w else
    match w.map with
    | .other _ => some w
    | .matrix m =>
      let wsToVs := match w.osToWs with
        | some (_, wsToOs) => wsToOs.mul (m.worldToVoxelMatrix 0)
        | none => m.worldToVoxelMatrix 0
      match transformBounds wsToVs.inverse w.vsBounds with
      | none => none
      | some b => some { w with wsToVs := some wsToVs, wsBounds := some (roundBox rnd b), optimise := some true }

/-- `setOsToWs`, export/FieldWrapper.h:79-98 and 176-195. `scale` is the result of `Imath::extractScaling`, or 1. -/
def Wrapper.setOsToWs {V : Type} (rnd : Rat → Rat) (w : Wrapper V) (osToWs : M44) (scale : Rat) :
    Option (Wrapper V) :=
  let w' := { w with osToWs := some (osToWs, osToWs.inverse), worldScale := scale }
  match w.optimise with
  | none => none
  | some true => w'.setOptimise rnd true
  | some false => some w'

/-- `GrabFields`, export/FieldGroup.h:918-940, for a field of the matching type: `fresh` is the new wrapper. -/
def grab {V : Type} (rnd : Rat → Rat) (osToWs : M44) (scale : Rat) (remap : Option (V → V)) (optimise : Bool)
    (fresh : Wrapper V) : Option (Wrapper V) := do
  let w ← if osToWs ≠ M44.one then fresh.setOsToWs rnd osToWs scale else some fresh
  let w ← if optimise then w.setOptimise rnd true else some w
  match remap with
  | some op => some { w with remap := some op }
  | none => some w

/-! ## Sampling -/

/-- The value and the number of hits at one point. -/
abbrev Acc (V : Type) := V × Nat

/-- The point in voxel space, export/FieldSampler.h:100-108 (and the same code at 140-148, 195-205, 266-277). -/
def Wrapper.toVoxel {V : Type} (w : Wrapper V) (p : V3q) : Option V3q :=
  match w.osToWs with
  | some (_, wsToOs) => (wsToOs.multVec p).bind w.map.worldToVoxel
  | none => w.map.worldToVoxel p

/-- The value added, export/FieldSampler.h:114-119 (and 154-159, 211-216, 282-287). -/
def Wrapper.contribution {V : Type} (w : Wrapper V) (vsP : V3q) (spot : Rat) : Option V :=
  match w.remap with
  | some op => (w.sample vsP spot).map op
  | none => w.sample vsP spot

/-- Counting a hit and adding its value. -/
def hit {V : Type} (add : V → V → V) (a : Acc V) (v : Option V) : Option (Acc V) := v.map fun v => (add a.1 v, a.2 + 1)

/-- `wsSpotSize / worldScale`; not finite for scale 0. -/
def spotSize (ws scale : Rat) : Option Rat := if scale = 0 then none else some (ws / scale)

/-- The loop body of `sample`, export/FieldSampler.h:99-121. -/
def sampleField {V : Type} (add : V → V → V) (p : V3q) (a : Acc V) (w : Wrapper V) : Option (Acc V) :=
  (w.toVoxel p).bind fun vsP => if w.vsBounds.contains vsP then hit add a (w.contribution vsP 0) else some a

/-- `sample`, export/FieldSampler.h:93-122. -/
def sample {V : Type} (add : V → V → V) (fs : List (Wrapper V)) (p : V3q) (a : Acc V) : Option (Acc V) :=
  fs.foldlM (sampleField add p) a

/-- The loop body of `sampleMIP`, export/FieldSampler.h:194-218. -/
def sampleFieldMIP {V : Type} (add : V → V → V) (p : V3q) (spot : Rat) (a : Acc V) (w : Wrapper V) :
    Option (Acc V) :=
  (w.toVoxel p).bind fun vsP => if w.vsBounds.contains vsP then
    (spotSize spot w.worldScale).bind fun s => hit add a (w.contribution vsP s) else some a

/-- `sampleMIP`, export/FieldSampler.h:188-219. -/
def sampleMIP {V : Type} (add : V → V → V) (fs : List (Wrapper V)) (p : V3q) (spot : Rat) (a : Acc V) :
    Option (Acc V) :=
  fs.foldlM (sampleFieldMIP add p spot) a

/-- `for (ieval = 0; ieval < neval; ++ieval)`: entry `ieval` of the results is changed by `f`, which gets entry
`ieval` of the points. Accesses outside of the arrays are undefined. -/
def loopPoints {P A : Type} (f : P → A → Option A) (ps : List P) (n : Nat) (st : List A) : Option (List A) :=
  (List.range n).foldlM (fun (st : List A) (i : Nat) => ps[i]?.bind fun p => st[i]?.bind fun a =>
    (f p a).map fun a' => st.set i a') st

/-- The loop body without transform and remapping, export/FieldSampler.h:168-182. -/
def plainPoint {V : Type} (add : V → V → V) (w : Wrapper V) (p : V3q) (a : Acc V) : Option (Acc V) :=
  (w.map.worldToVoxel p).bind fun vsP => if w.vsBounds.contains vsP then hit add a (w.sample vsP 0) else some a

/-- `sampleMultiple`, export/FieldSampler.h:125-185. -/
def sampleMultiple {V : Type} (add : V → V → V) (fs : List (Wrapper V)) (n : Nat) (ps : List V3q)
    (st : List (Acc V)) : Option (List (Acc V)) :=
  fs.foldlM (fun st w =>
    if w.osToWs.isSome || w.remap.isSome then loopPoints (fun p a => sampleField add p a w) ps n st
    else loopPoints (plainPoint add w) ps n st) st

/-- The loop body with the test against the world bounds, export/FieldSampler.h:238-257. -/
def boundedPoint {V : Type} (add : V → V → V) (w : Wrapper V) (op : V → V) (p : V3q × Rat) (a : Acc V) :
    Option (Acc V) :=
  match w.wsBounds, w.wsToVs with
  | some b, some m =>
    if b.contains p.1 then
      (m.multVec p.1).bind fun vsP => if w.vsBounds.contains vsP then
        (spotSize p.2 w.worldScale).bind fun s => hit add a ((w.sample vsP s).map op) else some a
    else some a
  | _, _ => none

/-- The loop body without transform and remapping, export/FieldSampler.h:297-312. -/
def plainPointMIP {V : Type} (add : V → V → V) (w : Wrapper V) (p : V3q × Rat) (a : Acc V) : Option (Acc V) :=
  (w.map.worldToVoxel p.1).bind fun vsP => if w.vsBounds.contains vsP then
    (spotSize p.2 w.worldScale).bind fun s => hit add a (w.sample vsP s) else some a

/-- The loop over the points for one field, export/FieldSampler.h:233-313. -/
def fieldMIPMultiple {V : Type} (add : V → V → V) (w : Wrapper V) (n : Nat) (ps : List (V3q × Rat))
    (st : List (Acc V)) : Option (List (Acc V)) :=
  if w.osToWs.isSome || w.remap.isSome then
    match w.remap with
    | some op =>
      match w.optimise with
      | none => none
      | some true => loopPoints (boundedPoint add w op) ps n st
      | some false => loopPoints (fun p a => sampleFieldMIP add p.1 p.2 a w) ps n st
    | none => loopPoints (fun p a => sampleFieldMIP add p.1 p.2 a w) ps n st
  else loopPoints (plainPointMIP add w) ps n st

/-- `sampleMIPMultiple`, export/FieldSampler.h:222-315; a point with its spot size is one entry of `ps`. -/
def sampleMIPMultiple {V : Type} (add : V → V → V) (fs : List (Wrapper V)) (n : Nat) (ps : List (V3q × Rat))
    (st : List (Acc V)) : Option (List (Acc V)) :=
  fs.foldlM (fun st w => fieldMIPMultiple add w n ps st) st

/-- `FieldGroup::sample(wsP, wsSpotSize, time, result, compOp)`, export/FieldGroup.h:713-743, for scalar values: `avg`
is `compOp == Avg`. -/
def groupSample (fs mips : List (Wrapper Rat)) (p : V3q) (spot : Rat) (avg : Bool) (result : Rat) : Option Rat := do
  let a ← sample (· + ·) fs p (result, 0)
  let a ← sampleMIP (· + ·) mips p spot a
  some (if avg && decide (a.2 > 1) then a.1 / a.2 else a.1)

/-- `PointIsect`, export/FieldGroup.h:1432-1452: every field is tested as many times as there are fields. -/
def intersects {V : Type} (fs : List (Wrapper V)) (p : V3q) : Option Bool :=
  (fs.flatMap fun _ => fs).foldlM (fun (r : Bool) w => (w.toVoxel p).map fun vsP =>
    if w.vsBounds.contains vsP then true else r) false

/-! ## Minimum and maximum -/

/-- What `getMinMax` uses of a scalar field. `cast` is the conversion of a `float` to the type of the field, `store`
the conversion back. -/
structure Source where
  map : Map
  wsToOs : Option M44
  dw : Box3i
  value : V3i → Option Rat
  cast : Rat → Rat
  store : Rat → Rat

/-- `worldToVoxel(mapping, wsBounds, vsBounds)` after `transformBounds`, export/FieldSampler.h:333-340, 375-382. -/
def boundsToVoxel (map : Map) (wsToOs : Option M44) (b : Box3q) : Option Box3q :=
  match wsToOs with
  | some m => (transformBounds m b).bind fun os => boundsThrough map.worldToVoxel os
  | none => boundsThrough map.worldToVoxel b

/-- `Box3i::intersects(box)`. -/
def boxesMeet (a b : Box3i) : Bool :=
  !(decide (b.max.x < a.min.x) || decide (b.min.x > a.max.x) || decide (b.max.y < a.min.y) ||
    decide (b.min.y > a.max.y) || decide (b.max.z < a.min.z) || decide (b.min.z > a.max.z))

/-- The voxels looked at, export/FieldSampler.h:329-341; `none` for the bounds is `isInfinite()`. -/
def Source.region (s : Source) : Option Box3q → Option Box3i
  | none => some s.dw
  | some b => (boundsToVoxel s.map s.wsToOs b).map fun vs => clipBounds (Cont.discreteBounds vs) s.dw

/-- `std::min(a, b)`. -/
def stdMin (a b : Rat) : Rat := if b < a then b else a
/-- `std::max(a, b)`. -/
def stdMax (a b : Rat) : Rat := if a < b then b else a

/-- The loop over the voxels, export/FieldSampler.h:347-355 and 389-397, with `detail::min` and `detail::max`, 24-36. -/
def Source.scan (s : Source) (r : Box3i) (st : Rat × Rat) : Option (Rat × Rat) :=
  (boxLoop r).foldlM (fun (st : Rat × Rat) v => (s.value v).map fun val =>
    (s.store (stdMin val (s.cast st.1)), s.store (stdMax val (s.cast st.2)))) st

/-- `getMinMax`, export/FieldSampler.h:318-357, and `getMinMaxMIP`, 360-399: a field that does not meet the bounds
ends the search. -/
def getMinMax : List Source → Option Box3q → Rat × Rat → Option (Rat × Rat)
  | [], _, st => some st
  | s :: fs, b, st =>
    (s.region b).bind fun r =>
      if b.isSome && !boxesMeet s.dw r then some st
      else (s.scan r st).bind fun st => getMinMax fs b st

/-- A level of a MIP field. -/
structure Level where
  map : Map
  dw : Box3i
  value : V3i → Option Rat

/-- The size test, export/FieldSampler.h:438-439: Imath's `size` of a box is `max - min`, or 0 if it is empty. -/
def small (b : Box3i) : Bool :=
  if b.isEmpty then true
  else decide (max (b.max.x - b.min.x) (max (b.max.y - b.min.y) (b.max.z - b.min.z)) ≤ 2)

/-- The loop choosing a level, export/FieldSampler.h:421-442: the first whose region is small, else the last. -/
def chooseLevel (wsToOs : Option M44) (b : Box3q) : List Level → Option (Level × Box3i)
  | [] => none
  | l :: ls => (boundsToVoxel l.map wsToOs b).bind fun vs =>
    let r := clipBounds (Cont.discreteBounds vs) l.dw
    if small r then some (l, r) else
      match ls with
      | [] => some (l, r)
      | _ :: _ => chooseLevel wsToOs b ls

/-- A MIP field with its levels, the finest first. -/
structure MipSource where
  levels : List Level
  wsToOs : Option M44
  cast : Rat → Rat
  store : Rat → Rat

/-- The level and the voxels looked at, export/FieldSampler.h:411-443. Without levels: with infinite bounds undefined,
else nothing is looked at, which is not modelled. -/
def MipSource.region (s : MipSource) : Option Box3q → Option (Level × Box3i)
  | none => s.levels.getLast?.map fun l => (l, l.dw)
  | some b => chooseLevel s.wsToOs b s.levels

/-- `getMinMaxPrefilt`, export/FieldSampler.h:402-458; `isMin` is the mode. -/
def getMinMaxPrefilt (isMin : Bool) (fs : List MipSource) (b : Option Box3q) (st : Rat) : Option Rat :=
  fs.foldlM (fun st s => (s.region b).bind fun (l, r) =>
    (boxLoop r).foldlM (fun st v => (l.value v).map fun val =>
      s.store (if isMin then stdMin val (s.cast st) else stdMax val (s.cast st))) st) st

end Sampler
end F3D
