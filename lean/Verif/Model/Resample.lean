import Verif.Model.Dense
import Verif.Model.Sparse
import Verif.Model.Loops

/-!
# Resampling and MIP filtering

Models export/Resample.h, src/Resample.cpp, export/MIPUtil.h and src/MIPUtil.cpp for `DenseField`s of numbers, and the
test of `checkInputEmpty` for `SparseField`s. Floating-point arithmetic is exact, except for the conversion of the
resolution in `mipResolution`.
-/

namespace F3D
namespace Resample

/-! ## Filters -/

/-- What a filter does with the values it reads: `isAnalytic` and `op`, export/Resample.h:119,142-144 (weighted),
159,195-199 (`MinFilter`), 215,252-256 (`MaxFilter`). The number is `initialValue()`, 182-185, 238-241. -/
inductive Op where
  | weighted
  | least (init : Rat)
  | greatest (init : Rat)
deriving DecidableEq, Repr

/-- A filter: `eval`, `support()` and its kind. -/
structure Filter where
  eval : Rat → Rat
  support : Rat
  op : Op

/-- `BoxFilter::eval`, also of `MinFilter` and `MaxFilter`, export/Resample.h:129-137,169-177,225-233. -/
def boxEval (width x : Rat) : Rat := if x / width ≤ 1 / 2 then 1 else 0

/-- `BoxFilter`, export/Resample.h:113-147. -/
def boxFilter (width : Rat) : Filter := ⟨boxEval width, 1 / 2 * width, .weighted⟩

/-- `std::numeric_limits<float>::max()`. -/
def floatMax : Rat := (2 ^ 24 - 1) * 2 ^ 104

/-- `MinFilter`, export/Resample.h:153-203. -/
def minFilter (width : Rat) : Filter := ⟨boxEval width, 1 / 2 * width, .least floatMax⟩

/-- `MaxFilter`, export/Resample.h:209-260. -/
def maxFilter (width : Rat) : Filter := ⟨boxEval width, 1 / 2 * width, .greatest (-floatMax)⟩

/-- `TriangleFilter`, export/Resample.h:266-299. -/
def triangleFilter (width : Rat) : Filter :=
  ⟨fun x => if x / width > 1 then 0 else 1 - x / width, 1 * width, .weighted⟩

/-- `GaussianFilter`, export/Resample.h:305-334; `g` is `eval`, which takes an exponential. -/
def gaussianFilter (width : Rat) (g : Rat → Rat) : Filter := ⟨g, 2 * width, .weighted⟩

/-- `MitchellFilter`, export/Resample.h:340-378. -/
def mitchellFilter (width b c : Rat) : Filter :=
  ⟨fun x =>
    let ax := if x / width < 0 then -(x / width) else x / width
    if ax < 1 then
      ((12 - 9 * b - 6 * c) * ax * ax * ax + (-18 + 12 * b + 6 * c) * ax * ax + (6 - 2 * b)) / 6
    else if ax < 2 then
      ((-b - 6 * c) * ax * ax * ax + (6 * b + 30 * c) * ax * ax + (-12 * b - 48 * c) * ax + (8 * b + 24 * c)) / 6
    else 0, 2 * width, .weighted⟩

/-! ## One line of voxels -/

/-- The loop over source voxels of a weighted filter, export/Resample.h:480-494 and export/MIPUtil.h:298-313: the sums
of weights and of weighted values. -/
def accumWeighted (weight : Int → Rat) (rd : Int → Option Rat) : List Int → Rat × Rat → Option (Rat × Rat)
  | [], acc => some acc
  | s :: l, acc =>
    match rd s with
    | none => none
    | some v => accumWeighted weight rd l (acc.1 + weight s, acc.2 + v * weight s)

/-- The loop of a min or max filter, export/Resample.h:447-462 and export/MIPUtil.h:261-277. -/
def accumAnalytic (op : Rat → Rat → Rat) (weight : Int → Rat) (rd : Int → Option Rat) :
    List Int → Rat → Option Rat
  | [], acc => some acc
  | s :: l, acc =>
    match rd s with
    | none => none
    | some v => accumAnalytic op weight rd l (if weight s > 0 then op acc v else acc)

/-- The value of a target voxel, export/Resample.h:434-499 and export/MIPUtil.h:246-319: `lo` and `hi` are the first and
last source voxel. Outer `none`: a read is undefined; inner `none`: the target voxel is not written. -/
def lineValue (flt : Filter) (weight : Int → Rat) (rd : Int → Option Rat) (lo hi : Int) : Option (Option Rat) :=
  match flt.op with
  | .weighted =>
    (accumWeighted weight rd (forRange lo hi) (0, 0)).map fun acc =>
      if acc.1 > 0 ∧ acc.2 ≠ 0 then some (acc.2 / acc.1) else none
  | .least i => (accumAnalytic min weight rd (forRange lo hi) i).map fun acc => if acc ≠ i then some acc else none
  | .greatest i => (accumAnalytic max weight rd (forRange lo hi) i).map fun acc => if acc ≠ i then some acc else none

/-- `dim`, export/MIPUtil.h:194. -/
inductive Axis where
  | x
  | y
  | z
deriving DecidableEq, Repr

/-- `p[dim]`, export/MIPUtil.h:249. -/
def Axis.get (a : Axis) (p : V3i) : Int := match a with | .x => p.x | .y => p.y | .z => p.z

/-- The voxel with the index along `dim` replaced, as in export/MIPUtil.h:263-265. -/
def Axis.set (a : Axis) (p : V3i) (s : Int) : V3i :=
  match a with | .x => ⟨s, p.y, p.z⟩ | .y => ⟨p.x, s, p.z⟩ | .z => ⟨p.x, p.y, s⟩

/-- `std::abs`, export/MIPUtil.h:269. -/
def absQ (x : Rat) : Rat := if x < 0 then -x else x

/-- `discToCont`, export/MIPUtil.h:267. -/
def mid (i : Int) : Rat := (i : Rat) + 1 / 2

/-- The box of `setSize(res)`, export/Field.h:912-927. -/
def boxOf (res : V3i) : Box3i := ⟨V3i.all 0, res - V3i.all 1⟩

/-- `fastLValue(p) = v` if there is a value, export/MIPUtil.h:279-282,315-318. -/
def store (f : Dense Rat) (p : V3i) : Option Rat → Option (Dense Rat)
  | none => some f
  | some v => f.write p v

/-- A loop that gives voxels their values: `val p` is the value of voxel `p`. -/
def fill (val : V3i → Option (Option Rat)) : List V3i → Dense Rat → Option (Dense Rat)
  | [], f => some f
  | p :: l, f => ((val p).bind (store f p)).bind (fill val l)

/-- What a pass over a field can end with. -/
inductive Result (T : Type) where
  | undef
  | resizeException
  | ok (v : T)

def Result.bind {T U : Type} (r : Result T) (f : T → Result U) : Result U :=
  match r with
  | .undef => .undef
  | .resizeException => .resizeException
  | .ok v => f v

/-- `tgt.setSize(res)` followed by a loop. -/
def sized (res : V3i) (val : V3i → Option (Option Rat)) (order : List V3i) : Result (Dense Rat) :=
  match Dense.setSize (0 : Rat) (boxOf res) (boxOf res) with
  | .resizeException => .resizeException
  | .ok f => match fill val order f with
    | none => .undef
    | some g => .ok g

/-! ## Resampling -/

/-- `srcSupportBBox` for one axis, src/Resample.cpp:82-99; `ratio` is `tgtSize / srcSize`. -/
def supportInterval (tgtP support ratio : Rat) (upres : Bool) : Int × Int :=
  if upres then ((tgtP * ratio - support).floor, (tgtP * ratio + support).ceil - 1)
  else (((tgtP - support) * ratio).floor, ((tgtP + support) * ratio).ceil)

/-- `getDist` for one axis, src/Resample.cpp:121-131. -/
def getDist (upres : Bool) (srcP tgtP ratio : Rat) : Rat :=
  if upres then absQ (tgtP * ratio - srcP) else absQ (srcP / ratio - tgtP)

/-- The value of target voxel `p` in `separable`, export/Resample.h:415-425,434-499. -/
def separableValue (flt : Filter) (src : Dense Rat) (newRes : V3i) (a : Axis) (p : V3i) : Option (Option Rat) :=
  let srcRes := src.dw.size + V3i.all 1
  let ratio : Rat := (a.get srcRes : Rat) / (a.get newRes : Rat)
  let upres := decide (a.get newRes > a.get srcRes)
  let tgtP := mid (a.get p)
  let interval := supportInterval tgtP flt.support ratio upres
  lineValue flt (fun s => flt.eval (getDist upres (mid s) tgtP ratio)) (fun s => src.value (a.set p s))
    (max interval.1 (a.get src.dw.min)) (min interval.2 (a.get src.dw.max))

/-- `separable`, export/Resample.h:409-503. -/
def separable (flt : Filter) (src : Dense Rat) (newRes : V3i) (a : Axis) : Result (Dense Rat) :=
  sized newRes (separableValue flt src newRes a) (boxLoop (boxOf newRes))

/-- `Box3i::hasVolume`, Imath. -/
def hasVolume (b : Box3i) : Bool := decide (b.max.x > b.min.x) && decide (b.max.y > b.min.y) && decide (b.max.z > b.min.z)

/-- `separableResample`, export/Resample.h:510-549, also `resample`, 559-564: `none` is the return value `false`. Name,
attribute, mapping and metadata are left out. -/
def resample (flt : Filter) (src : Dense Rat) (newRes : V3i) : Result (Option (Dense Rat)) :=
  if hasVolume src.dw = false then .ok none
  else if src.dw.min ≠ V3i.all 0 then .ok none
  else
    let oldRes := src.dw.size + V3i.all 1
    (separable flt src ⟨newRes.x, oldRes.y, oldRes.z⟩ .x).bind fun t1 =>
    (separable flt t1 ⟨newRes.x, newRes.y, oldRes.z⟩ .y).bind fun t2 =>
    (separable flt t2 newRes .z).bind fun t3 => .ok (some t3)

/-! ## MIP levels -/

/-- `mipResolution`, src/MIPUtil.cpp:70-77, for one axis: the resolution is converted to `float`; the product with the
power of two and the ceiling are exact. -/
def mipRes1 (baseRes : Int) (level : Nat) (add : Int) : Int :=
  ((toFloat32 baseRes.toNat + (2 ^ level - 1)) / 2 ^ level : Nat) + add

def mipResolution (baseRes : V3i) (level : Nat) (add : V3i) : V3i :=
  ⟨mipRes1 baseRes.x level add.x, mipRes1 baseRes.y level add.y, mipRes1 baseRes.z level add.z⟩

/-- `add` in `mipResample`, export/MIPUtil.h:429-431. -/
def addOf (offset : V3i) : V3i :=
  ⟨if offset.x % 2 = 0 then 0 else 1, if offset.y % 2 = 0 then 0 else 1, if offset.z % 2 = 0 then 0 else 1⟩

/-- The source interval of a MIP pass, export/MIPUtil.h:252-256 and 289-293, before clamping. -/
def mipInterval (support : Rat) (curSrc : Rat) : Int × Int :=
  ((curSrc - support * 2).floor, (curSrc + support * 2).ceil - 1)

/-- `curSrc`, export/MIPUtil.h:250,287. -/
def curSrc (i add : Int) : Rat := mid i * 2 - add

/-- The value of target voxel `p`, export/MIPUtil.h:246-319, for a source with data window `dw` read by `rd`. -/
def mipValue (flt : Filter) (dw : Box3i) (rd : V3i → Option Rat) (add : V3i) (a : Axis) (p : V3i) :
    Option (Option Rat) :=
  let c := curSrc (a.get p) (a.get add)
  let interval := mipInterval flt.support c
  lineValue flt (fun s => flt.eval (absQ (mid s - c) * (1 / 2))) (fun s => rd (a.set p s))
    (max interval.1 (a.get dw.min)) (min interval.2 (a.get dw.max))

/-- The resolution after a pass, export/MIPUtil.h:364-372. -/
def passRes (a : Axis) (oldRes newRes : V3i) : V3i :=
  match a with
  | .z => newRes
  | .y => ⟨newRes.x, newRes.y, oldRes.z⟩
  | .x => ⟨newRes.x, oldRes.y, oldRes.z⟩

/-- The start positions of the loops of export/MIPUtil.h:382-384. -/
def starts (res : Int) (bs : Nat) : List Int := (List.range ((res.toNat + (bs - 1)) / bs)).map fun (n : Nat) => (n : Int) * bs

/-- The block list, export/MIPUtil.h:380-397. -/
def workBlocks (res : V3i) (bs : Nat) : List Box3i :=
  (starts res.z bs).flatMap fun k => (starts res.y bs).flatMap fun j => (starts res.x bs).map fun i =>
    ⟨⟨i, j, k⟩, ⟨min (i + (bs - 1)) (res.x - 1), min (j + (bs - 1)) (res.y - 1), min (k + (bs - 1)) (res.z - 1)⟩⟩

/-- `mipSeparable`, export/MIPUtil.h:353-416, for dense fields with the blocks processed one after the other;
`Verif.Model.MipThreads` has the threads. `threadingBlockSize` is 16, lines 119-124. -/
def mipSeparable (flt : Filter) (src : Dense Rat) (oldRes newRes add : V3i) (a : Axis) : Result (Dense Rat) :=
  let res := passRes a oldRes newRes
  sized res (mipValue flt src.dw src.value add a) ((workBlocks res 16).flatMap boxLoop)

/-- `mipResample`, export/MIPUtil.h:420-457. Name, attribute, mapping and metadata are left out. -/
def mipResample (flt : Filter) (base src : Dense Rat) (level : Nat) (offset : V3i) : Result (Dense Rat) :=
  let add := addOf offset
  let newRes := mipResolution (base.dw.size + V3i.all 1) level add
  let srcRes := src.dw.size + V3i.all 1
  (mipSeparable flt src srcRes newRes add .x).bind fun t1 =>
  (mipSeparable flt t1 srcRes newRes add .y).bind fun t2 =>
  mipSeparable flt t2 srcRes newRes add .z

/-- The offset of the next level, export/MIPUtil.h:526-532. -/
def halfOff (o : Int) : Int := if o < 0 then (o - 1).tdiv 2 else o.tdiv 2

def nextOff (o : V3i) : V3i := ⟨halfOff o.x, halfOff o.y, halfOff o.z⟩

/-- The condition of the loop of `makeMIP`, export/MIPUtil.h:515-516. -/
def goOn (minSize : Int) (res : V3i) : Bool :=
  (decide (res.x > minSize) || decide (res.y > minSize) || decide (res.z > minSize)) &&
  (decide (res.x > 2) && decide (res.y > 2) && decide (res.z > 2))

/-- The loop of `makeMIP`, export/MIPUtil.h:514-534, making at most `fuel` levels: the levels after `last`. The inner
`none`: the fuel did not suffice. -/
def mipLoop (flt : Filter) (base : Dense Rat) (minSize : Int) :
    (fuel : Nat) → (last : Dense Rat) → (level : Nat) → (res offset : V3i) → Result (Option (List (Dense Rat)))
  | 0, _, _, res, _ => if goOn minSize res then .ok none else .ok (some [])
  | n + 1, last, level, res, offset =>
    if goOn minSize res then
      (mipResample flt base last level offset).bind fun next =>
      (mipLoop flt base minSize n next (level + 1) (next.dw.size + V3i.all 1) (nextOff offset)).bind fun l =>
      .ok (l.map (next :: ·))
    else .ok (some [])

/-- The comparison of sizes in `sanityChecks`, export/MIPField.h:735-757: whether the rest is accepted after `prev`. -/
def decreasing (prev : V3i) : List V3i → Bool
  | [] => true
  | s :: l =>
    if s.x > prev.x ∨ s.y > prev.y ∨ s.z > prev.z then false
    else if s.x ≥ prev.x ∧ s.y ≥ prev.y ∧ s.z ≥ prev.z then false
    else decreasing s l

/-- `sanityChecks`, export/MIPField.h:718-758: whether the fields are accepted. -/
def sane : List (Dense Rat) → Bool
  | [] => false
  | f :: l => decreasing f.extents.size (l.map fun (g : Dense Rat) => g.extents.size)

/-- What `makeMIP` can end with. -/
inductive Made where
  | undef
  | resizeException
  | running
  | nullPtr
  | mipException
  | ok (levels : List (Dense Rat))

/-- `makeMIP`, export/MIPUtil.h:488-544, with `setup`, export/MIPField.h:399-422. -/
def makeMIP (flt : Filter) (base : Dense Rat) (minSize : Int) (offset : V3i) (fuel : Nat) : Made :=
  if base.extents ≠ base.dw then .nullPtr
  else match mipLoop flt base minSize fuel base 1 (base.extents.size + V3i.all 1) offset with
    | .undef => .undef
    | .resizeException => .resizeException
    | .ok none => .running
    | .ok (some l) => if sane (base :: l) then .ok (base :: l) else .mipException

/-! ## Skipping empty input -/

/-- `pad` of `checkInputEmpty`, export/MIPUtil.h:141-142. -/
def padOf (support : Rat) : Int := max 0 (support * (1 / 2)).ceil

/-- The padded source box of `checkInputEmpty`, export/MIPUtil.h:143-148. -/
def sourceBox (tgtBox : Box3i) (support : Rat) (a : Axis) : Box3i :=
  ⟨a.set tgtBox.min ((a.get tgtBox.min - padOf support) * 2), a.set tgtBox.max ((a.get tgtBox.max + padOf support) * 2)⟩

/-- `blockCoords`, export/SparseField.h:676-699: `none` is the empty box. -/
def blockCoords (f : Sparse Rat) (b : Box3i) : Option Box3i :=
  if b.max.x + 1 > b.min.x ∧ b.max.y + 1 > b.min.y ∧ b.max.z + 1 > b.min.z then
    some ⟨f.blockCoord (f.offsetCoord b.min), f.blockCoord (f.offsetCoord b.max)⟩
  else none

/-- The loop over blocks of `checkInputEmpty`, export/MIPUtil.h:157-170; `none`: a block index is out of range. -/
def allEmpty (f : Sparse Rat) : List V3i → Option Bool
  | [] => some true
  | b :: l =>
    match f.blockIsAllocated b, f.getBlockEmptyValue b with
    | some al, some e => if al || decide (e ≠ 0) then some false else allEmpty f l
    | _, _ => none

/-- `checkInputEmpty` for sparse fields, export/MIPUtil.h:135-171. -/
def checkInputEmpty (src : Sparse Rat) (tgtBox : Box3i) (support : Rat) (a : Axis) : Option Bool :=
  match blockCoords src (clipBounds (sourceBox tgtBox support a) src.dw) with
  | none => some true
  | some b => allEmpty src (boxLoop b)

end Resample
end F3D
