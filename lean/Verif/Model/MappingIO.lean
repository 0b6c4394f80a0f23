import Verif.Model.FieldIO
import Verif.Model.Metadata
import Verif.Model.Mapping

/-!
# Reading and writing field mappings

Models src/FieldMappingIO.cpp, and `writeMapping` and `readFieldMapping` of src/Field3DFile.cpp. Files hold the bit
patterns of floating-point numbers; the mappings of `Verif.Model.Mapping` hold their values.
-/

namespace F3D
namespace MappingIO
open Ogawa Og FieldIO Mapping
open Metadata (encWord decWord)

/-! ## Numbers -/

/-- The value of an IEEE 754 binary number with `eb` exponent and `mb` fraction bits; `none` for infinities and NaN. -/
def ieee (eb mb n : Nat) : Option Rat :=
  let frac := n % 2 ^ mb
  let ex := n / 2 ^ mb % 2 ^ eb
  let scale : Rat := 2 ^ (2 ^ (eb - 1) - 1 + mb)
  let sign : Rat := if n / 2 ^ (eb + mb) % 2 = 1 then -1 else 1
  if ex = 2 ^ eb - 1 then none
  else if ex = 0 then some (sign * (frac * 2) / scale)
  else some (sign * ((2 ^ mb + frac) * 2 ^ ex) / scale)

/-- The value of a `float`. -/
def floatVal (w : UInt32) : Option Rat := ieee 8 23 w.toNat
/-- The value of a `double`. -/
def doubleVal (w : UInt64) : Option Rat := ieee 11 52 w.toNat

/-- A row of an `M44d`, bit by bit. -/
structure BRow where
  x : UInt64
  y : UInt64
  z : UInt64
  w : UInt64
deriving DecidableEq, Repr

/-- An `M44d`, bit by bit. -/
structure BMat where
  r0 : BRow
  r1 : BRow
  r2 : BRow
  r3 : BRow
deriving DecidableEq, Repr

def BRow.val (r : BRow) : Option V4q :=
  (doubleVal r.x).bind fun x => (doubleVal r.y).bind fun y => (doubleVal r.z).bind fun z => (doubleVal r.w).map fun w =>
    ⟨x, y, z, w⟩

def BMat.val (m : BMat) : Option M44 :=
  m.r0.val.bind fun a => m.r1.val.bind fun b => m.r2.val.bind fun c => m.r3.val.map fun d => ⟨a, b, c, d⟩

/-- A sample of a matrix curve, `std::pair<float, M44d>`. -/
abbrev BSample := UInt32 × BMat

def sampleVal (s : BSample) : Option (Rat × M44) := (floatVal s.1).bind fun t => s.2.val.map fun m => (t, m)

/-- The values of the samples of a curve; `none` if one is not finite. -/
def curveVal (l : List BSample) : Option (Curve M44) := l.mapM sampleVal

/-! ## Bytes -/

/-- `double` in memory. -/
def encDouble (w : UInt64) : List UInt8 := le64 w.toNat
def decDouble (bs : List UInt8) : UInt64 := UInt64.ofNat (unle bs)

/-- `mtx64_t` in memory: the rows one after the other. -/
def encRow (r : BRow) : List UInt8 := encDouble r.x ++ encDouble r.y ++ encDouble r.z ++ encDouble r.w
def decRow (bs : List UInt8) : BRow :=
  ⟨decDouble (bs.take 8), decDouble ((bs.drop 8).take 8), decDouble ((bs.drop 16).take 8), decDouble ((bs.drop 24).take 8)⟩
def encMat (m : BMat) : List UInt8 := encRow m.r0 ++ encRow m.r1 ++ encRow m.r2 ++ encRow m.r3
def decMat (bs : List UInt8) : BMat :=
  ⟨decRow (bs.take 32), decRow ((bs.drop 32).take 32), decRow ((bs.drop 64).take 32), decRow ((bs.drop 96).take 32)⟩

/-! ## Names -/

/-- `boost::lexical_cast<string>(i)`. -/
def decimal (i : Nat) : Name := ascii (Nat.toDigits 10 i)

/-- src/FieldMappingIO.cpp:64-83. -/
def kNullData : Name :=
  ascii ['N', 'u', 'l', 'l', 'F', 'i', 'e', 'l', 'd', 'M', 'a', 'p', 'p', 'i', 'n', 'g', ' ', 'd', 'a', 't', 'a']
def kMatrixData : Name :=
  ascii ['M', 'a', 't', 'r', 'i', 'x', 'F', 'i', 'e', 'l', 'd', 'M', 'a', 'p', 'p', 'i', 'n', 'g', ' ', 'd', 'a',
    't', 'a']
def kNumSamples : Name := ascii ['n', 'u', 'm', '_', 't', 'i', 'm', 'e', '_', 's', 'a', 'm', 'p', 'l', 'e', 's']
def kZDist : Name := ascii ['z', '_', 'd', 'i', 's', 't', 'r', 'i', 'b', 'u', 't', 'i', 'o', 'n']
def timeName (i : Nat) : Name := ascii ['t', 'i', 'm', 'e', '_'] ++ decimal i
def matrixName (i : Nat) : Name := ascii ['m', 'a', 't', 'r', 'i', 'x', '_'] ++ decimal i
def screenName (i : Nat) : Name :=
  ascii ['s', 'c', 'r', 'e', 'e', 'n', '_', 't', 'o', '_', 'w', 'o', 'r', 'l', 'd', '_'] ++ decimal i
def cameraName (i : Nat) : Name :=
  ascii ['c', 'a', 'm', 'e', 'r', 'a', '_', 't', 'o', '_', 'w', 'o', 'r', 'l', 'd', '_'] ++ decimal i
def nullText : List UInt8 :=
  ascii ['N', 'u', 'l', 'l', 'F', 'i', 'e', 'l', 'd', 'M', 'a', 'p', 'p', 'i', 'n', 'g', ' ', 'h', 'a', 's', ' ',
    'n', 'o', ' ', 'd', 'a', 't', 'a']
def nullClass : Name := ascii ['N', 'u', 'l', 'l', 'F', 'i', 'e', 'l', 'd', 'M', 'a', 'p', 'p', 'i', 'n', 'g']
def matrixClass : Name :=
  ascii ['M', 'a', 't', 'r', 'i', 'x', 'F', 'i', 'e', 'l', 'd', 'M', 'a', 'p', 'p', 'i', 'n', 'g']
def frustumClass : Name :=
  ascii ['F', 'r', 'u', 's', 't', 'u', 'm', 'F', 'i', 'e', 'l', 'd', 'M', 'a', 'p', 'p', 'i', 'n', 'g']
/-- src/Field3DFile.cpp:90-94. -/
def kMapping : Name := ascii ['m', 'a', 'p', 'p', 'i', 'n', 'g']
def kMappingType : Name := ascii ['m', 'a', 'p', 'p', 'i', 'n', 'g', '_', 't', 'y', 'p', 'e']

/-! ## Ogawa -/

/-- `NullFieldMappingIO::write(OgOGroup)`, src/FieldMappingIO.cpp:128-134. -/
def nullEntries : List Entry := [.attribute kNullData .string nullText]

/-- The loop of `MatrixFieldMappingIO::write(OgOGroup)`, src/FieldMappingIO.cpp:319-328, from sample `i`. -/
def matrixSampleEntries (i : Nat) : List BSample → List Entry
  | [] => []
  | s :: l => .attribute (timeName i) .float32 (encWord s.1) :: .attribute (matrixName i) .mtx64 (encMat s.2) ::
      matrixSampleEntries (i + 1) l

/-- `MatrixFieldMappingIO::write(OgOGroup)`, src/FieldMappingIO.cpp:296-331. -/
def matrixEntries (samples : List BSample) : List Entry :=
  .attribute kNumSamples .int32 (encInt samples.length) :: matrixSampleEntries 0 samples

/-- The loop of `FrustumFieldMappingIO::write(OgOGroup)`, src/FieldMappingIO.cpp:581-593, from sample `i`; `cs` are the
camera samples from `i` on. A camera sample beyond the end of the vector is undefined (`none`). -/
def frustumSampleEntries (i : Nat) : List BSample → List BSample → Option (List Entry)
  | [], _ => some []
  | _ :: _, [] => none
  | s :: ss, c :: cs => (frustumSampleEntries (i + 1) ss cs).map fun es =>
      .attribute (timeName i) .float32 (encWord s.1) :: .attribute (screenName i) .mtx64 (encMat s.2) ::
      .attribute (cameraName i) .mtx64 (encMat c.2) :: es

/-- `ZDistribution` as an `int`, export/FieldMapping.h:585-588. -/
def distCode : ZDist → Int
  | .perspective => 0
  | .uniform => 1

/-- The cast back; other numbers are left out. -/
def distOf (i : Int) : Option ZDist := if i = 0 then some .perspective else if i = 1 then some .uniform else none

/-- `FrustumFieldMappingIO::write(OgOGroup)`, src/FieldMappingIO.cpp:556-603. -/
def frustumEntries (ss cs : List BSample) (dist : ZDist) : Option (List Entry) :=
  (frustumSampleEntries 0 ss cs).map fun es =>
    .attribute kNumSamples .int32 (encInt ss.length) :: (es ++ [.attribute kZDist .int32 (encInt (distCode dist))])

/-- An attribute that is not valid makes the reader return a null pointer. -/
def orNull (r : Res (List UInt8)) : Res (List UInt8) :=
  match r with
  | .exception => .null
  | r => r

/-- The loop of `MatrixFieldMappingIO::read(OgIGroup)`, src/FieldMappingIO.cpp:224-241: `n` samples from `i` on. -/
def readMatrixSamples (kids : List Tree) (i : Nat) : Nat → Res (List BSample)
  | 0 => .ok []
  | n + 1 =>
    (orNull (attr .float32 (timeName i) kids)).bind fun t =>
    (orNull (attr .mtx64 (matrixName i) kids)).bind fun m =>
    (readMatrixSamples kids (i + 1) n).bind fun l => .ok ((decWord t, decMat m) :: l)

/-- The mapping made by `setLocalToWorld(time, mtx)` for each sample. -/
def matrixOf (samples : Curve M44) : Matrix :=
  samples.foldl (fun m s => m.setLocalToWorldAt s.1 s.2) (Matrix.new Frame.default)

/-- `MatrixFieldMappingIO::read(OgIGroup)`, src/FieldMappingIO.cpp:203-245. The inner `none`: a number is not
finite. -/
def readMatrix (kids : List Tree) : Res (Option Matrix) :=
  (orNull (attr .int32 kNumSamples kids)).bind fun n =>
  (readMatrixSamples kids 0 (decInt n).toNat).bind fun l => .ok ((curveVal l).map matrixOf)

/-- One sample of a frustum. -/
abbrev FSample := UInt32 × BMat × BMat

/-- The loop of `FrustumFieldMappingIO::read(OgIGroup)`, src/FieldMappingIO.cpp:436-464. -/
def readFrustumSamples (kids : List Tree) (i : Nat) : Nat → Res (List FSample)
  | 0 => .ok []
  | n + 1 =>
    (orNull (attr .float32 (timeName i) kids)).bind fun t =>
    (orNull (attr .mtx64 (screenName i) kids)).bind fun s =>
    (orNull (attr .mtx64 (cameraName i) kids)).bind fun c =>
    (readFrustumSamples kids (i + 1) n).bind fun l => .ok ((decWord t, decMat s, decMat c) :: l)

def fsampleVal (s : FSample) : Option (Rat × M44 × M44) :=
  (floatVal s.1).bind fun t => s.2.1.val.bind fun a => s.2.2.val.map fun b => (t, a, b)

/-- The mapping made by `setTransforms(time, ssMtx, csMtx)` for each sample and `setZDistribution`; `none` if a number
is not finite. -/
def frustumOf (invTan : Rat) (samples : List FSample) (dist : Option ZDist) : Option Frustum :=
  (samples.mapM fsampleVal).bind fun calls =>
  (Frustum.new invTan).bind fun m =>
  (calls.foldlM (fun (m : Frustum) c => m.setTransformsAt c.1 c.2.1 c.2.2) m).map fun m => { m with zDist := dist }

/-- `FrustumFieldMappingIO::read(OgIGroup)`, src/FieldMappingIO.cpp:413-486: the number of samples is looked up but
`numSamples` stays 0. -/
def readFrustum (invTan : Rat) (kids : List Tree) : Res (Option Frustum) :=
  (orNull (attr .int32 kNumSamples kids)).bind fun _ =>
  (readFrustumSamples kids 0 0).bind fun l =>
  (orNull (attr .int32 kZDist kids)).bind fun d => .ok (frustumOf invTan l (distOf (decInt d)))

/-- A mapping of one of the three classes. -/
inductive Loaded where
  | null
  | matrix (m : Matrix)
  | frustum (m : Frustum)

/-- The entries of the group "mapping", `Field3DOutputFile::writeMapping`, src/Field3DFile.cpp:1013-1041. -/
def mappingEntries (cls : Name) (es : List Entry) : List Entry := .attribute kMappingType .string cls :: es

/-- `attr` for strings: a string attribute has no size to check. -/
def strAttr (nm : Name) (kids : List Tree) : Res (List UInt8) :=
  match findTyped .attribute .string nm kids with
  | none => .crash
  | some none => .null
  | some (some a) =>
    match attributeValue .string (some a) with
    | none => .crash
    | some none => .ok []
    | some (some v) => .ok v

/-- `readFieldMapping`, src/Field3DFile.cpp:190-217, with `NullFieldMappingIO::read(OgIGroup)`,
src/FieldMappingIO.cpp:100-111. Only the three classes registered by `initIO`. -/
def readMapping (invTan : Rat) (kids : List Tree) : Res (Option Loaded) :=
  (strAttr kMappingType kids).bind fun cls =>
  if cls = nullClass then (strAttr kNullData kids).bind fun _ => .ok (some .null)
  else if cls = matrixClass then (readMatrix kids).bind fun m => .ok (m.map .matrix)
  else if cls = frustumClass then (readFrustum invTan kids).bind fun m => .ok (m.map .frustum)
  else .null

/-! ## HDF5

A group is the list of its attributes; HDF5 itself is not modelled. Reading an attribute that is missing or of
another type or size throws. -/

/-- Attributes with their type and size. -/
inductive HVal where
  | int (v : Int)
  | float (v : UInt32)
  | array16 (v : BMat)
  | array4x4 (v : BMat)
deriving DecidableEq, Repr

abbrev HGroup := List (Name × HVal)

def hget (g : HGroup) (nm : Name) : Option HVal := (g.find? fun p => p.1 = nm).map (·.2)

def hgetInt (g : HGroup) (nm : Name) : Option Int :=
  match hget g nm with | some (.int v) => some v | _ => none
def hgetFloat (g : HGroup) (nm : Name) : Option UInt32 :=
  match hget g nm with | some (.float v) => some v | _ => none
def hget16 (g : HGroup) (nm : Name) : Option BMat :=
  match hget g nm with | some (.array16 v) => some v | _ => none
def hget4x4 (g : HGroup) (nm : Name) : Option BMat :=
  match hget g nm with | some (.array4x4 v) => some v | _ => none

def orThrow {T : Type} (r : Option T) : Res T :=
  match r with
  | none => .exception
  | some v => .ok v

/-- The loop of `MatrixFieldMappingIO::write(hid_t)`, src/FieldMappingIO.cpp:275-289. -/
def hMatrixSamples (i : Nat) : List BSample → HGroup
  | [] => []
  | s :: l => (timeName i, .float s.1) :: (matrixName i, .array4x4 s.2) :: hMatrixSamples (i + 1) l

/-- `MatrixFieldMappingIO::write(hid_t)`, src/FieldMappingIO.cpp:249-292. -/
def hWriteMatrix (samples : List BSample) : HGroup := (kNumSamples, .int samples.length) :: hMatrixSamples 0 samples

/-- The loop of `MatrixFieldMappingIO::read(hid_t)`, src/FieldMappingIO.cpp:180-195. -/
def hReadMatrixSamples (g : HGroup) (i : Nat) : Nat → Res (List BSample)
  | 0 => .ok []
  | n + 1 =>
    (orThrow (hgetFloat g (timeName i))).bind fun t =>
    (orThrow (hget4x4 g (matrixName i))).bind fun m =>
    (hReadMatrixSamples g (i + 1) n).bind fun l => .ok ((t, m) :: l)

/-- `MatrixFieldMappingIO::read(hid_t)`, src/FieldMappingIO.cpp:147-199: the old format has one matrix; a missing
number of samples counts as 0. -/
def hReadMatrix (g : HGroup) : Res (Option Matrix) :=
  match hget16 g kMatrixData with
  | some m => .ok (m.val.map fun x => (Matrix.new Frame.default).setLocalToWorld x)
  | none =>
    (hReadMatrixSamples g 0 ((hgetInt g kNumSamples).getD 0).toNat).bind fun l => .ok ((curveVal l).map matrixOf)

/-- The loop of `FrustumFieldMappingIO::write(hid_t)`, src/FieldMappingIO.cpp:517-539. -/
def hFrustumSamples (i : Nat) : List BSample → List BSample → Option HGroup
  | [], _ => some []
  | _ :: _, [] => none
  | s :: ss, c :: cs => (hFrustumSamples (i + 1) ss cs).map fun g =>
      (timeName i, .float s.1) :: (screenName i, .array4x4 s.2) :: (cameraName i, .array4x4 c.2) :: g

/-- `FrustumFieldMappingIO::write(hid_t)`, src/FieldMappingIO.cpp:490-552. -/
def hWriteFrustum (ss cs : List BSample) (dist : ZDist) : Option HGroup :=
  (hFrustumSamples 0 ss cs).map fun g => (kNumSamples, .int ss.length) :: (g ++ [(kZDist, .int (distCode dist))])

/-- The loop of `FrustumFieldMappingIO::read(hid_t)`, src/FieldMappingIO.cpp:366-387. -/
def hReadFrustumSamples (g : HGroup) (i : Nat) : Nat → Res (List FSample)
  | 0 => .ok []
  | n + 1 =>
    (orThrow (hgetFloat g (timeName i))).bind fun t =>
    (orThrow (hget4x4 g (screenName i))).bind fun s =>
    (orThrow (hget4x4 g (cameraName i))).bind fun c =>
    (hReadFrustumSamples g (i + 1) n).bind fun l => .ok ((t, s, c) :: l)

/-- `FrustumFieldMappingIO::read(hid_t)`, src/FieldMappingIO.cpp:343-409: a missing number of samples counts as 0, a
missing distribution as perspective. -/
def hReadFrustum (invTan : Rat) (g : HGroup) : Res (Option Frustum) :=
  (hReadFrustumSamples g 0 ((hgetInt g kNumSamples).getD 0).toNat).bind fun l =>
    .ok (frustumOf invTan l (match hgetInt g kZDist with | some d => distOf d | none => some .perspective))

end MappingIO
end F3D
