import Verif.Spec.Ogawa

/-!
# F3D groups, attributes and datasets on top of Ogawa

Models include/OgOGroup.h, OgOAttribute.h, OgODataset.h (writers) and src/OgIGroup.cpp, src/OgUtil.cpp,
include/OgIAttribute.h, OgIDataset.h, OgUtil.h (readers). An Ogawa group is the list of its children, a
`List Tree`: C30 shows that the tree written is the tree read. Strings are lists of bytes.

Reading a child that is missing gives a null data pointer. `readData` and `readDataType` dereference it
without a test; that outcome is `none` in the outermost option of the functions below ("crash").
-/

namespace F3D
namespace Og
open Ogawa

abbrev Name := List UInt8

/-- `OgGroupType`, include/OgUtil.h:41-46. -/
inductive Kind where
  | group | attribute | dataset | compressed
deriving DecidableEq, Repr

def Kind.code : Kind → Nat
  | .group => 0
  | .attribute => 1
  | .dataset => 2
  | .compressed => 3

/-- `OgDataType`, export/Traits.h:125-158, and the element sizes of the C++ types the traits of
include/OgUtil.h:72-88 map to it. -/
inductive DataType where
  | int8 | uint8 | int16 | uint16 | int32 | uint32 | int64 | uint64
  | float16 | float32 | float64 | vec16 | vec32 | vec64 | veci32 | mtx64 | string
deriving DecidableEq, Repr

def DataType.code : DataType → Nat
  | .int8 => 0 | .uint8 => 1 | .int16 => 2 | .uint16 => 3 | .int32 => 4 | .uint32 => 5 | .int64 => 6 | .uint64 => 7
  | .float16 => 8 | .float32 => 9 | .float64 => 10 | .vec16 => 11 | .vec32 => 12 | .vec64 => 13 | .veci32 => 14
  | .mtx64 => 15 | .string => 16

/-- `sizeof`. -/
def DataType.bytes : DataType → Nat
  | .int8 => 1 | .uint8 => 1 | .int16 => 2 | .uint16 => 2 | .int32 => 4 | .uint32 => 4 | .int64 => 8 | .uint64 => 8
  | .float16 => 2 | .float32 => 4 | .float64 => 8 | .vec16 => 6 | .vec32 => 12 | .vec64 => 24 | .veci32 => 12
  | .mtx64 => 128 | .string => 0

/-- A 32-bit enumeration value in memory. -/
def le32 (n : Nat) : List UInt8 :=
  [UInt8.ofNat n, UInt8.ofNat (n / 256), UInt8.ofNat (n / 256 ^ 2), UInt8.ofNat (n / 256 ^ 3)]

/-! ## Writer -/

/-- Children made by `OGroup::addData`: two for zero-length data, see C33. -/
def blob (bs : List UInt8) : List Tree := if bs = [] then [.data [], .data []] else [.data bs]

/-- What a client writes: the calls of the `OgOGroup`, `OgOAttribute` and `OgODataset` constructors, in
order. -/
inductive Entry where
  | group (name : Name) (entries : List Entry)
  | attribute (name : Name) (type : DataType) (value : List UInt8)
  | dataset (name : Name) (type : DataType) (elements : List (List UInt8))
  | compressed (name : Name) (type : DataType) (elements : List (List UInt8))
deriving Repr

/-- `addBaseData`, include/OgOGroup.h:74-84; the attribute and dataset constructors,
include/OgOAttribute.h:44-66, include/OgODataset.h:92-138, and `addData` of the datasets. -/
def Entry.encode : Entry → Tree
  | .group nm es => .group (blob nm ++ [.data (le32 Kind.group.code)] ++ es.map Entry.encode)
  | .attribute nm t v => .group (blob nm ++ [.data (le32 Kind.attribute.code), .data (le32 t.code)] ++ blob v)
  | .dataset nm t els =>
    .group (blob nm ++ [.data (le32 Kind.dataset.code), .data (le32 t.code)] ++ els.flatMap blob)
  | .compressed nm t els =>
    .group (blob nm ++ [.data (le32 Kind.compressed.code), .data (le32 t.code)] ++ els.flatMap blob)

/-- "f3droot", include/OgOGroup.h:38-45. -/
def rootName : Name := [102, 51, 100, 114, 111, 111, 116]

/-- The root group of an archive with these entries. -/
def rootKids (es : List Entry) : List Tree :=
  blob rootName ++ [.data (le32 Kind.group.code)] ++ es.map Entry.encode

/-! ## Reader -/

/-- `IGroup::getData(i)` and reading all of it; `none` is a null pointer. -/
def getData (kids : List Tree) (i : Nat) : Option (List UInt8) :=
  match kids[i]? with
  | some (.data bs) => some bs
  | _ => none

/-- `std::string(const char *)`: up to the first NUL. -/
def cstr (bs : List UInt8) : List UInt8 := bs.takeWhile (· ≠ 0)

/-- `readString`, src/OgUtil.cpp:33-63. -/
def readString (kids : List Tree) (i : Nat) : Option (List UInt8) := (getData kids i).map cstr

/-- `readData<T>`, include/OgUtil.h:108-126: outer `none` crashes, inner `none` is `false`. -/
def readData (size : Nat) (kids : List Tree) (i : Nat) : Option (Option (List UInt8)) :=
  match getData kids i with
  | none => none
  | some bs => if bs.length = size then some (some bs) else some none

/-- `readDataType`, src/OgUtil.cpp:67-84: inner `none` is `F3DInvalidDataType`. -/
def readDataType (kids : List Tree) (i : Nat) : Option (Option (List UInt8)) := readData 4 kids i

/-- `OgIGroup::validate`, src/OgIGroup.cpp:289-300. -/
def valid (kids : List Tree) : Bool :=
  decide (2 ≤ kids.length) && (getData kids 0).isSome && (getData kids 1).isSome

/-- The loop of `findGroup`, src/OgIGroup.cpp:99-131, and of `recursiveFindGroup`, 151-187, which looks for
kind `group`. -/
def scan (k : Kind) (nm : Name) : List Tree → Option (Option (List Tree))
  | [] => some none
  | .data _ :: ts => scan k nm ts
  | .group ks :: ts =>
    match readString ks 0 with
    | none => some none
    | some gn =>
      match readData 4 ks 1 with
      | none => none
      | some none => some none
      | some (some t) => if t ≠ le32 k.code then scan k nm ts else if gn = nm then some (some ks) else scan k nm ts

/-- Components of a path. The code takes the part before the first `/` and recurs on the rest. -/
def components : Name → List Name
  | [] => [[]]
  | c :: cs =>
    if c = 47 then [] :: components cs
    else match components cs with
      | [] => [[c]]
      | n :: ns => (c :: n) :: ns

/-- `findGroup(path, type)`, src/OgIGroup.cpp:78-189. -/
def findComponents (k : Kind) : List Name → List Tree → Option (Option (List Tree))
  | [], _ => some none
  | [nm], kids => if valid kids then scan k nm (kids.drop 2) else some none
  | nm :: rest, kids =>
    if valid kids then
      match scan .group nm (kids.drop 2) with
      | some (some sub) => findComponents k rest sub
      | r => r
    else some none

def find (k : Kind) (path : Name) (kids : List Tree) : Option (Option (List Tree)) :=
  findComponents k (components path) kids

/-- `groupNames(type)`, src/OgIGroup.cpp:193-230. -/
def names (k : Kind) (kids : List Tree) : Option (List Name) :=
  if valid kids then go (kids.drop 2) else some []
where
  go : List Tree → Option (List Name)
    | [] => some []
    | .data _ :: ts => go ts
    | .group ks :: ts =>
      match readString ks 0 with
      | none => go ts
      | some gn =>
        match readData 4 ks 1 with
        | none => none
        | some none => go ts
        | some (some t) => if t ≠ le32 k.code then go ts else (go ts).map (gn :: ·)

/-- `findAttribute<T>` and `findDataset<T>`, include/OgIGroup.h:118-160, with the constructors of
`OgIAttribute`, `OgIDataset` and `OgICDataset`, which check the type: inner `none` is an invalid object. -/
def findTyped (k : Kind) (t : DataType) (path : Name) (kids : List Tree) : Option (Option (List Tree)) :=
  match find k path kids with
  | none => none
  | some none => some none
  | some (some ks) =>
    match readDataType ks 2 with
    | none => none
    | some ty => if ty = some (le32 t.code) then some (some ks) else some none

/-- `attributeType`, `datasetType`, `compressedDatasetType`, src/OgIGroup.cpp:234-270: inner `none` is
`F3DInvalidDataType`. -/
def typeOf (k : Kind) (path : Name) (kids : List Tree) : Option (Option (List UInt8)) :=
  match find k path kids with
  | none => none
  | some none => some none
  | some (some ks) => if ks.length > 2 then readDataType ks 2 else some none

/-- `OgIAttribute::value`, include/OgIAttribute.h:92-100, on an attribute object (`none`: invalid, its group
pointer is null). Inner `none` is the default value of the type. -/
def attributeValue (t : DataType) (a : Option (List Tree)) : Option (Option (List UInt8)) :=
  match a with
  | none => none
  | some ks => if t = .string then some (readString ks 3) else readData t.bytes ks 3

/-- `numDataElements`, include/OgIDataset.h:166-170. -/
def numElements (ks : List Tree) : Nat := ks.length - 3

/-- `OgIDataset::getData`, include/OgIDataset.h:193-216, and `OgICDataset::getData`: `none` is `false`. -/
def element (ks : List Tree) (i : Nat) : Option (List UInt8) := getData ks (i + 3)

end Og
end F3D
