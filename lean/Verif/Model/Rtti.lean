/-!
# Class names and casts

Models `staticClassType`, `matchRTTI` and `field_dynamic_cast`, export/RefCount.h and Traits.h, for the classes of the library and
for classes derived from them, and the choices of the IO classes and of `FieldGroup` that are made with casts. Strings are lists
of characters. Left out: the casts of null pointers, and the order in which static members are initialised.
-/

namespace F3D
namespace Rtti

/-- Strings. -/
abbrev Text := List Char

/-- Voxel types. `other`: a type without `FIELD3D_DECL_DATATYPENAME`, with the text of `typeid(T).name()`. -/
inductive Val where
  | uchar | int | float | half | double | v3h | v3f | v3d
  | other (n : Text)
deriving DecidableEq

/-- `DataTypeTraits::name`, export/Traits.h:265-271 and 330-346. -/
def Val.name : Val → Text
  | .uchar => "unsigned char".toList
  | .int => "int".toList
  | .float => "float".toList
  | .half => "half".toList
  | .double => "double".toList
  | .v3h => "V3h".toList
  | .v3f => "V3f".toList
  | .v3d => "V3d".toList
  | .other n => n

/-- Class templates of fields that other templates take. -/
inductive Levels where
  | dense | sparse | mac
deriving DecidableEq

/-- `staticClassName` of these: export/DenseField.h:135-138, SparseField.h:368-371, MACField.h:115-118. -/
def Levels.name : Levels → Text
  | .dense => "DenseField".toList
  | .sparse => "SparseField".toList
  | .mac => "MACField".toList

/-- The classes with type strings: templates come with their arguments. `user`: a class outside the library that follows its
rules, with its own type string, derived from another class. -/
inductive Cls where
  | refBase | fieldBase | fieldRes
  | field (v : Val) | writableField (v : Val) | resizableField (v : Val)
  | denseField (v : Val) | sparseField (v : Val) | macField (v : Val) | emptyField (v : Val)
  | mipBase (v : Val) | proceduralField (v : Val)
  | mipField (l : Levels) (v : Val) | mipDenseField (v : Val) | mipSparseField (v : Val)
  | fieldInterp (v : Val) | linearFieldInterp (v : Val) | cubicFieldInterp (v : Val)
  | linearMACFieldInterp (v : Val) | cubicMACFieldInterp (v : Val) | proceduralFieldLookup (v : Val)
  | linearSparseFieldInterp (v : Val)
  | linearGenericFieldInterp (l : Levels) (v : Val) | cubicGenericFieldInterp (l : Levels) (v : Val)
  | fieldMapping | nullFieldMapping | matrixFieldMapping | frustumFieldMapping
  | fieldIO | denseFieldIO | sparseFieldIO | macFieldIO | mipFieldIO
  | fieldMappingIO | nullFieldMappingIO | matrixFieldMappingIO | frustumFieldMappingIO
  | partition | partitionHdf5
  | user (type : Text) (b : Cls)
deriving DecidableEq

/-- `TemplatedFieldType`, export/Traits.h:281-299. -/
def templated (n : Text) (v : Val) : Text := n ++ '<' :: (v.name ++ ['>'])

/-- `NestedFieldType`, export/Traits.h:305-325. -/
def nested (n : Text) (l : Levels) (v : Val) : Text := n ++ '<' :: (l.name ++ '<' :: (v.name ++ ['>', '>']))

/-- `staticClassType` of each class: export/RefCount.h:200-203, Field.h:118-126, 224-232, 410-418, 637-645, 847-855,
DenseField.h:135-143, SparseField.h:100-108, 368-376, MACField.h:115-123, EmptyField.h:134-137, MIPBase.h:130-138,
MIPField.h:176-184, ProceduralField.h:137-145, FieldInterp.h:86-94, 150-158, 209-217, 267-275, 326-335, 389-397, 448-456, 507-515,
FieldMapping.h:99-102, 250-253, 350-353, 595-598, FieldIO.h:98-101, FieldMappingIO.h:79-82, 152-155, 224-227, 296-299,
Field3DFile.h:135-138, Field3DFileHDF5.h:160-163, include/DenseFieldIO.h:93-96, SparseFieldIO.h:95-98, MACFieldIO.h:92-95,
MIPFieldIO.h:103-106 (that of `SparseFieldIO` is not static, so that no cast to it compiles). `MIPDenseField` and `MIPSparseField`, export/MIPField.h:297-318, take that of the class they derive from. -/
def Cls.type : Cls → Text
  | .refBase => "RefBase".toList
  | .fieldBase => "FieldBase".toList
  | .fieldRes => "FieldRes".toList
  | .field v => templated "Field".toList v
  | .writableField v => templated "WritableField".toList v
  | .resizableField v => templated "ResizableField".toList v
  | .denseField v => templated Levels.dense.name v
  | .sparseField v => templated Levels.sparse.name v
  | .macField v => templated Levels.mac.name v
  | .emptyField _ => "EmptyField".toList
  | .mipBase v => templated "MIPBase".toList v
  | .proceduralField v => templated "ProceduralField".toList v
  | .mipField l v => nested "MIPField".toList l v
  | .mipDenseField v => nested "MIPField".toList .dense v
  | .mipSparseField v => nested "MIPField".toList .sparse v
  | .fieldInterp v => templated "FieldInterp".toList v
  | .linearFieldInterp v => templated "LinearFieldInterp".toList v
  | .cubicFieldInterp v => templated "CubicFieldInterp".toList v
  | .linearMACFieldInterp v => templated "LinearMACFieldInterp".toList v
  | .cubicMACFieldInterp v => templated "CubicMACFieldInterp".toList v
  | .proceduralFieldLookup v => templated "ProceduralFieldLookup".toList v
  | .linearSparseFieldInterp v => templated "LinearSparseFieldInterp".toList v
  | .linearGenericFieldInterp _ v => templated "LinearGenericFieldInterp".toList v
  | .cubicGenericFieldInterp _ v => templated "CubicGenericFieldInterp".toList v
  | .fieldMapping => "FieldMapping".toList
  | .nullFieldMapping => "NullFieldMapping".toList
  | .matrixFieldMapping => "MatrixFieldMapping".toList
  | .frustumFieldMapping => "FrustumFieldMapping".toList
  | .fieldIO => "FieldIO".toList
  | .denseFieldIO => "DenseFieldIO".toList
  | .sparseFieldIO => "SparseFieldIO".toList
  | .macFieldIO => "MACFieldIO".toList
  | .mipFieldIO => "MIPFieldIO".toList
  | .fieldMappingIO => "FieldMappingIO".toList
  | .nullFieldMappingIO => "NullFieldMappingIO".toList
  | .matrixFieldMappingIO => "MatrixFieldMappingIO".toList
  | .frustumFieldMappingIO => "FrustumFieldMappingIO".toList
  | .partition => "Partition".toList
  | .partitionHdf5 => "Partition".toList
  | .user t _ => t

/-- Does the class have `DEFINE_FIELD_RTTI_…`, that is, its own `matchRTTI`? `FieldBase`, export/Field.h:91-183, and the helper
classes for MIP fields have not, and use that of the class they derive from. `RefBase` has one of its own. -/
def Cls.ownMatch : Cls → Bool
  | .fieldBase => false
  | .mipDenseField _ => false
  | .mipSparseField _ => false
  | _ => true

/-- The class whose `matchRTTI` is asked next: the private `typedef … base`, export/Field.h:319, 467, 690, 894, DenseField.h:98,
SparseField.h:207, 582, MACField.h:336, EmptyField.h:173, MIPBase.h:191, MIPField.h:242, ProceduralField.h:188,
FieldInterp.h:114, 173, 232, 290, 354, 413, 471, 530, FieldMapping.h:200, 311, 530, 745, FieldIO.h:149, FieldMappingIO.h:124, 195,
267, 339, Field3DFile.h:191, Field3DFileHDF5.h:217, include/DenseFieldIO.h:190, SparseFieldIO.h:194, MACFieldIO.h:172,
MIPFieldIO.h:197; for classes without `matchRTTI` the class they derive from. -/
def Cls.base : Cls → Option Cls
  | .refBase => none
  | .fieldBase => some .refBase
  | .fieldRes => some .fieldBase
  | .field _ => some .fieldRes
  | .writableField v => some (.field v)
  | .resizableField v => some (.writableField v)
  | .denseField v => some (.resizableField v)
  | .sparseField v => some (.resizableField v)
  | .macField v => some (.resizableField v)
  | .emptyField v => some (.resizableField v)
  | .mipBase v => some (.field v)
  | .proceduralField v => some (.field v)
  | .mipField _ v => some (.mipBase v)
  | .mipDenseField v => some (.mipField .dense v)
  | .mipSparseField v => some (.mipField .sparse v)
  | .fieldInterp _ => some .refBase
  | .linearFieldInterp v => some (.fieldInterp v)
  | .cubicFieldInterp v => some (.fieldInterp v)
  | .linearMACFieldInterp _ => some .refBase
  | .cubicMACFieldInterp _ => some .refBase
  | .proceduralFieldLookup _ => some .refBase
  | .linearSparseFieldInterp _ => some .refBase
  | .linearGenericFieldInterp _ _ => some .refBase
  | .cubicGenericFieldInterp _ _ => some .refBase
  | .fieldMapping => some .refBase
  | .nullFieldMapping => some .fieldMapping
  | .matrixFieldMapping => some .fieldMapping
  | .frustumFieldMapping => some .fieldMapping
  | .fieldIO => some .refBase
  | .denseFieldIO => some .fieldIO
  | .sparseFieldIO => some .fieldIO
  | .macFieldIO => some .fieldIO
  | .mipFieldIO => some .fieldIO
  | .fieldMappingIO => some .refBase
  | .nullFieldMappingIO => some .fieldMappingIO
  | .matrixFieldMappingIO => some .fieldMappingIO
  | .frustumFieldMappingIO => some .fieldMappingIO
  | .partition => some .refBase
  | .partitionHdf5 => some .refBase
  | .user _ b => some b

/-- How many classes are below, for termination. -/
def Cls.rank : Cls → Nat
  | .refBase => 0
  | .fieldBase => 1
  | .fieldRes => 2
  | .field _ => 3
  | .writableField _ => 4
  | .resizableField _ => 5
  | .mipBase _ => 4
  | .mipDenseField _ => 7
  | .mipSparseField _ => 7
  | .fieldInterp _ => 1
  | .fieldMapping => 1
  | .fieldIO => 1
  | .fieldMappingIO => 1
  | .user _ b => b.rank + 1
  | _ => 6

theorem Cls.base_rank {c b : Cls} (h : c.base = some b) : b.rank < c.rank := by
  cases c <;> simp only [Cls.base, Option.some.injEq, reduceCtorEq] at h <;> subst h <;> simp [Cls.rank]

/-- `matchRTTI`, export/RefCount.h:75-82 and 193-198. -/
def Cls.matchRtti (c : Cls) (t : Text) : Bool :=
  if c.ownMatch = true ∧ t = c.type then true
  else
    match _h : c.base with
    | none => false
    | some b => b.matchRtti t
termination_by c.rank
decreasing_by exact Cls.base_rank _h

/-- Whether `field_dynamic_cast<Target>`, export/RefCount.h:254-268, of an object of class `c` gives a pointer: `checkRTTI` of a
concrete class asks `matchRTTI`. -/
def castGives (c target : Cls) : Bool := c.matchRtti target.type

/-- The first of the casts that gives a pointer. -/
def firstCast (c : Cls) (l : List (Cls × Val)) : Option (Cls × Val) := l.find? fun p => castGives c p.1

/-- What `DenseFieldIO::write` writes, as a field of which class and voxel type: src/DenseFieldIO.cpp:277-313 and 326-363. `none` is
an exception. -/
def denseWrites (c : Cls) : Option (Cls × Val) :=
  firstCast c ([.float, .half, .double, .v3f, .v3h, .v3d].map fun v => (.denseField v, v))

/-- The same for `SparseFieldIO::write`, src/SparseFieldIO.cpp:643-673 and 686-723. -/
def sparseWrites (c : Cls) : Option (Cls × Val) :=
  firstCast c ([.float, .half, .double, .v3f, .v3h, .v3d].map fun v => (.sparseField v, v))

/-- The same for `MACFieldIO::write(hid_t)`, src/MACFieldIO.cpp:181-199. -/
def macWrites (c : Cls) : Option (Cls × Val) :=
  firstCast c ([.v3f, .v3h, .v3d].map fun v => (.macField v, v))

/-- The same for `MIPFieldIO::write`, src/MIPFieldIO.cpp:316-384 and 396-463. -/
def mipWrites (c : Cls) : Option (Cls × Val) :=
  firstCast c (([.float, .half, .double, .v3f, .v3h, .v3d].map fun v => (.mipField .dense v, v)) ++
    ([.float, .half, .double, .v3f, .v3h, .v3d].map fun v => (.mipField .sparse v, v)))

/-- The lists of a `FieldGroup` for voxel types `vs`, export/FieldGroup.h:67-105 and 311-321, each by the class of its fields. -/
def groupLists (vs : List Val) : List Cls :=
  vs.map .denseField ++ vs.map .sparseField ++ vs.map (.mipField .dense) ++ vs.map (.mipField .sparse)

/-- The lists to which a field of class `c` is added, export/FieldGroup.h:569-576 and 910-922. -/
def grabbedBy (vs : List Val) (c : Cls) : List Cls := (groupLists vs).filter fun t => castGives c t

end Rtti
end F3D
