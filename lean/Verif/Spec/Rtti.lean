import Verif.Model.Rtti

/-!
# Inheritance
-/

namespace F3D
namespace Rtti

/-- The public base class of each class, as it is declared: export/Field.h:91, 207, 389, 623-624, 833-834, DenseField.h:85-86,
SparseField.h:86, 350-351, MACField.h:95, EmptyField.h:86-87, MIPBase.h:116, MIPField.h:109, 298, 310, ProceduralField.h:120,
FieldInterp.h:72, 136, 195, 253, 312, 375, 434, 493, FieldMapping.h:86, 236, 334, 564, FieldIO.h:84, FieldMappingIO.h:64, 138,
210, 282, Field3DFile.h:121, Field3DFileHDF5.h:145, include/DenseFieldIO.h:79, SparseFieldIO.h:81, MACFieldIO.h:78,
MIPFieldIO.h:89. -/
inductive Declared : Cls → Cls → Prop where
  | fieldBase : Declared .fieldBase .refBase
  | fieldRes : Declared .fieldRes .fieldBase
  | field (v) : Declared (.field v) .fieldRes
  | writable (v) : Declared (.writableField v) (.field v)
  | resizable (v) : Declared (.resizableField v) (.writableField v)
  | dense (v) : Declared (.denseField v) (.resizableField v)
  | sparse (v) : Declared (.sparseField v) (.resizableField v)
  | mac (v) : Declared (.macField v) (.resizableField v)
  | empty (v) : Declared (.emptyField v) (.resizableField v)
  | mipBase (v) : Declared (.mipBase v) (.field v)
  | procedural (v) : Declared (.proceduralField v) (.field v)
  | mip (l v) : Declared (.mipField l v) (.mipBase v)
  | mipDense (v) : Declared (.mipDenseField v) (.mipField .dense v)
  | mipSparse (v) : Declared (.mipSparseField v) (.mipField .sparse v)
  | interp (v) : Declared (.fieldInterp v) .refBase
  | linear (v) : Declared (.linearFieldInterp v) (.fieldInterp v)
  | cubic (v) : Declared (.cubicFieldInterp v) (.fieldInterp v)
  | linearMac (v) : Declared (.linearMACFieldInterp v) .refBase
  | cubicMac (v) : Declared (.cubicMACFieldInterp v) .refBase
  | lookup (v) : Declared (.proceduralFieldLookup v) .refBase
  | linearSparse (v) : Declared (.linearSparseFieldInterp v) .refBase
  | linearGeneric (l v) : Declared (.linearGenericFieldInterp l v) .refBase
  | cubicGeneric (l v) : Declared (.cubicGenericFieldInterp l v) .refBase
  | mapping : Declared .fieldMapping .refBase
  | null : Declared .nullFieldMapping .fieldMapping
  | matrix : Declared .matrixFieldMapping .fieldMapping
  | frustum : Declared .frustumFieldMapping .fieldMapping
  | io : Declared .fieldIO .refBase
  | denseIO : Declared .denseFieldIO .fieldIO
  | sparseIO : Declared .sparseFieldIO .fieldIO
  | macIO : Declared .macFieldIO .fieldIO
  | mipIO : Declared .mipFieldIO .fieldIO
  | mappingIO : Declared .fieldMappingIO .refBase
  | nullIO : Declared .nullFieldMappingIO .fieldMappingIO
  | matrixIO : Declared .matrixFieldMappingIO .fieldMappingIO
  | frustumIO : Declared .frustumFieldMappingIO .fieldMappingIO
  | partition : Declared .partition .refBase
  | partitionHdf5 : Declared .partitionHdf5 .refBase
  | user (t b) : Declared (.user t b) b

/-- An object of the first class is one of the second. -/
inductive IsA : Cls → Cls → Prop where
  | refl (c) : IsA c c
  | step {c b d} : Declared c b → IsA b d → IsA c d

/-- The names of the voxel types that have a name in the library. -/
def knownNames : List Text :=
  ["unsigned char".toList, "int".toList, "float".toList, "half".toList, "double".toList, "V3h".toList, "V3f".toList, "V3d".toList]

/-- The compiler's names of other voxel types are none of these. -/
def Val.Proper : Val → Prop
  | .other n => n ∉ knownNames
  | _ => True

/-- The voxel types of a class are proper. -/
def Cls.Proper : Cls → Prop
  | .field v | .writableField v | .resizableField v | .denseField v | .sparseField v | .macField v | .emptyField v
  | .mipBase v | .proceduralField v | .mipField _ v | .mipDenseField v | .mipSparseField v | .fieldInterp v
  | .linearFieldInterp v | .cubicFieldInterp v | .linearMACFieldInterp v | .cubicMACFieldInterp v | .proceduralFieldLookup v
  | .linearSparseFieldInterp v | .linearGenericFieldInterp _ v | .cubicGenericFieldInterp _ v => v.Proper
  | .user _ b => b.Proper
  | _ => True

/-- Is it a class outside the library? -/
def Cls.IsUser : Cls → Prop
  | .user _ _ => True
  | _ => False

/-- No class outside the library has the type string of another class, among the target of a cast and the classes of the object. -/
def OwnNames (c t : Cls) : Prop := ∀ d, IsA c d → d.IsUser ∨ t.IsUser → d.type = t.type → d = t

/-- The classes of the object that are outside the library use none of the type strings of the library. -/
def Apart (c : Cls) : Prop := ∀ d t : Cls, IsA c d → d.IsUser → ¬ t.IsUser → d.type ≠ t.type

/-- Classes of the library whose type string is that of no other class, and which test for it. The others are `FieldBase`,
`EmptyField`, the generic interpolators, `MIPDenseField` and `MIPSparseField` and the two classes `Partition`. -/
def Cls.Named : Cls → Prop
  | .fieldBase | .emptyField _ | .linearGenericFieldInterp _ _ | .cubicGenericFieldInterp _ _ | .mipDenseField _
  | .mipSparseField _ | .partition | .partitionHdf5 => False
  | _ => True

end Rtti
end F3D
