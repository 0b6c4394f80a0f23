import Verif.Model.FieldIO

/-!
# Metadata

Models export/FieldMetadata.h, src/FieldMetadata.cpp, and the reading and writing of metadata in Ogawa groups,
src/Field3DFile.cpp. A `float` is its bit pattern.
-/

namespace F3D
namespace Metadata
open Ogawa Og FieldIO

/-- `operator<` of `std::string`: characters are compared as unsigned. -/
def nameLt : Name → Name → Bool
  | [], [] => false
  | [], _ :: _ => true
  | _ :: _, [] => false
  | a :: as, b :: bs => if a < b then true else if b < a then false else nameLt as bs

/-- `std::map<std::string, T>`, in the order of iteration. -/
abbrev Dict (T : Type) := List (Name × T)

/-- `find`. -/
def Dict.get {T : Type} (d : Dict T) (n : Name) : Option T :=
  match d with
  | [] => none
  | (m, w) :: d => if m = n then some w else Dict.get d n

/-- `operator[]` and assignment. -/
def Dict.set {T : Type} (n : Name) (v : T) : Dict T → Dict T
  | [] => [(n, v)]
  | (m, w) :: d => if m = n then (n, v) :: d else if nameLt n m then (n, v) :: (m, w) :: d else (m, w) :: Dict.set n v d

/-- `V3f`. -/
structure V3f where
  x : UInt32
  y : UInt32
  z : UInt32
deriving DecidableEq, Repr

/-- The dictionaries of `FieldMetadata`, export/FieldMetadata.h:188-199. -/
structure Meta where
  vecFloat : Dict V3f
  float : Dict UInt32
  vecInt : Dict V3i
  int : Dict Int
  str : Dict (List UInt8)
deriving DecidableEq, Repr

/-- A new `FieldMetadata`. -/
def Meta.empty : Meta := ⟨[], [], [], [], []⟩

/-- The dictionary part of the five setters, src/FieldMetadata.cpp:58-111. -/
def Meta.setVecFloat (m : Meta) (n : Name) (v : V3f) : Meta := { m with vecFloat := m.vecFloat.set n v }
def Meta.setFloat (m : Meta) (n : Name) (v : UInt32) : Meta := { m with float := m.float.set n v }
def Meta.setVecInt (m : Meta) (n : Name) (v : V3i) : Meta := { m with vecInt := m.vecInt.set n v }
def Meta.setInt (m : Meta) (n : Name) (v : Int) : Meta := { m with int := m.int.set n v }
def Meta.setStr (m : Meta) (n : Name) (v : List UInt8) : Meta := { m with str := m.str.set n v }

/-- The five getters, src/FieldMetadata.cpp:115-185. -/
def Meta.getVecFloat (m : Meta) (n : Name) (d : V3f) : V3f :=
  match m.vecFloat.get n with | some v => v | none => d
def Meta.getFloat (m : Meta) (n : Name) (d : UInt32) : UInt32 :=
  match m.float.get n with | some v => v | none => d
def Meta.getVecInt (m : Meta) (n : Name) (d : V3i) : V3i :=
  match m.vecInt.get n with | some v => v | none => d
def Meta.getInt (m : Meta) (n : Name) (d : Int) : Int :=
  match m.int.get n with | some v => v | none => d
def Meta.getStr (m : Meta) (n : Name) (d : List UInt8) : List UInt8 :=
  match m.str.get n with | some v => v | none => d

/-- A `FieldMetadata` object: whether it has an owner, and the calls of `metadataHasChanged` made so far. -/
structure Obj where
  data : Meta
  owner : Bool
  notified : List Name
deriving DecidableEq, Repr

/-- `FieldMetadata(owner)`, export/FieldMetadata.h:99-101. -/
def Obj.new (owner : Bool) : Obj := ⟨Meta.empty, owner, []⟩

/-- Calls on a `FieldMetadata` object. -/
inductive MetaOp where
  | vecFloat (n : Name) (v : V3f)
  | float (n : Name) (v : UInt32)
  | vecInt (n : Name) (v : V3i)
  | int (n : Name) (v : Int)
  | str (n : Name) (v : List UInt8)
  | assign (other : Meta)
deriving DecidableEq, Repr

/-- The end of each setter. -/
def Obj.changed (o : Obj) (m : Meta) (n : Name) : Obj :=
  { o with data := m, notified := if o.owner then o.notified ++ [n] else o.notified }

/-- The setters, src/FieldMetadata.cpp:58-111, and `operator =`, export/FieldMetadata.h:109-116. -/
def Obj.step (o : Obj) : MetaOp → Obj
  | .vecFloat n v => o.changed (o.data.setVecFloat n v) n
  | .float n v => o.changed (o.data.setFloat n v) n
  | .vecInt n v => o.changed (o.data.setVecInt n v) n
  | .int n v => o.changed (o.data.setInt n v) n
  | .str n v => o.changed (o.data.setStr n v) n
  | .assign x => { o with data := ⟨x.vecFloat, x.float, x.vecInt, x.int, x.str⟩ }

def Obj.run (o : Obj) (ops : List MetaOp) : Obj := ops.foldl Obj.step o

/-! ## Files -/

/-- A 32-bit word in memory. -/
def encWord (w : UInt32) : List UInt8 := le32 w.toNat
def decWord (bs : List UInt8) : UInt32 := UInt32.ofNat (unle bs)

/-- `vec32_t` in memory. -/
def encV3f (v : V3f) : List UInt8 := encWord v.x ++ encWord v.y ++ encWord v.z
def decV3f (bs : List UInt8) : V3f := ⟨decWord (bs.take 4), decWord ((bs.drop 4).take 4), decWord ((bs.drop 8).take 4)⟩

/-- `writeMetadata`, src/Field3DFile.cpp:1045-1136, and the same for the metadata of the file, 1140-1229: the
attributes added to the group. -/
def entries (m : Meta) : List Entry :=
  m.str.map (fun p => .attribute p.1 .string p.2) ++
  m.int.map (fun p => .attribute p.1 .int32 (encInt p.2)) ++
  m.float.map (fun p => .attribute p.1 .float32 (encWord p.2)) ++
  m.vecInt.map (fun p => .attribute p.1 .veci32 (encV3i p.2)) ++
  m.vecFloat.map (fun p => .attribute p.1 .vec32 (encV3f p.2))

/-- `findAttribute<T>(name)`, and `value()` if it is valid. The outer `none` is a crash. A value of the wrong size is
read as zero. -/
def found (t : DataType) (nm : Name) (kids : List Tree) : Option (Option (List UInt8)) :=
  match findTyped .attribute t nm kids with
  | none => none
  | some none => some none
  | some (some a) => (attributeValue t (some a)).map fun v => some (v.getD (List.replicate t.bytes 0))

/-- The loop body of `readMeta`, src/Field3DFile.cpp:288-324. -/
def readOne (kids : List Tree) (m : Meta) (nm : Name) : Option Meta :=
  (found .string nm kids).bind fun s =>
  (found .int32 nm kids).bind fun i =>
  (found .float32 nm kids).bind fun f =>
  (found .veci32 nm kids).bind fun vi =>
  (found .vec32 nm kids).bind fun vf =>
  let m := match s with | some v => m.setStr nm v | none => m
  let m := match i with | some v => m.setInt nm (decInt v) | none => m
  let m := match f with | some v => m.setFloat nm (decWord v) | none => m
  let m := match vi with | some v => m.setVecInt nm (decV3i v) | none => m
  some (match vf with | some v => m.setVecFloat nm (decV3f v) | none => m)

/-- `readMeta`, src/Field3DFile.cpp:283-328, into metadata that may already have entries. -/
def readMeta (kids : List Tree) (m : Meta) : Option Meta :=
  (names .attribute kids).bind fun l => l.foldlM (readOne kids) m

end Metadata
end F3D
