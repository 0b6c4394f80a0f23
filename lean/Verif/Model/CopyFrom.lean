import Verif.Model.Identical
import Verif.Model.Dense
import Verif.Model.Sparse
import Verif.Model.Mac

/-!
# Copying and comparing fields

Models `copyFrom`, `matchDefinition`, `sameDefinition` and `isIdentical` of export/Field.h. The loops go through the
generic iterators of `Field` and `WritableField`, that is, through `value` and `lvalue`.
-/

namespace F3D
namespace Copy
open Identical (Map Reals)
open Mapping

/-! ## Definitions of fields -/

/-- `setExtents` of a mapping of any class, src/FieldMapping.cpp:145-150: the null mapping has nothing that is ever
compared; `none` if a voxel size of a frustum is not finite. -/
def setExtents (m : Map) (e : Box3i) : Option Map :=
  match m with
  | .null => some .null
  | .matrix m => some (.matrix (m.setExtents e))
  | .frustum m => (m.setExtents e).map .frustum

/-- The members of `FieldRes`, export/Field.h:300-312. -/
structure Defn where
  extents : Box3i
  dw : Box3i
  map : Map

/-- `FieldRes()`, export/Field.h:325-331. -/
def Defn.new : Defn :=
  let e : Box3i := ⟨V3i.all 0, V3i.all (-1)⟩
  ⟨e, e, .matrix ((Matrix.new Frame.default).setExtents e)⟩

/-- `setMapping`, export/Field.h:347-360: a clone of the mapping, with the extents of this field. -/
def Defn.setMapping (d : Defn) (m : Map) : Option Defn := (setExtents m d.extents).map fun m => { d with map := m }

/-- `setSize(extents, dataWindow)`, export/Field.h:940-948, with `sizeChanged`, 901-902. -/
def Defn.setSize (d : Defn) (e dw : Box3i) : Option Defn := (setExtents d.map e).map fun m => ⟨e, dw, m⟩

/-- The first two calls of `copyFrom`, export/Field.h:970-972 and 989-991. -/
def Defn.copy (d o : Defn) : Option Defn := (d.setMapping o.map).bind fun d => d.setSize o.extents o.dw

/-- `matchDefinition`, export/Field.h:1003-1007. -/
def Defn.match' (d o : Defn) : Option Defn := (d.setSize o.extents o.dw).bind fun d => d.setMapping o.map

/-- `sameDefinition`, export/Field.h:1016-1030; `none` if the comparison of the mappings is undefined. -/
def sameDefinition (R : Reals) (tol : Rat) (a b : Defn) : Option Bool :=
  if a.extents ≠ b.extents then some false
  else if a.dw ≠ b.dw then some false
  else Identical.isIdentical R tol a.map b.map

/-! ## Voxels -/

/-- The loop of `copyFrom`: the two iterators and the field written to; `none`: undefined behaviour happened. -/
structure St (F : Type) where
  i : V3i
  c : V3i
  field : Option F

/-- `*i = *c` and the two increments, export/Field.h:978-979 and 996-997. The source may be the target itself, so
reading depends on the target. `cast` is the conversion of the assignment. -/
def step {F α β : Type} (w wo : Box3i) (rd : F → V3i → Option α) (cast : α → β) (wr : F → V3i → β → Option F)
    (s : St F) : St F :=
  ⟨iterNext w s.i, iterNext wo s.c, s.field.bind fun f => (rd f s.c).bind fun v => wr f s.i (cast v)⟩

/-- `i == end`. -/
def atEnd {F : Type} (w : Box3i) (s : St F) : Bool := iterAtEnd w s.i

/-- The loop of `copyFrom` into a field `f` with data window `w`, from a field with data window `wo`: it ends with the
target `g`. -/
def Copies {F α β : Type} (w wo : Box3i) (rd : F → V3i → Option α) (cast : α → β) (wr : F → V3i → β → Option F)
    (f : F) (g : Option F) : Prop :=
  ∃ l i c, Loop (step w wo rd cast wr) (atEnd w) ⟨iterBegin w, iterBegin wo, some f⟩ l ⟨i, c, g⟩

/-- A field that is read: windows, mapping and `value`. -/
structure Source (α : Type) extends Defn where
  value : V3i → Option α

/-- `copyFrom` into a dense field, export/Field.h:967-998: the exception of `setSize` leaves through `none` of the
first component. -/
def DenseCopies {α β : Type} (dflt : β) (cast : α → β) (src : Source α) (g : Option (Dense β)) : Prop :=
  ∃ f, Dense.setSize dflt src.extents src.dw = .ok f ∧
    Copies f.dw src.dw (fun _ => src.value) cast Dense.write f g

/-- `f->copyFrom(f)` for a dense field. -/
def DenseSelfCopies {β : Type} (dflt : β) (f : Dense β) (g : Option (Dense β)) : Prop :=
  ∃ f', Dense.setSize dflt f.extents f.dw = .ok f' ∧ Copies f'.dw f'.dw Dense.value id Dense.write f' g

/-- `copyFrom` into a sparse field: `setSize` keeps the block order. -/
def SparseCopies {α β : Type} (zero : β) (cast : α → β) (src : Source α) (f : Sparse β) (g : Option (Sparse β)) : Prop :=
  Copies src.dw src.dw (fun _ => src.value) cast Sparse.write (f.setSize zero src.extents src.dw) g

/-- `copyFrom` into a MAC field. -/
def MacCopies (src : Source V3q) (f : Mac) (g : Option Mac) : Prop :=
  ∃ f', f.setSize src.extents src.dw = some f' ∧ Copies f'.dw src.dw (fun _ => src.value) id Mac.writeLvalue f' g

/-- The loop of `isIdentical`: iterators, `same` (`none`: undefined behaviour happened), and whether it was left. -/
structure Cmp where
  a : V3i
  b : V3i
  same : Option Bool
  left : Bool

/-- One iteration, export/Field.h:1048-1053; `ne` is `!=` of the voxels. -/
def cmpStep {α : Type} (ne : α → α → Bool) (w : Box3i) (rdA rdB : V3i → Option α) (s : Cmp) : Cmp :=
  match rdA s.a, rdB s.b with
  | some x, some y =>
    if ne x y then { s with same := some false, left := true } else { s with a := iterNext w s.a, b := iterNext w s.b }
  | _, _ => { s with same := none, left := true }

def cmpEnd (w : Box3i) (s : Cmp) : Bool := s.left || iterAtEnd w s.a

/-- `isIdentical(a, b)` of fields, export/Field.h:1037-1055, gives the result `r`. -/
def FieldsIdentical {α : Type} (R : Reals) (ne : α → α → Bool) (a b : Source α) (r : Option Bool) : Prop :=
  match sameDefinition R 0 a.toDefn b.toDefn with
  | none => r = none
  | some false => r = some false
  | some true => ∃ l t, Loop (cmpStep ne a.dw a.value b.value) (cmpEnd a.dw)
      ⟨iterBegin a.dw, iterBegin b.dw, some true, false⟩ l t ∧ r = t.same

end Copy
end F3D
