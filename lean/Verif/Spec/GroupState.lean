import Verif.Model.GroupState

/-!
# What a field group is after a history of calls

A book kept beside the group: one flat list of the fields in it, in the order in which they were given, each
with the settings it has, and whether fields of minima and of maxima were given or made.
-/

namespace F3D
namespace Spec
namespace GroupState
open F3D.GroupState
variable {X R : Type}

/-- The group has lists for the field. -/
def takes (types : List Vox) (f : Fld) : Bool := decide (f.kind ≠ .other) && decide (f.vox ∈ types)

/-- The group has lists of minima and maxima for the field. -/
def takesMip (types : List Vox) (f : Fld) : Bool :=
  (decide (f.kind = .mipDense) || decide (f.kind = .mipSparse)) && decide (f.vox ∈ types)

/-- The layers of a file with the given name, over all partitions and voxel types. -/
def layersNamed (types : List Vox) (v : FileView) (layer : String) : List Fld :=
  v.names.flatMap fun name => types.flatMap fun t => v.read t name layer

structure Book (X R : Type) where
  transform : X
  bounds : Bool
  remap : Option R
  members : List (Entry X R)
  minima : Bool
  maxima : Bool
  last : List Fld

/-- Fields are given, with fields of minima and maxima. -/
def Book.give [DecidableEq X] (one : X) (types : List Vox) (b : Book X R) (fs mn mx : List Fld) : Book X R :=
  { b with
    members := b.members ++ (fs.filter (takes types)).map fun f =>
      ⟨f, if b.transform = one then none else some b.transform, b.bounds, b.remap⟩
    minima := b.minima || mn.any (takesMip types)
    maxima := b.maxima || mx.any (takesMip types)
    last := fs }

def Book.note [DecidableEq X] (one : X) (types : List Vox) (b : Book X R) : Call X R → Book X R
  | .setOsToWs x => { b with transform := x }
  | .setBounds true => { b with bounds := true, members := b.members.map fun e => { e with bounds := true } }
  | .setBounds false => { b with bounds := false }
  | .setRemap r => { b with remap := r }
  | .setup fs mn mx => b.give one types fs mn mx
  | .load none _ => b
  | .load (some v) attr => b.give one types (layersNamed types v attr) (layersNamed types v (attr ++ "_min"))
      (layersNamed types v (attr ++ "_max"))
  | .makeMinMax _ => { b with
      minima := b.minima || !b.members.isEmpty
      maxima := b.maxima || !b.members.isEmpty }

/-- The book after a history of calls. -/
def book [DecidableEq X] (one : X) (types : List Vox) (cs : List (Call X R)) : Book X R :=
  cs.foldl (Book.note one types) ⟨one, false, none, [], false, false, []⟩

end GroupState
end Spec
end F3D
