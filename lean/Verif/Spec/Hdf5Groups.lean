import Verif.Model.Hdf5Groups
import Verif.Spec.Hdf5Files

/-!
# What groups hold
-/

namespace F3D
namespace Hdf5
open Ogawa Og FieldIO
open Files (removeUniqueId)

variable {M : Type}

/-- A layer in a group, by the names of the partition and the layer. -/
structure Member where
  part : Name
  layer : Name

/-- A name in the text of a group: not empty, without blank, colon and NUL. -/
def Word (s : Name) : Prop := s ≠ [] ∧ (32 : UInt8) ∉ s ∧ (58 : UInt8) ∉ s ∧ (0 : UInt8) ∉ s

def Member.Fits (m : Member) : Prop := Word m.part ∧ Word m.layer

/-- "partition:layer " -/
def Member.text (m : Member) : List UInt8 := m.part ++ 58 :: m.layer ++ [32]

/-- The text of some members. -/
def textOf (ms : List Member) : List UInt8 := (ms.map Member.text).flatten

/-- The member with the name of the partition without its number. -/
def Member.plain (m : Member) : Member := ⟨removeUniqueId m.part, m.layer⟩

/-- A user's calls. -/
inductive UCall (M : Type) where
  | file (c : Call M)
  | add (groups : List (Name × List Member))
  | writeGroups

/-- The calls of the library that a user's calls are. -/
def UCall.call : UCall M → GCall M
  | .file c => .file c
  | .add gs => .add (gs.map fun p => (p.1, textOf p.2))
  | .writeGroups => .writeGroups

/-- The members that were added to a group, in the order of the calls; `none` if it was not mentioned. -/
def membersOf (n : Name) : List (UCall M) → Option (List Member)
  | [] => none
  | .file _ :: cs => membersOf n cs
  | .add gs :: cs =>
    match gs.filter fun p => p.1 = n with
    | [] => membersOf n cs
    | l => some ((l.map (·.2)).flatten ++ (membersOf n cs).getD [])
  | .writeGroups :: cs => membersOf n cs

/-- The calls that are not about groups. -/
def fileCallsOf : List (GCall M) → List (Call M)
  | [] => []
  | .file c :: cs => c :: fileCallsOf cs
  | _ :: cs => fileCallsOf cs

/-- Their results. -/
def fileResultsOf : List (GCall M) → List Ret → List Ret
  | .file _ :: cs, r :: rs => r :: fileResultsOf cs rs
  | _ :: cs, _ :: rs => fileResultsOf cs rs
  | _, _ => []

end Hdf5
end F3D
