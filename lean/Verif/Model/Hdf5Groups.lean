import Verif.Model.Hdf5Files

/-!
# Groups of layers in HDF5 files

Models `addGroupMembership`, `writeGroupMembership` and `readGroupMembership` of src/Field3DFileHDF5.cpp, beside the calls of
`Verif.Model.Hdf5Files`. A group is a name and a text of members, "partition:layer" with blanks between them. Left out: the copy
of the texts that an input object keeps (nothing reads it).
-/

namespace F3D
namespace Hdf5
open Ogawa Og FieldIO
open Metadata (Dict)
open Files (removeUniqueId)

/-- "is_field3d_group_membership", src/Field3DFileHDF5.cpp:1080, 1522. -/
def kIsMembership : Name :=
  ascii ['i', 's', '_', 'f', 'i', 'e', 'l', 'd', '3', 'd', '_', 'g', 'r', 'o', 'u', 'p', '_', 'm', 'e', 'm', 'b', 'e', 'r', 's',
    'h', 'i', 'p']

/-- `GroupMembershipMap`, export/Field3DFileHDF5.h:257. -/
abbrev Groups := Dict (List UInt8)

/-- `addGroupMembership`, src/Field3DFileHDF5.cpp:550-567: texts are put together as they are. -/
def Groups.add (g new : Groups) : Groups :=
  new.foldl (fun g p =>
    match g.get p.1 with
    | some v => g.set p.1 (v ++ p.2)
    | none => g.set p.1 p.2) g

/-- What is put into the new group of the file, src/Field3DFileHDF5.cpp:1522-1538. -/
def groupsWriter (g : Groups) : W :=
  putAttr kIsMembership (.str [49]) ⨾ W.all (g.map fun p => putAttr p.1 (.str p.2))

/-- `writeGroupMembership`, src/Field3DFileHDF5.cpp:1503-1541, with an open file. -/
def writeGroups (g : Groups) : W := fun root =>
  if g = [] then (.ok, root) else (makeGroup [] kMembership ⨾ inside [kMembership] (groupsWriter g)) root

variable {M : Type}

/-- An output object with its `m_groupMembership`. -/
structure GOut (M : Type) where
  out : Out M
  groups : Groups

/-- Calls. -/
inductive GCall (M : Type) where
  | file (c : Call M)
  | add (g : Groups)
  | writeGroups

/-- A call: those of `Verif.Model.Hdf5Files` do not change the groups; without an open file the group cannot be made. -/
def GOut.step (C : MapIO M) (o : GOut M) : GCall M → Ret × GOut M
  | .file c => ((o.out.step C c).1, { o with out := (o.out.step C c).2 })
  | .add g => (.ok, { o with groups := o.groups.add g })
  | .writeGroups =>
    if o.out.isOpen then
      ((writeGroups o.groups o.out.root).1, { o with out := { o.out with root := (writeGroups o.groups o.out.root).2 } })
    else (if o.groups = [] then .ok else .failed, o)

/-- Calls, one after the other. After a crash nothing is said: the state is `none`. -/
def GOut.run (C : MapIO M) (o : GOut M) : List (GCall M) → Option (List Ret × GOut M)
  | [] => some ([], o)
  | c :: cs =>
    match o.step C c with
    | (.crash, _) => none
    | (r, o) => (GOut.run C o cs).map fun x => (r :: x.1, x.2)

/-- `boost::char_separator(" :")`, src/Field3DFileHDF5.cpp:1099-1100: the pieces between blanks and colons that are not empty. -/
def tokens : List UInt8 → List Name
  | [] => []
  | c :: r =>
    if c = 32 ∨ c = 58 then tokens r
    else
      match r with
      | [] => [[c]]
      | d :: r =>
        if d = 32 ∨ d = 58 then [c] :: tokens (d :: r)
        else
          match tokens (d :: r) with
          | [] => [[c]]
          | t :: ts => (c :: t) :: ts

/-- The loop over the tokens, src/Field3DFileHDF5.cpp:1102-1108: `none` if a partition is the last token, as the end of the
tokens is dereferenced. -/
def memberText : List Name → Option (List UInt8)
  | [] => some []
  | [_] => none
  | p :: l :: r => (memberText r).map fun t => removeUniqueId p ++ 58 :: l ++ 32 :: t

/-- The loop over the attributes, src/Field3DFileHDF5.cpp:1074-1115: other attributes than strings are skipped. -/
def readGroupAttrs : List (Name × Attr) → Groups → Option Groups
  | [], g => some g
  | p :: ps, g =>
    if p.1 = kIsMembership then readGroupAttrs ps g
    else
      match p.2 with
      | .str s =>
        match memberText (tokens (cstr s)) with
        | none => none
        | some t => readGroupAttrs ps (g.set p.1 t)
      | _ => readGroupAttrs ps g

/-- `readGroupMembership`, src/Field3DFileHDF5.cpp:1055-1119: what it returns and what the map is then. `none` is undefined
behaviour. -/
def readGroups (ord : Order) (root : Obj) (g : Groups) : Option (Bool × Groups) :=
  match named kMembership root.links with
  | some (.group as _) => (readGroupAttrs (ord.attrs as) g).map fun g => (true, g)
  | _ => some (false, g)

end Hdf5
end F3D
