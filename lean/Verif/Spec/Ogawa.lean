import Verif.Model.Ogawa

/-!
# What an Ogawa archive is meant to contain

A document is what the calls made so far describe, with no positions, bytes or files in it. `treeOf` is the
tree a reader should see. `explore` is a client of the reader: it walks the groups of a file with
`getGroup`, `getData` and `read`.
-/

namespace F3D.Ogawa

/-- A child added to a group. -/
inductive Item where
  | data (bytes : List UInt8)
  | emptyData
  | emptyGroup
  /-- the group numbered `h`, in order of creation; the root is 0 -/
  | group (h : Nat)
deriving DecidableEq, Repr

/-- The groups in order of creation: what was added to each and whether it is frozen. -/
structure Doc where
  groups : List (List Item × Bool)
deriving DecidableEq, Repr

namespace Doc

def init : Doc := ⟨[([], false)]⟩

def items (d : Doc) (g : Nat) : List Item := ((d.groups[g]?).map (·.1)).getD []

def frozen (d : Doc) (g : Nat) : Bool := ((d.groups[g]?).map (·.2)).getD false

/-- `g` exists and is not frozen. -/
def isOpen (d : Doc) (g : Nat) : Bool := ((d.groups[g]?).map (!·.2)).getD false

def push (d : Doc) (g : Nat) (it : Item) : Doc := ⟨d.groups.modify g (fun x => (x.1 ++ [it], x.2))⟩

/-- What each call means. -/
def step (d : Doc) : Op → Doc
  | .addGroup g => if d.isOpen g then ⟨(d.push g (.group d.groups.length)).groups ++ [([], false)]⟩ else d
  | .addData g bs => if d.isOpen g then d.push g (.data bs) else d
  | .addEmptyGroup g => if d.isOpen g then d.push g .emptyGroup else d
  | .addEmptyData g => if d.isOpen g then d.push g .emptyData else d
  | .freeze g => ⟨d.groups.modify g (fun x => (x.1, true))⟩
  | .close => d

def run (d : Doc) (ops : List Op) : Doc := ops.foldl step d

def allFrozen (d : Doc) : Bool := d.groups.all (·.2)

end Doc

/-- A tree of groups and data. -/
inductive Tree where
  | data (bytes : List UInt8)
  | group (kids : List Tree)
deriving Repr

/-- The top `n` levels of the tree under group `g`; a group that is not frozen counts as empty. -/
def treeOf (d : Doc) : Nat → Nat → Tree
  | 0, _ => .group []
  | n + 1, g => .group ((d.items g).map fun it =>
      match it with
      | .data bs => .data bs
      | .emptyData => .data []
      | .emptyGroup => .group []
      | .group h => if d.frozen h then treeOf d n h else .group [])

/-- All the bytes of a data child. `none` if they cannot be read. -/
def readAll (f : File) (d : IData) : Option (List UInt8) :=
  if d.size = 0 then some [] else (d.read f d.size 0).join

/-- Reads the top `n` levels of the tree under an open group. `none` if a read fails or a child is neither
a group nor data. -/
def explore (f : File) (light : Bool) : Nat → IGroup → Option Tree
  | 0, _ => some (.group [])
  | n + 1, g => ((List.range g.num).mapM fun i =>
      match g.getGroup f i light with
      | none => none
      | some (some h) => explore f light n h
      | some none =>
        match g.getData f i with
        | some (some d) => (readAll f d).map Tree.data
        | _ => none).map Tree.group

end F3D.Ogawa
