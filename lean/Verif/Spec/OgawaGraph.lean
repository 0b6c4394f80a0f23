import Verif.Model.OgawaGraph
import Verif.Spec.Ogawa

/-!
# What an Ogawa archive with shared and rewritten parts is meant to contain

A document is what the calls made so far describe, with no positions, bytes of the file or parents in it.
-/

namespace F3D.OgawaGraph
open Ogawa (Tree)

/-- A child of a group. -/
inductive Item where
  | group (h : Nat)
  | data (d : Nat)
  | noGroup
  | noData
deriving DecidableEq, Repr

/-- The groups with their children and whether they are frozen, the present bytes of the data, in order of creation. -/
structure Doc where
  groups : List (List Item × Bool)
  datas : List (List UInt8)
  closed : Bool
deriving DecidableEq, Repr

namespace Doc

def init : Doc := ⟨[([], false)], [], false⟩

def items (d : Doc) (g : Nat) : List Item := ((d.groups[g]?).map (·.1)).getD []
def frozen (d : Doc) (g : Nat) : Bool := ((d.groups[g]?).map (·.2)).getD false
def bytes (d : Doc) (x : Nat) : List UInt8 := (d.datas[x]?).getD []

/-- `g` exists and is not frozen. -/
def isOpen (d : Doc) (g : Nat) : Bool := decide (g < d.groups.length) && !d.frozen g

def push (d : Doc) (g : Nat) (it : Item) : Doc := { d with groups := d.groups.modify g fun x => (x.1 ++ [it], x.2) }
def make (d : Doc) (bs : List UInt8) : Doc := { d with datas := d.datas ++ [bs] }

def isData : Item → Bool
  | .data _ => true
  | .noData => true
  | _ => false

/-- What each call means. -/
def step (d : Doc) : Op → Doc
  | .addGroup g => if d.isOpen g then { d.push g (.group d.groups.length) with
      groups := (d.push g (.group d.groups.length)).groups ++ [([], false)] } else d
  | .createData g bs => if d.isOpen g then d.make bs else d
  | .createParts g ps => if d.isOpen g then d.make ps.flatten else d
  | .addData g bs => if d.isOpen g then (d.make bs).push g (.data d.datas.length) else d
  | .addParts g ps => if d.isOpen g then (d.make ps.flatten).push g (.data d.datas.length) else d
  | .shareData g x => if d.isOpen g ∧ x < d.datas.length then d.push g (.data x) else d
  | .shareGroup g h => if d.isOpen g ∧ h < d.groups.length then d.push g (.group h) else d
  | .addEmptyGroup g => if d.isOpen g then d.push g .noGroup else d
  | .addEmptyData g => if d.isOpen g then d.push g .noData else d
  | .freeze g => { d with groups := d.groups.modify g fun x => (x.1, true) }
  | .replaceData g i x =>
    if d.closed = false ∧ x < d.datas.length ∧ ((d.items g)[i]?).any isData then
      { d with groups := d.groups.modify g fun y => (y.1.set i (.data x), y.2) }
    else d
  | .rewrite x bs off =>
    if d.closed = false ∧ off + bs.length ≤ (d.bytes x).length then
      { d with datas := d.datas.modify x fun old => old.take off ++ bs ++ old.drop (off + bs.length) }
    else d
  | .close => if d.groups.all (·.2) then { d with closed := true } else d

def run (d : Doc) (ops : List Op) : Doc := ops.foldl step d

/-- The top `n` levels of what is under group `g`; a group that is not frozen counts as empty. -/
def treeOf (d : Doc) : Nat → Nat → Tree
  | 0, _ => .group []
  | n + 1, g => .group ((d.items g).map fun it =>
      match it with
      | .data x => .data (d.bytes x)
      | .noData => .data []
      | .noGroup => .group []
      | .group h => if d.frozen h then treeOf d n h else .group [])

end Doc

/-- Data are not empty, and offset and size of a rewrite do not wrap around 64 bits. -/
def Op.Sane : Op → Prop
  | .createData _ bs => bs ≠ []
  | .addData _ bs => bs ≠ []
  | .createParts _ ps => ps.flatten ≠ []
  | .addParts _ ps => ps.flatten ≠ []
  | .rewrite _ bs off => off + bs.length < 2 ^ 64
  | _ => True

end F3D.OgawaGraph
