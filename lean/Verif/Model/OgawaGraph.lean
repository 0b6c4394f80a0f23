import Verif.Model.Ogawa

/-!
# The whole interface of the Ogawa writer

Models all calls of `OGroup` and `OData`, src/OGroup.cpp and src/OData.cpp: also groups and data that are added to several
groups, data that are replaced and data that are rewritten. Objects are numbered in the order in which they are made. Calls with
numbers of objects that do not exist do nothing; no client can make them.
-/

namespace F3D
namespace OgawaGraph
open Ogawa (File le64 emptyData writeAt header)

/-- `OGroup::PrivateData`, src/OGroup.cpp:46-66. A parent is a group and a slot, `none` stands for the archive; `pos` is `none`
for `INVALID_GROUP`. -/
structure GroupObj where
  kids : List Nat
  parents : List (Option (Nat × Nat))
  pos : Option Nat
deriving DecidableEq, Repr

/-- `OData::PrivateData`, src/OData.cpp:44-67. -/
structure DataObj where
  pos : Nat
  size : Nat
deriving DecidableEq, Repr

/-- The archive, the file and all objects. -/
structure Writer where
  file : File
  groups : List GroupObj
  datas : List DataObj
  closed : Bool
deriving DecidableEq, Repr

namespace Writer

/-- `OArchive::OArchive`, src/OArchive.cpp:44-48 and src/OStream.cpp:127-154; the root is made by src/OGroup.cpp:75-81. -/
def init : Writer := ⟨header, [⟨[], [none], none⟩], [], false⟩

/-- `seek(pos)` and `write(bytes)`, src/OStream.cpp:169-189. -/
def write (w : Writer) (pos : Nat) (bs : List UInt8) : Writer := { w with file := writeAt w.file pos bs }

/-- `getAndSeekEndPos` and `write`, src/OStream.cpp:156-189. -/
def append (w : Writer) (bs : List UInt8) : Writer := w.write w.file.length bs

def pos (w : Writer) (g : Nat) : Option Nat := (w.groups[g]?).bind (·.pos)
def kids (w : Writer) (g : Nat) : List Nat := ((w.groups[g]?).map (·.kids)).getD []

/-- There is such a group and `isFrozen()` is false, src/OGroup.cpp:277-280. -/
def isOpen (w : Writer) (g : Nat) : Bool := decide (g < w.groups.length) && (w.pos g).isNone

/-- `childVec.push_back`. -/
def pushKid (w : Writer) (g s : Nat) : Writer :=
  { w with groups := w.groups.modify g fun o => { o with kids := o.kids ++ [s] } }

/-- `parents.push_back`. -/
def pushParent (w : Writer) (h : Nat) (x : Option (Nat × Nat)) : Writer :=
  { w with groups := w.groups.modify h fun o => { o with parents := o.parents ++ [x] } }

/-- `OGroup::addGroup()`, src/OGroup.cpp:87-96, with the constructor, 67-73. -/
def addGroup (w : Writer) (g : Nat) : Writer :=
  if w.isOpen g then
    let n := (w.kids g).length
    let w := w.pushKid g 0
    { w with groups := w.groups ++ [⟨[], [some (g, n)], none⟩] }
  else w

/-- `OGroup::createData(size, data)`, src/OGroup.cpp:98-122. -/
def createData (w : Writer) (g : Nat) (bs : List UInt8) : Writer :=
  if w.isOpen g then
    if bs.length = 0 then
      let w := w.pushKid g emptyData
      { w with datas := w.datas ++ [⟨0, 0⟩] }
    else
      let pos := w.file.length
      let w := (w.append (le64 bs.length)).append bs
      { w with datas := w.datas ++ [⟨pos, bs.length⟩] }
  else w

/-- `OGroup::createData(num, sizes, datas)`, src/OGroup.cpp:136-175. -/
def createParts (w : Writer) (g : Nat) (parts : List (List UInt8)) : Writer :=
  if w.isOpen g then
    let total := (parts.map (·.length)).sum
    if total = 0 then
      let w := w.pushKid g emptyData
      { w with datas := w.datas ++ [⟨0, 0⟩] }
    else
      let pos := w.file.length
      let w := parts.foldl (fun w p => if p.length ≠ 0 then w.append p else w) (w.append (le64 total))
      { w with datas := w.datas ++ [⟨pos, total⟩] }
  else w

/-- The second part of `addData`, src/OGroup.cpp:126-133 and 181-188, with the object made last. -/
def addLast (w : Writer) (g : Nat) : Writer := w.pushKid g (((w.datas.getLast?).map (·.pos)).getD 0 ||| emptyData)

/-- `OGroup::addData(size, data)`, src/OGroup.cpp:124-134. -/
def addData (w : Writer) (g : Nat) (bs : List UInt8) : Writer :=
  if w.isOpen g then (w.createData g bs).addLast g else w

/-- `OGroup::addData(num, sizes, datas)`, src/OGroup.cpp:177-188. -/
def addParts (w : Writer) (g : Nat) (parts : List (List UInt8)) : Writer :=
  if w.isOpen g then (w.createParts g parts).addLast g else w

/-- `OGroup::addData(data)`, src/OGroup.cpp:190-196. -/
def shareData (w : Writer) (g d : Nat) : Writer :=
  if w.isOpen g then
    match w.datas[d]? with
    | some o => w.pushKid g (o.pos ||| emptyData)
    | none => w
  else w

/-- `OGroup::addGroup(group)`, src/OGroup.cpp:198-213. -/
def shareGroup (w : Writer) (g h : Nat) : Writer :=
  if w.isOpen g then
    if h < w.groups.length then
      match w.pos h with
      | some p => w.pushKid g p
      | none => (w.pushKid g 0).pushParent h (some (g, (w.kids g).length))
    else w
  else w

/-- `OGroup::addEmptyGroup`, src/OGroup.cpp:215-221. -/
def addEmptyGroup (w : Writer) (g : Nat) : Writer := if w.isOpen g then w.pushKid g 0 else w

/-- `OGroup::addEmptyData`, src/OGroup.cpp:223-229. -/
def addEmptyData (w : Writer) (g : Nat) : Writer := if w.isOpen g then w.pushKid g emptyData else w

/-- `childVec[i] = v`. -/
def setKid (w : Writer) (p i v : Nat) : Writer :=
  { w with groups := w.groups.modify p fun o => { o with kids := o.kids.set i v } }

/-- What `freeze` does for one parent, src/OGroup.cpp:257-271. -/
def patch (v : Nat) (w : Writer) : Option (Nat × Nat) → Writer
  | none => w.write 8 (le64 v)
  | some (p, i) =>
    (match w.pos p with
      | some q => w.write (q + (i + 1) * 8) (le64 v)
      | none => w).setKid p i v

/-- `OGroup::freeze`, src/OGroup.cpp:232-275; also what `~OGroup` does, 83-86. -/
def freeze (w : Writer) (g : Nat) : Writer :=
  if w.isOpen g then
    let ks := w.kids g
    let v := if ks = [] then 0 else w.file.length
    let w := if ks = [] then w else (w.append (le64 ks.length)).append (ks.flatMap le64)
    let w := { w with groups := w.groups.modify g fun o => { o with pos := some v } }
    let w := (((w.groups[g]?).map (·.parents)).getD []).foldl (patch v) w
    { w with groups := w.groups.modify g fun o => { o with parents := [] } }
  else w

/-- `OGroup::isChildData`, src/OGroup.cpp:293-297. -/
def isChildData (w : Writer) (g i : Nat) : Bool :=
  match (w.kids g)[i]? with
  | some s => decide (s &&& emptyData ≠ 0)
  | none => false

/-- `OGroup::isChildGroup`, src/OGroup.cpp:287-291. -/
def isChildGroup (w : Writer) (g i : Nat) : Bool :=
  match (w.kids g)[i]? with
  | some s => decide (s &&& emptyData = 0)
  | none => false

/-- `OGroup::isChildEmptyGroup`, src/OGroup.cpp:299-303; `EMPTY_GROUP` is 0, include/Foundation.h:44. -/
def isChildEmptyGroup (w : Writer) (g i : Nat) : Bool :=
  match (w.kids g)[i]? with
  | some s => decide (s = 0)
  | none => false

/-- `OGroup::isChildEmptyData`, src/OGroup.cpp:305-309. -/
def isChildEmptyData (w : Writer) (g i : Nat) : Bool :=
  match (w.kids g)[i]? with
  | some s => decide (s = emptyData)
  | none => false

/-- `OGroup::replaceData`, src/OGroup.cpp:311-325. -/
def replaceData (w : Writer) (g i d : Nat) : Writer :=
  if w.closed then w
  else
    match w.datas[d]? with
    | none => w
    | some o =>
      if w.isChildData g i then
        let v := o.pos ||| emptyData
        (match w.pos g with
          | some q => w.write (q + (i + 1) * 8) (le64 v)
          | none => w).setKid g i v
      else w

/-- `OData::rewrite`, src/OData.cpp:84-100, with 64-bit arithmetic. Data of size 0 have no stream. -/
def rewrite (w : Writer) (d : Nat) (bs : List UInt8) (offset : Nat) : Writer :=
  if w.closed then w
  else
    match w.datas[d]? with
    | none => w
    | some o =>
      if bs.length = 0 ∨ o.size = 0 ∨ (offset + bs.length) % 2 ^ 64 > o.size then w
      else w.write ((o.pos + offset + 8) % 2 ^ 64) bs

/-- `~OStream`, src/OStream.cpp:105-113: all objects hold pointers to the stream, so they are gone. -/
def close (w : Writer) : Writer :=
  if w.groups.all (fun o => o.pos.isSome) && !w.closed then { w.write 5 [255] with closed := true } else w

end Writer

/-- Calls a client can make. -/
inductive Op where
  | addGroup (g : Nat)
  | createData (g : Nat) (bytes : List UInt8)
  | createParts (g : Nat) (parts : List (List UInt8))
  | addData (g : Nat) (bytes : List UInt8)
  | addParts (g : Nat) (parts : List (List UInt8))
  | shareData (g d : Nat)
  | shareGroup (g h : Nat)
  | addEmptyGroup (g : Nat)
  | addEmptyData (g : Nat)
  | freeze (g : Nat)
  | replaceData (g i d : Nat)
  | rewrite (d : Nat) (bytes : List UInt8) (offset : Nat)
  | close
deriving DecidableEq, Repr

def Writer.step (w : Writer) : Op → Writer
  | .addGroup g => w.addGroup g
  | .createData g bs => w.createData g bs
  | .createParts g ps => w.createParts g ps
  | .addData g bs => w.addData g bs
  | .addParts g ps => w.addParts g ps
  | .shareData g d => w.shareData g d
  | .shareGroup g h => w.shareGroup g h
  | .addEmptyGroup g => w.addEmptyGroup g
  | .addEmptyData g => w.addEmptyData g
  | .freeze g => w.freeze g
  | .replaceData g i d => w.replaceData g i d
  | .rewrite d bs off => w.rewrite d bs off
  | .close => w.close

def Writer.run (w : Writer) (ops : List Op) : Writer := ops.foldl Writer.step w

end OgawaGraph
end F3D
