/-!
# The Ogawa container

Models the bundled copy of the Ogawa library: `OStream`, `OGroup`, `OArchive` (writer) and `IStreams`,
`IArchive`, `IGroup`, `IData` (reader), src/O*.cpp and src/I*.cpp.

A file is a list of bytes. 64-bit words are written little-endian; positions and sizes are natural
numbers that are truncated to 64 bits when written. One reader stream is modelled; the choice of the
stream by thread index only selects another handle of the same file.
-/

namespace F3D
namespace Ogawa

abbrev File := List UInt8

/-- A `uint64_t` as written by `stream->write(&x, 8)` on a little-endian machine. -/
def le64 (n : Nat) : List UInt8 :=
  [UInt8.ofNat n, UInt8.ofNat (n / 256), UInt8.ofNat (n / 256 ^ 2), UInt8.ofNat (n / 256 ^ 3),
   UInt8.ofNat (n / 256 ^ 4), UInt8.ofNat (n / 256 ^ 5), UInt8.ofNat (n / 256 ^ 6), UInt8.ofNat (n / 256 ^ 7)]

/-- The number in a run of bytes, least significant first. -/
def unle : List UInt8 → Nat
  | [] => 0
  | b :: bs => b.toNat + 256 * unle bs

/-- `EMPTY_DATA`, include/Foundation.h:50. -/
def emptyData : Nat := 2 ^ 63
/-- `INVALID_GROUP`, include/Foundation.h:47. -/
def invalidGroup : Nat := 2 ^ 63 - 1

/-! ## Writer -/

/-- A positioned write: `seek(pos)` and `write(bytes)`, src/OStream.cpp:169-189. -/
structure Write where
  pos : Nat
  bytes : List UInt8
deriving DecidableEq, Repr

/-- Effect of a write on a file; a gap is filled with zeros. -/
def writeAt (f : File) (pos : Nat) (bs : List UInt8) : File :=
  (f ++ List.replicate (pos - f.length) 0).take pos ++ bs ++ f.drop (pos + bs.length)

def applyWrites (ws : List Write) : File := ws.foldl (fun f w => writeAt f w.pos w.bytes) []

/-- `OGroup::PrivateData`, src/OGroup.cpp:46-66. `parent`: the group and slot this group was created in
(`none` for the root group of the archive). A group added by `addGroup()` has one parent; `addGroup`
of an existing group, `createData` without adding the data, `replaceData` and `OData::rewrite` are
in `Verif.Model.OgawaGraph`. -/
structure OGroup where
  kids : List Nat
  parent : Option (Nat × Nat)
  /-- `pos`; `none` is `INVALID_GROUP`, not yet frozen. -/
  pos : Option Nat
deriving DecidableEq, Repr

/-- The archive being written: the groups created so far, the file and the writes made. -/
structure Writer where
  file : File
  writes : List Write
  groups : List OGroup
  /-- the stream has been destroyed -/
  closed : Bool
deriving DecidableEq, Repr

/-- Header written by `OStream::init`, src/OStream.cpp:127-154. -/
def header : List UInt8 := [79, 103, 97, 119, 97, 0, 0, 1, 0, 0, 0, 0, 0, 0, 0, 0]

namespace Writer

def emit (w : Writer) (pos : Nat) (bs : List UInt8) : Writer :=
  { w with file := writeAt w.file pos bs, writes := w.writes ++ [⟨pos, bs⟩] }

/-- `getAndSeekEndPos` and `write`. -/
def append (w : Writer) (bs : List UInt8) : Writer := w.emit w.file.length bs

/-- `OArchive::OArchive`, src/OArchive.cpp:44-48. -/
def init : Writer :=
  { ({ file := [], writes := [], groups := [], closed := false } : Writer).append header with
    groups := [⟨[], none, none⟩] }

def group (w : Writer) (g : Nat) : Option OGroup := w.groups[g]?

def isFrozen (w : Writer) (g : Nat) : Bool :=
  match w.groups[g]? with
  | some o => o.pos.isSome
  | none => false

/-- The group exists and is not frozen. -/
def isOpen (w : Writer) (g : Nat) : Bool :=
  match w.groups[g]? with
  | some o => o.pos.isNone
  | none => false

def pushKid (w : Writer) (g : Nat) (slot : Nat) : Writer :=
  { w with groups := w.groups.modify g (fun o => { o with kids := o.kids ++ [slot] }) }

/-- `OGroup::addGroup()`, src/OGroup.cpp:87-96. -/
def addGroup (w : Writer) (g : Nat) : Writer :=
  if w.isOpen g then
    let n := match w.groups[g]? with
      | some o => o.kids.length
      | none => 0
    let w := w.pushKid g 0
    { w with groups := w.groups ++ [⟨[], some (g, n), none⟩] }
  else w

/-- `OGroup::addData`, src/OGroup.cpp:98-134 (and 136-188, which writes the same bytes from several
buffers): for zero-length data both `createData` and `addData` push a slot. -/
def addData (w : Writer) (g : Nat) (bs : List UInt8) : Writer :=
  if w.isOpen g then
    if bs.length = 0 then (w.pushKid g emptyData).pushKid g (0 ||| emptyData)
    else
      let pos := w.file.length
      let w := w.append (le64 bs.length)
      let w := w.append bs
      w.pushKid g (pos ||| emptyData)
  else w

/-- `OGroup::addEmptyGroup`, src/OGroup.cpp:215-221. -/
def addEmptyGroup (w : Writer) (g : Nat) : Writer := if w.isOpen g then w.pushKid g 0 else w

/-- `OGroup::addEmptyData`, src/OGroup.cpp:223-229. -/
def addEmptyData (w : Writer) (g : Nat) : Writer := if w.isOpen g then w.pushKid g emptyData else w

/-- `OGroup::freeze`, src/OGroup.cpp:232-275; also what `~OGroup` does. -/
def freeze (w : Writer) (g : Nat) : Writer :=
  match w.groups[g]? with
  | none => w
  | some o =>
    match o.pos with
    | some _ => w
    | none =>
      let pos := if o.kids = [] then 0 else w.file.length
      let w1 := if o.kids = [] then w
        else (w.append (le64 o.kids.length)).append (o.kids.flatMap le64)
      let w2 := { w1 with groups := w1.groups.modify g (fun o => { o with pos := some pos }) }
      match o.parent with
      | none => w2.emit 8 (le64 pos)
      | some (p, i) =>
        let w3 := match w2.groups[p]? with
          | some op =>
            match op.pos with
            | some pp => w2.emit (pp + (i + 1) * 8) (le64 pos)
            | none => w2
          | none => w2
        { w3 with groups := w3.groups.modify p (fun o => { o with kids := o.kids.set i pos }) }

/-- `~OStream`, src/OStream.cpp:105-113: the "frozen" byte. The groups hold pointers to the stream, so it
is destroyed after all of them are. -/
def close (w : Writer) : Writer :=
  if w.groups.all (fun o => o.pos.isSome) && !w.closed then { w.emit 5 [255] with closed := true } else w

end Writer

/-- Calls a client can make. -/
inductive Op where
  | addGroup (g : Nat)
  | addData (g : Nat) (bytes : List UInt8)
  | addEmptyGroup (g : Nat)
  | addEmptyData (g : Nat)
  | freeze (g : Nat)
  | close
deriving DecidableEq, Repr

def Writer.step (w : Writer) : Op → Writer
  | .addGroup g => w.addGroup g
  | .addData g bs => w.addData g bs
  | .addEmptyGroup g => w.addEmptyGroup g
  | .addEmptyData g => w.addEmptyData g
  | .freeze g => w.freeze g
  | .close => w.close

def Writer.run (w : Writer) (ops : List Op) : Writer := ops.foldl Writer.step w

/-! ## Reader -/

/-- `IStreams::read`, src/IStreams.cpp:214-260. `none`: the stream ends before the bytes asked for. -/
def readAt (f : File) (pos size : Nat) : Option (List UInt8) :=
  if pos + size ≤ f.length then some ((f.drop pos).take size) else none

/-- `IGroup::PrivateData`, src/IGroup.cpp:43-62. -/
structure IGroup where
  pos : Nat
  num : Nat
  kids : List Nat
deriving DecidableEq, Repr

/-- Consecutive 64-bit words. -/
def words : Nat → List UInt8 → List Nat
  | 0, _ => []
  | n + 1, bs => unle (bs.take 8) :: words n (bs.drop 8)

namespace IGroup

/-- Constructor, src/IGroup.cpp:64-91. -/
def «open» (f : File) (pos : Nat) (light : Bool) : Option IGroup :=
  if pos = 0 then some ⟨0, 0, []⟩
  else do
    let n ← readAt f pos 8
    let n := unle n
    if !light || n < 9 then
      let bs ← readAt f (pos + 8) (n * 8)
      some ⟨pos, n, words n bs⟩
    else some ⟨pos, n, []⟩

/-- `isLight`, src/IGroup.cpp:181-184. -/
def isLight (g : IGroup) : Bool := decide (g.num ≠ 0 ∧ g.kids = [])

/-- `isChildGroup`, src/IGroup.cpp:157-161. -/
def isChildGroup (g : IGroup) (i : Nat) : Bool :=
  match g.kids[i]? with
  | some s => decide (s &&& emptyData = 0)
  | none => false

/-- `isChildData`, src/IGroup.cpp:163-167. -/
def isChildData (g : IGroup) (i : Nat) : Bool :=
  match g.kids[i]? with
  | some s => decide (s &&& emptyData ≠ 0)
  | none => false

/-- `getGroup`, src/IGroup.cpp:97-123. The outer option is a failed read, the inner one a null
pointer. -/
def getGroup (g : IGroup) (f : File) (i : Nat) (light : Bool) : Option (Option IGroup) :=
  if g.isLight then
    if i < g.num then do
      let s ← readAt f (g.pos + 8 * i + 8) 8
      let s := unle s
      if s &&& emptyData = 0 then (IGroup.open f s light).map some else some none
    else some none
  else if g.isChildGroup i then (IGroup.open f (g.kids.getD i 0) light).map some
  else some none

end IGroup

/-- `IData::PrivateData`, src/IData.cpp:45-60. -/
structure IData where
  pos : Nat
  size : Nat
deriving DecidableEq, Repr

namespace IData

/-- Constructor, src/IData.cpp:67-85. -/
def «open» (f : File) (slot : Nat) : Option IData :=
  let pos := slot &&& invalidGroup
  if pos = 0 then some ⟨0, 0⟩
  else (readAt f pos 8).map (fun n => ⟨pos, unle n⟩)

/-- `read`, src/IData.cpp:87-98, with 64-bit arithmetic. The inner `none`: nothing is read. -/
def read (d : IData) (f : File) (size offset : Nat) : Option (Option (List UInt8)) :=
  if size = 0 ∨ d.size = 0 ∨ (offset + size) % 2 ^ 64 > d.size then some none
  else (readAt f ((d.pos + offset + 8) % 2 ^ 64) size).map some

end IData

/-- `IGroup::getData`, src/IGroup.cpp:125-150. -/
def IGroup.getData (g : IGroup) (f : File) (i : Nat) : Option (Option IData) :=
  if g.isLight then
    if i < g.num then do
      let s ← readAt f (g.pos + 8 * i + 8) 8
      let s := unle s
      if s &&& emptyData ≠ 0 then (IData.open f s).map some else some none
    else some none
  else if g.isChildData i then (IData.open f (g.kids.getD i 0)).map some
  else some none

/-- What opening a file gives. -/
inductive Opened where
  | invalid
  /-- access outside an empty array -/
  | outOfBounds
  /-- the root group could not be read -/
  | truncated
  | archive (frozen : Bool) (root : IGroup)
deriving DecidableEq, Repr

/-- `IStreams::IStreams(file)`, `IStreams::init` and `IArchive::init`, src/IStreams.cpp:85-193,
src/IArchive.cpp:54-62. If the version is not 1 the stream list is cleared but `valid` stays true, so
`IArchive::init` goes on to use the first element of empty arrays. -/
def openArchive (f : File) : Opened :=
  let h := f.take 16 ++ List.replicate (16 - f.length) 0
  if h.take 5 = [79, 103, 97, 119, 97] then
    let frozen := decide (h[5]? = some 255)
    let version := (h.getD 6 0).toNat * 256 + (h.getD 7 0).toNat
    if version ≠ 1 then .outOfBounds
    else
      let pos := unle (h.drop 8)
      match IGroup.open f pos false with
      | some g => .archive frozen g
      | none => .truncated
  else .invalid

end Ogawa
end F3D
