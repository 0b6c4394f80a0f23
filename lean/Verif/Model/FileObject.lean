import Verif.Model.Hdf5Files

/-!
# File objects: two formats behind one class

Models `Field3DInputFile` and `Field3DOutputFile`, export/Field3DFile.h and src/Field3DFile.cpp, as objects that are used
for one file after the other. What they do with an Ogawa file is in `Verif.Model.Files`, what the HDF5 objects do that
they hand their work to is in `Verif.Model.Hdf5Files`. `m_hdf5` and `m_hdf5Base` always point to the same object.
-/

namespace F3D
namespace FileObject
open Ogawa Og FieldIO
open Metadata (Meta readMeta)
open Files (kGlobal FieldClass Loaded)

/-! ## Reading -/

/-- What is found under a file name: nothing, a valid Ogawa archive with this root group, an HDF5 file with this root,
something else. -/
inductive Disk where
  | missing
  | ogawa (root : List Tree)
  | hdf5 (root : Hdf5.Obj)
  | other

/-- The readers of mappings of the two formats, and the order in which the HDF5 library visits. -/
structure Maps (L : Type) where
  ogawa : List Tree → Res L
  hdf5 : Hdf5.Obj → Res L
  ord : Hdf5.Order

/-- `Field3DInputFile`: `m_partitions`, `m_metadata` and `m_root`, and the object that `m_hdf5` points to. -/
structure In (L : Type) where
  own : Files.In L
  hdf5 : Option (Hdf5.In L)

variable {L F : Type}

/-- A new object. -/
def In.new : In L := ⟨⟨[], .empty, []⟩, none⟩

/-- `clear`, src/Field3DFile.cpp:614-624, export/Field3DFile.h:547-567, src/Field3DFileHDF5.cpp:487-492. -/
def In.clear (s : In L) : In L :=
  match s.hdf5 with
  | some h => { s with hdf5 := some { h with parts := [], file := none } }
  | none => { s with own := { s.own with parts := [], root := [] } }

/-- `close`, src/Field3DFile.cpp:628-637, src/Field3DFileHDF5.cpp:496-517. -/
def In.close (s : In L) : In L :=
  match s.hdf5 with
  | some h => { s with hdf5 := some { h with file := none } }
  | none => { s with own := { s.own with parts := [], root := [] } }

/-- The part of `open` for a valid archive, src/Field3DFile.cpp:741-813, by an object that may have partitions and
metadata. `none` is a crash. Simplified: the partitions added before `readPartitionAndLayerInfo` fails are left out. -/
def openOwn (readMap : List Tree → Res L) (root : List Tree) (own : Files.In L) : Option (Bool × Files.In L) :=
  match Files.versionOk root with
  | none => none
  | some false => some (false, { own with root })
  | some true =>
    match find .group kGlobal root with
    | none => none
    | some g =>
      match (match g with | none => some own.info | some ks => readMeta ks own.info) with
      | none => none
      | some info =>
        match names .group root with
        | none => none
        | some l =>
          let ns := l.filter fun x => x ≠ kGlobal
          match Files.readMappings readMap root ns with
          | .ok ps =>
            match Files.readAllLayers root ns (own.parts ++ ps) with
            | none => none
            | some ps => some (true, ⟨ps, info, root⟩)
          | .crash => none
          | .running => none
          | _ => some (false, ⟨own.parts, info, root⟩)

/-- The fallback, src/Field3DFile.cpp:730-739 and 829-842: a new HDF5 object. -/
def openHdf5 (R : Maps L) (root : Hdf5.Obj) (s : In L) : Option (Bool × In L) :=
  match Hdf5.In.openFile R.ord R.hdf5 root Hdf5.In.new with
  | none => none
  | some (true, h) => some (true, { s with hdf5 := some h })
  | some (false, h) => some (false, In.close { s with hdf5 := some h })

/-- `open`, src/Field3DFile.cpp:714-853. -/
def In.open (R : Maps L) (s : In L) : Disk → Option (Bool × In L)
  | .missing => some (false, s.clear.close)
  | .ogawa root =>
    match openOwn R.ogawa root s.clear.own with
    | none => none
    | some (true, own) => some (true, { s.clear with own })
    | some (false, own) => some (false, In.close { s.clear with own })
  | .hdf5 root => openHdf5 R root s.clear
  | .other => some (false, In.close { s.clear with hdf5 := some Hdf5.In.new })

/-- `encoding`, export/Field3DFile.h:434-438: whether it says "HDF5". -/
def In.saysHdf5 (s : In L) : Bool := s.hdf5.isSome

/-- `metadata`, export/Field3DFile.h:276-291. -/
def In.metadata (s : In L) : Meta :=
  match s.hdf5 with
  | some h => h.info
  | none => s.own.info

/-- What `getPartitionNames`, `getScalarLayerNames` and `getVectorLayerNames` look at, src/Field3DFile.cpp:491-558. -/
def In.listing (s : In L) (isVec : Bool) : Files.Listing :=
  match s.hdf5 with
  | some h => h.listing isVec
  | none => s.own.listing

/-- `readScalarLayers` and `readVectorLayers` with partition and layer name, export/Field3DFile.h:472-504; `fo` and `fh`
are the readers of fields of the two formats. -/
def In.readLayers [FieldClass F] (R : Maps L) (s : In L) (fo : Name → Name → List Tree → Res F)
    (fh : Name → Name → Hdf5.Obj → Res F) (isVec : Bool) (u l : Name) : Res (List (Loaded L F)) :=
  match s.hdf5 with
  | some h => h.readLayers R.ord fh isVec u l
  | none => s.own.readLayers fo u l

/-- The same with the layer name alone, export/Field3DFile.h:459-467, 489-497. -/
def In.readAll [FieldClass F] (R : Maps L) (s : In L) (fo : Name → Name → List Tree → Res F)
    (fh : Name → Name → Hdf5.Obj → Res F) (isVec : Bool) (l : Name) : Res (List (Loaded L F)) :=
  match s.hdf5 with
  | some h => h.readAll R.ord fh isVec l
  | none => s.own.readAll fo l

/-- `readLayers<Data_T>`, src/Field3DFile.cpp:1608-1677: `m_hdf5` is not looked at. -/
def In.readTyped [FieldClass F] (s : In L) (fo : Name → Name → List Tree → Res F) (u l : Name) : Res (List (Loaded L F)) :=
  s.own.readLayers fo u l
def In.readAllTyped [FieldClass F] (s : In L) (fo : Name → Name → List Tree → Res F) (l : Name) : Res (List (Loaded L F)) :=
  s.own.readAll fo l

/-- Calls that change an input object. -/
inductive InCall where
  | open (d : Disk)
  | close
  | clear

def In.step (R : Maps L) (s : In L) : InCall → Option (In L)
  | .open d => (s.open R d).map (·.2)
  | .close => some s.close
  | .clear => some s.clear

/-- Any calls, one after the other: `none` after a crash. -/
def In.run (R : Maps L) (s : In L) : List InCall → Option (In L)
  | [] => some s
  | c :: cs => (s.step R c).bind fun s => In.run R s cs

/-! ## Writing -/

variable {M : Type}

/-- How the formats write mappings. -/
structure Formats (M : Type) where
  ogawa : Files.MapIO M
  hdf5 : Hdf5.MapIO M

/-- `Field3DOutputFile`: `m_archive`, `m_root` and `m_partitions`, and the object that `m_hdf5` points to. `own` is `none`
when `m_partitions` are those of an earlier archive: what happens to them then is not modelled. -/
structure Out (M : Type) where
  own : Option (Files.Out M)
  hdf5 : Option (Hdf5.Out M)

def Out.new : Out M := ⟨some Files.Out.new, none⟩

/-- `create`, src/Field3DFile.cpp:976-1010, with `closeInternal`, export/Field3DFile.h:796-803. `useOgawa`: what was set
with `useOgawa` last. -/
def Out.create (s : Out M) (useOgawa ok : Bool) : Out M :=
  if useOgawa then
    match s.hdf5 with
    | none => { s with own := s.own.map fun o => o.create ok }
    | some h =>
      ⟨s.own.bind fun o => if o.parts.isEmpty && ok then some (o.create true) else none, some h.close⟩
  else { s with hdf5 := some (Hdf5.Out.new.create ok) }

/-- `close`, src/Field3DFile.cpp:628-637. -/
def Out.close (s : Out M) : Out M :=
  match s.hdf5 with
  | some h => { s with hdf5 := some h.close }
  | none => { s with own := s.own.map Files.Out.close }

/-- The results of calls on HDF5 objects. -/
def retOf : Hdf5.Ret → Files.Ret
  | .ok => .written
  | .failed => .failed
  | .threw => .threw
  | .crash => .crash

/-- Calls on an output object. A layer is given by what it is in each of the formats. -/
inductive OutCall (M : Type) where
  | create (useOgawa ok : Bool)
  | close
  /-- `writeScalarLayer`, `writeVectorLayer` -/
  | write (w : Files.Write M) (h : Hdf5.Write M)
  /-- `writeLayer` -/
  | writeTyped (w : Files.Write M)
  /-- `writeGlobalMetadata` -/
  | global (es : List Entry) (m : Meta)

/-- `writeLayer`, src/Field3DFile.cpp:1409-1510: `m_hdf5` is not looked at. -/
def Out.writeTyped (C : Formats M) (s : Out M) (w : Files.Write M) : Files.Ret × Out M :=
  match s.own with
  | none => (.crash, s)
  | some o =>
    let r := Files.writeLayer C.ogawa w o
    (r.1, { s with own := some r.2 })

/-- `writeScalarLayer` and `writeVectorLayer`, export/Field3DFile.h:712-775. -/
def Out.write (C : Formats M) (s : Out M) (w : Files.Write M) (h : Hdf5.Write M) : Files.Ret × Out M :=
  match s.hdf5 with
  | some o =>
    let r := Hdf5.writeLayer C.hdf5 h o
    (retOf r.1, { s with hdf5 := some r.2 })
  | none => s.writeTyped C w

/-- `writeGlobalMetadata`, src/Field3DFile.cpp:1233-1247. -/
def Out.global (s : Out M) (es : List Entry) (m : Meta) : Files.Ret × Out M :=
  match s.hdf5 with
  | some o =>
    let r := Hdf5.writeGlobal m o
    (retOf r.1, { s with hdf5 := some r.2 })
  | none =>
    match s.own with
    | none => (.crash, s)
    | some o =>
      let r := Files.writeGlobal es o
      (r.1, { s with own := some r.2 })

def Out.step (C : Formats M) (s : Out M) : OutCall M → Files.Ret × Out M
  | .create u ok => (if ok then .written else .failed, s.create u ok)
  | .close => (.written, s.close)
  | .write w h => s.write C w h
  | .writeTyped w => s.writeTyped C w
  | .global es m => s.global es m

/-- The results of calls, one after the other. After a crash, or a call that is not modelled, the state is `none`. -/
def Out.run (C : Formats M) (s : Out M) : List (OutCall M) → Option (List Files.Ret × Out M)
  | [] => some ([], s)
  | c :: cs =>
    match s.step C c with
    | (.crash, _) => none
    | (r, s) => (Out.run C s cs).map fun x => (r :: x.1, x.2)

end FileObject
end F3D
