/-!
# The tables of references of dynamically loaded fields

Models `SparseFile::FileReferences` (export/SparseFile.h:253-318, 893-1120, src/SparseFile.cpp:455-487): one table for each of
the six voxel types, and how `SparseFileManager` finds the reference of a block through the type that the block was recorded
with. `Verif.Model.Cache` names a field by one number, which stands for the pair of type and index; here the pair is kept.
Calls are one after the other. Left out: the clock hand and the choice of the block that is freed (`Verif.Model.Cache`), so
that positions in the list of blocks are given; use flags and pins; the data of blocks; opening of files.
-/

namespace F3D
namespace FileRefs

/-- The six types of voxels. -/
inductive VT
  | half
  | vecHalf
  | float
  | vecFloat
  | double
  | vecDouble
deriving DecidableEq, Repr

/-- `DataTypeEnum`, export/Traits.h:108-118. -/
inductive DT
  | half
  | unsignedChar
  | int
  | float
  | double
  | vecHalf
  | vecFloat
  | vecDouble
  | unknown
deriving DecidableEq, Repr

/-- `DataTypeTraits<Data_T>::typeEnum`, export/Traits.h:350-410. -/
def typeEnum : VT → DT
  | .half => .half
  | .float => .float
  | .double => .double
  | .vecHalf => .vecHalf
  | .vecFloat => .vecFloat
  | .vecDouble => .vecDouble

/-- The `switch` of `deallocateBlocks`, src/SparseFile.cpp:164-205, and of `flushCache`, 219-243: the type for which
`deallocateBlock` is called. -/
def dispatch : DT → Option VT
  | .half => some .half
  | .float => some .float
  | .double => some .double
  | .vecHalf => some .vecHalf
  | .vecFloat => some .vecFloat
  | .vecDouble => some .vecDouble
  | _ => none

/-- `FileReferences`, export/SparseFile.h:305-310. -/
structure Refs (R : Type) where
  h : List R
  vh : List R
  f : List R
  vf : List R
  d : List R
  vd : List R

variable {R : Type}

def Refs.empty : Refs R := ⟨[], [], [], [], [], []⟩

/-- `ref<Data_T>(idx)`, export/SparseFile.h:921-995; `none`: out of range. -/
def Refs.ref (s : Refs R) (t : VT) (i : Nat) : Option R :=
  match t with
  | .half => s.h[i]?
  | .vecHalf => s.vh[i]?
  | .float => s.f[i]?
  | .vecFloat => s.vf[i]?
  | .double => s.d[i]?
  | .vecDouble => s.vd[i]?

/-- `append<Data_T>(ref)`, export/SparseFile.h:999-1061. -/
def Refs.append (s : Refs R) (t : VT) (r : R) : Nat × Refs R :=
  match t with
  | .half => let s' := { s with h := s.h ++ [r] }; (s'.h.length - 1, s')
  | .vecHalf => let s' := { s with vh := s.vh ++ [r] }; (s'.vh.length - 1, s')
  | .float => let s' := { s with f := s.f ++ [r] }; (s'.f.length - 1, s')
  | .vecFloat => let s' := { s with vf := s.vf ++ [r] }; (s'.vf.length - 1, s')
  | .double => let s' := { s with d := s.d ++ [r] }; (s'.d.length - 1, s')
  | .vecDouble => let s' := { s with vd := s.vd ++ [r] }; (s'.vd.length - 1, s')

/-- `numRefs<Data_T>()`, export/SparseFile.h:1065-1119. -/
def Refs.numRefs (s : Refs R) : VT → Nat
  | .half => s.h.length
  | .vecHalf => s.vh.length
  | .float => s.f.length
  | .vecFloat => s.vf.length
  | .double => s.d.length
  | .vecDouble => s.vd.length

/-- A change of the object that `ref<Data_T>(idx)` points at. -/
def Refs.modify (s : Refs R) (t : VT) (i : Nat) (g : R → R) : Refs R :=
  match t with
  | .half => { s with h := s.h.modify i g }
  | .vecHalf => { s with vh := s.vh.modify i g }
  | .float => { s with f := s.f.modify i g }
  | .vecFloat => { s with vf := s.vf.modify i g }
  | .double => { s with d := s.d.modify i g }
  | .vecDouble => { s with vd := s.vd.modify i g }

/-- The loops of `totalLoads`, `numLoadedBlocks` and `totalLoadedBlocks`, src/SparseFile.cpp:292-377. -/
def Refs.total (s : Refs R) (g : R → Nat) : Nat :=
  (s.h.map g).sum + (s.vh.map g).sum + (s.f.map g).sum + (s.vf.map g).sum + (s.d.map g).sum + (s.vd.map g).sum

/-- `FileReferences::memSize`, src/SparseFile.cpp:455-487; `ptr` is the size of a pointer, `mem` is `Reference::memSize`. -/
def Refs.memSize (s : Refs R) (ptr : Nat) (mem : R → Nat) : Nat :=
  s.h.length * ptr + s.vh.length * ptr + s.f.length * ptr + s.vf.length * ptr + s.d.length * ptr + s.vd.length * ptr +
    s.total mem

/-- The parts of `Reference` that matter here: `blockSize`, export/SparseFile.h:770-774, `fileBlockIndices[b] >= 0` and
`blockLoaded[b]`. -/
structure Ref where
  bytes : Nat
  stored : List Bool
  loaded : List Bool
deriving DecidableEq, Repr

/-- `CacheBlock`, export/SparseFile.h:322-331. -/
structure CB where
  type : DT
  ref : Nat
  block : Nat
deriving DecidableEq, Repr

/-- `SparseFileManager`: the tables, `m_blockCacheList` and `m_memUse`. -/
structure Mgr where
  refs : Refs Ref
  list : List CB
  memUse : Int

def Mgr.new : Mgr := ⟨Refs.empty, [], 0⟩

/-- `getNextId`, export/SparseFile.h:1181-1194, followed by `setNumBlocks`, 677-704, and the block indices of the file. -/
def register (m : Mgr) (t : VT) (bytes : Nat) (stored : List Bool) : Nat × Mgr :=
  let a := m.refs.append t ⟨bytes, stored, stored.map fun _ => false⟩
  (a.1, { m with refs := a.2 })

/-- `activateBlock`, export/SparseFile.h:1255-1293, without eviction; `p` is where `addBlockToCache`,
src/SparseFile.cpp:251-273, puts the block. `none`: an index out of range. -/
def activate (m : Mgr) (t : VT) (i b p : Nat) : Option Mgr :=
  match m.refs.ref t i with
  | none => none
  | some r =>
    match r.stored[b]?, r.loaded[b]? with
    | some true, some false =>
      some { refs := m.refs.modify t i fun r => { r with loaded := r.loaded.set b true },
             list := m.list.take p ++ ⟨typeEnum t, i, b⟩ :: m.list.drop p, memUse := m.memUse + r.bytes }
    | some _, some _ => some m
    | _, _ => none

/-- `deallocateBlock`, both versions, src/SparseFile.cpp:97-150, for a block that is freed; the caller takes it out of the
list. -/
def unload (m : Mgr) (t : VT) (cb : CB) : Option Mgr :=
  match m.refs.ref t cb.ref with
  | none => none
  | some r =>
    if cb.block < r.loaded.length then
      some { m with refs := m.refs.modify t cb.ref fun r => { r with loaded := r.loaded.set cb.block false },
                    memUse := m.memUse - r.bytes }
    else none

/-- One block freed by `deallocateBlocks`, src/SparseFile.cpp:154-208: that at position `p`. Blocks of other types are left. -/
def evict (m : Mgr) (p : Nat) : Option Mgr :=
  match m.list[p]? with
  | none => some m
  | some cb =>
    match dispatch cb.type with
    | none => some m
    | some t => (unload m t cb).map fun m => { m with list := m.list.eraseIdx p }

/-- The loop of `flushCache`, src/SparseFile.cpp:212-247, over the rest of the list: a block of another type is met again
and again. -/
def flushFrom (m : Mgr) : List CB → Option Mgr
  | [] => some { m with list := [] }
  | cb :: l =>
    match dispatch cb.type with
    | none => none
    | some t => (unload m t cb).bind fun m => flushFrom m l

def flush (m : Mgr) : Option Mgr := flushFrom m m.list

/-- `removeFieldFromCache`, export/SparseFile.h:1198-1242. -/
def remove (m : Mgr) (t : VT) (i : Nat) : Option Mgr :=
  match m.refs.ref t i with
  | none => none
  | some r =>
    let gone := m.list.filter fun cb => cb.type = typeEnum t ∧ cb.ref = i
    some { refs := m.refs.modify t i fun r => { r with stored := r.stored.map fun _ => false, loaded := [] },
           list := m.list.filter fun cb => ¬ (cb.type = typeEnum t ∧ cb.ref = i),
           memUse := m.memUse - (gone.map fun _ => r.bytes).sum }

/-- Calls on the manager. -/
inductive Op
  | register (t : VT) (bytes : Nat) (stored : List Bool)
  | activate (t : VT) (i b p : Nat)
  | evict (p : Nat)
  | flush
  | remove (t : VT) (i : Nat)

def step (m : Mgr) : Op → Option Mgr
  | .register t bytes stored => some (register m t bytes stored).2
  | .activate t i b p => activate m t i b p
  | .evict p => evict m p
  | .flush => flush m
  | .remove t i => remove m t i

/-- Calls one after the other; nothing is said after undefined behaviour. -/
def run (m : Mgr) : List Op → Option Mgr
  | [] => some m
  | o :: os => (step m o).bind fun m => run m os

end FileRefs
end F3D
