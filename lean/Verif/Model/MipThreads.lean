import Verif.Model.Resample
import Verif.Model.Sparse

/-!
# The worker threads of MIP filtering

Models `MIPSeparableThreadOp`, export/MIPUtil.h:186-348, and the start of the threads in `mipSeparable`,
export/MIPUtil.h:399-415. A schedule is a list of thread numbers; each entry lets that thread make one step: a section
under the mutex or an access to memory shared with other threads. Memory is sequentially consistent.
-/

namespace F3D
namespace MipThreads
open Resample

/-! ## Dense target -/

/-- Where a thread is: about to take the next block, in the loop over the voxels of block `i` with the given ones left, or
finished. -/
inductive Pc where
  | fetch
  | work (i : Nat) (todo : List V3i)
  | done
deriving DecidableEq, Repr

/-- The shared state: `m_nextIdx`, the threads and the target. Not in the code: the blocks taken and the voxels computed so
far, with the thread that did it. -/
structure State where
  next : Nat
  th : List Pc
  tgt : Dense Rat
  taken : List (Nat × Nat)
  computed : List V3i

/-- Start of the threads, export/MIPUtil.h:399-412, after `tgt.setSize(res)`. -/
def State.init (threads : Nat) (tgt : Dense Rat) : State := ⟨0, List.replicate threads .fetch, tgt, [], []⟩

/-- One step of thread `t`, export/MIPUtil.h:211-331: taking a block number under the mutex (229-235 and 325-329, with the
test of the loop), or one voxel (246-319), whose value `val` depends on the source only. `none`: an access is undefined.
Threads that are finished or do not exist make no step. -/
def State.step (blocks : List Box3i) (val : V3i → Option (Option Rat)) (s : State) (t : Nat) : Option State :=
  match s.th[t]? with
  | some .fetch =>
    match blocks[s.next]? with
    | some b => some { s with next := s.next + 1, th := s.th.set t (.work s.next (boxLoop b)),
                              taken := s.taken ++ [(t, s.next)] }
    | none => some { s with next := s.next + 1, th := s.th.set t .done }
  | some (.work i (p :: l)) =>
    match (val p).bind (store s.tgt p) with
    | some g => some { s with tgt := g, th := s.th.set t (.work i l), computed := s.computed ++ [p] }
    | none => none
  | some (.work _ []) => some { s with th := s.th.set t .fetch }
  | some .done => some s
  | none => some s

def State.run (blocks : List Box3i) (val : V3i → Option (Option Rat)) : State → List Nat → Option State
  | s, [] => some s
  | s, t :: l => (s.step blocks val t).bind fun s' => State.run blocks val s' l

/-- `join_all` returns. -/
def State.finished (s : State) : Prop := ∀ pc ∈ s.th, pc = .done

/-- `mipSeparable`, export/MIPUtil.h:353-416, with threads: `tgt.setSize(res)`, then the threads run as in `sched`. -/
def threaded (flt : Filter) (src : Dense Rat) (oldRes newRes add : V3i) (a : Axis) (threads : Nat) (sched : List Nat) :
    Option State :=
  let res := passRes a oldRes newRes
  match Dense.setSize (0 : Rat) (boxOf res) (boxOf res) with
  | .resizeException => none
  | .ok f => State.run (workBlocks res 16) (mipValue flt src.dw src.value add a) (State.init threads f) sched

/-! ## Sparse target

Voxels of a sparse target are stored through `fastLValue`, which allocates a block at its first use. -/

/-- A value to be stored: block, offset in the block, value. -/
structure Write where
  block : Nat
  off : Nat
  v : Rat
deriving DecidableEq, Repr

/-- Where a thread is in `fastLValue(p) = v`, export/SparseField.h:1680-1689: about to test `isAllocated`, about to take
new memory in `resize`, 258-270 (`delete`, `new` and `isAllocated = true`), about to fill it (`fill_n`), or about to store
the value. -/
inductive SPc where
  | test
  | grow
  | fill
  | store
deriving DecidableEq, Repr

/-- A thread: where it is and what it has left to store. -/
structure SThread where
  pc : SPc
  todo : List Write
deriving DecidableEq, Repr

/-- The blocks of the target and the threads. -/
structure SState where
  blocks : List (Block Rat)
  th : List SThread
deriving DecidableEq

/-- One step of thread `t`; `size` is the number of voxels of a block. New memory holds `junk` until it is filled. -/
def SState.step (size : Nat) (junk : Rat) (s : SState) (t : Nat) : Option SState :=
  match s.th[t]? with
  | none => some s
  | some ⟨_, []⟩ => some s
  | some ⟨pc, w :: l⟩ =>
    match s.blocks[w.block]? with
    | none => none
    | some b =>
      match pc with
      | .test => some { s with th := s.th.set t ⟨if b.isAllocated then .store else .grow, w :: l⟩ }
      | .grow => some { s with
          blocks := s.blocks.set w.block { b with isAllocated := true, data := some (List.replicate size junk) }
          th := s.th.set t ⟨.fill, w :: l⟩ }
      | .fill => some { s with
          blocks := s.blocks.set w.block { b with data := b.data.map fun d => List.replicate d.length b.emptyValue }
          th := s.th.set t ⟨.store, w :: l⟩ }
      | .store => match b.write w.off w.v with
        | none => none
        | some b' => some { blocks := s.blocks.set w.block b', th := s.th.set t ⟨.test, l⟩ }

def SState.run (size : Nat) (junk : Rat) : SState → List Nat → Option SState
  | s, [] => some s
  | s, t :: l => (s.step size junk t).bind fun s' => SState.run size junk s' l

/-- The block and the offset that `fastLValue(p)` refers to, export/SparseField.h:1652-1689. -/
def writeAt (f : Sparse Rat) (p : V3i) (v : Rat) : Write :=
  let q := f.offsetCoord p
  ⟨(f.blockId (f.blockCoord q)).toNat, (Block.offset f.order (f.voxelInBlock q)).toNat, v⟩

/-- The threads at their start: thread `t` goes through the work blocks `mine[t]` and stores the values that `r` gives,
export/MIPUtil.h:211-331. -/
def SState.start (f : Sparse Rat) (mine : List (List Box3i)) (r : V3i → Option Rat) : SState :=
  ⟨f.blocks, mine.map fun l => ⟨.test, (l.flatMap boxLoop).filterMap fun p => (r p).map (writeAt f p)⟩⟩

/-- Every thread has stored all its values. -/
def SState.finished (s : SState) : Prop := ∀ th ∈ s.th, th.todo = []

end MipThreads
end F3D
