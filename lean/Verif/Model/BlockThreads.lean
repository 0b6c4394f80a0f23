/-!
# The worker threads that read and write the blocks of a sparse field

Models `ReadBlockOp`, `ThreadingState` and `WriteBlockOp` of src/SparseFieldIO.cpp:80-290. A schedule is a
list of thread numbers; each entry lets that thread make one step. A step is one access to shared memory,
or one section under a mutex. Memory is sequentially consistent.
-/

namespace F3D.BlockThreads

/-! ## Reading -/

/-- Where a reading thread is: about to take the next block number, reading block `i`, or finished. -/
inductive RPc where
  | fetch
  | read (i : Nat)
  | done
deriving DecidableEq, Repr

/-- `ReadThreadingState`, src/SparseFieldIO.cpp:76-108. `log` is not in the code: the blocks filled so far. -/
structure RState (β : Type) where
  next : Nat
  th : List RPc
  blocks : List β
  log : List Nat

/-- Start of `threads` threads, src/SparseFieldIO.cpp:822-834. -/
def RState.init {β : Type} (threads : Nat) (blocks : List β) : RState β :=
  ⟨0, List.replicate threads .fetch, blocks, []⟩

/-- One step of thread `t`: `ReadBlockOp::operator()`, src/SparseFieldIO.cpp:129-153. `fill i b` is block `b`
after `readBlock(blockIdxToDatasetIdx[i], b.data)`; no other thread has the number `i`, and threads of other
blocks touch other memory, so it is one step. -/
def RState.step {β : Type} (alloc : β → Bool) (fill : Nat → β → β) (s : RState β) (t : Nat) : RState β :=
  match s.th[t]? with
  | some .fetch =>
    { s with next := s.next + 1, th := s.th.set t (if s.next < s.blocks.length then .read s.next else .done) }
  | some (.read i) =>
    match s.blocks[i]? with
    | some b =>
      if alloc b then { s with blocks := s.blocks.set i (fill i b), log := s.log ++ [i], th := s.th.set t .fetch }
      else { s with th := s.th.set t .fetch }
    | none => s
  | _ => s

def RState.run {β : Type} (alloc : β → Bool) (fill : Nat → β → β) (s : RState β) (sched : List Nat) : RState β :=
  sched.foldl (RState.step alloc fill) s

/-- `join_all` returns. -/
def RState.finished {β : Type} (s : RState β) : Prop := ∀ pc ∈ s.th, pc = .done

/-! ## Writing -/

/-- Where a writing thread is, src/SparseFieldIO.cpp:217-286:
* `fetch`: about to take the mutex and the next block to compress (220-230, 273-284);
* `wait i`: spinning until it is block `i`'s turn (256-260);
* `write i`: about to add the data of block `i` (262);
* `load`: about to read `nextBlockToWrite` for an increment (264, 270);
* `store v`: about to write back `v`;
* `test`: about to compare `nextBlockToWrite` to the number of blocks (265);
* `flag`: about to look at `isAllocated` of block `nextBlockToWrite` (267). -/
inductive WPc where
  | fetch
  | wait (i : Nat)
  | write (i : Nat)
  | load
  | store (v : Nat)
  | test
  | flag
  | done
deriving DecidableEq, Repr

/-- `ThreadingState`, src/SparseFieldIO.cpp:164-202. `log`: the blocks whose data was added, in order. -/
structure WState where
  nextC : Nat
  nextW : Nat
  th : List WPc
  log : List Nat
deriving DecidableEq, Repr

/-- The first allocated block at or after `k`, or the number of blocks: the loops at 181-190 (from 0) and
224-229, 278-283. -/
def nextFrom (alloc : List Bool) (k : Nat) : Nat :=
  k + ((alloc.drop k).takeWhile (! ·)).length

/-- Constructor, src/SparseFieldIO.cpp:167-190, and thread creation, 1118-1124. -/
def WState.init (threads : Nat) (alloc : List Bool) : WState :=
  ⟨nextFrom alloc 0, nextFrom alloc 0, List.replicate threads .fetch, []⟩

/-- What a thread does with the block number `i` it took, src/SparseFieldIO.cpp:232-238. -/
def taken (alloc : List Bool) (i : Nat) : WPc :=
  match alloc[i]? with
  | some true => .wait i
  | some false => .fetch
  | none => .done

/-- One step of thread `t`. `oob` is what reading `isAllocated` of a block past the end yields (undefined in
C++). Compression and its failure, 240-255, are not modelled: compression always succeeds. -/
def WState.step (alloc : List Bool) (oob : Bool) (s : WState) (t : Nat) : WState :=
  match s.th[t]? with
  | some .fetch =>
    let i := s.nextC
    { s with nextC := nextFrom alloc (s.nextC + 1),
             th := s.th.set t (taken alloc i) }
  | some (.wait i) => if s.nextW = i then { s with th := s.th.set t (.write i) } else s
  | some (.write i) => { s with log := s.log ++ [i], th := s.th.set t .load }
  | some .load => { s with th := s.th.set t (.store (s.nextW + 1)) }
  | some (.store v) => { s with nextW := v, th := s.th.set t .test }
  | some .test => { s with th := s.th.set t (if s.nextW < alloc.length then .flag else .fetch) }
  | some .flag => { s with th := s.th.set t (if (alloc[s.nextW]?).getD oob then .fetch else .load) }
  | _ => s

def WState.run (alloc : List Bool) (oob : Bool) (s : WState) (sched : List Nat) : WState :=
  sched.foldl (WState.step alloc oob) s

def WState.finished (s : WState) : Prop := ∀ pc ∈ s.th, pc = .done

/-- The thread is moving `nextBlockToWrite` on to the next allocated block. -/
def WPc.advancing : WPc → Bool
  | .load => true
  | .store _ => true
  | .test => true
  | .flag => true
  | _ => false

end F3D.BlockThreads
