/-!
# The block cache of dynamically loaded sparse fields

Models `SparseFileManager` (export/SparseFile.h:1181-1318, src/SparseFile.cpp:60-290) and the parts of
`SparseFile::Reference` it uses (export/SparseFile.h:677-773, src/SparseFile.cpp:497-532), together
with the read path `SparseField::fastValue` of a dynamic field (export/SparseField.h:1630-1643).

Blocks are named by a key: the field number stands for the pair (data type, index in the manager's
table of references). Memory amounts are unbounded integers. Steps of different threads interleave at
the granularity of the critical sections (sequential consistency); file opening is not modelled.
-/

namespace F3D
namespace Cache

/-- `SparseFile::CacheBlock`, export/SparseFile.h:322-331. -/
structure Key where
  field : Nat
  block : Nat
deriving DecidableEq, Repr

/-- Pointwise update of a per-block table. -/
def upd {β : Type} (f : Key → β) (k : Key) (v : β) : Key → β := fun x => if x = k then v else f x

/-- State of the manager and of its references. The list of cached blocks
(`m_blockCacheList`, a std::list) with the clock hand `m_nextBlock` (an iterator into it) is split at
the hand: `pre` are the elements before the hand, `post` the element at the hand and those after it;
`post = []` is `m_nextBlock == end()`. -/
structure St (α : Type) where
  /-- `fileBlockIndices[b] >= 0`: the block is stored in the file. -/
  stored : Key → Bool
  /-- `blockSize(b)`, export/SparseFile.h:771-774. -/
  size : Key → Nat
  /-- `blockLoaded[b]`. -/
  flag : Key → Bool
  /-- The block's data pointer and what it points to. -/
  data : Key → Option (List α)
  /-- `blockUsed[b]`. -/
  used : Key → Bool
  /-- `refCounts[b]`. -/
  refs : Key → Int
  /-- `loadCounts[b]`. -/
  loads : Key → Nat
  pre : List Key
  post : List Key
  /-- `m_memUse`. -/
  memUse : Int
  /-- `m_maxMemUseInBytes`. -/
  maxMem : Int
  /-- `m_limitMemUse`. -/
  limitOn : Bool

namespace St
variable {α : Type}

/-- The manager after its constructor (src/SparseFile.cpp:282-288) with references whose blocks are not
loaded (`setNumBlocks`, export/SparseFile.h:677-704). -/
def init (stored : Key → Bool) (size : Key → Nat) (maxMem : Int) (limitOn : Bool) : St α :=
  { stored, size, flag := fun _ => false, data := fun _ => none, used := fun _ => false,
    refs := fun _ => 0, loads := fun _ => 0, pre := [], post := [], memUse := 0, maxMem, limitOn }

/-- `Reference::unloadBlock`, export/SparseFile.h:722-741. -/
def unload (c : St α) (k : Key) : St α :=
  { c with data := upd c.data k none, flag := upd c.flag k false }

/-- `Reference::loadBlock`, src/SparseFile.cpp:497-532; `file k` is what the reader returns for the
block. -/
def loadBlock (file : Key → List α) (c : St α) (k : Key) : St α :=
  { c with data := upd c.data k (some (file k)), flag := upd c.flag k true }

/-- `addBlockToCache`, src/SparseFile.cpp:260-278: `push_back` if the hand is at the end, else insert
before the hand. In both cases the hand stays where it is. -/
def addToCache (c : St α) (k : Key) : St α :=
  match c.post with
  | [] => { c with pre := c.pre ++ [k] }
  | _ :: _ => { c with pre := c.pre ++ [k] }

/-- `Reference::incBlockRef` / `decBlockRef` behind the manager's guard,
export/SparseFile.h:745-766, 1296-1318. -/
def incRef (c : St α) (k : Key) : St α :=
  if c.stored k then { c with refs := upd c.refs k (c.refs k + 1) } else c

def decRef (c : St α) (k : Key) : St α :=
  if c.stored k then { c with refs := upd c.refs k (c.refs k - 1) } else c

/-- Condition of the eviction loop, src/SparseFile.cpp:164-165. -/
def evictCond (c : St α) (needed : Nat) : Bool :=
  decide (c.pre ++ c.post ≠ [] ∧ c.maxMem - c.memUse < needed)

/-- One iteration of the eviction loop, src/SparseFile.cpp:167-218, with `deallocateBlock(cb)`,
src/SparseFile.cpp:98-143. Block sizes are positive, so a freed block makes the loop `continue` with
the hand on the next element. -/
def evictIter (c : St α) : St α :=
  let c : St α := match c.post with
    | [] => { c with post := c.pre, pre := [] }
    | _ :: _ => c
  match c.post with
  | [] => c
  | k :: rest =>
    if c.refs k > 0 then { c with pre := c.pre ++ [k], post := rest }
    else if c.used k then { c with used := upd c.used k false, pre := c.pre ++ [k], post := rest }
    else { c.unload k with memUse := c.memUse - c.size k, post := rest }

/-- A terminating run of the loop of `deallocateBlocks`, src/SparseFile.cpp:160-219: the blocks it freed, in order, and the number of
iterations. -/
inductive Evicts (needed : Nat) : St α → List Key → Nat → St α → Prop where
  | stop {c : St α} : c.evictCond needed = false → Evicts needed c [] 0 c
  | turn {c c' : St α} {vs : List Key} {n : Nat} : c.evictCond needed = true →
      (∀ k, k ∈ c.pre ++ c.post → k ∈ c.evictIter.pre ++ c.evictIter.post) →
      Evicts needed c.evictIter vs n c' → Evicts needed c vs (n + 1) c'
  | free {c c' : St α} {vs : List Key} {n : Nat} (k : Key) : c.evictCond needed = true →
      k ∈ c.pre ++ c.post → k ∉ c.evictIter.pre ++ c.evictIter.post →
      Evicts needed c.evictIter vs n c' → Evicts needed c (k :: vs) (n + 1) c'

/-- The part of `activateBlock` under the locks, export/SparseFile.h:1272-1288. -/
def loadLocked (file : Key → List α) (c : St α) (k : Key) : St α :=
  if c.flag k then c
  else
    let c := c.loadBlock file k
    let c := { c with loads := upd c.loads k (c.loads k + 1) }
    let c := c.addToCache k
    { c with memUse := c.memUse + c.size k }

/-- `deallocateBlock(it)`, src/SparseFile.cpp:147-156, for the first block of the list. -/
def flushOne (c : St α) (k : Key) : St α :=
  { c.unload k with memUse := c.memUse - c.size k }

/-- `flushCache`, src/SparseFile.cpp:223-256: every block of the list is unloaded, whatever its
reference count, and the hand set to `begin()`. -/
def flush (c : St α) : St α :=
  { (c.pre ++ c.post).foldl flushOne c with pre := [], post := [] }

/-- `removeFieldFromCache`, export/SparseFile.h:1197-1242, and the deletion of the field's blocks by
`~SparseField`, export/SparseField.h:1310-1322. -/
def removeField (c : St α) (fd : Nat) : St α :=
  let mine := (c.pre ++ c.post).filter (fun k => decide (k.field = fd))
  { c with
    pre := c.pre.filter (fun k => !decide (k.field = fd))
    post := c.post.filter (fun k => !decide (k.field = fd))
    memUse := c.memUse - (mine.map (fun k => (c.size k : Int))).sum
    stored := fun k => if k.field = fd then false else c.stored k
    flag := fun k => if k.field = fd then false else c.flag k
    data := fun k => if k.field = fd then none else c.data k
    used := fun k => if k.field = fd then false else c.used k
    loads := fun k => if k.field = fd then 0 else c.loads k
    refs := fun k => if k.field = fd then 0 else c.refs k }

end St

/-! ## Threads -/

/-- Where a thread is inside `fastValue` / `activateBlock`. -/
inductive Phase where
  /-- after `incBlockRef`, before the unlocked test of `blockLoaded` -/
  | check
  /-- before taking the manager's mutex in `deallocateBlocks` -/
  | dealloc
  /-- in the loop of `deallocateBlocks`, holding the mutex -/
  | evict
  /-- before taking the mutexes in `activateBlock` -/
  | load
  /-- before `blockUsed[b] = true` -/
  | mark
  /-- before reading the voxel -/
  | read
  /-- before `decBlockRef` -/
  | unpin
deriving DecidableEq, Repr

inductive PC where
  | idle
  | at (ph : Phase) (k : Key) (i : Nat)
deriving DecidableEq, Repr

/-- The manager, its mutex, the threads and the values that voxel reads returned so far (`none` is a
read of a block without data). -/
structure Sys (α : Type) where
  cache : St α
  lock : Option Nat
  threads : List PC
  log : List (Key × Nat × Option α)

inductive Event where
  /-- thread `t` calls `fastValue` for voxel `i` of block `k` and pins the block -/
  | start (t : Nat) (k : Key) (i : Nat)
  /-- thread `t` makes its next step -/
  | run (t : Nat)
  | flush
  | setMax (m : Int)
  | setLimit (b : Bool)
  | remove (field : Nat)
deriving DecidableEq, Repr

namespace Sys
variable {α : Type}

def goto (s : Sys α) (t : Nat) (pc : PC) : Sys α := { s with threads := s.threads.set t pc }

/-- The next step of a thread: `activateBlock`, export/SparseFile.h:1255-1292, `deallocateBlocks`,
src/SparseFile.cpp:160-219, and the voxel read and `decBlockRef` of `fastValue`. `none`: the thread
has nothing to do or waits for the mutex. -/
def runStep (file : Key → List α) (s : Sys α) (t : Nat) : Option (Sys α) :=
  match s.threads[t]? with
  | none => none
  | some .idle => none
  | some (.at .check k i) =>
    if s.cache.stored k ∧ s.cache.flag k = false then
      if s.cache.limitOn then some (s.goto t (.at .dealloc k i)) else some (s.goto t (.at .load k i))
    else some (s.goto t (.at .mark k i))
  | some (.at .dealloc k i) =>
    if s.lock = none then some { s.goto t (.at .evict k i) with lock := some t } else none
  | some (.at .evict k i) =>
    if s.cache.evictCond (s.cache.size k) then some { s with cache := s.cache.evictIter }
    else some { s.goto t (.at .load k i) with lock := none }
  | some (.at .load k i) =>
    if s.lock = none then some { s.goto t (.at .mark k i) with cache := s.cache.loadLocked file k }
    else none
  | some (.at .mark k i) =>
    some { s.goto t (.at .read k i) with cache := { s.cache with used := upd s.cache.used k true } }
  | some (.at .read k i) =>
    some { s.goto t (.at .unpin k i) with
      log := s.log ++ [(k, i, (s.cache.data k).bind (fun d => d[i]?))] }
  | some (.at .unpin k _) =>
    some { s.goto t .idle with cache := s.cache.decRef k }

/-- One event. A read is started by an idle thread on an allocated block (`isAllocated` is the same as
`fileBlockIndices[b] >= 0`, export/SparseField.h:1412-1440); flushing and removing a field need the
mutex; a field that is being read is not destroyed. -/
def step (file : Key → List α) (s : Sys α) : Event → Option (Sys α)
  | .start t k i =>
    if s.threads[t]? = some .idle ∧ s.cache.stored k = true then
      some { s.goto t (.at .check k i) with cache := s.cache.incRef k }
    else none
  | .run t => s.runStep file t
  | .flush => if s.lock = none then some { s with cache := s.cache.flush } else none
  | .setMax m => some { s with cache := { s.cache with maxMem := m } }
  | .setLimit b => some { s with cache := { s.cache with limitOn := b } }
  | .remove fd =>
    if s.lock = none ∧ (s.threads.all fun pc => match pc with
        | .idle => true
        | .at _ k _ => decide (k.field ≠ fd)) then
      some { s with cache := s.cache.removeField fd }
    else none

def exec (file : Key → List α) : Sys α → List Event → Option (Sys α)
  | s, [] => some s
  | s, e :: es => (s.step file e).bind (fun s' => exec file s' es)

/-- `n` idle threads and an empty cache. -/
def init (n : Nat) (stored : Key → Bool) (size : Key → Nat) (maxMem : Int) (limitOn : Bool) : Sys α :=
  ⟨St.init stored size maxMem limitOn, none, List.replicate n .idle, []⟩

end Sys
end Cache
end F3D
