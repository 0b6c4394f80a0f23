import Verif.Model.Cache

/-!
# The statistics of the block cache

`totalLoads`, `numLoadedBlocks`, `totalLoadedBlocks`, the three ratios and `resetCacheStatistics` of
`SparseFileManager`, on top of the cache and the threads of Model/Cache. The manager keeps one list of
references for each of the six voxel types; here the fields of all types are numbered together, since
the code adds the results of the six loops. The counters of the code are `int` and `long long`, here
they are natural numbers. The ratios are exact here, the code computes them in `double` and returns a
`float`.
-/

namespace F3D
namespace Cache

/-- The manager with, for each reference, the length of its tables `blockLoaded` and `loadCounts`
(`setNumBlocks`, export/SparseFile.h:677-704). -/
structure Mgr (α : Type) where
  sys : Sys α
  counts : List Nat

/-- What can happen: a step of the cache or of a thread, or `resetCacheStatistics`. -/
inductive Call where
  | ev (e : Event)
  | reset
deriving DecidableEq, Repr

namespace Mgr
variable {α : Type}

/-- Length of the tables of reference `f`. -/
def numBlocks (m : Mgr α) (f : Nat) : Nat := m.counts.getD f 0

/-- The table `loadCounts` of a reference, export/SparseFile.h:677-704. -/
def loadCounts (m : Mgr α) (f : Nat) : List Nat :=
  (List.range (m.numBlocks f)).map fun b => m.sys.cache.loads ⟨f, b⟩

/-- The table `blockLoaded` of a reference, export/SparseFile.h:677-704. -/
def blockLoaded (m : Mgr α) (f : Nat) : List Bool :=
  (List.range (m.numBlocks f)).map fun b => m.sys.cache.flag ⟨f, b⟩

/-- `Reference::totalLoads`, export/SparseFile.h:779-788. -/
def refTotalLoads (loadCounts : List Nat) : Nat := loadCounts.foldl (fun n x => n + x) 0

/-- `Reference::numLoadedBlocks`, export/SparseFile.h:793-803. -/
def refNumLoadedBlocks (blockLoaded : List Bool) : Nat :=
  blockLoaded.foldl (fun n x => if x then n + 1 else n) 0

/-- `Reference::totalLoadedBlocks`, export/SparseFile.h:808-829. -/
def refTotalLoadedBlocks (loadCounts : List Nat) (blockLoaded : List Bool) : Nat :=
  if blockLoaded.length = 0 then loadCounts.foldl (fun n x => if x ≠ 0 then n + 1 else n) 0
  else (loadCounts.zip blockLoaded).foldl (fun n p => if p.1 ≠ 0 ∨ p.2 = true then n + 1 else n) 0

/-- `SparseFileManager::totalLoads`, src/SparseFile.cpp:292-322. -/
def totalLoads (m : Mgr α) : Nat :=
  (List.range m.counts.length).foldl (fun n f => n + refTotalLoads (m.loadCounts f)) 0

/-- `SparseFileManager::numLoadedBlocks`, src/SparseFile.cpp:326-356. -/
def numLoadedBlocks (m : Mgr α) : Nat :=
  (List.range m.counts.length).foldl (fun n f => n + refNumLoadedBlocks (m.blockLoaded f)) 0

/-- `SparseFileManager::totalLoadedBlocks`, src/SparseFile.cpp:360-390. -/
def totalLoadedBlocks (m : Mgr α) : Nat :=
  (List.range m.counts.length).foldl
    (fun n f => n + refTotalLoadedBlocks (m.loadCounts f) (m.blockLoaded f)) 0

/-- `cacheFractionLoaded`, src/SparseFile.cpp:394-397. -/
def cacheFractionLoaded (m : Mgr α) : Rat :=
  (m.numLoadedBlocks : Rat) / ((max 1 m.totalLoadedBlocks : Nat) : Rat)

/-- `cacheLoadsPerBlock`, src/SparseFile.cpp:401-404. -/
def cacheLoadsPerBlock (m : Mgr α) : Rat :=
  (m.totalLoads : Rat) / ((max 1 m.totalLoadedBlocks : Nat) : Rat)

/-- `cacheEfficiency`, src/SparseFile.cpp:408-411. -/
def cacheEfficiency (m : Mgr α) : Rat :=
  (m.totalLoadedBlocks : Rat) / ((max 1 m.totalLoads : Nat) : Rat)

/-- `resetCacheStatistics`, src/SparseFile.cpp:415-443 and export/SparseFile.h:854-861: the entries of
the tables `loadCounts` become 0. -/
def resetStatistics (m : Mgr α) : Mgr α :=
  { m with sys := { m.sys with cache := { m.sys.cache with
      loads := fun k => if k.block < m.numBlocks k.field then 0 else m.sys.cache.loads k } } }

/-- One call or step. `removeFieldFromCache` swaps the tables of the reference with empty ones,
export/SparseFile.h:1236-1239. -/
def step (file : Key → List α) (m : Mgr α) : Call → Option (Mgr α)
  | .ev (.remove fd) => (m.sys.step file (.remove fd)).map fun s => ⟨s, m.counts.set fd 0⟩
  | .ev e => (m.sys.step file e).map fun s => ⟨s, m.counts⟩
  | .reset => some m.resetStatistics

/-- `n` idle threads, an empty cache, and references with `counts` blocks, those of `stored` in the
file (`setNumBlocks`, export/SparseFile.h:677-704, and src/SparseFile.cpp:282-288). -/
def init (n : Nat) (counts : List Nat) (stored : Key → Bool) (size : Key → Nat) (maxMem : Int)
    (limitOn : Bool) : Mgr α :=
  ⟨Sys.init n (fun k => decide (k.block < counts.getD k.field 0) && stored k) size maxMem limitOn, counts⟩

end Mgr
end Cache
end F3D
