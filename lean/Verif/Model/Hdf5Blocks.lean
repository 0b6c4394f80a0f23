/-!
# Reading the blocks of a sparse field from HDF5 in passes

Models the loop of `SparseFieldIO::readData(hid_t)`, src/SparseFieldIO.cpp:1198-1232, and `readBlockList`,
export/SparseDataReader.h:187-290. The HDF5 dataset is the list of its rows, one per stored block; the contents of the
blocks of the field are a list. `maxMemPerPass` and the bytes of a block are parameters.
-/

namespace F3D.Hdf5Blocks

/-- The inner loop, src/SparseFieldIO.cpp:1214-1219: from the blocks not looked at yet (number and flag) and the memory
of the pass so far, the blocks of the pass and the blocks left. -/
def collect (max size : Nat) : List (Nat × Bool) → Nat → List Nat × List (Nat × Bool)
  | [], _ => ([], [])
  | (i, a) :: rest, mem =>
    if mem < max then
      if a then
        let r := collect max size rest (mem + size)
        (i :: r.1, r.2)
      else collect max size rest mem
    else ([], (i, a) :: rest)

/-- Copying one row into block `i`, export/SparseDataReader.h:284-288. -/
def putRow {δ : Type} (rows : List δ) (next i : Nat) (blocks : List δ) : List δ :=
  match rows[next]? with
  | some r => blocks.set i r
  | none => blocks

/-- Rows `next`, `next + 1`, ... go to the blocks of the list. -/
def deliver {δ : Type} (rows : List δ) : Nat → List Nat → List δ → List δ
  | _, [], blocks => blocks
  | next, i :: is, blocks =>
    deliver rows (next + 1) is (putRow rows next i blocks)

/-- `readBlockList(next, list)`, export/SparseDataReader.h:187-290; rows past the end of the dataset make
`H5Sselect_hyperslab` or `H5Dread` fail (`none`). -/
def readBlockList {δ : Type} (rows : List δ) (next : Nat) (list : List Nat) (blocks : List δ) : Option (List δ) :=
  if next + list.length ≤ rows.length then some (deliver rows next list blocks) else none

theorem collect_length (max size : Nat) : ∀ (rest : List (Nat × Bool)) (mem : Nat),
    (collect max size rest mem).1.length + (collect max size rest mem).2.length ≤ rest.length
  | [], _ => by simp [collect]
  | (i, a) :: rest, mem => by
    unfold collect
    split
    · split
      · have := collect_length max size rest (mem + size)
        simp only [List.length_cons]; omega
      · have := collect_length max size rest mem
        simp only [List.length_cons]; omega
    · simp

/-- The outer loop, src/SparseFieldIO.cpp:1209-1231. -/
def passes {δ : Type} (max size : Nat) (rows : List δ) (rest : List (Nat × Bool)) (next : Nat) (blocks : List δ) :
    Option (List δ) :=
  if h : (collect max size rest 0).1 = [] then some blocks
  else
    match readBlockList rows next (collect max size rest 0).1 blocks with
    | none => none
    | some blocks =>
      passes max size rows (collect max size rest 0).2 (next + (collect max size rest 0).1.length) blocks
termination_by rest.length
decreasing_by
  have h1 := collect_length max size rest 0
  have h2 : 0 < (collect max size rest 0).1.length := List.length_pos_iff.mpr h
  omega

/-- Blocks with their numbers. -/
def numbered (alloc : List Bool) : List (Nat × Bool) := alloc.mapIdx fun i a => (i, a)

/-- The part of `readData` from 1198 on: no pass without occupied blocks; the number of rows is checked by
`readBlockList`, lines 228-230 of export/SparseDataReader.h (done here once). -/
def readAllBlocks {δ : Type} (max size occupied : Nat) (rows : List δ) (alloc : List Bool) (blocks : List δ) :
    Option (List δ) :=
  if 0 < occupied then
    if rows.length = occupied then passes max size rows (numbered alloc) 0 blocks else none
  else some blocks

end F3D.Hdf5Blocks
