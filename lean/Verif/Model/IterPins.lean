import Verif.Model.Sparse

/-!
# Pins of const iterators

A `SparseField::const_iterator` of a field with a file manager pins the block it is in: it raises the
block's reference count when it enters the block and lowers it when it leaves the block or is
destroyed. The iterator states are those of `Verif.Model.Sparse` (`DynIter`); this file adds the
counts, with any number of iterators over one field. The class has no copy constructor and no
assignment operator of its own, so copies are made member by member.
-/

namespace F3D.IterPins
variable {α : Type}

/-- `m_blocks[id].isAllocated`. -/
def allocatedAt (f : Sparse α) (id : Int) : Bool :=
  match f.block? id with
  | none => false
  | some b => b.isAllocated

/-- `SparseFileManager::incBlockRef`, export/SparseFile.h:1296-1305, with `Reference::incBlockRef`,
745-753. `stored b` is `fileBlockIndices[b] >= 0`. -/
def incBlockRef (stored : Nat → Bool) (refs : Nat → Int) (b : Nat) : Nat → Int :=
  if stored b then fun k => if k = b then refs k + 1 else refs k else refs

/-- `SparseFileManager::decBlockRef`, export/SparseFile.h:1309-1318, with `Reference::decBlockRef`,
757-766. -/
def decBlockRef (stored : Nat → Bool) (refs : Nat → Int) (b : Nat) : Nat → Int :=
  if stored b then fun k => if k = b then refs k - 1 else refs k else refs

/-- What `setupNextBlock` does to the counts, export/SparseField.h:1002-1013, 1018-1021, where `old`
and `new` are the ids before and after. -/
def setupPins (f : Sparse α) (stored : Nat → Bool) (refs : Nat → Int) (old new : Int) : Nat → Int :=
  let left := if old ≠ new ∧ 0 ≤ old ∧ old < f.blocks.length ∧ allocatedAt f old = true then
      decBlockRef stored refs old.toNat
    else refs
  if new ≥ f.bxy * f.bres.z then left
  else if allocatedAt f new = true ∧ old ≠ new ∧ 0 ≤ new then incBlockRef stored left new.toNat
  else left

/-- The destructor, export/SparseField.h:909-915. -/
def destroyPins (f : Sparse α) (stored : Nat → Bool) (refs : Nat → Int) (id : Int) : Nat → Int :=
  if 0 ≤ id ∧ id < f.blocks.length ∧ allocatedAt f id = true then decBlockRef stored refs id.toNat
  else refs

/-- The counts of the field's blocks and the iterators that exist, each with its window. -/
structure St where
  refs : Nat → Int
  its : List (Box3i × Sparse.DynIter)

/-- What a program can do with iterators. -/
inductive Op where
  /-- `cbegin(window)` -/
  | first (w : Box3i)
  /-- `cend(window)` -/
  | last (w : Box3i)
  /-- `++it` -/
  | next (i : Nat)
  /-- `*it` -/
  | deref (i : Nat)
  /-- the destructor -/
  | destroy (i : Nat)
  /-- the copy constructor that the compiler makes -/
  | copy (i : Nat)
  /-- the assignment that the compiler makes -/
  | assign (i j : Nat)

/-- One call. `none`: undefined, or no such iterator. `++it` calls `setupNextBlock` only at the end
of a row or block; elsewhere the id stays, and `setupPins` with equal ids changes nothing.
Dereferencing may load the block, which does not change its count. -/
def step (f : Sparse α) (stored : Nat → Bool) (s : St) : Op → Option St
  | .first w =>
    (f.dynBegin w).map fun it => ⟨setupPins f stored s.refs (-1) it.blockId, s.its ++ [(w, it)]⟩
  | .last w =>
    (f.dynSetup ⟨iterEnd w, .null, false, false, 0, -1⟩ (iterEnd w)).map fun it =>
      ⟨setupPins f stored s.refs (-1) it.blockId, s.its ++ [(w, it)]⟩
  | .next i =>
    match s.its[i]? with
    | none => none
    | some (w, it) => (f.dynNext w it).map fun it' =>
        ⟨setupPins f stored s.refs it.blockId it'.blockId, s.its.set i (w, it')⟩
  | .deref i =>
    match s.its[i]? with
    | none => none
    | some (w, it) => (f.dynDeref it).map fun r => ⟨s.refs, s.its.set i (w, r.2)⟩
  | .destroy i =>
    match s.its[i]? with
    | none => none
    | some (_, it) => some ⟨destroyPins f stored s.refs it.blockId, s.its.eraseIdx i⟩
  | .copy i =>
    match s.its[i]? with
    | none => none
    | some it => some ⟨s.refs, s.its ++ [it]⟩
  | .assign i j =>
    match s.its[i]?, s.its[j]? with
    | some _, some it => some ⟨s.refs, s.its.set i it⟩
    | _, _ => none

/-- A history of calls. -/
def run (f : Sparse α) (stored : Nat → Bool) : St → List Op → Option St
  | s, [] => some s
  | s, op :: ops => (step f stored s op).bind fun s' => run f stored s' ops

end F3D.IterPins
