import Verif.Model.CacheStats

/-!
# What the statistics of the block cache are about

A history is the list of what happened, each entry with the state before and after. Everything here
looks only at which blocks have their voxels in memory, not at the counters.
-/

namespace F3D
namespace Spec
namespace CacheStats
open F3D.Cache
variable {α : Type}

abbrev History (α : Type) := List (Mgr α × Call × Mgr α)

/-- The history is one of the manager `m₀`, and ends in the last state. -/
inductive Runs (file : Key → List α) (m₀ : Mgr α) : History α → Mgr α → Prop where
  | start : Runs file m₀ [] m₀
  | step {h : History α} {m m' : Mgr α} (c : Call) : Runs file m₀ h m → m.step file c = some m' →
      Runs file m₀ (h ++ [(m, c, m')]) m'

/-- The voxels of the block are in memory. -/
def inMemory (m : Mgr α) (k : Key) : Bool := (m.sys.cache.data k).isSome

/-- The block came into memory in this step. -/
def arrives (k : Key) (e : Mgr α × Call × Mgr α) : Bool := !inMemory e.1 k && inMemory e.2.2 k

/-- How often the block came into memory since the last reset of the statistics or, if that was later,
the destruction of its field. -/
def timesLoaded (k : Key) (h : History α) : Nat :=
  h.foldl (fun n e =>
    if e.2.1 = .reset ∨ e.2.1 = .ev (.remove k.field) then 0
    else if arrives k e then n + 1 else n) 0

open Classical in
/-- The number of steps since the last reset in which some block came into memory. -/
noncomputable def stepsThatLoad (h : History α) : Nat :=
  h.foldl (fun n e => if e.2.1 = .reset then 0 else if ∃ k, arrives k e = true then n + 1 else n) 0

/-- The blocks with the property `p` are finitely many, and `n` is their number. -/
def Count (p : Key → Prop) (n : Nat) : Prop :=
  ∃ l : List Key, l.Nodup ∧ (∀ k, k ∈ l ↔ p k) ∧ l.length = n

/-- No call of the history is `c`. -/
def Without (h : History α) (c : Call) : Prop := ∀ e ∈ h, e.2.1 ≠ c

end CacheStats
end Spec
end F3D
