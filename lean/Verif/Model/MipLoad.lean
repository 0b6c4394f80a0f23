/-!
# Lazy loading of MIP levels

Models the accessors of `MIPField`, export/MIPField.h, when the levels are loaded on demand by several threads. Each
access of a shared variable is one step and steps of threads interleave: the reads and writes are taken to be sequentially
consistent, although the pointers are ordinary variables.
-/

namespace F3D
namespace MipLoad

/-- A function changed at one place. -/
def upd {T : Type} (f : Nat → T) (l : Nat) (v : T) (i : Nat) : T := if i = l then v else f i

/-- What an accessor returns at its end: `rawMipLevel` and `fastMipValue` read the raw pointer, export/MIPField.h:489 and
654, `concreteMipLevel` and `mipLevel` the shared pointer, 504 and 636. -/
inductive Kind where
  | raw
  | shared
deriving DecidableEq, Repr

/-- Where a thread is in an access of a level. -/
inductive Pc where
  /-- Between accesses. -/
  | idle
  /-- `if (!m_rawFields[level])` of the accessor, export/MIPField.h:485. -/
  | first (l : Nat) (k : Kind)
  /-- The same test in `loadLevelFromDisk`, export/MIPField.h:688. -/
  | second (l : Nat) (k : Kind)
  /-- `scoped_lock lock(*m_ioMutex)`, export/MIPField.h:689. -/
  | lock (l : Nat) (k : Kind)
  /-- The test under the lock, export/MIPField.h:690. -/
  | third (l : Nat) (k : Kind)
  /-- `m_fields[level] = m_loadActions[level]->load()`, export/MIPField.h:692. -/
  | load (l : Nat) (k : Kind)
  /-- The exception for a level that was not loaded, export/MIPField.h:694-697: the lock is released. -/
  | fail (l : Nat)
  /-- `m_loadActions[level].reset()`, export/MIPField.h:699. -/
  | reset (l : Nat) (k : Kind)
  /-- `m_rawFields[i] = m_fields[i].get()` in `updateAuxMembers`, export/MIPField.h:662-665. -/
  | publish (l : Nat) (k : Kind) (i : Nat)
  /-- `syncLevelInfo`, export/MIPField.h:703 and 671-681. -/
  | sync (l : Nat) (k : Kind)
  /-- `setMapping` of the loaded field, export/MIPField.h:705-709. -/
  | map (l : Nat) (k : Kind)
  /-- The end of the scope of the lock, export/MIPField.h:710. -/
  | unlock (l : Nat) (k : Kind)
  /-- The return statement of the accessor. -/
  | read (l : Nat) (k : Kind)
deriving DecidableEq, Repr

/-- How an access ends. A field is identified by the number of the call of the load action that made it; `ready` tells
whether its metadata and mapping had been set by then. -/
inductive Out where
  | returned (l : Nat) (obj : Option Nat) (ready : Bool)
  | threw (l : Nat)
deriving DecidableEq, Repr

structure Thread where
  pc : Pc
  todo : List (Nat × Kind)
  out : List Out
deriving DecidableEq, Repr

/-- The members of a MIP field with `n` levels, and the threads. `calls l` counts the calls of the load action of level
`l`. -/
structure State where
  fields : Nat → Option Nat
  raw : Nat → Option Nat
  actions : Nat → Bool
  calls : Nat → Nat
  synced : Nat → Bool
  mapped : Nat → Bool
  mutex : Option Nat
  threads : List Thread

/-- After `setupLazyLoad`, export/MIPField.h:427-461. `programs` are the accesses of each thread. -/
def State.init (programs : List (List (Nat × Kind))) : State :=
  ⟨fun _ => none, fun _ => none, fun _ => true, fun _ => 0, fun _ => false, fun _ => false, none,
    programs.map fun p => ⟨.idle, p, []⟩⟩

def State.goto (s : State) (t : Nat) (th : Thread) (pc : Pc) : State :=
  { s with threads := s.threads.set t { th with pc := pc } }

/-- One step of thread `t`. `disk l i` tells whether call `i` of the load action of level `l` gives a field. `none`:
undefined behaviour, the level does not exist or its load action is null. A thread that has ended, does not exist or waits
for the lock stays where it is. -/
def State.step (n : Nat) (disk : Nat → Nat → Bool) (s : State) (t : Nat) : Option State :=
  match s.threads[t]? with
  | none => some s
  | some th =>
    match th.pc with
    | .idle =>
      match th.todo with
      | [] => some s
      | (l, k) :: rest => some { s with threads := s.threads.set t { th with pc := .first l k, todo := rest } }
    | .first l k =>
      if l < n then some (s.goto t th (if (s.raw l).isNone then .second l k else .read l k)) else none
    | .second l k => some (s.goto t th (if (s.raw l).isNone then .lock l k else .read l k))
    | .lock l k =>
      match s.mutex with
      | none => some { s with mutex := some t, threads := s.threads.set t { th with pc := .third l k } }
      | some _ => some s
    | .third l k => some (s.goto t th (if (s.raw l).isNone then .load l k else .unlock l k))
    | .load l k =>
      if s.actions l then
        let obj := if disk l (s.calls l) then some (s.calls l) else none
        some { s with
          fields := upd s.fields l obj,
          calls := upd s.calls l (s.calls l + 1),
          threads := s.threads.set t { th with pc := if obj.isNone then .fail l else .reset l k } }
      else none
    | .fail l =>
      some { s with mutex := none, threads := s.threads.set t { th with pc := .idle, out := th.out ++ [.threw l] } }
    | .reset l k =>
      some { s with actions := upd s.actions l false, threads := s.threads.set t { th with pc := .publish l k 0 } }
    | .publish l k i =>
      if i < n then
        some { s with raw := upd s.raw i (s.fields i), threads := s.threads.set t { th with pc := .publish l k (i + 1) } }
      else some (s.goto t th (.sync l k))
    | .sync l k => some { s with synced := upd s.synced l true, threads := s.threads.set t { th with pc := .map l k } }
    | .map l k => some { s with mapped := upd s.mapped l true, threads := s.threads.set t { th with pc := .unlock l k } }
    | .unlock l k => some { s with mutex := none, threads := s.threads.set t { th with pc := .read l k } }
    | .read l k =>
      let obj := match k with | .raw => s.raw l | .shared => s.fields l
      let th' : Thread := { th with pc := .idle, out := th.out ++ [.returned l obj (s.synced l && s.mapped l)] }
      some { s with threads := s.threads.set t th' }

/-- The threads take steps in the order of the schedule. -/
def State.run (n : Nat) (disk : Nat → Nat → Bool) (s : State) : List Nat → Option State
  | [] => some s
  | t :: sched => (s.step n disk t).bind fun s' => s'.run n disk sched

def Thread.finished (th : Thread) : Bool := decide (th.pc = .idle) && th.todo.isEmpty

def State.finished (s : State) : Bool := s.threads.all Thread.finished

end MipLoad
end F3D
