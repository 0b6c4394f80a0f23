import Verif.Model.Resample

/-!
# MIP fields as objects: setting up, copying, assigning, loading on demand

Models the vectors `m_fields`, `m_rawFields`, `m_loadActions` and `m_mipRes` of `MIPField`, export/MIPField.h, and the
calls that change them, for programs with any number of MIP fields that share level fields and load actions. A level
field is an object in the heap of the program: its extents, its voxels (`none`: outside of it, undefined behaviour) and
its number of voxels. A load action is a value that says what is loaded. One thread (for many see Model/MipLoad). Names,
metadata, mappings and offsets are not modelled here (see Model/MipField); a level that does not clone is left out, since
`clone` gives a field of the same class. Objects are not destroyed here: level fields live as long as something points
to them.
-/

namespace F3D
namespace MipCopy

/-- A level field. -/
structure Lvl (α : Type) where
  extents : Box3i
  vals : V3i → Option α
  count : Nat

/-- The members of a MIP field, export/MIPField.h:254-270 and MIPBase.h:199-204. -/
structure Mip (A : Type) where
  fields : List (Option Nat)
  raw : List (Option Nat)
  actions : List (Option A)
  res : List V3i
  numLevels : Nat
  lowest : Nat

/-- The program: its level fields, the pointers it holds, its MIP fields. -/
structure World (α A : Type) where
  heap : List (Lvl α)
  held : List Nat
  objs : List (Mip A)

inductive Ans (α : Type) where
  | done
  | threw
  | voxel (x : α)
  | flag (b : Bool)
  | num (n : Nat)
  | size (r : V3i)
deriving DecidableEq

section
variable {α A : Type}

/-- `MIPField()`, export/MIPField.h:323-329, with `MIPBase()`, export/MIPBase.h:215-219. -/
def Mip.new : Mip A := ⟨[none], [], [], [], 1, 0⟩

/-- `clear`, export/MIPField.h:388-394. -/
def Mip.clear (m : Mip A) : Mip A := { m with fields := [], raw := [], numLevels := 0, lowest := 0 }

/-- `sanityChecks`, export/MIPField.h:716-758: whether fields with these extents are accepted. -/
def accepts : List Box3i → Bool
  | [] => false
  | b :: bs => Resample.decreasing b.size (bs.map Box3i.size)

/-- `m_mipRes`, export/MIPField.h:416-421 and 455-460. -/
def resolutions (bs : List Box3i) : List V3i := bs.map fun b => b.size + V3i.all 1

/-- `setup`, export/MIPField.h:399-422, with `updateAuxMembers`, 650-657. The second component: whether it did not
throw. `addrs` are the fields, `exts` their extents. -/
def Mip.setup (addrs : List Nat) (exts : List Box3i) (m : Mip A) : Mip A × Bool :=
  let m := m.clear
  if accepts exts then
    ({ m with fields := addrs.map some, raw := addrs.map some, res := resolutions exts, numLevels := addrs.length,
              lowest := 0 }, true)
  else (m, false)

/-- `setupLazyLoad`, export/MIPField.h:427-461. -/
def Mip.setupLazy (exts : List Box3i) (acts : List A) (m : Mip A) : Mip A × Bool :=
  let m := m.clear
  if exts.length ≠ acts.length then (m, false)
  else if accepts exts then
    ({ m with actions := acts.map some, numLevels := exts.length, lowest := 0,
              fields := List.replicate exts.length none, raw := List.replicate exts.length none,
              res := resolutions exts }, true)
  else (m, false)

/-- `std::vector::resize` of a vector of pointers. -/
def resize (l : List (Option Nat)) (n : Nat) : List (Option Nat) := l.take n ++ List.replicate (n - l.length) none

/-- The loop of `init`, export/MIPField.h:367-379: pairs of the own pointer and the one of the other field. A pointer
outside of the heap does not occur. -/
def cloneLoop (heap : List (Lvl α)) : List (Option Nat × Option Nat) → Option (List (Lvl α) × List (Option Nat))
  | [] => some (heap, [])
  | (own, none) :: r => (cloneLoop heap r).map fun p => (p.1, own :: p.2)
  | (_, some a) :: r => (heap[a]?).bind fun lv =>
      (cloneLoop (heap ++ [lv]) r).map fun p => (p.1, some heap.length :: p.2)

/-- `init`, export/MIPField.h:353-384, after the assignment or copy of the base. Writing `m_rawFields[i]` is undefined if
the vector of the other field is shorter than its `m_fields`. -/
def init (heap : List (Lvl α)) (m rhs : Mip A) : Option (List (Lvl α) × Mip A) :=
  if rhs.fields.length ≤ rhs.raw.length then
    (cloneLoop heap ((resize m.fields rhs.fields.length).zip rhs.fields)).map fun p =>
      (p.1, { rhs with fields := p.2, raw := p.2 ++ (resize m.raw rhs.raw.length).drop rhs.fields.length })
  else none

/-- The members before `init` in the copy constructor, export/MIPField.h:333-338. -/
def Mip.blank : Mip A := ⟨[], [], [], [], 0, 0⟩

variable (file : A → Option (Lvl α))

/-- `if (!m_rawFields[level]) loadLevelFromDisk(level)`, export/MIPField.h:483-485 and others, with `loadLevelFromDisk`,
685-712. `none`: undefined behaviour; the second component: whether it did not throw. -/
def ensure (w : World α A) (o l : Nat) : Option (World α A × Bool) :=
  (w.objs[o]?).bind fun m => (m.raw[l]?).bind fun r =>
    match r with
    | some _ => some (w, true)
    | none => (m.actions[l]?).bind fun a? => a?.bind fun a =>
      if l < m.fields.length then
        match file a with
        | none => some ({ w with objs := w.objs.set o { m with fields := m.fields.set l none } }, false)
        | some lv =>
          let fields := m.fields.set l (some w.heap.length)
          some ({ w with heap := w.heap ++ [lv],
                         objs := w.objs.set o { m with fields := fields, raw := fields, actions := m.actions.set l none } },
            true)
      else none

/-- The address of a level that is in memory, export/MIPField.h:487-488 and others. -/
def rawAt (w : World α A) (o l : Nat) : Option Nat := (w.objs[o]?).bind fun m => (m.raw[l]?).bind id

/-- The calls of a program. -/
inductive Call (α A : Type) where
  | newField (lv : Lvl α)
  | write (h : Nat) (v : V3i) (x : α)
  | peek (h : Nat) (v : V3i)
  | create
  | setup (o : Nat) (hs : List Nat)
  | setupLazy (o : Nat) (exts : List Box3i) (acts : List A)
  | clear (o : Nat)
  | copy (o : Nat)
  | assign (o p : Nat)
  | value (o l : Nat) (v : V3i)
  | level (o l : Nat)
  | loaded (o l : Nat)
  | resolution (o l : Nat)
  | levels (o : Nat)
  | voxels (o : Nat)

/-- One call; `none`: undefined behaviour. `newField`: the program makes a field and holds a pointer to it. `write` and
`peek`: it writes and reads a voxel through a pointer it holds. `level`: `concreteMipLevel` or `mipLevel`, export/MIPField.h:494-506 and
621-633, the program keeps the pointer. `value`: `fastMipValue`, `mipValue` and `value`, 637-648, 572-577 and 510-515.
`loaded`, `resolution`, `voxels`: 581-594 and 519-530. `copy`: the copy constructor and `clone`, 333-338 and 220-223.
`assign`: 342-349. -/
def step (w : World α A) : Call α A → Option (World α A × Ans α)
  | .newField lv => some ({ w with heap := w.heap ++ [lv], held := w.held ++ [w.heap.length] }, .done)
  | .write h v x => (w.held[h]?).bind fun a => (w.heap[a]?).bind fun lv => (lv.vals v).bind fun _ =>
      some ({ w with heap := w.heap.set a { lv with vals := fun u => if u = v then some x else lv.vals u } }, .done)
  | .peek h v => (w.held[h]?).bind fun a => (w.heap[a]?).bind fun lv => (lv.vals v).bind fun x => some (w, .voxel x)
  | .create => some ({ w with objs := w.objs ++ [Mip.new] }, .done)
  | .setup o hs => (w.objs[o]?).bind fun m => (hs.mapM fun h => w.held[h]?).bind fun addrs =>
      (addrs.mapM fun a => (w.heap[a]?).map Lvl.extents).bind fun exts =>
      let r := m.setup addrs exts
      some ({ w with objs := w.objs.set o r.1 }, if r.2 then .done else .threw)
  | .setupLazy o exts acts => (w.objs[o]?).bind fun m =>
      let r := m.setupLazy exts acts
      some ({ w with objs := w.objs.set o r.1 }, if r.2 then .done else .threw)
  | .clear o => (w.objs[o]?).bind fun m => some ({ w with objs := w.objs.set o m.clear }, .done)
  | .copy o => (w.objs[o]?).bind fun m => (init w.heap Mip.blank m).bind fun r =>
      some ({ w with heap := r.1, objs := w.objs ++ [r.2] }, .done)
  | .assign o p => (w.objs[o]?).bind fun m => (w.objs[p]?).bind fun rhs => (init w.heap m rhs).bind fun r =>
      some ({ w with heap := r.1, objs := w.objs.set o r.2 }, .done)
  | .value o l v => (ensure file w o l).bind fun r =>
      if r.2 then (rawAt r.1 o l).bind fun a => (r.1.heap[a]?).bind fun lv => (lv.vals v).bind fun x =>
        some (r.1, .voxel x)
      else some (r.1, .threw)
  | .level o l => (ensure file w o l).bind fun r =>
      if r.2 then (rawAt r.1 o l).bind fun a => some ({ r.1 with held := r.1.held ++ [a] }, .done)
      else some (r.1, .threw)
  | .loaded o l => (w.objs[o]?).bind fun m => (m.raw[l]?).bind fun r => some (w, .flag r.isSome)
  | .resolution o l => (w.objs[o]?).bind fun m => (m.res[l]?).bind fun r => some (w, .size r)
  | .levels o => (w.objs[o]?).bind fun m => some (w, .num m.numLevels)
  | .voxels o => (w.objs[o]?).bind fun m =>
      some (w, .num (m.fields.map fun f => ((f.bind fun a => w.heap[a]?).map Lvl.count).getD 0).sum)

/-- A history of calls from a given state. -/
def run (w : World α A) : List (Call α A) → Option (World α A)
  | [] => some w
  | c :: cs => (step file w c).bind fun r => run r.1 cs

end
end MipCopy
end F3D
