import Verif.Model.DynField
import Verif.Props.Sparse

/-!
# What fields read from files should be

A user thinks of every field, wherever its voxels are kept, as a map from voxels to values. This file
says what each call does to such maps, and which calls are safe.
-/

namespace F3D.Props
open F3D

/-- Calls on sparse fields, named by the number of the field, and what the block cache does by itself
(`evict`). -/
inductive FieldEvent (α : Type) where
  | create (e w : Box3i)
  | openLayer (l : Nat)
  | copy (f : Nat)
  | assign (d f : Nat)
  | edit (f : Nat) (op : SparseOp α)
  | read (f : Nat) (p : V3i)
  | evict (k : Nat × Nat)
  | flush
  | destroy (f : Nat)

/-- A field as the user sees it. `lazy`: its blocks come from a file when they are needed. `edited`: it
was changed since it was read or copied. `hot`: it was read from since the last flush. -/
structure Handle (α : Type) where
  lazy : Bool
  edited : Bool
  hot : Bool
  map : SparseMap α

/-- All fields, numbered in the order in which they were made. -/
structure World (α : Type) where
  next : Nat
  fld : Nat → Option (Handle α)

namespace World
variable {α : Type}

def empty : World α := ⟨0, fun _ => none⟩

/-- Replaces one field. -/
def put (w : World α) (f : Nat) (h : Handle α) : World α :=
  { w with fld := fun g => if g = f then some h else w.fld g }

/-- Appends a field. -/
def push (w : World α) (h : Handle α) : World α :=
  { w.put w.next h with next := w.next + 1 }

/-- What a call does to the fields, given what the layers of the files hold; `edit` changes one field
only, and writing to voxels of a lazily loaded field is ignored. -/
noncomputable def apply (zero : α) (layers : Nat → SparseMap α) (w : World α) :
    FieldEvent α → World α
  | .create e dw => w.push ⟨false, false, false, SparseMap.fresh zero e dw⟩
  | .openLayer l => w.push ⟨true, false, false, layers l⟩
  | .copy f => match w.fld f with
    | some h => w.push { h with hot := false }
    | none => w
  | .assign d f => match w.fld f with
    | some h => if d = f then w else w.put d { h with hot := false }
    | none => w
  | .edit f op => match w.fld f with
    | some h =>
      match h.lazy, op with
      | true, .write _ _ => w
      | _, _ => w.put f { h with edited := true, map := h.map.apply zero op }
    | none => w
  | .read f _ => match w.fld f with
    | some h => w.put f { h with hot := true }
    | none => w
  | .evict _ => w
  | .flush => { w with fld := fun g => (w.fld g).map fun h => { h with hot := false } }
  | .destroy f => { w with fld := fun g => if g = f then none else w.fld g }

/-- What a call returns. -/
def answer (w : World α) : FieldEvent α → Option α
  | .read f p => (w.fld f).map fun h => h.map.val p
  | _ => none

/-- A lazily loaded field that was edited can only be copied if it has no allocated blocks left. -/
def copyable (h : Handle α) : Prop := h.lazy = true → h.edited = true → ∀ b, ¬ h.map.alloc b

/-- The blocks of a lazily loaded field can only be discarded if none of them can be in the cache. -/
def discardable (h : Handle α) : Prop := h.lazy = true → h.hot = false

/-- What a lazily loaded field must not be asked to do. -/
def editable (h : Handle α) : SparseOp α → Prop
  | .clear _ => discardable h
  | .resize _ _ => discardable h
  | .setBlockOrder _ => discardable h
  | .releaseAllEqual => h.lazy = false
  | .releaseMaxAbs _ => h.lazy = false
  | _ => True

/-- The preconditions of the calls. -/
def permits (w : World α) : FieldEvent α → Prop
  | .create _ dw => SparseWindow dw
  | .openLayer _ => True
  | .copy f => ∃ h, w.fld f = some h ∧ copyable h
  | .assign d f => ∃ t h, w.fld d = some t ∧ w.fld f = some h ∧ (d ≠ f → discardable t ∧ copyable h)
  | .edit f op => ∃ h, w.fld f = some h ∧ h.map.allowed op ∧ editable h op
  | .read f p => ∃ h, w.fld f = some h ∧ h.map.dw.contains p = true
  | .evict _ => True
  | .flush => True
  | .destroy f => ∃ h, w.fld f = some h

noncomputable def run (zero : α) (layers : Nat → SparseMap α) : World α → List (FieldEvent α) → World α
  | w, [] => w
  | w, e :: es => run zero layers (w.apply zero layers e) es

def allPermitted (zero : α) (layers : Nat → SparseMap α) : World α → List (FieldEvent α) → Prop
  | _, [] => True
  | w, e :: es => w.permits e ∧ (w.apply zero layers e).allPermitted zero layers es

noncomputable def answers (zero : α) (layers : Nat → SparseMap α) :
    World α → List (FieldEvent α) → List (Option α)
  | _, [] => []
  | w, e :: es => w.answer e :: answers zero layers (w.apply zero layers e) es

end World

/-- The same calls on the model; `none` is undefined behaviour. -/
def fieldStep {α : Type} [DecidableEq α] (zero : α) (files : Nat → Sparse α) (s : Dyn.St α) :
    FieldEvent α → Option (Dyn.St α × Option α)
  | .create e w => some (Dyn.create zero s e w, none)
  | .openLayer l => some (Dyn.openLayer zero files s l, none)
  | .copy f => (Dyn.copy zero s f).map fun t => (t, none)
  | .assign d f => (Dyn.assign zero s d f).map fun t => (t, none)
  | .edit f (.write p v) => (Dyn.write s f p v).map fun t => (t, none)
  | .edit f (.clear v) => (Dyn.clear zero s f v).map fun t => (t, none)
  | .edit f (.resize e w) => (Dyn.resize zero s f e w).map fun t => (t, none)
  | .edit f (.setBlockOrder o) => (Dyn.setBlockOrder zero s f o).map fun t => (t, none)
  | .edit f (.setBlockEmptyValue b v) => (Dyn.setBlockEmptyValue s f b v).map fun t => (t, none)
  | .edit f .releaseAllEqual => (Dyn.release Sparse.releaseAllEqual s f).map fun t => (t, none)
  | .edit f (.releaseMaxAbs less) => (Dyn.release (Sparse.releaseMaxAbs less) s f).map fun t => (t, none)
  | .read f p => (Dyn.read files s f p).map fun t => (t.1, some t.2)
  | .evict k => (Dyn.evict s k).map fun t => (t, none)
  | .flush => (Dyn.flush s).map fun t => (t, none)
  | .destroy f => (Dyn.destroy s f).map fun t => (t, none)

def fieldRun {α : Type} [DecidableEq α] (zero : α) (files : Nat → Sparse α) :
    Dyn.St α → List (FieldEvent α) → Option (Dyn.St α × List (Option α))
  | s, [] => some (s, [])
  | s, e :: es => (fieldStep zero files s e).bind fun r =>
      (fieldRun zero files r.1 es).map fun q => (q.1, r.2 :: q.2)

/-- The layers of the files were written from fields that a user made with allowed calls. -/
def StoredLayers {α : Type} [DecidableEq α] (zero : α) (files : Nat → Sparse α)
    (layers : Nat → SparseMap α) : Prop :=
  ∀ l, ∃ e w ops, SparseWindow w ∧ (SparseMap.fresh zero e w).allAllowed zero ops ∧
    sparseRun zero ((Sparse.empty zero).setSize zero e w) ops = some (files l) ∧
    layers l = ops.foldl (SparseMap.apply zero) (SparseMap.fresh zero e w)

/-- What can be observed of field `f`: whether it loads from a file, its windows and block order, the
state of its blocks and, by reading, every voxel. -/
structure SeenAs {α : Type} (files : Nat → Sparse α) (s : Dyn.St α) (f : Nat) (h : Handle α) : Prop where
  object : ∃ o bs, s.flds f = some o ∧ s.heap o.arr = some bs ∧ o.file.isSome = h.lazy ∧
    o.geom.extents = h.map.extents ∧ o.geom.dw = h.map.dw ∧ o.geom.order = h.map.order ∧
    (∀ b p, h.map.inBlock b p → ∃ r, ({ o.geom with blocks := bs } : Sparse α).blockIsAllocated b = some r ∧
      (r = true ↔ h.map.alloc b)) ∧
    (∀ b p, h.map.inBlock b p → ¬ h.map.alloc b →
      ({ o.geom with blocks := bs } : Sparse α).getBlockEmptyValue b = some (h.map.val p))
  value : ∀ p, h.map.dw.contains p = true → ∃ t, Dyn.read files s f p = some (t, h.map.val p)

end F3D.Props
