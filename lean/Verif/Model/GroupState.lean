import Verif.Model.Sampler

/-!
# The state of a field group over a history of calls

Models the members of `FieldGroup` (export/FieldGroup.h) and the calls that change them: `setOsToWs`,
`setWsBoundsOptimization`, `setValueRemapOp`, `setup`, `load` and `makeMinMax`, and the questions `size`,
`sizeMIP`, `fields`, `hasPrefiltMinMax` and `getMinMax`. Which list takes a field is C86; what an entry does
when it is sampled is C61. Here a field is its class, its voxel type and a name, and the transform and the
operator of an entry are values of any types.
-/

namespace F3D
namespace GroupState

/-- The classes of fields that have lists in a group, and all others. -/
inductive Kind where
  | dense | sparse | mipDense | mipSparse | other
deriving DecidableEq, Repr

/-- Voxel types. -/
inductive Vox where
  | half | float | double | v3h | v3f | v3d
deriving DecidableEq, Repr

/-- `ScalarTypes` and `VectorTypes`, export/FieldGroup.h:50-51. -/
def scalarTypes : List Vox := [.half, .float, .double]
def vectorTypes : List Vox := [.v3h, .v3f, .v3d]

structure Fld where
  kind : Kind
  vox : Vox
  id : Nat
deriving DecidableEq, Repr

/-- A wrapper of a field: the transform if `doOsToWs`, whether `setWsBoundsOptimization` was called for it, and
the operator. -/
structure Entry (X R : Type) where
  fld : Fld
  xform : Option X
  bounds : Bool
  remap : Option R
deriving DecidableEq, Repr

/-- One list of wrappers for each class and voxel type. -/
abbrev Lists (X R : Type) := Kind → Vox → List (Entry X R)

/-- The data members, export/FieldGroup.h:427-447. `m_dense`, `m_sparse`, `m_mipDense` and `m_mipSparse` are
`lists`; the lists of the minima and maxima are `mins` and `maxs`. -/
structure Group (X R : Type) where
  lists : Lists X R
  mins : Lists X R
  maxs : Lists X R
  prefilt : Bool
  osToWs : X
  bounds : Bool
  remap : Option R
  all : List Fld
  aux : List Fld

section
variable {X R : Type} [DecidableEq X]

/-- The constructor, export/FieldGroup.h:478-481. `one` is the identity matrix. -/
def Group.new (one : X) : Group X R :=
  ⟨fun _ _ => [], fun _ _ => [], fun _ _ => [], false, one, false, none, [], []⟩

/-- The wrapper made by `GrabFields`, export/FieldGroup.h:921-939. -/
def entry (one : X) (g : Group X R) (f : Fld) : Entry X R :=
  ⟨f, if g.osToWs ≠ one then some g.osToWs else none, g.bounds, g.remap⟩

/-- `GrabFields` on the list of one class and voxel type, export/FieldGroup.h:910-941. -/
def grabInto (e : Entry X R) (l : Lists X R) (k : Kind) (t : Vox) : Lists X R :=
  if e.fld.kind = k ∧ e.fld.vox = t then
    fun k' t' => if k' = k ∧ t' = t then l k' t' ++ [e] else l k' t'
  else l

/-- `for_each` over the lists of a class, one for each voxel type of the group. -/
def grabKind (types : List Vox) (e : Entry X R) (l : Lists X R) (k : Kind) : Lists X R :=
  types.foldl (fun l t => grabInto e l k t) l

/-- The four `for_each` of `setup`, export/FieldGroup.h:572-575, or the two of `setupMinMax`, 593-602. -/
def grab (types : List Vox) (ks : List Kind) (e : Entry X R) (l : Lists X R) : Lists X R :=
  ks.foldl (fun l k => grabKind types e l k) l

def allKinds : List Kind := [.dense, .sparse, .mipDense, .mipSparse]
def mipKinds : List Kind := [.mipDense, .mipSparse]

/-- `CountFields` over classes, export/FieldGroup.h:972-985. -/
def count (types : List Vox) (ks : List Kind) (l : Lists X R) : Nat :=
  ks.foldl (fun n k => types.foldl (fun n t => n + (l k t).length) n) 0

/-- `setupMinMax`, export/FieldGroup.h:583-614. -/
def setupMinMax (one : X) (types : List Vox) (mn mx : List Fld) (g : Group X R) : Group X R :=
  let g := { g with aux := g.aux ++ mn ++ mx }
  let g := { g with mins := mn.foldl (fun l f => grab types mipKinds (entry one g f) l) g.mins }
  let g := { g with maxs := mx.foldl (fun l f => grab types mipKinds (entry one g f) l) g.maxs }
  if count types mipKinds g.mins > 0 ∧ count types mipKinds g.maxs > 0 then { g with prefilt := true } else g

/-- `setup`, export/FieldGroup.h:559-581. -/
def setup (one : X) (types : List Vox) (fs mn mx : List Fld) (g : Group X R) : Group X R :=
  let g := { g with all := fs }
  let g := { g with lists := fs.foldl (fun l f => grab types allKinds (entry one g f) l) g.lists }
  setupMinMax one types mn mx g

/-- An open file: its partition names, and the layers that `readScalarLayers` or `readVectorLayers` gives for a
voxel type, a partition and a layer name. -/
structure FileView where
  names : List String
  layers : Vox → String → String → List (Kind × Nat)

/-- The fields of a call that reads layers: they have the voxel type that was asked for. -/
def FileView.read (v : FileView) (t : Vox) (name attr : String) : List Fld :=
  (v.layers t name attr).map fun p => ⟨p.1, t, p.2⟩

/-- The loops over the partitions and voxel types, export/FieldGroup.h:642-650, with `LoadFields`, 132-206. -/
def readAll (types : List Vox) (v : FileView) (attr : String) : List Fld × List Fld × List Fld :=
  v.names.foldl (fun r name => types.foldl (fun (r : List Fld × List Fld × List Fld) t =>
    (r.1 ++ v.read t name attr, r.2.1 ++ v.read t name (attr ++ "_min"), r.2.2 ++ v.read t name (attr ++ "_max"))) r)
    ([], [], [])

/-- `size`, export/FieldGroup.h:684-693. -/
def size (types : List Vox) (g : Group X R) : Nat := count types allKinds g.lists

/-- `sizeMIP`, export/FieldGroup.h:697-705. -/
def sizeMIP (types : List Vox) (g : Group X R) : Nat := count types mipKinds g.lists

/-- `load`, export/FieldGroup.h:618-659: `none` is a file that cannot be opened. -/
def load (one : X) (types : List Vox) (file : Option FileView) (attr : String) (g : Group X R) : Group X R × Int :=
  match file with
  | none => (g, -1)
  | some v =>
    let before := size types g
    let r := readAll types v attr
    let g := setup one types r.1 r.2.1 r.2.2 g
    (g, (size types g : Int) - before)

/-- The class of the fields of minima and maxima of a field, export/FieldGroup.h:1008-1025 and 1050-1066. -/
def mipOf : Kind → Kind
  | .dense => .mipDense
  | .sparse => .mipSparse
  | k => k

/-- `MakeMinMax` and `MakeMinMaxMIP` over all lists, export/FieldGroup.h:671-677. `mk f true` is the name of the
field of minima of `f`, `mk f false` that of its maxima. -/
def madeFrom (types : List Vox) (mk : Fld → Bool → Nat) (mn : Bool) (l : Lists X R) : List Fld :=
  allKinds.flatMap fun k => types.flatMap fun t => (l k t).map fun e => ⟨mipOf e.fld.kind, e.fld.vox, mk e.fld mn⟩

/-- `makeMinMax`, export/FieldGroup.h:663-680. -/
def makeMinMax (one : X) (types : List Vox) (mk : Fld → Bool → Nat) (g : Group X R) : Group X R :=
  setupMinMax one types (madeFrom types mk true g.lists) (madeFrom types mk false g.lists) g

/-- `setWsBoundsOptimization`, export/FieldGroup.h:505-518 and 949-966: switching off changes no wrapper. -/
def setBounds (types : List Vox) (b : Bool) (g : Group X R) : Group X R :=
  let g := { g with bounds := b }
  if b then
    { g with lists := fun k t => if k ∈ allKinds ∧ t ∈ types then (g.lists k t).map fun e => { e with bounds := true }
        else g.lists k t }
  else g

/-- A call. -/
inductive Call (X R : Type) where
  | setOsToWs (x : X)
  | setBounds (b : Bool)
  | setRemap (r : Option R)
  | setup (fs mn mx : List Fld)
  | load (file : Option FileView) (attr : String)
  | makeMinMax (mk : Fld → Bool → Nat)

/-- One call on a group (`setOsToWs` and `setValueRemapOp`: export/FieldGroup.h:497-501, 522-527). -/
def step (one : X) (types : List Vox) (g : Group X R) : Call X R → Group X R
  | .setOsToWs x => { g with osToWs := x }
  | .setBounds b => setBounds types b g
  | .setRemap r => { g with remap := r }
  | .setup fs mn mx => setup one types fs mn mx g
  | .load file attr => (load one types file attr g).1
  | .makeMinMax mk => makeMinMax one types mk g

/-- The group after calls. -/
def after (one : X) (types : List Vox) (cs : List (Call X R)) : Group X R := cs.foldl (step one types) (Group.new one)

/-- Calling a functor for the list of each class and voxel type. -/
def overLists {S : Type} (types : List Vox) (ks : List Kind) (l : Lists X R) (f : List (Entry X R) → S → Option S)
    (s : S) : Option S :=
  ks.foldlM (fun s k => types.foldlM (fun s t => f (l k t) s) s) s

/-- `getMinMax`, export/FieldGroup.h:853-876: `src` is what is used of the field of a wrapper, `mip` of one with
minima or maxima. -/
def getMinMax (types : List Vox) (src : Entry X R → Sampler.Source) (mip : Entry X R → Sampler.MipSource)
    (g : Group X R) (b : Option Cont.Box3q) (st : Rat × Rat) : Option (Rat × Rat) :=
  if g.prefilt then do
    let mn ← overLists types mipKinds g.mins (fun es s => Sampler.getMinMaxPrefilt true (es.map mip) b s) st.1
    let mx ← overLists types mipKinds g.maxs (fun es s => Sampler.getMinMaxPrefilt false (es.map mip) b s) st.2
    pure (mn, mx)
  else overLists types allKinds g.lists (fun es s => Sampler.getMinMax (es.map src) b s) st

end
end GroupState
end F3D
