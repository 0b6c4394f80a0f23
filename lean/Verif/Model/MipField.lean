import Verif.Model.MipMapping
import Verif.Model.MipOffset
import Verif.Model.Resample

/-!
# MIP fields as objects

Models the members of `MIPField`, export/MIPField.h, that tell where its
levels are: windows, mapping, metadata, and for each level whether it is in memory and with what mapping and metadata.
Left out: the voxels (C49–C51, C75), null pointers among the levels given to `setup`, load actions that fail (C58).
-/

namespace F3D
namespace MipField
open Identical (Map)
open Metadata
open MipMapping (levelMapping loadedMapping)

/-- A level, `m_fields[i]`: no field and no load action; a field to be loaded, of these extents; or a field in memory with
its mapping and metadata. -/
inductive Slot where
  | absent
  | waiting (extents : Box3i)
  | loaded (extents : Box3i) (map : Map) (info : Meta)

/-- A MIP field. -/
structure State where
  off : Off
  extents : Box3i
  dw : Box3i
  map : Map
  slots : List Slot

/-- `MIPField()`, export/MIPField.h:324-330, and `FieldRes()`, export/Field.h:325-331. -/
def State.new : State := ⟨Off.new, ⟨⟨0, 0, 0⟩, ⟨-1, -1, -1⟩⟩, ⟨⟨0, 0, 0⟩, ⟨-1, -1, -1⟩⟩, .null, [.absent]⟩

/-- A field or proxy that is given to `setup` or `setupLazyLoad`. -/
structure Given where
  extents : Box3i
  dw : Box3i
  map : Map
  info : Meta

/-- The loop of `mappingChanged`, export/MIPField.h:556-566, from level `i`: the levels in memory get mappings that are made
with the offset in the metadata. `none`: a position of a mapping is not finite. -/
def placeSlots (root : Rat → Rat) (m : Map) (off : V3i) : Nat → List Slot → Option (List Slot)
  | _, [] => some []
  | i, .loaded e _ info :: l =>
    (levelMapping root m off e i).bind fun m' => (placeSlots root m off (i + 1) l).map (.loaded e m' info :: ·)
  | i, x :: l => (placeSlots root m off (i + 1) l).map (x :: ·)

/-- `mappingChanged`, export/MIPField.h:548-568. Without levels `m_fields[0]` does not exist. -/
def State.mappingChanged (root : Rat → Rat) (s : State) : Option State :=
  match s.slots with
  | [] => none
  | l => (placeSlots root s.map s.off.mappingChanged.stored 0 l).map fun l =>
      { s with off := s.off.mappingChanged, slots := l }

/-- `FieldRes::setMapping`, export/Field.h:347-360: a null pointer only gives a warning. -/
def State.setMapping (root : Rat → Rat) (s : State) : Option Map → Option State
  | some m => (Copy.setExtents m s.extents).bind fun m => State.mappingChanged root { s with map := m }
  | none => s.mappingChanged root

/-- Calls on a MIP field. `metadata` are the calls on `metadata()` and `copyMetadata`, export/Field.h:162-164. -/
inductive Call where
  | setMIPOffset (v : V3i)
  | setMapping (m : Option Map)
  | metadata (op : MetaOp)
  | setup (fields : List Given)
  | setupLazyLoad (proxies : List Given)
  | level (i : Nat)

/-- `setup`, export/MIPField.h:386-411, and `setupLazyLoad`, 415-459, with `clear`, 373-380, `sanityChecks`, 718-758, and
`updateMapping`, 676-682. The result is `false` for an exception. -/
def State.setup (root : Rat → Rat) (s : State) (slot : Given → Slot) (fields : List Given) : Option (Bool × State) :=
  match fields with
  | [] => some (false, { s with slots := [] })
  | f :: fs =>
    if Resample.decreasing f.extents.size (fs.map fun g => g.extents.size) then
      (State.setMapping root { s with extents := f.extents, dw := f.dw, slots := (f :: fs).map slot } (some f.map)).map fun s =>
        (true, s)
    else some (false, { s with slots := [] })

/-- A level that is used, export/MIPField.h:476-484 and others, with `loadLevelFromDisk`, 686-712, and `syncLevelInfo`,
660-670. `none`: there is no such level. -/
def State.level (root : Rat → Rat) (s : State) (i : Nat) : Option State :=
  match s.slots[i]? with
  | some (.waiting e) => (loadedMapping root s.map s.off.stored e i).map fun m =>
      { s with slots := s.slots.set i (.loaded e m s.off.info) }
  | some (.loaded _ _ _) => some s
  | _ => none

/-- One call: `none` is undefined behaviour, `false` an exception. The metadata has the field as its owner, which does nothing
(`metadataHasChanged`, export/Field.h:143). -/
def State.step (root : Rat → Rat) (s : State) : Call → Option (Bool × State)
  | .setMIPOffset v => some (true, { s with off := s.off.setMIPOffset v })
  | .setMapping m => (s.setMapping root m).map fun s => (true, s)
  | .metadata op => some (true, { s with off := { s.off with info := ((⟨s.off.info, true, []⟩ : Obj).step op).data } })
  | .setup fields => s.setup root (fun f => .loaded f.extents f.map f.info) fields
  | .setupLazyLoad proxies => s.setup root (fun f => .waiting f.extents) proxies
  | .level i => (s.level root i).map fun s => (true, s)

/-- Any calls; exceptions are caught and the field is used again. -/
def State.run (root : Rat → Rat) : State → List Call → Option State
  | s, [] => some s
  | s, c :: cs => (s.step root c).bind fun r => State.run root r.2 cs

/-- The end of `makeMIP`, export/MIPUtil.h:534-541: what is done with the levels; `info` is the metadata of the base. -/
def makeMIPCalls (info : Meta) (offset : V3i) (levels : List Given) : List Call :=
  [.metadata (.assign info), .setMIPOffset offset, .setup levels]

end MipField
end F3D
