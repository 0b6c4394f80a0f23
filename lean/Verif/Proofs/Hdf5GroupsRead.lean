import Verif.Proofs.Hdf5Groups
import Verif.Proofs.Hdf5Mip

/-!
# Lemmas on groups of layers: reading a file with one more link
-/

namespace F3D
namespace Hdf5
open Ogawa Og FieldIO
open MappingIO (kMapping)
open Metadata (Dict Meta)
open Files (kGlobal kVersionNumber kClassName kIsPartition kClassType kLayerText kMetadata removeUniqueId intName nextIndex
  Listing Loaded FieldClass layerPath collect)

variable {M L F : Type}

/-! ## Paths -/

theorem steps_first {n : Name} (h : Step n) (l : Name) : steps (n ++ 47 :: l) = n :: steps l := by
  have hc : cstr (n ++ 47 :: l) = n ++ 47 :: cstr l := by
    have h0 := h.nul
    unfold cstr
    generalize n = m at h0
    induction m with
    | nil => rfl
    | cons c r ih =>
      rw [List.mem_cons, not_or] at h0
      have hc : c ≠ 0 := fun e => h0.1 e.symm
      have := ih h0.2
      simp only [List.cons_append, List.takeWhile_cons, bne_iff_ne, ne_eq, hc, not_false_eq_true, decide_true, if_true] at this ⊢
      rw [this]
  unfold steps
  rw [hc, splitSlash_join _ _ h.slash, List.filter_cons, if_pos]
  simp [h.ne, h.dot]

theorem extra_at {ex : List (Name × Obj)} {a b : Obj} (E : Extra ex a b) {n : Name} (h : n ≠ kMembership) (p : List Name) :
    b.at (n :: p) = a.at (n :: p) := by
  obtain ⟨as, l1, l2, rfl, rfl, he, hu⟩ := E
  simp only [Obj.at, Obj.links, named_ex h he]

theorem extra_layer {ex : List (Name × Obj)} {a b : Obj} (E : Extra ex a b) {n : Name} (h : Usual n) (l : Name) :
    openGroup b (layerPath n l) = openGroup a (layerPath n l) := by
  unfold openGroup layerPath
  rw [locate_root, steps_first h.1, extra_at E h.2]

theorem extra_part {ex : List (Name × Obj)} {a b : Obj} (E : Extra ex a b) {n : Name} (h : Usual n) :
    openGroup b n = openGroup a n := by
  unfold openGroup
  rw [locate_plain h.1, List.nil_append, extra_at E h.2]

theorem extra_map {ex : List (Name × Obj)} {a b : Obj} (E : Extra ex a b) {n : Name} (h : Usual n) :
    openGroup b (47 :: n ++ 47 :: kMapping) = openGroup a (47 :: n ++ 47 :: kMapping) := by
  unfold openGroup
  rw [locate_abs h.1 step_mapping, extra_at E h.2]

/-! ## The objects below a group are smaller -/

theorem named_size {n : Name} {k : Obj} : ∀ {l : List (Name × Obj)}, named n l = some k → sizeOf k < sizeOf l
  | [], h => by simp [named] at h
  | p :: l, h => by
    obtain ⟨m, o⟩ := p
    rw [named] at h
    split at h
    · cases h
      simp
      omega
    · have := named_size h
      simp
      omega

theorem links_size (o : Obj) : sizeOf o.links ≤ sizeOf o := by
  cases o with
  | group as ls => simp [Obj.links]
  | data d => simp [Obj.links]

theorem at_size : ∀ (p : List Name) (n : Name) (o g : Obj), o.at (n :: p) = some g → sizeOf g < sizeOf o.links
  | [], n, o, g, h => by
    rw [Obj.at] at h
    cases hn : named n o.links with
    | none => simp [hn] at h
    | some k =>
      simp only [hn, Obj.at, Option.some.injEq] at h
      rw [← h]
      exact named_size hn
  | m :: p, n, o, g, h => by
    rw [Obj.at] at h
    cases hn : named n o.links with
    | none => simp [hn] at h
    | some k =>
      simp only [hn] at h
      have h1 := at_size p m k g h
      have h2 := named_size hn
      have h3 := links_size k
      omega

theorem part_links {a g : Obj} {n : Name} (h : Step n) (hg : openGroup a n = some g) : g.links ≠ a.links := by
  unfold openGroup at hg
  rw [locate_plain h, List.nil_append, Option.filter_eq_some_iff] at hg
  have h1 := at_size [] n a g hg.1
  have h2 := links_size g
  intro e
  rw [e] at h2
  omega

/-! ## Orders -/

open Classical in
/-- The order in which the links of the first root are visited, if those of the second are visited in the order `ord`. -/
noncomputable def orderFor (ord : Order) (a b : Obj) : Order :=
  ⟨fun l => if l = a.links then (ord.links b.links).filter fun p => p.1 ≠ kMembership else ord.links l, ord.attrs⟩

theorem filter_extra {ex : List (Name × Obj)} {a b : Obj} (E : Extra ex a b) :
    (b.links.filter fun p => p.1 ≠ kMembership) = a.links := by
  obtain ⟨as, l1, l2, rfl, rfl, he, hu⟩ := E
  have h1 : (ex.filter fun p => decide (p.1 ≠ kMembership)) = [] := by
    rw [List.filter_eq_nil_iff]
    intro p hp
    simp [he p hp]
  simp only [Obj.links, List.filter_append, h1, List.nil_append]
  rw [← List.filter_append, List.filter_eq_self]
  intro p hp
  simp [(hu p hp).2]

theorem visits_for {ex : List (Name × Obj)} {a b : Obj} (E : Extra ex a b) {ord : Order} (V : Visits ord) :
    Visits (orderFor ord a b) := by
  refine ⟨fun l => ?_, V.attrs⟩
  simp only [orderFor]
  split
  · next h =>
    have := (V.links b.links).filter fun p => decide (p.1 ≠ kMembership)
    rw [filter_extra E] at this
    rw [h]
    exact this
  · exact V.links l

theorem names_for (a b : Obj) (ord : Order) :
    partitionNames ord b = partitionNames (orderFor ord a b) a := by
  unfold partitionNames
  simp only [orderFor, if_true]
  rw [List.filter_filter]
  congr 1
  apply List.filter_congr
  intro p _
  by_cases h : p.1 = kMembership <;> simp [h]

theorem names_usual {ex : List (Name × Obj)} {a b : Obj} (E : Extra ex a b) {ord : Order} (V : Visits ord) :
    ∀ n ∈ partitionNames (orderFor ord a b) a, Usual n := by
  intro n hn
  unfold partitionNames at hn
  obtain ⟨p, hp, rfl⟩ := List.mem_map.1 hn
  have hp2 := ((visits_for E V).links a.links).subset (List.mem_of_mem_filter hp)
  obtain ⟨as, l1, l2, rfl, rfl, he, hu⟩ := E
  exact hu p hp2

/-! ## Opening and reading -/

theorem extra_mappings {ex : List (Name × Obj)} {a b : Obj} (E : Extra ex a b) (readMap : Obj → Res L) : ∀ ns : List Name,
    (∀ n ∈ ns, Usual n) → readMappings readMap b ns = readMappings readMap a ns
  | [], _ => rfl
  | n :: ns, h => by
    rw [readMappings, readMappings, extra_map E (h n (by simp)), extra_mappings E readMap ns fun m hm => h m (by simp [hm])]

theorem extra_layers {ex : List (Name × Obj)} {a b : Obj} (E : Extra ex a b) (ord : Order) : ∀ (ns : List Name) (ps : List (InPart L)),
    (∀ n ∈ ns, Usual n) → readAllLayers ord b ns ps = readAllLayers (orderFor ord a b) a ns ps
  | [], ps, _ => rfl
  | n :: ns, ps, h => by
    have ih := fun ps : List (InPart L) => extra_layers E ord ns ps fun m hm => h m (by simp [hm])
    rw [readAllLayers, readAllLayers, extra_part E (h n (by simp))]
    cases hg : openGroup a n with
    | none => exact ih ps
    | some g =>
      have e : ∀ c, layersWith ord c g = layersWith (orderFor ord a b) c g := by
        intro c
        unfold layersWith
        simp only [orderFor]
        rw [if_neg (part_links (h n (by simp)).1 hg)]
      simp only [e]
      exact ih _

theorem usual_global : Usual kGlobal := ⟨step_global, by decide⟩

theorem extra_version {ex : List (Name × Obj)} {a b : Obj} (E : Extra ex a b) : versionOk b = versionOk a := by
  obtain ⟨as, l1, l2, rfl, rfl, he, hu⟩ := E
  rfl

/-- The same object with the other file open. -/
def In.over (i : In L) (b : Obj) : In L := { i with file := i.file.map fun _ => b }

theorem extra_open {ex : List (Name × Obj)} {a b : Obj} (E : Extra ex a b) {ord : Order} (V : Visits ord) (readMap : Obj → Res L) :
    In.openFile ord readMap b In.new = (In.openFile (orderFor ord a b) readMap a In.new).map fun x => (x.1, x.2.over b) := by
  have hu := names_usual E V
  unfold In.openFile
  rw [extra_version E, extra_part E usual_global, names_for a b]
  split
  · simp only [In.new, List.nil_append]
    rw [extra_mappings E readMap _ hu]
    have e : ∀ g m, readMeta ord g m = readMeta (orderFor ord a b) g m := fun _ _ => rfl
    simp only [e]
    cases readMappings readMap a (partitionNames (orderFor ord a b) a) with
    | ok ps => simp only [Option.map_some, In.over]; rw [extra_layers E ord _ ps hu]
    | _ => rfl
  · rfl

theorem mappings_names (readMap : Obj → Res L) (root : Obj) : ∀ (ns : List Name) (ps : List (InPart L)),
    readMappings readMap root ns = .ok ps → ps.map (·.name) = ns
  | [], ps, h => by
    rw [readMappings] at h
    cases h; rfl
  | n :: ns, ps, h => by
    rw [readMappings] at h
    cases hg : openGroup root (47 :: n ++ 47 :: kMapping) with
    | none => simp only [hg] at h; exact nomatch h
    | some g =>
      simp only [hg] at h
      cases hm : readMap g with
      | ok m =>
        simp only [hm, Res.bind] at h
        cases hr : readMappings readMap root ns with
        | ok qs =>
          simp only [hr] at h
          cases h
          rw [List.map_cons, mappings_names readMap root ns qs hr]
        | _ => simp [hr] at h
      | _ => simp [hm, Res.bind] at h

theorem give_names (n : Name) (s v : List Name) : ∀ ps : List (InPart L), (giveLayers n s v ps).map (·.name) = ps.map (·.name)
  | [] => rfl
  | p :: ps => by
    rw [giveLayers]
    split
    · rfl
    · rw [List.map_cons, give_names n s v ps]; rfl

theorem all_names (ord : Order) (root : Obj) : ∀ (ns : List Name) (ps : List (InPart L)),
    (readAllLayers ord root ns ps).map (·.name) = ps.map (·.name)
  | [], ps => rfl
  | n :: ns, ps => by
    rw [readAllLayers]
    split
    · exact all_names ord root ns ps
    · rw [all_names ord root ns, give_names]

theorem findIn_mem {n : Name} {p : InPart L} : ∀ {l : List (InPart L)}, findIn n l = some p → p ∈ l ∧ p.name = n
  | [], h => by simp [findIn] at h
  | q :: l, h => by
    rw [findIn] at h
    split at h
    · next e => cases h; exact ⟨by simp, e⟩
    · obtain ⟨a, b⟩ := findIn_mem h; exact ⟨by simp [a], b⟩

/-- The names of an object that has opened the file. -/
theorem open_names {ex : List (Name × Obj)} {a b : Obj} (E : Extra ex a b) {ord : Order} (V : Visits ord) {readMap : Obj → Res L}
    {r : Bool} {i : In L} (h : In.openFile (orderFor ord a b) readMap a In.new = some (r, i)) :
    (∀ p ∈ i.parts, Usual p.name) ∧ (i.file = none ∨ i.file = some a) := by
  unfold In.openFile at h
  split at h
  · simp only [In.new, List.nil_append] at h
    cases hm : readMappings readMap a (partitionNames (orderFor ord a b) a) with
    | ok ps =>
      simp only [hm, Option.some.injEq, Prod.mk.injEq] at h
      obtain ⟨-, rfl⟩ := h
      refine ⟨fun p hp => ?_, .inr rfl⟩
      have : p.name ∈ (readAllLayers (orderFor ord a b) a (partitionNames (orderFor ord a b) a) ps).map (·.name) :=
        List.mem_map.2 ⟨p, hp, rfl⟩
      rw [all_names, mappings_names _ _ _ _ hm] at this
      exact names_usual E V _ this
    | crash => simp [hm] at h
    | running => simp [hm] at h
    | null =>
      simp only [hm, Option.some.injEq, Prod.mk.injEq] at h
      obtain ⟨-, rfl⟩ := h
      exact ⟨fun p hp => absurd hp List.not_mem_nil, .inl rfl⟩
    | exception =>
      simp only [hm, Option.some.injEq, Prod.mk.injEq] at h
      obtain ⟨-, rfl⟩ := h
      exact ⟨fun p hp => absurd hp List.not_mem_nil, .inl rfl⟩
  · simp only [Option.some.injEq, Prod.mk.injEq] at h
    obtain ⟨-, rfl⟩ := h
    exact ⟨fun p hp => absurd hp List.not_mem_nil, .inl rfl⟩

theorem extra_read [FieldClass F] {ex : List (Name × Obj)} {a b : Obj} (E : Extra ex a b) (ord : Order) {i : In L}
    (hp : ∀ p ∈ i.parts, Usual p.name) (hf : i.file = none ∨ i.file = some a) (readField : Name → Name → Obj → Res F) (isVec : Bool)
    (n l : Name) : (i.over b).readLayer ord readField isVec n l = i.readLayer (orderFor ord a b) readField isVec n l := by
  unfold In.readLayer
  have e1 : (i.over b).parts = i.parts := rfl
  rw [e1]
  cases hi : findIn n i.parts with
  | none => rfl
  | some p =>
    obtain ⟨hm, rfl⟩ := findIn_mem hi
    have e2 : ((i.over b).file.bind fun root => openGroup root (layerPath p.name l)) =
        i.file.bind fun root => openGroup root (layerPath p.name l) := by
      rcases hf with hf | hf
      · simp [In.over, hf]
      · simp only [In.over, hf, Option.map_some, Option.bind_some]
        exact extra_layer E (hp p hm) l
    simp only [e2]
    rfl

theorem extra_readLayers [FieldClass F] {ex : List (Name × Obj)} {a b : Obj} (E : Extra ex a b) (ord : Order) {i : In L}
    (hp : ∀ p ∈ i.parts, Usual p.name) (hf : i.file = none ∨ i.file = some a) (readField : Name → Name → Obj → Res F) (isVec : Bool)
    (u l : Name) : (i.over b).readLayers ord readField isVec u l = i.readLayers (orderFor ord a b) readField isVec u l := by
  unfold In.readLayers
  simp only [extra_read E ord hp hf]
  rfl

theorem extra_readAll [FieldClass F] {ex : List (Name × Obj)} {a b : Obj} (E : Extra ex a b) (ord : Order) {i : In L}
    (hp : ∀ p ∈ i.parts, Usual p.name) (hf : i.file = none ∨ i.file = some a) (readField : Name → Name → Obj → Res F) (isVec : Bool)
    (l : Name) : (i.over b).readAll ord readField isVec l = i.readAll (orderFor ord a b) readField isVec l := by
  unfold In.readAll
  simp only [extra_read E ord hp hf]
  rfl

end Hdf5
end F3D
