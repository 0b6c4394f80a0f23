import Verif.Proofs.Files

/-!
# Reading what was written
-/

namespace F3D.Files
open F3D.Og F3D.Ogawa F3D.FieldIO F3D.Props
open F3D.MappingIO (decimal kMapping)
open F3D.Metadata (Dict Meta readMeta nameLt)

variable {M L F : Type} [FieldClass F]

/-! ## Looking up groups -/

theorem find_group (g nm : Name) (es es' : List Entry) (hs : (47 : UInt8) ∉ nm) (hn : ∀ e ∈ es, plainName (nameOf e))
    (hf : firstOf .group nm es = some (.group nm es')) : find .group nm (groupKids g es) = some (some (groupKids nm es')) := by
  rw [find_plain _ _ _ _ hs, scan_first _ _ _ hn, hf]
  simp [Entry.encode, groupKids]

theorem find_no_group (g nm : Name) (es : List Entry) (hs : (47 : UInt8) ∉ nm) (hn : ∀ e ∈ es, plainName (nameOf e))
    (hf : firstOf .group nm es = none) : find .group nm (groupKids g es) = some none := by
  rw [find_plain _ _ _ _ hs, scan_first _ _ _ hn, hf]
  rfl

theorem firstOf_append (k : Kind) (nm : Name) (a b : List Entry) :
    firstOf k nm (a ++ b) = match firstOf k nm a with | some e => some e | none => firstOf k nm b := by
  unfold firstOf
  rw [List.find?_append]
  cases List.find? _ a <;> rfl

/-! ## The root group -/

theorem stored_mem : ∀ (cs : List (Call M)) (rs : List Ret) (w : Write M), w ∈ stored cs rs → Call.write w ∈ cs
  | [], _, w, h => by simp [stored] at h
  | c :: cs, [], w, h => by cases c <;> simp [stored] at h
  | c :: cs, r :: rs, w, h => by
    have key : (∃ x, c = .write x ∧ (w = x ∨ w ∈ stored cs rs)) ∨ w ∈ stored cs rs := by
      cases c with
      | write x =>
        cases r <;> simp only [stored] at h
        case written => rw [List.mem_cons] at h; exact .inl ⟨x, rfl, h⟩
        all_goals exact .inr h
      | _ => right; simpa [stored] using h
    rcases key with ⟨x, rfl, rfl | h⟩ | h
    · simp
    · exact List.mem_cons_of_mem _ (stored_mem cs rs w h)
    · exact List.mem_cons_of_mem _ (stored_mem cs rs w h)

theorem plain_global : plainName kGlobal := ⟨by decide, by decide⟩
theorem plain_version : plainName kVersionNumber := ⟨by decide, by decide⟩

section
variable {C : MapIO M} {base : Name → Nat} {cs : List (Call M)} {o : Out M} {hs : List (Home M)} {ws : List (Write M)}

theorem user_plain (I : Inv C base cs o hs ws) (P : Plain cs) (h : Home M) (hh : h ∈ hs) : (0 : UInt8) ∉ h.user := by
  obtain ⟨w, h1, h2, -⟩ := I.known h hh
  rw [← h2]; exact P.part w h1

theorem mem_parts {l : List (Slot M)} {p : Part M} : p ∈ partsOf l ↔ Slot.part p ∈ l := by
  unfold partsOf
  rw [List.mem_filterMap]
  constructor
  · rintro ⟨s, h1, h2⟩
    cases s with
    | entry e => simp [Slot.part?] at h2
    | part q => simp only [Slot.part?, Option.some.injEq] at h2; rw [← h2]; exact h1
  · intro h; exact ⟨_, h, rfl⟩

theorem root_plain (I : Inv C base cs o hs ws) (P : Plain cs) : ∀ e ∈ o.entries, plainName (nameOf e) := by
  intro e he
  obtain ⟨s, h1, rfl⟩ := List.mem_map.1 he
  cases s with
  | entry e =>
    obtain ⟨rest, r1, r2⟩ := I.slots
    rw [r1, List.mem_cons] at h1
    rcases h1 with h1 | h1
    · cases h1; exact plain_version
    · obtain ⟨es, -, rfl⟩ := r2 e h1
      exact plain_global
  | part p =>
    have : p ∈ o.parts := mem_parts.2 h1
    rw [I.parts] at this
    obtain ⟨h, hh, rfl⟩ := List.mem_map.1 this
    exact intName_plain _ _ (user_plain I P h hh)

/-- The groups of the root. -/
theorem root_names (I : Inv C base cs o hs ws) (P : Plain cs) :
    ∃ l, names .group (rootKids o.entries) = some l ∧
      (l.filter fun x => x ≠ kGlobal) = hs.map fun h => intName h.user h.idx := by
  have hl := (C35_listing .group rootName o.entries (root_plain I P)).1
  refine ⟨_, hl, ?_⟩
  have key : ∀ l : List (Slot M), (∀ e, Slot.entry e ∈ l → e = versionEntry ∨ ∃ es, e = .group kGlobal es) →
      (∀ p ∈ partsOf l, p.name ≠ kGlobal) →
      ((((l.map Slot.encode).filter fun e => kindOf e = .group).map nameOf).filter fun x => x ≠ kGlobal) =
        (partsOf l).map (·.name) := by
    intro l
    induction l with
    | nil => intros; rfl
    | cons s l ih =>
      intro h1 h2
      have ih' := ih (fun e he => h1 e (by simp [he])) (fun p hp => h2 p (by
        rw [mem_parts] at hp ⊢; simp [hp]))
      cases s with
      | entry e =>
        have e1 : partsOf (Slot.entry e :: l) = partsOf l := rfl
        rw [e1, ← ih']
        rcases h1 e (by simp) with rfl | ⟨es, rfl⟩
        · simp [Slot.encode, versionEntry, kindOf]
        · simp [Slot.encode, kindOf, nameOf]
      | part p =>
        have e1 : partsOf (Slot.part p :: l) = p :: partsOf l := rfl
        have hp : p.name ≠ kGlobal := h2 p (by rw [e1]; simp)
        rw [e1]
        simpa [Slot.encode, kindOf, nameOf, hp] using ih'
  have hparts : partsOf o.slots = hs.map (render C) := I.parts
  have := key o.slots ?_ ?_
  · rw [Out.entries]
    refine this.trans ?_
    rw [hparts, List.map_map]; rfl
  · intro e he
    obtain ⟨rest, r1, r2⟩ := I.slots
    rw [r1, List.mem_cons] at he
    rcases he with he | he
    · cases he; exact .inl rfl
    · obtain ⟨es, -, rfl⟩ := r2 e he
      exact .inr ⟨es, rfl⟩
  · intro p hp
    rw [hparts] at hp
    obtain ⟨h, -, rfl⟩ := List.mem_map.1 hp
    exact intName_ne_global _ _

/-- The group of a partition. -/
theorem root_find (I : Inv C base cs o hs ws) (P : Plain cs) (h : Home M) (hh : h ∈ hs) :
    find .group (intName h.user h.idx) (rootKids o.entries) =
      some (some (groupKids (intName h.user h.idx) (render C h).group)) := by
  have hsl : (47 : UInt8) ∉ intName h.user h.idx := by rw [slash_intName]; exact I.slash h hh
  refine find_group rootName _ _ _ hsl (root_plain I P) ?_
  have key : ∀ l : List (Slot M), (∀ e, Slot.entry e ∈ l → e = versionEntry ∨ ∃ es, e = .group kGlobal es) →
      ∀ n, n ≠ kGlobal → firstOf .group n (l.map Slot.encode) = (findPart n (partsOf l)).map fun p => .group p.name p.group := by
    intro l
    induction l with
    | nil => intros; rfl
    | cons s l ih =>
      intro h1 n hn
      have ih' := ih (fun e he => h1 e (by simp [he])) n hn
      cases s with
      | entry e =>
        have e1 : partsOf (Slot.entry e :: l) = partsOf l := rfl
        rw [e1, ← ih']
        have hn' : ¬ kGlobal = n := fun e => hn e.symm
        rcases h1 e (by simp) with rfl | ⟨es, rfl⟩
        · simp [Slot.encode, versionEntry, kindOf, firstOf]
        · simp [Slot.encode, kindOf, nameOf, firstOf, hn']
      | part p =>
        have e1 : partsOf (Slot.part p :: l) = p :: partsOf l := rfl
        rw [e1, findPart]
        by_cases e : p.name = n
        · simp [firstOf, Slot.encode, kindOf, nameOf, e]
        · rw [if_neg e, ← ih']
          simp [firstOf, Slot.encode, kindOf, nameOf, e]
  rw [Out.entries, key o.slots ?_ _ (intName_ne_global _ _)]
  · have hp : partsOf o.slots = hs.map (render C) := I.parts
    have hfind : findPart (intName h.user h.idx) (hs.map (render C)) = some (render C h) := by
      have := I.uniq
      clear hp key hsl I
      induction hs with
      | nil => simp at hh
      | cons g gs ih =>
        rw [List.map_cons, List.nodup_cons] at this
        rw [List.map_cons, findPart]
        rw [List.mem_cons] at hh
        rcases hh with rfl | hh
        · rw [if_pos (render_name C h)]
        · have hne : ¬ (render C g).name = intName h.user h.idx := by
            intro e
            have hk : g.key = h.key := key_of_name (C := C) e
            exact this.1 (hk ▸ List.mem_map_of_mem hh)
          rw [if_neg hne, ih hh this.2]
    rw [hp, hfind]; rfl
  · intro e he
    obtain ⟨rest, r1, r2⟩ := I.slots
    rw [r1, List.mem_cons] at he
    rcases he with he | he
    · cases he; exact .inl rfl
    · obtain ⟨es, -, rfl⟩ := r2 e he
      exact .inr ⟨es, rfl⟩

theorem home_write (I : Inv C base cs o hs ws) (hw : ∀ w ∈ ws, Call.write w ∈ cs) (h : Home M) (hh : h ∈ hs)
    (w : Write M) (hx : w ∈ h.writes) : Call.write w ∈ cs :=
  hw w ((mem_stored I w).2 ⟨h, hh, hx⟩)

theorem part_plain (I : Inv C base cs o hs ws) (P : Plain cs) (hw : ∀ w ∈ ws, Call.write w ∈ cs) (h : Home M)
    (hh : h ∈ hs) : ∀ e ∈ (render C h).group, plainName (nameOf e) := by
  intro e he
  simp only [render, List.mem_cons, List.mem_append, List.mem_map] at he
  rcases he with rfl | he | ⟨w, hx, rfl⟩
  · show plainName kMapping
    exact ⟨by decide, by decide⟩
  · unfold tagOf at he
    split at he
    · simp only [List.mem_singleton] at he; subst he; exact ⟨by decide, by decide⟩
    · simp at he
  · exact P.layer w (home_write I hw h hh w hx)

theorem part_mapping (I : Inv C base cs o hs ws) (P : Plain cs) (hw : ∀ w ∈ ws, Call.write w ∈ cs) (h : Home M)
    (hh : h ∈ hs) (g : Name) :
    find .group kMapping (groupKids g (render C h).group) = some (some (groupKids kMapping (C.write h.mapping).2)) := by
  refine find_group g _ _ _ (by decide) (part_plain I P hw h hh) ?_
  simp [render, firstOf, kindOf, nameOf]

theorem tag_groups (m : M) : ((tagOf C m).filter fun e => kindOf e = .group) = [] := by
  unfold tagOf; split <;> simp [kindOf]

theorem part_names (I : Inv C base cs o hs ws) (P : Plain cs) (hw : ∀ w ∈ ws, Call.write w ∈ cs) (h : Home M)
    (hh : h ∈ hs) (g : Name) :
    names .group (groupKids g (render C h).group) = some (kMapping :: h.writes.map (·.layer)) := by
  rw [(C35_listing .group g _ (part_plain I P hw h hh)).1]
  have e : (h.writes.map layerEntry).filter (fun e => decide (kindOf e = .group)) = h.writes.map layerEntry := by
    rw [List.filter_eq_self]
    intro e he
    obtain ⟨w, -, rfl⟩ := List.mem_map.1 he
    simp [layerEntry, kindOf]
  have e2 := tag_groups (C := C) h.mapping
  have e3 : kindOf (.group kMapping (C.write h.mapping).2) = .group := rfl
  simp only [render, List.filter_cons, e3, List.filter_append, e, e2]
  simp [nameOf, layerEntry]

theorem part_layer (I : Inv C base cs o hs ws) (P : Plain cs) (hw : ∀ w ∈ ws, Call.write w ∈ cs) (h : Home M)
    (hh : h ∈ hs) (g : Name) (w : Write M) (hx : w ∈ h.writes) (hm : w.layer ≠ kMapping) :
    find .group w.layer (groupKids g (render C h).group) = some (some (groupKids w.layer (layerGroup w))) := by
  refine find_group g _ _ _ ((I.fits h hh w hx).2.1) (part_plain I P hw h hh) ?_
  have hm' : ¬ kMapping = w.layer := fun e => hm e.symm
  have e1 : (render C h).group = [.group kMapping (C.write h.mapping).2] ++ (tagOf C h.mapping ++ h.writes.map layerEntry) := rfl
  have e2 : firstOf .group w.layer [Entry.group kMapping (C.write h.mapping).2] = none := by
    simp [firstOf, kindOf, nameOf, hm']
  have e3 : firstOf .group w.layer (tagOf C h.mapping) = none := by
    unfold tagOf; split <;> simp [firstOf, kindOf]
  rw [e1, firstOf_append, e2]
  simp only
  rw [firstOf_append, e3]
  simp only
  have hnd := I.nodup h hh
  generalize h.writes = l at hnd hx
  induction l with
  | nil => simp at hx
  | cons x l ih =>
    rw [List.map_cons, List.nodup_cons] at hnd
    rw [List.mem_cons] at hx
    rcases hx with rfl | hx
    · simp [firstOf, layerEntry, kindOf, nameOf]
    · have hne : ¬ x.layer = w.layer := by
        intro e
        exact hnd.1 (e ▸ List.mem_map_of_mem hx)
      rw [List.map_cons]
      have : firstOf .group w.layer (layerEntry x :: l.map layerEntry) = firstOf .group w.layer (l.map layerEntry) := by
        simp [firstOf, layerEntry, kindOf, nameOf, hne]
      rw [this, ih hnd.2 hx]

/-! ## `open` -/

def inParts (C : MapIO M) (readMap : List Tree → Res L) (hs : List (Home M)) : List (InPart L) :=
  hs.map fun h => ⟨intName h.user h.idx, mapBack C readMap h.mapping, (h.writes.map (·.layer)).filter fun x => x ≠ kMapping⟩

theorem read_mapping (I : Inv C base cs o hs ws) (P : Plain cs) (hw : ∀ w ∈ ws, Call.write w ∈ cs)
    (readMap : List Tree → Res L) (R : Readable C readMap cs) (h : Home M) (hh : h ∈ hs) :
    readPartMapping readMap (rootKids o.entries) (intName h.user h.idx) = .ok (mapBack C readMap h.mapping) := by
  unfold readPartMapping
  rw [root_find I P h hh]
  simp only [kidsOr, Option.map_some, Option.getD_some]
  rw [part_mapping I P hw h hh]
  simp only [Option.map_some, Option.getD_some]
  obtain ⟨w, h1, h2, h3⟩ := I.known h hh
  have := R.mapping w h1
  rw [h3] at this
  unfold mapBack
  rcases this with ⟨x, hx⟩ | hx
  · rw [hx]
  · rw [hx]

theorem read_layer_names (I : Inv C base cs o hs ws) (P : Plain cs) (hw : ∀ w ∈ ws, Call.write w ∈ cs) (h : Home M)
    (hh : h ∈ hs) : readLayerNames (rootKids o.entries) (intName h.user h.idx) =
      some ((h.writes.map (·.layer)).filter fun x => x ≠ kMapping) := by
  unfold readLayerNames
  rw [root_find I P h hh]
  simp only [kidsOr, Option.map_some, Option.getD_some, Option.bind_some]
  rw [part_names I P hw h hh]
  simp

theorem read_mappings (I : Inv C base cs o hs ws) (P : Plain cs) (hw : ∀ w ∈ ws, Call.write w ∈ cs)
    (readMap : List Tree → Res L) (R : Readable C readMap cs) : ∀ gs : List (Home M), (∀ h ∈ gs, h ∈ hs) →
    readMappings readMap (rootKids o.entries) (gs.map fun h => intName h.user h.idx) =
      .ok (gs.map fun h => ⟨intName h.user h.idx, mapBack C readMap h.mapping, []⟩)
  | [], _ => rfl
  | h :: gs, hg => by
    rw [List.map_cons, readMappings, read_mapping I P hw readMap R h (hg h (by simp)), Res.bind,
      read_mappings I P hw readMap R gs (fun x hx => hg x (by simp [hx])), Res.bind]
    rfl

theorem give_layers (readMap : List Tree → Res L) (done rest : List (Home M)) (h : Home M) (ls : List Name)
    (hn : ∀ x ∈ done, x.key ≠ h.key) :
    giveLayers (intName h.user h.idx) ls (inParts C readMap done ++
        (⟨intName h.user h.idx, mapBack C readMap h.mapping, []⟩ :: rest.map fun h =>
          ⟨intName h.user h.idx, mapBack C readMap h.mapping, []⟩)) =
      inParts C readMap done ++ (⟨intName h.user h.idx, mapBack C readMap h.mapping, ls⟩ :: rest.map fun h =>
          ⟨intName h.user h.idx, mapBack C readMap h.mapping, []⟩) := by
  induction done with
  | nil => simp [inParts, giveLayers]
  | cons d done ih =>
    have hne : ¬ intName d.user d.idx = intName h.user h.idx := by
      intro e
      obtain ⟨e1, e2⟩ := intName_inj e
      exact hn d (by simp) (by simp [Home.key, e1, e2])
    have ih' := ih (fun x hx => hn x (by simp [hx]))
    simp only [inParts, List.map_cons, List.cons_append, giveLayers, if_neg hne] at ih' ⊢
    rw [ih']

theorem read_all_layers (I : Inv C base cs o hs ws) (P : Plain cs) (hw : ∀ w ∈ ws, Call.write w ∈ cs)
    (readMap : List Tree → Res L) : ∀ (rest done : List (Home M)), done ++ rest = hs →
    readAllLayers (rootKids o.entries) (rest.map fun h => intName h.user h.idx)
      (inParts C readMap done ++ rest.map fun h => ⟨intName h.user h.idx, mapBack C readMap h.mapping, []⟩) =
      some (inParts C readMap hs)
  | [], done, e => by
    rw [List.append_nil] at e
    subst e
    simp [readAllLayers]
  | h :: rest, done, e => by
    have hh : h ∈ hs := by rw [← e]; simp
    rw [List.map_cons, readAllLayers, read_layer_names I P hw h hh, Option.bind_some, List.map_cons, give_layers]
    · have := read_all_layers I P hw readMap rest (done ++ [h]) (by simp [← e])
      rw [← this]
      congr 1
      simp [inParts]
    · intro x hx
      have := I.uniq
      rw [← e, List.map_append, List.nodup_append] at this
      exact this.2.2 x.key (List.mem_map_of_mem hx) h.key (by simp)

theorem read_info (I : Inv C base cs o hs ws) (P : Plain cs) (hw : ∀ w ∈ ws, Call.write w ∈ cs)
    (readMap : List Tree → Res L) (R : Readable C readMap cs) :
    readInfo readMap (rootKids o.entries) = .ok (inParts C readMap hs) := by
  obtain ⟨l, h1, h2⟩ := root_names I P
  unfold readInfo
  rw [h1]
  simp only
  rw [h2, read_mappings I P hw readMap R hs (fun _ h => h), Res.bind]
  have := read_all_layers I P hw readMap hs [] rfl
  rw [show inParts C readMap ([] : List (Home M)) = [] from rfl, List.nil_append] at this
  rw [this]

theorem version_ok (I : Inv C base cs o hs ws) (P : Plain cs) : versionOk (rootKids o.entries) = some true := by
  obtain ⟨rest, r1, r2⟩ := I.slots
  have hf : firstOf .attribute kVersionNumber o.entries =
      some (.attribute kVersionNumber .veci32 (encV3i libVersion)) := by
    rw [Out.entries, r1]
    simp [firstOf, Slot.encode, versionEntry, kindOf, nameOf]
  obtain ⟨⟨a, h1, h2⟩, _, _⟩ := C36_attribute_round_trip rootName kVersionNumber .veci32 (encV3i libVersion) o.entries
    (by decide) (root_plain I P) hf (fun _ => by decide)
  rw [if_neg (by decide)] at h2
  unfold versionOk
  have h1' : findTyped .attribute .veci32 kVersionNumber (rootKids o.entries) = some (some a) := h1
  simp only [h1', h2, Option.map_some, Option.getD_some]
  decide

/-- Opening the file. -/
theorem open_file (I : Inv C base cs o hs ws) (P : Plain cs) (hw : ∀ w ∈ ws, Call.write w ∈ cs)
    (readMap : List Tree → Res L) (R : Readable C readMap cs) :
    ∃ info, openFile readMap (rootKids o.entries) = .ok ⟨inParts C readMap hs, info, rootKids o.entries⟩ := by
  unfold openFile
  rw [version_ok I P]
  simp only
  rw [read_info I P hw readMap R]
  have hpl := root_plain I P
  have hs1 : (47 : UInt8) ∉ kGlobal := by decide
  cases hf : firstOf .group kGlobal o.entries with
  | none =>
    have : find .group kGlobal (rootKids o.entries) = some none := find_no_group rootName _ _ hs1 hpl hf
    rw [this]
    exact ⟨Meta.empty, rfl⟩
  | some e =>
    obtain ⟨es, rfl⟩ := firstOf_group _ _ _ hf
    have hfind : find .group kGlobal (rootKids o.entries) = some (some (groupKids kGlobal es)) :=
      find_group rootName _ _ _ hs1 hpl hf
    rw [hfind]
    have hmem := List.mem_of_find?_eq_some hf
    have hes : Call.global es ∈ cs := by
      obtain ⟨s, h1, h2⟩ := List.mem_map.1 hmem
      cases s with
      | entry e =>
        obtain ⟨rest, r1, r2⟩ := I.slots
        rw [r1, List.mem_cons] at h1
        simp only [Slot.encode] at h2
        subst h2
        rcases h1 with h1 | h1
        · simp [versionEntry] at h1
        · obtain ⟨es', h3, h4⟩ := r2 _ h1
          cases h4; exact h3
      | part p =>
        simp only [Slot.encode, Entry.group.injEq] at h2
        have : p ∈ o.parts := mem_parts.2 h1
        rw [I.parts] at this
        obtain ⟨h, hh, rfl⟩ := List.mem_map.1 this
        exact absurd h2.1 (intName_ne_global _ _)
    obtain ⟨info, hi⟩ := Option.isSome_iff_exists.1 (R.global es hes)
    exact ⟨info, by simp only [hi]⟩

/-! ## Reading layers -/

theorem find_in (readMap : List Tree → Res L) : ∀ (hs : List (Home M)), (hs.map Home.key).Nodup → ∀ h ∈ hs,
    findIn (intName h.user h.idx) (inParts C readMap hs) =
      some ⟨intName h.user h.idx, mapBack C readMap h.mapping, (h.writes.map (·.layer)).filter fun x => x ≠ kMapping⟩
  | [], _, h, hh => by simp at hh
  | g :: gs, hn, h, hh => by
    rw [List.map_cons, List.nodup_cons] at hn
    have e : inParts C readMap (g :: gs) = ⟨intName g.user g.idx, mapBack C readMap g.mapping,
      (g.writes.map (·.layer)).filter fun x => x ≠ kMapping⟩ :: inParts C readMap gs := rfl
    rw [e, findIn]
    rw [List.mem_cons] at hh
    rcases hh with rfl | hh
    · rw [if_pos rfl]
    · have hne : ¬ intName g.user g.idx = intName h.user h.idx := by
        intro e
        obtain ⟨e1, e2⟩ := intName_inj e
        have : g.key = h.key := by simp [Home.key, e1, e2]
        exact hn.1 (this ▸ List.mem_map_of_mem hh)
      rw [if_neg hne]
      exact find_in readMap gs hn.2 h hh

/-- What reading one layer gives. -/
def layerBack (C : MapIO M) (readMap : List Tree → Res L) (readField : Name → Name → List Tree → Res F) (h : Home M)
    (w : Write M) : Res (Loaded L F) :=
  (readBody (readField (layerPath (intName h.user h.idx) w.layer)) (groupKids w.layer (layerGroup w))).bind fun b =>
    .ok ⟨w.part, w.layer, mapBack C readMap h.mapping, b.2, b.1⟩

theorem read_layer (I : Inv C base cs o hs ws) (P : Plain cs) (hw : ∀ w ∈ ws, Call.write w ∈ cs)
    (readMap : List Tree → Res L) (readField : Name → Name → List Tree → Res F) (info : Meta) (h : Home M) (hh : h ∈ hs)
    (w : Write M) (hx : w ∈ h.writes) (hm : w.layer ≠ kMapping) :
    In.readLayer ⟨inParts C readMap hs, info, rootKids o.entries⟩ readField (intName h.user h.idx) w.layer =
      layerBack C readMap readField h w := by
  unfold In.readLayer
  simp only [find_in readMap hs I.uniq h hh]
  have hl : w.layer ∈ (h.writes.map (·.layer)).filter fun x => x ≠ kMapping := by
    rw [List.mem_filter]
    exact ⟨List.mem_map_of_mem hx, by simpa using hm⟩
  rw [if_pos hl, root_find I P h hh]
  simp only
  rw [part_layer I P hw h hh _ w hx hm]
  simp only [valid_groupKids, if_true, layerBack, remove_intName]
  rw [(I.fits h hh w hx).1]

theorem listing_inParts (readMap : List Tree → Res L) (info : Meta) (root : List Tree) (hs : List (Home M)) :
    In.listing (⟨inParts C readMap hs, info, root⟩ : In L) = homeList (fun l => l.filter fun x => x ≠ kMapping) hs := by
  simp [In.listing, inParts, homeList, List.map_map, Function.comp_def]

/-- The layers of a partition that have a name, read. -/
theorem read_home (I : Inv C base cs o hs ws) (P : Plain cs) (hw : ∀ w ∈ ws, Call.write w ∈ cs)
    (readMap : List Tree → Res L) (readField : Name → Name → List Tree → Res F) (info : Meta) (h : Home M) (hh : h ∈ hs)
    (q : Name → Bool) :
    let i : In L := ⟨inParts C readMap hs, info, rootKids o.entries⟩
    (((i.listing.layersOf (intName h.user h.idx)).getD []).filter q).map
        (fun x => i.readLayer readField (intName h.user h.idx) x) =
      (h.writes.filter fun w => w.layer ≠ kMapping && q w.layer).map (layerBack C readMap readField h) := by
  intro i
  have e : i.listing.layersOf (intName h.user h.idx) = some ((h.writes.map (·.layer)).filter fun x => x ≠ kMapping) := by
    rw [show i.listing = _ from listing_inParts readMap info _ hs, layersOf_home _ _ I.uniq,
      (find_key I.uniq h.user h.idx h).2 ⟨hh, rfl⟩]
    rfl
  rw [e, Option.getD_some, List.filter_filter, List.filter_map, List.map_map]
  have e2 : h.writes.filter ((fun a => q a && decide (a ≠ kMapping)) ∘ fun x : Write M => x.layer) =
      h.writes.filter fun w => w.layer ≠ kMapping && q w.layer := by
    apply List.filter_congr
    intro x _
    simp [Bool.and_comm]
  rw [e2]
  apply List.map_congr_left
  intro w hx
  rw [List.mem_filter] at hx
  simp only [ne_eq, decide_not, Bool.and_eq_true, Bool.not_eq_true', decide_eq_false_iff_not] at hx
  exact read_layer I P hw readMap readField info h hh w hx.1 hx.2.1

/-- Every layer can be read as the value, or is of another type. -/
theorem collect_ok {β γ : Type} (f : β → Res γ) (v : β → Option γ) : ∀ (l : List β),
    (∀ x ∈ l, f x = match v x with | some y => .ok y | none => .null) → collect (l.map f) = .ok (l.filterMap v)
  | [], _ => rfl
  | x :: l, h => by
    have ih := collect_ok f v l (fun y hy => h y (by simp [hy]))
    have hx := h x (by simp)
    rw [List.map_cons, hx]
    cases hv : v x with
    | none => simp only [collect, List.filterMap_cons, hv]; exact ih
    | some y => simp only [collect, List.filterMap_cons, hv, ih, Res.bind]

end

end F3D.Files
