import Verif.Props.Hdf5Files
import Verif.Props.Files

/-!
# Where HDF5 files and their users disagree (C80)
-/

namespace F3D.Props
open F3D F3D.Ogawa F3D.Og F3D.FieldIO F3D.Hdf5
open _root_.F3D.MappingIO (kMapping)
open _root_.F3D.Metadata (Meta)
open _root_.F3D.Files (kGlobal kClassType intName FieldClass Loaded layerPath StrictlySorted Home)

variable {M L F : Type}

/-- Comparing mappings is an equivalence relation (see C42 and C56 for when it is). -/
structure SameMaps (C : Hdf5.MapIO M) : Prop where
  refl : ∀ m, C.ident m m = true
  symm : ∀ a b, C.ident a b = true → C.ident b a = true
  trans : ∀ a b c, C.ident a b = true → C.ident b c = true → C.ident a c = true

theorem SameMaps.inner {C : Hdf5.MapIO M} (E : SameMaps C) : Equivalence (inner C) :=
  ⟨fun m => E.refl m.mapping, fun a b => E.symm a.mapping b.mapping, fun a b c => E.trans a.mapping b.mapping c.mapping⟩

/-- Where a layer with identical mapping and the same names as one in the file goes. -/
theorem same_home {C : Hdf5.MapIO M} {cs0 o hs ws gm} (S : Sim C cs0 o hs ws gm) (E : SameMaps C) (w w' : Hdf5.Write M)
    (hw' : w' ∈ ws) (hp : w'.part = w.part) (hi : C.ident w'.mapping w.mapping = true) :
    ∃ h ∈ hs, h.user = w.part ∧ Hdf5.matching C w.part w.mapping o.parts = some (some (intName h.user h.idx)) ∧
      C.ident h.mapping.mapping w.mapping = true ∧ w'.layer ∈ h.writes.map (·.layer) := by
  obtain ⟨h, hh, hm, hl⟩ := S.inv.first (tag w') (S.inv.perm.mem_iff.2 (List.mem_map.2 ⟨w', hw', rfl⟩))
  have hm2 : Files.matching (inner C) w.part w (hs.map (Files.render (inner C))) =
      some (some (Files.render (inner C) h).name) := by
    rw [← hm, ← matching_ident (inner C) E.inner w.part w' w hi, ← hp]
    rfl
  obtain ⟨q, hq, hqn, hru, pm, hpm, hid⟩ := Files.matching_some _ _ _ _ _ hm2
  obtain ⟨k, hk, rfl⟩ := List.mem_map.1 hq
  have hkh : k = h := Files.eq_of_key S.inv.uniq hk hh (Files.key_of_name hqn)
  rw [hkh] at hpm
  simp only [Files.render, inner, if_true] at hpm
  cases hpm
  rw [Files.render_name] at hru hm2
  rw [Files.remove_intName] at hru
  exact ⟨h, hh, hru, by rw [S.parts, matching_eq, hm2], hid, hl⟩

theorem find_home {hs : Homes M} (hn : (hs.map Home.key).Nodup) {h : Home (Hdf5.Write M)} (hh : h ∈ hs) :
    Hdf5.findPart (intName h.user h.idx) (hs.map rend) = some (rend h) := by
  cases hf : Hdf5.findPart (intName h.user h.idx) (hs.map rend) with
  | none => exact absurd rfl (findPart_none'.1 hf h hh)
  | some p =>
    obtain ⟨pre, k, post, e1, e2, e3, -, -⟩ := findPart_split _ id hs p hf
    obtain ⟨a, b⟩ := Files.intName_inj e3
    have : k = h := Files.eq_of_key hn (by rw [e1]; simp) hh (by rw [Home.key, Home.key, a, b])
    rw [e2, this]

/-- **Disagreement**: a vector layer cannot be written under the names of a scalar layer with an identical mapping, nor the
other way round, although the two kinds have lists of names and functions of their own (and in Ogawa files both are
written). -/
theorem C80_mixed_kinds_fail (C : Hdf5.MapIO M) (E : SameMaps C) (cs : List (Hdf5.Call M)) (hse : Session cs)
    (K : ∀ w, .write w ∈ cs → Fits C w) :
    ∃ rs o, Hdf5.Out.run C (Hdf5.Out.new.create true) cs = some (rs, o) ∧ ∀ w w', Fits C w → w' ∈ Hdf5.stored cs rs →
      w'.part = w.part → w'.layer = w.layer → C.ident w'.mapping w.mapping = true →
      (∀ x ∈ Hdf5.stored cs rs, x.part = w.part → x.layer = w.layer → x.isVec = w.isVec →
        C.ident x.mapping w.mapping = false) →
      Hdf5.writeLayer C w o = (.failed, o) := by
  obtain ⟨rs, o, hs, h1, S, -, -, -⟩ := session_sim C cs hse K []
  refine ⟨rs, o, h1, fun w w' Kw hw' hp hl hi hx => ?_⟩
  obtain ⟨h, hh, hu, hm, hid, hmem⟩ := same_home S E w w' hw' hp hi
  have hfp : Hdf5.findPart (intName h.user h.idx) o.parts = some (rend h) := by
    rw [S.parts]; exact find_home S.inv.uniq hh
  have hhas : (rend h).has w.isVec w.layer = false := by
    rw [Bool.eq_false_iff]
    intro hc
    rw [has_iff] at hc
    obtain ⟨f, hf, hfl⟩ := List.mem_map.1 hc
    obtain ⟨hf, hfv⟩ := List.mem_filter.1 hf
    obtain ⟨t1, t2⟩ := home_tag S h hh f hf
    have hfit := S.inv.fits h hh f hf
    have := hx f.mapping t1 (by
      have e : f.part = f.mapping.part := by rw [t2]; rfl
      rw [← e, hfit.1, hu]) (by
      have e : f.layer = f.mapping.layer := by rw [t2]; rfl
      rw [← e, hfl]) (by simpa using hfv)
    rw [E.trans _ _ _ hfit.2.2.1 hid] at this
    simp at this
  unfold Hdf5.writeLayer
  rw [if_pos S.isOpen, hm]
  simp only
  unfold Hdf5.writeTo
  rw [hfp]
  simp only [hhas]
  unfold Hdf5.addLayer
  rw [hfp]
  simp only [rend, E.symm _ _ hid, if_true]
  obtain ⟨ls, hr, hn, hls, -⟩ := S.root
  have hst := home_step (by simpa using S) (fun x hx => K x (mem_asked.1 hx)) h hh
  rw [locate_plain hst, List.nil_append, locate_plain Kw.layer.step]
  have e6 : [intName h.user h.idx] ++ [w.layer] = [intName h.user h.idx, w.layer] := rfl
  have hsome : (named w.layer (partLinks C h)).isSome = true := by
    rw [Option.isSome_iff_ne_none]
    intro hnone
    rw [named_none] at hnone
    obtain ⟨f, hf, hfl⟩ := List.mem_map.1 hmem
    exact hnone (f.layer, layerObj f.mapping) (by
      rw [partLinks]; exact List.mem_cons_of_mem _ (List.mem_map.2 ⟨f, hf, rfl⟩)) (hfl.trans hl)
  rw [e6, hr, add_child Kw.layer.step (layerWriter w) verAttrs ls partAttrs (partLinks C h) (home_named hn hls h hh),
    if_pos hsome]
  simp only [Bool.false_eq_true, if_false]
  rw [← hr]

/-- **Disagreement**: a layer named "mapping" is refused: its name is taken by the group of the mapping. -/
theorem C80_layer_named_mapping_fails (C : Hdf5.MapIO M) (cs : List (Hdf5.Call M)) (hse : Session cs)
    (K : ∀ w, .write w ∈ cs → Fits C w) :
    ∃ rs o, Hdf5.Out.run C (Hdf5.Out.new.create true) cs = some (rs, o) ∧ ∀ w, Fits C w → w.layer = kMapping →
      (Hdf5.writeLayer C w o).1 = .failed := by
  obtain ⟨rs, o, hs, h1, -, -, -, -⟩ := session_sim C cs hse K []
  refine ⟨rs, o, h1, fun w Kw hw => ?_⟩
  obtain ⟨rs', o', hs', h1', S', -, -, -⟩ := session_sim C cs hse K [w]
  rw [h1] at h1'
  cases h1'
  obtain ⟨hs2, r, o2, e, h⟩ := sim_write S' w Kw.ok (by simp)
  rw [e]
  rcases h with ⟨-, -, h⟩ | ⟨h, -, -⟩
  · exact absurd hw h
  · exact h

/-! ### Metadata -/

theorem putAttr_twice (n : Name) (a b : Attr) : ∀ (l : List W) (g : Obj), (∀ w ∈ l, ∃ k c, w = putAttr k c) →
    (named (Hdf5.cstr n) g.attrs).isSome = true → putAttr n b ∈ l → (W.all l g).1 ≠ .ok
  | [], _, _, _, h => by simp at h
  | w :: l, g, hl, hg, h => by
    rw [W.all]
    unfold W.seq
    rw [List.mem_cons] at h
    obtain ⟨k, c, rfl⟩ := hl w (by simp)
    cases g with
    | data d => simp [putAttr]
    | group as ls =>
      by_cases e : Hdf5.cstr k = [] ∨ (named (Hdf5.cstr k) as).isSome = true
      · have : putAttr k c (.group as ls) = (.failed, .group as ls) := by simp only [putAttr]; rw [if_pos e]
        rw [this]; simp
      · have hk : putAttr k c (.group as ls) = (.ok, .group (as ++ [(Hdf5.cstr k, c)]) ls) := by
          simp only [putAttr]; rw [if_neg e]
        rw [hk]
        simp only
        have hg' : (named (Hdf5.cstr n) (as ++ [(Hdf5.cstr k, c)])).isSome = true := by
          rw [named_append]
          have : (named (Hdf5.cstr n) as).isSome = true := hg
          cases hx : named (Hdf5.cstr n) as with
          | none => rw [hx] at this; simp at this
          | some v => rfl
        rcases h with h | h
        · exfalso
          rw [← h] at hk
          have : putAttr n b (.group as ls) = (.failed, .group as ls) := by
            simp only [putAttr]
            rw [if_pos (.inr hg)]
          rw [this] at hk
          simp at hk
        · exact putAttr_twice n a b l _ (fun w hw => hl w (by simp [hw])) hg' h

theorem all_twice (n : Name) (a b : Attr) : ∀ (l : List W) (i j : Nat) (g : Obj), (∀ w ∈ l, ∃ k c, w = putAttr k c) →
    i < j → l[i]? = some (putAttr n a) → l[j]? = some (putAttr n b) → (W.all l g).1 ≠ .ok
  | [], _, _, _, _, _, h, _ => by simp at h
  | w :: l, i, j, g, hl, hij, hi, hj => by
    obtain ⟨k, c, hw⟩ := hl w (by simp)
    cases j with
    | zero => omega
    | succ j =>
      rw [W.all]
      unfold W.seq
      cases i with
      | zero =>
        have e : w = putAttr n a := by simpa using hi
        subst e
        cases g with
        | data d => simp [putAttr]
        | group as ls =>
          by_cases e : Hdf5.cstr n = [] ∨ (named (Hdf5.cstr n) as).isSome = true
          · have : putAttr n a (.group as ls) = (.failed, .group as ls) := by simp only [putAttr]; rw [if_pos e]
            rw [this]; simp
          · have hk : putAttr n a (.group as ls) = (.ok, .group (as ++ [(Hdf5.cstr n, a)]) ls) := by
              simp only [putAttr]; rw [if_neg e]
            rw [hk]
            simp only
            refine putAttr_twice n a b l _ (fun w hw => hl w (by simp [hw])) ?_ (List.mem_of_getElem? (by simpa using hj))
            show (named (Hdf5.cstr n) (as ++ [(Hdf5.cstr n, a)])).isSome = true
            rw [named_append]
            cases named (Hdf5.cstr n) as <;> simp [named]
      | succ i =>
        cases hx : w g with
        | mk r g1 =>
          cases r with
          | ok => exact all_twice n a b l i j g1 (fun w hw => hl w (by simp [hw])) (by omega) (by simpa using hi) (by simpa using hj)
          | _ => simp

theorem inside_not_ok {w : W} (hw : ∀ g, (w g).1 ≠ .ok) : ∀ (p : List Name) (g : Obj), (inside p w g).1 ≠ .ok
  | [], g => hw g
  | n :: p, g => by
    cases g with
    | data d => simp [inside]
    | group as ls =>
      simp only [inside]
      split
      · simp
      · exact inside_not_ok hw p _

theorem seq_not_ok {a b : W} (hb : ∀ g, (b g).1 ≠ .ok) (g : Obj) : ((a ⨾ b) g).1 ≠ .ok := by
  unfold W.seq
  cases h : a g with
  | mk r g1 => cases r <;> first | exact hb g1 | simp

theorem seq_first_not_ok {a b : W} (ha : ∀ g, (a g).1 ≠ .ok) (g : Obj) : ((a ⨾ b) g).1 ≠ .ok := by
  unfold W.seq
  have := ha g
  cases h : a g with
  | mk r g1 =>
    rw [h] at this
    cases r <;> first | exact absurd rfl this | simp

theorem writeLayer_not_ok {C : Hdf5.MapIO M} {w : Hdf5.Write M} (hw : ∀ g, (layerWriter w g).1 ≠ .ok) (o : Hdf5.Out M) :
    (Hdf5.writeLayer C w o).1 ≠ .ok := by
  have hadd : ∀ n o, (Hdf5.addLayer C w n o).1 ≠ .ok := by
    intro n o
    unfold Hdf5.addLayer
    cases Hdf5.findPart n o.parts with
    | none => simp
    | some p =>
      simp only
      cases p.mapping with
      | none => simp
      | some pm =>
        simp only
        split
        · have := seq_not_ok (a := makeGroup (locate [] n) w.layer)
            (inside_not_ok hw (locate (locate [] n) w.layer)) o.root
          cases hx : (makeGroup (locate [] n) w.layer ⨾ inside (locate (locate [] n) w.layer) (layerWriter w)) o.root with
          | mk r g =>
            rw [hx] at this
            cases r <;> first | exact absurd rfl this | simp
        · simp
  have hnew : ∀ n o, (Hdf5.addNew C w n o).1 ≠ .ok := by
    intro n o
    unfold Hdf5.addNew
    cases hx : Hdf5.createPart C n w.mapping o with
    | mk r o => cases r <;> first | exact hadd n o | simp
  have hto : ∀ n o, (Hdf5.writeTo C w n o).1 ≠ .ok := by
    intro n o
    unfold Hdf5.writeTo
    split
    · exact hnew _ _
    · split
      · exact hnew _ _
      · exact hadd _ _
  unfold Hdf5.writeLayer
  split
  · split
    · simp
    · exact hto _ _
    · exact hto _ _
  · simp

theorem all_ok_nodup (l : List (Name × Attr)) (g : Obj) (h : (W.all (l.map fun p => putAttr p.1 p.2) g).1 = .ok) :
    (l.map (·.1)).Nodup := by
  unfold List.Nodup
  rw [List.pairwise_iff_getElem]
  intro i j hi hj hij e
  rw [List.length_map] at hj hi
  refine all_twice (l[i]'hi).1 (l[i]'hi).2 (l[j]'hj).2 _ i j g ?_ hij ?_ ?_ h
  · intro w hw
    obtain ⟨p, -, rfl⟩ := List.mem_map.1 hw
    exact ⟨_, _, rfl⟩
  · rw [List.getElem?_map, List.getElem?_eq_getElem hi]; rfl
  · rw [List.getElem?_map, List.getElem?_eq_getElem hj]
    have e : (l[i]'hi).1 = (l[j]'hj).1 := by simpa using e
    rw [Option.map_some, e]

theorem mem_dict {T : Type} (f : T → MVal) (d : _root_.F3D.Metadata.Dict T) (n : Name) (v : MVal) (h : (d.get n).map f = some v) :
    n ∈ (d.map fun p => (p.1, attrOf (f p.2))).map (·.1) := by
  cases hd : d.get n with
  | none => rw [hd] at h; simp at h
  | some x =>
    have := get_mem d n x hd
    rw [List.map_map]
    exact List.mem_map.2 ⟨(n, x), this, rfl⟩

theorem meta_two_kinds (m : Meta) (n : Name) (k k' : MKind) (v v' : MVal) (hk : k ≠ k') (h : lookup m n k = some v)
    (h' : lookup m n k' = some v') (g : Obj) : (Hdf5.writeMeta m g).1 ≠ .ok := by
  intro hok
  rw [writeMeta_all] at hok
  have hn := all_ok_nodup _ g hok
  have l1 : ∀ v, lookup m n .str = some v → n ∈ (m.str.map fun p => (p.1, attrOf (.str p.2))).map (·.1) :=
    fun v h => mem_dict .str _ _ v h
  have l2 : ∀ v, lookup m n .int = some v → n ∈ (m.int.map fun p => (p.1, attrOf (.int p.2))).map (·.1) :=
    fun v h => mem_dict .int _ _ v h
  have l3 : ∀ v, lookup m n .float = some v → n ∈ (m.float.map fun p => (p.1, attrOf (.float p.2))).map (·.1) :=
    fun v h => mem_dict .float _ _ v h
  have l4 : ∀ v, lookup m n .vecInt = some v → n ∈ (m.vecInt.map fun p => (p.1, attrOf (.vecInt p.2))).map (·.1) :=
    fun v h => mem_dict .vecInt _ _ v h
  have l5 : ∀ v, lookup m n .vecFloat = some v → n ∈ (m.vecFloat.map fun p => (p.1, attrOf (.vecFloat p.2))).map (·.1) :=
    fun v h => mem_dict .vecFloat _ _ v h
  unfold metaAttrs at hn
  simp only [List.map_append] at hn
  generalize (m.str.map fun p => (p.1, attrOf (.str p.2))).map (·.1) = a1 at *
  generalize (m.int.map fun p => (p.1, attrOf (.int p.2))).map (·.1) = a2 at *
  generalize (m.float.map fun p => (p.1, attrOf (.float p.2))).map (·.1) = a3 at *
  generalize (m.vecInt.map fun p => (p.1, attrOf (.vecInt p.2))).map (·.1) = a4 at *
  generalize (m.vecFloat.map fun p => (p.1, attrOf (.vecFloat p.2))).map (·.1) = a5 at *
  simp only [List.nodup_append, List.mem_append] at hn
  obtain ⟨-, ⟨-, ⟨-, ⟨-, -, h4⟩, h3⟩, h2⟩, h1⟩ := hn
  have key : ∀ {k k' : MKind} {v v' : MVal}, k.ctorIdx < k'.ctorIdx → lookup m n k = some v → lookup m n k' = some v' → False := by
    intro k k' v v' hlt h h'
    cases k <;> cases k' <;> first
      | exact absurd hlt (by decide)
      | exact h1 n (l1 _ h) n (.inl (l2 _ h')) rfl
      | exact h1 n (l1 _ h) n (.inr (.inl (l3 _ h'))) rfl
      | exact h1 n (l1 _ h) n (.inr (.inr (.inl (l4 _ h')))) rfl
      | exact h1 n (l1 _ h) n (.inr (.inr (.inr (l5 _ h')))) rfl
      | exact h2 n (l2 _ h) n (.inl (l3 _ h')) rfl
      | exact h2 n (l2 _ h) n (.inr (.inl (l4 _ h'))) rfl
      | exact h2 n (l2 _ h) n (.inr (.inr (l5 _ h'))) rfl
      | exact h3 n (l3 _ h) n (.inl (l4 _ h')) rfl
      | exact h3 n (l3 _ h) n (.inr (l5 _ h')) rfl
      | exact h4 n (l4 _ h) n (l5 _ h') rfl
  rcases Nat.lt_trichotomy k.ctorIdx k'.ctorIdx with hlt | he | hlt
  · exact key hlt h h'
  · exact hk (by cases k <;> cases k' <;> first | rfl | exact absurd he (by decide))
  · exact key hlt h' h

/-- **Disagreement**: metadata may use a name for an integer and for a string, but then the layer, or the metadata of the
file, cannot be written, whatever was written before. -/
theorem C80_metadata_two_kinds_fail (C : Hdf5.MapIO M) (o : Hdf5.Out M) (m : Meta) (n : Name) (k k' : MKind) (v v' : MVal)
    (hk : k ≠ k') (h : lookup m n k = some v) (h' : lookup m n k' = some v') :
    (Hdf5.writeGlobal m o).1 ≠ .ok ∧ ∀ w : Hdf5.Write M, w.info = m → (Hdf5.writeLayer C w o).1 ≠ .ok := by
  have hm := meta_two_kinds m n k k' v v' hk h h'
  refine ⟨?_, fun w hw => writeLayer_not_ok ?_ o⟩
  · unfold Hdf5.writeGlobal
    split
    · have := seq_not_ok (a := makeGroup [] kGlobal) (inside_not_ok hm [kGlobal]) o.root
      cases hx : (makeGroup [] kGlobal ⨾ inside [kGlobal] (Hdf5.writeMeta m)) o.root with
      | mk r g => rw [hx] at this; exact this
    · simp
  · subst hw
    intro g
    unfold layerWriter
    refine seq_not_ok (fun g => seq_not_ok (fun g => seq_first_not_ok (inside_not_ok hm _) g) g) g

/-! ### A mapping that cannot be written -/

theorem readMappings_ok {readMap : Obj → Res L} {root : Obj} : ∀ {ns : List Name} {ps : List (Hdf5.InPart L)},
    readMappings readMap root ns = .ok ps → ∀ n ∈ ns, ∃ g m, openGroup root (47 :: n ++ 47 :: kMapping) = some g ∧ readMap g = .ok m
  | [], _, _, n, hn => by simp at hn
  | x :: ns, ps, h, n, hn => by
    rw [readMappings] at h
    cases ho : openGroup root (47 :: x ++ 47 :: kMapping) with
    | none => rw [ho] at h; simp at h
    | some g =>
      rw [ho] at h
      simp only at h
      cases hr : readMap g with
      | ok m =>
        rw [hr] at h
        simp only [Res.bind] at h
        rw [List.mem_cons] at hn
        rcases hn with rfl | hn
        · exact ⟨g, m, ho, hr⟩
        · cases hx : readMappings readMap root ns with
          | ok qs => exact readMappings_ok hx n hn
          | _ => rw [hx] at h; simp at h
      | _ => rw [hr] at h; simp [Res.bind] at h

theorem open_needs_mapping (ord : Order) (readMap : Obj → Res L) (root : Obj) (i j : Hdf5.In L) (n : Name)
    (hn : n ∈ i.names ++ partitionNames ord root)
    (hb : ∀ g, openGroup root (47 :: n ++ 47 :: kMapping) = some g → ∀ m, readMap g ≠ .ok m) :
    In.openFile ord readMap root i ≠ some (true, j) := by
  unfold In.openFile
  split
  · simp only
    split
    · rename_i hps
      obtain ⟨g, m, h1, h2⟩ := readMappings_ok hps n hn
      exact absurd h2 (hb g h1 m)
    all_goals simp
  · simp

/-- **Disagreement**, for users of `Field3DInputFileHDF5` itself: an object that has opened a file cannot open another one
that lacks one of its partitions: the names found in the first file are kept. -/
theorem C80_reopen_fails (ord : Order) (readMap : Obj → Res L) (root : Obj) (i j : Hdf5.In L) (n : Name)
    (hn : n ∈ i.names) (hb : openGroup root (47 :: n ++ 47 :: kMapping) = none) :
    In.openFile ord readMap root i ≠ some (true, j) :=
  open_needs_mapping ord readMap root i j n (List.mem_append_left _ hn) (by intro g hg; rw [hb] at hg; simp at hg)

/-- **Disagreement**: when the mapping of a field cannot be written (its class has no IO class), `writeLayer` fails as it
should, but leaves a partition behind: a later write under that partition name follows a null pointer, and the file, with
all that is in it, cannot be opened if the reader makes nothing of what was written of the mapping. -/
theorem C80_failed_mapping_spoils_file (C : Hdf5.MapIO M) (cs : List (Hdf5.Call M)) (hse : Session cs)
    (K : ∀ w, .write w ∈ cs → Fits C w) (ord : Order) (V : Hdf5.Visits ord) (w : Hdf5.Write M)
    (hp : (47 : UInt8) ∉ w.part ∧ (0 : UInt8) ∉ w.part) (hm : (C.write w.mapping .new).1 = .failed)
    (hu : ∀ w', .write w' ∈ cs → w'.part ≠ w.part) :
    ∃ rs o o', Hdf5.Out.run C (Hdf5.Out.new.create true) cs = some (rs, o) ∧ Hdf5.writeLayer C w o = (.failed, o') ∧
      (∀ w', w'.part = w.part → (Hdf5.writeLayer C w' o').1 = .crash) ∧
      ∀ (readMap : Obj → Res L) (j : Hdf5.In L), (∀ m, readMap (C.write w.mapping .new).2 ≠ .ok m) →
        In.openFile ord readMap o'.root In.new ≠ some (true, j) := by
  obtain ⟨rs, o, hs, h1, S, -, -, -⟩ := session_sim C cs hse K []
  rw [List.append_nil] at S
  have hno : ∀ h ∈ hs, h.user ≠ w.part := by
    intro h hh e
    obtain ⟨a, b⟩ := home_known S h hh
    exact hu _ (mem_asked.1 a) (b.trans e)
  have hmat : ∀ m, Hdf5.matching C w.part m (hs.map rend) = some none := by
    intro m
    generalize hs = gs at hno
    induction gs with
    | nil => rfl
    | cons h gs ih =>
      rw [List.map_cons, Hdf5.matching, if_neg, ih (fun x hx => hno x (by simp [hx]))]
      show Files.removeUniqueId (intName h.user h.idx) ≠ w.part
      rw [Files.remove_intName]
      exact hno h (by simp)
  have hof : Files.ofUser w.part hs = [] := by
    unfold Files.ofUser
    rw [List.filter_eq_nil_iff]
    intro h hh
    simpa using hno h hh
  obtain ⟨k, hk⟩ : ∃ k, Files.nextIndex w.part o.count = k := ⟨_, rfl⟩
  have hst : Step (intName w.part k.1) := step_int _ _ hp.1 hp.2
  have hfree : ∀ h ∈ hs, intName h.user h.idx ≠ intName w.part k.1 := by
    intro h hh e
    exact hno h hh (Files.intName_inj e).1
  have hfp : Hdf5.findPart (intName w.part k.1) o.parts = none := by rw [S.parts, findPart_none']; exact hfree
  obtain ⟨ls, hr, hn, hl, hg⟩ := S.root
  have hnf : named (intName w.part k.1) ls = none := name_free hl _ _ hfree
  have hmk : writeMapping C [intName w.part k.1] w.mapping (.group verAttrs (ls ++ [(intName w.part k.1, .new)])) =
      (.failed, .group verAttrs (ls ++ [(intName w.part k.1, .group [] [(kMapping, mapObj C w.mapping)])])) := by
    unfold writeMapping
    refine (add_child step_mapping (C.write w.mapping) verAttrs _ [] [] (named_last _ hnf)).trans ?_
    rw [if_neg (by simp [named]), hm, set_last _ _ hnf]
    rfl
  have hwl : Hdf5.writeLayer C w o = (.failed, { o with
      root := .group verAttrs (ls ++ [(intName w.part k.1, .group [] [(kMapping, mapObj C w.mapping)])])
      parts := o.parts ++ [⟨intName w.part k.1, none, [], []⟩]
      count := k.2 }) := by
    unfold Hdf5.writeLayer
    rw [if_pos S.isOpen]
    have : Hdf5.matching C w.part w.mapping o.parts = some none := by rw [S.parts]; exact hmat _
    rw [this, hk]
    simp only
    unfold Hdf5.writeTo
    simp only [hfp]
    unfold Hdf5.addNew Hdf5.createPart
    simp only [hr, make_root hst verAttrs ls, hnf, locate_plain hst, List.nil_append]
    simp only [Option.isSome_none, Bool.false_eq_true, if_false]
    rw [hmk]
  refine ⟨rs, o, _, h1, hwl, ?_, ?_⟩
  · intro w' hw'
    unfold Hdf5.writeLayer
    rw [if_pos S.isOpen]
    have : ∀ m, Hdf5.matching C w.part m (o.parts ++ [⟨intName w.part k.1, none, [], []⟩]) = none := by
      intro m
      rw [S.parts]
      clear hof hfree hfp hl hmat S h1 hwl
      induction hs with
      | nil =>
        rw [List.map_nil, List.nil_append, Hdf5.matching, if_pos (Files.remove_intName _ _)]
      | cons h gs ih =>
        rw [List.map_cons, List.cons_append, Hdf5.matching, if_neg, ih (fun x hx => hno x (by simp [hx]))]
        show Files.removeUniqueId (intName h.user h.idx) ≠ w.part
        rw [Files.remove_intName]
        exact hno h (by simp)
    simp only [hw', this]
  · intro readMap j hb
    refine open_needs_mapping ord readMap _ _ j (intName w.part k.1) ?_ ?_
    · apply List.mem_append_right
      unfold partitionNames
      refine List.mem_map.2 ⟨(intName w.part k.1, .group [] [(kMapping, mapObj C w.mapping)]), ?_, rfl⟩
      rw [List.mem_filter, (V.links _).mem_iff]
      refine ⟨by simp [Obj.links], ?_⟩
      have e1 : intName w.part k.1 ≠ kGlobal := Files.intName_ne_global _ _
      have e2 : intName w.part k.1 ≠ kMembership := by
        intro e
        have : (46 : UInt8) ∈ intName w.part k.1 := by simp [intName]
        rw [e] at this
        revert this; decide
      simp [Obj.isGroup, e1, e2]
    · intro g hg' m
      have : openGroup (.group verAttrs (ls ++ [(intName w.part k.1, .group [] [(kMapping, mapObj C w.mapping)])]))
          (47 :: intName w.part k.1 ++ 47 :: kMapping) = (some (mapObj C w.mapping)).filter Obj.isGroup := by
        unfold openGroup
        rw [locate_abs hst step_mapping]
        simp only [Obj.at, Obj.links, named_last _ hnf]
        simp [named]
      rw [this] at hg'
      have : g = mapObj C w.mapping := by
        cases hx : (mapObj C w.mapping).isGroup <;> simp [Option.filter, hx] at hg'
        exact hg'.symm
      rw [this]
      exact hb m

/-- **Disagreement**, for users of `Field3DOutputFileHDF5` itself: an object that has written a file cannot write into a
second one a new layer of a partition of the first: the partition is still in its list, but not in the file. -/
theorem C80_second_file_fails (C : Hdf5.MapIO M) (E : SameMaps C) (cs : List (Hdf5.Call M)) (hse : Session cs)
    (K : ∀ w, .write w ∈ cs → Fits C w) :
    ∃ rs o, Hdf5.Out.run C (Hdf5.Out.new.create true) cs = some (rs, o) ∧ ∀ w w', Fits C w → w' ∈ Hdf5.stored cs rs →
      w'.part = w.part → C.ident w'.mapping w.mapping = true → (∀ x ∈ Hdf5.stored cs rs, x.layer ≠ w.layer) →
      (Hdf5.writeLayer C w (o.close.create true)).1 = .failed := by
  obtain ⟨rs, o, hs, h1, S, -, -, -⟩ := session_sim C cs hse K []
  refine ⟨rs, o, h1, fun w w' Kw hw' hp hi hx => ?_⟩
  obtain ⟨h, hh, hu, hm, hid, hmem⟩ := same_home S E w w' hw' hp hi
  have hfp : Hdf5.findPart (intName h.user h.idx) o.parts = some (rend h) := by
    rw [S.parts]; exact find_home S.inv.uniq hh
  have hhas : (rend h).has w.isVec w.layer = false := by
    rw [Bool.eq_false_iff]
    intro hc
    rw [has_iff] at hc
    obtain ⟨f, hf, hfl⟩ := List.mem_map.1 hc
    obtain ⟨hf, hfv⟩ := List.mem_filter.1 hf
    obtain ⟨t1, t2⟩ := home_tag S h hh f hf
    refine hx f.mapping t1 ?_
    have e : f.layer = f.mapping.layer := by rw [t2]; rfl
    rw [← e, hfl]
  have hc : o.close.create true = { o with isOpen := true, root := .group verAttrs [] } := rfl
  rw [hc]
  unfold Hdf5.writeLayer
  rw [if_pos rfl]
  simp only [hm]
  unfold Hdf5.writeTo
  simp only [hfp, hhas]
  unfold Hdf5.addLayer
  simp only [hfp, rend, E.symm _ _ hid, if_true]
  have hst := home_step (by simpa using S) (fun x hx => K x (mem_asked.1 hx)) h hh
  rw [locate_plain hst, List.nil_append]
  have : (makeGroup [intName h.user h.idx] w.layer (.group verAttrs [])) = (.failed, .group verAttrs []) := by
    unfold makeGroup
    rw [locate_plain Kw.layer.step, steps_plain Kw.layer.step]
    have e1 : ([intName h.user h.idx] ++ [w.layer]).getLast? = some w.layer := rfl
    have e2 : ([intName h.user h.idx] ++ [w.layer]).dropLast = [intName h.user h.idx] := rfl
    rw [e1, e2]
    simp [inside, named]
  have h2 : (makeGroup [intName h.user h.idx] w.layer ⨾
      inside (locate [intName h.user h.idx] w.layer) (layerWriter w)) (.group verAttrs []) = (.failed, .group verAttrs []) := by
    unfold W.seq
    rw [this]
  simp only [h2]
  rfl

/-! ### A field that cannot be written -/

/-- The same with a field that can be written. -/
def forced (w : Hdf5.Write M) : Hdf5.Write M := { w with body := fun g => (.ok, (w.body g).2) }

theorem forced_layer (w : Hdf5.Write M) (g : Obj) : (layerWriter w g).2 = (layerWriter (forced w) g).2 := by
  unfold layerWriter
  have key : ∀ (a b c : W), (∀ g, (b g).2 = (c g).2) → ∀ g, ((a ⨾ b) g).2 = ((a ⨾ c) g).2 := by
    intro a b c h g
    unfold W.seq
    cases ha : a g with
    | mk r g1 => cases r <;> first | exact h g1 | rfl
  exact key _ _ _ (key _ _ _ (key _ _ _ (key _ w.body (forced w).body (fun _ => rfl)))) g

theorem forced_inside (w : Hdf5.Write M) : ∀ (p : List Name) (g : Obj),
    (inside p (layerWriter w) g).2 = (inside p (layerWriter (forced w)) g).2
  | [], g => forced_layer w g
  | n :: p, .data d => rfl
  | n :: p, .group as ls => by
    simp only [inside]
    split
    · rfl
    · rename_i k _
      simp only
      rw [forced_inside w p k]

theorem forced_root (C : Hdf5.MapIO M) (w : Hdf5.Write M) (o : Hdf5.Out M) :
    (Hdf5.writeLayer C w o).2.root = (Hdf5.writeLayer C (forced w) o).2.root := by
  have hadd : ∀ n o, (Hdf5.addLayer C w n o).2.root = (Hdf5.addLayer C (forced w) n o).2.root := by
    intro n o
    unfold Hdf5.addLayer
    cases Hdf5.findPart n o.parts with
    | none => rfl
    | some p =>
      simp only
      cases p.mapping with
      | none => rfl
      | some pm =>
        simp only
        have e : (forced w).mapping = w.mapping := rfl
        rw [e]
        split
        · have h : ((makeGroup (locate [] n) w.layer ⨾ inside (locate (locate [] n) w.layer) (layerWriter w)) o.root).2 =
              ((makeGroup (locate [] n) (forced w).layer ⨾
                inside (locate (locate [] n) (forced w).layer) (layerWriter (forced w))) o.root).2 := by
            unfold W.seq
            show _ = (match makeGroup (locate [] n) w.layer o.root with
              | (Ret.ok, g) => inside (locate (locate [] n) w.layer) (layerWriter (forced w)) g
              | r => r).2
            cases ha : makeGroup (locate [] n) w.layer o.root with
            | mk r g1 => cases r <;> first | exact forced_inside w _ g1 | rfl
          generalize (makeGroup (locate [] n) w.layer ⨾ inside (locate (locate [] n) w.layer) (layerWriter w)) o.root = a at h ⊢
          generalize (makeGroup (locate [] n) (forced w).layer ⨾
                inside (locate (locate [] n) (forced w).layer) (layerWriter (forced w))) o.root = b at h ⊢
          obtain ⟨ra, ga⟩ := a
          obtain ⟨rb, gb⟩ := b
          cases ra <;> cases rb <;> exact h
        · rfl
  have hnew : ∀ n o, (Hdf5.addNew C w n o).2.root = (Hdf5.addNew C (forced w) n o).2.root := by
    intro n o
    unfold Hdf5.addNew
    have e : (forced w).mapping = w.mapping := rfl
    rw [e]
    cases hx : Hdf5.createPart C n w.mapping o with
    | mk r o => cases r <;> first | exact hadd n o | rfl
  have hto : ∀ n o, (Hdf5.writeTo C w n o).2.root = (Hdf5.writeTo C (forced w) n o).2.root := by
    intro n o
    unfold Hdf5.writeTo
    have e1 : (forced w).isVec = w.isVec := rfl
    have e2 : (forced w).layer = w.layer := rfl
    rw [e1, e2]
    cases Hdf5.findPart n o.parts with
    | none => exact hnew _ _
    | some p =>
      simp only
      split
      · exact hnew _ _
      · exact hadd _ _
  unfold Hdf5.writeLayer
  have e1 : (forced w).part = w.part := rfl
  have e2 : (forced w).mapping = w.mapping := rfl
  rw [e1, e2]
  split
  · cases Hdf5.matching C w.part w.mapping o.parts with
    | none => rfl
    | some x => cases x <;> exact hto _ _
  · rfl

theorem collect_exception {β : Type} : ∀ (l : List (Res β)) (x : List β), Res.exception ∈ l → Files.collect l ≠ .ok x
  | [], _, h => by simp at h
  | r :: l, x, h => by
    rw [List.mem_cons] at h
    rcases h with rfl | h
    · simp [Files.collect, Res.bind]
    · have ih := fun y => collect_exception l y h
      cases r with
      | null => exact ih x
      | ok b =>
        unfold Files.collect
        simp only [Res.bind]
        cases hc : Files.collect l with
        | ok y => exact absurd hc (ih y)
        | _ => simp
      | _ => simp [Files.collect, Res.bind]

theorem run_last (C : Hdf5.MapIO M) : ∀ (cs : List (Hdf5.Call M)) (o : Hdf5.Out M) (rs : List Ret) (o1 : Hdf5.Out M)
    (c : Hdf5.Call M) (rs' : List Ret) (o2 : Hdf5.Out M), Hdf5.Out.run C o cs = some (rs, o1) →
    Hdf5.Out.run C o (cs ++ [c]) = some (rs', o2) → o1.step C c = (rs'.getLast?.getD .crash, o2) ∧
      ∃ r, rs' = rs ++ [r] ∧ (o1.step C c).1 = r
  | [], o, rs, o1, c, rs', o2, h, h' => by
    rw [Hdf5.Out.run] at h
    cases h
    rw [List.nil_append, Hdf5.Out.run] at h'
    cases hx : o.step C c with
    | mk r o3 =>
      rw [hx] at h'
      cases r <;> simp [Hdf5.Out.run] at h' <;> (obtain ⟨rfl, rfl⟩ := h'; simp)
  | d :: cs, o, rs, o1, c, rs', o2, h, h' => by
    rw [Hdf5.Out.run] at h
    rw [List.cons_append, Hdf5.Out.run] at h'
    cases hx : o.step C d with
    | mk r o3 =>
      rw [hx] at h h'
      have key : ∀ {r : Ret}, (Hdf5.Out.run C o3 cs).map (fun x => (r :: x.1, x.2)) = some (rs, o1) →
          (Hdf5.Out.run C o3 (cs ++ [c])).map (fun x => (r :: x.1, x.2)) = some (rs', o2) →
          o1.step C c = (rs'.getLast?.getD .crash, o2) ∧ ∃ r, rs' = rs ++ [r] ∧ (o1.step C c).1 = r := by
        intro r a b
        rw [Option.map_eq_some_iff] at a b
        obtain ⟨⟨x1, x2⟩, ha, ea⟩ := a
        obtain ⟨⟨y1, y2⟩, hb, eb⟩ := b
        simp only [Prod.mk.injEq] at ea eb
        obtain ⟨rfl, rfl⟩ := ea
        obtain ⟨rfl, rfl⟩ := eb
        obtain ⟨i1, q, i2, i3⟩ := run_last C cs o3 x1 x2 c y1 y2 ha hb
        subst i2
        refine ⟨?_, q, rfl, i3⟩
        rw [i1, List.getLast?_append, ← List.cons_append, List.getLast?_append]
        rfl
      cases r <;> first | exact key h h' | simp at h

/-- **Disagreement**: when a field cannot be written after some of its attributes were (with compression: a dense field of
one value, see C79), `writeLayer` does not return true, but the layer is in the file: it is listed by an object that opens
the file, and no layer can be read by its names any more, also not those that were written under the same names before. -/
theorem C80_failed_field_spoils_reading [FieldClass F] (C : Hdf5.MapIO M) (cs : List (Hdf5.Call M)) (hse : Session cs)
    (K : ∀ w, .write w ∈ cs → Fits C w) (hg : ∀ m, .global m ∈ cs → NamesFit m) (ord : Order) (V : Hdf5.Visits ord)
    (w : Hdf5.Write M) (Kw : Fits C (forced w)) (hfail : ∀ g, (w.body g).1 ≠ .ok)
    (hrefl : ∀ m, C.ident m m = true) (hsymm : ∀ a b, C.ident a b = true → C.ident b a = true)
    (hname : w.layer ≠ kMapping)
    (hkind : ∀ w', .write w' ∈ cs → w'.part = w.part → w'.layer = w.layer → w'.isVec = w.isVec)
    (hne : w.part ≠ [] ∧ w.layer ≠ [])
    (readMap : Obj → Res L) (back : M → L) (hm : MapsBack C readMap back (cs ++ [.write w]))
    (readField : Name → Name → Obj → Res F)
    (hread : ∀ path g, FreshLayer g → readField path w.cls (w.body g).2 = .exception) :
    ∃ rs o i, Hdf5.Out.run C (Hdf5.Out.new.create true) cs = some (rs, o) ∧
      (Hdf5.writeLayer C w o).1 ≠ .ok ∧
      In.openFile ord readMap (Hdf5.writeLayer C w o).2.root In.new = some (true, i) ∧
      w.layer ∈ (i.listing w.isVec).layerNames w.part ∧
      ∀ fs, i.readLayers ord readField w.isVec w.part w.layer ≠ .ok fs := by
  obtain ⟨rs, o, hs0, h1, S0, -, -, -⟩ := session_sim C cs hse K []
  have hse1 : Session (cs ++ [.write (forced w)]) := by
    intro c hc
    rw [List.mem_append, List.mem_singleton] at hc
    rcases hc with hc | rfl
    · exact hse c hc
    · exact .inl ⟨_, rfl⟩
  have hcases : ∀ {x}, Hdf5.Call.write x ∈ cs ++ [.write (forced w)] → .write x ∈ cs ∨ x = forced w := by
    intro x hx
    rw [List.mem_append, List.mem_singleton] at hx
    simpa using hx
  have K1 : ∀ x, .write x ∈ cs ++ [.write (forced w)] → Fits C x := by
    intro x hx
    rcases hcases hx with hx | rfl
    · exact K x hx
    · exact Kw
  have hg1 : ∀ m, .global m ∈ cs ++ [.write (forced w)] → NamesFit m := by
    intro m hm
    exact hg m (by simpa using hm)
  have hm1 : MapsBack C readMap back (cs ++ [.write (forced w)]) := by
    intro x hx
    rcases hcases hx with hx | rfl
    · exact hm x (by simp [hx])
    · exact hm w (by simp)
  obtain ⟨rs1, o1, hs, h2, S, h3, h4, h5⟩ := session_sim C _ hse1 K1 []
  rw [List.append_nil] at S
  obtain ⟨e1, r, e2, e3⟩ := run_last C cs _ rs o (.write (forced w)) rs1 o1 h1 h2
  have hroot : (Hdf5.writeLayer C w o).2.root = o1.root := by
    rw [forced_root]
    have : Hdf5.writeLayer C (forced w) o = o.step C (.write (forced w)) := rfl
    rw [this, e1]
  have hlen : rs.length = cs.length := by
    have := h3
    rw [e2] at this
    simpa using this
  have hr : r = .ok := by
    have := h5 cs.length (forced w) (by simp)
    rw [e2, List.getElem?_append_right (by omega), hlen, Nat.sub_self] at this
    rcases this with h | ⟨-, h | h | ⟨m, h, h'⟩ | ⟨w', a, b, c, d⟩⟩
    · simpa using h
    · exact absurd h hname
    · rw [hrefl] at h; simp at h
    · rw [hsymm _ _ h] at h'; simp at h'
    · exfalso
      rw [List.map_nil, List.append_nil] at a
      rcases hcases a with a | rfl
      · exact d (hkind w' a b c)
      · exact d rfl
  have hin : forced w ∈ Hdf5.stored (cs ++ [.write (forced w)]) rs1 := by
    rw [e2, hr]
    have key : ∀ (a : List (Hdf5.Call M)) (b : List Ret), a.length = b.length →
        forced w ∈ Hdf5.stored (a ++ [.write (forced w)]) (b ++ [.ok]) := by
      intro a
      induction a with
      | nil =>
        intro b hb
        cases b with
        | nil => simp [Hdf5.stored]
        | cons => simp at hb
      | cons c a ih =>
        intro b hb
        cases b with
        | nil => simp at hb
        | cons q b =>
          have := ih b (by simpa using hb)
          rw [List.cons_append, List.cons_append]
          cases c <;> cases q <;> simp only [Hdf5.stored, List.mem_cons] <;> first | exact this | exact .inr this
    exact key cs rs hlen.symm
  obtain ⟨rs2, o2, i2, c1, c2, -, c3⟩ := C80_listing C _ hse1 K1 hg1 ord V readMap back hm1
  rw [h2] at c1
  cases c1
  have K' : ∀ x ∈ asked (cs ++ [.write (forced w)]), Fits C x := fun x hx => K1 x (mem_asked.1 hx)
  have hws : ∀ x ∈ Hdf5.stored (cs ++ [.write (forced w)]) rs1, x ∈ asked (cs ++ [.write (forced w)]) :=
    fun x hx => mem_asked.2 (stored_asked _ rs1 x hx)
  obtain ⟨hs', names, inf, hp, ho, -, -⟩ := open_back S K' (fun m hm => hg1 m (globals_mem _ m hm)) ord V readMap back
    (fun x hx => hm1 x (mem_asked.1 hx))
  rw [ho] at c2
  simp only [Option.some.injEq, Prod.mk.injEq, true_and] at c2
  refine ⟨rs, o, _, h1, ?_, by rw [hroot]; exact ho, ?_, ?_⟩
  · refine writeLayer_not_ok ?_ o
    intro g
    unfold layerWriter
    exact seq_not_ok (fun g => seq_not_ok (fun g => seq_not_ok (fun g => seq_not_ok hfail g) g) g) g
  · rw [c2]
    exact ((c3 w.isVec).2.2.2 w.part).2 w.layer |>.2 ⟨_, hin, rfl, rfl, rfl⟩
  · intro fs
    rw [read_any S K' hws h4 ord V back names inf hp readField w.isVec w.part w.layer hne.1 hne.2]
    apply collect_exception
    have hpk : forced w ∈ (picked hs' w.part w.layer w.isVec).map (·.2.mapping) := by
      rw [(picked_perm S hp w.part w.layer w.isVec).mem_iff, List.mem_filter]
      exact ⟨hin, by simp [forced]⟩
    obtain ⟨q, hq, hqe⟩ := List.mem_map.1 hpk
    refine List.mem_map.2 ⟨q, hq, ?_⟩
    unfold resBack
    rw [hqe]
    have : readField (layerPath (intName q.1.user q.1.idx) (forced w).layer) (forced w).cls
        ((forced w).body (layerStart (forced w))).2 = .exception := hread _ _ (layerStart_fresh _)
    rw [this]
    rfl

/-! ### A layer name that begins with a slash -/

theorem locate_slash {l : Name} (hl : Step l) (base : List Name) : locate base (47 :: l) = [l] ∧ steps (47 :: l) = [l] := by
  have hc : Hdf5.cstr (47 :: l) = 47 :: l := by
    apply Hdf5.cstr_plain
    have := hl.nul
    simp [this]
  have hst : steps (47 :: l) = [l] := by
    unfold steps
    rw [hc, splitSlash, if_pos rfl, splitSlash_plain l hl.slash]
    simp [hl.ne, hl.dot]
  unfold locate
  rw [hc, hst]
  simp

/-- **Disagreement**: a layer name that begins with a slash is not in the partition but at the root: `writeLayer` returns
true, but its group is taken for a partition without mapping, and the file, with all that is in it, cannot be opened. -/
theorem C80_absolute_layer_name_spoils_file (C : Hdf5.MapIO M) (cs : List (Hdf5.Call M)) (hse : Session cs)
    (K : ∀ w, .write w ∈ cs → Fits C w) (ord : Order) (V : Hdf5.Visits ord) (w : Hdf5.Write M) (l : Name)
    (hl : OneStep l) (hw : w.layer = 47 :: l) (hdot : (46 : UInt8) ∉ l) (hln : l ≠ kGlobal ∧ l ≠ kMembership)
    (Kw : Fits C { w with layer := l }) (hb : ∀ g, FreshLayer g → named kMapping g.links = none →
      named kMapping (w.body g).2.links = none) (hi : C.ident w.mapping w.mapping = true)
    (hu : ∀ w', .write w' ∈ cs → w'.part ≠ w.part) :
    ∃ rs o o', Hdf5.Out.run C (Hdf5.Out.new.create true) cs = some (rs, o) ∧ Hdf5.writeLayer C w o = (.ok, o') ∧
      ∀ (readMap : Obj → Res L) (j : Hdf5.In L), In.openFile ord readMap o'.root In.new ≠ some (true, j) := by
  obtain ⟨rs, o, hs, h1, S, -, -, -⟩ := session_sim C cs hse K []
  rw [List.append_nil] at S
  have hno : ∀ h ∈ hs, h.user ≠ w.part := by
    intro h hh e
    obtain ⟨a, b⟩ := home_known S h hh
    exact hu _ (mem_asked.1 a) (b.trans e)
  have hmat : ∀ m, Hdf5.matching C w.part m (hs.map rend) = some none := by
    intro m
    generalize hs = gs at hno
    induction gs with
    | nil => rfl
    | cons h gs ih =>
      rw [List.map_cons, Hdf5.matching, if_neg, ih (fun x hx => hno x (by simp [hx]))]
      show Files.removeUniqueId (intName h.user h.idx) ≠ w.part
      rw [Files.remove_intName]
      exact hno h (by simp)
  obtain ⟨k, hk⟩ : ∃ k, Files.nextIndex w.part o.count = k := ⟨_, rfl⟩
  have hst : Step (intName w.part k.1) := step_int _ _ Kw.part.1 Kw.part.2
  have hfree : ∀ h ∈ hs, intName h.user h.idx ≠ intName w.part k.1 := by
    intro h hh e
    exact hno h hh (Files.intName_inj e).1
  have hfp : Hdf5.findPart (intName w.part k.1) o.parts = none := by rw [S.parts, findPart_none']; exact hfree
  obtain ⟨ls, hr, hn, hls, hg⟩ := S.root
  have hnf : named (intName w.part k.1) ls = none := name_free hls _ _ hfree
  have hne : ∀ u j, l ≠ intName u j := by
    intro u j e
    apply hdot
    rw [e]
    simp [intName]
  have hlf : named l (ls ++ [(intName w.part k.1, .group partAttrs [(kMapping, mapObj C w.mapping)])]) = none := by
    rw [named_none]
    intro p hp e
    rw [List.mem_append, List.mem_singleton] at hp
    rcases hp with hp | rfl
    · have : p ∈ ls.filter fun p => p.1 ≠ kGlobal := by
        rw [List.mem_filter]
        refine ⟨hp, ?_⟩
        rw [e]
        simpa using hln.1
      rw [hls] at this
      obtain ⟨h, hh, rfl⟩ := List.mem_map.1 this
      exact hne _ _ e.symm
    · exact hne _ _ e.symm
  have hmap : (C.write w.mapping .new).1 = .ok := by
    obtain ⟨g, e, -⟩ := Kw.mapping
    have : (C.write w.mapping .new) = (.ok, g) := e
    rw [this]
  have hlay : layerWriter w .new = w.body (layerStart w) := layerWriter_new w Kw.info
  obtain ⟨g', hg1, hg2, -, -⟩ := Kw.body (layerStart w) (layerStart_fresh w)
  have hg1 : w.body (layerStart w) = (.ok, g') := hg1
  obtain ⟨ls2, hls2⟩ : ∃ ls2, ls ++ [(intName w.part k.1, Obj.group partAttrs [(kMapping, mapObj C w.mapping)])] = ls2 :=
    ⟨_, rfl⟩
  have hadd : (makeGroup [intName w.part k.1] (47 :: l) ⨾ inside [l] (layerWriter w)) (.group verAttrs ls2) =
      (.ok, .group verAttrs (ls2 ++ [(l, g')])) := by
    rw [hls2] at hlf
    have hm : makeGroup [intName w.part k.1] (47 :: l) (.group verAttrs ls2) = (.ok, .group verAttrs (ls2 ++ [(l, .new)])) := by
      unfold makeGroup
      rw [(locate_slash hl.step _).1, (locate_slash hl.step []).2]
      simp [inside, putGroup, hlf]
    rw [seq_ok hm, inside_one l _ _ _ .new (named_last _ hlf), hlay, hg1, set_last _ _ hlf]
  have hwl : Hdf5.writeLayer C w o = (.ok, { o with
      root := .group verAttrs (ls2 ++ [(l, g')])
      parts := change (intName w.part k.1) (fun p => p.add w.isVec w.layer)
        (o.parts ++ [⟨intName w.part k.1, some w.mapping, [], []⟩])
      count := k.2 }) := by
    unfold Hdf5.writeLayer
    rw [if_pos S.isOpen]
    have : Hdf5.matching C w.part w.mapping o.parts = some none := by rw [S.parts]; exact hmat _
    rw [this, hk]
    simp only
    unfold Hdf5.writeTo
    simp only [hfp]
    unfold Hdf5.addNew
    rw [createPart_ok C _ hst w.mapping { o with count := k.2 } verAttrs ls hr hnf hmap hfp]
    simp only
    unfold Hdf5.addLayer
    rw [findPart_new _ _ _ hfp]
    simp only [hi, if_true]
    rw [locate_plain hst, List.nil_append, hw, (locate_slash hl.step _).1, hls2, hadd]
  refine ⟨rs, o, _, h1, hwl, fun readMap j => ?_⟩
  rw [hls2] at hlf
  refine open_needs_mapping ord readMap _ _ j l ?_ ?_
  · apply List.mem_append_right
    unfold partitionNames
    refine List.mem_map.2 ⟨(l, g'), ?_, rfl⟩
    rw [List.mem_filter, (V.links _).mem_iff]
    refine ⟨by simp [Obj.links], ?_⟩
    simp [hg2, hln.1, hln.2]
  · intro g hgo m
    exfalso
    unfold openGroup at hgo
    rw [locate_abs hl.step step_mapping] at hgo
    have h3 : named kMapping g'.links = none := by
      have := hb (layerStart w) (layerStart_fresh w) (by
        have hk : Files.kMetadata ≠ kMapping := by decide
        show named kMapping [(Files.kMetadata, _)] = none
        rw [named, if_neg hk]; rfl)
      rwa [hg1] at this
    have hat : (Obj.group verAttrs (ls2 ++ [(l, g')])).at [l, kMapping] = none := by
      unfold Obj.at
      rw [show (Obj.group verAttrs (ls2 ++ [(l, g')])).links = ls2 ++ [(l, g')] from rfl, named_last _ hlf]
      unfold Obj.at
      simp only [h3]
    have hgo : ((Obj.group verAttrs (ls2 ++ [(l, g')])).at [l, kMapping]).filter Obj.isGroup = some g := hgo
    rw [hat] at hgo
    exact absurd hgo (by simp)

/-- A listed layer is a group of the partition, marked as a layer, with the components of its kind. -/
def MarkedLayer (root : Obj) (n : Name) (isVec : Bool) (l : Name) : Prop :=
  ∃ g as ls, openGroup root n = some g ∧ (l, .group as ls) ∈ g.links ∧ getStr kClassType (.group as ls) = .ok Files.kLayerText ∧
    getInt kComponents (.group as ls) = .ok (if isVec then 3 else 1)

theorem layersWith_marked (ord : Order) (V : Hdf5.Visits ord) (root g : Obj) (n : Name) (h : openGroup root n = some g)
    (isVec : Bool) (l : Name) (hl : l ∈ layersWith ord (if isVec then 3 else 1) g) : MarkedLayer root n isVec l := by
  unfold layersWith at hl
  obtain ⟨p, hp, rfl⟩ := List.mem_map.1 hl
  rw [List.mem_filter, (V.links _).mem_iff, decide_eq_true_eq] at hp
  obtain ⟨h1, h2⟩ := hp
  obtain ⟨l, o⟩ := p
  cases o with
  | data d => simp [componentsOf, Obj.isGroup] at h2
  | group as ls =>
    refine ⟨g, as, ls, h, h1, ?_⟩
    have h2 : (match getStr kClassType (.group as ls) with
      | .ok t => if t = Files.kLayerText then
          match getInt kComponents (.group as ls) with
          | .ok c => some c
          | _ => none
        else none
      | _ => none) = some (if isVec then (3 : Int) else 1) := h2
    cases h3 : getStr kClassType (.group as ls) with
    | ok t =>
      rw [h3] at h2
      simp only at h2
      split at h2
      · rename_i ht
        subst ht
        cases h4 : getInt kComponents (.group as ls) with
        | ok c => rw [h4] at h2; simp only [Option.some.injEq] at h2; exact ⟨rfl, by rw [h2]⟩
        | _ => rw [h4] at h2; simp at h2
      · simp at h2
    | _ => rw [h3] at h2; simp at h2

theorem giveLayers_mem {n : Name} {s v : List Name} : ∀ {ps : List (InPart L)} {q : InPart L}, q ∈ giveLayers n s v ps →
    q ∈ ps ∨ ∃ p ∈ ps, p.name = n ∧ q = { p with scalar := p.scalar ++ s, vector := p.vector ++ v }
  | [], q, h => by simp [giveLayers] at h
  | p :: ps, q, h => by
    unfold giveLayers at h
    split at h
    · rename_i hn
      rw [List.mem_cons] at h
      rcases h with h | h
      · exact .inr ⟨p, by simp, hn, h⟩
      · exact .inl (by simp [h])
    · rw [List.mem_cons] at h
      rcases h with h | h
      · exact .inl (by simp [h])
      · rcases giveLayers_mem h with h | ⟨p', h1, h2⟩
        · exact .inl (by simp [h])
        · exact .inr ⟨p', by simp [h1], h2⟩

theorem readAllLayers_marked (ord : Order) (V : Hdf5.Visits ord) (root : Obj) : ∀ (ns : List Name) (ps : List (InPart L)),
    (∀ p ∈ ps, ∀ v : Bool, ∀ l ∈ (if v then p.vector else p.scalar), MarkedLayer root p.name v l) →
    ∀ p ∈ readAllLayers ord root ns ps, ∀ v : Bool, ∀ l ∈ (if v then p.vector else p.scalar), MarkedLayer root p.name v l
  | [], ps, h => h
  | n :: ns, ps, h => by
    unfold readAllLayers
    cases hg : openGroup root n with
    | none => exact readAllLayers_marked ord V root ns ps h
    | some g =>
      refine readAllLayers_marked ord V root ns _ ?_
      intro q hq v l hl
      rcases giveLayers_mem hq with hq | ⟨p, hp, hn, rfl⟩
      · exact h q hq v l hl
      · subst hn
        have key := layersWith_marked ord V root g _ hg v l
        have old := h p hp v l
        cases v <;> simp only [if_true, if_false, List.mem_append, Bool.false_eq_true] at hl key old ⊢ <;>
          rcases hl with hl | hl <;> first | exact old hl | exact key hl

/-- Of a file of any contents only groups that are marked as layers, and have the components of the kind, are listed: other
groups in a partition, such as its mapping, are no layers. -/
theorem C80_only_marked_layers (ord : Order) (V : Hdf5.Visits ord) (readMap : Obj → Res L) (root : Obj) (b : Bool)
    (i : Hdf5.In L) (h : In.openFile ord readMap root In.new = some (b, i)) (v : Bool) (n l : Name)
    (hl : ∃ ls, (n, ls) ∈ i.listing v ∧ l ∈ ls) : MarkedLayer root n v l := by
  obtain ⟨ls, h1, h2⟩ := hl
  obtain ⟨p, hp, he⟩ := List.mem_map.1 h1
  simp only [Prod.mk.injEq] at he
  obtain ⟨rfl, rfl⟩ := he
  have hempty : ∀ (ns : List Name) (ps : List (InPart L)), readMappings readMap root ns = .ok ps →
      ∀ p ∈ ps, p.scalar = [] ∧ p.vector = [] := by
    intro ns
    induction ns with
    | nil =>
      intro ps h p hp
      simp only [readMappings, Res.ok.injEq] at h
      subst h
      simp at hp
    | cons n ns ih =>
      intro ps h p hp
      unfold readMappings at h
      cases ho : openGroup root (47 :: n ++ 47 :: kMapping) with
      | none => rw [ho] at h; simp at h
      | some g =>
        rw [ho] at h
        cases hm : readMap g with
        | ok m =>
          simp only [hm, Res.bind] at h
          cases hr : readMappings readMap root ns with
          | ok qs =>
            simp only [hr, Res.ok.injEq] at h
            subst h
            rw [List.mem_cons] at hp
            rcases hp with rfl | hp
            · exact ⟨rfl, rfl⟩
            · exact ih qs hr p hp
          | _ => simp [hr] at h
        | _ => simp [hm, Res.bind] at h
  unfold In.openFile at h
  split at h
  · cases hr : readMappings readMap root ((In.new : Hdf5.In L).names ++ partitionNames ord root) with
    | ok ps =>
      simp only [hr, Option.some.injEq, Prod.mk.injEq] at h
      obtain ⟨-, rfl⟩ := h
      refine readAllLayers_marked ord V root _ ps ?_ p hp v l h2
      intro q hq v l hl
      obtain ⟨e1, e2⟩ := hempty _ _ hr q hq
      rw [e1, e2] at hl
      simp at hl
    | crash => simp [hr] at h
    | running => simp [hr] at h
    | _ =>
      simp only [hr, Option.some.injEq, Prod.mk.injEq] at h
      obtain ⟨-, rfl⟩ := h
      simp at hp
  · simp only [Option.some.injEq, Prod.mk.injEq] at h
    obtain ⟨-, rfl⟩ := h
    simp at hp

/-- A partition with a layer "a" and a group "b" that is marked as something else. -/
def oddRoot : Obj := .group [] [([112], .group [] [(kMapping, .group [([109], .ints [1])] []),
  ([97], .group [(kClassType, .str Files.kLayerText), (kComponents, .ints [1])] []),
  ([98], .group [(kClassType, .str [88]), (kComponents, .ints [1])] [])])]

/-- It opens, and only "a" is listed. -/
example : ∃ i, In.openFile ⟨id, id⟩ (fun _ => .ok 0) oddRoot (In.new (L := Nat)) = some (true, i) ∧ i.listing false = [([112], [[97]])] :=
  ⟨_, rfl, by decide⟩

end F3D.Props
