import Verif.Proofs.FilesRead

/-!
# C43, C44: what is found again in files

`M` is the type of mappings of fields that are written, `L` that of mappings that are read, `F` that of fields that are
read. `C.ident` is `isIdentical`; `C.write` is `writeMapping`.
-/

namespace F3D.Props
open Files Og Ogawa FieldIO
open MappingIO (kMapping)
open Metadata (Meta)

variable {M L F : Type} [FieldClass F]

/-! ## C43 -/

/-- What the reader of the class makes of the contents of a layer: `none` if they are of another class or type. -/
def ReadsAs (readField : Name → Name → List Tree → Res F) (val : Name → Write M → Option (F × Meta)) (cs : List (Call M)) : Prop :=
  ∀ path w, Call.write w ∈ cs → readBody (readField path) (groupKids w.layer (layerGroup w)) =
    match val path w with
    | some b => .ok b
    | none => .null

theorem read_layers_homes {C : MapIO M} {base cs o hs ws} (I : Inv C base cs o hs ws) (P : Plain cs)
    (hw : ∀ w ∈ ws, Call.write w ∈ cs) (readMap : List Tree → Res L) (readField : Name → Name → List Tree → Res F)
    (val : Name → Write M → Option (F × Meta)) (hv : ReadsAs readField val cs) (info : Meta) (u l : Name) (hu : u ≠ [])
    (hl : l ≠ []) :
    In.readLayers ⟨inParts C readMap hs, info, rootKids o.entries⟩ readField u l =
      .ok ((((ofUser u hs).flatMap fun h =>
        (h.writes.filter fun w => w.layer ≠ kMapping && decide (w.layer = l)).map fun w => (h, w))).filterMap fun q =>
          (val (layerPath (intName u q.1.idx) l) q.2).map fun b => ⟨u, l, mapBack C readMap q.1.mapping, b.2, b.1⟩) := by
  unfold In.readLayers
  rw [if_neg (by simp [hu, hl])]
  have e : (inParts C readMap hs).map (·.name) = hs.map fun h => intName h.user h.idx := by
    simp [inParts, List.map_map, Function.comp_def]
  rw [← collect_ok (fun q : Home M × Write M => layerBack C readMap readField q.1 q.2)]
  · congr 1
    show List.flatMap _ ((inParts C readMap hs).map (·.name)) = _
    rw [e, List.flatMap_map, List.map_flatMap, ofUser]
    have key : ∀ gs : List (Home M), (∀ h ∈ gs, h ∈ hs) →
        (gs.flatMap fun h => if removeUniqueId (intName h.user h.idx) = u then
          ((((⟨inParts C readMap hs, info, rootKids o.entries⟩ : In L).listing.layersOf
            (intName h.user h.idx)).getD []).filter fun x => x = l).map fun x =>
            In.readLayer ⟨inParts C readMap hs, info, rootKids o.entries⟩ readField (intName h.user h.idx) x else []) =
        ((gs.filter fun h => h.user = u).flatMap fun h =>
          ((h.writes.filter fun w => w.layer ≠ kMapping && decide (w.layer = l)).map fun w => (h, w)).map
            fun q => layerBack C readMap readField q.1 q.2) := by
      intro gs
      induction gs with
      | nil => intro _; rfl
      | cons h gs ih =>
        intro hg
        rw [List.flatMap_cons, ih (fun x hx => hg x (by simp [hx])), remove_intName]
        by_cases eu : h.user = u
        · rw [if_pos eu, List.filter_cons, if_pos (by simpa using eu), List.flatMap_cons]
          have := read_home I P hw readMap readField info h (hg h (by simp)) (fun x => decide (x = l))
          simp only at this
          rw [this, List.map_map]
          rfl
        · rw [if_neg eu, List.filter_cons, if_neg (by simpa using eu), List.nil_append]
    exact key hs (fun _ h => h)
  · intro q hq
    simp only [List.mem_flatMap, List.mem_map, List.mem_filter] at hq
    obtain ⟨h, hh, w, ⟨hx, hp⟩, rfl⟩ := hq
    obtain ⟨hh, hu'⟩ := mem_ofUser.1 hh
    simp only [ne_eq, decide_not, Bool.and_eq_true, Bool.not_eq_true', decide_eq_false_iff_not, decide_eq_true_eq] at hp
    have h1 := hv (layerPath (intName h.user h.idx) w.layer) w (home_write I hw h hh w hx)
    have h2 := (I.fits h hh w hx).1
    unfold layerBack
    rw [h1]
    rw [hu', hp.2]
    cases val (layerPath (intName u h.idx) l) w with
    | none => rfl
    | some b => simp only [Res.bind, Option.map_some, h2, hu']

theorem at_home {C : MapIO M} {base cs o hs ws} (I : Inv C base cs o hs ws) (P : Plain cs)
    (hw : ∀ w ∈ ws, Call.write w ∈ cs) (h : Home M) (hh : h ∈ hs) (w : Write M) (hx : w ∈ h.writes)
    (hm : w.layer ≠ kMapping) : At o w h.idx := by
  refine ⟨_, _, ?_, part_layer I P hw h hh (intName h.user h.idx) w hx hm, by simp [Entry.encode, groupKids]⟩
  rw [(I.fits h hh w hx).1]
  exact root_find I P h hh

/-- The layers of a name with their partitions, in the order of the partitions. -/
def namedHomes (hs : List (Home M)) (u l : Name) : List (Home M × Write M) :=
  (ofUser u hs).flatMap fun h => (h.writes.filter fun w => w.layer ≠ kMapping && decide (w.layer = l)).map fun w => (h, w)

/-- They are those that were written under the name. -/
theorem named_homes {C : MapIO M} {base o cs rs} {hs : List (Home M)} (I : Inv C base cs o hs (stored cs rs)) (u l : Name)
    (hm : l ≠ kMapping) :
    let qs : List (Nat × Write M × M) := (namedHomes hs u l).map fun q => (q.1.idx, q.2, q.1.mapping)
    (qs.map (·.2.1)).Perm ((stored cs rs).filter fun w => w.part = u ∧ w.layer = l) ∧
    (∀ q ∈ qs, ∃ h ∈ hs, h.user = u ∧ q.2.1 ∈ h.writes ∧ q.1 = h.idx ∧ q.2.2 = h.mapping ∧ q.2.1.layer = l) ∧
    (qs.map (·.1)).Pairwise (· < ·) ∧
    ∀ m, (qs.map (·.2.1)).filter (same u l m) = (stored cs rs).filter (same u l m) := by
  let f : Home M → List (Home M × Write M) := fun h =>
    (h.writes.filter fun w => w.layer ≠ kMapping && decide (w.layer = l)).map fun w => (h, w)
  have hf : ∀ h, (f h).map (·.2) = h.writes.filter fun w => decide (w.layer = l) := by
    intro h
    simp only [f, List.map_map]
    rw [show ((fun x : Home M × Write M => x.2) ∘ fun w => (h, w)) = id from rfl, List.map_id]
    apply List.filter_congr
    intro w _
    by_cases e : w.layer = l <;> simp [e, hm]
  have hq : ∀ q ∈ (ofUser u hs).flatMap f, q.1 ∈ hs ∧ q.1.user = u ∧ q.2 ∈ q.1.writes ∧ q.2.layer = l := by
    intro q hq
    simp only [f, List.mem_flatMap, List.mem_map, List.mem_filter] at hq
    obtain ⟨h, hh, w, ⟨hx, hp⟩, rfl⟩ := hq
    obtain ⟨hh, hu'⟩ := mem_ofUser.1 hh
    simp only [ne_eq, decide_not, Bool.and_eq_true, Bool.not_eq_true', decide_eq_false_iff_not, decide_eq_true_eq] at hp
    exact ⟨hh, hu', hx, hp.2⟩
  have hall : ((ofUser u hs).flatMap f).map (·.2) =
      (hs.flatMap (·.writes)).filter fun w => decide (w.part = u ∧ w.layer = l) := by
    rw [List.map_flatMap]
    simp only [hf]
    have key : ∀ gs : List (Home M), (∀ h ∈ gs, h ∈ hs) →
        ((ofUser u gs).flatMap fun h => h.writes.filter fun w => decide (w.layer = l)) =
          (gs.flatMap (·.writes)).filter fun w => decide (w.part = u ∧ w.layer = l) := by
      intro gs
      induction gs with
      | nil => intro _; rfl
      | cons h gs ih =>
        intro hg
        have ih' := ih (fun x hx => hg x (by simp [hx]))
        have hfit := I.fits h (hg h (by simp))
        rw [List.flatMap_cons, List.filter_append, ← ih']
        by_cases eu : h.user = u
        · have : ofUser u (h :: gs) = h :: ofUser u gs := by simp [ofUser, eu]
          rw [this, List.flatMap_cons]
          congr 1
          apply List.filter_congr
          intro w hx
          rw [(hfit w hx).1, eu]; simp
        · have : ofUser u (h :: gs) = ofUser u gs := by simp [ofUser, eu]
          rw [this]
          have e2 : h.writes.filter (fun w => decide (w.part = u ∧ w.layer = l)) = [] := by
            rw [List.filter_eq_nil_iff]
            intro w hx
            rw [(hfit w hx).1]; simp [eu]
          rw [e2]; rfl
    exact key hs (fun _ h => h)
  intro qs
  have hqs : qs = ((ofUser u hs).flatMap f).map fun q => (q.1.idx, q.2, q.1.mapping) := rfl
  rw [hqs]
  refine ⟨?_, ?_, ?_, ?_⟩
  · rw [List.map_map]
    show (((ofUser u hs).flatMap f).map (·.2)).Perm _
    rw [hall]
    exact I.perm.filter _
  · intro q hq'
    obtain ⟨p, hp, rfl⟩ := List.mem_map.1 hq'
    obtain ⟨h1, h2, h3, h4⟩ := hq p hp
    exact ⟨p.1, h1, h2, h3, rfl, rfl, h4⟩
  · rw [List.map_map]
    have hidx : (ofUser u hs).Pairwise fun a b => a.idx < b.idx := by
      have := I.idx u
      have hp : ((ofUser u hs).map (·.idx)).Pairwise (· < ·) := by
        rw [this, List.pairwise_map]
        refine List.Pairwise.imp ?_ List.pairwise_lt_range
        intro a b hab; omega
      exact List.pairwise_map.1 hp
    have hone : ∀ h ∈ ofUser u hs, (f h).length ≤ 1 := by
      intro h hh
      have hnd := I.nodup h (mem_ofUser.1 hh).1
      have : (f h).length = ((h.writes.map (·.layer)).filter fun x => x = l).length := by
        have e0 := congrArg List.length (hf h)
        rw [List.length_map] at e0
        rw [e0, List.filter_map, List.length_map]
        rfl
      rw [this]
      have hc : ((h.writes.map (·.layer)).filter fun x => x = l).length = (h.writes.map (·.layer)).count l := by
        rw [List.count, List.countP_eq_length_filter]
        congr 1
        apply List.filter_congr
        intro x _
        rw [beq_eq_decide]
      rw [hc]
      exact List.nodup_iff_count.1 hnd l
    have hfst : ∀ h, ∀ q ∈ f h, q.1 = h := by
      intro h q hq
      simp only [f, List.mem_map] at hq
      obtain ⟨w, -, rfl⟩ := hq
      rfl
    rw [List.pairwise_map]
    generalize ofUser u hs = gs at hidx hone
    induction gs with
    | nil => simp
    | cons h gs ih =>
      rw [List.pairwise_cons] at hidx
      rw [List.flatMap_cons, List.pairwise_append]
      refine ⟨?_, ih hidx.2 (fun x hx => hone x (by simp [hx])), ?_⟩
      · have := hone h (by simp)
        match hfh : f h with
        | [] => simp
        | [a] => simp
        | a :: b :: r => rw [hfh] at this; simp at this
      · intro a ha b hb
        obtain ⟨g, hg, hb'⟩ := List.mem_flatMap.1 hb
        show a.1.idx < b.1.idx
        rw [hfst h a ha, hfst g b hb']
        exact hidx.1 g hg
  · intro m
    rw [List.map_map]
    show (((ofUser u hs).flatMap f).map (·.2)).filter (same u l m) = _
    rw [hall, List.filter_filter, ← I.order]
    apply List.filter_congr
    intro w _
    simp only [same]
    by_cases e : w.part = u ∧ w.layer = l
    · simp [e]
    · have : ¬ (w.part = u ∧ w.layer = l ∧ w.mapping = m) := fun x => e ⟨x.1, x.2.1⟩
      simp [this]

/-- What is read by name, in terms of the partitions. -/
theorem read_back_homes {C : MapIO M} {base o cs rs} {hs : List (Home M)} (I : Inv C base cs o hs (stored cs rs))
    (P : Plain cs) (readMap : List Tree → Res L) (R : Readable C readMap cs) (readField : Name → Name → List Tree → Res F)
    (val : Name → Write M → Option (F × Meta)) (hv : ReadsAs readField val cs) :
    ∃ i : In L, openFile readMap (rootKids o.entries) = .ok i ∧
      ∀ u l, u ≠ [] → l ≠ [] → l ≠ kMapping → ∃ qs : List (Nat × Write M × M),
        i.readLayers readField u l = .ok (qs.filterMap fun q => (val (layerPath (intName u q.1) l) q.2.1).map fun b =>
          ⟨u, l, mapBack C readMap q.2.2, b.2, b.1⟩) ∧
        (qs.map (·.2.1)).Perm ((stored cs rs).filter fun w => w.part = u ∧ w.layer = l) ∧
        (∀ q ∈ qs, ∃ h ∈ hs, h.user = u ∧ q.2.1 ∈ h.writes ∧ q.1 = h.idx ∧ q.2.2 = h.mapping ∧ q.2.1.layer = l) ∧
        (qs.map (·.1)).Pairwise (· < ·) ∧
        ∀ m, (qs.map (·.2.1)).filter (same u l m) = (stored cs rs).filter (same u l m) := by
  have hw : ∀ w ∈ stored cs rs, Call.write w ∈ cs := fun w h => stored_mem cs rs w h
  obtain ⟨info, hi⟩ := open_file I P hw readMap R
  refine ⟨_, hi, fun u l hu hl hm => ?_⟩
  refine ⟨(namedHomes hs u l).map fun q => (q.1.idx, q.2, q.1.mapping), ?_, named_homes I u l hm⟩
  rw [read_layers_homes I P hw readMap readField val hv info u l hu hl, List.filterMap_map]
  rfl

/-- **C43, reading by name.** A file object (new or used before) makes a file and writes any layers and global metadata
to it, with partition and layer names as they please. The file opens. Reading a partition and layer name gives the
layers that were written under exactly these names, every one of them once, with the contents read by the reader of
their class (those of other classes left out) and the mapping of their partition, which was read back from the mapping of
a field under that partition name that is identical to that of the field. They come in the order of their partitions, and
layers with the same mapping in the order in which they were written. -/
theorem C43_read_back (C : MapIO M) (o₀ o : Out M) (cs : List (Call M)) (rs : List Ret) (H : Wrote C o₀ cs rs o)
    (P : Plain cs) (readMap : List Tree → Res L) (R : Readable C readMap cs) (readField : Name → Name → List Tree → Res F)
    (val : Name → Write M → Option (F × Meta)) (hv : ReadsAs readField val cs) :
    ∃ (i : In L) (mapOfPart : Name → Nat → Option M), openFile readMap (rootKids o.entries) = .ok i ∧
      ∀ u l, u ≠ [] → l ≠ [] → l ≠ kMapping → ∃ qs : List (Nat × Write M × M),
        i.readLayers readField u l = .ok (qs.filterMap fun q => (val (layerPath (intName u q.1) l) q.2.1).map fun b =>
          ⟨u, l, mapBack C readMap q.2.2, b.2, b.1⟩) ∧
        (qs.map (·.2.1)).Perm ((stored cs rs).filter fun w => w.part = u ∧ w.layer = l) ∧
        (∀ q ∈ qs, C.ident q.2.1.mapping q.2.2 = true ∧ At o q.2.1 q.1 ∧ mapOfPart u q.1 = some q.2.2 ∧
          ∃ w, Call.write w ∈ cs ∧ w.part = u ∧ w.mapping = q.2.2) ∧
        (qs.map (·.1)).Pairwise (· < ·) ∧
        ∀ m, (qs.map (·.2.1)).filter (same u l m) = (stored cs rs).filter (same u l m) := by
  obtain ⟨hs, I⟩ := inv_wrote H
  have hw : ∀ w ∈ stored cs rs, Call.write w ∈ cs := fun w h => stored_mem cs rs w h
  obtain ⟨i, hi, hread⟩ := read_back_homes I P readMap R readField val hv
  refine ⟨i, fun u k => (hs.find? fun h => h.key = (u, k)).map (·.mapping), hi, fun u l hu hl hm => ?_⟩
  obtain ⟨qs, h1, h2, h3, h4, h5⟩ := hread u l hu hl hm
  refine ⟨qs, h1, h2, fun q hq => ?_, h4, h5⟩
  obtain ⟨h, hh, hu', hx, e1, e2, hl'⟩ := h3 q hq
  have hfit := I.fits h hh q.2.1 hx
  refine ⟨by rw [e2]; exact hfit.2.2.1, by rw [e1]; exact at_home I P hw h hh q.2.1 hx (by rw [hl']; exact hm), ?_, ?_⟩
  · have hkey : h.key = (u, q.1) := by rw [Home.key, hu', e1]
    cases hf : hs.find? fun h => h.key = (u, q.1) with
    | none =>
      have := List.find?_eq_none.1 hf h hh
      simp [hkey] at this
    | some g =>
      have hg := List.find?_some hf
      simp only [decide_eq_true_eq] at hg
      have : g = h := eq_of_key I.uniq (List.mem_of_find?_eq_some hf) hh (hg.trans hkey.symm)
      subst this
      show (hs.find? fun h => h.key = (u, q.1)).map (·.mapping) = _
      rw [hf, e2]; rfl
  · obtain ⟨w, hw1, hw2, hw3⟩ := I.known h hh
    exact ⟨w, hw1, by rw [hw2, hu'], by rw [hw3, e2]⟩

/-- **C43, a layer named "mapping"** is never found again, whatever was written. -/
theorem C43_layer_named_mapping (C : MapIO M) (o₀ o : Out M) (cs : List (Call M)) (rs : List Ret)
    (H : Wrote C o₀ cs rs o) (P : Plain cs) (readMap : List Tree → Res L) (R : Readable C readMap cs) (i : In L)
    (hi : openFile readMap (rootKids o.entries) = .ok i) (readField : Name → Name → List Tree → Res F) (u : Name) :
    i.readLayers readField u kMapping = .ok [] := by
  obtain ⟨hs, I⟩ := inv_wrote H
  have hw : ∀ w ∈ stored cs rs, Call.write w ∈ cs := fun w h => stored_mem cs rs w h
  obtain ⟨info, hi'⟩ := open_file I P hw readMap R
  rw [hi'] at hi
  cases hi
  unfold In.readLayers
  split
  · rfl
  · have : ∀ l : List Name, (l.flatMap fun n => if removeUniqueId n = u then
        ((((⟨inParts C readMap hs, info, rootKids o.entries⟩ : In L).listing.layersOf n).getD []).filter
          fun x => x = kMapping).map fun x =>
            In.readLayer ⟨inParts C readMap hs, info, rootKids o.entries⟩ readField n x else []) = [] := by
      intro l
      rw [List.flatMap_eq_nil_iff]
      intro n _
      split
      · rw [List.map_eq_nil_iff, List.filter_eq_nil_iff]
        intro x hx
        rw [listing_inParts] at hx
        have hne : ∀ gs : List (Home M), x ∈ ((homeList (fun l => l.filter fun x => x ≠ kMapping) gs).layersOf n).getD [] →
            x ≠ kMapping := by
          intro gs
          induction gs with
          | nil => intro h; simp [homeList, Listing.layersOf] at h
          | cons g gs ih =>
            intro h
            have e : homeList (fun l => l.filter fun x => x ≠ kMapping) (g :: gs) = (intName g.user g.idx,
              (g.writes.map (·.layer)).filter fun x => x ≠ kMapping) :: homeList _ gs := rfl
            rw [e, Listing.layersOf] at h
            split at h
            · simp only [Option.getD_some, List.mem_filter, ne_eq, decide_not, Bool.not_eq_true',
                decide_eq_false_iff_not] at h
              exact h.2
            · exact ih h
        simpa using hne hs hx
      · rfl
    rw [this]
    rfl

/-! ### Sharing of partitions -/

/-- `isIdentical` of the mappings in use. -/
structure Equivalence (C : MapIO M) : Prop where
  refl : ∀ m, C.ident m m = true
  symm : ∀ a b, C.ident a b = true → C.ident b a = true
  trans : ∀ a b c, C.ident a b = true → C.ident b c = true → C.ident a c = true

theorem matching_ident (C : MapIO M) (E : Equivalence C) (u : Name) (a b : M) (h : C.ident a b = true) :
    ∀ l : List (Part M), matching C u a l = matching C u b l
  | [] => rfl
  | p :: l => by
    have ih := matching_ident C E u a b h l
    unfold matching
    split
    · cases hm : p.mapping with
      | none => rfl
      | some pm =>
        have : C.ident pm a = C.ident pm b := by
          rw [Bool.eq_iff_iff]
          exact ⟨fun x => E.trans _ _ _ x h, fun x => E.trans _ _ _ x (E.symm _ _ h)⟩
        simp only [this, ih]
    · exact ih

theorem pairwise_homes {R : Write M → Write M → Prop} (hsym : ∀ a b, R a b → R b a) : ∀ (hs : List (Home M)),
    (hs.flatMap (·.writes)).Pairwise R → (hs.map Home.key).Nodup → ∀ g ∈ hs, ∀ h ∈ hs, g.key ≠ h.key →
    ∀ a ∈ g.writes, ∀ b ∈ h.writes, R a b
  | [], _, _, g, hg, _, _, _, _, _, _, _ => by simp at hg
  | x :: hs, hp, hn, g, hg, h, hh, hk, a, ha, b, hb => by
    rw [List.flatMap_cons, List.pairwise_append] at hp
    rw [List.map_cons, List.nodup_cons] at hn
    rw [List.mem_cons] at hg hh
    rcases hg with rfl | hg <;> rcases hh with rfl | hh
    · exact absurd rfl hk
    · exact hp.2.2 a ha b (List.mem_flatMap.2 ⟨h, hh, hb⟩)
    · exact hsym _ _ (hp.2.2 b hb a (List.mem_flatMap.2 ⟨g, hg, ha⟩))
    · exact pairwise_homes hsym hs hp.2.1 hn.2 g hg h hh hk a ha b hb

/-- Every layer is in the first partition that matches. -/
theorem in_first {C : MapIO M} (E : Equivalence C) {base o cs rs} {hs : List (Home M)}
    (I : Inv C base cs o hs (stored cs rs))
    (hd : (stored cs rs).Pairwise fun a b => ¬ (a.part = b.part ∧ a.layer = b.layer ∧ C.ident a.mapping b.mapping = true)) :
    ∀ w ∈ stored cs rs, ∀ h ∈ hs, w ∈ h.writes →
      matching C w.part w.mapping (hs.map (render C)) = some (some (render C h).name) := by
  let R : Write M → Write M → Prop := fun a b => ¬ (a.part = b.part ∧ a.layer = b.layer ∧ C.ident a.mapping b.mapping = true)
  have hsym : ∀ a b, R a b → R b a := fun a b h x => h ⟨x.1.symm, x.2.1.symm, E.symm _ _ x.2.2⟩
  have hpw : (hs.flatMap (·.writes)).Pairwise R := by
    refine (List.Perm.pairwise_iff ?_ I.perm).2 hd
    intro a b; exact hsym a b
  -- every layer is in the first partition that matches
  intro w hwm h hh hx
  obtain ⟨k, hk, h1, h2⟩ := I.first w (I.perm.mem_iff.2 hwm)
  by_cases e : k.key = h.key
  · rw [eq_of_key I.uniq hk hh e] at h1; exact h1
  · exfalso
    obtain ⟨x, hx', hxl⟩ := List.mem_map.1 h2
    obtain ⟨p, hp, hpn, hpu, pm, hpm, hpi⟩ := matching_some C _ _ _ _ h1
    obtain ⟨k', hk', rfl⟩ := List.mem_map.1 hp
    have : k' = k := eq_of_key I.uniq hk' hk (key_of_name hpn)
    subst this
    have hkm : k'.mapping = pm := by
      simp only [render] at hpm
      split at hpm
      · simpa using hpm
      · simp at hpm
    have hxf := I.fits k' hk x hx'
    have hu : k'.user = w.part := by rw [← hpu, render_name, remove_intName]
    refine pairwise_homes hsym hs hpw I.uniq k' hk h hh e x hx' w hx ⟨by rw [hxf.1, hu], hxl, ?_⟩
    exact E.trans _ _ _ hxf.2.2.1 (by rw [hkm]; exact hpi)

/-- **C43, partitions.** If no layer name is written twice with the same partition name and mapping, then two layers
under one partition name are in the same partition of the file exactly if their mappings are identical. -/
theorem C43_partition_per_mapping (C : MapIO M) (E : Equivalence C) (o₀ o : Out M) (cs : List (Call M)) (rs : List Ret)
    (H : Wrote C o₀ cs rs o) (P : Plain cs)
    (hd : (stored cs rs).Pairwise fun a b => ¬ (a.part = b.part ∧ a.layer = b.layer ∧ C.ident a.mapping b.mapping = true)) :
    ∃ place : Write M → Nat, (∀ w ∈ stored cs rs, w.layer ≠ kMapping → At o w (place w)) ∧
      ∀ a ∈ stored cs rs, ∀ b ∈ stored cs rs, a.part = b.part →
        (place a = place b ↔ C.ident a.mapping b.mapping = true) := by
  classical
  obtain ⟨hs, I⟩ := inv_wrote H
  have hw : ∀ w ∈ stored cs rs, Call.write w ∈ cs := fun w h => stored_mem cs rs w h
  have hfirst := in_first E I hd
  have hex : ∀ w ∈ stored cs rs, ∃ h ∈ hs, w ∈ h.writes := fun w h => (mem_stored I w).1 h
  let place : Write M → Nat := fun w => if h : w ∈ stored cs rs then (hex w h).choose.idx else 0
  have hplace : ∀ w ∈ stored cs rs, ∃ h ∈ hs, w ∈ h.writes ∧ place w = h.idx := by
    intro w h
    refine ⟨(hex w h).choose, (hex w h).choose_spec.1, (hex w h).choose_spec.2, ?_⟩
    simp only [place, dif_pos h]
  refine ⟨place, ?_, ?_⟩
  · intro w h hm
    obtain ⟨g, hg, hx, e⟩ := hplace w h
    rw [e]
    exact at_home I P hw g hg w hx hm
  · intro a ha b hb hpart
    obtain ⟨g, hg, hga, eg⟩ := hplace a ha
    obtain ⟨h, hh, hhb, eh⟩ := hplace b hb
    have fa := I.fits g hg a hga
    have fb := I.fits h hh b hhb
    rw [eg, eh]
    constructor
    · intro e
      have : g = h := by
        refine eq_of_key I.uniq hg hh ?_
        simp only [Home.key, Prod.mk.injEq]
        exact ⟨by rw [← fa.1, ← fb.1, hpart], e⟩
      subst this
      exact E.trans _ _ _ fa.2.2.1 (E.symm _ _ fb.2.2.1)
    · intro e
      have h1 := hfirst a ha g hg hga
      have h2 := hfirst b hb h hh hhb
      rw [hpart, matching_ident C E _ _ _ e, h2] at h1
      simp only [Option.some.injEq] at h1
      exact (intName_inj h1).2.symm

/-- **C43, shared mappings.** If no layer name is written twice with the same partition name and mapping, then layers
under one partition name whose mappings are identical are read with one and the same mapping. -/
theorem C43_identical_mappings_shared (C : MapIO M) (E : Equivalence C) (o₀ o : Out M) (cs : List (Call M)) (rs : List Ret)
    (H : Wrote C o₀ cs rs o) (P : Plain cs) (readMap : List Tree → Res L) (R : Readable C readMap cs)
    (readField : Name → Name → List Tree → Res F) (val : Name → Write M → Option (F × Meta)) (hv : ReadsAs readField val cs)
    (hd : (stored cs rs).Pairwise fun a b => ¬ (a.part = b.part ∧ a.layer = b.layer ∧ C.ident a.mapping b.mapping = true)) :
    ∃ (i : In L) (qs : Name → Name → List (Nat × Write M × M)), openFile readMap (rootKids o.entries) = .ok i ∧
      (∀ u l, u ≠ [] → l ≠ [] → l ≠ kMapping →
        i.readLayers readField u l = .ok ((qs u l).filterMap fun q => (val (layerPath (intName u q.1) l) q.2.1).map fun b =>
          ⟨u, l, mapBack C readMap q.2.2, b.2, b.1⟩) ∧
        ((qs u l).map (·.2.1)).Perm ((stored cs rs).filter fun w => w.part = u ∧ w.layer = l)) ∧
      ∀ u l l', u ≠ [] → l ≠ [] → l ≠ kMapping → l' ≠ [] → l' ≠ kMapping → ∀ q ∈ qs u l, ∀ q' ∈ qs u l',
        C.ident q.2.1.mapping q'.2.1.mapping = true → q.2.2 = q'.2.2 := by
  classical
  obtain ⟨hs, I⟩ := inv_wrote H
  obtain ⟨i, hi, hread⟩ := read_back_homes I P readMap R readField val hv
  have hfirst := in_first E I hd
  let qs : Name → Name → List (Nat × Write M × M) := fun u l =>
    if h : u ≠ [] ∧ l ≠ [] ∧ l ≠ kMapping then (hread u l h.1 h.2.1 h.2.2).choose else []
  have hqs : ∀ u l (h : u ≠ [] ∧ l ≠ [] ∧ l ≠ kMapping), qs u l = (hread u l h.1 h.2.1 h.2.2).choose := by
    intro u l h
    simp only [qs, dif_pos h]
  refine ⟨i, qs, hi, fun u l hu hl hm => ?_, fun u l l' hu hl hm hl' hm' p hp p' hp' hid => ?_⟩
  · obtain ⟨h1, h2, -⟩ := (hread u l hu hl hm).choose_spec
    rw [hqs u l ⟨hu, hl, hm⟩]
    exact ⟨h1, h2⟩
  · rw [hqs u l ⟨hu, hl, hm⟩] at hp
    rw [hqs u l' ⟨hu, hl', hm'⟩] at hp'
    obtain ⟨-, -, h3, -⟩ := (hread u l hu hl hm).choose_spec
    obtain ⟨-, -, h3', -⟩ := (hread u l' hu hl' hm').choose_spec
    obtain ⟨g, hg, gu, gx, -, ge, -⟩ := h3 p hp
    obtain ⟨h, hh, hu', hx, -, he, -⟩ := h3' p' hp'
    have f1 := hfirst _ ((mem_stored I _).2 ⟨g, hg, gx⟩) g hg gx
    have f2 := hfirst _ ((mem_stored I _).2 ⟨h, hh, hx⟩) h hh hx
    rw [(I.fits g hg _ gx).1, gu] at f1
    rw [(I.fits h hh _ hx).1, hu', ← matching_ident C E _ _ _ hid, f1] at f2
    simp only [Option.some.injEq] at f2
    have : g = h := eq_of_key I.uniq hg hh (key_of_name f2)
    rw [ge, he, this]

/-! ### Success -/

theorem new_written (C : MapIO M) (w : Write M) (n : Name) (o : Out M) (hf : findPart n o.parts = none)
    (hn : (47 : UInt8) ∉ n) (hl : (47 : UInt8) ∉ w.layer) (hw : (C.write w.mapping).1 = true)
    (hi : C.ident w.mapping w.mapping = true) : (addNew C w n o).1 = .written := by
  rw [addNew, createPart, if_neg hn]
  simp only [hw, if_true]
  rw [change_last n _ o.slots _ rfl hf]
  simp only
  rw [addLayer]
  have := findPart_last n o.slots ⟨n, some w.mapping, [],
    [.group kMapping (C.write w.mapping).2, .attribute kIsPartition .string [49]]⟩ rfl hf
  simp only [Out.parts]
  have this' : findPart n (List.filterMap Slot.part? (o.slots ++ [.part ⟨n, some w.mapping, [],
    [.group kMapping (C.write w.mapping).2, .attribute kIsPartition .string [49]]⟩])) = _ := this
  rw [this']
  simp only [hi, if_true, if_neg hl]

theorem matching_not_none (C : MapIO M) (u : Name) (m : M) : ∀ l : List (Part M), (∀ p ∈ l, p.mapping ≠ none) →
    matching C u m l ≠ none
  | [], _ => by simp [matching]
  | p :: l, h => by
    have ih := matching_not_none C u m l (fun q hq => h q (by simp [hq]))
    unfold matching
    split
    · cases hm : p.mapping with
      | none => exact absurd hm (h p (by simp))
      | some pm =>
        simp only
        split
        · simp
        · exact ih
    · exact ih

/-- The calls that work: no '/' in names, mappings of a class that can be written. -/
def Sound (C : MapIO M) (cs : List (Call M)) : Prop :=
  ∀ w, Call.write w ∈ cs → (47 : UInt8) ∉ w.part ∧ (47 : UInt8) ∉ w.layer ∧ (C.write w.mapping).1 = true

theorem write_written {C : MapIO M} {base cs o hs ws} (I : Inv C base cs o hs ws)
    (hr : ∀ m, C.ident m m = true) (hsy : ∀ a b, C.ident a b = true → C.ident b a = true) (S : Sound C cs)
    (w : Write M) (hc : Call.write w ∈ cs) : (writeLayer C w o).1 = .written := by
  obtain ⟨s1, s2, s3⟩ := S w hc
  have hmap : ∀ h ∈ hs, (C.write h.mapping).1 = true := by
    intro h hh
    obtain ⟨x, hx, -, e⟩ := I.known h hh
    rw [← e]; exact (S x hx).2.2
  rw [writeLayer, if_pos I.isOpen]
  have hnew : (addNew C w (intName w.part (nextIndex w.part o.count).1) { o with count := (nextIndex w.part o.count).2 }).1 =
      .written := by
    refine new_written C w _ _ ?_ ?_ s2 s3 (hr _)
    · rw [nextIndex_fst]; exact fresh_part I w.part
    · rw [slash_intName]; exact s1
  split
  · rename_i hm
    refine absurd hm (matching_not_none C _ _ _ ?_)
    rw [I.parts]
    intro p hp
    obtain ⟨h, hh, rfl⟩ := List.mem_map.1 hp
    simp [render, hmap h hh]
  · have hfp : findPart (intName w.part (nextIndex w.part o.count).1)
        ({ o with count := (nextIndex w.part o.count).2 } : Out M).parts = none := by
      rw [nextIndex_fst]; exact fresh_part I w.part
    simp only [hfp]
    exact hnew
  · rename_i n hm
    obtain ⟨q, hq, hqn, hru, pm, hpm, hpi⟩ := matching_some C _ _ _ _ hm
    split
    · rename_i hnone
      exact absurd hqn (findPart_none.1 hnone q hq)
    · rename_i p hp
      split
      · rw [hru]; exact hnew
      · rw [addLayer]
        simp only [hp]
        have : p = q := by
          have hp1 : p ∈ o.parts ∧ p.name = n := by
            clear hq hm
            generalize o.parts = l at hp
            induction l with
            | nil => simp [findPart] at hp
            | cons x l ih =>
              rw [findPart] at hp
              split at hp
              · rename_i hx; cases hp; exact ⟨by simp, hx⟩
              · exact ⟨by simp [(ih hp).1], (ih hp).2⟩
          rw [I.parts] at hp1 hq
          obtain ⟨h, hh, rfl⟩ := List.mem_map.1 hp1.1
          obtain ⟨g, hg, rfl⟩ := List.mem_map.1 hq
          rw [eq_of_key I.uniq hh hg (key_of_name (hp1.2.trans hqn.symm))]
        subst this
        simp only [hpm, hsy _ _ hpi, if_true, if_neg s2]

/-- **C43, writing succeeds.** If mappings can be written, `isIdentical` is reflexive and symmetric, and no name has a
'/', then every call on an open file returns true: whatever the names, repetitions and mappings. -/
theorem C43_writes_succeed (C : MapIO M) (hr : ∀ m, C.ident m m = true)
    (hsy : ∀ a b, C.ident a b = true → C.ident b a = true) (o₀ : Out M) (cs : List (Call M)) (hs : Session cs)
    (S : Sound C cs) :
    ∃ o, Wrote C o₀ cs (List.replicate cs.length .written) o ∧
      stored cs (List.replicate cs.length .written) = cs.filterMap fun c => match c with | .write w => some w | _ => none := by
  have key : ∀ (l : List (Call M)) (o : Out M) (hs : List (Home M)) (ws : List (Write M)),
      Inv C (nextOf o₀.count) cs o hs ws → Session l → (∀ c ∈ l, c ∈ cs) →
      ∃ o', Out.run C o l = some (List.replicate l.length .written, o') := by
    intro l
    induction l with
    | nil => intro o hs ws I _ _; exact ⟨o, rfl⟩
    | cons c l ih =>
      intro o hs ws I hl hsub
      rw [Out.run]
      rcases hl c (by simp) with ⟨w, rfl⟩ | ⟨es, rfl⟩
      · have h1 := write_written I hr hsy S w (hsub _ (by simp))
        have h2 := after_write I w (hsub _ (by simp))
        have hstep : o.step C (.write w) = writeLayer C w o := rfl
        rw [hstep]
        generalize writeLayer C w o = r at h1 h2
        obtain ⟨r, o1⟩ := r
        simp only at h1
        subst h1
        obtain ⟨hs1, I1⟩ := h2 (by simp)
        obtain ⟨o', ho'⟩ := ih o1 hs1 _ I1 (fun x hx => hl x (by simp [hx])) (fun x hx => hsub x (by simp [hx]))
        exact ⟨o', by simp only [ho', Option.map_some, List.length_cons, List.replicate_succ]⟩
      · obtain ⟨o1, h1, I1⟩ := inv_global I es (hsub _ (by simp))
        have hstep : o.step C (.global es) = (.written, o1) := h1
        rw [hstep]
        obtain ⟨o', ho'⟩ := ih o1 hs _ I1 (fun x hx => hl x (by simp [hx])) (fun x hx => hsub x (by simp [hx]))
        exact ⟨o', by simp only [ho', Option.map_some, List.length_cons, List.replicate_succ]⟩
  obtain ⟨o, ho⟩ := key cs _ _ _ (inv_create C cs o₀) hs (fun _ h => h)
  refine ⟨o, ⟨hs, ho⟩, ?_⟩
  clear key ho S hs
  induction cs with
  | nil => rfl
  | cons c cs ih => cases c <;> simp [stored, List.replicate_succ, ih]

/-! ## C44 -/

/-- **C44, while writing.** For a file written by a new object: `getPartitionNames` is sorted without repetition and has
the partition names of the layers written, and otherwise only names that were tried; `getScalarLayerNames` is sorted
without repetition and has exactly the names of the layers written under the partition name. -/
theorem C44_listing_while_writing (C : MapIO M) (o : Out M) (cs : List (Call M)) (rs : List Ret)
    (H : Wrote C Out.new cs rs o) :
    StrictlySorted o.listing.partitionNames ∧
    (∀ w ∈ stored cs rs, w.part ∈ o.listing.partitionNames) ∧
    (∀ u ∈ o.listing.partitionNames, ∃ w, Call.write w ∈ cs ∧ w.part = u) ∧
    ∀ u, StrictlySorted (o.listing.layerNames u) ∧
      ∀ l, l ∈ o.listing.layerNames u ↔ ∃ w ∈ stored cs rs, w.part = u ∧ w.layer = l := by
  obtain ⟨hs, I⟩ := inv_wrote H
  refine ⟨makeUnique_sorted _, ?_, ?_, ?_⟩
  · intro w hw
    obtain ⟨h, hh, hx⟩ := (mem_stored I w).1 hw
    rw [out_listing I, partitionNames_home]
    exact ⟨h, hh, (I.fits h hh w hx).1.symm⟩
  · intro u hu
    rw [out_listing I, partitionNames_home] at hu
    obtain ⟨h, hh, rfl⟩ := hu
    obtain ⟨w, h1, h2, -⟩ := I.known h hh
    exact ⟨w, h1, h2⟩
  · intro u
    refine ⟨makeUnique_sorted _, fun l => ?_⟩
    rw [out_listing I, layerNames_home id hs I.uniq]
    constructor
    · rintro ⟨h, hh, hu, -, hl⟩
      obtain ⟨w, hx, rfl⟩ := List.mem_map.1 hl
      exact ⟨w, (mem_stored I w).2 ⟨h, hh, hx⟩, by rw [(I.fits h hh w hx).1, hu], rfl⟩
    · rintro ⟨w, hw, rfl, rfl⟩
      obtain ⟨h, hh, hx⟩ := (mem_stored I w).1 hw
      have e := (I.fits h hh w hx).1
      have hb := (idx_bounds I h hh).2
      have h0 : nextOf (Out.new : Out M).count h.user = 0 := rfl
      exact ⟨h, hh, e.symm, by rw [e]; omega, List.mem_map_of_mem hx⟩

/-- **C44, after reading.** The same for the object that opened a file that was written by a new object; a layer named
"mapping" is not listed. -/
theorem C44_listing_of_file (C : MapIO M) (o : Out M) (cs : List (Call M)) (rs : List Ret) (H : Wrote C Out.new cs rs o)
    (P : Plain cs) (readMap : List Tree → Res L) (R : Readable C readMap cs) :
    ∃ i : In L, openFile readMap (rootKids o.entries) = .ok i ∧
    StrictlySorted i.listing.partitionNames ∧
    (∀ w ∈ stored cs rs, w.part ∈ i.listing.partitionNames) ∧
    (∀ u ∈ i.listing.partitionNames, ∃ w, Call.write w ∈ cs ∧ w.part = u) ∧
    ∀ u, StrictlySorted (i.listing.layerNames u) ∧
      ∀ l, l ∈ i.listing.layerNames u ↔ l ≠ kMapping ∧ ∃ w ∈ stored cs rs, w.part = u ∧ w.layer = l := by
  obtain ⟨hs, I⟩ := inv_wrote H
  have hw : ∀ w ∈ stored cs rs, Call.write w ∈ cs := fun w h => stored_mem cs rs w h
  obtain ⟨info, hi⟩ := open_file I P hw readMap R
  refine ⟨_, hi, makeUnique_sorted _, ?_, ?_, ?_⟩
  · intro w hw
    obtain ⟨h, hh, hx⟩ := (mem_stored I w).1 hw
    rw [listing_inParts, partitionNames_home]
    exact ⟨h, hh, (I.fits h hh w hx).1.symm⟩
  · intro u hu
    rw [listing_inParts, partitionNames_home] at hu
    obtain ⟨h, hh, rfl⟩ := hu
    obtain ⟨w, h1, h2, -⟩ := I.known h hh
    exact ⟨w, h1, h2⟩
  · intro u
    refine ⟨makeUnique_sorted _, fun l => ?_⟩
    rw [listing_inParts, layerNames_home _ hs I.uniq]
    simp only [List.mem_filter, ne_eq, decide_not, Bool.not_eq_true', decide_eq_false_iff_not]
    constructor
    · rintro ⟨h, hh, hu, -, hl, hne⟩
      obtain ⟨w, hx, rfl⟩ := List.mem_map.1 hl
      exact ⟨hne, w, (mem_stored I w).2 ⟨h, hh, hx⟩, by rw [(I.fits h hh w hx).1, hu], rfl⟩
    · rintro ⟨hne, w, hw, rfl, rfl⟩
      obtain ⟨h, hh, hx⟩ := (mem_stored I w).1 hw
      have e := (I.fits h hh w hx).1
      have hb := (idx_bounds I h hh).2
      have h0 : nextOf (Out.new : Out M).count h.user = 0 := rfl
      exact ⟨h, hh, e.symm, by rw [e]; omega, List.mem_map_of_mem hx, hne⟩

/-- **C44, a second file from the same object.** Where the second file has at most as many partitions of a name as the
first one, no layer at all is listed under that name: neither by the object nor by one that reads the second file. -/
theorem C44_second_file_loses_layers (C : MapIO M) (o₀ o₁ o₂ : Out M) (cs₁ cs₂ : List (Call M)) (rs₁ rs₂ : List Ret)
    (H₁ : Wrote C o₀ cs₁ rs₁ o₁) (H₂ : Wrote C o₁ cs₂ rs₂ o₂) (u : Name) (hu : (47 : UInt8) ∉ u)
    (hle : o₂.listing.numInt u ≤ o₁.listing.numInt u) :
    o₂.listing.layerNames u = [] ∧
    ∀ (readMap : List Tree → Res L) (i : In L), Plain cs₂ → Readable C readMap cs₂ →
      openFile readMap (rootKids o₂.entries) = .ok i → i.listing.layerNames u = [] := by
  obtain ⟨hs₁, I₁⟩ := inv_wrote H₁
  obtain ⟨hs₂, I₂⟩ := inv_wrote H₂
  rw [out_listing I₁, out_listing I₂, numInt_home, numInt_home] at hle
  have hno : ∀ h ∈ hs₂, h.user = u → ¬ h.idx < (ofUser u hs₂).length := by
    intro h hh e
    have hb := (idx_bounds I₂ h hh).1
    rw [e, I₁.count u hu] at hb
    omega
  have key : ∀ f, (homeList f hs₂).layerNames u = [] := by
    intro f
    rw [List.eq_nil_iff_forall_not_mem]
    intro l hl
    rw [layerNames_home f hs₂ I₂.uniq] at hl
    obtain ⟨h, hh, e, hlt, -⟩ := hl
    exact hno h hh e hlt
  refine ⟨by rw [out_listing I₂]; exact key id, fun readMap i P R hi => ?_⟩
  have hw : ∀ w ∈ stored cs₂ rs₂, Call.write w ∈ cs₂ := fun w h => stored_mem cs₂ rs₂ w h
  obtain ⟨info, hi'⟩ := open_file I₂ P hw readMap R
  rw [hi'] at hi
  cases hi
  rw [listing_inParts]
  exact key _

/-! ## Cases -/

/-- Mappings that are numbers; 9 is of a class that cannot be written. -/
def numberMaps : MapIO Nat := ⟨fun a b => a == b, fun m => (m != 9, [.attribute [109] .int8 [UInt8.ofNat m]])⟩

/-- A layer with a class name and one byte of contents. -/
def numbered (part layer : Name) (mapping : Nat) (x : UInt8) : Write Nat :=
  ⟨part, layer, mapping, [], [.attribute kClassName .string [67], .attribute [120] .int8 [x]]⟩

def readNumber (_ : Name) (kids : List Tree) : Res UInt8 :=
  (attr .int8 [120] kids).bind fun v => .ok (v.getD 0 0)

/-- Partition "p" and layers "a", "b"; global metadata in between. -/
def fileCalls : List (Call Nat) :=
  [.write (numbered [112] [98] 1 10), .write (numbered [112] [97] 2 20), .global [], .write (numbered [112] [97] 1 30),
   .write (numbered [113] [97] 1 40), .write (numbered [112] [97] 1 50)]

def sampleFile : Out Nat := ((Out.run numberMaps (Out.new.create true) fileCalls).map (·.2)).getD Out.new

theorem file_wrote : Wrote numberMaps Out.new fileCalls (List.replicate 6 .written) sampleFile := by
  refine ⟨?_, rfl⟩
  intro c hc
  simp only [fileCalls, List.mem_cons, List.not_mem_nil, or_false] at hc
  rcases hc with rfl | rfl | rfl | rfl | rfl | rfl
  · exact .inl ⟨_, rfl⟩
  · exact .inl ⟨_, rfl⟩
  · exact .inr ⟨_, rfl⟩
  · exact .inl ⟨_, rfl⟩
  · exact .inl ⟨_, rfl⟩
  · exact .inl ⟨_, rfl⟩

theorem file_plain : Plain fileCalls := by
  constructor <;> intro w hw <;> simp only [fileCalls, List.mem_cons, List.not_mem_nil, or_false, Call.write.injEq,
    reduceCtorEq, false_or] at hw <;> rcases hw with rfl | rfl | rfl | rfl | rfl <;> simp [numbered, plainName]

theorem file_readable : Readable numberMaps (fun kids => .ok kids.length) fileCalls := by
  refine ⟨fun w _ => .inl ⟨_, rfl⟩, fun es he => ?_⟩
  simp only [fileCalls, List.mem_cons, List.not_mem_nil, or_false, Call.global.injEq, reduceCtorEq, false_or] at he
  subst he
  decide

/-- The numbers have no metadata of their own. -/
instance : FieldClass UInt8 := ⟨fun _ => Meta.empty, Prod.mk⟩

theorem read_numbered (part layer : Name) (m : Nat) (x : UInt8) :
    readBody readNumber (groupKids layer (layerGroup (numbered part layer m x))) = .ok (x, Meta.empty) := by
  have hn : ∀ e ∈ layerGroup (numbered part layer m x), plainName (nameOf e) := by
    intro e he
    simp only [layerGroup, numbered, List.mem_append, List.mem_cons, List.not_mem_nil, or_false] at he
    rcases he with (rfl | rfl) | rfl | rfl
    · show plainName kClassType; exact ⟨by decide, by decide⟩
    · show plainName kMetadata; exact ⟨by decide, by decide⟩
    · show plainName kClassName; exact ⟨by decide, by decide⟩
    · show plainName [120]; exact ⟨by decide, by decide⟩
  have hc : firstOf .attribute kClassName (layerGroup (numbered part layer m x)) =
      some (.attribute kClassName .string [67]) := by
    simp [layerGroup, numbered, firstOf, kindOf, nameOf, show ¬ kClassType = kClassName by decide]
  have hx : firstOf .attribute [120] (layerGroup (numbered part layer m x)) = some (.attribute [120] .int8 [x]) := by
    simp [layerGroup, numbered, firstOf, kindOf, nameOf, show ¬ kClassType = [120] by decide,
      show ¬ kClassName = [120] by decide]
  have hm : firstOf .group kMetadata (layerGroup (numbered part layer m x)) = some (.group kMetadata []) := by
    simp [layerGroup, numbered, firstOf, kindOf, nameOf]
  obtain ⟨⟨a, h1, h2⟩, _, _⟩ := C36_attribute_round_trip layer kClassName .string [67] _ (by decide) hn hc
    (fun h => absurd rfl h)
  have h3 := attr_get layer [120] .int8 [x] _ (by decide) hn hx (by decide) rfl
  have h4 := find_group layer kMetadata _ _ (by decide) hn hm
  unfold readBody readNumber
  rw [h1]
  simp only
  rw [h2]
  simp only [h3, Res.bind]
  rw [h4]
  rfl

theorem file_reads : ReadsAs (fun _ => readNumber) (fun _ w => some ((match w.body with
    | [_, .attribute _ _ v] => v.getD 0 0
    | _ => 0), Meta.empty)) fileCalls := by
  intro _ w hw
  simp only [fileCalls, List.mem_cons, List.not_mem_nil, or_false, Call.write.injEq, reduceCtorEq, false_or] at hw
  rcases hw with rfl | rfl | rfl | rfl | rfl <;> exact read_numbered _ _ _ _

/-- `Entry.encode` to a depth, by plain recursion. -/
def encodeTo : Nat → Entry → Tree
  | 0, _ => .data []
  | n + 1, .group nm es => .group (blob nm ++ [.data (le32 Kind.group.code)] ++ es.map (encodeTo n))
  | _ + 1, .attribute nm t v => .group (blob nm ++ [.data (le32 Kind.attribute.code), .data (le32 t.code)] ++ blob v)
  | _ + 1, .dataset nm t els =>
    .group (blob nm ++ [.data (le32 Kind.dataset.code), .data (le32 t.code)] ++ els.flatMap blob)
  | _ + 1, .compressed nm t els =>
    .group (blob nm ++ [.data (le32 Kind.compressed.code), .data (le32 t.code)] ++ els.flatMap blob)

theorem fileEntries_encode : rootKids sampleFile.entries =
    blob rootName ++ [.data (le32 Kind.group.code)] ++ sampleFile.entries.map (encodeTo 4) := by
  have layer : ∀ p l m x, (Entry.group l (layerGroup (numbered p l m x))).encode =
      encodeTo 3 (.group l (layerGroup (numbered p l m x))) := by
    intro p l m x
    simp [Entry.encode, encodeTo, layerGroup, numbered]
  have part : ∀ (n : Name) (m : Nat) (ws : List (Write Nat)), (∀ w ∈ ws, ∃ p l m x, w = numbered p l m x) →
      (Entry.group n (.group kMapping (numberMaps.write m).2 :: .attribute kIsPartition .string [49] ::
        ws.map fun w => .group w.layer (layerGroup w))).encode =
      encodeTo 4 (.group n (.group kMapping (numberMaps.write m).2 :: .attribute kIsPartition .string [49] ::
        ws.map fun w => .group w.layer (layerGroup w))) := by
    intro n m ws hws
    have e1 : (Entry.group kMapping (numberMaps.write m).2).encode = encodeTo 3 (.group kMapping (numberMaps.write m).2) := by
      simp [Entry.encode, encodeTo, numberMaps]
    have e2 : (Entry.attribute kIsPartition .string [49]).encode = encodeTo 3 (.attribute kIsPartition .string [49]) := by
      simp [Entry.encode, encodeTo]
    have e3 : (ws.map fun w => Entry.group w.layer (layerGroup w)).map Entry.encode =
        (ws.map fun w => Entry.group w.layer (layerGroup w)).map (encodeTo 3) := by
      rw [List.map_map, List.map_map]
      apply List.map_congr_left
      intro w hw
      obtain ⟨p, l, m, x, rfl⟩ := hws w hw
      exact layer p l m x
    rw [Entry.encode, encodeTo]
    simp only [List.map_cons, e1, e2, e3]
  have ver : versionEntry.encode = encodeTo 4 versionEntry := by simp [versionEntry, Entry.encode, encodeTo]
  have glo : (Entry.group kGlobal []).encode = encodeTo 4 (.group kGlobal []) := by simp [Entry.encode, encodeTo]
  have hn : ∀ ps : List (Name × Name × Nat × UInt8),
      ∀ w ∈ ps.map (fun q => numbered q.1 q.2.1 q.2.2.1 q.2.2.2), ∃ p l m x, w = numbered p l m x := by
    intro ps w hw
    obtain ⟨q, -, rfl⟩ := List.mem_map.1 hw
    exact ⟨_, _, _, _, rfl⟩
  have p0 := part [112, 46, 48] 1 _ (hn [([112], [98], 1, 10), ([112], [97], 1, 30)])
  have p1 := part [112, 46, 49] 2 _ (hn [([112], [97], 2, 20)])
  have p2 := part [113, 46, 48] 1 _ (hn [([113], [97], 1, 40)])
  have p3 := part [112, 46, 50] 1 _ (hn [([112], [97], 1, 50)])
  have e : sampleFile.entries.map Entry.encode = sampleFile.entries.map (encodeTo 4) := by
    show [_, _, _, _, _, _] = [_, _, _, _, _, _]
    congr 1
    congr 1
    congr 1
    congr 1
    congr 1
    congr 1
  rw [rootKids, e]

/-- The file has the partitions p.0 (layers b and a), p.1, p.2 and q.0. -/
example : sampleFile.listing = [([112, 46, 48], [[98], [97]]), ([112, 46, 49], [[97]]), ([113, 46, 48], [[97]]),
    ([112, 46, 50], [[97]])] := by decide

example : Sound numberMaps fileCalls := by
  intro w hw
  simp only [fileCalls, List.mem_cons, List.not_mem_nil, or_false, Call.write.injEq, reduceCtorEq, false_or] at hw
  rcases hw with rfl | rfl | rfl | rfl | rfl <;> simp [numbered, numberMaps]

example : Equivalence numberMaps := by
  constructor
  · simp [numberMaps]
  · intro a b h; simp only [numberMaps, beq_iff_eq] at h ⊢; exact h.symm
  · intro a b c h1 h2; simp only [numberMaps, beq_iff_eq] at h1 h2 ⊢; exact h1.trans h2

/-- **C43, not in the order of writing.** The field with mapping 2 was written first, but its partition comes after that
of mapping 1, so it is read second. -/
theorem C43_order_of_partitions : ∃ i : In Nat,
    openFile (fun kids => .ok kids.length) (rootKids sampleFile.entries) = .ok i ∧
    (stored fileCalls (List.replicate 6 .written)).filterMap (fun w =>
      if w.part = [112] ∧ w.layer = [97] then w.body.getLast? else none) =
        [.attribute [120] .int8 [20], .attribute [120] .int8 [30], .attribute [120] .int8 [50]] ∧
    ∃ l, i.readLayers (fun _ => readNumber) [112] [97] = .ok l ∧ l.map (·.data) = [30, 20, 50] := by
  rw [fileEntries_encode]
  have h : (match openFile (fun kids => Res.ok kids.length) (blob rootName ++ [.data (le32 Kind.group.code)] ++
      sampleFile.entries.map (encodeTo 4)) with
    | .ok i => (match i.readLayers (fun _ => readNumber) [112] [97] with
      | .ok l => decide (l.map (·.data) = [30, 20, 50])
      | _ => false)
    | _ => false) = true := by decide +kernel
  revert h
  cases openFile (fun kids => Res.ok kids.length) (blob rootName ++ [.data (le32 Kind.group.code)] ++
      sampleFile.entries.map (encodeTo 4)) with
  | ok i =>
    intro h
    refine ⟨i, rfl, rfl, ?_⟩
    revert h
    simp only
    cases i.readLayers (fun _ => readNumber) [112] [97] with
    | ok l => intro h; exact ⟨l, rfl, by simpa using h⟩
    | _ => intro h; cases h
  | _ => intro h; cases h

/-- **C43, a mapping that cannot be written.** The call fails and leaves a partition without mapping; the next call with
the same partition name uses a null pointer. -/
theorem C43_unwritable_mapping_crash (x y : UInt8) :
    (writeLayer numberMaps (numbered [112] [97] 9 x) (Out.new.create true)).1 = .failed ∧
    Out.run numberMaps (Out.new.create true) [.write (numbered [112] [97] 9 x), .write (numbered [112] [98] 1 y)] = none :=
  ⟨by with_unfolding_all rfl, by with_unfolding_all rfl⟩

theorem makeUnique_nil : makeUnique [] = [] := by simp [makeUnique, uniq]
theorem makeUnique_one (n : Name) : makeUnique [n] = [n] := by simp [makeUnique, uniq]

/-- **C43, '/' in a layer name** raises an exception, and leaves an empty partition that is listed. -/
theorem C43_slash_in_layer_name : ∃ o, Wrote numberMaps Out.new [.write (numbered [112] [97, 47, 98] 1 0)] [.threw] o ∧
    o.listing.partitionNames = [[112]] ∧ o.listing.layerNames [112] = [] := by
  refine ⟨_, ⟨?_, rfl⟩, makeUnique_one _, makeUnique_nil⟩
  intro c hc
  simp only [List.mem_singleton] at hc
  exact .inl ⟨_, hc⟩

/-- **C44, reuse of the object**: the same layer is written to two files; it is listed for the first only. -/
theorem C44_reuse_witness : ∃ o₁ o₂, Wrote numberMaps Out.new [.write (numbered [112] [97] 1 0)] [.written] o₁ ∧
    Wrote numberMaps o₁ [.write (numbered [112] [97] 1 0)] [.written] o₂ ∧
    o₁.listing.layerNames [112] = [[97]] ∧ o₂.listing.partitionNames = [[112]] ∧ o₂.listing.layerNames [112] = [] := by
  refine ⟨_, _, ⟨?_, rfl⟩, ⟨?_, rfl⟩, makeUnique_one _, makeUnique_one _, makeUnique_nil⟩ <;>
  · intro c hc
    simp only [List.mem_singleton] at hc
    exact .inl ⟨_, hc⟩

end F3D.Props
