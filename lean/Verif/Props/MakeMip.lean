import Verif.Model.MakeMip
import Verif.Model.Resample
import Verif.Props.Merge

/-!
# C99: making MIP fields for files
-/

namespace F3D.Props
open Files Og Ogawa FieldIO Merge
open MappingIO (kMapping)
open Metadata (Meta)
open MakeMip (Maker Job Shape Made)

variable {M L F : Type} [FieldClass F]

/-! ## Specification -/

/-- "_min". -/
def minText : Name := "_min".toList.map fun c => UInt8.ofNat c.toNat

/-- "_max". -/
def maxText : Name := "_max".toList.map fun c => UInt8.ofNat c.toNat

/-- What the filtering of a field makes: `make` gets the type of the voxels, the mapping and the metadata of the field, and the field
or the finest level of a MIP field. -/
def FilteredAs (K : Maker M L F) (j : Job) (x : Voxel × Loaded L F) (r : Made M) : Prop :=
  ((K.shape x.2.data = .dense ∨ K.shape x.2.data = .sparse) ∧ K.make j x.1 x.2.mapping x.2.info x.2.data = r) ∨
  ((K.shape x.2.data = .mipDense ∨ K.shape x.2.data = .mipSparse) ∧
    K.make j x.1 x.2.mapping x.2.info (K.level0 x.2.data) = r)

/-- The layers to be written for a field: none for a field that is neither dense nor sparse, nor a MIP field of these; else the MIP
field with the names of the field and, if asked for, the two with "_min" and "_max" added to the attribute. -/
inductive Produces (K : Maker M L F) : Bool → Voxel × Loaded L F → List (Write M) → Prop where
  | other (b : Bool) (x) (h : K.shape x.2.data = .other) : Produces K b x []
  | mip (x) (m : M) (d c : List Entry) (h : FilteredAs K .mip x (.made m d c)) :
      Produces K false x [⟨x.2.name, x.2.attr, m, d, c⟩]
  | all (x) (m m1 m2 : M) (d c d1 c1 d2 c2 : List Entry) (h : FilteredAs K .mip x (.made m d c))
      (h1 : FilteredAs K .min x (.made m1 d1 c1)) (h2 : FilteredAs K .max x (.made m2 d2 c2)) :
      Produces K true x [⟨x.2.name, x.2.attr, m, d, c⟩, ⟨x.2.name, x.2.attr ++ minText, m1, d1, c1⟩,
        ⟨x.2.name, x.2.attr ++ maxText, m2, d2, c2⟩]

/-- Filtering a field works and gives a field with a mapping that can be written. -/
def Works (C : MapIO M) (K : Maker M L F) (doMinMax : Bool) (x : Voxel × Loaded L F) : Prop :=
  K.shape x.2.data = .other ∨
  ∀ j, (j = .mip ∨ doMinMax = true) → ∃ m d c, FilteredAs K j x (.made m d c) ∧ (C.write m).1 = true

/-! ## Lemmas -/

theorem min_text : Job.min.suffix = minText := by decide

theorem max_text : Job.max.suffix = maxText := by decide

theorem filtered_run {K : Maker M L F} {j : Job} {x : Voxel × Loaded L F} {r : Made M} (h : FilteredAs K j x r) :
    K.shape x.2.data ≠ .other ∧ K.run j x = r := by
  rcases h with ⟨h | h, e⟩ | ⟨h | h, e⟩ <;> refine ⟨by rw [h]; simp, ?_⟩ <;>
    simp only [Maker.run, Maker.base, h] <;> exact e

theorem makeMIP_produces (C : MapIO M) (K : Maker M L F) (b : Bool) (x : Voxel × Loaded L F) (ws : List (Write M))
    (h : Produces K b x ws) (o o' : Out M) (hw : writeAll C ws o = .done o') : MakeMip.makeMIP C K b x o = .done o' := by
  cases h with
  | other _ _ h => simpa only [MakeMip.makeMIP, h, writeAll] using hw
  | mip _ m d c h =>
    obtain ⟨h0, h⟩ := filtered_run h
    have e : MakeMip.layer .mip x m d c = ⟨x.2.name, x.2.attr, m, d, c⟩ := by simp [MakeMip.layer, Job.suffix]
    unfold MakeMip.makeMIP
    split
    · contradiction
    · rw [h]; simp only [e, hw]; rfl
  | all _ m m1 m2 d c d1 c1 d2 c2 h h1 h2 =>
    obtain ⟨h0, h⟩ := filtered_run h
    obtain ⟨-, h1⟩ := filtered_run h1
    obtain ⟨-, h2⟩ := filtered_run h2
    have e : MakeMip.layer .mip x m d c = ⟨x.2.name, x.2.attr, m, d, c⟩ := by simp [MakeMip.layer, Job.suffix]
    obtain ⟨o1, ho⟩ := run_prefix C [_] [_, _] _ _ hw
    have hrest := writeAll_append C [_] [⟨x.2.name, x.2.attr ++ minText, m1, d1, c1⟩,
      ⟨x.2.name, x.2.attr ++ maxText, m2, d2, c2⟩] _ _ ho
    have hrest : writeAll C [⟨x.2.name, x.2.attr ++ minText, m1, d1, c1⟩,
      ⟨x.2.name, x.2.attr ++ maxText, m2, d2, c2⟩] o1 = .done o' := hrest.symm.trans hw
    unfold MakeMip.makeMIP
    split
    · contradiction
    · rw [h]
      simp only [e, ho, if_pos]
      simp only [MakeMip.makeMinMax, h1, h2, MakeMip.layer, min_text, max_text, hrest]

theorem makeAll_produces (C : MapIO M) (K : Maker M L F) (b : Bool) : ∀ (xs : List (Voxel × Loaded L F))
    (wss : List (List (Write M))) (o o' : Out M), List.Forall₂ (Produces K b) xs wss →
    writeAll C wss.flatten o = .done o' → MakeMip.makeAll C K b xs o = .done o'
  | [], _, o, o', .nil, h => by simpa [writeAll, MakeMip.makeAll] using h
  | x :: xs, _, o, o', .cons (l₂ := wss) (b := ws) hi hrest, h => by
    rw [List.flatten_cons] at h
    obtain ⟨o1, h1⟩ := run_prefix C _ _ _ _ h
    rw [writeAll_append C _ _ _ _ h1] at h
    simp only [MakeMip.makeAll, makeMIP_produces C K b x ws hi o o1 h1]
    exact makeAll_produces C K b xs wss o1 o' hrest h

theorem makeFiles_produces (C : MapIO M) (K : Maker M L F) (b : Bool) (readers : Voxel → Name → Name → List Tree → Res F)
    (glob : List Char → List Char → Bool) (opt : Merge.Options) : ∀ (files : List (In L)) (fss : List (List (Voxel × Loaded L F)))
    (wsss : List (List (List (Write M)))) (o o' : Out M),
    List.Forall₂ (fun i fs => readRequests readers i (requests glob opt i.listing) = .ok fs) files fss →
    List.Forall₂ (List.Forall₂ (Produces K b)) fss wsss →
    writeAll C wsss.flatten.flatten o = .done o' →
    MakeMip.makeFiles C K readers glob opt b (files.map some) o = .done o'
  | [], _, _, o, o', .nil, .nil, h => by simpa [writeAll, MakeMip.makeFiles] using h
  | i :: files, _, _, o, o', .cons (l₂ := fss) (b := fs) hi hrest, .cons (l₂ := wsss) (b := wss) hp hps, h => by
    rw [List.flatten_cons, List.flatten_append] at h
    obtain ⟨o1, h1⟩ := run_prefix C _ _ _ _ h
    rw [writeAll_append C _ _ _ _ h1] at h
    have := makeFiles_produces C K b readers glob opt files fss wsss o1 o' hrest hps h
    simp only [List.map_cons, MakeMip.makeFiles, MakeMip.makeFile, hi, makeAll_produces C K b fs wss o o1 hp h1]
    exact this

theorem works_produces {C : MapIO M} {K : Maker M L F} {b : Bool} {x : Voxel × Loaded L F} (h : Works C K b x) :
    ∃ ws, Produces K b x ws ∧ ∀ w ∈ ws, w.part = x.2.name ∧
      (∃ t, (t = [] ∨ t = minText ∨ t = maxText) ∧ w.layer = x.2.attr ++ t) ∧ (C.write w.mapping).1 = true := by
  rcases h with h | h
  · exact ⟨[], .other b x h, by simp⟩
  · obtain ⟨m, d, c, h0, k0⟩ := h .mip (.inl rfl)
    cases b with
    | false =>
      refine ⟨_, .mip x m d c h0, ?_⟩
      intro w hw
      obtain rfl := List.mem_singleton.1 hw
      exact ⟨rfl, ⟨[], .inl rfl, by simp⟩, k0⟩
    | true =>
      obtain ⟨m1, d1, c1, h1, k1⟩ := h .min (.inr rfl)
      obtain ⟨m2, d2, c2, h2, k2⟩ := h .max (.inr rfl)
      refine ⟨_, .all x m m1 m2 d c d1 c1 d2 c2 h0 h1 h2, ?_⟩
      intro w hw
      simp only [List.mem_cons, List.not_mem_nil, or_false] at hw
      rcases hw with rfl | rfl | rfl
      · exact ⟨rfl, ⟨[], .inl rfl, by simp⟩, k0⟩
      · exact ⟨rfl, ⟨_, .inr (.inl rfl), rfl⟩, k1⟩
      · exact ⟨rfl, ⟨_, .inr (.inr rfl), rfl⟩, k2⟩

theorem all_produce {C : MapIO M} {K : Maker M L F} {b : Bool} : ∀ (xs : List (Voxel × Loaded L F)),
    (∀ x ∈ xs, Works C K b x) → ∃ wss, List.Forall₂ (Produces K b) xs wss ∧ ∀ w ∈ wss.flatten, ∃ x ∈ xs, w.part = x.2.name ∧
      (∃ t, (t = [] ∨ t = minText ∨ t = maxText) ∧ w.layer = x.2.attr ++ t) ∧ (C.write w.mapping).1 = true
  | [], _ => ⟨[], .nil, by simp⟩
  | x :: xs, h => by
    obtain ⟨ws, h1, h2⟩ := works_produces (h x (by simp))
    obtain ⟨wss, h3, h4⟩ := all_produce xs fun y hy => h y (by simp [hy])
    refine ⟨ws :: wss, .cons h1 h3, ?_⟩
    intro w hw
    rw [List.flatten_cons, List.mem_append] at hw
    rcases hw with hw | hw
    · exact ⟨x, by simp, h2 w hw⟩
    · obtain ⟨y, hy, k⟩ := h4 w hw
      exact ⟨y, by simp [hy], k⟩

theorem makeMIP_null (C : MapIO M) (K : Maker M L F) (b : Bool) (x : Voxel × Loaded L F) (h : FilteredAs K .mip x .null)
    (o : Out M) : MakeMip.makeMIP C K b x o = .crash := by
  obtain ⟨h0, h⟩ := filtered_run h
  unfold MakeMip.makeMIP
  split
  · contradiction
  · rw [h]

theorem makeAll_null (C : MapIO M) (K : Maker M L F) (b : Bool) (x : Voxel × Loaded L F) (h : FilteredAs K .mip x .null) :
    ∀ (xs : List (Voxel × Loaded L F)) (o o' : Out M), x ∈ xs → MakeMip.makeAll C K b xs o ≠ .done o'
  | [], _, _, hx => by cases hx
  | y :: ys, o, o', hx => by
    unfold MakeMip.makeAll
    rcases List.mem_cons.1 hx with rfl | hx
    · rw [makeMIP_null C K b _ h]; simp
    · split
      · exact makeAll_null C K b x h ys _ o' hx
      · rename_i e hne
        exact fun h => hne _ h

theorem makeFiles_null (C : MapIO M) (K : Maker M L F) (b : Bool) (readers : Voxel → Name → Name → List Tree → Res F)
    (glob : List Char → List Char → Bool) (opt : Merge.Options) (x : Voxel × Loaded L F) (h : FilteredAs K .mip x .null)
    (i : In L) (xs : List (Voxel × Loaded L F)) (hi : readRequests readers i (requests glob opt i.listing) = .ok xs)
    (hx : x ∈ xs) : ∀ (files : List (Option (In L))) (o o' : Out M), some i ∈ files →
    MakeMip.makeFiles C K readers glob opt b files o ≠ .done o'
  | [], _, _, hf => by cases hf
  | f :: fs, o, o', hf => by
    unfold MakeMip.makeFiles
    split
    · rename_i o1 he
      rcases List.mem_cons.1 hf with rfl | hf
      · simp only [MakeMip.makeFile, hi] at he
        exact absurd he (makeAll_null C K b x h xs o o1 hx)
      · exact makeFiles_null C K b readers glob opt x h i xs hi hx fs _ o' hf
    · rename_i e hne
      exact fun h => hne _ h

/-! ## C99 -/

/-- **C99.** MIP fields are made for any number of files. The program ends with a file that has, for each input file in turn and for
each wanted layer of it exactly once, the layers that are to be written for the field that is read from it, in this order and
nothing else: a MIP field with the same names and, if asked for, its lower and upper bounds. -/
theorem C99_make_mip (C : MapIO M) (hr : ∀ m, C.ident m m = true) (hsy : ∀ a b, C.ident a b = true → C.ident b a = true)
    (K : Maker M L F) (doMinMax : Bool) (readMap : List Tree → Res L) (readers : Voxel → Name → Name → List Tree → Res F)
    (kind : Write M → Option Voxel) (val : Voxel → Name → Write M → Option (F × Meta))
    (glob : List Char → List Char → Bool) (opt : Merge.Options) (sources : List (Source M L))
    (fine : ∀ s ∈ sources, Fine C readMap readers kind val s)
    (works : ∀ s ∈ sources, ∀ e, Faithful C kind val s e → Works C K doMinMax (e.field C readMap)) :
    ∃ (ess : List (List (Copied M F))) (wsss : List (List (List (Write M)))) (o : Out M),
      MakeMip.main C K readers glob opt doMinMax true (sources.map fun s => some s.opened) = .done o ∧
      List.Forall₂ (CopiesOf C glob opt kind val) sources ess ∧
      List.Forall₂ (List.Forall₂ fun e ws => Produces K doMinMax (e.field C readMap) ws) ess wsss ∧
      Wrote C Out.new (wsss.flatten.flatten.map Call.write) (List.replicate wsss.flatten.flatten.length .written) o ∧
      stored (wsss.flatten.flatten.map Call.write) (List.replicate wsss.flatten.flatten.length .written) =
        wsss.flatten.flatten := by
  have hall : ∃ (ess : List (List (Copied M F))) (wsss : List (List (List (Write M)))),
      List.Forall₂ (fun i fs => readRequests readers i (requests glob opt i.listing) = .ok fs)
        (sources.map (·.opened)) (ess.map fun es => es.map (Copied.field C readMap)) ∧
      List.Forall₂ (CopiesOf C glob opt kind val) sources ess ∧
      List.Forall₂ (List.Forall₂ fun e ws => Produces K doMinMax (e.field C readMap) ws) ess wsss ∧
      ∀ w ∈ wsss.flatten.flatten, ∃ s ∈ sources, ∃ v ∈ s.layers, w.part = v.part ∧
        (∃ t, (t = [] ∨ t = minText ∨ t = maxText) ∧ w.layer = v.layer ++ t) ∧ (C.write w.mapping).1 = true := by
    induction sources with
    | nil => exact ⟨[], [], .nil, .nil, .nil, by simp⟩
    | cons s ss ih =>
      obtain ⟨es, he, hc⟩ := copies_of_file (fine s (by simp)) glob opt
      obtain ⟨wss, h1, h2⟩ := all_produce (C := C) (K := K) (b := doMinMax) (es.map (Copied.field C readMap)) (by
        intro x hx
        obtain ⟨e, hm, rfl⟩ := List.mem_map.1 hx
        exact works s (by simp) e (hc.2 e hm))
      obtain ⟨ess, wsss, k1, k2, k3, k4⟩ := ih (fun x hx => fine x (by simp [hx])) fun x hx => works x (by simp [hx])
      refine ⟨es :: ess, wss :: wsss, .cons he k1, .cons hc k2, .cons (List.forall₂_map_left_iff.1 h1) k3, ?_⟩
      intro w hw
      rw [List.flatten_cons, List.flatten_append, List.mem_append] at hw
      rcases hw with hw | hw
      · obtain ⟨x, hx, p1, p2, p3⟩ := h2 w hw
        obtain ⟨e, hm, rfl⟩ := List.mem_map.1 hx
        exact ⟨s, by simp, e.layer, (hc.2 e hm).stored, p1, p2, p3⟩
      · obtain ⟨s', hs', p⟩ := k4 w hw
        exact ⟨s', by simp [hs'], p⟩
  obtain ⟨ess, wsss, h1, h2, h3, h4⟩ := hall
  have hses : Session (wsss.flatten.flatten.map Call.write) := by
    intro c hc
    obtain ⟨w, -, rfl⟩ := List.mem_map.1 hc
    exact .inl ⟨_, rfl⟩
  have hsound : Sound C (wsss.flatten.flatten.map Call.write) := by
    intro w hw
    obtain ⟨w', hw, e1⟩ := List.mem_map.1 hw
    cases e1
    obtain ⟨s, hs, v, hv, p1, ⟨t, ht, p2⟩, p3⟩ := h4 w hw
    obtain ⟨hs', I⟩ := inv_wrote (fine s hs).wrote
    obtain ⟨h, hh, hx⟩ := (mem_stored I v).1 hv
    have hfit := I.fits h hh v hx
    refine ⟨?_, ?_, p3⟩
    · rw [p1, hfit.1]; exact I.slash h hh
    · rw [p2, List.mem_append]
      rintro (h' | h')
      · exact hfit.2.1 h'
      · rcases ht with rfl | rfl | rfl
        · cases h'
        · revert h'; decide
        · revert h'; decide
  obtain ⟨o, ho, hst⟩ := C43_writes_succeed C hr hsy Out.new _ hses hsound
  rw [List.length_map] at ho hst
  refine ⟨ess, wsss, o, ?_, h2, h3, ho, ?_⟩
  · unfold MakeMip.main
    rw [if_pos rfl]
    have e : (sources.map fun s => some s.opened) = (sources.map (·.opened)).map some := by simp
    rw [e]
    refine makeFiles_produces C K doMinMax readers glob opt _ _ wsss _ o h1 ?_ ?_
    · rw [List.forall₂_map_left_iff]
      exact h3.imp fun _ _ h => List.forall₂_map_left_iff.2 h
    · exact writeAll_run C _ _ _ ho.2
  · rw [hst]
    generalize wsss.flatten.flatten = l
    induction l with
    | nil => rfl
    | cons e l ih => rw [List.map_cons, List.filterMap_cons, ih]

/-- What is written for a field has its name, and its attribute with one of the suffixes; all of these are written unless the field is
of another class. -/
theorem produces_names {K : Maker M L F} {b : Bool} {x : Voxel × Loaded L F} {ws : List (Write M)} (h : Produces K b x ws)
    (u l : Name) : (∃ w ∈ ws, w.part = u ∧ w.layer = l) ↔ K.shape x.2.data ≠ .other ∧ x.2.name = u ∧
      (l = x.2.attr ∨ b = true ∧ (l = x.2.attr ++ minText ∨ l = x.2.attr ++ maxText)) := by
  cases h with
  | other _ _ h => simp [h]
  | mip _ m d c h =>
    have := (filtered_run h).1
    simp only [List.mem_singleton, exists_eq_left, ne_eq, this, not_false_eq_true, true_and, reduceCtorEq, false_and, or_false]
    constructor <;> rintro ⟨a, b⟩ <;> exact ⟨a, b.symm⟩
  | all _ m m1 m2 d c d1 c1 d2 c2 h h1 h2 =>
    have := (filtered_run h).1
    simp only [List.mem_cons, List.not_mem_nil, or_false, exists_eq_or_imp, exists_eq_left, ne_eq, this, not_false_eq_true,
      true_and]
    constructor
    · rintro (⟨a, rfl⟩ | ⟨a, rfl⟩ | ⟨a, rfl⟩)
      · exact ⟨a, .inl rfl⟩
      · exact ⟨a, .inr (.inl rfl)⟩
      · exact ⟨a, .inr (.inr rfl)⟩
    · rintro ⟨a, rfl | rfl | rfl⟩
      · exact .inl ⟨a, rfl⟩
      · exact .inr (.inl ⟨a, rfl⟩)
      · exact .inr (.inr ⟨a, rfl⟩)

theorem produces_made {K : Maker M L F} {b : Bool} {x : Voxel × Loaded L F} {ws : List (Write M)} (h : Produces K b x ws)
    (w : Write M) (hw : w ∈ ws) : ∃ j, FilteredAs K j x (.made w.mapping w.mdata w.body) := by
  cases h with
  | other _ _ h => cases hw
  | mip _ m d c h => obtain rfl := List.mem_singleton.1 hw; exact ⟨_, h⟩
  | all _ m m1 m2 d c d1 c1 d2 c2 h h1 h2 =>
    simp only [List.mem_cons, List.not_mem_nil, or_false] at hw
    rcases hw with rfl | rfl | rfl
    · exact ⟨_, h⟩
    · exact ⟨_, h1⟩
    · exact ⟨_, h2⟩

theorem forall₂_flat_left {α β : Type} {R : α → β → Prop} {ass : List (List α)} {bss : List (List β)}
    (h : List.Forall₂ (List.Forall₂ R) ass bss) {a : α} (ha : a ∈ ass.flatten) : ∃ b ∈ bss.flatten, R a b := by
  have key : ∀ {as : List α} {bs : List β}, List.Forall₂ R as bs → a ∈ as → ∃ b ∈ bs, R a b := by
    intro as bs h
    induction h with
    | nil => intro h; cases h
    | @cons x y _ _ h _ ih =>
      intro hm
      rcases List.mem_cons.1 hm with rfl | hm
      · exact ⟨y, by simp, h⟩
      · obtain ⟨b, hb, hR⟩ := ih hm; exact ⟨b, by simp [hb], hR⟩
  induction h with
  | nil => cases ha
  | cons h _ ih =>
    rw [List.flatten_cons, List.mem_append] at ha
    rcases ha with ha | ha
    · obtain ⟨b, hb, hR⟩ := key h ha; exact ⟨b, by rw [List.flatten_cons]; exact List.mem_append_left _ hb, hR⟩
    · obtain ⟨b, hb, hR⟩ := ih ha; exact ⟨b, by rw [List.flatten_cons]; exact List.mem_append_right _ hb, hR⟩

theorem forall₂_flat_right {α β : Type} {R : α → β → Prop} {ass : List (List α)} {bss : List (List β)}
    (h : List.Forall₂ (List.Forall₂ R) ass bss) {b : β} (hb : b ∈ bss.flatten) : ∃ a ∈ ass.flatten, R a b := by
  have := forall₂_flat_left (R := fun b a => R a b) (ass := bss) (bss := ass) (h.flip.imp fun _ _ h => h.flip) hb
  exact this

/-- **C99, listing.** The file opens, and lists, for every wanted layer of the input files of a class that can be filtered, its
partition, and in it its name and, if the bounds were asked for, the name with "_min" and with "_max"; nothing else.
Layers whose names already end like this are no exception, although the program says that it skips them. The
metadata of the input files is lost. -/
theorem C99_listing (C : MapIO M) (hr : ∀ m, C.ident m m = true) (hsy : ∀ a b, C.ident a b = true → C.ident b a = true)
    (K : Maker M L F) (doMinMax : Bool) (readMap : List Tree → Res L) (readers : Voxel → Name → Name → List Tree → Res F)
    (kind : Write M → Option Voxel) (val : Voxel → Name → Write M → Option (F × Meta)) (able : Write M → Prop)
    (glob : List Char → List Char → Bool) (opt : Merge.Options) (sources : List (Source M L))
    (fine : ∀ s ∈ sources, Fine C readMap readers kind val s)
    (works : ∀ s ∈ sources, ∀ e, Faithful C kind val s e → Works C K doMinMax (e.field C readMap))
    (hable : ∀ s ∈ sources, ∀ e, Faithful C kind val s e → (able e.layer ↔ K.shape e.data ≠ .other))
    (hmap : ∀ j x m d c, FilteredAs K j x (.made m d c) → ∃ y, readMap (groupKids kMapping (C.write m).2) = .ok y) :
    ∃ (o : Out M) (i : In L),
      MakeMip.main C K readers glob opt doMinMax true (sources.map fun s => some s.opened) = .done o ∧
      openFile readMap (rootKids o.entries) = .ok i ∧
      (∀ u, u ∈ i.listing.partitionNames ↔
        ∃ s ∈ sources, ∃ w ∈ s.layers, Wanted glob opt kind w ∧ able w ∧ w.part = u) ∧
      ∀ u l, l ∈ i.listing.layerNames u ↔
        ∃ s ∈ sources, ∃ w ∈ s.layers, Wanted glob opt kind w ∧ able w ∧ w.part = u ∧
          (l = w.layer ∨ doMinMax = true ∧ (l = w.layer ++ minText ∨ l = w.layer ++ maxText)) := by
  obtain ⟨ess, wsss, o, h1, h2, h3, h4, h5⟩ := C99_make_mip C hr hsy K doMinMax readMap readers kind val glob opt sources fine
    works
  have hfaith : ∀ e ∈ ess.flatten, ∃ s ∈ sources, Faithful C kind val s e := by
    clear h1 h3 h4 h5 hmap fine works hable
    induction h2 with
    | nil => simp
    | @cons s es ss tss h _ ih =>
      intro e he
      rw [List.flatten_cons, List.mem_append] at he
      rcases he with he | he
      · exact ⟨s, by simp, h.2 e he⟩
      · obtain ⟨s', hs', hf⟩ := ih e he
        exact ⟨s', by simp [hs'], hf⟩
  have hcall : ∀ w, Call.write w ∈ wsss.flatten.flatten.map Call.write → ∃ e ∈ ess.flatten, ∃ ws ∈ wsss.flatten,
      w ∈ ws ∧ Produces K doMinMax (e.field C readMap) ws := by
    intro w hw
    obtain ⟨w', hw, h⟩ := List.mem_map.1 hw
    cases h
    obtain ⟨ws, hws, hw⟩ := List.mem_flatten.1 hw
    obtain ⟨e, he, hp⟩ := forall₂_flat_right h3 hws
    exact ⟨e, he, ws, hws, hw, hp⟩
  have hname : ∀ (u l : Name), (∃ w ∈ wsss.flatten.flatten, w.part = u ∧ w.layer = l) ↔
      ∃ s ∈ sources, ∃ w ∈ s.layers, Wanted glob opt kind w ∧ able w ∧ w.part = u ∧
          (l = w.layer ∨ doMinMax = true ∧ (l = w.layer ++ minText ∨ l = w.layer ++ maxText)) := by
    intro u l
    constructor
    · rintro ⟨w, hw, hu, hl⟩
      obtain ⟨e, he, ws, hws, hw, hp⟩ := hcall w (List.mem_map_of_mem hw)
      obtain ⟨a, b, c⟩ := (produces_names hp u l).1 ⟨w, hw, hu, hl⟩
      obtain ⟨s, hs, ⟨hw1, hw2⟩⟩ := (copies_mem h2 e.layer).1 ⟨e, he, rfl⟩
      obtain ⟨s', hs', hf⟩ := hfaith e he
      exact ⟨s, hs, e.layer, hw1, hw2, (hable s' hs' e hf).2 a, b, c⟩
    · rintro ⟨s, hs, w, hw1, hw2, a, b, c⟩
      obtain ⟨e, he, rfl⟩ := (copies_mem h2 w).2 ⟨s, hs, hw1, hw2⟩
      obtain ⟨s', hs', hf⟩ := hfaith e he
      obtain ⟨ws, hws, hp⟩ := forall₂_flat_left h3 he
      obtain ⟨w, hw, k⟩ := (produces_names hp u l).2 ⟨(hable s' hs' e hf).1 a, b, c⟩
      exact ⟨w, List.mem_flatten.2 ⟨ws, hws, hw⟩, k⟩
  have hsuf : ∀ (v : Write M), (v.layer ≠ [] ∧ (0 : UInt8) ∉ v.layer ∧ v.layer ≠ kMapping) → ∀ l,
      (l = v.layer ∨ doMinMax = true ∧ (l = v.layer ++ minText ∨ l = v.layer ++ maxText)) →
      l ≠ [] ∧ (0 : UInt8) ∉ l ∧ l ≠ kMapping := by
    rintro v ⟨n1, n2, n3⟩ l (rfl | ⟨-, rfl | rfl⟩)
    · exact ⟨n1, n2, n3⟩
    · refine ⟨by simp [n1], ?_, ?_⟩
      · rw [List.mem_append]; rintro (h | h)
        · exact n2 h
        · revert h; decide
      · intro h
        have h := congrArg List.getLast? h
        rw [List.getLast?_append, show minText.getLast? = some 110 by decide] at h
        revert h
        rw [Option.some_or]
        decide
    · refine ⟨by simp [n1], ?_, ?_⟩
      · rw [List.mem_append]; rintro (h | h)
        · exact n2 h
        · revert h; decide
      · intro h
        have h := congrArg List.getLast? h
        rw [List.getLast?_append, show maxText.getLast? = some 120 by decide] at h
        revert h
        rw [Option.some_or]
        decide
  have hplain : Plain (wsss.flatten.flatten.map Call.write) := by
    constructor <;> intro w hw <;> obtain ⟨w', hw, e⟩ := List.mem_map.1 hw <;> cases e <;>
      obtain ⟨s, hs, v, hv, hwant, -, e1, e2⟩ := (hname w.part w.layer).1 ⟨w, hw, rfl, rfl⟩ <;>
      have hpl := (fine s hs).plain
    · rw [← e1]; exact hpl.part v (stored_mem _ _ _ hv)
    · obtain ⟨a, b⟩ := hpl.layer v (stored_mem _ _ _ hv)
      obtain ⟨a, b, -⟩ := hsuf v ⟨a, b, hwant.2.2.2.1⟩ _ e2
      exact ⟨a, b⟩
  have hread : Readable C readMap (wsss.flatten.flatten.map Call.write) := by
    constructor
    · intro w hw
      obtain ⟨e, he, ws, hws, hw, hp⟩ := hcall w hw
      obtain ⟨j, hj⟩ := produces_made hp w hw
      exact .inl (hmap j _ _ _ _ hj)
    · intro es he
      obtain ⟨e, -, h⟩ := List.mem_map.1 he
      cases h
  obtain ⟨i, hi, -, l2, l3, l4⟩ := C44_listing_of_file C o _ _ h4 hplain readMap hread
  rw [h5] at l2
  refine ⟨o, i, h1, hi, ?_, ?_⟩
  · intro u
    constructor
    · intro hu
      obtain ⟨w, hw, rfl⟩ := l3 u hu
      obtain ⟨w', hw, e⟩ := List.mem_map.1 hw
      cases e
      obtain ⟨s, hs, v, hv, k1, k2, k3, -⟩ := (hname w.part w.layer).1 ⟨w, hw, rfl, rfl⟩
      exact ⟨s, hs, v, hv, k1, k2, k3⟩
    · rintro ⟨s, hs, v, hv, k1, k2, rfl⟩
      obtain ⟨w, hw, e, -⟩ := (hname v.part v.layer).2 ⟨s, hs, v, hv, k1, k2, rfl, .inl rfl⟩
      rw [← e]
      exact l2 w hw
  · intro u l
    rw [(l4 u).2 l, h5, hname]
    constructor
    · exact fun h => h.2
    · intro h
      refine ⟨?_, h⟩
      obtain ⟨s, hs, v, hv, k1, -, -, k3⟩ := h
      obtain ⟨a, b⟩ := (fine s hs).plain.layer v (stored_mem _ _ _ hv)
      exact (hsuf v ⟨a, b, k1.2.2.2.1⟩ _ k3).2.2

/-- A wanted layer with padding: the library makes no MIP field of it, and the program does not end with a file: it uses a null
pointer. One such layer in one of the input files is enough. -/
theorem C99_padded_crashes (C : MapIO M) (K : Maker M L F) (doMinMax : Bool) (readMap : List Tree → Res L)
    (readers : Voxel → Name → Name → List Tree → Res F)
    (kind : Write M → Option Voxel) (val : Voxel → Name → Write M → Option (F × Meta))
    (glob : List Char → List Char → Bool) (opt : Merge.Options) (files : List (Option (In L))) (s : Source M L)
    (fine : Fine C readMap readers kind val s) (hs : some s.opened ∈ files) (w : Write M) (hw : w ∈ s.layers)
    (wanted : Wanted glob opt kind w)
    (padded : ∀ e, Faithful C kind val s e → e.layer = w → FilteredAs K .mip (e.field C readMap) .null) (o : Out M) :
    MakeMip.main C K readers glob opt doMinMax true files ≠ .done o := by
  obtain ⟨es, he, hc⟩ := copies_of_file fine glob opt
  have : w ∈ es.map (·.layer) := by
    classical
    exact hc.1.mem_iff.2 (List.mem_filter.2 ⟨hw, decide_eq_true wanted⟩)
  obtain ⟨e, hm, hl⟩ := List.mem_map.1 this
  unfold MakeMip.main
  rw [if_pos rfl]
  exact makeFiles_null C K doMinMax readers glob opt (e.field C readMap) (padded e (hc.2 e hm) hl) s.opened _ he
    (List.mem_map_of_mem hm) files _ o hs

/-- If it is the first wanted field of the first file, that is a crash for sure, and nothing has been written. -/
theorem C99_padded_first (C : MapIO M) (K : Maker M L F) (doMinMax : Bool) (x : Voxel × Loaded L F)
    (xs : List (Voxel × Loaded L F)) (h : FilteredAs K .mip x .null) (o : Out M) :
    MakeMip.makeAll C K doMinMax (x :: xs) o = .crash := by
  simp only [MakeMip.makeAll, makeMIP_null C K doMinMax x h]

/-- The library returns a null pointer for exactly the dense fields with a data window that differs from the extents. -/
theorem C99_null_iff (flt : Resample.Filter) (base : Dense Rat) (minSize : Int) (offset : V3i) (fuel : Nat) :
    Resample.makeMIP flt base minSize offset fuel = .nullPtr ↔ base.extents ≠ base.dw := by
  unfold Resample.makeMIP
  split
  · rename_i h; simp [h]
  · rename_i h
    simp only [h, iff_false]
    split
    · simp
    · simp
    · simp
    · split <;> simp

/-- A file that cannot be opened ends the program, and nothing is made for the files after it. -/
theorem C99_missing_file (C : MapIO M) (K : Maker M L F) (readers : Voxel → Name → Name → List Tree → Res F)
    (glob : List Char → List Char → Bool) (opt : Merge.Options) (doMinMax : Bool) (later : List (Option (In L))) :
    MakeMip.main C K readers glob opt doMinMax true (none :: later) = .exit := rfl

/-! ## A case -/

/-- Numbers below 45 are dense fields, 45 and above another class; filtering makes layers of C43. -/
def numberMaker : Maker Nat Nat UInt8 where
  shape x := if x < 45 then .dense else .other
  level0 x := x
  make j _ _ _ x := .made 1 [] [.attribute kClassName .string [67], .attribute [120] .int8 [match j with
    | .mip => x
    | .min => x - 1
    | .max => x + 1]]

/-- The file of C43, with five layers, meets the conditions: four of them are filtered. -/
theorem make_case : ∃ s : Source Nat Nat,
    Fine numberMaps (fun kids => .ok kids.length) numberReaders (fun _ => some .half) numberOf s ∧
    s.layers.length = 5 ∧ (∀ glob, ∀ w ∈ s.layers, Wanted glob ⟨[], []⟩ (fun _ => some .half) w) ∧
    (∀ e, Faithful numberMaps (fun _ => some .half) numberOf s e → ∀ b,
      Works numberMaps numberMaker b (e.field numberMaps fun kids => .ok kids.length)) ∧
    ∀ j x m d c, FilteredAs numberMaker j x (.made m d c) →
      ∃ y, (fun kids : List Tree => (.ok kids.length : Res Nat)) (groupKids kMapping (numberMaps.write m).2) = .ok y := by
  obtain ⟨s, h1, h2, h3, -⟩ := merge_case
  refine ⟨s, h1, h2, h3, ?_, fun _ _ _ _ _ _ => ⟨_, rfl⟩⟩
  intro e _ b
  unfold Works
  by_cases h : e.data < 45
  · right
    intro j _
    refine ⟨1, [], _, .inl ⟨.inl ?_, rfl⟩, by decide⟩
    simp [numberMaker, Copied.field, h]
  · left
    simp [numberMaker, Copied.field, h]

/-- A library that makes nothing of dense fields with the contents 10, for C99_padded_crashes: the first layer of that file. -/
example (e : Copied Nat UInt8) (h : e.data = 10) : FilteredAs
    { numberMaker with make := fun j t m i x => if x = 10 then .null else numberMaker.make j t m i x } .mip
    (e.field numberMaps fun kids => (.ok kids.length : Res Nat)) .null := by
  refine .inl ⟨.inl ?_, ?_⟩
  · simp [numberMaker, Copied.field, h]
  · simp [Copied.field, h]

end F3D.Props
