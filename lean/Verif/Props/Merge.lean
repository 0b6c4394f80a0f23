import Verif.Model.Merge
import Verif.Props.Files
import Verif.Props.PatternMatch
import Mathlib.Data.List.Nodup

/-!
# C98: merging files
-/

namespace F3D.Props
open Files Og Ogawa FieldIO Merge
open MappingIO (kMapping)
open Metadata (Meta)

variable {M L F : Type} [FieldClass F]

/-! ## Specification -/

/-- The text of a name. -/
def textOf (n : Name) : List Char := n.map fun b => Char.ofNat b.toNat

/-- No patterns, or some inclusion pattern selects the name and no exclusion pattern does. -/
def Picked (glob : List Char → List Char → Bool) (ps : List (List Char)) (n : Name) : Prop :=
  ps = [] ∨ ((∃ p ∈ ps, Includes p ∧ SelectsAttribute glob (textOf n) p) ∧
    ¬ ∃ p ∈ ps, ∃ b, Excludes p b ∧ SelectsAttribute glob (textOf n) b)

/-- An input file: the calls that wrote it, their results, the file, and the object that opened it. -/
structure Source (M L : Type) where
  calls : List (Call M)
  results : List Ret
  file : Out M
  opened : In L

/-- The layers of an input file. -/
def Source.layers (s : Source M L) : List (Write M) := stored s.calls s.results

/-- The file was written by a new object and can be opened and read. `kind w` is the type of the voxels of a layer, or `none` if
none of the six types reads it; `val t path w` is what the reader for the type `t` makes of it. -/
structure Fine (C : MapIO M) (readMap : List Tree → Res L) (readers : Voxel → Name → Name → List Tree → Res F)
    (kind : Write M → Option Voxel) (val : Voxel → Name → Write M → Option (F × Meta)) (s : Source M L) : Prop where
  wrote : Wrote C Out.new s.calls s.results s.file
  plain : Plain s.calls
  readable : Readable C readMap s.calls
  reads : ∀ t, ReadsAs (readers t) (val t) s.calls
  one : ∀ w, Call.write w ∈ s.calls → ∀ t path, (val t path w).isSome = true ↔ kind w = some t
  opens : openFile readMap (rootKids s.file.entries) = .ok s.opened

/-- The layers that are to be merged: of one of the six types, picked by both lists of patterns, with a name of the partition,
and not named "mapping" (those are never found in a file: C43). -/
def Wanted (glob : List Char → List Char → Bool) (opt : Merge.Options) (kind : Write M → Option Voxel) (w : Write M) : Prop :=
  Picked glob opt.names w.part ∧ Picked glob opt.attributes w.layer ∧ w.part ≠ [] ∧ w.layer ≠ kMapping ∧ kind w ≠ none

/-- A layer that was copied: where it was in its file, the mapping of its partition there, and what was read. -/
structure Copied (M F : Type) where
  voxel : Voxel
  index : Nat
  layer : Write M
  mapping : M
  data : F
  info : Meta

/-- The field that was read for it. -/
def Copied.field (C : MapIO M) (readMap : List Tree → Res L) (e : Copied M F) : Voxel × Loaded L F :=
  (e.voxel, ⟨e.layer.part, e.layer.layer, mapBack C readMap e.mapping, e.info, e.data⟩)

/-- The layer that a field becomes: with its names, and the mapping, metadata and contents that are saved for a field of its
type. -/
def savedAs (S : Saver M L F) (x : Voxel × Loaded L F) : Write M where
  part := x.2.name
  layer := x.2.attr
  mapping := S.mapping x.2.mapping
  mdata := S.mdata x.1 x.2
  body := S.body x.1 x.2

/-- It is the field that was written: of its type, with its contents, with a mapping identical to its own. -/
structure Faithful (C : MapIO M) (kind : Write M → Option Voxel) (val : Voxel → Name → Write M → Option (F × Meta))
    (s : Source M L) (e : Copied M F) : Prop where
  stored : e.layer ∈ s.layers
  kind : kind e.layer = some e.voxel
  contents : val e.voxel (layerPath (intName e.layer.part e.index) e.layer.layer) e.layer = some (e.data, e.info)
  place : At s.file e.layer e.index
  ident : C.ident e.layer.mapping e.mapping = true
  known : ∃ w, Call.write w ∈ s.calls ∧ w.mapping = e.mapping

open Classical in
/-- The copies of a file: every wanted layer once, nothing else, and each as it was written. -/
def CopiesOf (C : MapIO M) (glob : List Char → List Char → Bool) (opt : Merge.Options) (kind : Write M → Option Voxel)
    (val : Voxel → Name → Write M → Option (F × Meta)) (s : Source M L) (es : List (Copied M F)) : Prop :=
  (es.map (·.layer)).Perm (s.layers.filter fun w => decide (Wanted glob opt kind w)) ∧
    ∀ e ∈ es, Faithful C kind val s e

/-! ## Lemmas -/

theorem accepts_iff (glob : List Char → List Char → Bool) (ps : List (List Char)) (n : Name) :
    accepts glob ps n = true ↔ Picked glob ps n := by
  unfold accepts Picked textOf
  by_cases h : ps = []
  · subst h; simp [(C58_empty_list glob [] (n.map fun b => Char.ofNat b.toNat)).2.2.2]
  · rw [C58_match_attribute_iff _ _ _ _ h]
    simp [h]

theorem filter_or_perm {α : Type} (p q : α → Bool) (h : ∀ x, ¬ (p x = true ∧ q x = true)) : ∀ S : List α,
    (S.filter fun x => p x || q x).Perm (S.filter p ++ S.filter q)
  | [] => by simp
  | x :: S => by
    have ih := filter_or_perm p q h S
    have hx := h x
    simp only [List.filter_cons]
    cases hp : p x <;> cases hq : q x <;> simp only [hp, hq] at hx
    · simpa using ih
    · simpa using (List.Perm.cons x ih).trans List.perm_middle.symm
    · simpa using ih
    · exact absurd ⟨hp, hq⟩ (h x)

theorem flatMap_filter_perm {κ α : Type} (P : κ → α → Bool) (hP : ∀ a b x, P a x = true → P b x = true → a = b)
    (S : List α) : ∀ rs : List κ, rs.Nodup →
      (rs.flatMap fun r => S.filter fun x => P r x).Perm (S.filter fun x => rs.any fun r => P r x)
  | [], _ => by simp
  | r :: rs, hn => by
    have ih := flatMap_filter_perm P hP S rs (List.nodup_cons.1 hn).2
    rw [List.flatMap_cons]
    simp only [List.any_cons]
    refine (List.Perm.append_left _ ih).trans (filter_or_perm (fun x => P r x) (fun x => rs.any fun r => P r x) ?_ S).symm
    rintro x ⟨h1, h2⟩
    obtain ⟨r', hr', h2⟩ := List.any_eq_true.1 h2
    have := hP _ _ _ h1 h2
    subst this
    exact (List.nodup_cons.1 hn).1 hr'

theorem filterMap_filter {α β γ : Type} (f : α → Option β) (w : α → γ) (p : γ → Bool) : ∀ qs : List α,
    (∀ q ∈ qs, (f q).isSome = p (w q)) → qs.filterMap (fun q => (f q).map fun _ => w q) = (qs.map w).filter p
  | [], _ => rfl
  | q :: qs, h => by
    have ih := filterMap_filter f w p qs fun x hx => h x (by simp [hx])
    have hq := h q (by simp)
    rw [List.filterMap_cons, List.map_cons, List.filter_cons, ← hq, ih]
    cases f q <;> simp

theorem names_nodup {l : List Name} (h : StrictlySorted l) : l.Nodup := by
  refine List.Pairwise.imp ?_ h
  rintro a b hab rfl
  rw [Files.nameLt_irrefl] at hab
  cases hab

theorem voxel_all (t : Voxel) : t ∈ scalars ∨ t ∈ vectors := by cases t <;> decide

theorem mem_requests (glob : List Char → List Char → Bool) (opt : Merge.Options) (ps : Listing) (r : Voxel × Name × Name) :
    r ∈ requests glob opt ps ↔ r.2.1 ∈ ps.partitionNames ∧ Picked glob opt.names r.2.1 ∧
      r.2.2 ∈ ps.layerNames r.2.1 ∧ Picked glob opt.attributes r.2.2 := by
  obtain ⟨t, u, l⟩ := r
  simp only [requests, List.mem_flatMap, List.mem_append, List.mem_map, List.mem_filter, accepts_iff, Prod.mk.injEq]
  constructor
  · rintro ⟨u', ⟨h1, h2⟩, ⟨l', ⟨h3, h4⟩, t', _, rfl, rfl, rfl⟩ | ⟨l', ⟨h3, h4⟩, t', _, rfl, rfl, rfl⟩⟩ <;>
      exact ⟨h1, h2, h3, h4⟩
  · rintro ⟨h1, h2, h3, h4⟩
    refine ⟨u, ⟨h1, h2⟩, ?_⟩
    rcases voxel_all t with ht | ht
    · exact Or.inl ⟨l, ⟨h3, h4⟩, t, ht, rfl, rfl, rfl⟩
    · exact Or.inr ⟨l, ⟨h3, h4⟩, t, ht, rfl, rfl, rfl⟩

theorem typed_nodup (ts : List Voxel) (ht : ts.Nodup) (u : Name) (ls : List Name) (hl : ls.Nodup) :
    (ls.flatMap fun l => ts.map fun t => (t, u, l)).Nodup := by
  rw [List.nodup_flatMap]
  refine ⟨fun l _ => ht.map fun a b hab => by cases hab; rfl, ?_⟩
  refine List.Pairwise.imp ?_ hl
  intro a b hab x hx hy
  simp only [List.mem_map] at hx hy
  obtain ⟨t, _, rfl⟩ := hx
  obtain ⟨t', _, e⟩ := hy
  cases e
  exact hab rfl

theorem requests_nodup (glob : List Char → List Char → Bool) (opt : Merge.Options) (ps : Listing)
    (h1 : ps.partitionNames.Nodup) (h2 : ∀ u, (ps.layerNames u).Nodup) : (requests glob opt ps).Nodup := by
  unfold requests
  rw [List.nodup_flatMap]
  constructor
  · intro u _
    rw [List.nodup_append]
    refine ⟨typed_nodup _ (by decide) u _ ((h2 u).filter _), typed_nodup _ (by decide) u _ ((h2 u).filter _), ?_⟩
    intro x hx y hy e
    subst e
    simp only [List.mem_flatMap, List.mem_map] at hx hy
    obtain ⟨l, _, t, ht, rfl⟩ := hx
    obtain ⟨l', _, t', ht', e⟩ := hy
    cases e
    cases t <;> simp [scalars, vectors] at ht ht'
  · refine List.Pairwise.imp ?_ (h1.filter _)
    intro a b hab x hx hy
    simp only [List.mem_append, List.mem_flatMap, List.mem_map] at hx hy
    have ea : x.2.1 = a := by
      rcases hx with ⟨_, _, _, _, rfl⟩ | ⟨_, _, _, _, rfl⟩ <;> rfl
    have eb : x.2.1 = b := by
      rcases hy with ⟨_, _, _, _, rfl⟩ | ⟨_, _, _, _, rfl⟩ <;> rfl
    exact hab (ea.symm.trans eb)

open Classical in
/-- The layers that a request is for. -/
def Asks (kind : Write M → Option Voxel) (r : Voxel × Name × Name) (w : Write M) : Prop :=
  kind w = some r.1 ∧ w.part = r.2.1 ∧ w.layer = r.2.2 ∧ w.part ≠ []

open Classical in
theorem read_requests {C : MapIO M} {readMap : List Tree → Res L} {readers : Voxel → Name → Name → List Tree → Res F}
    {kind : Write M → Option Voxel} {val : Voxel → Name → Write M → Option (F × Meta)} {s : Source M L}
    (fine : Fine C readMap readers kind val s) : ∀ rs : List (Voxel × Name × Name),
    (∀ r ∈ rs, r.2.2 ≠ [] ∧ r.2.2 ≠ kMapping) →
    ∃ es : List (Copied M F), readRequests readers s.opened rs = .ok (es.map (Copied.field C readMap)) ∧
      (es.map (·.layer)).Perm (rs.flatMap fun r => s.layers.filter fun w => decide (Asks kind r w)) ∧
      ∀ e ∈ es, Faithful C kind val s e
  | [], _ => ⟨[], rfl, by simp, by simp⟩
  | (t, u, l) :: rs, h => by
    obtain ⟨es, h1, h2, h3⟩ := read_requests fine rs fun r hr => h r (by simp [hr])
    obtain ⟨hl, hm⟩ := h (t, u, l) (by simp)
    by_cases hu : u = []
    · refine ⟨es, ?_, ?_, h3⟩
      · have : s.opened.readLayers (readers t) u l = .ok [] := by simp [In.readLayers, hu]
        simp only [readRequests, this, Res.bind, h1, List.map_nil, List.nil_append]
      · rw [List.flatMap_cons]
        have : (s.layers.filter fun w => decide (Asks kind (t, u, l) w)) = [] := by
          rw [List.filter_eq_nil_iff]
          intro w _
          rw [decide_eq_true_eq]
          rintro ⟨-, e, -, hne⟩
          exact hne (e.trans hu)
        rw [this, List.nil_append]
        exact h2
    · obtain ⟨i, mp, hi, hread⟩ := C43_read_back C Out.new s.file s.calls s.results fine.wrote fine.plain readMap
        fine.readable (readers t) (val t) (fine.reads t)
      rw [fine.opens] at hi
      cases hi
      obtain ⟨qs, g1, g2, g3, -, -⟩ := hread u l hu hl hm
      have hq : ∀ q ∈ qs, q.2.1 ∈ s.layers ∧ q.2.1.part = u ∧ q.2.1.layer = l := by
        intro q hq
        have := g2.mem_iff.1 (List.mem_map_of_mem (f := fun q : Nat × Write M × M => q.2.1) hq)
        simpa [Source.layers] using this
      let f : Nat × Write M × M → Option (F × Meta) := fun q => val t (layerPath (intName u q.1) l) q.2.1
      let mk : (Nat × Write M × M) → Option (Copied M F) := fun q =>
        (f q).map fun b => ⟨t, q.1, q.2.1, q.2.2, b.1, b.2⟩
      refine ⟨qs.filterMap mk ++ es, ?_, ?_, ?_⟩
      · have e : (qs.filterMap mk).map (Copied.field C readMap) =
            (qs.filterMap fun q => (f q).map fun b => (⟨u, l, mapBack C readMap q.2.2, b.2, b.1⟩ : Loaded L F)).map
              fun x => (t, x) := by
          rw [List.map_filterMap, List.map_filterMap]
          apply List.filterMap_congr
          intro q hqm
          obtain ⟨-, e1, e2⟩ := hq q hqm
          simp only [mk, Option.map_map, Function.comp_def, Copied.field, e1, e2]
        simp only [readRequests]
        rw [g1]
        simp only [Res.bind, h1, List.map_append, e]
        rfl
      · rw [List.map_append, List.flatMap_cons]
        refine List.Perm.append ?_ h2
        have e : (qs.filterMap mk).map (·.layer) = (qs.map (·.2.1)).filter fun w => decide (kind w = some t) := by
          rw [List.map_filterMap]
          have := filterMap_filter f (fun q : Nat × Write M × M => q.2.1) (fun w => decide (kind w = some t)) qs ?_
          · rw [← this]
            apply List.filterMap_congr
            intro q _
            simp only [mk, Option.map_map, Function.comp_def]
          · intro q hqm
            have hmem := stored_mem s.calls s.results q.2.1 (hq q hqm).1
            rw [Bool.eq_iff_iff, decide_eq_true_eq]
            exact fine.one _ hmem t _
        rw [e]
        refine (g2.filter _).trans (List.Perm.of_eq ?_)
        rw [List.filter_filter]
        apply List.filter_congr
        intro w _
        rw [Bool.eq_iff_iff, decide_eq_true_eq (p := Asks kind (t, u, l) w)]
        simp only [Bool.and_eq_true, decide_eq_true_eq]
        constructor
        · rintro ⟨a, b, c⟩; exact ⟨a, b, c, by rw [b]; exact hu⟩
        · rintro ⟨a, b, c, _⟩; exact ⟨a, b, c⟩
      · intro e he
        rcases List.mem_append.1 he with he | he
        · obtain ⟨q, hqm, hmk⟩ := List.mem_filterMap.1 he
          obtain ⟨b, hb, rfl⟩ := Option.map_eq_some_iff.1 hmk
          obtain ⟨e0, e1, e2⟩ := hq q hqm
          obtain ⟨i1, i2, -, w, i4, -, i6⟩ := g3 q hqm
          have hmem := stored_mem s.calls s.results q.2.1 e0
          refine ⟨e0, (fine.one _ hmem t (layerPath (intName u q.1) l)).1 (by simp only [f] at hb; rw [hb]; rfl), ?_, i2, i1,
            w, i4, i6⟩
          simp only [e1, e2]
          exact hb
        · exact h3 e he

/-- The layers copied from one file. -/
theorem copies_of_file {C : MapIO M} {readMap : List Tree → Res L} {readers : Voxel → Name → Name → List Tree → Res F}
    {kind : Write M → Option Voxel} {val : Voxel → Name → Write M → Option (F × Meta)} {s : Source M L}
    (fine : Fine C readMap readers kind val s) (glob : List Char → List Char → Bool) (opt : Merge.Options) :
    ∃ es : List (Copied M F),
      readRequests readers s.opened (requests glob opt s.opened.listing) = .ok (es.map (Copied.field C readMap)) ∧
      CopiesOf C glob opt kind val s es := by
  classical
  obtain ⟨i, hi, l1, l2, -, l4⟩ := C44_listing_of_file C s.file s.calls s.results fine.wrote fine.plain readMap fine.readable
  rw [fine.opens] at hi
  cases hi
  have hreq : ∀ r ∈ requests glob opt s.opened.listing, r.2.2 ≠ [] ∧ r.2.2 ≠ kMapping := by
    intro r hr
    obtain ⟨-, -, h3, -⟩ := (mem_requests glob opt _ r).1 hr
    obtain ⟨h5, w, hw, -, e⟩ := ((l4 _).2 _).1 h3
    exact ⟨by rw [← e]; exact (fine.plain.layer w (stored_mem _ _ w hw)).1, h5⟩
  obtain ⟨es, h1, h2, h3⟩ := read_requests fine _ hreq
  refine ⟨es, h1, ?_, h3⟩
  refine h2.trans ((flatMap_filter_perm (fun r w => decide (Asks kind r w)) ?_ s.layers _ (requests_nodup glob opt _ (names_nodup l1)
    fun u => names_nodup (l4 u).1)).trans (List.Perm.of_eq ?_))
  · rintro ⟨t, u, l⟩ ⟨t', u', l'⟩ w ha hb
    obtain ⟨a1, a2, a3, -⟩ := of_decide_eq_true ha
    obtain ⟨b1, b2, b3, -⟩ := of_decide_eq_true hb
    have : t = t' := Option.some.inj (a1.symm.trans b1)
    simp only at a2 a3 b2 b3
    subst this; subst a2; subst a3; subst b2; subst b3; rfl
  · apply List.filter_congr
    intro w hw
    rw [Bool.eq_iff_iff, decide_eq_true_eq, List.any_eq_true]
    simp only [decide_eq_true_eq]
    constructor
    · rintro ⟨r, hr, k1, k2, k3, k4⟩
      obtain ⟨-, p2, -, p4⟩ := (mem_requests glob opt _ r).1 hr
      exact ⟨by rw [k2]; exact p2, by rw [k3]; exact p4, k4, by rw [k3]; exact (hreq r hr).2, by rw [k1]; simp⟩
    · rintro ⟨p1, p2, p3, p4, p5⟩
      obtain ⟨t, ht⟩ := Option.ne_none_iff_exists'.1 p5
      refine ⟨(t, w.part, w.layer), (mem_requests glob opt _ _).2 ⟨l2 w hw, p1, ((l4 _).2 _).2 ⟨p4, w, hw, rfl, rfl⟩, p2⟩,
        ht, rfl, rfl, p3⟩

theorem writeAll_append (C : MapIO M) (a b : List (Write M)) (o o' : Out M) (h : writeAll C a o = .done o') :
    writeAll C (a ++ b) o = writeAll C b o' := by
  induction a generalizing o with
  | nil => simp only [writeAll, End.done.injEq] at h; subst h; rfl
  | cons w ws ih =>
    simp only [List.cons_append, writeAll] at h ⊢
    split at h
    · cases h
    · cases h
    · exact ih _ h

theorem writeAll_run (C : MapIO M) : ∀ (ws : List (Write M)) (o o' : Out M),
    Out.run C o (ws.map Call.write) = some (List.replicate ws.length .written, o') → writeAll C ws o = .done o'
  | [], o, o', h => by
    simp only [List.map_nil, Out.run, Option.some.injEq, Prod.mk.injEq] at h
    rw [writeAll, h.2]
  | w :: ws, o, o', h => by
    simp only [List.map_cons, Out.run, Out.step] at h
    rw [writeAll]
    split at h
    · cases h
    · rename_i r o1 hne e
      obtain ⟨x, hx, e2⟩ := Option.map_eq_some_iff.1 h
      obtain ⟨rs, o2⟩ := x
      simp only [List.length_cons, List.replicate_succ, Prod.mk.injEq, List.cons.injEq] at e2
      obtain ⟨⟨e3, e4⟩, e5⟩ := e2
      subst e3; subst e4; subst e5
      rw [e]
      exact writeAll_run C ws o1 _ hx

theorem run_prefix (C : MapIO M) : ∀ (a b : List (Write M)) (o : Out M) (o' : Out M),
    writeAll C (a ++ b) o = .done o' → ∃ o1, writeAll C a o = .done o1
  | [], b, o, o', _ => ⟨o, rfl⟩
  | w :: ws, b, o, o', h => by
    simp only [List.cons_append, writeAll] at h ⊢
    split at h
    · cases h
    · cases h
    · exact run_prefix C ws b _ _ h

/-- Reading and writing file by file is writing all copies. -/
theorem outputs_all (C : MapIO M) (S : Saver M L F) (readers : Voxel → Name → Name → List Tree → Res F)
    (glob : List Char → List Char → Bool) (opt : Merge.Options) : ∀ (files : List (In L)) (fss : List (List (Voxel × Loaded L F)))
    (o o' : Out M), List.Forall₂ (fun i fs => readRequests readers i (requests glob opt i.listing) = .ok fs) files fss →
    writeAll C (fss.flatten.map (toWrite S)) o = .done o' →
    writeOutputs C S readers glob opt (files.map some) o = .done o'
  | [], _, o, o', .nil, h => by simpa [writeAll, writeOutputs] using h
  | i :: files, _, o, o', .cons (l₂ := fss) (b := fs) hi hrest, h => by
    rw [List.flatten_cons, List.map_append] at h
    obtain ⟨o1, h1⟩ := run_prefix C _ _ _ _ h
    rw [writeAll_append C _ _ _ _ h1] at h
    have := outputs_all C S readers glob opt files fss o1 o' hrest h
    simp only [List.map_cons, writeOutputs, writeOutput, hi, h1]
    exact this

/-- The copies are of wanted layers, and every wanted layer has a copy. -/
theorem copies_mem {C : MapIO M} {glob : List Char → List Char → Bool} {opt : Merge.Options}
    {kind : Write M → Option Voxel} {val : Voxel → Name → Write M → Option (F × Meta)} {sources : List (Source M L)}
    {ess : List (List (Copied M F))} (h : List.Forall₂ (CopiesOf C glob opt kind val) sources ess) (w : Write M) :
    (∃ e ∈ ess.flatten, e.layer = w) ↔ ∃ s ∈ sources, w ∈ s.layers ∧ Wanted glob opt kind w := by
  induction h with
  | nil => simp
  | @cons s es ss tss h _ ih =>
    have key : (∃ e ∈ es, e.layer = w) ↔ w ∈ s.layers ∧ Wanted glob opt kind w := by
      classical
      have := h.1.mem_iff (a := w)
      rw [List.mem_map, List.mem_filter] at this
      rw [this, decide_eq_true_eq]
    constructor
    · rintro ⟨e, he, hl⟩
      rw [List.flatten_cons, List.mem_append] at he
      rcases he with he | he
      · exact ⟨s, by simp, key.1 ⟨e, he, hl⟩⟩
      · obtain ⟨s', hs', hw⟩ := ih.1 ⟨e, he, hl⟩
        exact ⟨s', by simp [hs'], hw⟩
    · rintro ⟨s', hs', hw⟩
      rcases List.mem_cons.1 hs' with rfl | hs'
      · obtain ⟨e, he, hl⟩ := key.2 hw
        exact ⟨e, by simp [he], hl⟩
      · obtain ⟨e, he, hl⟩ := ih.2 ⟨s', hs', hw⟩
        exact ⟨e, by rw [List.flatten_cons]; exact List.mem_append_right _ he, hl⟩

/-! ## C98 -/

/-- **C98.** Any number of files that can be read are merged. The program ends with a file that has, for each input file in
turn, a copy of every wanted layer of it, of each exactly one, and nothing else: the copies are fields of the type of the layer, with
its names, its contents and a mapping read back from one that is identical to its own. Layers with the same names, from the
same or different files, are all kept. -/
theorem C98_merge (C : MapIO M) (hr : ∀ m, C.ident m m = true) (hsy : ∀ a b, C.ident a b = true → C.ident b a = true)
    (S : Saver M L F) (readMap : List Tree → Res L) (readers : Voxel → Name → Name → List Tree → Res F)
    (kind : Write M → Option Voxel) (val : Voxel → Name → Write M → Option (F × Meta))
    (glob : List Char → List Char → Bool) (opt : Merge.Options) (sources : List (Source M L))
    (fine : ∀ s ∈ sources, Fine C readMap readers kind val s)
    (hmap : ∀ s ∈ sources, ∀ w, Call.write w ∈ s.calls → (C.write (S.mapping (mapBack C readMap w.mapping))).1 = true) :
    ∃ (ess : List (List (Copied M F))) (o : Out M),
      Merge.main C S readers glob opt true (sources.map fun s => some s.opened) = .done o ∧
      List.Forall₂ (CopiesOf C glob opt kind val) sources ess ∧
      Wrote C Out.new (ess.flatten.map fun e => .write (savedAs S (e.field C readMap)))
        (List.replicate ess.flatten.length .written) o ∧
      stored (ess.flatten.map fun e => .write (savedAs S (e.field C readMap)))
        (List.replicate ess.flatten.length .written) = ess.flatten.map fun e => savedAs S (e.field C readMap) := by
  have hall : ∃ ess : List (List (Copied M F)),
      List.Forall₂ (fun s es => readRequests readers s.opened (requests glob opt s.opened.listing) =
        .ok (es.map (Copied.field C readMap)) ∧ CopiesOf C glob opt kind val s es) sources ess := by
    clear hmap
    induction sources with
    | nil => exact ⟨[], .nil⟩
    | cons s ss ih =>
      obtain ⟨es, he⟩ := copies_of_file (fine s (by simp)) glob opt
      obtain ⟨ess, hes⟩ := ih fun x hx => fine x (by simp [hx])
      exact ⟨es :: ess, .cons he hes⟩
  obtain ⟨ess, hess⟩ := hall
  have hfaith : ∀ e ∈ ess.flatten, ∃ s ∈ sources, Faithful C kind val s e := by
    clear hmap fine
    induction hess with
    | nil => simp
    | @cons s es ss tss h _ ih =>
      intro e he
      rw [List.flatten_cons, List.mem_append] at he
      rcases he with he | he
      · exact ⟨s, by simp, h.2.2 e he⟩
      · obtain ⟨s', hs', hf⟩ := ih e he
        exact ⟨s', by simp [hs'], hf⟩
  let cs : List (Call M) := ess.flatten.map fun e => Call.write (savedAs S (e.field C readMap))
  have hses : Session cs := by
    intro c hc
    obtain ⟨e, -, rfl⟩ := List.mem_map.1 hc
    exact .inl ⟨_, rfl⟩
  have hsound : Sound C cs := by
    intro w hw
    obtain ⟨e, he, e1⟩ := List.mem_map.1 hw
    cases e1
    obtain ⟨s, hs, hf⟩ := hfaith e he
    obtain ⟨hs', I⟩ := inv_wrote (fine s hs).wrote
    obtain ⟨h, hh, hx⟩ := (mem_stored I e.layer).1 hf.stored
    have hfit := I.fits h hh e.layer hx
    obtain ⟨w, hw1, hw2⟩ := hf.known
    refine ⟨?_, hfit.2.1, ?_⟩
    · show (47 : UInt8) ∉ e.layer.part
      rw [hfit.1]; exact I.slash h hh
    · show (C.write (S.mapping (mapBack C readMap e.mapping))).1 = true
      rw [← hw2]; exact hmap s hs w hw1
  obtain ⟨o, ho, hst⟩ := C43_writes_succeed C hr hsy Out.new cs hses hsound
  have hlen : cs.length = ess.flatten.length := List.length_map ..
  rw [hlen] at ho hst
  refine ⟨ess, o, ?_, ?_, ho, ?_⟩
  · unfold Merge.main
    rw [if_pos rfl]
    have hfs : List.Forall₂ (fun i fs => readRequests readers i (requests glob opt i.listing) = .ok fs)
        (sources.map (·.opened)) (ess.map fun es => es.map (Copied.field C readMap)) := by
      clear hfaith fine hmap ho hst hlen hses hsound
      induction hess with
      | nil => exact .nil
      | cons h _ ih => exact .cons h.1 ih
    have e : (sources.map fun s => some s.opened) = (sources.map (·.opened)).map some := by simp
    rw [e]
    refine outputs_all C S readers glob opt _ _ _ o hfs ?_
    apply writeAll_run
    have e2 : ((ess.map fun es => es.map (Copied.field C readMap)).flatten.map (toWrite S)) =
        ess.flatten.map fun e => savedAs S (e.field C readMap) := by
      rw [← List.map_flatten, List.map_map]; rfl
    rw [e2, List.map_map, List.length_map]
    exact ho.2
  · clear hfaith fine hmap ho hst hlen hses hsound
    induction hess with
    | nil => exact .nil
    | cons h _ ih => exact .cons h.2 ih
  · rw [hst]
    simp only [cs, List.filterMap_map, Function.comp_def]
    generalize ess.flatten = l
    induction l with
    | nil => rfl
    | cons e l ih => rw [List.filterMap_cons, List.map_cons, ← ih]

/-- **C98, listing.** The merged file opens, and lists exactly the partitions and the layers of the wanted layers of the
input files. It has no metadata of the file: that of the input files is lost. -/
theorem C98_merged_listing (C : MapIO M) (hr : ∀ m, C.ident m m = true) (hsy : ∀ a b, C.ident a b = true → C.ident b a = true)
    (S : Saver M L F) (readMap : List Tree → Res L) (readers : Voxel → Name → Name → List Tree → Res F)
    (kind : Write M → Option Voxel) (val : Voxel → Name → Write M → Option (F × Meta))
    (glob : List Char → List Char → Bool) (opt : Merge.Options) (sources : List (Source M L))
    (fine : ∀ s ∈ sources, Fine C readMap readers kind val s)
    (hmap : ∀ s ∈ sources, ∀ w, Call.write w ∈ s.calls → (C.write (S.mapping (mapBack C readMap w.mapping))).1 = true ∧
      ∃ x, readMap (groupKids kMapping (C.write (S.mapping (mapBack C readMap w.mapping))).2) = .ok x) :
    ∃ (o : Out M) (i : In L),
      Merge.main C S readers glob opt true (sources.map fun s => some s.opened) = .done o ∧
      openFile readMap (rootKids o.entries) = .ok i ∧ i.info = Meta.empty ∧
      (∀ u, u ∈ i.listing.partitionNames ↔
        ∃ s ∈ sources, ∃ w ∈ s.layers, Wanted glob opt kind w ∧ w.part = u) ∧
      ∀ u l, l ∈ i.listing.layerNames u ↔
        ∃ s ∈ sources, ∃ w ∈ s.layers, Wanted glob opt kind w ∧ w.part = u ∧ w.layer = l := by
  obtain ⟨ess, o, h1, h2, h3, h4⟩ := C98_merge C hr hsy S readMap readers kind val glob opt sources fine
    fun s hs w hw => (hmap s hs w hw).1
  have hfaith : ∀ e ∈ ess.flatten, ∃ s ∈ sources, Faithful C kind val s e := by
    clear h1 h3 h4 hmap fine
    induction h2 with
    | nil => simp
    | @cons s es ss tss h _ ih =>
      intro e he
      rw [List.flatten_cons, List.mem_append] at he
      rcases he with he | he
      · exact ⟨s, by simp, h.2 e he⟩
      · obtain ⟨s', hs', hf⟩ := ih e he
        exact ⟨s', by simp [hs'], hf⟩
  have hcall : ∀ w, Call.write w ∈ (ess.flatten.map fun e => Call.write (savedAs S (e.field C readMap))) →
      ∃ e ∈ ess.flatten, w = savedAs S (e.field C readMap) := by
    intro w hw
    obtain ⟨e, he, h⟩ := List.mem_map.1 hw
    cases h
    exact ⟨e, he, rfl⟩
  have hplain : Plain (ess.flatten.map fun e => Call.write (savedAs S (e.field C readMap))) := by
    constructor <;> intro w hw <;> obtain ⟨e, he, rfl⟩ := hcall w hw <;> obtain ⟨s, hs, hf⟩ := hfaith e he
    · exact (fine s hs).plain.part e.layer (stored_mem _ _ _ hf.stored)
    · exact (fine s hs).plain.layer e.layer (stored_mem _ _ _ hf.stored)
  have hread : Readable C readMap (ess.flatten.map fun e => Call.write (savedAs S (e.field C readMap))) := by
    constructor
    · intro w hw
      obtain ⟨e, he, rfl⟩ := hcall w hw
      obtain ⟨s, hs, hf⟩ := hfaith e he
      obtain ⟨w, hw1, hw2⟩ := hf.known
      left
      show ∃ x, readMap (groupKids kMapping (C.write (S.mapping (mapBack C readMap e.mapping))).2) = .ok x
      rw [← hw2]
      exact (hmap s hs w hw1).2
    · intro es he
      obtain ⟨e, -, h⟩ := List.mem_map.1 he
      cases h
  obtain ⟨i, hi, -, l2, l3, l4⟩ := C44_listing_of_file C o _ _ h3 hplain readMap hread
  refine ⟨o, i, h1, hi, ?_, ?_, ?_⟩
  · obtain ⟨hs, I⟩ := inv_wrote h3
    have hnone : find .group kGlobal (rootKids o.entries) = some none := by
      refine find_no_group rootName kGlobal o.entries (by decide) (root_plain I hplain) ?_
      have hent : ∀ e ∈ o.entries, nameOf e ≠ kGlobal ∨ kindOf e ≠ .group := by
        intro e he
        obtain ⟨sl, hsl, rfl⟩ := List.mem_map.1 he
        cases sl with
        | entry e =>
          obtain ⟨rest, hr1, hr2⟩ := I.slots
          rw [hr1] at hsl
          rcases List.mem_cons.1 hsl with hsl | hsl
          · cases hsl; right; intro h; cases h
          · obtain ⟨es, hes, -⟩ := hr2 e hsl
            obtain ⟨e, -, h⟩ := List.mem_map.1 hes
            cases h
        | part p =>
          left
          have hp : p ∈ o.parts := List.mem_filterMap.2 ⟨_, hsl, rfl⟩
          rw [I.parts] at hp
          obtain ⟨h, -, rfl⟩ := List.mem_map.1 hp
          exact intName_ne_global _ _
      refine List.find?_eq_none.2 fun e he h => ?_
      simp only [Bool.and_eq_true, decide_eq_true_eq] at h
      rcases hent e he with h' | h'
      · exact h' h.2
      · exact h' h.1
    unfold openFile at hi
    rw [hnone] at hi
    split at hi
    · cases hi
    · cases hi
    · simp only at hi
      split at hi
      · cases hi; rfl
      all_goals cases hi
  · intro u
    constructor
    · intro hu
      obtain ⟨w, hw, rfl⟩ := l3 u hu
      obtain ⟨e, he, rfl⟩ := hcall w hw
      obtain ⟨s, hs, ⟨hw1, hw2⟩⟩ := (copies_mem h2 e.layer).1 ⟨e, he, rfl⟩
      exact ⟨s, hs, e.layer, hw1, hw2, rfl⟩
    · rintro ⟨s, hs, w, hw1, hw2, rfl⟩
      obtain ⟨e, he, rfl⟩ := (copies_mem h2 w).2 ⟨s, hs, hw1, hw2⟩
      have := l2 (savedAs S (e.field C readMap)) (by rw [h4]; exact List.mem_map_of_mem he)
      exact this
  · intro u l
    rw [(l4 u).2 l, h4]
    constructor
    · rintro ⟨-, w, hw, rfl, rfl⟩
      obtain ⟨e, he, rfl⟩ := List.mem_map.1 hw
      obtain ⟨s, hs, ⟨hw1, hw2⟩⟩ := (copies_mem h2 e.layer).1 ⟨e, he, rfl⟩
      exact ⟨s, hs, e.layer, hw1, hw2, rfl, rfl⟩
    · rintro ⟨s, hs, w, hw1, hw2, rfl, rfl⟩
      obtain ⟨e, he, rfl⟩ := (copies_mem h2 w).2 ⟨s, hs, hw1, hw2⟩
      exact ⟨hw2.2.2.2.1, _, List.mem_map_of_mem he, rfl, rfl⟩

/-- **C98, reading the merged file.** If what the classes save is read back as the same contents by the reader for the type, and
by no other reader, then the merged file opens, and reading it by name, with any of the six types, gives the contents of the
wanted layers of the input files that have this type and these names, of each exactly one. -/
theorem C98_merged_read (C : MapIO M) (hr : ∀ m, C.ident m m = true) (hsy : ∀ a b, C.ident a b = true → C.ident b a = true)
    (S : Saver M L F) (readMap : List Tree → Res L) (readers : Voxel → Name → Name → List Tree → Res F)
    (kind : Write M → Option Voxel) (val : Voxel → Name → Write M → Option (F × Meta))
    (glob : List Char → List Char → Bool) (opt : Merge.Options) (sources : List (Source M L))
    (fine : ∀ s ∈ sources, Fine C readMap readers kind val s)
    (hmap : ∀ s ∈ sources, ∀ w, Call.write w ∈ s.calls → (C.write (S.mapping (mapBack C readMap w.mapping))).1 = true ∧
      ∃ x, readMap (groupKids kMapping (C.write (S.mapping (mapBack C readMap w.mapping))).2) = .ok x)
    (keep : Copied M F → Meta)
    (hsave : ∀ s ∈ sources, ∀ e, Faithful C kind val s e → ∀ t path,
      readBody (readers t path) (groupKids e.layer.layer (layerGroup (savedAs S (e.field C readMap)))) =
        if e.voxel = t then .ok (e.data, keep e) else .null) :
    ∃ (ess : List (List (Copied M F))) (o : Out M) (i : In L),
      Merge.main C S readers glob opt true (sources.map fun s => some s.opened) = .done o ∧
      List.Forall₂ (CopiesOf C glob opt kind val) sources ess ∧
      openFile readMap (rootKids o.entries) = .ok i ∧
      ∀ t u l, u ≠ [] → l ≠ [] → l ≠ kMapping → ∃ fs, i.readLayers (readers t) u l = .ok fs ∧
        (fs.map (·.data)).Perm
          ((ess.flatten.filter fun e => e.voxel = t ∧ e.layer.part = u ∧ e.layer.layer = l).map (·.data)) ∧
        ∀ f ∈ fs, f.name = u ∧ f.attr = l := by
  obtain ⟨ess, o, h1, h2, h3, h4⟩ := C98_merge C hr hsy S readMap readers kind val glob opt sources fine
    fun s hs w hw => (hmap s hs w hw).1
  have hfaith : ∀ e ∈ ess.flatten, ∃ s ∈ sources, Faithful C kind val s e := by
    clear h1 h3 h4 hmap fine hsave
    induction h2 with
    | nil => simp
    | @cons s es ss tss h _ ih =>
      intro e he
      rw [List.flatten_cons, List.mem_append] at he
      rcases he with he | he
      · exact ⟨s, by simp, h.2 e he⟩
      · obtain ⟨s', hs', hf⟩ := ih e he
        exact ⟨s', by simp [hs'], hf⟩
  have hcall : ∀ w, Call.write w ∈ (ess.flatten.map fun e => Call.write (savedAs S (e.field C readMap))) →
      ∃ e ∈ ess.flatten, w = savedAs S (e.field C readMap) := by
    intro w hw
    obtain ⟨e, he, h⟩ := List.mem_map.1 hw
    cases h
    exact ⟨e, he, rfl⟩
  have hplain : Plain (ess.flatten.map fun e => Call.write (savedAs S (e.field C readMap))) := by
    constructor <;> intro w hw <;> obtain ⟨e, he, rfl⟩ := hcall w hw <;> obtain ⟨s, hs, hf⟩ := hfaith e he
    · exact (fine s hs).plain.part e.layer (stored_mem _ _ _ hf.stored)
    · exact (fine s hs).plain.layer e.layer (stored_mem _ _ _ hf.stored)
  have hread : Readable C readMap (ess.flatten.map fun e => Call.write (savedAs S (e.field C readMap))) := by
    constructor
    · intro w hw
      obtain ⟨e, he, rfl⟩ := hcall w hw
      obtain ⟨s, hs, hf⟩ := hfaith e he
      obtain ⟨w, hw1, hw2⟩ := hf.known
      left
      show ∃ x, readMap (groupKids kMapping (C.write (S.mapping (mapBack C readMap e.mapping))).2) = .ok x
      rw [← hw2]
      exact (hmap s hs w hw1).2
    · intro es he
      obtain ⟨e, -, h⟩ := List.mem_map.1 he
      cases h
  let back : Voxel → Name → Write M → Option (F × Meta) := fun t path w =>
    match readBody (readers t path) (groupKids w.layer (layerGroup w)) with
    | .ok b => some b
    | _ => none
  have hback : ∀ e ∈ ess.flatten, ∀ t path, back t path (savedAs S (e.field C readMap)) =
      if e.voxel = t then some (e.data, keep e) else none := by
    intro e he t path
    obtain ⟨s, hs, hf⟩ := hfaith e he
    have := hsave s hs e hf t path
    show (match readBody (readers t path) (groupKids e.layer.layer (layerGroup (savedAs S (e.field C readMap)))) with
      | .ok b => some b
      | _ => none) = _
    rw [this]
    by_cases h : e.voxel = t <;> simp [h]
  have hreads : ∀ t, ReadsAs (readers t) (back t) (ess.flatten.map fun e => Call.write (savedAs S (e.field C readMap))) := by
    intro t path w hw
    obtain ⟨e, he, rfl⟩ := hcall w hw
    rw [hback e he t path]
    obtain ⟨s, hs, hf⟩ := hfaith e he
    refine (hsave s hs e hf t path).trans ?_
    by_cases h : e.voxel = t <;> simp [h]
  have hopen : ∃ i, openFile readMap (rootKids o.entries) = .ok i := by
    obtain ⟨i, -, hi, -⟩ := C43_read_back C Out.new o _ _ h3 hplain readMap hread (readers .half) _ (hreads .half)
    exact ⟨i, hi⟩
  obtain ⟨i, hi⟩ := hopen
  refine ⟨ess, o, i, h1, h2, hi, ?_⟩
  intro t u l hu hl hm
  obtain ⟨i', _mp, hi', hrd⟩ := C43_read_back C Out.new o _ _ h3 hplain readMap hread (readers t) _ (hreads t)
  have hii : i = i' := by rw [hi] at hi'; cases hi'; rfl
  subst hii
  obtain ⟨qs, g1, g2, -, -, -⟩ := hrd u l hu hl hm
  rw [h4] at g2
  refine ⟨_, g1, ?_, ?_⟩
  · have hq : ∀ q ∈ qs, ∃ e ∈ ess.flatten, q.2.1 = savedAs S (e.field C readMap) := by
      intro q hq
      have := g2.mem_iff.1 (List.mem_map_of_mem (f := fun q : Nat × Write M × M => q.2.1) hq)
      obtain ⟨e, he, e1⟩ := List.mem_map.1 (List.mem_filter.1 this).1
      exact ⟨e, he, e1.symm⟩
    have e1 : (qs.filterMap fun q => (back t (layerPath (intName u q.1) l) q.2.1).map fun b =>
          (⟨u, l, mapBack C readMap q.2.2, b.2, b.1⟩ : Loaded L F)).map (·.data) =
        (qs.map (·.2.1)).filterMap fun w => (back t [] w).map (·.1) := by
      rw [List.map_filterMap, List.filterMap_map]
      apply List.filterMap_congr
      intro q hqm
      obtain ⟨e, he, e1⟩ := hq q hqm
      simp only [Function.comp_def, Option.map_map]
      rw [e1, hback e he, hback e he]
    rw [e1]
    refine (g2.filterMap _).trans (List.Perm.of_eq ?_)
    clear h1 h2 h3 h4 hcall hplain hread hreads e1 hq g1 g2 hfaith
    generalize ess.flatten = es at hback
    induction es with
    | nil => rfl
    | cons e es ih =>
      have ih := ih fun e he => hback e (by simp [he])
      have hb := hback e (by simp) t []
      rw [List.map_cons, List.filter_cons, List.filter_cons]
      have hp : (savedAs S (e.field C readMap)).part = e.layer.part := rfl
      have hl : (savedAs S (e.field C readMap)).layer = e.layer.layer := rfl
      by_cases hn : e.layer.part = u ∧ e.layer.layer = l
      · rw [if_pos (by rw [hp, hl]; exact decide_eq_true hn), List.filterMap_cons, hb]
        by_cases ht : e.voxel = t
        · simp only [ht, if_pos, hn, and_self, decide_true, List.map_cons, Option.map_some]
          rw [ih]
        · simp only [ht, if_neg, not_false_eq_true, false_and, decide_false, Option.map_none]
          rw [ih]
          rfl
      · rw [if_neg (by rw [hp, hl]; exact fun h => hn (of_decide_eq_true h)), if_neg (fun h => hn (of_decide_eq_true h).2)]
        exact ih
  · intro f hf
    obtain ⟨q, -, h⟩ := List.mem_filterMap.1 hf
    obtain ⟨b, -, rfl⟩ := Option.map_eq_some_iff.1 h
    exact ⟨rfl, rfl⟩

/-- A file that cannot be opened ends the program, and the files after it are not merged. -/
theorem C98_missing_file (C : MapIO M) (S : Saver M L F) (readers : Voxel → Name → Name → List Tree → Res F)
    (glob : List Char → List Char → Bool) (opt : Merge.Options) (later : List (Option (In L))) :
    Merge.main C S readers glob opt true (none :: later) = .exit := rfl

/-! ## A case -/

/-- The numbers of C43 are fields of half floats; the other readers know no class. -/
def numberReaders : Voxel → Name → Name → List Tree → Res UInt8
  | .half => fun _ => readNumber
  | _ => fun _ _ _ => .null

/-- What they make of a layer. -/
def numberOf : Voxel → Name → Write Nat → Option (UInt8 × Meta)
  | .half => fun _ w => some ((match w.body with
    | [_, .attribute _ _ v] => v.getD 0 0
    | _ => 0), Meta.empty)
  | _ => fun _ _ => none

theorem read_no_number (part layer : Name) (m : Nat) (x : UInt8) :
    readBody (F := UInt8) (fun _ _ => .null) (groupKids layer (layerGroup (numbered part layer m x))) = .null := by
  have hn : ∀ e ∈ layerGroup (numbered part layer m x), plainName (nameOf e) := by
    intro e he
    simp only [layerGroup, numbered, List.mem_append, List.mem_cons, List.not_mem_nil, or_false] at he
    rcases he with (rfl | rfl) | rfl | rfl
    · show plainName kClassType; exact ⟨by decide, by decide⟩
    · show plainName kMetadata; exact ⟨by decide, by decide⟩
    · show plainName kClassName; exact ⟨by decide, by decide⟩
    · show plainName [120]; exact ⟨by decide, by decide⟩
  have hc : firstOf .attribute kClassName (layerGroup (numbered part layer m x)) =
      some (.attribute kClassName .string [67]) := by
    simp [layerGroup, numbered, firstOf, kindOf, nameOf, show ¬ kClassType = kClassName by decide]
  obtain ⟨⟨a, h1, h2⟩, _, _⟩ := C36_attribute_round_trip layer kClassName .string [67] _ (by decide) hn hc
    (fun h => absurd rfl h)
  unfold readBody
  rw [h1]
  simp only
  rw [h2]
  rfl

/-- The file of C43, with five layers in two partitions, two of them with the same names and mapping, can be merged: with itself,
too. -/
theorem merge_case : ∃ s : Source Nat Nat,
    Fine numberMaps (fun kids => .ok kids.length) numberReaders (fun _ => some .half) numberOf s ∧
    s.layers.length = 5 ∧ (∀ glob, ∀ w ∈ s.layers, Wanted glob ⟨[], []⟩ (fun _ => some .half) w) ∧
    ∀ w, Call.write w ∈ s.calls → (numberMaps.write 1).1 = true ∧
      ∃ x, (fun kids : List Tree => (.ok kids.length : Res Nat)) (groupKids kMapping (numberMaps.write 1).2) = .ok x := by
  obtain ⟨i, hi, -⟩ := C44_listing_of_file numberMaps sampleFile fileCalls _ file_wrote file_plain
    (fun kids => .ok kids.length) file_readable
  refine ⟨⟨fileCalls, List.replicate 6 .written, sampleFile, i⟩, ⟨file_wrote, file_plain, file_readable, ?_, ?_, hi⟩,
    rfl, ?_, fun _ _ => ⟨rfl, _, rfl⟩⟩
  · have hno : ReadsAs (F := UInt8) (fun _ _ _ => .null) (fun _ _ => none) fileCalls := by
      intro path w hw
      simp only [fileCalls, List.mem_cons, List.not_mem_nil, or_false, Call.write.injEq, reduceCtorEq, false_or] at hw
      rcases hw with rfl | rfl | rfl | rfl | rfl <;> exact read_no_number _ _ _ _
    intro t
    cases t
    · exact file_reads
    all_goals exact hno
  · intro w _ t path
    cases t <;> simp [numberOf]
  · intro glob w hw
    have hw : w ∈ stored fileCalls (List.replicate 6 .written) := hw
    have hcall := stored_mem _ _ w hw
    simp only [fileCalls, List.mem_cons, List.not_mem_nil, or_false, Call.write.injEq, reduceCtorEq, false_or] at hcall
    rcases hcall with rfl | rfl | rfl | rfl | rfl <;>
      exact ⟨.inl rfl, .inl rfl, by simp [numbered], by simp only [numbered]; decide, by simp⟩

/-- Saves numbers like the layers of C43. -/
def numberSaver : Saver Nat Nat UInt8 :=
  ⟨fun _ => 1, fun _ _ => [], fun _ x => [.attribute kClassName .string [67], .attribute [120] .int8 [x.data]]⟩

/-- What it saves for the layers of that file is read back, by the reader for half floats only: the conditions of
C98_merged_read. -/
example (s : Source Nat Nat) (e : Copied Nat UInt8) (h : Faithful numberMaps (fun _ => some .half) numberOf s e)
    (t : Voxel) (path : Name) : readBody (numberReaders t path) (groupKids e.layer.layer (layerGroup
      (toWrite numberSaver (e.field numberMaps fun kids => .ok kids.length)))) =
    if e.voxel = t then .ok (e.data, Meta.empty) else .null := by
  have hv : e.voxel = .half := (Option.some.inj h.kind).symm
  have hw : toWrite numberSaver (e.field numberMaps fun kids => .ok kids.length) =
    numbered e.layer.part e.layer.layer 1 e.data := rfl
  rw [hw, hv]
  cases t
  · exact read_numbered _ _ _ _
  all_goals exact read_no_number _ _ _ _

end F3D.Props
