import Verif.Model.Info
import Verif.Props.Merge

/-!
# C105: listing files
-/

namespace F3D.Props
open Files Og Ogawa FieldIO Merge
open MappingIO (kMapping)
open Metadata (Meta)

variable {M L F : Type} [FieldClass F]

/-! ## Specification -/

/-- No patterns, or one of them matches all of the name. -/
def MatchesOne (re : Name → Name → Bool) (ps : List Name) (n : Name) : Prop := ps = [] ∨ ∃ p ∈ ps, re p n = true

/-- The layers that are to be listed: of one of the six types, matched by both lists of patterns, with a name of the partition,
and not named "mapping" (those are never found in a file: C43). -/
def Listed (re : Name → Name → Bool) (opt : Info.Options) (kind : Write M → Option Voxel) (w : Write M) : Prop :=
  MatchesOne re opt.names w.part ∧ MatchesOne re opt.attributes w.layer ∧ w.part ≠ [] ∧ w.layer ≠ kMapping ∧ kind w ≠ none

open Classical in
/-- The entries of a file: every layer that is to be listed once, nothing else, and each as it was written. -/
def EntriesOf (C : MapIO M) (re : Name → Name → Bool) (opt : Info.Options) (kind : Write M → Option Voxel)
    (val : Voxel → Name → Write M → Option (F × Meta)) (s : Source M L) (es : List (Copied M F)) : Prop :=
  (es.map (·.layer)).Perm (s.layers.filter fun w => decide (Listed re opt kind w)) ∧
    ∀ e ∈ es, Faithful C kind val s e

/-- What is printed for a file: its name, its entries, its metadata. -/
def report (C : MapIO M) (readMap : List Tree → Res L) (file : Name) (s : Source M L) (es : List (Copied M F)) :
    List (Info.Printed L F) :=
  .head file :: es.map (fun e => .field e.voxel
    ⟨e.layer.part, e.layer.layer, mapBack C readMap e.mapping, e.info, e.data⟩) ++ [.global s.opened.info]

/-! ## Lemmas -/

theorem matchString_iff (re : Name → Name → Bool) (ps : List Name) (n : Name) :
    Info.matchString re n ps = true ↔ MatchesOne re ps n := by
  unfold Info.matchString MatchesOne
  cases ps with
  | nil => simp
  | cons p ps => simp

theorem mem_info_requests (re : Name → Name → Bool) (opt : Info.Options) (ps : Listing) (r : Voxel × Name × Name) :
    r ∈ Info.requests re opt ps ↔ r.2.1 ∈ ps.partitionNames ∧ MatchesOne re opt.names r.2.1 ∧
      r.2.2 ∈ ps.layerNames r.2.1 ∧ MatchesOne re opt.attributes r.2.2 := by
  obtain ⟨t, u, l⟩ := r
  simp only [Info.requests, List.mem_flatMap, List.mem_append, List.mem_map, List.mem_filter, matchString_iff, Prod.mk.injEq]
  constructor
  · rintro ⟨u', ⟨h1, h2⟩, ⟨l', ⟨h3, h4⟩, t', _, rfl, rfl, rfl⟩ | ⟨l', ⟨h3, h4⟩, t', _, rfl, rfl, rfl⟩⟩ <;>
      exact ⟨h1, h2, h3, h4⟩
  · rintro ⟨h1, h2, h3, h4⟩
    refine ⟨u, ⟨h1, h2⟩, ?_⟩
    rcases voxel_all t with ht | ht
    · exact Or.inl ⟨l, ⟨h3, h4⟩, t, ht, rfl, rfl, rfl⟩
    · exact Or.inr ⟨l, ⟨h3, h4⟩, t, ht, rfl, rfl, rfl⟩

theorem info_requests_nodup (re : Name → Name → Bool) (opt : Info.Options) (ps : Listing)
    (h1 : ps.partitionNames.Nodup) (h2 : ∀ u, (ps.layerNames u).Nodup) : (Info.requests re opt ps).Nodup := by
  unfold Info.requests
  rw [List.nodup_flatMap]
  constructor
  · intro u _
    rw [List.nodup_append]
    refine ⟨typed_nodup _ (by decide) u _ ((h2 u).filter _), typed_nodup _ (by decide) u _ ((h2 u).filter _), ?_⟩
    intro x hx y hy e
    subst e
    simp only [List.mem_flatMap, List.mem_map] at hx hy
    obtain ⟨l, _, t, ht, rfl⟩ := hx
    obtain ⟨l', _, t', ht', e⟩ := hy
    cases e
    cases t <;> simp [scalars, vectors] at ht ht'
  · refine List.Pairwise.imp ?_ (h1.filter _)
    intro a b hab x hx hy
    simp only [List.mem_append, List.mem_flatMap, List.mem_map] at hx hy
    have ea : x.2.1 = a := by
      rcases hx with ⟨_, _, _, _, rfl⟩ | ⟨_, _, _, _, rfl⟩ <;> rfl
    have eb : x.2.1 = b := by
      rcases hy with ⟨_, _, _, _, rfl⟩ | ⟨_, _, _, _, rfl⟩ <;> rfl
    exact hab (ea.symm.trans eb)

/-- The layers listed from one file. -/
theorem entries_of_file {C : MapIO M} {readMap : List Tree → Res L} {readers : Voxel → Name → Name → List Tree → Res F}
    {kind : Write M → Option Voxel} {val : Voxel → Name → Write M → Option (F × Meta)} {s : Source M L}
    (fine : Fine C readMap readers kind val s) (re : Name → Name → Bool) (opt : Info.Options) :
    ∃ es : List (Copied M F),
      readRequests readers s.opened (Info.requests re opt s.opened.listing) = .ok (es.map (Copied.field C readMap)) ∧
      EntriesOf C re opt kind val s es := by
  classical
  obtain ⟨i, hi, l1, l2, -, l4⟩ := C44_listing_of_file C s.file s.calls s.results fine.wrote fine.plain readMap fine.readable
  rw [fine.opens] at hi
  cases hi
  have hreq : ∀ r ∈ Info.requests re opt s.opened.listing, r.2.2 ≠ [] ∧ r.2.2 ≠ kMapping := by
    intro r hr
    obtain ⟨-, -, h3, -⟩ := (mem_info_requests re opt _ r).1 hr
    obtain ⟨h5, w, hw, -, e⟩ := ((l4 _).2 _).1 h3
    exact ⟨by rw [← e]; exact (fine.plain.layer w (stored_mem _ _ w hw)).1, h5⟩
  obtain ⟨es, h1, h2, h3⟩ := read_requests fine _ hreq
  refine ⟨es, h1, ?_, h3⟩
  refine h2.trans ((flatMap_filter_perm (fun r w => decide (Asks kind r w)) ?_ s.layers _ (info_requests_nodup re opt _ (names_nodup l1)
    fun u => names_nodup (l4 u).1)).trans (List.Perm.of_eq ?_))
  · rintro ⟨t, u, l⟩ ⟨t', u', l'⟩ w ha hb
    obtain ⟨a1, a2, a3, -⟩ := of_decide_eq_true ha
    obtain ⟨b1, b2, b3, -⟩ := of_decide_eq_true hb
    have : t = t' := Option.some.inj (a1.symm.trans b1)
    simp only at a2 a3 b2 b3
    subst this; subst a2; subst a3; subst b2; subst b3; rfl
  · apply List.filter_congr
    intro w hw
    rw [Bool.eq_iff_iff, decide_eq_true_eq, List.any_eq_true]
    simp only [decide_eq_true_eq]
    constructor
    · rintro ⟨r, hr, k1, k2, k3, k4⟩
      obtain ⟨-, p2, -, p4⟩ := (mem_info_requests re opt _ r).1 hr
      exact ⟨by rw [k2]; exact p2, by rw [k3]; exact p4, k4, by rw [k3]; exact (hreq r hr).2, by rw [k1]; simp⟩
    · rintro ⟨p1, p2, p3, p4, p5⟩
      obtain ⟨t, ht⟩ := Option.ne_none_iff_exists'.1 p5
      refine ⟨(t, w.part, w.layer), (mem_info_requests re opt _ _).2 ⟨l2 w hw, p1, ((l4 _).2 _).2 ⟨p4, w, hw, rfl, rfl⟩, p2⟩,
        ht, rfl, rfl, p3⟩

theorem printFields_ok (readers : Voxel → Name → Name → List Tree → Res F) (i : In L) :
    ∀ (rs : List (Voxel × Name × Name)) (xs : List (Voxel × Loaded L F)), readRequests readers i rs = .ok xs →
      Info.printFields readers i rs = (xs.map fun x => Info.Printed.field x.1 x.2, .fine)
  | [], xs, h => by
    simp only [readRequests, Res.ok.injEq] at h
    subst h; rfl
  | (t, u, l) :: rs, xs, h => by
    simp only [readRequests] at h
    cases h1 : i.readLayers (readers t) u l with
    | ok fs =>
      rw [h1] at h
      simp only [Res.bind] at h
      cases h2 : readRequests readers i rs with
      | ok gs =>
        rw [h2] at h
        simp only [Res.ok.injEq] at h
        subst h
        simp only [Info.printFields, h1, printFields_ok readers i rs gs h2, List.map_append, List.map_map]
        rfl
      | _ => rw [h2] at h; simp at h
    | _ => rw [h1] at h; simp [Res.bind] at h

/-! ## The property -/

/-- **C105.** The program that lists files prints, for each of the files in turn, its name, one entry for every layer of it that
both lists of patterns match, and its metadata, and nothing else; the entries have the type, the names and the contents of the
layers. Layers with the same names, and of different types, all have entries of their own. It ends with code 0. -/
theorem C105_lists (C : MapIO M) (readMap : List Tree → Res L) (readers : Voxel → Name → Name → List Tree → Res F)
    (kind : Write M → Option Voxel) (val : Voxel → Name → Write M → Option (F × Meta))
    (re : Name → Name → Bool) (opt : Info.Options) (sources : List (Name × Source M L))
    (fine : ∀ s ∈ sources, Fine C readMap readers kind val s.2) :
    ∃ ess : List (List (Copied M F)), List.Forall₂ (fun s es => EntriesOf C re opt kind val s.2 es) sources ess ∧
      Info.main readers re opt (sources.map fun s => (s.1, some s.2.opened)) =
        ((List.zipWith (fun s es => report C readMap s.1 s.2 es) sources ess).flatten, .exit 0) := by
  induction sources with
  | nil => exact ⟨[], .nil, rfl⟩
  | cons s ss ih =>
    obtain ⟨es, h1, h2⟩ := entries_of_file (fine s (by simp)) re opt
    obtain ⟨ess, h3, h4⟩ := ih fun x hx => fine x (by simp [hx])
    refine ⟨es :: ess, .cons h2 h3, ?_⟩
    simp only [List.map_cons, Info.main, Info.printFile, printFields_ok _ _ _ _ h1, h4, List.zipWith_cons_cons,
      List.flatten_cons, report, List.map_map]
    rfl

/-- **C105, a missing file.** A file that cannot be opened ends the program with code 1 and a message. The files before it are
listed as if it was not there, the files after it are not listed. -/
theorem C105_missing_file (readers : Voxel → Name → Name → List Tree → Res F) (re : Name → Name → Bool) (opt : Info.Options)
    (files later : List (Name × Option (In L))) (name : Name) (out : List (Info.Printed L F))
    (h : Info.main readers re opt files = (out, .exit 0)) :
    Info.main readers re opt (files ++ (name, none) :: later) = (out ++ [.error name], .exit 1) := by
  induction files generalizing out with
  | nil =>
    simp only [Info.main, Prod.mk.injEq, and_true] at h
    subst h
    rfl
  | cons f fs ih =>
    rw [Info.main] at h
    rw [List.cons_append, Info.main]
    simp only at h ⊢
    cases hs : (Info.printFile readers re opt f).2 with
    | fine =>
      rw [hs] at h
      simp only [Prod.mk.injEq] at h ⊢
      obtain ⟨h1, h2⟩ := h
      rw [ih _ (Prod.ext rfl h2), ← h1]
      simp
    | exit c =>
      rw [hs] at h
      simp only [Prod.mk.injEq, Info.Status.exit.injEq] at h
      obtain ⟨h1, rfl⟩ := h
      unfold Info.printFile at hs
      split at hs
      · cases hs
      · simp only at hs
        split at hs
        · cases hs
        · rename_i i hi _ hne
          exfalso
          have key : ∀ rs, (Info.printFields readers i rs).2 ≠ .exit 0 := by
            intro rs
            induction rs with
            | nil => simp [Info.printFields]
            | cons r rs ihr =>
              obtain ⟨t, u, l⟩ := r
              simp only [Info.printFields]
              split
              · exact ihr
              · simp
              · simp
          exact key _ hs
    | threw => rw [hs] at h; simp at h
    | crash => rw [hs] at h; simp at h

/-- **C105, a case.** The file of C43, with five layers of half floats of which some have the same names: without patterns all five
are listed; with a pattern for the partition that matches nothing, none is. -/
theorem C105_case : ∃ s : Source Nat Nat,
    Fine numberMaps (fun kids => .ok kids.length) numberReaders (fun _ => some .half) numberOf s ∧
    (∀ re, ∃ es : List (Copied Nat UInt8), es.length = 5 ∧
      Info.main numberReaders re ⟨[], []⟩ [([102], some s.opened)] =
        (report numberMaps (fun kids => .ok kids.length) [102] s es, .exit 0)) ∧
    Info.main numberReaders (fun _ _ => false) ⟨[[97]], []⟩ [([102], some s.opened)] =
      ([.head [102], .global s.opened.info], .exit 0) := by
  classical
  obtain ⟨s, hs, h5, hw, -⟩ := merge_case
  refine ⟨s, hs, ?_, ?_⟩
  · intro re
    obtain ⟨ess, h1, h2⟩ := C105_lists numberMaps _ numberReaders (fun _ => some .half) numberOf re ⟨[], []⟩ [([102], s)]
      (by simpa using hs)
    cases h1 with
    | @cons _ es _ ess h3 h4 =>
      cases h4
      refine ⟨es, ?_, by simpa using h2⟩
      have := h3.1.length_eq
      rw [List.length_map] at this
      rw [this, ← h5]
      congr 1
      rw [List.filter_eq_self]
      intro w hm
      rw [decide_eq_true_eq]
      obtain ⟨-, -, a, b, c⟩ := hw (fun _ _ => true) w hm
      exact ⟨.inl rfl, .inl rfl, a, b, c⟩
  · obtain ⟨ess, h1, h2⟩ := C105_lists numberMaps _ numberReaders (fun _ => some .half) numberOf (fun _ _ => false) ⟨[[97]], []⟩
      [([102], s)] (by simpa using hs)
    cases h1 with
    | @cons _ es _ ess h3 h4 =>
      cases h4
      have hnil : es = [] := by
        have := h3.1
        rw [List.filter_eq_nil_iff.mpr] at this
        · exact List.map_eq_nil_iff.mp (List.perm_nil.mp this)
        · intro w _ hd
          rcases (of_decide_eq_true hd).1 with h | ⟨p, _, h⟩
          · cases h
          · cases h
      subst hnil
      simpa [report] using h2

end F3D.Props
