import Verif.Spec.Hdf5Groups
import Verif.Proofs.Hdf5Read

/-!
# Lemmas on groups of layers: a file with one more link
-/

namespace F3D
namespace Hdf5
open Ogawa Og FieldIO
open MappingIO (kMapping)
open Metadata (Dict Meta)
open Files (kGlobal kVersionNumber kClassName kIsPartition kClassType kLayerText kMetadata removeUniqueId intName nextIndex
  Listing Loaded FieldClass layerPath collect)

variable {M L F : Type}

/-- A name of a partition or of the metadata of the file. -/
def Usual (n : Name) : Prop := Step n ∧ n ≠ kMembership

/-- The second root has the links `ex`, of the groups, more than the first. -/
def Extra (ex : List (Name × Obj)) (a b : Obj) : Prop :=
  ∃ as l1 l2, a = .group as (l1 ++ l2) ∧ b = .group as (l1 ++ (ex ++ l2)) ∧ (∀ p ∈ ex, p.1 = kMembership) ∧
    ∀ p ∈ l1 ++ l2, Usual p.1

/-- A part of a writer that does not see these links. -/
def Aside (w : W) : Prop := ∀ ex a b, Extra ex a b → (w a).1 = (w b).1 ∧ Extra ex (w a).2 (w b).2

theorem named_ex {T : Type} {n k : Name} (h : n ≠ k) {ex : List (Name × T)} (he : ∀ p ∈ ex, p.1 = k) (l1 l2 : List (Name × T)) :
    named n (l1 ++ (ex ++ l2)) = named n (l1 ++ l2) := by
  have : named n ex = none := named_none.2 fun p hp e => h (e.symm.trans (he p hp))
  rw [named_append, named_append, named_append, this, Option.none_or]

theorem set_ex {T : Type} {n k : Name} (h : n ≠ k) {ex : List (Name × T)} (he : ∀ p ∈ ex, p.1 = k) (v : T) :
    ∀ l1 l2 : List (Name × T), ∃ m1 m2, setNamed n v (l1 ++ l2) = m1 ++ m2 ∧ setNamed n v (l1 ++ (ex ++ l2)) = m1 ++ (ex ++ m2)
  | [], l2 => by
    refine ⟨[], setNamed n v l2, rfl, ?_⟩
    induction ex with
    | nil => rfl
    | cons p ex ih =>
      have hp : p.1 ≠ n := fun e => h (e.symm.trans (he p (by simp)))
      have := ih fun q hq => he q (by simp [hq])
      simp only [List.nil_append, List.cons_append, setNamed] at this ⊢
      rw [if_neg hp, this]
  | p :: l1, l2 => by
    by_cases hp : p.1 = n
    · exact ⟨(n, v) :: l1, l2, by simp [setNamed, hp], by simp [setNamed, hp]⟩
    · obtain ⟨m1, m2, e1, e2⟩ := set_ex h he v l1 l2
      exact ⟨p :: m1, m2, by simp [setNamed, hp, e1], by simp [setNamed, hp, e2]⟩

theorem aside_inside {n : Name} (h : n ≠ kMembership) (p : List Name) (w : W) : Aside (inside (n :: p) w) := by
  rintro ex a b ⟨as, l1, l2, rfl, rfl, he, hu⟩
  simp only [inside, named_ex h he]
  cases hn : named n (l1 ++ l2) with
  | none => exact ⟨rfl, as, l1, l2, rfl, rfl, he, hu⟩
  | some k =>
    obtain ⟨m1, m2, e1, e2⟩ := set_ex h he (inside p w k).2 l1 l2
    refine ⟨rfl, as, m1, m2, ?_, ?_, he, ?_⟩
    · simp only [e1]
    · simp only [e2]
    · intro q hq
      rw [← e1] at hq
      have : q.1 ∈ (setNamed n (inside p w k).2 (l1 ++ l2)).map (·.1) := List.mem_map.2 ⟨q, hq, rfl⟩
      rw [map_set] at this
      obtain ⟨r, hr, er⟩ := List.mem_map.1 this
      rw [← er]
      exact hu r hr

theorem aside_put {n : Name} (h : Usual n) : Aside (putGroup n) := by
  rintro ex a b ⟨as, l1, l2, rfl, rfl, he, hu⟩
  simp only [putGroup, named_ex h.2 he]
  split
  · exact ⟨rfl, as, l1, l2, rfl, rfl, he, hu⟩
  · refine ⟨rfl, as, l1, l2 ++ [(n, .new)], by simp, by simp, he, ?_⟩
    intro p hp
    rw [← List.append_assoc, List.mem_append, List.mem_singleton] at hp
    rcases hp with hp | rfl
    · exact hu p hp
    · exact h

theorem aside_seq {a b : W} (ha : Aside a) (hb : Aside b) : Aside (a ⨾ b) := by
  intro ex x y h
  obtain ⟨e, h'⟩ := ha ex x y h
  unfold W.seq
  revert e h'
  generalize a x = r
  generalize a y = s
  obtain ⟨r1, r2⟩ := r
  obtain ⟨s1, s2⟩ := s
  rintro rfl h'
  cases r1 with
  | ok => exact hb ex r2 s2 h'
  | _ => exact ⟨rfl, h'⟩

theorem aside_make {n : Name} (h : Usual n) : Aside (makeGroup [] n) := by
  have e : makeGroup [] n = putGroup n := by
    funext x
    unfold makeGroup
    rw [locate_plain h.1, steps_plain h.1]
    simp only [List.nil_append, List.getLast?_singleton, List.dropLast_singleton, inside]
    rw [if_neg (by simp)]
  rw [e]
  exact aside_put h

theorem aside_make_child {n l : Name} (h : n ≠ kMembership) (hl : Step l) : Aside (makeGroup [n] l) := by
  have e : makeGroup [n] l = inside [n] (putGroup l) := by
    funext x
    unfold makeGroup
    rw [locate_plain hl, steps_plain hl]
    have e1 : ([n] ++ [l]).getLast? = some l := rfl
    have e2 : ([n] ++ [l]).dropLast = [n] := rfl
    rw [e1, e2]
    simp only
    rw [if_neg (by simp)]
  rw [e]
  exact aside_inside h [] _

/-! ## The output object -/

/-- The same object with the other file. -/
structure Beside (ex : List (Name × Obj)) (o o' : Out M) : Prop where
  same : o' = { o with root := o'.root }
  root : Extra ex o.root o'.root
  parts : ∀ p ∈ o.parts, Usual p.name

theorem intName_usual {u : Name} {k : Nat} (h1 : (47 : UInt8) ∉ u) (h2 : (0 : UInt8) ∉ u) : Usual (intName u k) := by
  refine ⟨step_int u k h1 h2, fun e => ?_⟩
  have h46 : (46 : UInt8) ∈ kMembership := by rw [← e]; exact Files.intName_dot _ _
  exact absurd h46 (by decide)

theorem findPart_mem {n : Name} {p : Part M} : ∀ {l : List (Part M)}, findPart n l = some p → p ∈ l ∧ p.name = n
  | [], h => by simp [findPart] at h
  | q :: l, h => by
    rw [findPart] at h
    split at h
    · next e => cases h; exact ⟨by simp, e⟩
    · obtain ⟨a, b⟩ := findPart_mem h; exact ⟨by simp [a], b⟩

theorem change_usual {n : Name} {f : Part M → Part M} (hf : ∀ p, (f p).name = p.name) : ∀ {l : List (Part M)},
    (∀ p ∈ l, Usual p.name) → ∀ p ∈ change n f l, Usual p.name
  | [], _, p, hp => by simp [change] at hp
  | q :: l, h, p, hp => by
    rw [change] at hp
    split at hp
    · rw [List.mem_cons] at hp
      rcases hp with rfl | hp
      · rw [hf]; exact h q (by simp)
      · exact h p (by simp [hp])
    · rw [List.mem_cons] at hp
      rcases hp with rfl | hp
      · exact h _ (by simp)
      · exact change_usual hf (fun x hx => h x (by simp [hx])) p hp

/-- A call on both. -/
def Alike (ex : List (Name × Obj)) (r s : Ret × Out M) : Prop := r.1 = s.1 ∧ Beside ex r.2 s.2

theorem alike_create (C : MapIO M) {n : Name} (h : Usual n) (m : M) {ex : List (Name × Obj)} {o o' : Out M}
    (B : Beside ex o o') : Alike ex (createPart C n m o) (createPart C n m o') := by
  obtain ⟨same, hr, hp⟩ := B
  obtain ⟨open', root', parts', count'⟩ := o'
  obtain ⟨open0, root0, parts0, count0⟩ := o
  injection same with e1 e2 e3 e4
  subst e1 e3 e4
  simp only at hr hp
  unfold createPart
  rw [locate_plain h.1, List.nil_append]
  have k1 := aside_make h ex root0 root' hr
  simp only
  revert k1
  generalize makeGroup [] n root0 = x
  generalize makeGroup [] n root' = y
  obtain ⟨x1, x2⟩ := x
  obtain ⟨y1, y2⟩ := y
  rintro ⟨e, hr1⟩
  simp only at e hr1
  subst e
  have hp1 : ∀ p ∈ parts' ++ [(⟨n, none, [], []⟩ : Part M)], Usual p.name := by
    intro p hq
    rw [List.mem_append, List.mem_singleton] at hq
    rcases hq with hq | rfl
    · exact hp p hq
    · exact h
  cases x1 with
  | ok =>
    have k2 : Aside (writeMapping C [n] m) := by
      unfold writeMapping
      exact aside_seq (aside_make_child h.2 step_mapping) (aside_inside h.2 _ _)
    have k2 := k2 ex x2 y2 hr1
    simp only
    revert k2
    generalize writeMapping C [n] m x2 = x
    generalize writeMapping C [n] m y2 = y
    obtain ⟨x1, x2⟩ := x
    obtain ⟨y1, y2⟩ := y
    rintro ⟨e, hr2⟩
    simp only at e hr2
    subst e
    cases x1 with
    | ok =>
      have k3 := aside_inside h.2 [] (putAttr kIsPartition (.str [49])) ex x2 y2 hr2
      simp only
      revert k3
      generalize inside [n] (putAttr kIsPartition (.str [49])) x2 = x
      generalize inside [n] (putAttr kIsPartition (.str [49])) y2 = y
      obtain ⟨x1, x2⟩ := x
      obtain ⟨y1, y2⟩ := y
      rintro ⟨e, hr3⟩
      simp only at e hr3
      subst e
      have hp2 : ∀ p ∈ change n (fun p => { p with mapping := some m }) (parts' ++ [(⟨n, none, [], []⟩ : Part M)]), Usual p.name :=
        change_usual (f := fun p : Part M => { p with mapping := some m }) (fun _ => rfl) hp1
      cases x1 <;> exact ⟨rfl, rfl, hr3, hp2⟩
    | _ => exact ⟨rfl, rfl, hr2, hp1⟩
  | _ => exact ⟨rfl, rfl, hr1, hp⟩

theorem alike_addLayer (C : MapIO M) (w : Write M) (hl : Step w.layer) {n : Name} (h : Usual n) {ex : List (Name × Obj)}
    {o o' : Out M} (B : Beside ex o o') : Alike ex (addLayer C w n o) (addLayer C w n o') := by
  have B0 := B
  obtain ⟨same, hr, hp⟩ := B
  obtain ⟨open', root', parts', count'⟩ := o'
  obtain ⟨open0, root0, parts0, count0⟩ := o
  injection same with e1 e2 e3 e4
  subst e1 e3 e4
  simp only at hr hp
  unfold addLayer
  simp only
  cases findPart n parts' with
  | none => exact ⟨rfl, B0⟩
  | some p =>
    simp only
    cases p.mapping with
    | none => exact ⟨rfl, B0⟩
    | some pm =>
      simp only
      by_cases hi : C.ident w.mapping pm = true
      · rw [if_pos hi, if_pos hi, locate_plain h.1, List.nil_append, locate_plain hl]
        have k := aside_seq (aside_make_child h.2 hl) (aside_inside h.2 [w.layer] (layerWriter w)) ex root0 root' hr
        have e : [n] ++ [w.layer] = [n, w.layer] := rfl
        rw [e]
        revert k
        generalize (makeGroup [n] w.layer ⨾ inside [n, w.layer] (layerWriter w)) root0 = x
        generalize (makeGroup [n] w.layer ⨾ inside [n, w.layer] (layerWriter w)) root' = y
        obtain ⟨x1, x2⟩ := x
        obtain ⟨y1, y2⟩ := y
        rintro ⟨e, hr1⟩
        simp only at e hr1
        subst e
        cases x1 with
        | ok =>
          refine ⟨rfl, rfl, hr1, change_usual (fun p => ?_) hp⟩
          unfold Part.add
          split <;> rfl
        | _ => exact ⟨rfl, rfl, hr1, hp⟩
      · rw [if_neg hi, if_neg hi]
        exact ⟨rfl, B0⟩

theorem alike_addNew (C : MapIO M) (w : Write M) (hl : Step w.layer) {n : Name} (h : Usual n) {ex : List (Name × Obj)}
    {o o' : Out M} (B : Beside ex o o') : Alike ex (addNew C w n o) (addNew C w n o') := by
  have k := alike_create C h w.mapping B
  unfold addNew
  revert k
  generalize createPart C n w.mapping o = x
  generalize createPart C n w.mapping o' = y
  obtain ⟨x1, x2⟩ := x
  obtain ⟨y1, y2⟩ := y
  rintro ⟨e, B1⟩
  simp only at e B1
  subst e
  cases x1 with
  | ok => exact alike_addLayer C w hl h B1
  | _ => exact ⟨rfl, B1⟩

theorem beside_count {ex : List (Name × Obj)} {o o' : Out M} (B : Beside ex o o') (c : Dict Nat) :
    Beside ex { o with count := c } { o' with count := c } := by
  refine ⟨?_, B.root, B.parts⟩
  have := B.same
  obtain ⟨open', root', parts', count'⟩ := o'
  injection this with e1 e2 e3 e4
  subst e1 e3 e4
  rfl

theorem remove_plain {n : Name} {b : UInt8} (h : b ∉ n) : b ∉ removeUniqueId n := by
  unfold removeUniqueId Files.beforeDot
  split
  · exact h
  · next p e =>
    split at e
    · cases e
    · next x r hr =>
      cases e
      intro hb
      apply h
      have h1 : b ∈ n.reverse.dropWhile (· ≠ 46) := by
        rw [hr]; simp at hb; simp [hb]
      exact List.mem_reverse.1 ((List.dropWhile_sublist _).mem h1)

theorem alike_writeTo (C : MapIO M) (w : Write M) (hl : Step w.layer) {n : Name} (h : Usual n) {ex : List (Name × Obj)}
    {o o' : Out M} (B : Beside ex o o') : Alike ex (writeTo C w n o) (writeTo C w n o') := by
  have same := B.same
  obtain ⟨open', root', parts', count'⟩ := o'
  obtain ⟨open0, root0, parts0, count0⟩ := o
  injection same with e1 e2 e3 e4
  subst e1 e3 e4
  unfold writeTo
  simp only
  cases findPart n parts' with
  | none => exact alike_addNew C w hl h B
  | some p =>
    simp only
    by_cases hh : p.has w.isVec w.layer = true
    · rw [if_pos hh, if_pos hh]
      exact alike_addNew C w hl (intName_usual (remove_plain h.1.slash) (remove_plain h.1.nul)) (beside_count B _)
    · rw [if_neg hh, if_neg hh]
      exact alike_addLayer C w hl h B

theorem matching_mem {C : MapIO M} {u : Name} {m : M} {n : Name} : ∀ {l : List (Part M)}, matching C u m l = some (some n) →
    ∃ p ∈ l, p.name = n
  | [], h => by simp [matching] at h
  | q :: l, h => by
    rw [matching] at h
    split at h
    · split at h
      · cases h
      · split at h
        · cases h; exact ⟨q, by simp, rfl⟩
        · obtain ⟨p, hp, e⟩ := matching_mem h; exact ⟨p, by simp [hp], e⟩
    · obtain ⟨p, hp, e⟩ := matching_mem h; exact ⟨p, by simp [hp], e⟩

theorem alike_write (C : MapIO M) (w : Write M) (hl : Step w.layer) (h1 : (47 : UInt8) ∉ w.part) (h2 : (0 : UInt8) ∉ w.part)
    {ex : List (Name × Obj)} {o o' : Out M} (B : Beside ex o o') : Alike ex (writeLayer C w o) (writeLayer C w o') := by
  have same := B.same
  obtain ⟨open', root', parts', count'⟩ := o'
  obtain ⟨open0, root0, parts0, count0⟩ := o
  injection same with e1 e2 e3 e4
  subst e1 e3 e4
  unfold writeLayer
  simp only
  by_cases ho : open' = true
  · rw [if_pos ho, if_pos ho]
    cases hm : matching C w.part w.mapping parts' with
    | none => exact ⟨rfl, B⟩
    | some x =>
      cases x with
      | none => exact alike_writeTo C w hl (intName_usual h1 h2) (beside_count B _)
      | some n =>
        obtain ⟨p, hp, rfl⟩ := matching_mem hm
        exact alike_writeTo C w hl (B.parts p hp) B
  · rw [if_neg ho, if_neg ho]
    exact ⟨rfl, B⟩

theorem global_usual : Usual kGlobal := ⟨⟨by decide, by decide, by decide, by decide⟩, by decide⟩

theorem alike_global (m : Meta) {ex : List (Name × Obj)} {o o' : Out M} (B : Beside ex o o') :
    Alike ex (writeGlobal m o) (writeGlobal m o') := by
  unfold writeGlobal
  have e : o'.isOpen = o.isOpen := by rw [B.same]
  rw [e]
  by_cases ho : o.isOpen = true
  · rw [if_pos ho, if_pos ho]
    have k := aside_seq (aside_make global_usual) (aside_inside global_usual.2 [] (writeMeta m)) ex _ _ B.root
    revert k
    generalize (makeGroup [] kGlobal ⨾ inside [kGlobal] (writeMeta m)) o.root = x
    generalize (makeGroup [] kGlobal ⨾ inside [kGlobal] (writeMeta m)) o'.root = y
    rintro ⟨e, k⟩
    obtain ⟨x1, x2⟩ := x
    obtain ⟨y1, y2⟩ := y
    simp only at e k
    refine ⟨e, ?_, k, B.parts⟩
    rw [B.same]
  · rw [if_neg ho, if_neg ho]
    exact ⟨rfl, B⟩

/-! ## Runs -/

/-- What `writeGroupMembership` puts into the file. -/
def groupsObj (g : Groups) : Obj := (groupsWriter g .new).2

theorem writeGroups_first (g : Groups) (hg : g ≠ []) {a b : Obj} (E : Extra [] a b) :
    (writeGroups g b).1 = (groupsWriter g .new).1 ∧ Extra [(kMembership, groupsObj g)] a (writeGroups g b).2 := by
  obtain ⟨as, l1, l2, rfl, rfl, -, hu⟩ := E
  have hst : Step kMembership := ⟨by decide, by decide, by decide, by decide⟩
  have hf : named kMembership (l1 ++ l2) = none := named_none.2 fun p hp => (hu p hp).2
  unfold writeGroups
  rw [if_neg hg, List.nil_append]
  have e1 : makeGroup [] kMembership (.group as (l1 ++ l2)) = (.ok, .group as (l1 ++ l2 ++ [(kMembership, .new)])) := by
    rw [make_root hst, if_neg (by simp [hf])]
  rw [seq_ok e1, inside_one _ _ _ _ _ (named_last _ hf), set_last _ _ hf]
  refine ⟨rfl, as, l1 ++ l2, [], by simp, by simp [groupsObj], by simp, by simpa using hu⟩

theorem writeGroups_again (g : Groups) (G : Obj) {a b : Obj} (E : Extra [(kMembership, G)] a b) :
    writeGroups g b = (if g = [] then .ok else .failed, b) := by
  obtain ⟨as, l1, l2, rfl, rfl, he, hu⟩ := E
  have hst : Step kMembership := ⟨by decide, by decide, by decide, by decide⟩
  unfold writeGroups
  by_cases hg : g = []
  · rw [if_pos hg, if_pos hg]
  · rw [if_neg hg, if_neg hg]
    have hs : (named kMembership (l1 ++ ([(kMembership, G)] ++ l2))).isSome = true := by
      rw [named_append, named_append]
      cases named kMembership l1 <;> simp [named]
    unfold W.seq
    rw [make_root hst, if_pos hs]

/-- Links that a run adds to the file: none, or that of the groups. -/
def OneMore (ex : List (Name × Obj)) : Prop := ex = [] ∨ ∃ G, ex = [(kMembership, G)]

theorem beside_root {ex ex' : List (Name × Obj)} {o o' : Out M} (B : Beside ex o o') (r : Obj) (E : Extra ex' o.root r) :
    Beside ex' o { o' with root := r } := by
  refine ⟨?_, E, B.parts⟩
  rw [B.same]

theorem all_ret : ∀ (l : List (Name × Attr)) (g : Obj), (W.all (l.map fun p => putAttr p.1 p.2) g).1 ≠ .crash
  | [], g => fun h => nomatch h
  | p :: l, g => by
    rw [List.map_cons, W.all]
    unfold W.seq
    have : (putAttr p.1 p.2 g).1 ≠ .crash := by
      cases g with
      | group as ls => simp only [putAttr]; split <;> exact fun h => nomatch h
      | data d => exact fun h => nomatch h
    revert this
    generalize putAttr p.1 p.2 g = x
    obtain ⟨x1, x2⟩ := x
    intro h
    cases x1 with
    | ok => exact all_ret l x2
    | _ => exact h

theorem groupsWriter_ret (g : Groups) (o : Obj) : (groupsWriter g o).1 ≠ .crash := by
  have := all_ret ((kIsMembership, .str [49]) :: g.map fun p => (p.1, .str p.2)) o
  rw [List.map_cons, List.map_map] at this
  exact this

/-- `writeGroupMembership` on the file beside. -/
theorem groups_step (C : MapIO M) {ex : List (Name × Obj)} {o : Out M} {o' : GOut M} (hx : OneMore ex) (B : Beside ex o o'.out) :
    ∃ r ex2 o2, o'.step C .writeGroups = (r, o2) ∧ r ≠ .crash ∧ OneMore ex2 ∧ Beside ex2 o o2.out ∧ o2.groups = o'.groups ∧
      (ex ≠ [] → ex2 = ex) ∧
      (ex = [] → o.isOpen = true → o'.groups ≠ [] → r = (groupsWriter o'.groups .new).1 ∧
        ex2 = [(kMembership, groupsObj o'.groups)]) := by
  have eo : o'.out.isOpen = o.isOpen := by rw [B.same]
  by_cases ho : o.isOpen = true
  · have st : o'.step C .writeGroups = ((writeGroups o'.groups o'.out.root).1,
        { o' with out := { o'.out with root := (writeGroups o'.groups o'.out.root).2 } }) := by
      simp only [GOut.step]
      rw [if_pos (eo.trans ho)]
    by_cases hg : o'.groups = []
    · have e : writeGroups o'.groups o'.out.root = (.ok, o'.out.root) := by unfold writeGroups; rw [if_pos hg]
      rw [e] at st
      exact ⟨_, ex, _, st, by simp, hx, B, rfl, fun _ => rfl, fun _ _ h => absurd hg h⟩
    · rcases hx with rfl | ⟨G, rfl⟩
      · obtain ⟨e1, e2⟩ := writeGroups_first o'.groups hg B.root
        exact ⟨_, _, _, st, by rw [e1]; exact groupsWriter_ret _ _, .inr ⟨_, rfl⟩, beside_root B _ e2, rfl,
          fun h => absurd rfl h, fun _ _ _ => ⟨e1, rfl⟩⟩
      · have e := writeGroups_again o'.groups G B.root
        rw [e, if_neg hg] at st
        exact ⟨_, [(kMembership, G)], _, st, by simp, .inr ⟨G, rfl⟩, B, rfl, fun _ => rfl, fun h => absurd h (by simp)⟩
  · have st : o'.step C .writeGroups = (if o'.groups = [] then .ok else .failed, o') := by
      simp only [GOut.step]
      rw [if_neg (by rw [eo]; exact ho)]
    refine ⟨_, ex, o', st, ?_, hx, B, rfl, fun _ => rfl, fun _ h => absurd h ho⟩
    split <;> exact fun h => nomatch h

theorem groups_state (C : MapIO M) {o : GOut M} {c : GCall M} : (o.step C c).2.groups = match c with
    | .add g => o.groups.add g
    | _ => o.groups := by
  cases c with
  | file c => rfl
  | add g => rfl
  | writeGroups => simp only [GOut.step]; split <;> rfl

/-- The calls of a session with groups. -/
def GSession (cs : List (GCall M)) : Prop := ∀ c, GCall.file c ∈ cs → (∃ w, c = .write w) ∨ ∃ m, c = .global m

theorem gsession_tail {c : GCall M} {cs : List (GCall M)} (h : GSession (c :: cs)) : GSession cs := fun d hd => h d (by simp [hd])

/-- The names of partitions and layers are one step. -/
def GNames (cs : List (GCall M)) : Prop :=
  ∀ w, GCall.file (.write w) ∈ cs → Step w.layer ∧ (47 : UInt8) ∉ w.part ∧ (0 : UInt8) ∉ w.part

theorem alike_file (C : MapIO M) {c : Call M} (hs : (∃ w, c = .write w) ∨ ∃ m, c = .global m)
    (hn : ∀ w, c = .write w → Step w.layer ∧ (47 : UInt8) ∉ w.part ∧ (0 : UInt8) ∉ w.part) {ex : List (Name × Obj)}
    {o o' : Out M} (B : Beside ex o o') : Alike ex (o.step C c) (o'.step C c) := by
  rcases hs with ⟨w, rfl⟩ | ⟨m, rfl⟩
  · obtain ⟨h1, h2, h3⟩ := hn w rfl
    exact alike_write C w h1 h2 h3 B
  · exact alike_global m B

/-- A session with groups does what it does without them, beside the groups. -/
theorem run_beside (C : MapIO M) : ∀ (cs : List (GCall M)) (ex : List (Name × Obj)) (o : Out M) (o' : GOut M), OneMore ex →
    Beside ex o o'.out → GSession cs → GNames cs → ∀ rs o1, o.run C (fileCallsOf cs) = some (rs, o1) →
    ∃ rs' o1' ex', o'.run C cs = some (rs', o1') ∧ fileResultsOf cs rs' = rs ∧ OneMore ex' ∧ Beside ex' o1 o1'.out ∧
      rs'.length = cs.length ∧ (ex ≠ [] → ex' = ex)
  | [], ex, o, o', hx, B, _, _, rs, o1, h => by
    simp only [fileCallsOf, Out.run, Option.some.injEq, Prod.mk.injEq] at h
    obtain ⟨rfl, rfl⟩ := h
    exact ⟨[], o', ex, rfl, rfl, hx, B, rfl, fun _ => rfl⟩
  | .file c :: cs, ex, o, o', hx, B, hs, hn, rs, o1, h => by
    have k := alike_file C (hs c (by simp)) (fun w e => hn w (by simp [e])) B
    rw [fileCallsOf, Out.run] at h
    rw [GOut.run, GOut.step]
    revert h
    revert k
    generalize o.step C c = x
    generalize o'.out.step C c = y
    obtain ⟨x1, x2⟩ := x
    obtain ⟨y1, y2⟩ := y
    rintro ⟨e, B1⟩
    simp only at e B1
    subst e
    have main : ∀ rs o1, x2.run C (fileCallsOf cs) = some (rs, o1) → ∃ rs' o1' ex',
        (({ o' with out := y2 } : GOut M).run C cs) = some (rs', o1') ∧ fileResultsOf cs rs' = rs ∧ OneMore ex' ∧
          Beside ex' o1 o1'.out ∧ rs'.length = cs.length ∧ (ex ≠ [] → ex' = ex) := fun rs o1 h =>
      run_beside C cs ex x2 { o' with out := y2 } hx B1 (gsession_tail hs) (fun w hw => hn w (by simp [hw])) rs o1 h
    intro h
    cases x1 with
    | crash => simp at h
    | _ =>
      simp only [Option.map_eq_some_iff] at h
      obtain ⟨⟨rs0, o0⟩, h0, h1⟩ := h
      simp only [Prod.mk.injEq] at h1
      obtain ⟨rfl, rfl⟩ := h1
      obtain ⟨rs', o1', ex', e1, e2, e3, e4, e5, e6⟩ := main rs0 _ h0
      exact ⟨_, o1', ex', by simp only [e1, Option.map_some]; rfl, by rw [fileResultsOf, e2], e3, e4, by simp [e5], e6⟩
  | .add g :: cs, ex, o, o', hx, B, hs, hn, rs, o1, h => by
    obtain ⟨rs', o1', ex', e1, e2, e3, e4, e5, e6⟩ := run_beside C cs ex o { o' with groups := o'.groups.add g } hx B
      (gsession_tail hs) (fun w hw => hn w (by simp [hw])) rs o1 h
    exact ⟨_, o1', ex', by rw [GOut.run, GOut.step]; simp only [e1, Option.map_some]; rfl, by rw [← e2]; rfl, e3, e4,
      by simp [e5], e6⟩
  | .writeGroups :: cs, ex, o, o', hx, B, hs, hn, rs, o1, h => by
    obtain ⟨r, ex2, o2, s1, s2, s3, s4, -, s5, -⟩ := groups_step C hx B
    obtain ⟨rs', o1', ex', e1, e2, e3, e4, e5, e6⟩ := run_beside C cs ex2 o o2 s3 s4
      (gsession_tail hs) (fun w hw => hn w (by simp [hw])) rs o1 h
    refine ⟨r :: rs', o1', ex', ?_, by rw [← e2]; rfl, e3, e4, by simp [e5], ?_⟩
    · rw [GOut.run, s1]
      cases r <;> first | exact absurd rfl s2 | simp only [e1, Option.map_some]
    · intro hne
      rw [← s5 hne]
      exact e6 (by rw [s5 hne]; exact hne)

end Hdf5
end F3D
