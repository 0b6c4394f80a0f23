import Verif.Model.Hdf5Files
import Verif.Proofs.Hdf5
import Verif.Proofs.FilesRead

/-! Lemmas about HDF5 files: paths, and what the output object and the file have in them after any calls. -/

namespace F3D
namespace Hdf5
open Ogawa Og FieldIO
open MappingIO (kMapping)
open Metadata (Dict Meta)
open Files (kGlobal kVersionNumber kClassName kIsPartition kClassType kLayerText kMetadata removeUniqueId intName nextIndex
  Listing Loaded FieldClass layerPath collect Home nextOf ofUser)

/-! ## Paths -/

theorem splitSlash_plain : ∀ s : Name, (47 : UInt8) ∉ s → splitSlash s = [s]
  | [], _ => rfl
  | c :: r, h => by
    have hc : c ≠ 47 := fun e => h (by simp [e])
    rw [splitSlash, if_neg hc, splitSlash_plain r (fun e => h (by simp [e]))]

theorem splitSlash_join : ∀ (a b : Name), (47 : UInt8) ∉ a → splitSlash (a ++ 47 :: b) = a :: splitSlash b
  | [], b, _ => by simp [splitSlash]
  | c :: r, b, h => by
    have hc : c ≠ 47 := fun e => h (by simp [e])
    rw [List.cons_append, splitSlash, if_neg hc, splitSlash_join r b (fun e => h (by simp [e]))]

theorem cstr_plain (s : Name) (h : (0 : UInt8) ∉ s) : cstr s = s := by
  unfold cstr
  induction s with
  | nil => rfl
  | cons c r ih =>
    rw [List.mem_cons, not_or] at h
    rw [List.takeWhile_cons_of_pos (by simpa using Ne.symm h.1), ih h.2]

/-- One step. -/
structure Step (s : Name) : Prop where
  ne : s ≠ []
  dot : s ≠ [46]
  slash : (47 : UInt8) ∉ s
  nul : (0 : UInt8) ∉ s

theorem steps_plain {s : Name} (h : Step s) : steps s = [s] := by
  unfold steps
  rw [cstr_plain s h.nul, splitSlash_plain s h.slash]
  simp [h.ne, h.dot]

theorem locate_plain {s : Name} (h : Step s) (base : List Name) : locate base s = base ++ [s] := by
  unfold locate
  rw [steps_plain h, if_neg]
  rw [cstr_plain s h.nul]
  intro e
  apply h.slash
  cases s with
  | nil => simp at e
  | cons c r => simp at e; simp [e]

theorem step_int (u : Name) (k : Nat) (h1 : (47 : UInt8) ∉ u) (h2 : (0 : UInt8) ∉ u) : Step (intName u k) where
  ne := by simp [intName]
  dot := by
    intro e
    have h := congrArg List.length e
    have hd : 0 < (MappingIO.decimal k).length := by
      unfold MappingIO.decimal ascii
      rw [List.length_map]
      exact Nat.length_toDigits_pos
    unfold intName at h
    simp only [List.length_append, List.length_cons, List.length_nil] at h
    omega
  slash := fun h => h1 ((Files.slash_intName u k).1 h)
  nul := fun h => h2 ((Files.mem_intName 0 u k (by decide)).1 h)

/-! ## Links -/

theorem named_set {T : Type} {n : Name} {x : T} (v : T) : ∀ {ls : List (Name × T)}, named n ls = some x →
    named n (setNamed n v ls) = some v
  | [], h => by simp [named] at h
  | p :: ps, h => by
    rw [named] at h
    rw [setNamed]
    split
    · simp [named]
    · rename_i hp
      rw [if_neg hp] at h
      rw [named, if_neg hp, named_set v h]

theorem set_set {T : Type} (n : Name) (a b : T) : ∀ ls : List (Name × T), setNamed n b (setNamed n a ls) = setNamed n b ls
  | [] => rfl
  | p :: ps => by
    by_cases hp : p.1 = n
    · simp [setNamed, hp]
    · simp [setNamed, hp, set_set n a b ps]

theorem set_self {T : Type} {n : Name} {v : T} : ∀ {ls : List (Name × T)}, named n ls = some v → setNamed n v ls = ls
  | [], _ => rfl
  | p :: ps, h => by
    rw [named] at h
    rw [setNamed]
    split
    · rename_i hp
      rw [if_pos hp] at h
      cases h
      rw [← hp]
    · rename_i hp
      rw [if_neg hp] at h
      rw [set_self h]

theorem set_last {T : Type} {n : Name} (a b : T) : ∀ {ls : List (Name × T)}, named n ls = none →
    setNamed n b (ls ++ [(n, a)]) = ls ++ [(n, b)]
  | [], _ => by simp [setNamed]
  | p :: ps, h => by
    rw [named] at h
    split at h
    · simp at h
    · rename_i hp
      rw [List.cons_append, setNamed, if_neg hp, set_last a b h]; rfl

theorem named_last {T : Type} {n : Name} (a : T) {ls : List (Name × T)} (h : named n ls = none) :
    named n (ls ++ [(n, a)]) = some a := by
  rw [named_append_none h]; simp [named]

theorem named_none {T : Type} {n : Name} : ∀ {ls : List (Name × T)}, named n ls = none ↔ ∀ p ∈ ls, p.1 ≠ n
  | [] => by simp [named]
  | p :: ps => by
    rw [named]
    split
    · rename_i hp; simp [hp]
    · rename_i hp
      rw [named_none (ls := ps)]
      simp [hp]

theorem named_mem {T : Type} {n : Name} {v : T} : ∀ {ls : List (Name × T)}, named n ls = some v → (n, v) ∈ ls
  | [], h => by simp [named] at h
  | p :: ps, h => by
    rw [named] at h
    split at h
    · rename_i hp
      cases h
      rw [← hp]; exact List.mem_cons_self
    · exact List.mem_cons_of_mem _ (named_mem h)

theorem mem_named {T : Type} {n : Name} {v : T} : ∀ {ls : List (Name × T)}, (ls.map (·.1)).Nodup → (n, v) ∈ ls →
    named n ls = some v
  | [], _, h => by simp at h
  | p :: ps, hn, h => by
    rw [List.map_cons, List.nodup_cons] at hn
    rw [named]
    rw [List.mem_cons] at h
    rcases h with rfl | h
    · simp
    · rw [if_neg, mem_named hn.2 h]
      rintro rfl
      exact hn.1 (List.mem_map.2 ⟨_, h, rfl⟩)

theorem set_split {T : Type} (n : Name) (a b : T) (pre post : List (Name × T)) (h : ∀ p ∈ pre, p.1 ≠ n) :
    setNamed n b (pre ++ (n, a) :: post) = pre ++ (n, b) :: post := by
  induction pre with
  | nil => simp [setNamed]
  | cons p pre ih =>
    rw [List.cons_append, setNamed, if_neg (h p (by simp)), ih (fun q hq => h q (by simp [hq]))]; rfl

theorem map_set {T : Type} (n : Name) (v : T) : ∀ ls : List (Name × T), (setNamed n v ls).map (·.1) = ls.map (·.1)
  | [] => rfl
  | p :: ps => by
    rw [setNamed]
    split
    · rename_i hp; simp [hp]
    · rw [List.map_cons, map_set n v ps]; rfl

/-! ## Groups -/

theorem inside_one (n : Name) (w : W) (as : List (Name × Attr)) (ls : List (Name × Obj)) (k : Obj)
    (h : named n ls = some k) : inside [n] w (.group as ls) = ((w k).1, .group as (setNamed n (w k).2 ls)) := by
  simp only [inside, h]

theorem inside_two (n l : Name) (w : W) (as : List (Name × Attr)) (ls : List (Name × Obj)) (pas : List (Name × Attr))
    (pls : List (Name × Obj)) (k : Obj) (h : named n ls = some (.group pas pls)) (hl : named l pls = some k) :
    inside [n, l] w (.group as ls) =
      ((w k).1, .group as (setNamed n (.group pas (setNamed l (w k).2 pls)) ls)) := by
  simp only [inside, h, hl]

theorem make_root {n : Name} (hs : Step n) (as : List (Name × Attr)) (ls : List (Name × Obj)) :
    makeGroup [] n (.group as ls) =
      if (named n ls).isSome then (.failed, .group as ls) else (.ok, .group as (ls ++ [(n, .new)])) := by
  unfold makeGroup
  rw [locate_plain hs, steps_plain hs]
  simp only [List.nil_append, List.getLast?_singleton, List.dropLast_singleton, inside]
  rw [if_neg (by simp)]
  rfl

theorem make_child {n l : Name} (hl : Step l) (as : List (Name × Attr)) (ls : List (Name × Obj))
    (pas : List (Name × Attr)) (pls : List (Name × Obj)) (h : named n ls = some (.group pas pls)) :
    makeGroup [n] l (.group as ls) =
      if (named l pls).isSome then (.failed, .group as ls)
      else (.ok, .group as (setNamed n (.group pas (pls ++ [(l, .new)])) ls)) := by
  unfold makeGroup
  rw [locate_plain hl, steps_plain hl]
  have e1 : ([n] ++ [l]).getLast? = some l := rfl
  have e2 : ([n] ++ [l]).dropLast = [n] := rfl
  rw [e1, e2]
  simp only
  rw [if_neg (by simp), inside_one n _ as ls _ h]
  simp only [putGroup]
  split
  · rw [set_self h]
  · rfl

theorem add_child {n l : Name} (hl : Step l) (w : W) (as : List (Name × Attr)) (ls : List (Name × Obj))
    (pas : List (Name × Attr)) (pls : List (Name × Obj)) (h : named n ls = some (.group pas pls)) :
    (makeGroup [n] l ⨾ inside [n, l] w) (.group as ls) =
      if (named l pls).isSome then (.failed, .group as ls)
      else ((w .new).1, .group as (setNamed n (.group pas (pls ++ [(l, (w .new).2)])) ls)) := by
  have hm := make_child hl as ls pas pls h
  by_cases ht : (named l pls).isSome
  · rw [if_pos ht] at hm ⊢
    unfold W.seq
    rw [hm]
  · rw [if_neg ht] at hm ⊢
    have hnone : named l pls = none := by simpa using ht
    rw [seq_ok hm, inside_two n l w as _ pas _ .new (named_set _ h) (named_last _ hnone), set_set, set_last _ _ hnone]

/-! ## What is where -/

variable {M : Type}

/-- The write that a file of the other format would get. -/
def tag (w : Write M) : Files.Write (Write M) := ⟨w.part, w.layer, w, [], []⟩

/-- Its mappings: whole writes. -/
def inner (C : MapIO M) : Files.MapIO (Write M) := ⟨fun a b => C.ident a.mapping b.mapping, fun _ => (true, [])⟩

abbrev Homes (M : Type) := List (Home (Write M))

def layersIn (v : Bool) (h : Home (Write M)) : List Name := (h.writes.filter fun f => f.mapping.isVec = v).map (·.layer)

def rend (h : Home (Write M)) : Part M := ⟨intName h.user h.idx, some h.mapping.mapping, layersIn false h, layersIn true h⟩

def mapObj (C : MapIO M) (m : M) : Obj := (C.write m .new).2
def layerObj (w : Write M) : Obj := (layerWriter w .new).2
def partLinks (C : MapIO M) (h : Home (Write M)) : List (Name × Obj) :=
  (kMapping, mapObj C h.mapping.mapping) :: h.writes.map fun f => (f.layer, layerObj f.mapping)
def partAttrs : List (Name × Attr) := [(kIsPartition, .str [49])]
def partObj (C : MapIO M) (h : Home (Write M)) : Obj := .group partAttrs (partLinks C h)
def linkOf (C : MapIO M) (h : Home (Write M)) : Name × Obj := (intName h.user h.idx, partObj C h)
def globObj (m : Meta) : Obj := (writeMeta m .new).2

/-- The object of the other format in the same state. -/
def shadow (C : MapIO M) (hs : Homes M) (count : Dict Nat) : Files.Out (Write M) :=
  ⟨true, .entry Files.versionEntry :: hs.map fun h => .part (Files.render (inner C) h), count⟩

def verAttrs : List (Name × Attr) := [(kVersionNumber, .ints [1, 7, 3])]

/-- The state after some writes `ws` that succeeded, out of `cs`. -/
structure Sim (C : MapIO M) (cs : List (Write M)) (o : Out M) (hs : Homes M) (ws : List (Write M)) (gm : Option Meta) :
    Prop where
  isOpen : o.isOpen = true
  parts : o.parts = hs.map rend
  inv : Files.Inv (inner C) (fun _ => 0) (cs.map fun w => .write (tag w)) (shadow C hs o.count) hs (ws.map tag)
  root : ∃ ls, o.root = .group verAttrs ls ∧ (ls.map (·.1)).Nodup ∧
    (ls.filter fun p => p.1 ≠ kGlobal) = hs.map (linkOf C) ∧ named kGlobal ls = gm.map globObj

/-- A write whose names are single steps, and whose mapping and field can be written. -/
structure Ok (C : MapIO M) (w : Write M) : Prop where
  slash : (47 : UInt8) ∉ w.part
  nul : (0 : UInt8) ∉ w.part
  layer : Step w.layer
  mapping : (C.write w.mapping .new).1 = .ok
  body : (layerWriter w .new).1 = .ok

theorem sim_new (C : MapIO M) (cs : List (Write M)) : Sim C cs ((Out.new : Out M).create true) [] [] none where
  isOpen := rfl
  parts := rfl
  inv := Files.inv_create (inner C) _ (Files.Out.new)
  root := ⟨[], rfl, by simp, rfl, rfl⟩

theorem matching_eq (C : MapIO M) (u : Name) (w : Write M) : ∀ hs : Homes M,
    matching C u w.mapping (hs.map rend) = Files.matching (inner C) u w (hs.map (Files.render (inner C)))
  | [] => rfl
  | h :: hs => by
    rw [List.map_cons, List.map_cons, matching, Files.matching, matching_eq C u w hs]
    rfl

theorem findPart_split (n : Name) (f : Part M → Part M) : ∀ (hs : Homes M) (p : Part M),
    findPart n (hs.map rend) = some p → ∃ pre h post, hs = pre ++ h :: post ∧ p = rend h ∧ intName h.user h.idx = n ∧
      (∀ k ∈ pre, intName k.user k.idx ≠ n) ∧ change n f (hs.map rend) = pre.map rend ++ f (rend h) :: post.map rend
  | [], p, h => by simp [findPart] at h
  | k :: hs, p, h => by
    rw [List.map_cons, findPart] at h
    split at h
    · rename_i e
      cases h
      exact ⟨[], k, hs, rfl, rfl, e, by simp, by rw [List.map_cons, change, if_pos e]; rfl⟩
    · rename_i e
      obtain ⟨pre, h', post, e1, e2, e3, e4, e5⟩ := findPart_split n f hs p h
      refine ⟨k :: pre, h', post, by rw [e1]; rfl, e2, e3, ?_, ?_⟩
      · intro x hx
        rw [List.mem_cons] at hx
        rcases hx with rfl | hx
        · exact e
        · exact e4 x hx
      · rw [List.map_cons, change, if_neg e, e5]; rfl

theorem findPart_none' {n : Name} : ∀ {hs : Homes M}, findPart n (hs.map rend) = none ↔ ∀ h ∈ hs, intName h.user h.idx ≠ n
  | [] => by simp [findPart]
  | k :: hs => by
    rw [List.map_cons, findPart]
    split
    · rename_i e
      constructor
      · intro h; simp at h
      · intro h; exact absurd e (h k (by simp))
    · rename_i e
      rw [findPart_none']
      simp only [List.mem_cons, forall_eq_or_imp]
      exact ⟨fun h => ⟨e, h⟩, fun h => h.2⟩

theorem home_tag {C : MapIO M} {cs o hs ws gm} (S : Sim C cs o hs ws gm) (h : Home (Write M)) (hh : h ∈ hs)
    (f : Files.Write (Write M)) (hf : f ∈ h.writes) : f.mapping ∈ ws ∧ f = tag f.mapping := by
  have : f ∈ ws.map tag := S.inv.perm.mem_iff.1 (List.mem_flatMap.2 ⟨h, hh, hf⟩)
  obtain ⟨w, hw, rfl⟩ := List.mem_map.1 this
  exact ⟨hw, rfl⟩

theorem home_named {C : MapIO M} {hs : Homes M} {ls : List (Name × Obj)}
    (hn : (ls.map (·.1)).Nodup) (hl : (ls.filter fun p => p.1 ≠ kGlobal) = hs.map (linkOf C)) (h : Home (Write M))
    (hh : h ∈ hs) : named (intName h.user h.idx) ls = some (partObj C h) := by
  apply mem_named hn
  have : linkOf C h ∈ ls.filter fun p => p.1 ≠ kGlobal := by rw [hl]; exact List.mem_map_of_mem hh
  exact (List.mem_filter.1 this).1

theorem name_free {C : MapIO M} {hs : Homes M} {ls : List (Name × Obj)}
    (hl : (ls.filter fun p => p.1 ≠ kGlobal) = hs.map (linkOf C)) (u : Name) (k : Nat)
    (hf : ∀ h ∈ hs, intName h.user h.idx ≠ intName u k) : named (intName u k) ls = none := by
  rw [named_none]
  intro p hp e
  have : p ∈ ls.filter fun p => p.1 ≠ kGlobal := by
    rw [List.mem_filter]
    refine ⟨hp, ?_⟩
    simp only [ne_eq, decide_not, Bool.not_eq_true', decide_eq_false_iff_not]
    rw [e]; exact Files.intName_ne_global u k
  rw [hl] at this
  obtain ⟨h, hh, rfl⟩ := List.mem_map.1 this
  exact hf h hh e

/-! ## Steps -/

theorem change_last {n : Name} (f : Part M → Part M) (p : Part M) (hp : p.name = n) : ∀ {l : List (Part M)},
    findPart n l = none → change n f (l ++ [p]) = l ++ [f p]
  | [], _ => by simp [change, hp]
  | q :: l, h => by
    rw [findPart] at h
    split at h
    · simp at h
    · rename_i hq
      rw [List.cons_append, change, if_neg hq, change_last f p hp h]; rfl

theorem findPart_last {n : Name} (p : Part M) (hp : p.name = n) : ∀ {l : List (Part M)},
    findPart n l = none → findPart n (l ++ [p]) = some p
  | [], _ => by simp [findPart, hp]
  | q :: l, h => by
    rw [findPart] at h
    split at h
    · simp at h
    · rename_i hq
      rw [List.cons_append, findPart, if_neg hq, findPart_last p hp h]

theorem change_new {n : Name} (f : Part M → Part M) (m s v) {l : List (Part M)} (h : findPart n l = none) :
    change n f (l ++ [⟨n, m, s, v⟩]) = l ++ [f ⟨n, m, s, v⟩] :=
  change_last (n := n) f ⟨n, m, s, v⟩ rfl h

theorem findPart_new {n : Name} (m s v) {l : List (Part M)} (h : findPart n l = none) :
    findPart n (l ++ [⟨n, m, s, v⟩]) = some ⟨n, m, s, v⟩ :=
  findPart_last (n := n) ⟨n, m, s, v⟩ rfl h

theorem step_mapping : Step kMapping := ⟨by decide, by decide, by decide, by decide⟩

theorem createPart_ok (C : MapIO M) (n : Name) (hn : Step n) (m : M) (o : Out M) (as : List (Name × Attr))
    (ls : List (Name × Obj)) (hr : o.root = .group as ls) (hf : named n ls = none) (hm : (C.write m .new).1 = .ok)
    (hp : findPart n o.parts = none) :
    createPart C n m o = (.ok, { o with
      root := .group as (ls ++ [(n, .group partAttrs [(kMapping, mapObj C m)])]),
      parts := o.parts ++ [⟨n, some m, [], []⟩] }) := by
  unfold createPart
  rw [hr, make_root hn as ls, if_neg (by simp [hf])]
  simp only [locate_plain hn, List.nil_append]
  have h1 : writeMapping C [n] m (.group as (ls ++ [(n, .new)])) =
      (.ok, .group as (ls ++ [(n, .group [] [(kMapping, mapObj C m)])])) := by
    unfold writeMapping
    refine (add_child step_mapping (C.write m) as _ [] [] (named_last _ hf)).trans ?_
    rw [if_neg (by simp [named]), hm, set_last _ _ hf]
    rfl
  rw [h1]
  simp only
  rw [inside_one n _ as _ _ (named_last _ hf)]
  have h2 : putAttr kIsPartition (.str [49]) (.group [] [(kMapping, mapObj C m)]) =
      (.ok, .group partAttrs [(kMapping, mapObj C m)]) := by
    simp only [putAttr]
    rw [if_neg (by decide)]
    rfl
  rw [h2]
  simp only
  rw [set_last _ _ hf, change_new _ _ _ _ hp]

theorem sim_push {C : MapIO M} {cs o hs ws gm} (S : Sim C cs o hs ws gm) (w : Write M) (K : Ok C w) (hw : w ∈ cs)
    (fs : List (Files.Write (Write M))) (o' : Out M) (ls : List (Name × Obj))
    (hn : (ls.map (·.1)).Nodup) (hl : (ls.filter fun p => p.1 ≠ kGlobal) = hs.map (linkOf C))
    (hg : named kGlobal ls = gm.map globObj) (h : Home (Write M)) (hh : h = ⟨w.part, nextOf o.count w.part, w, fs⟩)
    (hfs : fs = [] ∨ (fs = [tag w] ∧ C.ident w.mapping w.mapping = true ∧
      ((∃ k ∈ hs, Files.matching (inner C) w.part w (hs.map (Files.render (inner C))) =
          some (some (Files.render (inner C) k).name) ∧ w.layer ∈ k.writes.map (·.layer)) ∨
        Files.matching (inner C) w.part w (hs.map (Files.render (inner C))) = some none)))
    (hnf : named (intName w.part (nextOf o.count w.part)) ls = none)
    (ho : o' = { o with
      count := (nextIndex w.part o.count).2
      root := .group verAttrs (ls ++ [linkOf C h])
      parts := o.parts ++ [rend h] }) :
    Sim C cs o' (hs ++ [h]) (ws ++ fs.map (·.mapping)) gm where
  isOpen := by rw [ho]; exact S.isOpen
  parts := by rw [ho]; simp [S.parts]
  inv := by
    have hwr : h.writes = fs := by rw [hh]
    have e : (ws ++ fs.map (·.mapping)).map tag = ws.map tag ++ h.writes := by
      rw [List.map_append, hwr]
      rcases hfs with rfl | ⟨rfl, _⟩ <;> rfl
    rw [e]
    refine Files.inv_push S.inv w.part K.slash w _ h (by rw [hh]; rfl) (by rw [hh]) ?_ ⟨tag w, ?_, rfl, rfl⟩ ?_
    · rw [ho]; simp [shadow]
    · exact List.mem_map.2 ⟨w, hw, rfl⟩
    · rw [hwr]
      rcases hfs with rfl | ⟨rfl, hi, hm⟩
      · exact .inl rfl
      · exact .inr ⟨tag w, rfl, rfl, rfl, K.layer.slash, hi, rfl, hm⟩
  root := by
    have hk : (linkOf C h).1 = intName w.part (nextOf o.count w.part) := by rw [hh]; rfl
    have hng : (linkOf C h).1 ≠ kGlobal := by rw [hk]; exact Files.intName_ne_global _ _
    refine ⟨ls ++ [linkOf C h], by rw [ho], ?_, ?_, ?_⟩
    · rw [List.map_append, List.map_singleton, List.nodup_append]
      refine ⟨hn, by simp, ?_⟩
      intro a ha b hb
      rw [List.mem_singleton] at hb
      obtain ⟨p, hp, rfl⟩ := List.mem_map.1 ha
      rw [hb, hk]
      exact named_none.1 hnf p hp
    · rw [List.filter_append, hl, List.map_append]
      congr 1
      rw [List.filter_cons, if_pos (by simpa using hng)]
      rfl
    · rw [named_append, hg]
      have : named kGlobal [linkOf C h] = none := by rw [named_none]; simpa using hng
      rw [this, Option.or_none]

/-- A write into a new partition. -/
theorem sim_addNew {C : MapIO M} {cs o hs ws gm} (S : Sim C cs o hs ws gm) (w : Write M) (K : Ok C w) (hw : w ∈ cs)
    (hm : (∃ k ∈ hs, Files.matching (inner C) w.part w (hs.map (Files.render (inner C))) =
          some (some (Files.render (inner C) k).name) ∧ w.layer ∈ k.writes.map (·.layer)) ∨
        Files.matching (inner C) w.part w (hs.map (Files.render (inner C))) = some none) :
    ∃ hs' r o', addNew C w (intName w.part (nextIndex w.part o.count).1)
        { o with count := (nextIndex w.part o.count).2 } = (r, o') ∧
      ((r = .ok ∧ Sim C cs o' hs' (ws ++ [w]) gm ∧ w.layer ≠ kMapping) ∨
        (r = .failed ∧ Sim C cs o' hs' ws gm ∧ (w.layer = kMapping ∨ C.ident w.mapping w.mapping = false))) := by
  obtain ⟨ls, hr, hn, hl, hg⟩ := S.root
  rw [Files.nextIndex_fst]
  have hfr := Files.fresh S.inv w.part
  have hfr' : ∀ h ∈ hs, intName h.user h.idx ≠ intName w.part (nextOf o.count w.part) := by
    intro h hh e
    obtain ⟨h1, h2⟩ := Files.intName_inj e
    exact hfr h hh (by rw [Home.key, h1, h2]; rfl)
  have hnf := name_free hl w.part (nextOf o.count w.part) hfr'
  have hp : findPart (intName w.part (nextOf o.count w.part)) o.parts = none := by
    rw [S.parts, findPart_none']; exact hfr'
  have hst := step_int w.part (nextOf o.count w.part) K.slash K.nul
  unfold addNew
  rw [createPart_ok C _ hst w.mapping { o with count := (nextIndex w.part o.count).2 } verAttrs ls hr hnf K.mapping hp]
  simp only
  unfold addLayer
  simp only
  rw [findPart_new _ _ _ hp]
  simp only
  have S0 := sim_push S w K hw [] _ ls hn hl hg _ rfl (.inl rfl) hnf rfl
  rw [List.map_nil, List.append_nil] at S0
  by_cases hi : C.ident w.mapping w.mapping = true
  · rw [if_pos hi, locate_plain hst, List.nil_append, locate_plain K.layer]
    have hadd := add_child (n := intName w.part (nextOf o.count w.part)) K.layer (layerWriter w) verAttrs
      (ls ++ [(intName w.part (nextOf o.count w.part), .group partAttrs [(kMapping, mapObj C w.mapping)])])
      partAttrs [(kMapping, mapObj C w.mapping)] (named_last _ hnf)
    have e2 : [intName w.part (nextOf o.count w.part)] ++ [w.layer] = [intName w.part (nextOf o.count w.part), w.layer] := rfl
    rw [e2, hadd]
    by_cases hmap : w.layer = kMapping
    · rw [if_pos (by rw [hmap]; simp [named])]
      exact ⟨_, _, _, rfl, .inr ⟨rfl, S0, .inl hmap⟩⟩
    · rw [if_neg (by simp [named, Ne.symm hmap]), K.body]
      simp only
      refine ⟨hs ++ [⟨w.part, nextOf o.count w.part, w, [tag w]⟩], _, _, rfl, .inl ⟨rfl, ?_, hmap⟩⟩
      refine sim_push S w K hw [tag w] _ ls hn hl hg _ rfl (.inr ⟨rfl, hi, hm⟩) hnf ?_
      rw [set_last _ _ hnf, change_new _ _ _ _ hp]
      simp only [linkOf, partObj, partLinks, rend, layersIn, tag, Part.add, layerObj, List.map_cons, List.map_nil]
      cases hv : w.isVec <;> simp [List.filter, hv]
  · rw [if_neg hi]
    exact ⟨_, _, _, rfl, .inr ⟨rfl, S0, .inr (by simpa using hi)⟩⟩

theorem parts_map (C : Files.MapIO (Write M)) : ∀ hs : Homes M,
    Files.partsOf (hs.map fun h => Files.Slot.part (Files.render C h)) = hs.map (Files.render C)
  | [] => rfl
  | h :: hs => by
    have := parts_map C hs
    unfold Files.partsOf at this ⊢
    rw [List.map_cons, List.filterMap_cons]
    simp only [Files.Slot.part?]
    rw [this]; rfl

theorem filter_set {T : Type} (n g : Name) (v : T) (hg : n ≠ g) : ∀ ls : List (Name × T),
    ((setNamed n v ls).filter fun p => p.1 ≠ g) = setNamed n v (ls.filter fun p => p.1 ≠ g)
  | [] => rfl
  | p :: ps => by
    rw [setNamed]
    by_cases hp : p.1 = n
    · rw [if_pos hp, List.filter_cons_of_pos (by simpa using hg), List.filter_cons_of_pos (by simpa [hp] using hg),
        setNamed, if_pos hp]
    · rw [if_neg hp]
      by_cases h2 : p.1 = g
      · rw [List.filter_cons_of_neg (by simpa using h2), List.filter_cons_of_neg (by simpa using h2), filter_set n g v hg ps]
      · rw [List.filter_cons_of_pos (by simpa using h2), List.filter_cons_of_pos (by simpa using h2), setNamed, if_neg hp,
          filter_set n g v hg ps]

theorem named_set_ne {T : Type} (n g : Name) (v : T) (hg : n ≠ g) : ∀ ls : List (Name × T),
    named g (setNamed n v ls) = named g ls
  | [] => rfl
  | p :: ps => by
    rw [setNamed]
    by_cases hp : p.1 = n
    · rw [if_pos hp, named, named, if_neg hg, if_neg (by rw [hp]; exact hg)]
    · rw [if_neg hp, named, named, named_set_ne n g v hg ps]

theorem matching_home {C : MapIO M} {u : Name} {w : Write M} {n : Name} : ∀ {hs : Homes M},
    matching C u w.mapping (hs.map rend) = some (some n) → ∃ h ∈ hs, intName h.user h.idx = n ∧ h.user = u := by
  intro hs h
  rw [matching_eq] at h
  obtain ⟨q, hq, hqn, hru, -⟩ := Files.matching_some _ _ _ _ _ h
  obtain ⟨h', hh, rfl⟩ := List.mem_map.1 hq
  refine ⟨h', hh, hqn, ?_⟩
  rw [← hru, ← hqn, Files.render_name, Files.remove_intName]

theorem matching_total {C : MapIO M} {u : Name} {m : M} : ∀ {hs : Homes M}, matching C u m (hs.map rend) ≠ none
  | [] => by simp [matching]
  | h :: hs => by
    rw [List.map_cons, matching]
    split
    · simp only [rend]
      split
      · simp
      · exact matching_total
    · exact matching_total

theorem has_iff (h : Home (Write M)) (v : Bool) (l : Name) : (rend h).has v l = true ↔ l ∈ layersIn v h := by
  cases v <;> simp [Part.has, rend]

/-- One write. -/
theorem sim_write {C : MapIO M} {cs o hs ws gm} (S : Sim C cs o hs ws gm) (w : Write M) (K : Ok C w) (hw : w ∈ cs) :
    ∃ hs' r o', writeLayer C w o = (r, o') ∧
      ((r = .ok ∧ Sim C cs o' hs' (ws ++ [w]) gm ∧ w.layer ≠ kMapping) ∨
        (r = .failed ∧ Sim C cs o' hs' ws gm ∧ (w.layer = kMapping ∨ C.ident w.mapping w.mapping = false ∨
          (∃ m, C.ident m w.mapping = true ∧ C.ident w.mapping m = false) ∨
          ∃ w' ∈ ws, w'.part = w.part ∧ w'.layer = w.layer ∧ w'.isVec ≠ w.isVec))) := by
  have weaken : ∀ {x : Ret × Out M}, (∃ hs' r o', x = (r, o') ∧
      ((r = .ok ∧ Sim C cs o' hs' (ws ++ [w]) gm ∧ w.layer ≠ kMapping) ∨
        (r = .failed ∧ Sim C cs o' hs' ws gm ∧ (w.layer = kMapping ∨ C.ident w.mapping w.mapping = false)))) →
      ∃ hs' r o', x = (r, o') ∧ ((r = .ok ∧ Sim C cs o' hs' (ws ++ [w]) gm ∧ w.layer ≠ kMapping) ∨
        (r = .failed ∧ Sim C cs o' hs' ws gm ∧ (w.layer = kMapping ∨ C.ident w.mapping w.mapping = false ∨
          (∃ m, C.ident m w.mapping = true ∧ C.ident w.mapping m = false) ∨
          ∃ w' ∈ ws, w'.part = w.part ∧ w'.layer = w.layer ∧ w'.isVec ≠ w.isVec))) := by
    rintro x ⟨hs', r, o', e, h | ⟨h1, h2, h3⟩⟩
    · exact ⟨hs', r, o', e, .inl h⟩
    · exact ⟨hs', r, o', e, .inr ⟨h1, h2, h3.elim .inl fun h => .inr (.inl h)⟩⟩
  unfold writeLayer
  rw [if_pos S.isOpen]
  split
  · rename_i hm
    rw [S.parts] at hm
    exact absurd hm matching_total
  · rename_i hm
    rw [S.parts, matching_eq] at hm
    simp only
    unfold writeTo
    have hfp : findPart (intName w.part (nextIndex w.part o.count).1) o.parts = none := by
      rw [S.parts, findPart_none', Files.nextIndex_fst]
      intro h hh e
      obtain ⟨h1, h2⟩ := Files.intName_inj e
      exact Files.fresh S.inv w.part h hh (by rw [Home.key, h1, h2]; rfl)
    simp only [hfp]
    exact weaken (sim_addNew S w K hw (.inr hm))
  · rename_i n hm
    rw [S.parts] at hm
    obtain ⟨h0, hh0, hn0, -⟩ := matching_home hm
    unfold writeTo
    split
    · rename_i hnone
      rw [S.parts] at hnone
      exact absurd hn0 (findPart_none'.1 hnone h0 hh0)
    · rename_i p hp'
      have hp := hp'
      rw [S.parts] at hp
      obtain ⟨pre, h, post, e1, e2, e3, e4, e5⟩ := findPart_split n (fun p => p.add w.isVec w.layer) hs p hp
      have hh : h ∈ hs := by rw [e1]; simp
      obtain ⟨h1, hh1, hn1, hu1⟩ := matching_home hm
      have hu : h.user = w.part := by
        rw [← hu1]; exact (Files.intName_inj (e3.trans hn1.symm)).1
      have hru : removeUniqueId n = w.part := by rw [← e3, Files.remove_intName, hu]
      have hm' : Files.matching (inner C) w.part w (hs.map (Files.render (inner C))) =
          some (some (Files.render (inner C) h).name) := by
        rw [← matching_eq, hm, Files.render_name, e3]
      split
      · rename_i hhas
        rw [hru]
        simp only
        refine weaken (sim_addNew S w K hw (.inl ⟨h, hh, hm', ?_⟩))
        rw [e2, has_iff] at hhas
        obtain ⟨f, hf, hfl⟩ := List.mem_map.1 hhas
        exact List.mem_map.2 ⟨f, (List.mem_filter.1 hf).1, hfl⟩
      · rename_i hhas
        rw [e2, has_iff] at hhas
        unfold addLayer
        rw [hp', e2]
        simp only [rend]
        split
        · rename_i hi
          obtain ⟨ls, hr, hn, hl, hg⟩ := S.root
          have hst := step_int w.part h.idx K.slash K.nul
          rw [← hu, e3] at hst
          rw [locate_plain hst, List.nil_append, locate_plain K.layer]
          have e6 : [n] ++ [w.layer] = [n, w.layer] := rfl
          have hnm := home_named hn hl h hh
          rw [e3] at hnm
          rw [e6, hr, add_child K.layer (layerWriter w) verAttrs ls partAttrs (partLinks C h) hnm, K.body]
          by_cases hx : (named w.layer (partLinks C h)).isSome = true
          · rw [if_pos hx]
            simp only
            refine ⟨hs, _, _, rfl, .inr ⟨rfl, ?_, ?_⟩⟩
            · rw [← hr]; exact S
            · obtain ⟨v, hv⟩ := Option.isSome_iff_exists.1 hx
              have hin := named_mem hv
              rw [partLinks, List.mem_cons] at hin
              rcases hin with hin | hin
              · exact .inl (congrArg Prod.fst hin)
              · obtain ⟨f, hf, hfe⟩ := List.mem_map.1 hin
                obtain ⟨g1, g2⟩ := home_tag S h hh f hf
                have hfl : f.layer = w.layer := congrArg Prod.fst hfe
                have hfp : f.part = h.user := (S.inv.fits h hh f hf).1
                refine .inr (.inr (.inr ⟨f.mapping, g1, ?_, ?_, ?_⟩))
                · have : f.part = f.mapping.part := by rw [g2]; rfl
                  rw [← this, hfp, hu]
                · have : f.layer = f.mapping.layer := by rw [g2]; rfl
                  rw [← this, hfl]
                · intro e
                  exact hhas (List.mem_map.2 ⟨f, List.mem_filter.2 ⟨hf, by simpa using e⟩, hfl⟩)
          · rw [if_neg hx]
            simp only
            have hxn : ∀ q ∈ partLinks C h, q.1 ≠ w.layer := named_none.1 (by simpa using hx)
            have hfree : w.layer ∉ h.writes.map (·.layer) := by
              intro hin
              obtain ⟨f, hf, hfl⟩ := List.mem_map.1 hin
              exact hxn (f.layer, layerObj f.mapping) (by
                rw [partLinks]
                exact List.mem_cons_of_mem _ (List.mem_map.2 ⟨f, hf, rfl⟩)) hfl
            refine ⟨pre ++ { h with writes := h.writes ++ [tag w] } :: post, _, _, rfl,
              .inl ⟨rfl, ?_, fun e => hxn _ (by rw [partLinks]; exact List.mem_cons_self) e.symm⟩⟩
            have hpart : ({ h with writes := h.writes ++ [tag w] } : Home (Write M)) =
                { h with writes := h.writes ++ [tag w] } := rfl
            generalize hh' : ({ h with writes := h.writes ++ [tag w] } : Home (Write M)) = h' at hpart
            have hk : intName h'.user h'.idx = n := by rw [← hh']; exact e3
            have hlo : linkOf C h' = (n, .group partAttrs (partLinks C h ++ [(w.layer, (layerWriter w .new).2)])) := by
              rw [linkOf, hk, partObj, ← hh']
              simp [partLinks, tag, layerObj]
            refine ⟨S.isOpen, ?_, ?_, ?_⟩
            · simp only
              rw [S.parts, e5]
              simp only [List.map_append, List.map_cons]
              congr 2
              rw [← hh']
              cases hv : w.isVec <;> simp [rend, layersIn, Part.add, tag, hv]
            · have I := S.inv
              rw [e1] at I
              have := Files.inv_add pre post h I (tag w) (.entry Files.versionEntry :: pre.map fun k =>
                  .part (Files.render (inner C) k)) (post.map fun k => .part (Files.render (inner C) k))
                (by simp [shadow]) (parts_map (inner C) pre) (parts_map (inner C) post)
                hu.symm K.layer.slash hi rfl hfree (by
                  rw [← e1]; exact hm') h' hh'.symm
              rw [List.map_append]
              simpa [shadow] using this
            · refine ⟨setNamed n (.group partAttrs (partLinks C h ++ [(w.layer, (layerWriter w .new).2)])) ls, rfl, ?_, ?_, ?_⟩
              · rw [map_set]; exact hn
              · have hng : n ≠ kGlobal := by rw [← e3]; exact Files.intName_ne_global _ _
                rw [filter_set n kGlobal _ hng, hl, e1]
                simp only [List.map_append, List.map_cons]
                have he : linkOf C h = (n, partObj C h) := by rw [linkOf, e3]
                rw [he, set_split, hlo]
                intro q hq
                obtain ⟨k, hk, rfl⟩ := List.mem_map.1 hq
                exact e4 k hk
              · rw [named_set_ne, hg]
                rw [← e3]; exact Files.intName_ne_global _ _
        · rename_i hi
          refine ⟨hs, _, _, rfl, .inr ⟨rfl, S, .inr (.inr (.inl ⟨h.mapping.mapping, ?_, by simpa using hi⟩))⟩⟩
          obtain ⟨q, hq, hqn, -, pm, hpm, hid⟩ := Files.matching_some _ _ _ _ _ hm'
          obtain ⟨k, hk, rfl⟩ := List.mem_map.1 hq
          have hkh : k = h := Files.eq_of_key S.inv.uniq hk hh (Files.key_of_name hqn)
          rw [hkh] at hpm
          simp only [Files.render, inner, if_true] at hpm
          cases hpm
          exact hid

end Hdf5
end F3D
