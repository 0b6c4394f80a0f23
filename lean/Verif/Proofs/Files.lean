import Verif.Model.Files
import Verif.Spec.Files
import Verif.Props.Metadata
import Verif.Props.MappingIO

/-!
# Lemmas about files: names, partitions and layers
-/

namespace F3D.Files
open F3D.Ogawa F3D.Og F3D.FieldIO F3D.Props
open F3D.MappingIO (decimal kMapping mem_decimal decimal_inj)
open F3D.Metadata (Dict Meta nameLt readMeta)

/-! ## Names -/

theorem decimal_no (b : UInt8) (i : Nat) (h : b.toNat < 48) : b ∉ decimal i := fun hm => by
  have := mem_decimal b i hm
  omega

theorem beforeDot_intName (u : Name) (i : Nat) : beforeDot (intName u i) = some u := by
  have h : (intName u i).reverse = (decimal i).reverse ++ 46 :: u.reverse := by simp [intName]
  have hd : ∀ (d : Name), (46 : UInt8) ∉ d → ∀ r : Name,
      (d ++ 46 :: r).dropWhile (fun x => decide (x ≠ (46 : UInt8))) = 46 :: r := by
    intro d
    induction d with
    | nil => intro _ r; simp
    | cons x d ih =>
      intro hx r
      simp only [List.mem_cons, not_or] at hx
      have h1 : x ≠ 46 := fun e => hx.1 e.symm
      rw [List.cons_append, List.dropWhile_cons, if_pos (by simp [h1]), ih hx.2]
  unfold beforeDot
  rw [h, hd _ (by rw [List.mem_reverse]; exact decimal_no 46 i (by decide))]
  simp

theorem remove_intName (u : Name) (i : Nat) : removeUniqueId (intName u i) = u := by
  rw [removeUniqueId, beforeDot_intName]

theorem intName_inj {u v : Name} {i j : Nat} (h : intName u i = intName v j) : u = v ∧ i = j := by
  have hu : u = v := by rw [← remove_intName u i, h, remove_intName]
  subst hu
  have := List.append_cancel_left h
  simp only [List.cons.injEq, true_and] at this
  exact ⟨rfl, decimal_inj i j this⟩

theorem mem_intName (b : UInt8) (u : Name) (i : Nat) (h : b.toNat < 46) : b ∈ intName u i ↔ b ∈ u := by
  have h1 := decimal_no b i (by omega)
  have h2 : b ≠ 46 := by rintro rfl; exact absurd h (by decide)
  simp [intName, h1, h2]

theorem slash_intName (u : Name) (i : Nat) : (47 : UInt8) ∈ intName u i ↔ (47 : UInt8) ∈ u := by
  have h1 := decimal_no 47 i (by decide)
  simp [intName, h1]

theorem intName_plain (u : Name) (i : Nat) (h : (0 : UInt8) ∉ u) : plainName (intName u i) := by
  refine ⟨by simp [intName], ?_⟩
  rw [mem_intName 0 u i (by decide)]
  exact h

theorem intName_ne_global (u : Name) (i : Nat) : intName u i ≠ kGlobal := by
  intro h
  have : (46 : UInt8) ∈ intName u i := by simp [intName]
  rw [h] at this
  exact absurd this (by decide)

theorem intName_dot (u : Name) (i : Nat) : (46 : UInt8) ∈ intName u i := by simp [intName]

/-! ## Sorting names -/

theorem nameLt_irrefl : ∀ a : Name, nameLt a a = false
  | [] => rfl
  | a :: as => by simp [nameLt, nameLt_irrefl as]

theorem nameLt_trans : ∀ a b c : Name, nameLt a b = true → nameLt b c = true → nameLt a c = true
  | [], [], _, h, _ => by simp [nameLt] at h
  | [], _ :: _, [], _, h => by simp [nameLt] at h
  | [], _ :: _, _ :: _, _, _ => rfl
  | _ :: _, [], _, h, _ => by simp [nameLt] at h
  | _ :: _, _ :: _, [], _, h => by simp [nameLt] at h
  | a :: as, b :: bs, c :: cs, h1, h2 => by
    simp only [nameLt] at h1 h2 ⊢
    have ih := nameLt_trans as bs cs
    simp only [UInt8.lt_iff_toNat_lt] at h1 h2 ⊢
    split at h1
    · split at h2
      · rw [if_pos (by omega)]
      · split at h2
        · simp at h2
        · rw [if_pos (by omega)]
    · split at h1
      · simp at h1
      · split at h2
        · rw [if_pos (by omega)]
        · split at h2
          · simp at h2
          · rw [if_neg (by omega), if_neg (by omega)]
            exact ih h1 h2

theorem mem_uniq : ∀ (l : List Name) (x : Name), x ∈ uniq l ↔ x ∈ l
  | [], x => by simp [uniq]
  | [a], x => by simp [uniq]
  | a :: b :: l, x => by
    rw [uniq]
    have ih := mem_uniq (b :: l) x
    split
    · rename_i h
      rw [ih, h]; simp
    · rw [List.mem_cons, ih, List.mem_cons (a := x) (b := a)]

theorem uniq_sorted : ∀ (l : List Name), l.Pairwise (fun a b => nameLt b a = false) →
    (uniq l).Pairwise fun a b => nameLt a b = true
  | [], _ => by simp [uniq]
  | [a], _ => by simp [uniq]
  | a :: b :: l, h => by
    rw [uniq]
    have ih := uniq_sorted (b :: l) (List.pairwise_cons.1 h).2
    split
    · exact ih
    · rename_i hne
      refine List.pairwise_cons.2 ⟨fun x hx => ?_, ih⟩
      have hab : nameLt a b = true := by
        rcases nameLt_trichotomy a b with h1 | h1 | h1
        · exact absurd h1 hne
        · exact h1
        · have := (List.pairwise_cons.1 h).1 b (by simp)
          rw [h1] at this; simp at this
      rw [mem_uniq, List.mem_cons] at hx
      rcases hx with rfl | hx
      · exact hab
      · have hbx := (List.pairwise_cons.1 (List.pairwise_cons.1 h).2).1 x hx
        rcases nameLt_trichotomy b x with h1 | h1 | h1
        · rw [← h1]; exact hab
        · exact nameLt_trans _ _ _ hab h1
        · rw [h1] at hbx; simp at hbx

theorem makeUnique_mem (l : List Name) (x : Name) : x ∈ makeUnique l ↔ x ∈ l := by
  rw [makeUnique, mem_uniq, List.mem_mergeSort]

theorem makeUnique_sorted (l : List Name) : (makeUnique l).Pairwise fun a b => nameLt a b = true := by
  apply uniq_sorted
  have := List.pairwise_mergeSort (le := fun a b => !nameLt b a) ?_ ?_ l
  · exact this.imp (by simp)
  · intro a b c h1 h2
    simp only [Bool.not_eq_true', Bool.eq_false_iff, ne_eq] at h1 h2 ⊢
    intro h3
    rcases nameLt_trichotomy a b with rfl | h | h
    · exact h2 h3
    · exact h2 (nameLt_trans _ _ _ h3 h)
    · exact h1 h
  · intro a b
    rcases nameLt_trichotomy a b with rfl | h | h
    · simp [nameLt_irrefl]
    · have : nameLt b a = false := by
        rw [Bool.eq_false_iff]; intro h2
        have := nameLt_trans _ _ _ h h2
        rw [nameLt_irrefl] at this; simp at this
      simp [this]
    · have : nameLt a b = false := by
        rw [Bool.eq_false_iff]; intro h2
        have := nameLt_trans _ _ _ h h2
        rw [nameLt_irrefl] at this; simp at this
      simp [this]

/-! ## Partitions and slots -/

variable {M : Type}

/-- A partition with what was written to it. -/
structure Home (M : Type) where
  user : Name
  idx : Nat
  mapping : M
  writes : List (Write M)

def Home.key (h : Home M) : Name × Nat := (h.user, h.idx)

def layerEntry (w : Write M) : Entry := .group w.layer (layerGroup w)

def tagOf (C : MapIO M) (m : M) : List Entry :=
  if (C.write m).1 then [.attribute kIsPartition .string [49]] else []

/-- The partition object and group that hold it. -/
def render (C : MapIO M) (h : Home M) : Part M :=
  ⟨intName h.user h.idx, if (C.write h.mapping).1 then some h.mapping else none, h.writes.map (·.layer),
    .group kMapping (C.write h.mapping).2 :: (tagOf C h.mapping ++ h.writes.map layerEntry)⟩

def partsOf (l : List (Slot M)) : List (Part M) := l.filterMap Slot.part?

theorem partsOf_append (a b : List (Slot M)) : partsOf (a ++ b) = partsOf a ++ partsOf b := by
  simp [partsOf, List.filterMap_append]

theorem findPart_append (n : Name) (a b : List (Part M)) :
    findPart n (a ++ b) = match findPart n a with | some p => some p | none => findPart n b := by
  induction a with
  | nil => rfl
  | cons p a ih =>
    simp only [List.cons_append, findPart]
    split
    · rfl
    · exact ih

theorem findPart_none {n : Name} {l : List (Part M)} : findPart n l = none ↔ ∀ p ∈ l, p.name ≠ n := by
  induction l with
  | nil => simp [findPart]
  | cons p l ih =>
    simp only [findPart, List.mem_cons, forall_eq_or_imp]
    split
    · rename_i h; simp [h]
    · rename_i h; simp [h, ih]

/-- The object found and the change of it. -/
theorem slot_split (n : Name) (f : Part M → Part M) : ∀ (l : List (Slot M)) (p : Part M), findPart n (partsOf l) = some p →
    ∃ a b, l = a ++ .part p :: b ∧ findPart n (partsOf a) = none ∧ p.name = n ∧ change n f l = a ++ .part (f p) :: b
  | [], p, h => by simp [partsOf, findPart] at h
  | .entry e :: l, p, h => by
    have h' : findPart n (partsOf l) = some p := h
    obtain ⟨a, b, h1, h2, h3, h4⟩ := slot_split n f l p h'
    exact ⟨.entry e :: a, b, by rw [h1]; rfl, h2, h3, by rw [change, h4]; rfl⟩
  | .part q :: l, p, h => by
    have h' : findPart n (q :: partsOf l) = some p := h
    rw [findPart] at h'
    split at h'
    · rename_i hq
      cases h'
      exact ⟨[], l, rfl, rfl, hq, by rw [change, if_pos hq]; rfl⟩
    · rename_i hq
      obtain ⟨a, b, h1, h2, h3, h4⟩ := slot_split n f l p h'
      refine ⟨.part q :: a, b, by rw [h1]; rfl, ?_, h3, by rw [change, if_neg hq, h4]; rfl⟩
      show findPart n (q :: partsOf a) = none
      rw [findPart, if_neg hq, h2]

theorem matching_append (C : MapIO M) (u : Name) (m : M) (n : Name) (b : List (Part M)) :
    ∀ a : List (Part M), matching C u m a = some (some n) → matching C u m (a ++ b) = some (some n)
  | [], h => by simp [matching] at h
  | p :: a, h => by
    rw [List.cons_append]
    unfold matching at h ⊢
    split
    · rename_i hu
      rw [if_pos hu] at h
      split
      · rename_i hm; rw [hm] at h; simp at h
      · rename_i pm hm
        rw [hm] at h
        simp only at h
        split
        · rename_i hi; rw [if_pos hi] at h; exact h
        · rename_i hi; rw [if_neg hi] at h; exact matching_append C u m n b a h
    · rename_i hu
      rw [if_neg hu] at h; exact matching_append C u m n b a h

theorem matching_append_none (C : MapIO M) (u : Name) (m : M) (b : List (Part M)) :
    ∀ a : List (Part M), matching C u m a = some none → matching C u m (a ++ b) = matching C u m b
  | [], _ => rfl
  | p :: a, h => by
    rw [List.cons_append]
    unfold matching at h
    rw [matching]
    split
    · rename_i hu
      rw [if_pos hu] at h
      split
      · rename_i hm; rw [hm] at h; simp at h
      · rename_i pm hm
        rw [hm] at h
        simp only at h
        split
        · rename_i hi; rw [if_pos hi] at h; simp at h
        · rename_i hi; rw [if_neg hi] at h; exact matching_append_none C u m b a h
    · rename_i hu
      rw [if_neg hu] at h; exact matching_append_none C u m b a h

/-- What was found matches. -/
theorem matching_some (C : MapIO M) (u : Name) (m : M) (n : Name) : ∀ a : List (Part M),
    matching C u m a = some (some n) → ∃ p ∈ a, p.name = n ∧ removeUniqueId n = u ∧ ∃ pm, p.mapping = some pm ∧
      C.ident pm m = true
  | [], h => by simp [matching] at h
  | p :: a, h => by
    unfold matching at h
    split at h
    · rename_i hu
      split at h
      · simp at h
      · rename_i pm hm
        split at h
        · rename_i hi
          simp only [Option.some.injEq] at h
          exact ⟨p, by simp, h, by rw [← h]; exact hu, pm, hm, hi⟩
        · obtain ⟨q, hq, r⟩ := matching_some C u m n a h
          exact ⟨q, by simp [hq], r⟩
    · obtain ⟨q, hq, r⟩ := matching_some C u m n a h
      exact ⟨q, by simp [hq], r⟩

/-- Only names and mappings matter. -/
theorem matching_congr (C : MapIO M) (u : Name) (m : M) : ∀ (a b : List (Part M)),
    a.map (fun p => (p.name, p.mapping)) = b.map (fun p => (p.name, p.mapping)) → matching C u m a = matching C u m b
  | [], [], _ => rfl
  | [], _ :: _, h => by simp at h
  | _ :: _, [], h => by simp at h
  | p :: a, q :: b, h => by
    simp only [List.map_cons, List.cons.injEq, Prod.mk.injEq] at h
    have ih := matching_congr C u m a b h.2
    simp only [matching, h.1.1, h.1.2, ih]

/-! ## The counters -/

def nextOf (d : Dict Nat) (u : Name) : Nat :=
  match d.get u with
  | some k => k + 1
  | none => 0

theorem nextIndex_fst (u : Name) (d : Dict Nat) : (nextIndex u d).1 = nextOf d u := by
  unfold nextIndex nextOf
  split <;> simp_all

theorem nextIndex_snd (u v : Name) (d : Dict Nat) :
    nextOf (nextIndex u d).2 v = if v = u then nextOf d u + 1 else nextOf d v := by
  unfold nextIndex
  split
  · rename_i k hk
    simp only [nextOf, Props.get_set, hk]
    by_cases h : v = u
    · subst h; simp
    · have : ¬ u = v := fun e => h e.symm
      simp [h, this]
  · rename_i hk
    simp only [nextOf, Props.get_set, hk]
    by_cases h : v = u
    · subst h; simp
    · have : ¬ u = v := fun e => h e.symm
      simp [h, this]

/-! ## The invariant -/

def ofUser (u : Name) (hs : List (Home M)) : List (Home M) := hs.filter fun h => h.user = u

def versionEntry : Entry := .attribute kVersionNumber .veci32 (encV3i libVersion)

/-- While a file is being written: `hs` are its partitions, `ws` the layers written so far, `cs` the calls made (and
to come), `base` the first index of each name. -/
structure Inv (C : MapIO M) (base : Name → Nat) (cs : List (Call M)) (o : Out M) (hs : List (Home M))
    (ws : List (Write M)) : Prop where
  isOpen : o.isOpen = true
  parts : o.parts = hs.map (render C)
  slots : ∃ rest, o.slots = .entry versionEntry :: rest ∧ ∀ e, Slot.entry e ∈ rest → ∃ es, Call.global es ∈ cs ∧ e = .group kGlobal es
  slash : ∀ h ∈ hs, (47 : UInt8) ∉ h.user
  known : ∀ h ∈ hs, ∃ w, Call.write w ∈ cs ∧ w.part = h.user ∧ w.mapping = h.mapping
  uniq : (hs.map Home.key).Nodup
  idx : ∀ u, (ofUser u hs).map (·.idx) = (List.range (ofUser u hs).length).map (base u + ·)
  count : ∀ u, (47 : UInt8) ∉ u → nextOf o.count u = base u + (ofUser u hs).length
  fits : ∀ h ∈ hs, ∀ w ∈ h.writes, w.part = h.user ∧ (47 : UInt8) ∉ w.layer ∧ C.ident w.mapping h.mapping = true ∧
    (C.write h.mapping).1 = true
  nodup : ∀ h ∈ hs, (h.writes.map (·.layer)).Nodup
  first : ∀ w ∈ hs.flatMap (·.writes), ∃ h ∈ hs,
    matching C w.part w.mapping (hs.map (render C)) = some (some (render C h).name) ∧ w.layer ∈ h.writes.map (·.layer)
  perm : (hs.flatMap (·.writes)).Perm ws
  order : ∀ u l m, (hs.flatMap (·.writes)).filter (same u l m) = ws.filter (same u l m)

theorem inv_create (C : MapIO M) (cs : List (Call M)) (o : Out M) : Inv C (nextOf o.count) cs (o.create true) [] [] where
  isOpen := rfl
  parts := rfl
  slots := ⟨[], rfl, by simp⟩
  slash := by simp
  known := by simp
  uniq := by simp
  idx := by simp [ofUser]
  count := by intro u _; rfl
  fits := by simp
  nodup := by simp
  first := by simp
  perm := by simp
  order := by simp

theorem inv_global {C : MapIO M} {base cs o hs ws} (I : Inv C base cs o hs ws) (es : List Entry) (hes : Call.global es ∈ cs) :
    ∃ o', writeGlobal es o = (.written, o') ∧ Inv C base cs o' hs ws := by
  refine ⟨{ o with slots := o.slots ++ [.entry (.group kGlobal es)] }, by rw [writeGlobal, if_pos I.isOpen], ?_⟩
  obtain ⟨rest, h1, h2⟩ := I.slots
  exact {
    isOpen := I.isOpen
    parts := by
      show partsOf (o.slots ++ [.entry (.group kGlobal es)]) = _
      rw [partsOf_append]
      have : partsOf o.slots = _ := I.parts
      rw [this]; simp [partsOf, Slot.part?]
    slots := by
      refine ⟨rest ++ [.entry (.group kGlobal es)], by simp [h1], ?_⟩
      intro e he
      rw [List.mem_append] at he
      rcases he with he | he
      · exact h2 e he
      · simp only [List.mem_singleton, Slot.entry.injEq] at he
        exact ⟨es, hes, he⟩
    slash := I.slash
    known := I.known
    uniq := I.uniq
    idx := I.idx
    count := I.count
    fits := I.fits
    nodup := I.nodup
    first := I.first
    perm := I.perm
    order := I.order }

theorem render_name (C : MapIO M) (h : Home M) : (render C h).name = intName h.user h.idx := rfl

theorem key_of_name {C : MapIO M} {h k : Home M} (e : (render C h).name = (render C k).name) : h.key = k.key := by
  obtain ⟨h1, h2⟩ := intName_inj e
  simp [Home.key, h1, h2]

theorem ofUser_append (u : Name) (a b : List (Home M)) : ofUser u (a ++ b) = ofUser u a ++ ofUser u b := by
  simp [ofUser]

theorem mem_ofUser {u : Name} {hs : List (Home M)} {h : Home M} : h ∈ ofUser u hs ↔ h ∈ hs ∧ h.user = u := by
  simp [ofUser]

theorem eq_of_key {hs : List (Home M)} (hn : (hs.map Home.key).Nodup) {a b : Home M} (ha : a ∈ hs) (hb : b ∈ hs)
    (e : a.key = b.key) : a = b := by
  induction hs with
  | nil => simp at ha
  | cons h hs ih =>
    rw [List.map_cons, List.nodup_cons] at hn
    rw [List.mem_cons] at ha hb
    rcases ha with rfl | ha <;> rcases hb with rfl | hb
    · rfl
    · exact absurd (e ▸ List.mem_map_of_mem hb) hn.1
    · exact absurd (e ▸ List.mem_map_of_mem ha) hn.1
    · exact ih hn.2 ha hb

/-- The next index is new. -/
theorem fresh {C : MapIO M} {base cs o hs ws} (I : Inv C base cs o hs ws) (u : Name) :
    ∀ h ∈ hs, h.key ≠ (u, nextOf o.count u) := by
  intro h hh e
  have hu : h.user = u := congrArg Prod.fst e
  have hi : h.idx = nextOf o.count u := congrArg Prod.snd e
  have hs1 := I.slash h hh
  rw [hu] at hs1
  rw [I.count u hs1] at hi
  have hm : h.idx ∈ (ofUser u hs).map (·.idx) := List.mem_map_of_mem (mem_ofUser.2 ⟨hh, hu⟩)
  rw [I.idx u, List.mem_map] at hm
  obtain ⟨j, hj, e2⟩ := hm
  have := List.mem_range.1 hj
  omega

theorem fresh_part {C : MapIO M} {base cs o hs ws} (I : Inv C base cs o hs ws) (u : Name) :
    findPart (intName u (nextOf o.count u)) o.parts = none := by
  rw [findPart_none, I.parts]
  intro p hp
  obtain ⟨h, hh, rfl⟩ := List.mem_map.1 hp
  intro e
  obtain ⟨h1, h2⟩ := intName_inj e
  exact fresh I u h hh (by simp [Home.key, h1, h2])

/-- Counting up without making a partition, for a name with '/'. -/
theorem inv_count {C : MapIO M} {base cs o hs ws} (I : Inv C base cs o hs ws) (u : Name) (hu : (47 : UInt8) ∈ u) :
    Inv C base cs { o with count := (nextIndex u o.count).2 } hs ws :=
  { I with
    isOpen := I.isOpen
    parts := I.parts
    slots := I.slots
    count := by
      intro v hv
      have : v ≠ u := by rintro rfl; exact hv hu
      show nextOf (nextIndex u o.count).2 v = _
      rw [nextIndex_snd, if_neg this, I.count v hv] }

/-- A new partition, with at most one layer. -/
theorem inv_push {C : MapIO M} {base cs o hs ws} (I : Inv C base cs o hs ws) (u : Name) (hu : (47 : UInt8) ∉ u) (m : M)
    (o' : Out M) (h : Home M) (hk : h.key = (u, nextOf o.count u)) (hm : h.mapping = m)
    (ho : o' = { o with count := (nextIndex u o.count).2, slots := o.slots ++ [.part (render C h)] })
    (hc : ∃ w, Call.write w ∈ cs ∧ w.part = u ∧ w.mapping = m)
    (hw : h.writes = [] ∨ ∃ w, h.writes = [w] ∧ w.part = u ∧ w.mapping = m ∧ (47 : UInt8) ∉ w.layer ∧ C.ident m m = true ∧
      (C.write m).1 = true ∧
      ((∃ k ∈ hs, matching C u m (hs.map (render C)) = some (some (render C k).name) ∧ w.layer ∈ k.writes.map (·.layer)) ∨
        matching C u m (hs.map (render C)) = some none)) :
    Inv C base cs o' (hs ++ [h]) (ws ++ h.writes) := by
  have huser : h.user = u := congrArg Prod.fst hk
  have hidx : h.idx = nextOf o.count u := congrArg Prod.snd hk
  have hfl : (hs ++ [h]).flatMap (·.writes) = hs.flatMap (·.writes) ++ h.writes := by simp
  obtain ⟨rest, s1, s2⟩ := I.slots
  subst ho
  exact {
    isOpen := I.isOpen
    parts := by
      show partsOf (o.slots ++ [.part (render C h)]) = _
      rw [partsOf_append, show partsOf o.slots = _ from I.parts]
      simp [partsOf, Slot.part?]
    slots := by
      refine ⟨rest ++ [.part (render C h)], by simp [s1], ?_⟩
      intro e he
      rw [List.mem_append] at he
      rcases he with he | he
      · exact s2 e he
      · simp at he
    slash := by
      intro k hk'
      rw [List.mem_append, List.mem_singleton] at hk'
      rcases hk' with hk' | rfl
      · exact I.slash k hk'
      · rw [huser]; exact hu
    known := by
      intro k hk'
      rw [List.mem_append, List.mem_singleton] at hk'
      rcases hk' with hk' | rfl
      · exact I.known k hk'
      · rw [huser, hm]; exact hc
    uniq := by
      rw [List.map_append, List.nodup_append]
      refine ⟨I.uniq, by simp, ?_⟩
      intro a ha b hb
      obtain ⟨k, hk', rfl⟩ := List.mem_map.1 ha
      simp only [List.map_cons, List.map_nil, List.mem_singleton] at hb
      rw [hb, hk]
      exact fresh I u k hk'
    idx := by
      intro v
      rw [ofUser_append]
      by_cases hv : u = v
      · subst hv
        have : ofUser u [h] = [h] := by simp [ofUser, huser]
        rw [this, List.map_append, I.idx u, List.length_append, List.length_singleton, List.range_succ, List.map_append]
        simp only [List.map_cons, List.map_nil]
        rw [hidx, I.count u hu]
      · have : ofUser v [h] = [] := by simp [ofUser, huser, hv]
        rw [this, List.append_nil, I.idx v]
    count := by
      intro v hv
      show nextOf (nextIndex u o.count).2 v = _
      rw [nextIndex_snd, ofUser_append, List.length_append]
      by_cases e : v = u
      · subst e
        have : ofUser v [h] = [h] := by simp [ofUser, huser]
        rw [if_pos rfl, this, I.count v hv]
        simp only [List.length_singleton]; omega
      · have : ofUser v [h] = [] := by
          have : ¬ u = v := fun x => e x.symm
          simp [ofUser, huser, this]
        rw [if_neg e, this, I.count v hv]; simp
    fits := by
      intro k hk' x hx
      rw [List.mem_append, List.mem_singleton] at hk'
      rcases hk' with hk' | rfl
      · exact I.fits k hk' x hx
      · rcases hw with hw | ⟨w, hw, w1, w2, w3, w4, w5, _⟩
        · rw [hw] at hx; simp at hx
        · rw [hw, List.mem_singleton] at hx
          subst hx
          exact ⟨w1.trans huser.symm, w3, by rw [hm, w2]; exact w4, by rw [hm]; exact w5⟩
    nodup := by
      intro k hk'
      rw [List.mem_append, List.mem_singleton] at hk'
      rcases hk' with hk' | rfl
      · exact I.nodup k hk'
      · rcases hw with hw | ⟨w, hw, _⟩ <;> simp [hw]
    first := by
      intro x hx
      rw [hfl, List.mem_append] at hx
      rcases hx with hx | hx
      · obtain ⟨k, hk', h1, h2⟩ := I.first x hx
        refine ⟨k, by simp [hk'], ?_, h2⟩
        rw [List.map_append]
        exact matching_append C _ _ _ _ _ h1
      · rcases hw with hw | ⟨w, hw, w1, w2, w3, w4, w5, w6⟩
        · rw [hw] at hx; simp at hx
        · rw [hw, List.mem_singleton] at hx
          subst hx
          rcases w6 with ⟨k, hk', h1, h2⟩ | hnone
          · refine ⟨k, by simp [hk'], ?_, h2⟩
            rw [List.map_append, w1, w2]
            exact matching_append C _ _ _ _ _ h1
          · refine ⟨h, by simp, ?_, by simp [hw]⟩
            rw [List.map_append, w1, w2, matching_append_none C _ _ _ _ hnone]
            have hr : removeUniqueId (render C h).name = u := by rw [render_name, remove_intName, huser]
            have hmm : (render C h).mapping = some m := by simp [render, hm, w5]
            simp only [List.map_cons, List.map_nil, matching, hr, if_true, hmm, w4]
    perm := by
      rw [hfl]
      exact I.perm.append_right _
    order := by
      intro a b c
      rw [hfl, List.filter_append, List.filter_append, I.order] }

/-- One more layer in a partition that exists. -/
theorem inv_add {C : MapIO M} {base cs o ws} (pre post : List (Home M)) (h : Home M)
    (I : Inv C base cs o (pre ++ h :: post) ws) (w : Write M) (a b : List (Slot M))
    (ha : o.slots = a ++ .part (render C h) :: b)
    (hap : partsOf a = pre.map (render C)) (hbp : partsOf b = post.map (render C))
    (h1 : w.part = h.user) (h2 : (47 : UInt8) ∉ w.layer) (h3 : C.ident w.mapping h.mapping = true)
    (h4 : (C.write h.mapping).1 = true) (h5 : w.layer ∉ h.writes.map (·.layer))
    (h6 : matching C w.part w.mapping ((pre ++ h :: post).map (render C)) = some (some (render C h).name))
    (h' : Home M) (hh' : h' = { h with writes := h.writes ++ [w] }) :
    Inv C base cs { o with slots := a ++ .part (render C h') :: b } (pre ++ h' :: post) (ws ++ [w]) := by
  have hkey : h'.key = h.key := by rw [hh']; rfl
  have huser : h'.user = h.user := by rw [hh']
  have hidx : h'.idx = h.idx := by rw [hh']
  have hmap : h'.mapping = h.mapping := by rw [hh']
  have hwr : h'.writes = h.writes ++ [w] := by rw [hh']
  have hof : ∀ u, (ofUser u (pre ++ h' :: post)).map Home.key = (ofUser u (pre ++ h :: post)).map Home.key := by
    intro u
    have e1 : pre ++ h' :: post = pre ++ ([h'] ++ post) := rfl
    have e2 : pre ++ h :: post = pre ++ ([h] ++ post) := rfl
    rw [e1, e2]
    simp only [ofUser_append, List.map_append]
    by_cases e : h.user = u <;> simp [ofUser, huser, e, hkey]
  have hlen : ∀ u, (ofUser u (pre ++ h' :: post)).length = (ofUser u (pre ++ h :: post)).length := by
    intro u
    have := congrArg List.length (hof u)
    simpa using this
  have hnm : ∀ u m, matching C u m ((pre ++ h' :: post).map (render C)) =
      matching C u m ((pre ++ h :: post).map (render C)) := by
    intro u m
    apply matching_congr
    simp [render, huser, hidx, hmap]
  have hmem : ∀ k ∈ pre ++ h' :: post, k = h' ∨ k ∈ pre ++ h :: post := by
    intro k hk
    simp only [List.mem_append, List.mem_cons] at hk ⊢
    rcases hk with hk | hk | hk
    · exact .inr (.inl hk)
    · exact .inl hk
    · exact .inr (.inr (.inr hk))
  have hin : h ∈ pre ++ h :: post := by simp
  have hin' : h' ∈ pre ++ h' :: post := by simp
  have hold : (pre ++ h :: post).flatMap (·.writes) =
      pre.flatMap (·.writes) ++ (h.writes ++ post.flatMap (·.writes)) := by simp
  have hnew : (pre ++ h' :: post).flatMap (·.writes) =
      pre.flatMap (·.writes) ++ (h.writes ++ ([w] ++ post.flatMap (·.writes))) := by simp [hwr]
  have hname : (render C h').name = (render C h).name := by rw [render_name, render_name, huser, hidx]
  obtain ⟨rest, s1, s2⟩ := I.slots
  exact {
    isOpen := I.isOpen
    parts := by
      show partsOf (a ++ .part (render C h') :: b) = _
      have : (Slot.part (render C h') :: b) = [Slot.part (render C h')] ++ b := rfl
      rw [this, partsOf_append, partsOf_append, hap, hbp]
      simp [partsOf, Slot.part?]
    slots := by
      cases a with
      | nil => rw [s1] at ha; simp at ha
      | cons x a =>
        rw [s1] at ha
        simp only [List.cons_append, List.cons.injEq] at ha
        refine ⟨a ++ .part (render C h') :: b, by simp [ha.1], ?_⟩
        intro e he
        refine s2 e ?_
        rw [ha.2]
        simp only [List.mem_append, List.mem_cons, reduceCtorEq, false_or] at he ⊢
        exact he
    slash := by
      intro k hk
      rcases hmem k hk with rfl | hk
      · rw [huser]; exact I.slash h hin
      · exact I.slash k hk
    known := by
      intro k hk
      rcases hmem k hk with rfl | hk
      · rw [huser, hmap]; exact I.known h hin
      · exact I.known k hk
    uniq := by
      have := I.uniq
      simp only [List.map_append, List.map_cons, hkey] at this ⊢
      exact this
    idx := by
      intro u
      have e := I.idx u
      have := congrArg (List.map Prod.snd) (hof u)
      simp only [List.map_map] at this
      rw [hlen u, ← e]
      exact this
    count := by
      intro u hu
      rw [hlen u]
      exact I.count u hu
    fits := by
      intro k hk x hx
      rcases hmem k hk with rfl | hk
      · rw [hwr, List.mem_append, List.mem_singleton] at hx
        rw [huser, hmap]
        rcases hx with hx | rfl
        · exact I.fits h hin x hx
        · exact ⟨h1, h2, h3, h4⟩
      · exact I.fits k hk x hx
    nodup := by
      intro k hk
      rcases hmem k hk with rfl | hk
      · rw [hwr, List.map_append, List.nodup_append]
        refine ⟨I.nodup h hin, by simp, ?_⟩
        intro x hx y hy
        simp only [List.map_cons, List.map_nil, List.mem_singleton] at hy
        rintro rfl
        exact h5 (hy ▸ hx)
      · exact I.nodup k hk
    first := by
      intro x hx
      have hx' : x = w ∨ x ∈ (pre ++ h :: post).flatMap (·.writes) := by
        rw [hnew] at hx
        rw [hold]
        simp only [List.mem_append, List.mem_singleton] at hx ⊢
        rcases hx with hx | hx | hx | hx
        · exact .inr (.inl hx)
        · exact .inr (.inr (.inl hx))
        · exact .inl hx
        · exact .inr (.inr (.inr hx))
      rw [hnm]
      rcases hx' with rfl | hx'
      · exact ⟨h', hin', by rw [h6, hname], by simp [hwr]⟩
      · obtain ⟨k, hk, e1, e2⟩ := I.first x hx'
        simp only [List.mem_append, List.mem_cons] at hk
        rcases hk with hk | rfl | hk
        · exact ⟨k, by simp [hk], e1, e2⟩
        · exact ⟨h', hin', by rw [e1, hname], by rw [hwr, List.map_append, List.mem_append]; exact .inl e2⟩
        · exact ⟨k, by simp [hk], e1, e2⟩
    perm := by
      have := I.perm
      rw [hold] at this
      rw [hnew]
      refine List.Perm.trans ?_ (this.append_right [w])
      rw [List.append_assoc, List.append_assoc]
      exact List.Perm.append_left _ (List.Perm.append_left _ List.perm_append_comm)
    order := by
      intro u l m
      have e := I.order u l m
      rw [hold] at e
      rw [hnew]
      by_cases hs : same u l m w = true
      · have hs' := hs
        simp only [same, decide_eq_true_eq] at hs'
        obtain ⟨rfl, rfl, rfl⟩ := hs'
        have hno : (pre.flatMap (·.writes) ++ (h.writes ++ post.flatMap (·.writes))).filter
            (same w.part w.layer w.mapping) = [] := by
          rw [List.filter_eq_nil_iff]
          intro x hx hxs
          simp only [same, decide_eq_true_eq] at hxs
          rw [← hold] at hx
          obtain ⟨k, hk, e1, e2⟩ := I.first x hx
          rw [hxs.1, hxs.2.2, h6] at e1
          simp only [Option.some.injEq] at e1
          have : k = h := by
            have hkk := key_of_name (C := C) e1.symm
            have hnd := I.uniq
            exact eq_of_key hnd hk hin hkk
          rw [this, hxs.2.1] at e2
          exact h5 e2
        rw [hno] at e
        have e' := e.symm
        simp only [List.filter_append, List.append_eq_nil_iff] at hno
        simp only [List.filter_append, e', hno.1, hno.2.1, hno.2.2]
        simp
      · have hs' : [w].filter (same u l m) = [] := by simp [hs]
        simp only [List.filter_append, hs', List.nil_append, List.append_nil] at e ⊢
        exact e }

/-! ## Steps -/

theorem change_last (n : Name) (f : Part M → Part M) (l : List (Slot M)) (p : Part M) (hp : p.name = n)
    (h : findPart n (partsOf l) = none) : change n f (l ++ [.part p]) = l ++ [.part (f p)] := by
  induction l with
  | nil => simp [change, hp]
  | cons x l ih =>
    cases x with
    | entry e =>
      have h' : findPart n (partsOf l) = none := h
      simp only [List.cons_append, change, ih h']
    | part q =>
      have h' : findPart n (q :: partsOf l) = none := h
      rw [findPart] at h'
      split at h'
      · simp at h'
      · rename_i hq
        rw [List.cons_append, change, if_neg hq, ih h']; rfl

theorem findPart_last (n : Name) (l : List (Slot M)) (p : Part M) (hp : p.name = n)
    (h : findPart n (partsOf l) = none) : findPart n (partsOf (l ++ [.part p])) = some p := by
  rw [partsOf_append, findPart_append, h]
  simp [partsOf, Slot.part?, findPart, hp]

/-- How a call that returns leaves things. -/
def After (C : MapIO M) (base : Name → Nat) (cs : List (Call M)) (ws : List (Write M)) (w : Write M)
    (r : Ret × Out M) : Prop :=
  r.1 ≠ .crash → ∃ hs, Inv C base cs r.2 hs (if r.1 = .written then ws ++ [w] else ws)

theorem after_new {C : MapIO M} {base cs o hs ws} (I : Inv C base cs o hs ws) (w : Write M)
    (hcs : Call.write w ∈ cs) (hm : (∃ k ∈ hs, matching C w.part w.mapping (hs.map (render C)) = some (some (render C k).name) ∧
        w.layer ∈ k.writes.map (·.layer)) ∨ matching C w.part w.mapping (hs.map (render C)) = some none) :
    After C base cs ws w (addNew C w (intName w.part (nextIndex w.part o.count).1)
      { o with count := (nextIndex w.part o.count).2 }) := by
  rw [nextIndex_fst]
  have hf := fresh_part I w.part
  intro hcr
  generalize hr : addNew C w _ _ = r at hcr ⊢
  rw [addNew, createPart] at hr
  by_cases hs1 : (47 : UInt8) ∈ intName w.part (nextOf o.count w.part)
  · rw [if_pos hs1] at hr
    simp only at hr
    subst hr
    exact ⟨hs, inv_count I w.part ((slash_intName _ _).1 hs1)⟩
  · rw [if_neg hs1] at hr
    have hu : (47 : UInt8) ∉ w.part := fun h => hs1 ((slash_intName _ _).2 h)
    by_cases hok : (C.write w.mapping).1 = true
    · simp only [hok, if_true] at hr
      rw [change_last (intName w.part (nextOf o.count w.part)) _ o.slots _ rfl hf] at hr
      simp only at hr
      have hfl := findPart_last (intName w.part (nextOf o.count w.part)) o.slots
        ⟨intName w.part (nextOf o.count w.part), some w.mapping, [],
          [.group kMapping (C.write w.mapping).2, .attribute kIsPartition .string [49]]⟩ rfl hf
      rw [addLayer] at hr
      simp only [Out.parts] at hr
      have hfl' : findPart (intName w.part (nextOf o.count w.part)) (List.filterMap Slot.part? (o.slots ++
        [.part ⟨intName w.part (nextOf o.count w.part), some w.mapping, [],
          [.group kMapping (C.write w.mapping).2, .attribute kIsPartition .string [49]]⟩])) = _ := hfl
      rw [hfl'] at hr
      simp only at hr
      have he : Slot.part (⟨intName w.part (nextOf o.count w.part), some w.mapping, [],
          [.group kMapping (C.write w.mapping).2, .attribute kIsPartition .string [49]]⟩ : Part M) =
          .part (render C ⟨w.part, nextOf o.count w.part, w.mapping, []⟩) := by
        simp [render, tagOf, hok]
      by_cases hi : C.ident w.mapping w.mapping = true
      · rw [if_pos hi] at hr
        by_cases hl : (47 : UInt8) ∈ w.layer
        · rw [if_pos hl] at hr
          subst hr
          refine ⟨hs ++ [⟨w.part, nextOf o.count w.part, w.mapping, []⟩], ?_⟩
          have := inv_push I w.part hu w.mapping _ ⟨w.part, nextOf o.count w.part, w.mapping, []⟩ rfl rfl rfl
            ⟨w, hcs, rfl, rfl⟩ (.inl rfl)
          rw [List.append_nil] at this
          rw [if_neg (by simp), he]; exact this
        · rw [if_neg hl] at hr
          rw [change_last (intName w.part (nextOf o.count w.part)) _ o.slots _ rfl hf] at hr
          subst hr
          refine ⟨hs ++ [⟨w.part, nextOf o.count w.part, w.mapping, [w]⟩], ?_⟩
          rw [if_pos rfl]
          refine inv_push I w.part hu w.mapping _ ⟨w.part, nextOf o.count w.part, w.mapping, [w]⟩ rfl rfl ?_
            ⟨w, hcs, rfl, rfl⟩ (.inr ⟨w, rfl, rfl, rfl, hl, hi, hok, hm⟩)
          simp [render, tagOf, hok, layerEntry]
      · rw [if_neg hi] at hr
        subst hr
        refine ⟨hs ++ [⟨w.part, nextOf o.count w.part, w.mapping, []⟩], ?_⟩
        have := inv_push I w.part hu w.mapping _ ⟨w.part, nextOf o.count w.part, w.mapping, []⟩ rfl rfl rfl
            ⟨w, hcs, rfl, rfl⟩ (.inl rfl)
        rw [List.append_nil] at this
        rw [if_neg (by simp), he]; exact this
    · simp only [hok] at hr
      subst hr
      refine ⟨hs ++ [⟨w.part, nextOf o.count w.part, w.mapping, []⟩], ?_⟩
      have := inv_push I w.part hu w.mapping _ ⟨w.part, nextOf o.count w.part, w.mapping, []⟩ rfl rfl rfl
            ⟨w, hcs, rfl, rfl⟩ (.inl rfl)
      rw [List.append_nil] at this
      have he : Slot.part (⟨intName w.part (nextOf o.count w.part), none, [],
          [.group kMapping (C.write w.mapping).2]⟩ : Part M) =
          .part (render C ⟨w.part, nextOf o.count w.part, w.mapping, []⟩) := by
        simp [render, tagOf, hok]
      rw [if_neg (by simp)]
      simp only
      rw [he]; exact this

theorem render_layers (C : MapIO M) (h : Home M) : (render C h).layers = h.writes.map (·.layer) := rfl

theorem after_write {C : MapIO M} {base cs o hs ws} (I : Inv C base cs o hs ws) (w : Write M)
    (hcs : Call.write w ∈ cs) : After C base cs ws w (writeLayer C w o) := by
  rw [writeLayer, if_pos I.isOpen, I.parts]
  have same' : ∀ r : Ret, r ≠ .written → After C base cs ws w (r, o) := by
    intro r hr _
    exact ⟨hs, by simp only [if_neg hr]; exact I⟩
  split
  · exact fun h => absurd rfl h
  · rename_i hm
    have hfp : findPart (intName w.part (nextIndex w.part o.count).1)
        ({ o with count := (nextIndex w.part o.count).2 } : Out M).parts = none := by
      rw [nextIndex_fst]; exact fresh_part I w.part
    simp only [hfp]
    exact after_new I w hcs (.inr hm)
  · rename_i n hm
    obtain ⟨q, hq, hqn, hru, -⟩ := matching_some C _ _ _ _ hm
    split
    · rename_i hnone
      exact absurd hqn (findPart_none.1 hnone q hq)
    · rename_i p hp
      have hp' : findPart n (partsOf o.slots) = some p := by
        have : partsOf o.slots = _ := I.parts
        rw [this]; exact hp
      obtain ⟨a, b, e1, e2, e3, e4⟩ := slot_split n (fun p =>
          { p with layers := p.layers ++ [w.layer], group := p.group ++ [.group w.layer (layerGroup w)] }) _ _ hp'
      have hpp : partsOf a ++ (p :: partsOf b) = hs.map (render C) := by
        have h1 : partsOf o.slots = _ := I.parts
        rw [← h1, e1, partsOf_append]; rfl
      obtain ⟨pre, rest, r1, r2, r3⟩ := List.map_eq_append_iff.1 hpp.symm
      obtain ⟨h, post, r4, r5, r6⟩ := List.map_eq_cons_iff.1 r3
      subst r4
      subst r1
      subst r5
      have hhin : h ∈ pre ++ h :: post := by simp
      split
      · rename_i hl
        rw [hru]
        exact after_new I w hcs (.inl ⟨h, hhin, by rw [hm, e3], hl⟩)
      · rename_i hl
        rw [addLayer]
        have : findPart n o.parts = some (render C h) := by rw [I.parts]; exact hp
        simp only [this]
        split
        · exact same' _ (by simp)
        · rename_i pm hpm
          have hwr : (C.write h.mapping).1 = true ∧ h.mapping = pm := by
            simp only [render] at hpm
            split at hpm
            · rename_i hx; exact ⟨hx, by simpa using hpm⟩
            · simp at hpm
          split
          · rename_i hi
            split
            · exact same' _ (by simp)
            · rename_i hsl
              intro _
              refine ⟨pre ++ { h with writes := h.writes ++ [w] } :: post, ?_⟩
              simp only [if_true]
              have huser : w.part = h.user := by
                rw [← hru, ← e3, render_name, remove_intName]
              have key := inv_add pre post h I w a b e1 r2.symm r6.symm huser hsl (by rw [hwr.2]; exact hi) hwr.1 hl
                (by rw [hm, e3]) _ rfl
              have e5 : ({ render C h with
                  layers := (render C h).layers ++ [w.layer],
                  group := (render C h).group ++ [.group w.layer (layerGroup w)] } : Part M) =
                  render C { h with writes := h.writes ++ [w] } := by
                simp [render, layerEntry]
              rw [e4, e5]
              exact key
          · exact same' _ (by simp)

/-- A whole file. -/
theorem inv_run {C : MapIO M} {base all} : ∀ (cs : List (Call M)) (o : Out M) (hs : List (Home M)) (ws : List (Write M))
    (rs : List Ret) (o' : Out M), Inv C base all o hs ws → Session cs → (∀ c ∈ cs, c ∈ all) →
    Out.run C o cs = some (rs, o') → ∃ hs', Inv C base all o' hs' (ws ++ stored cs rs)
  | [], o, hs, ws, rs, o', I, _, _, hr => by
    simp only [Out.run, Option.some.injEq, Prod.mk.injEq] at hr
    obtain ⟨rfl, rfl⟩ := hr
    exact ⟨hs, by simpa [stored] using I⟩
  | c :: cs, o, hs, ws, rs, o', I, hsess, hg, hr => by
    have hsess' : Session cs := fun x hx => hsess x (by simp [hx])
    have hg' : ∀ c ∈ cs, c ∈ all := fun es h => hg es (by simp [h])
    rw [Out.run] at hr
    rcases hsess c (by simp) with ⟨w, rfl⟩ | ⟨es, rfl⟩
    · have ha := after_write I w (hg _ (by simp))
      have hstep : o.step C (.write w) = writeLayer C w o := rfl
      rw [hstep] at hr
      generalize writeLayer C w o = r at hr ha
      obtain ⟨r, o1⟩ := r
      cases r with
      | crash => simp at hr
      | threw =>
        obtain ⟨hs1, I1⟩ := ha (by simp)
        simp only [Option.map_eq_some_iff] at hr
        obtain ⟨⟨rs1, o2⟩, h1, h2⟩ := hr
        cases h2
        exact inv_run cs o1 hs1 ws rs1 _ (by simpa using I1) hsess' hg' h1
      | failed =>
        obtain ⟨hs1, I1⟩ := ha (by simp)
        simp only [Option.map_eq_some_iff] at hr
        obtain ⟨⟨rs1, o2⟩, h1, h2⟩ := hr
        cases h2
        exact inv_run cs o1 hs1 ws rs1 _ (by simpa using I1) hsess' hg' h1
      | written =>
        obtain ⟨hs1, I1⟩ := ha (by simp)
        simp only [Option.map_eq_some_iff] at hr
        obtain ⟨⟨rs1, o2⟩, h1, h2⟩ := hr
        cases h2
        obtain ⟨hs2, I2⟩ := inv_run cs o1 hs1 (ws ++ [w]) rs1 _ (by simpa using I1) hsess' hg' h1
        exact ⟨hs2, by simpa [stored] using I2⟩
    · obtain ⟨o1, h1, I1⟩ := inv_global I es (hg _ (by simp))
      have hstep : o.step C (.global es) = (.written, o1) := h1
      rw [hstep] at hr
      simp only [Option.map_eq_some_iff] at hr
      obtain ⟨⟨rs1, o2⟩, h1, h2⟩ := hr
      cases h2
      exact inv_run cs o1 hs ws rs1 _ I1 hsess' hg' h1

theorem inv_wrote {C : MapIO M} {o₀ : Out M} {cs rs o} (h : Wrote C o₀ cs rs o) :
    ∃ hs, Inv C (nextOf o₀.count) cs o hs (stored cs rs) := by
  obtain ⟨hs, I⟩ := inv_run cs _ _ _ rs o (inv_create C cs o₀) h.1 (fun _ h => h) h.2
  exact ⟨hs, by simpa using I⟩

/-! ## Listing -/

/-- The listing made of the partitions, with the names of layers seen through `f`. -/
def homeList (f : List Name → List Name) (hs : List (Home M)) : Listing :=
  hs.map fun h => (intName h.user h.idx, f (h.writes.map (·.layer)))

theorem out_listing {C : MapIO M} {base cs o hs ws} (I : Inv C base cs o hs ws) : o.listing = homeList id hs := by
  rw [Out.listing, I.parts, List.map_map]; rfl

theorem layersOf_home (f : List Name → List Name) : ∀ (hs : List (Home M)), (hs.map Home.key).Nodup →
    ∀ u k, (homeList f hs).layersOf (intName u k) = (hs.find? fun h => h.key = (u, k)).map fun h => f (h.writes.map (·.layer))
  | [], _, u, k => rfl
  | h :: hs, hn, u, k => by
    rw [List.map_cons, List.nodup_cons] at hn
    have ih := layersOf_home f hs hn.2 u k
    show Listing.layersOf ((intName h.user h.idx, f (h.writes.map (·.layer))) :: homeList f hs) (intName u k) = _
    rw [Listing.layersOf]
    by_cases e : h.key = (u, k)
    · have e' : intName h.user h.idx = intName u k := by
        simp only [Home.key, Prod.mk.injEq] at e; rw [e.1, e.2]
      simp [e', e]
    · have e' : ¬ intName h.user h.idx = intName u k := by
        intro x
        obtain ⟨x1, x2⟩ := intName_inj x
        exact e (by simp [Home.key, x1, x2])
      simp [e', e, ih]

theorem numInt_home (f : List Name → List Name) (hs : List (Home M)) (u : Name) :
    (homeList f hs).numInt u = (ofUser u hs).length := by
  unfold Listing.numInt homeList ofUser
  rw [List.filter_map, List.length_map]
  congr 1
  apply List.filter_congr
  intro h _
  simp [beforeDot_intName]

theorem partitionNames_home (f : List Name → List Name) (hs : List (Home M)) (u : Name) :
    u ∈ (homeList f hs).partitionNames ↔ ∃ h ∈ hs, h.user = u := by
  unfold Listing.partitionNames homeList
  rw [makeUnique_mem, List.map_map]
  simp [remove_intName]

theorem find_key {hs : List (Home M)} (hn : (hs.map Home.key).Nodup) (u : Name) (k : Nat) (h : Home M) :
    (hs.find? fun h => h.key = (u, k)) = some h ↔ h ∈ hs ∧ h.key = (u, k) := by
  constructor
  · intro e
    exact ⟨List.mem_of_find?_eq_some e, by simpa using List.find?_some e⟩
  · rintro ⟨h1, h2⟩
    cases e : hs.find? fun h => h.key = (u, k) with
    | none => rw [List.find?_eq_none] at e; exact absurd h2 (by simpa using e h h1)
    | some g =>
      have g1 := List.mem_of_find?_eq_some e
      have g2 : g.key = (u, k) := by simpa using List.find?_some e
      rw [eq_of_key hn g1 h1 (g2.trans h2.symm)]

/-- The layers listed under a name are those of its partitions numbered below their count. -/
theorem layerNames_home (f : List Name → List Name) (hs : List (Home M)) (hn : (hs.map Home.key).Nodup) (u l : Name) :
    l ∈ (homeList f hs).layerNames u ↔
      ∃ h ∈ hs, h.user = u ∧ h.idx < (ofUser u hs).length ∧ l ∈ f (h.writes.map (·.layer)) := by
  unfold Listing.layerNames
  rw [makeUnique_mem, numInt_home, List.mem_flatMap]
  constructor
  · rintro ⟨i, hi, hl⟩
    rw [layersOf_home f hs hn] at hl
    cases e : hs.find? fun h => h.key = (u, i) with
    | none => rw [e] at hl; simp at hl
    | some h =>
      rw [e] at hl
      obtain ⟨h1, h2⟩ := (find_key hn u i h).1 e
      simp only [Home.key, Prod.mk.injEq] at h2
      exact ⟨h, h1, h2.1, by rw [h2.2]; exact List.mem_range.1 hi, by simpa using hl⟩
  · rintro ⟨h, h1, h2, h3, h4⟩
    refine ⟨h.idx, List.mem_range.2 h3, ?_⟩
    rw [layersOf_home f hs hn, (find_key hn u h.idx h).2 ⟨h1, by simp [Home.key, h2]⟩]
    simpa using h4

theorem idx_bounds {C : MapIO M} {base cs o hs ws} (I : Inv C base cs o hs ws) (h : Home M) (hh : h ∈ hs) :
    base h.user ≤ h.idx ∧ h.idx < base h.user + (ofUser h.user hs).length := by
  have hm : h.idx ∈ (ofUser h.user hs).map (·.idx) := List.mem_map_of_mem (mem_ofUser.2 ⟨hh, rfl⟩)
  rw [I.idx, List.mem_map] at hm
  obtain ⟨j, hj, e⟩ := hm
  have := List.mem_range.1 hj
  omega

theorem mem_stored {C : MapIO M} {base cs o hs ws} (I : Inv C base cs o hs ws) (w : Write M) :
    w ∈ ws ↔ ∃ h ∈ hs, w ∈ h.writes := by
  rw [← I.perm.mem_iff, List.mem_flatMap]

end F3D.Files
