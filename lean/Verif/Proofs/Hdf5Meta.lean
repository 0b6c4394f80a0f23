import Verif.Proofs.Hdf5Files
import Verif.Props.Metadata

/-! Lemmas about metadata in HDF5 groups. -/

namespace F3D
namespace Hdf5
open Ogawa Og FieldIO
open Metadata (Dict Meta V3f)
open Props (MVal MKind lookup mkind inFile put lookup_put firstVal firstVal_some firstVal_none InOrder PlainNames
  DistinctNames lookup_kind Increasing get_mem mem_get)

/-- The attribute of a value. -/
def attrOf : MVal → Attr
  | .str v => .str v
  | .int v => .ints [v]
  | .float v => .floats [v]
  | .vecInt v => .ints [v.x, v.y, v.z]
  | .vecFloat v => .floats [v.x, v.y, v.z]

/-- The value of an attribute. -/
def valOf : Attr → Option MVal
  | .str s => some (.str (cstr s))
  | .ints [v] => some (.int v)
  | .ints [x, y, z] => some (.vecInt ⟨x, y, z⟩)
  | .floats [v] => some (.float v)
  | .floats [x, y, z] => some (.vecFloat ⟨x, y, z⟩)
  | _ => none

theorem valOf_attrOf (v : MVal) : valOf (attrOf v) = some (inFile v) := by
  cases v <;> rfl

theorem readAttr_eq (m : Meta) (p : Name × Attr) : readAttr m p = match valOf p.2 with
    | some v => put m p.1 v
    | none => m := by
  obtain ⟨n, a⟩ := p
  cases a with
  | str s => rfl
  | ints v =>
    match v with
    | [] => rfl
    | [_] => rfl
    | [_, _] => rfl
    | [_, _, _] => rfl
    | _ :: _ :: _ :: _ :: _ => rfl
  | floats v =>
    match v with
    | [] => rfl
    | [_] => rfl
    | [_, _] => rfl
    | [_, _, _] => rfl
    | _ :: _ :: _ :: _ :: _ => rfl
  | array16 m => rfl
  | array4x4 m => rfl

theorem fold_lookup (n : Name) (k : MKind) : ∀ (l : List (Name × Attr)) (m0 : Meta), (l.map (·.1)).Nodup →
    lookup (l.foldl readAttr m0) n k = match (named n l).bind valOf with
      | some v => if mkind v = k then some v else lookup m0 n k
      | none => lookup m0 n k
  | [], m0, _ => rfl
  | p :: l, m0, hn => by
    rw [List.map_cons, List.nodup_cons] at hn
    rw [List.foldl_cons, fold_lookup n k l _ hn.2, named, readAttr_eq]
    by_cases hp : p.1 = n
    · have hl : named n l = none := by
        rw [named_none]
        intro q hq e
        exact hn.1 (List.mem_map.2 ⟨q, hq, e.trans hp.symm⟩)
      rw [hl, if_pos hp]
      simp only [Option.bind_none, Option.bind_some]
      cases valOf p.2 with
      | none => rfl
      | some v => simp only [lookup_put, hp, true_and]
    · rw [if_neg hp]
      have : lookup (match valOf p.2 with | some v => put m0 p.1 v | none => m0) n k = lookup m0 n k := by
        cases valOf p.2 with
        | none => rfl
        | some v => simp only [lookup_put, hp, false_and, if_false]
      rw [this]

theorem named_perm {T : Type} {n : Name} {a b : List (Name × T)} (hp : a.Perm b) (hn : (b.map (·.1)).Nodup) :
    named n a = named n b := by
  have hna : (a.map (·.1)).Nodup := (hp.map _).nodup_iff.2 hn
  cases hb : named n b with
  | none =>
    rw [named_none] at hb ⊢
    intro p h
    exact hb p (hp.mem_iff.1 h)
  | some v => exact mem_named hna (hp.mem_iff.2 (named_mem hb))

/-- What `writeMeta` adds. -/
def metaAttrs (m : Meta) : List (Name × Attr) :=
  (m.str.map fun p => (p.1, attrOf (.str p.2))) ++ ((m.int.map fun p => (p.1, attrOf (.int p.2))) ++
  ((m.float.map fun p => (p.1, attrOf (.float p.2))) ++ ((m.vecInt.map fun p => (p.1, attrOf (.vecInt p.2))) ++
  (m.vecFloat.map fun p => (p.1, attrOf (.vecFloat p.2))))))

theorem named_dict {T : Type} (f : T → MVal) (n : Name) : ∀ d : Dict T,
    named n (d.map fun p => (p.1, attrOf (f p.2))) = ((d.get n).map f).map attrOf
  | [] => rfl
  | p :: d => by
    rw [List.map_cons, named, Dict.get, named_dict f n d]
    split <;> rfl

theorem named_meta (m : Meta) (n : Name) : named n (metaAttrs m) = (firstVal m n).map attrOf := by
  have ho : ∀ a b : Option MVal, (a.or b).map attrOf = (a.map attrOf).or (b.map attrOf) := by
    intro a b; cases a <;> rfl
  unfold metaAttrs firstVal
  simp only [named_append, named_dict, ho, lookup]

theorem all_attrs : ∀ (l : List (Name × Attr)) (as : List (Name × Attr)) (ls : List (Name × Obj)),
    (∀ p ∈ l, cstr p.1 = p.1 ∧ p.1 ≠ []) → ((as ++ l).map (·.1)).Nodup →
    W.all (l.map fun p => putAttr p.1 p.2) (.group as ls) = (.ok, .group (as ++ l) ls)
  | [], as, ls, _, _ => by simp [W.all, done]
  | p :: l, as, ls, hp, hn => by
    obtain ⟨h1, h2⟩ := hp p (by simp)
    have hfree : named p.1 as = none := by
      rw [named_none]
      intro q hq e
      rw [List.map_append, List.nodup_append] at hn
      exact hn.2.2 q.1 (List.mem_map.2 ⟨q, hq, rfl⟩) p.1 (by simp) e
    have h3 : putAttr p.1 p.2 (.group as ls) = (.ok, .group (as ++ [p]) ls) := by
      simp only [putAttr, h1, hfree]
      rw [if_neg (by simp [h2])]
    rw [List.map_cons, W.all, seq_ok h3, all_attrs l (as ++ [p]) ls (fun q hq => hp q (by simp [hq])) (by simpa using hn)]
    simp

theorem increasing_less {T : Type} : ∀ (d : Dict T) (n : Name) (v : T), Increasing ((n, v) :: d) →
    Increasing d ∧ ∀ p ∈ d, Metadata.nameLt n p.1 = true
  | [], _, _, _ => ⟨trivial, by simp⟩
  | (m, w) :: d, n, v, h => by
    obtain ⟨h1, h2⟩ := h
    obtain ⟨_, h4⟩ := increasing_less d m w h2
    refine ⟨h2, ?_⟩
    intro p hp
    rw [List.mem_cons] at hp
    rcases hp with rfl | hp
    · exact h1
    · exact Files.nameLt_trans _ _ _ h1 (h4 p hp)

theorem increasing_nodup {T : Type} : ∀ d : Dict T, Increasing d → (d.map (·.1)).Nodup
  | [], _ => by simp
  | (n, v) :: d, h => by
    obtain ⟨h1, h2⟩ := increasing_less d n v h
    rw [List.map_cons, List.nodup_cons]
    refine ⟨?_, increasing_nodup d h1⟩
    intro hm
    obtain ⟨p, hp, e⟩ := List.mem_map.1 hm
    have := h2 p hp
    rw [e, Files.nameLt_irrefl] at this
    simp at this

/-- No name is used in two kinds. -/
def OneKind (m : Meta) : Prop := ∀ n k k' v v', lookup m n k = some v → lookup m n k' = some v' → k = k'

theorem dict_lookup {T : Type} (f : T → MVal) (d : Dict T) (n : Name)
    (h : n ∈ (d.map fun p => (p.1, attrOf (f p.2))).map (·.1)) : ∃ v, (d.get n).map f = some v := by
  rw [List.map_map] at h
  obtain ⟨p, hp, rfl⟩ := List.mem_map.1 h
  obtain ⟨w, hw⟩ := mem_get d p.1 p.2 hp
  exact ⟨f w, by rw [show (((fun x : Name × Attr => x.1) ∘ fun p : Name × T => (p.1, attrOf (f p.2))) p) = p.1 from rfl, hw]; rfl⟩

theorem dict_nodup {T : Type} (f : T → MVal) (d : Dict T) (h : Increasing d) :
    ((d.map fun p => (p.1, attrOf (f p.2))).map (·.1)).Nodup := by
  rw [List.map_map]
  exact increasing_nodup d h

theorem meta_names (m : Meta) (ho : InOrder m) (hd : OneKind m) : ((metaAttrs m).map (·.1)).Nodup := by
  obtain ⟨o1, o2, o3, o4, o5⟩ := ho
  have l1 : ∀ n ∈ (m.str.map fun p => (p.1, attrOf (.str p.2))).map (·.1), ∃ v, lookup m n .str = some v := fun n h =>
    dict_lookup _ _ n h
  have l2 : ∀ n ∈ (m.int.map fun p => (p.1, attrOf (.int p.2))).map (·.1), ∃ v, lookup m n .int = some v := fun n h =>
    dict_lookup _ _ n h
  have l3 : ∀ n ∈ (m.float.map fun p => (p.1, attrOf (.float p.2))).map (·.1), ∃ v, lookup m n .float = some v := fun n h =>
    dict_lookup _ _ n h
  have l4 : ∀ n ∈ (m.vecInt.map fun p => (p.1, attrOf (.vecInt p.2))).map (·.1), ∃ v, lookup m n .vecInt = some v := fun n h =>
    dict_lookup _ _ n h
  have l5 : ∀ n ∈ (m.vecFloat.map fun p => (p.1, attrOf (.vecFloat p.2))).map (·.1), ∃ v, lookup m n .vecFloat = some v :=
    fun n h => dict_lookup _ _ n h
  have apart : ∀ {n k k'}, (∃ v, lookup m n k = some v) → (∃ v, lookup m n k' = some v) → k = k' :=
    fun ⟨v, h⟩ ⟨v', h'⟩ => hd _ _ _ v v' h h'
  have n1 := dict_nodup .str m.str o1
  have n2 := dict_nodup .int m.int o2
  have n3 := dict_nodup .float m.float o3
  have n4 := dict_nodup .vecInt m.vecInt o4
  have n5 := dict_nodup .vecFloat m.vecFloat o5
  unfold metaAttrs
  simp only [List.map_append]
  generalize (m.str.map fun p => (p.1, attrOf (.str p.2))).map (·.1) = a1 at *
  generalize (m.int.map fun p => (p.1, attrOf (.int p.2))).map (·.1) = a2 at *
  generalize (m.float.map fun p => (p.1, attrOf (.float p.2))).map (·.1) = a3 at *
  generalize (m.vecInt.map fun p => (p.1, attrOf (.vecInt p.2))).map (·.1) = a4 at *
  generalize (m.vecFloat.map fun p => (p.1, attrOf (.vecFloat p.2))).map (·.1) = a5 at *
  simp only [List.nodup_append, List.mem_append]
  refine ⟨n1, ⟨n2, ⟨n3, ⟨n4, n5, ?_⟩, ?_⟩, ?_⟩, ?_⟩
  · rintro x hx y hy rfl
    exact absurd (apart (l4 x hx) (l5 x hy)) (by decide)
  · rintro x hx y hy rfl
    rcases hy with hy | hy
    · exact absurd (apart (l3 x hx) (l4 x hy)) (by decide)
    · exact absurd (apart (l3 x hx) (l5 x hy)) (by decide)
  · rintro x hx y hy rfl
    rcases hy with hy | hy | hy
    · exact absurd (apart (l2 x hx) (l3 x hy)) (by decide)
    · exact absurd (apart (l2 x hx) (l4 x hy)) (by decide)
    · exact absurd (apart (l2 x hx) (l5 x hy)) (by decide)
  · rintro x hx y hy rfl
    rcases hy with hy | hy | hy | hy
    · exact absurd (apart (l1 x hx) (l2 x hy)) (by decide)
    · exact absurd (apart (l1 x hx) (l3 x hy)) (by decide)
    · exact absurd (apart (l1 x hx) (l4 x hy)) (by decide)
    · exact absurd (apart (l1 x hx) (l5 x hy)) (by decide)

theorem meta_plain (m : Meta) (hp : PlainNames m) : ∀ p ∈ metaAttrs m, cstr p.1 = p.1 ∧ p.1 ≠ [] := by
  intro p h
  have hf : ∃ v, firstVal m p.1 = some v := by
    cases hf : firstVal m p.1 with
    | some v => exact ⟨v, rfl⟩
    | none =>
      have := named_meta m p.1
      rw [hf, Option.map_none, named_none] at this
      exact absurd rfl (this p h)
  obtain ⟨v, hv⟩ := hf
  obtain ⟨h1, h2⟩ := hp p.1 _ v (firstVal_some m p.1 v hv)
  exact ⟨cstr_plain _ h2, h1⟩

theorem all_seq : ∀ (a b : List W) (g : Obj), (W.all a ⨾ W.all b) g = W.all (a ++ b) g
  | [], b, g => rfl
  | x :: a, b, g => by
    have ih := all_seq a b
    unfold W.seq at ih ⊢
    rw [List.cons_append, W.all, W.all]
    unfold W.seq
    cases hx : x g with
    | mk r g1 =>
      cases r with
      | ok => exact ih g1
      | _ => rfl

theorem writeMeta_all (m : Meta) : writeMeta m = W.all ((metaAttrs m).map fun p => putAttr p.1 p.2) := by
  have hs : ∀ a b : List W, (W.all a ⨾ W.all b) = W.all (a ++ b) := fun a b => funext (all_seq a b)
  unfold writeMeta metaAttrs
  simp only [hs, List.map_append, List.map_map]
  rfl

theorem writeMeta_new (m : Meta) (ho : InOrder m) (hp : PlainNames m) (hd : OneKind m) :
    writeMeta m .new = (.ok, .group (metaAttrs m) []) := by
  rw [writeMeta_all]
  exact all_attrs _ [] [] (meta_plain m hp) (meta_names m ho hd)

theorem readMeta_back (ord : Order) (ha : ∀ l, (ord.attrs l).Perm l) (m m0 : Meta) (ho : InOrder m) (hd : OneKind m)
    (ls : List (Name × Obj)) (n : Name) (k : MKind) :
    lookup (readMeta ord (.group (metaAttrs m) ls) m0) n k = ((lookup m n k).map inFile).or (lookup m0 n k) := by
  show lookup ((ord.attrs (metaAttrs m)).foldl readAttr m0) n k = _
  have hn := meta_names m ho hd
  rw [fold_lookup n k _ m0 (((ha _).map _).nodup_iff.2 hn), named_perm (ha _) hn]
  rw [named_meta]
  cases hf : firstVal m n with
  | none => rw [firstVal_none m n hf k]; rfl
  | some v =>
    have hl := firstVal_some m n v hf
    simp only [Option.map_some, Option.bind_some, valOf_attrOf, Props.mkind_inFile]
    by_cases e : mkind v = k
    · rw [if_pos e, ← e, hl]; rfl
    · rw [if_neg e]
      cases hk : lookup m n k with
      | none => rfl
      | some v' => exact absurd (hd n _ _ _ _ hl hk) e

end Hdf5
end F3D
