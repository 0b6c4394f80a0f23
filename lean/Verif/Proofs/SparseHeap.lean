import Verif.Model.SparseHeap
import Verif.Proofs.Sparse

namespace F3D
namespace Heap
variable {α : Type}

/-- A block table owns a data address. -/
def Owns (bl : List (HBlock α)) (a : Nat) : Prop := ∃ b ∈ bl, b.data = some a

/-- No two blocks of a table share a data array. -/
def PW (bl : List (HBlock α)) : Prop :=
  bl.Pairwise (fun x y => ∀ a, x.data = some a → y.data ≠ some a)

def Fresh (h : Heap α) : Prop :=
  (∀ a, h.nextT ≤ a → h.tbl a = none) ∧ (∀ a, h.nextB ≤ a → h.buf a = none)

/-- A block with its pointer resolved. -/
def res (h : Heap α) (b : HBlock α) : Block α := ⟨b.isAllocated, b.emptyValue, b.data.bind h.buf⟩

/-- `h'` arises from `h` by changing only what is owned by `OT`, `OB` or new; afterwards `OT'`,
`OB'` are owned, and nothing is lost. -/
structure Local (h h' : Heap α) (OT OB OT' OB' : Nat → Prop) : Prop where
  tfr : ∀ a, h.tbl a ≠ none → ¬ OT a → h'.tbl a = h.tbl a
  bfr : ∀ a, h.buf a ≠ none → ¬ OB a → h'.buf a = h.buf a
  tnew : ∀ a, OT' a → OT a ∨ h.tbl a = none
  bnew : ∀ a, OB' a → OB a ∨ h.buf a = none
  tleak : ∀ a, h'.tbl a ≠ none → OT' a ∨ (h.tbl a ≠ none ∧ ¬ OT a)
  bleak : ∀ a, h'.buf a ≠ none → OB' a ∨ (h.buf a ≠ none ∧ ¬ OB a)

theorem Local.refl (h : Heap α) (OT OB : Nat → Prop) : Local h h OT OB OT OB where
  tfr _ _ _ := rfl
  bfr _ _ _ := rfl
  tnew _ h := Or.inl h
  bnew _ h := Or.inl h
  tleak a h := by by_cases h1 : OT a; exact Or.inl h1; exact Or.inr ⟨h, h1⟩
  bleak a h := by by_cases h1 : OB a; exact Or.inl h1; exact Or.inr ⟨h, h1⟩

theorem Local.trans {h h' h'' : Heap α} {OT OB OT' OB' OT'' OB'' : Nat → Prop}
    (l : Local h h' OT OB OT' OB') (m : Local h' h'' OT' OB' OT'' OB'') :
    Local h h'' OT OB OT'' OB'' where
  tfr := by
    intro a h1 h2
    have e := l.tfr a h1 h2
    rw [m.tfr a (by rw [e]; exact h1) (fun h3 => (l.tnew a h3).elim h2 h1), e]
  bfr := by
    intro a h1 h2
    have e := l.bfr a h1 h2
    rw [m.bfr a (by rw [e]; exact h1) (fun h3 => (l.bnew a h3).elim h2 h1), e]
  tnew := by
    intro a h1
    rcases m.tnew a h1 with h2 | h2
    · exact l.tnew a h2
    · by_cases h3 : OT a
      · exact Or.inl h3
      · by_cases h4 : h.tbl a = none
        · exact Or.inr h4
        · rw [l.tfr a h4 h3] at h2; exact Or.inr h2
  bnew := by
    intro a h1
    rcases m.bnew a h1 with h2 | h2
    · exact l.bnew a h2
    · by_cases h3 : OB a
      · exact Or.inl h3
      · by_cases h4 : h.buf a = none
        · exact Or.inr h4
        · rw [l.bfr a h4 h3] at h2; exact Or.inr h2
  tleak := by
    intro a h1
    rcases m.tleak a h1 with h2 | ⟨h2, h3⟩
    · exact Or.inl h2
    · rcases l.tleak a h2 with h4 | h4
      · exact absurd h4 h3
      · exact Or.inr h4
  bleak := by
    intro a h1
    rcases m.bleak a h1 with h2 | ⟨h2, h3⟩
    · exact Or.inl h2
    · rcases l.bleak a h2 with h4 | h4
      · exact absurd h4 h3
      · exact Or.inr h4

/-- Effect of the destructors of a table's blocks. -/
theorem freeBlocks_spec (bl : List (HBlock α)) : ∀ (h : Heap α), PW bl →
    (∀ a, Owns bl a → h.buf a ≠ none) →
    ∃ h', h.freeBlocks bl = some h' ∧ h'.tbl = h.tbl ∧ h'.map = h.map ∧ h'.nextT = h.nextT ∧
      h'.nextB = h.nextB ∧ h'.nextM = h.nextM ∧
      (∀ a, Owns bl a → h'.buf a = none) ∧ (∀ a, ¬ Owns bl a → h'.buf a = h.buf a) := by
  induction bl with
  | nil =>
    intro h _ _
    refine ⟨h, rfl, rfl, rfl, rfl, rfl, rfl, ?_, fun _ _ => rfl⟩
    rintro a ⟨b, hb, _⟩; cases hb
  | cons b bs ih =>
    intro h hp hl
    obtain ⟨hp1, hp2⟩ := List.pairwise_cons.mp hp
    cases hd : b.data with
    | none =>
      obtain ⟨h', e, h1, h2, h3, h4, h5, h6, h7⟩ := ih h hp2
        (fun a ⟨c, hc, hca⟩ => hl a ⟨c, List.mem_cons_of_mem _ hc, hca⟩)
      have how : ∀ a, Owns (b :: bs) a ↔ Owns bs a := by
        intro a
        constructor
        · rintro ⟨c, hc, hca⟩
          rcases List.mem_cons.mp hc with rfl | hc
          · rw [hd] at hca; cases hca
          · exact ⟨c, hc, hca⟩
        · rintro ⟨c, hc, hca⟩; exact ⟨c, List.mem_cons_of_mem _ hc, hca⟩
      refine ⟨h', ?_, h1, h2, h3, h4, h5, ?_, ?_⟩
      · simp only [freeBlocks, freeData, hd, Option.bind_some, e]
      · intro a ha; exact h6 a ((how a).mp ha)
      · intro a ha; exact h7 a (fun h => ha ((how a).mpr h))
    | some x =>
      have hx : h.buf x ≠ none := hl x ⟨b, List.mem_cons_self, hd⟩
      obtain ⟨d, hxd⟩ := Option.ne_none_iff_exists'.mp hx
      have hnot : ¬ Owns bs x := by
        rintro ⟨c, hc, hca⟩
        exact hp1 c hc x hd hca
      obtain ⟨h', e, h1, h2, h3, h4, h5, h6, h7⟩ := ih
        { h with buf := fun y => if y = x then none else h.buf y } hp2 (by
          rintro a ⟨c, hc, hca⟩
          have : a ≠ x := by rintro rfl; exact hnot ⟨c, hc, hca⟩
          simp only [this, if_false]
          exact hl a ⟨c, List.mem_cons_of_mem _ hc, hca⟩)
      refine ⟨h', ?_, h1, h2, h3, h4, h5, ?_, ?_⟩
      · simp only [freeBlocks, freeData, hd, freeBuf, hxd, Option.bind_some, e]
      · rintro a ⟨c, hc, hca⟩
        rcases List.mem_cons.mp hc with rfl | hc
        · rw [hd] at hca; cases hca
          rw [h7 x hnot]; simp
        · exact h6 a ⟨c, hc, hca⟩
      · intro a ha
        have hax : a ≠ x := by rintro rfl; exact ha ⟨b, List.mem_cons_self, hd⟩
        rw [h7 a (fun ⟨c, hc, hca⟩ => ha ⟨c, List.mem_cons_of_mem _ hc, hca⟩)]
        simp [hax]

theorem deleteTable_spec {h : Heap α} {t : Nat} {bl : List (HBlock α)} (hf : h.Fresh)
    (ht : h.tbl t = some bl) (hp : PW bl) (hl : ∀ a, Owns bl a → h.buf a ≠ none) :
    ∃ h', h.deleteTable (some t) = some h' ∧ h'.Fresh ∧ h'.map = h.map ∧ h'.nextM = h.nextM ∧
      Local h h' (· = t) (Owns bl) (fun _ => False) (fun _ => False) := by
  obtain ⟨h', e, h1, h2, h3, h4, h5, h6, h7⟩ := freeBlocks_spec bl h hp hl
  refine ⟨{ h' with tbl := fun x => if x = t then none else h'.tbl x },
    by simp only [deleteTable, ht, e, Option.map_some], ?_, h2, h5, ?_⟩
  · refine ⟨?_, ?_⟩
    · intro a ha
      simp only at ha ⊢
      split
      · rfl
      · rw [h1]; exact hf.1 a (by omega)
    · intro a ha
      simp only at ha ⊢
      by_cases ho : Owns bl a
      · exact h6 a ho
      · rw [h7 a ho]; exact hf.2 a (by omega)
  · constructor
    · intro a _ ha; simp only [ha, if_false, h1]
    · intro a _ ha; exact h7 a ha
    · intro a h; exact h.elim
    · intro a h; exact h.elim
    · intro a ha
      simp only at ha
      right
      by_cases h : a = t
      · simp [h] at ha
      · simp only [h, if_false, h1] at ha
        exact ⟨ha, h⟩
    · intro a ha
      right
      by_cases ho : Owns bl a
      · exact absurd (h6 a ho) ha
      · simp only at ha
        rw [h7 a ho] at ha; exact ⟨ha, ho⟩

/-- What is owned after creating a table for blocks without data. -/
theorem newTable_spec {h : Heap α} (hf : h.Fresh) (bl : List (HBlock α)) {OB : Nat → Prop} :
    (h.newTable bl).1.Fresh ∧ (h.newTable bl).1.tbl h.nextT = some bl ∧
    (h.newTable bl).1.buf = h.buf ∧
    Local h (h.newTable bl).1 (fun _ => False) OB (· = h.nextT) OB := by
  refine ⟨⟨?_, ?_⟩, by simp [newTable], rfl, ?_⟩
  · intro a ha
    simp only [newTable] at ha ⊢
    rw [if_neg (by omega)]
    exact hf.1 a (by omega)
  · intro a ha; exact hf.2 a ha
  · constructor
    · intro a h1 _
      have : a ≠ h.nextT := by rintro rfl; exact h1 (hf.1 _ (Nat.le_refl _))
      simp [newTable, this]
    · intro a _ _; rfl
    · rintro a rfl; exact Or.inr (hf.1 _ (Nat.le_refl _))
    · intro a h; exact Or.inl h
    · intro a ha
      by_cases h1 : a = h.nextT
      · exact Or.inl h1
      · simp only [newTable, h1, if_false] at ha
        exact Or.inr ⟨ha, fun h => h⟩
    · intro a ha
      by_cases h1 : OB a
      · exact Or.inl h1
      · exact Or.inr ⟨ha, h1⟩

end Heap

namespace HField
open Heap
variable {α : Type}

/-- The field seen through its resolved blocks. -/
def flat (h : Heap α) (f : HField) (bl : List (HBlock α)) : Sparse α :=
  ⟨f.extents, f.dw, f.order, f.bres, f.bxy, bl.map h.res⟩

/-- `f` is laid out properly in the heap with table `t` holding `bl`. -/
structure Rep (h : Heap α) (f : HField) (t : Nat) (bl : List (HBlock α)) : Prop where
  tab : f.table = some t
  tbl : h.tbl t = some bl
  pw : PW bl
  live : ∀ a, Owns bl a → h.buf a ≠ none

theorem setupBlocks_spec {h : Heap α} {f : HField} (zero : α) (hf : h.Fresh) {OT OB : Nat → Prop}
    (hold : (f.table = none ∧ OT = (fun _ => False) ∧ OB = (fun _ => False)) ∨
      ∃ t bl, Rep h f t bl ∧ OT = (· = t) ∧ OB = Owns bl) :
    ∃ h' f' t' bl', setupBlocks zero h f = some (h', f') ∧ h'.Fresh ∧ Rep h' f' t' bl' ∧
      Local h h' OT OB (· = t') (Owns bl') ∧ h'.map = h.map ∧ h'.nextM = h.nextM ∧
      f'.mapping = f.mapping ∧ f'.extents = f.extents ∧
      bl' = List.replicate ((f.shape α).setupBlocks zero).blocks.length ⟨false, zero, none⟩ ∧
      flat h' f' bl' = (f.shape α).setupBlocks zero := by
  have main : ∀ h1 : Heap α, h.deleteTable f.table = some h1 → h1.Fresh → h1.map = h.map →
      h1.nextM = h.nextM → Local h h1 OT OB (fun _ => False) (fun _ => False) → 
      ∃ h' f' t' bl', setupBlocks zero h f = some (h', f') ∧ h'.Fresh ∧ Rep h' f' t' bl' ∧
      Local h h' OT OB (· = t') (Owns bl') ∧ h'.map = h.map ∧ h'.nextM = h.nextM ∧
      f'.mapping = f.mapping ∧ f'.extents = f.extents ∧
      bl' = List.replicate ((f.shape α).setupBlocks zero).blocks.length ⟨false, zero, none⟩ ∧
      flat h' f' bl' = (f.shape α).setupBlocks zero := by
    intro h1 e hf1 hm hn l1
    let bl' : List (HBlock α) :=
      List.replicate ((f.shape α).setupBlocks zero).blocks.length ⟨false, zero, none⟩
    have hno : ∀ a, ¬ Owns bl' a := by
      rintro a ⟨b, hb, hba⟩
      rw [List.eq_of_mem_replicate hb] at hba; cases hba
    have hOB : Owns bl' = (fun _ => False) := by
      funext a; exact propext ⟨hno a, False.elim⟩
    obtain ⟨n1, n2, n3, n4⟩ := newTable_spec hf1 bl' (OB := fun _ => False)
    refine ⟨(h1.newTable bl').1,
      { f with bres := ((f.shape α).setupBlocks zero).bres, bxy := ((f.shape α).setupBlocks zero).bxy,
               table := some h1.nextT }, h1.nextT, bl', ?_, n1, ⟨rfl, n2, ?_, ?_⟩, ?_, ?_, ?_, rfl, rfl,
      rfl, ?_⟩
    · simp only [setupBlocks, e, Option.map_some]; rfl
    · unfold PW
      apply List.pairwise_replicate.mpr
      right; intro a h; cases h
    · intro a ha; exact absurd ha (hno a)
    · rw [hOB]; exact l1.trans n4
    · exact hm
    · exact hn
    · simp only [flat, bl', List.map_replicate]
      have : res (h1.newTable bl').1 ⟨false, zero, none⟩ = Block.fresh zero := rfl
      rw [this]
      simp only [Sparse.setupBlocks, List.length_replicate, shape]
  rcases hold with ⟨h0, rfl, rfl⟩ | ⟨t, bl, r, rfl, rfl⟩
  · refine main h (by rw [h0]; rfl) hf rfl rfl ?_
    exact Local.refl _ _ _
  · obtain ⟨h1, e, f1, m1, n1, l1⟩ := deleteTable_spec hf r.tbl r.pw r.live
    exact main h1 (by rw [r.tab]; exact e) f1 m1 n1 l1

theorem pw_iff (bl : List (HBlock α)) : PW bl ↔ ∀ (i j : Nat) (x y : HBlock α), i ≠ j → bl[i]? = some x →
    bl[j]? = some y → ∀ a, x.data = some a → y.data ≠ some a := by
  unfold PW
  rw [List.pairwise_iff_getElem]
  constructor
  · intro H i j x y hij hx hy a hxa hya
    obtain ⟨hi, rfl⟩ := List.getElem?_eq_some_iff.mp hx
    obtain ⟨hj, rfl⟩ := List.getElem?_eq_some_iff.mp hy
    rcases Nat.lt_or_gt_of_ne hij with h | h
    · exact H i j hi hj h a hxa hya
    · exact H j i hj hi h a hya hxa
  · intro H i j hi hj hij a hx hy
    exact H i j _ _ (by omega) (List.getElem?_eq_getElem hi) (List.getElem?_eq_getElem hj) a hx hy

/-- Replacing one block and touching only its data. -/
theorem update_spec {h h' : Heap α} {f : HField} {t : Nat} {bl : List (HBlock α)} (hf : h.Fresh)
    (r : Rep h f t bl) {i : Nat} {b b' : HBlock α} (hb : bl[i]? = some b)
    (ht : ∀ x, h'.tbl x = if x = t then some (bl.set i b') else h.tbl x)
    (hT : h'.nextT = h.nextT) (hB : h.nextB ≤ h'.nextB) (hBf : ∀ a, h'.nextB ≤ a → h'.buf a = none)
    (hoth : ∀ a, b.data ≠ some a → b'.data ≠ some a → h'.buf a = h.buf a)
    (hnew : ∀ a, b'.data = some a → h'.buf a ≠ none ∧ (b.data = some a ∨ h.buf a = none))
    (hold : ∀ a, b.data = some a → b'.data ≠ some a → h'.buf a = none) :
    h'.Fresh ∧ Rep h' f t (bl.set i b') ∧
    Local h h' (· = t) (Owns bl) (· = t) (Owns (bl.set i b')) ∧
    flat h' f (bl.set i b') = (flat h f bl).setBlock (i : Nat) (h'.res b') := by
  obtain ⟨hi, hbi⟩ := List.getElem?_eq_some_iff.mp hb
  have hbm : b ∈ bl := List.mem_of_getElem? hb
  have hpw := (pw_iff bl).mp r.pw
  have hothers : ∀ k c, k ≠ i → bl[k]? = some c → ∀ a, c.data = some a →
      b.data ≠ some a ∧ b'.data ≠ some a := by
    intro k c hk hc a hca
    have h1 : b.data ≠ some a := by
      intro hba; exact hpw i k b c (Ne.symm hk) hb hc a hba hca
    refine ⟨h1, ?_⟩
    intro hba
    rcases (hnew a hba).2 with h2 | h2
    · exact h1 h2
    · exact r.live a ⟨c, List.mem_of_getElem? hc, hca⟩ h2
  have hown : ∀ a, Owns (bl.set i b') a ↔ b'.data = some a ∨ (Owns bl a ∧ b.data ≠ some a) := by
    intro a
    constructor
    · rintro ⟨c, hc, hca⟩
      obtain ⟨k, hk⟩ := List.getElem?_of_mem hc
      by_cases hki : k = i
      · subst hki
        rw [List.getElem?_set_self hi] at hk; cases hk
        exact Or.inl hca
      · rw [List.getElem?_set_ne (Ne.symm hki)] at hk
        exact Or.inr ⟨⟨c, List.mem_of_getElem? hk, hca⟩, (hothers k c hki hk a hca).1⟩
    · rintro (h1 | ⟨⟨c, hc, hca⟩, h2⟩)
      · exact ⟨b', List.mem_of_getElem? (List.getElem?_set_self hi), h1⟩
      · obtain ⟨k, hk⟩ := List.getElem?_of_mem hc
        have hki : k ≠ i := by
          rintro rfl; rw [hb] at hk; cases hk; exact h2 hca
        exact ⟨c, List.mem_of_getElem? (by rw [List.getElem?_set_ne (Ne.symm hki)]; exact hk), hca⟩
  refine ⟨⟨?_, hBf⟩, ⟨r.tab, ?_, ?_, ?_⟩, ?_, ?_⟩
  · intro a ha
    rw [ht]
    split
    · rename_i h1
      subst h1
      have := hf.1 a (by omega)
      rw [r.tbl] at this; cases this
    · exact hf.1 a (by omega)
  · rw [ht]; simp
  · rw [pw_iff]
    intro k l x y hkl hx hy a hxa hya
    by_cases hk : k = i
    · subst hk
      rw [List.getElem?_set_self hi] at hx; cases hx
      rw [List.getElem?_set_ne hkl] at hy
      exact (hothers l y (Ne.symm hkl) hy a hya).2 hxa
    · rw [List.getElem?_set_ne (Ne.symm hk)] at hx
      by_cases hl : l = i
      · subst hl
        rw [List.getElem?_set_self hi] at hy; cases hy
        exact (hothers k x hk hx a hxa).2 hya
      · rw [List.getElem?_set_ne (Ne.symm hl)] at hy
        exact hpw k l x y hkl hx hy a hxa hya
  · intro a ha
    rcases (hown a).mp ha with h1 | ⟨h1, h2⟩
    · exact (hnew a h1).1
    · by_cases h3 : b'.data = some a
      · exact (hnew a h3).1
      · rw [hoth a h2 h3]; exact r.live a h1
  · constructor
    · intro a _ ha; rw [ht, if_neg ha]
    · intro a h1 ha
      have h2 : b.data ≠ some a := fun h => ha ⟨b, hbm, h⟩
      refine hoth a h2 ?_
      intro h3
      rcases (hnew a h3).2 with h4 | h4
      · exact h2 h4
      · exact h1 h4
    · intro a h; exact Or.inl h
    · intro a ha
      rcases (hown a).mp ha with h1 | ⟨h1, _⟩
      · rcases (hnew a h1).2 with h4 | h4
        · exact Or.inl ⟨b, hbm, h4⟩
        · exact Or.inr h4
      · exact Or.inl h1
    · intro a ha
      by_cases h : a = t
      · exact Or.inl h
      · rw [ht, if_neg h] at ha; exact Or.inr ⟨ha, h⟩
    · intro a ha
      by_cases h3 : b'.data = some a
      · exact Or.inl ((hown a).mpr (Or.inl h3))
      · by_cases h2 : b.data = some a
        · exact absurd (hold a h2 h3) ha
        · rw [hoth a h2 h3] at ha
          by_cases h4 : Owns bl a
          · exact Or.inl ((hown a).mpr (Or.inr ⟨h4, h2⟩))
          · exact Or.inr ⟨ha, h4⟩
  · simp only [flat, Sparse.setBlock, Int.toNat_natCast]
    congr 1
    apply List.ext_getElem?
    intro k
    by_cases hk : k = i
    · subst hk
      rw [List.getElem?_map, List.getElem?_set_self hi, List.getElem?_set_self (by simpa using hi)]
      rfl
    · rw [List.getElem?_map, List.getElem?_set_ne (Ne.symm hk), List.getElem?_set_ne (Ne.symm hk),
        List.getElem?_map]
      cases hc : bl[k]? with
      | none => rfl
      | some c =>
        simp only [Option.map_some, res]
        congr 2
        cases hd : c.data with
        | none => rfl
        | some a =>
          simp only [Option.bind_some]
          obtain ⟨h1, h2⟩ := hothers k c hk hc a hd
          exact hoth a h1 h2

/-- Looking up a block of a well-laid-out field. -/
theorem block?_nat {h : Heap α} {f : HField} {t : Nat} {bl : List (HBlock α)} (r : Rep h f t bl)
    (i : Nat) : block? h f (i : Int) = bl[i]?.map (fun b => (t, bl, b)) := by
  simp only [block?, r.tab, r.tbl, Int.toNat_natCast]
  rw [if_pos (by omega)]
  cases bl[i]? <;> rfl

theorem blockId_flat {h : Heap α} {f : HField} {bl : List (HBlock α)} (c : V3i) :
    (f.shape α).blockId c = (flat h f bl).blockId c := rfl

/-- Resolved blocks of a well-formed field. -/
theorem get_hblock {h : Heap α} {f : HField} {bl : List (HBlock α)} (wf : (flat h f bl).WF)
    {p : V3i} (hp : f.dw.contains p = true) :
    ∃ b, bl[(flat h f bl).idN p]? = some b ∧ (flat h f bl).blocks[(flat h f bl).idN p]? = some (h.res b) ∧
      Sparse.BWF (flat h f bl).bvol (h.res b) := by
  obtain ⟨b, hb, hw⟩ := Sparse.get_block wf hp
  have hb' := hb
  simp only [flat, List.getElem?_map] at hb'
  cases hc : bl[(flat h f bl).idN p]? with
  | none => simp only [flat] at hc; rw [hc] at hb'; cases hb'
  | some c =>
    have hc' := hc
    simp only [flat] at hc'
    rw [hc'] at hb'; cases hb'
    exact ⟨c, rfl, hb, hw⟩

/-- What the block flags say about the data pointer. -/
theorem hblock_data {h : Heap α} {n : Nat} {b : HBlock α} (hw : Sparse.BWF n (h.res b))
    (hl : ∀ a, b.data = some a → h.buf a ≠ none) :
    (b.isAllocated = true → ∃ a d, b.data = some a ∧ h.buf a = some d ∧ d.length = n) ∧
    (b.isAllocated = false → b.data = none) := by
  constructor
  · intro ha
    simp only [Sparse.BWF, res, ha, if_true] at hw
    obtain ⟨d, hd, hn⟩ := hw
    cases hb : b.data with
    | none => rw [hb] at hd; cases hd
    | some a => rw [hb] at hd; exact ⟨a, d, rfl, hd, hn⟩
  · intro ha
    simp only [Sparse.BWF, res, ha, Bool.false_eq_true, if_false] at hw
    cases hb : b.data with
    | none => rfl
    | some a => rw [hb] at hw; exact absurd hw (hl a hb)

theorem write_spec {h : Heap α} {f : HField} {t : Nat} {bl : List (HBlock α)} (hf : h.Fresh)
    (r : Rep h f t bl) (wf : (flat h f bl).WF) {p : V3i} (hp : f.dw.contains p = true) (v : α) :
    ∃ h' bl', write h f p v = some h' ∧ h'.Fresh ∧ Rep h' f t bl' ∧
      Local h h' (· = t) (Owns bl) (· = t) (Owns bl') ∧ h'.map = h.map ∧ h'.nextM = h.nextM ∧
      (flat h f bl).write p v = some (flat h' f bl') := by
  obtain ⟨b, hb, hsb, hw⟩ := get_hblock wf hp
  have hbm : b ∈ bl := List.mem_of_getElem? hb
  have hid : (f.shape α).blockId ((f.shape α).blockCoord ((f.shape α).offsetCoord p)) =
      ((flat h f bl).idN p : Nat) := Sparse.id_eq wf hp
  have hoffs : Block.offset f.order ((f.shape α).voxelInBlock ((f.shape α).offsetCoord p)) =
      ((flat h f bl).offN p : Nat) := Sparse.off_eq (f := flat h f bl) hp
  have hlt := Sparse.offN_lt (flat h f bl) p
  have hilt := Sparse.idN_lt wf hp
  have hid' : (flat h f bl).blockId ((flat h f bl).blockCoord ((flat h f bl).offsetCoord p)) =
      ((flat h f bl).idN p : Nat) := hid
  have hoffs' : Block.offset (flat h f bl).order
      ((flat h f bl).voxelInBlock ((flat h f bl).offsetCoord p)) = ((flat h f bl).offN p : Nat) := hoffs
  generalize hI : (flat h f bl).idN p = i at *
  generalize hO : (flat h f bl).offN p = o at *
  have hvol : (flat h f bl).bvol = 2 ^ f.order * 2 ^ f.order * 2 ^ f.order := rfl
  obtain ⟨hd1, hd2⟩ := hblock_data hw (fun a ha => r.live a ⟨b, hbm, ha⟩)
  cases ha : b.isAllocated with
  | true =>
    obtain ⟨a, d, hba, had, hdl⟩ := hd1 ha
    have hset : bl.set i b = bl := by
      obtain ⟨hi, rfl⟩ := List.getElem?_eq_some_iff.mp hb
      exact List.set_getElem_self hi
    obtain ⟨u1, u2, u3, u4⟩ := update_spec (h' := h.setBuf a (d.set o v)) (b' := b) hf r hb
      (by intro x; rw [hset]; simp only [setBuf]; split
          · rename_i hx; rw [hx]; exact r.tbl
          · rfl)
      rfl (Nat.le_refl _)
      (by intro x hx; simp only [setBuf] at hx ⊢
          split
          · rename_i hxa; subst hxa
            rw [hf.2 x hx] at had; cases had
          · exact hf.2 x hx)
      (by intro x hx _; simp only [setBuf]
          rw [if_neg]; rintro rfl; exact hx hba)
      (by intro x hx; rw [hba] at hx; cases hx; simp [setBuf, hba])
      (by intro x hx hx'; exact absurd hx hx')
    rw [hset] at u2 u3 u4
    refine ⟨h.setBuf a (d.set o v), bl, ?_, u1, u2, u3, rfl, rfl, ?_⟩
    · simp only [write, hid, hoffs, block?_nat r, hb, Option.map_some, ha, if_true, hba, had,
        Int.toNat_natCast]
      rw [if_pos ⟨by omega, by omega⟩]
    · rw [u4]
      simp only [Sparse.write, Sparse.lvalue, hid', hoffs', Sparse.block?_nat, hsb, Sparse.store]
      have : (h.res b).isAllocated = true := ha
      simp only [this, if_true, Sparse.block?_nat, hsb, Option.bind_some]
      have : (h.res b).data = some d := by simp [res, hba, had]
      simp only [Block.write, this, Int.toNat_natCast]
      rw [if_pos ⟨by omega, by omega⟩]
      simp [res, hba, setBuf]
  | false =>
    have hbd := hd2 ha
    have hfr : h.buf h.nextB = none := hf.2 _ (Nat.le_refl _)
    let n := 2 ^ f.order * 2 ^ f.order * 2 ^ f.order
    let b' : HBlock α := ⟨true, b.emptyValue, some h.nextB⟩
    let d' := (List.replicate n b.emptyValue).set o v
    let h' : Heap α := (((h.newBuf (List.replicate n b.emptyValue)).1.setTbl t (bl.set i b')).setBuf
      h.nextB d')
    obtain ⟨u1, u2, u3, u4⟩ := update_spec (h' := h') (b' := b') hf r hb
      (by intro x; simp only [h', setBuf, setTbl, newBuf])
      rfl (by simp [h', setBuf, setTbl, newBuf])
      (by intro x hx; simp only [h', setBuf, setTbl, newBuf] at hx ⊢
          rw [if_neg (by omega), if_neg (by omega)]; exact hf.2 x (by omega))
      (by intro x _ hx
          have hx' : x ≠ h.nextB := by rintro rfl; exact hx rfl
          simp [h', setBuf, setTbl, newBuf, hx'])
      (by intro x hx
          have hx' : h.nextB = x := by simpa [b'] using hx
          subst hx'
          exact ⟨by simp [h', setBuf], Or.inr hfr⟩)
      (by intro x hx; rw [hbd] at hx; cases hx)
    refine ⟨h', bl.set i b', ?_, u1, u2, u3, rfl, rfl, ?_⟩
    · simp only [write, hid, hoffs, block?_nat r, hb, Option.map_some, ha, Int.toNat_natCast,
        freeData, hbd, newBuf, setTbl]
      have hlt' : o < 2 ^ f.order * 2 ^ f.order * 2 ^ f.order := by rw [← hvol]; exact hlt
      simp [h', setBuf, setTbl, newBuf, b', d', n, hlt']
    · rw [u4]
      simp only [Sparse.write, Sparse.lvalue, hid', hoffs', Sparse.block?_nat, hsb, Sparse.store]
      have hna : (h.res b).isAllocated = false := ha
      simp only [hna, Bool.false_eq_true, if_false]
      rw [Sparse.block?_nat]
      simp only [Sparse.setBlock, Int.toNat_natCast]
      rw [List.getElem?_set_self hilt]
      simp only [Option.bind_some, Block.write, Block.resize, Int.toNat_natCast,
        List.length_replicate]
      rw [if_pos ⟨by omega, hlt⟩]
      simp only [List.set_set, flat, res, h', setBuf, b', d', n, Option.bind_some, if_true]

theorem setBlockEmptyValue_spec {h : Heap α} {f : HField} {t : Nat} {bl : List (HBlock α)}
    (hf : h.Fresh) (r : Rep h f t bl) (wf : (flat h f bl).WF) {p : V3i}
    (hp : f.dw.contains p = true) (v : α) {bc : V3i}
    (hbc : (flat h f bl).blockCoord ((flat h f bl).offsetCoord p) = bc) :
    ∃ h' bl', setBlockEmptyValue h f bc v = some h' ∧ h'.Fresh ∧ Rep h' f t bl' ∧
      Local h h' (· = t) (Owns bl) (· = t) (Owns bl') ∧ h'.map = h.map ∧ h'.nextM = h.nextM ∧
      (flat h f bl).setBlockEmptyValue bc v = some (flat h' f bl') := by
  subst hbc
  obtain ⟨b, hb, hsb, hw⟩ := get_hblock wf hp
  have hbm : b ∈ bl := List.mem_of_getElem? hb
  have hid' : (flat h f bl).blockId ((flat h f bl).blockCoord ((flat h f bl).offsetCoord p)) =
      ((flat h f bl).idN p : Nat) := Sparse.id_eq wf hp
  have hid : (f.shape α).blockId ((flat h f bl).blockCoord ((flat h f bl).offsetCoord p)) =
      ((flat h f bl).idN p : Nat) := hid'
  generalize hI : (flat h f bl).idN p = i at *
  obtain ⟨hd1, hd2⟩ := hblock_data hw (fun a ha => r.live a ⟨b, hbm, ha⟩)
  cases ha : b.isAllocated with
  | true =>
    obtain ⟨a, d, hba, had, hdl⟩ := hd1 ha
    let b' : HBlock α := ⟨false, v, none⟩
    let h' : Heap α := Heap.setTbl
      { h with buf := fun x => if x = a then none else h.buf x } t (bl.set i b')
    obtain ⟨u1, u2, u3, u4⟩ := update_spec (h' := h') (b' := b') hf r hb
      (by intro x; simp only [h', setTbl])
      rfl (Nat.le_refl _)
      (by intro x hx; simp only [h', setTbl] at hx ⊢
          split
          · rfl
          · exact hf.2 x hx)
      (by intro x hx _; simp only [h', setTbl]
          rw [if_neg]; rintro rfl; exact hx hba)
      (by intro x hx; cases hx)
      (by intro x hx _; rw [hba] at hx; cases hx; simp [h', setTbl])
    refine ⟨h', bl.set i b', ?_, u1, u2, u3, rfl, rfl, ?_⟩
    · simp only [setBlockEmptyValue, hid, block?_nat r, hb, Option.map_some, ha, if_true, freeData,
        hba, freeBuf, had, Int.toNat_natCast]
      rfl
    · rw [u4]
      simp only [Sparse.setBlockEmptyValue, hid', Sparse.block?_nat, hsb]
      have : (h.res b).isAllocated = true := ha
      simp only [this, if_true]
      rfl
  | false =>
    have hbd := hd2 ha
    let b' : HBlock α := { b with emptyValue := v }
    obtain ⟨u1, u2, u3, u4⟩ := update_spec (h' := h.setTbl t (bl.set i b')) (b' := b') hf r hb
      (by intro x; simp only [setTbl])
      rfl (Nat.le_refl _)
      (by intro x hx; exact hf.2 x hx)
      (by intro x hx _; rfl)
      (by intro x hx; have : b.data = some x := hx; rw [hbd] at this; cases this)
      (by intro x hx _; rw [hbd] at hx; cases hx)
    refine ⟨h.setTbl t (bl.set i b'), bl.set i b', ?_, u1, u2, u3, rfl, rfl, ?_⟩
    · simp only [setBlockEmptyValue, hid, block?_nat r, hb, Option.map_some, ha,
        Bool.false_eq_true, if_false, Int.toNat_natCast, b']
    · rw [u4]
      simp only [Sparse.setBlockEmptyValue, hid', Sparse.block?_nat, hsb]
      have : (h.res b).isAllocated = false := ha
      simp only [this, Bool.false_eq_true, if_false]
      simp [res, b', ha, setTbl]

theorem clear_spec {h : Heap α} {f : HField} {t : Nat} {bl : List (HBlock α)} (zero : α)
    (hf : h.Fresh) (r : Rep h f t bl) (v : α) :
    ∃ h' f' t' bl', clear zero h f v = some (h', f') ∧ h'.Fresh ∧ Rep h' f' t' bl' ∧
      Local h h' (· = t) (Owns bl) (· = t') (Owns bl') ∧ h'.map = h.map ∧ h'.nextM = h.nextM ∧
      f'.mapping = f.mapping ∧ f'.extents = f.extents ∧
      flat h' f' bl' = (flat h f bl).clear zero v := by
  obtain ⟨h1, f1, t1, bl1, e, hf1, r1, l1, m1, n1, mp, ex, hbl, hfl⟩ :=
    setupBlocks_spec zero hf (Or.inr ⟨t, bl, r, rfl, rfl⟩)
  let bl' := bl1.map (fun b => { b with emptyValue := v })
  have hno1 : ∀ a, ¬ Owns bl1 a := by
    rintro a ⟨b, hb, hba⟩
    rw [hbl] at hb
    rw [List.eq_of_mem_replicate hb] at hba; cases hba
  have hno : ∀ a, ¬ Owns bl' a := by
    rintro a ⟨b, hb, hba⟩
    obtain ⟨c, hc, rfl⟩ := List.mem_map.mp hb
    exact hno1 a ⟨c, hc, hba⟩
  have hO : Owns bl' = Owns bl1 := by
    funext a; exact propext ⟨fun h => absurd h (hno a), fun h => absurd h (hno1 a)⟩
  refine ⟨h1.setTbl t1 bl', f1, t1, bl', ?_, ⟨?_, hf1.2⟩, ⟨r1.tab, by simp [setTbl], ?_, ?_⟩, ?_,
    m1, n1, mp, ex, ?_⟩
  · simp only [clear, e, r1.tab, r1.tbl]; rfl
  · intro a ha
    simp only [setTbl] at ha ⊢
    split
    · rename_i h2; subst h2
      have := hf1.1 a ha
      rw [r1.tbl] at this; cases this
    · exact hf1.1 a ha
  · rw [pw_iff]
    intro i j x y _ hx _ a hxa
    exact absurd ⟨x, List.mem_of_getElem? hx, hxa⟩ (hno a)
  · intro a ha; exact absurd ha (hno a)
  · refine l1.trans ?_
    rw [hO]
    constructor
    · intro a _ ha; simp only [setTbl, if_neg ha]
    · intro a _ _; rfl
    · intro a h; exact Or.inl h
    · intro a h; exact Or.inl h
    · intro a ha
      by_cases h : a = t1
      · exact Or.inl h
      · simp only [setTbl, if_neg h] at ha; exact Or.inr ⟨ha, h⟩
    · intro a ha
      exact Or.inr ⟨ha, hno1 a⟩
  · have e1 : (f.shape α).setupBlocks zero = (flat h f bl).setupBlocks zero := rfl
    have e2 : (flat h f bl).clear zero v =
        { (flat h f bl).setupBlocks zero with
          blocks := ((flat h f bl).setupBlocks zero).blocks.map (fun b => { b with emptyValue := v }) } := rfl
    rw [e2, ← e1, ← hfl]
    simp only [flat]
    congr 1
    simp only [bl', List.map_map]
    rfl

/-! ## Copies -/

theorem newBuf_spec {h : Heap α} (hf : h.Fresh) (d : List α) :
    h.buf h.nextB = none ∧ (h.newBuf d).1.Fresh := by
  refine ⟨hf.2 _ (Nat.le_refl _), hf.1, ?_⟩
  intro a ha
  simp only [newBuf] at ha ⊢
  rw [if_neg (by omega)]; exact hf.2 a (by omega)

theorem copyBlocks_spec (n : Nat) (os : List (HBlock α)) : ∀ (h : Heap α), h.Fresh →
    (∀ b ∈ os, Sparse.BWF n (h.res b) ∧ ∀ a, b.data = some a → h.buf a ≠ none) →
    ∃ h' bl, copyBlocks h n os = some (h', bl) ∧ h'.Fresh ∧ h'.tbl = h.tbl ∧ h'.map = h.map ∧
      h'.nextT = h.nextT ∧ h'.nextM = h.nextM ∧ h.nextB ≤ h'.nextB ∧
      (∀ a, h.buf a ≠ none → h'.buf a = h.buf a) ∧
      (∀ a, Owns bl a → h.buf a = none ∧ h'.buf a ≠ none ∧ h.nextB ≤ a) ∧
      (∀ a, h'.buf a ≠ none → Owns bl a ∨ h.buf a ≠ none) ∧
      PW bl ∧ bl.map h'.res = os.map h.res := by
  induction os with
  | nil =>
    intro h hf _
    refine ⟨h, [], rfl, hf, rfl, rfl, rfl, rfl, Nat.le_refl _, fun _ _ => rfl, ?_,
      fun _ h => Or.inr h, List.Pairwise.nil, rfl⟩
    rintro a ⟨b, hb, _⟩; cases hb
  | cons o os ih =>
    intro h hf hw
    obtain ⟨hwo, hlo⟩ := hw o List.mem_cons_self
    obtain ⟨hd1, hd2⟩ := hblock_data hwo hlo
    cases ha : o.isAllocated with
    | false =>
      obtain ⟨h', bl, e, e1, e2, e3, e4, e5, e6, e7, e8, e9, e10, e11⟩ :=
        ih h hf (fun b hb => hw b (List.mem_cons_of_mem _ hb))
      have how : ∀ a, Owns ((⟨false, o.emptyValue, none⟩ : HBlock α) :: bl) a ↔ Owns bl a := by
        intro a
        constructor
        · rintro ⟨c, hc, hca⟩
          rcases List.mem_cons.mp hc with rfl | hc
          · cases hca
          · exact ⟨c, hc, hca⟩
        · rintro ⟨c, hc, hca⟩; exact ⟨c, List.mem_cons_of_mem _ hc, hca⟩
      refine ⟨h', ⟨false, o.emptyValue, none⟩ :: bl, ?_, e1, e2, e3, e4, e5, e6, e7, ?_, ?_, ?_, ?_⟩
      · simp only [copyBlocks, copyBlock, ha, Bool.false_eq_true, if_false, e, Option.map_some]
      · intro a h1; exact e8 a ((how a).mp h1)
      · intro a h1; rcases e9 a h1 with h2 | h2
        · exact Or.inl ((how a).mpr h2)
        · exact Or.inr h2
      · refine List.pairwise_cons.mpr ⟨?_, e10⟩
        intro c _ a h1; cases h1
      · simp only [List.map_cons, e11]
        congr 1
        simp [res, ha, hd2 ha]
    | true =>
      obtain ⟨x, d, hox, hxd, hdl⟩ := hd1 ha
      obtain ⟨hn0, hnf⟩ := newBuf_spec hf (List.replicate n o.emptyValue)
      have hxn : x ≠ h.nextB := by rintro rfl; rw [hn0] at hxd; cases hxd
      let h1 : Heap α := (h.newBuf (List.replicate n o.emptyValue)).1.setBuf h.nextB (d.take n)
      have hb1 : ∀ a, h1.buf a = if a = h.nextB then some (d.take n) else h.buf a := by
        intro a
        simp only [h1, setBuf, newBuf]
        by_cases h : a = h.nextB <;> simp [h]
      have hn1 : h1.nextB = h.nextB + 1 := rfl
      have hk : ∀ a, h.buf a ≠ none → h1.buf a = h.buf a := by
        intro a h2
        rw [hb1, if_neg]; rintro rfl; exact h2 hn0
      have hf1 : h1.Fresh := by
        refine ⟨hf.1, ?_⟩
        intro a h2
        rw [hb1, if_neg (by omega)]; exact hf.2 a (by omega)
      have hres : ∀ b, (∀ a, b.data = some a → h.buf a ≠ none) → h1.res b = h.res b := by
        intro b hb
        simp only [res]
        congr 1
        cases hbd : b.data with
        | none => rfl
        | some a => simp only [Option.bind_some]; exact hk a (hb a hbd)
      obtain ⟨h', bl, e, e1, e2, e3, e4, e5, e6, e7, e8, e9, e10, e11⟩ :=
        ih h1 hf1 (by
          intro b hb
          obtain ⟨q1, q2⟩ := hw b (List.mem_cons_of_mem _ hb)
          rw [hres b q2]
          exact ⟨q1, fun a h2 => by rw [hk a (q2 a h2)]; exact q2 a h2⟩)
      have hnb : h'.buf h.nextB = some (d.take n) := by
        rw [e7 _ (by rw [hb1]; simp), hb1]; simp
      refine ⟨h', ⟨true, o.emptyValue, some h.nextB⟩ :: bl, ?_, e1, e2, e3, e4, e5, by omega, ?_, ?_,
        ?_, ?_, ?_⟩
      · simp only [copyBlocks, copyBlock, ha, if_true, hox, newBuf, Option.bind_some]
        rw [if_neg hxn, hxd]
        simp only
        rw [if_pos (by omega)]
        simp only
        have : (Heap.setBuf { h with
            buf := fun x => if x = h.nextB then some (List.replicate n o.emptyValue) else h.buf x,
            nextB := h.nextB + 1 } h.nextB (List.take n d)) = h1 := rfl
        rw [this, e]; rfl
      · intro a h2
        rw [e7 a (by rw [hk a h2]; exact h2), hk a h2]
      · rintro a ⟨c, hc, hca⟩
        rcases List.mem_cons.mp hc with rfl | hc
        · simp only [Option.some.injEq] at hca; subst hca
          exact ⟨hn0, by rw [hnb]; simp, Nat.le_refl _⟩
        · obtain ⟨q1, q2, q3⟩ := e8 a ⟨c, hc, hca⟩
          exact ⟨hf.2 a (by omega), q2, by omega⟩
      · intro a h2
        rcases e9 a h2 with ⟨c, hc, hca⟩ | h3
        · exact Or.inl ⟨c, List.mem_cons_of_mem _ hc, hca⟩
        · rw [hb1] at h3
          by_cases h4 : a = h.nextB
          · subst h4
            exact Or.inl ⟨_, List.mem_cons_self, rfl⟩
          · rw [if_neg h4] at h3; exact Or.inr h3
      · refine List.pairwise_cons.mpr ⟨?_, e10⟩
        intro c hc a h2 h3
        simp only [Option.some.injEq] at h2; subst h2
        have := (e8 _ ⟨c, hc, h3⟩).2.2
        omega
      · simp only [List.map_cons]
        have hd : h'.res ⟨true, o.emptyValue, some h.nextB⟩ = h.res o := by
          simp only [res, Option.bind_some, hnb, ha, hox, hxd]
          rw [List.take_of_length_le (by omega)]
        rw [hd, e11]
        congr 1
        apply List.map_congr_left
        intro b hb
        exact hres b (hw b (List.mem_cons_of_mem _ hb)).2

theorem copySparse_spec {h : Heap α} {f o : HField} {t : Nat} {bl : List (HBlock α)} (hf : h.Fresh)
    (ro : Rep h o t bl) (wf : (flat h o bl).WF) {OT OB : Nat → Prop}
    (hold : (f.table = none ∧ OT = (fun _ => False) ∧ OB = (fun _ => False)) ∨
      ∃ t0 bl0, Rep h f t0 bl0 ∧ t0 ≠ t ∧ (∀ a, Owns bl0 a → ¬ Owns bl a) ∧
        OT = (· = t0) ∧ OB = Owns bl0) :
    ∃ h' f' t' bl', copySparse h f o = some (h', f') ∧ h'.Fresh ∧ Rep h' f' t' bl' ∧
      Local h h' OT OB (· = t') (Owns bl') ∧ h'.map = h.map ∧ h'.nextM = h.nextM ∧
      f'.mapping = f.mapping ∧ f'.extents = f.extents ∧
      flat h' f' bl' = { flat h o bl with extents := f.extents, dw := f.dw } := by
  have main : ∀ h1 : Heap α, h.deleteTable f.table = some h1 → h1.Fresh → h1.map = h.map →
      h1.nextM = h.nextM → Local h h1 OT OB (fun _ => False) (fun _ => False) →
      h1.tbl t = some bl → (∀ a, Owns bl a → h1.buf a = h.buf a) →
      ∃ h' f' t' bl', copySparse h f o = some (h', f') ∧ h'.Fresh ∧ Rep h' f' t' bl' ∧
      Local h h' OT OB (· = t') (Owns bl') ∧ h'.map = h.map ∧ h'.nextM = h.nextM ∧
      f'.mapping = f.mapping ∧ f'.extents = f.extents ∧
      flat h' f' bl' = { flat h o bl with extents := f.extents, dw := f.dw } := by
    intro h1 e hf1 hm hn l1 ht1 hb1
    have hres1 : ∀ b ∈ bl, h1.res b = h.res b := by
      intro b hb
      simp only [res]
      congr 1
      cases hbd : b.data with
      | none => rfl
      | some a => simp only [Option.bind_some]; exact hb1 a ⟨b, hb, hbd⟩
    obtain ⟨h2, bl', c, c1, c2, c3, c4, c5, c6, c7, c8, c9, c10, c11⟩ :=
      copyBlocks_spec (2 ^ o.order * 2 ^ o.order * 2 ^ o.order) bl h1 hf1 (by
        intro b hb
        rw [hres1 b hb]
        refine ⟨wf.blk _ (List.mem_map_of_mem hb), ?_⟩
        intro a ha
        rw [hb1 a ⟨b, hb, ha⟩]; exact ro.live a ⟨b, hb, ha⟩)
    obtain ⟨n1, n2, n3, n4⟩ := newTable_spec c1 bl' (OB := Owns bl')
    refine ⟨(h2.newTable bl').1,
      { f with order := o.order, bres := o.bres, bxy := o.bxy, table := some h2.nextT }, h2.nextT, bl',
      ?_, n1, ⟨rfl, n2, c10, ?_⟩, ?_, c3.trans hm, c5.trans hn, rfl, rfl, ?_⟩
    · simp only [copySparse, e, ro.tab, Option.bind_some, ht1, c]; rfl
    · intro a ha; rw [n3]; exact (c8 a ha).2.1
    · refine (l1.trans (Local.trans ?_ n4))
      constructor
      · intro a _ _; rw [c2]
      · intro a h3 _; exact c7 a h3
      · intro a h3; exact h3.elim
      · intro a h3; exact Or.inr (c8 a h3).1
      · intro a h3; rw [c2] at h3; exact Or.inr ⟨h3, fun h => h⟩
      · intro a h3
        rcases c9 a h3 with h4 | h4
        · exact Or.inl h4
        · exact Or.inr ⟨h4, fun h => h⟩
    · simp only [flat]
      congr 1
      have : bl'.map (h2.newTable bl').1.res = bl'.map h2.res := rfl
      rw [this, c11]
      exact List.map_congr_left hres1
  rcases hold with ⟨h0, rfl, rfl⟩ | ⟨t0, bl0, r, hne, hdis, rfl, rfl⟩
  · exact main h (by rw [h0]; rfl) hf rfl rfl (Local.refl _ _ _) ro.tbl (fun _ _ => rfl)
  · obtain ⟨h1, e, f1, m1, n1, l1⟩ := deleteTable_spec hf r.tbl r.pw r.live
    refine main h1 (by rw [r.tab]; exact e) f1 m1 n1 l1 ?_ ?_
    · rw [l1.tfr t (by rw [ro.tbl]; simp) (Ne.symm hne)]; exact ro.tbl
    · intro a ha
      exact l1.bfr a (ro.live a ha) (fun h => hdis a h ha)

end HField
end F3D
