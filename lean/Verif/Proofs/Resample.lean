import Verif.Model.Resample
import Verif.Proofs.Dense
import Verif.Proofs.Interp
import Mathlib.Data.Rat.Floor
import Mathlib.Tactic.Linarith
import Mathlib.Tactic.Ring

/-!
# Passes of resampling and MIP filtering
-/

namespace F3D
namespace Resample
open Interp (floor_le' lt_floor' floor_unique)

/-! ## Lines -/

theorem accumWeighted_eq (weight : ℤ → ℚ) (rd : ℤ → Option ℚ) (v : ℤ → ℚ) : ∀ (l : List ℤ) (acc : ℚ × ℚ),
    (∀ s ∈ l, rd s = some (v s)) →
    accumWeighted weight rd l acc = some (acc.1 + (l.map weight).sum, acc.2 + (l.map fun s => v s * weight s).sum)
  | [], acc, _ => by simp [accumWeighted]
  | s :: l, acc, h => by
    unfold accumWeighted
    rw [h s (List.mem_cons_self ..)]
    show accumWeighted weight rd l (acc.1 + weight s, acc.2 + v s * weight s) = _
    rw [accumWeighted_eq weight rd v l _ fun t ht => h t (List.mem_cons_of_mem _ ht)]
    simp only [List.map_cons, List.sum_cons]
    rw [add_assoc, add_assoc]

theorem accumAnalytic_eq (op : ℚ → ℚ → ℚ) (weight : ℤ → ℚ) (rd : ℤ → Option ℚ) (v : ℤ → ℚ) :
    ∀ (l : List ℤ) (acc : ℚ), (∀ s ∈ l, rd s = some (v s)) →
    accumAnalytic op weight rd l acc = some (l.foldl (fun a s => if weight s > 0 then op a (v s) else a) acc)
  | [], acc, _ => rfl
  | s :: l, acc, h => by
    unfold accumAnalytic
    rw [h s (List.mem_cons_self ..)]
    exact accumAnalytic_eq op weight rd v l _ fun t ht => h t (List.mem_cons_of_mem _ ht)

/-- The value a line of voxels with values `v` gives a target voxel. -/
def lineOf (op : Op) (weight v : ℤ → ℚ) (l : List ℤ) : ℚ :=
  match op with
  | .weighted =>
    if (l.map weight).sum > 0 then (l.map fun s => v s * weight s).sum / (l.map weight).sum else 0
  | .least i =>
    if l.foldl (fun a s => if weight s > 0 then min a (v s) else a) i ≠ i then
      l.foldl (fun a s => if weight s > 0 then min a (v s) else a) i else 0
  | .greatest i =>
    if l.foldl (fun a s => if weight s > 0 then max a (v s) else a) i ≠ i then
      l.foldl (fun a s => if weight s > 0 then max a (v s) else a) i else 0

theorem lineValue_eq (flt : Filter) (weight : ℤ → ℚ) (rd : ℤ → Option ℚ) (v : ℤ → ℚ) (lo hi : ℤ)
    (h : ∀ s, lo ≤ s → s ≤ hi → rd s = some (v s)) :
    ∃ r, lineValue flt weight rd lo hi = some r ∧ r.getD 0 = lineOf flt.op weight v (forRange lo hi) := by
  have h' : ∀ s ∈ forRange lo hi, rd s = some (v s) := fun s hs =>
    h s ((mem_forRange lo hi s).1 hs).1 ((mem_forRange lo hi s).1 hs).2
  unfold lineValue
  cases flt.op with
  | weighted =>
    simp only
    rw [accumWeighted_eq weight rd v _ _ h']
    refine ⟨_, rfl, ?_⟩
    simp only [zero_add, lineOf]
    by_cases hw : ((forRange lo hi).map weight).sum > 0
    · by_cases hv : ((forRange lo hi).map fun s => v s * weight s).sum = 0
      · simp [hv]
      · simp [hv, hw]
    · simp [hw]
  | least i =>
    simp only
    rw [accumAnalytic_eq min weight rd v _ _ h']
    refine ⟨_, rfl, ?_⟩
    simp only [lineOf]
    split <;> rfl
  | greatest i =>
    simp only
    rw [accumAnalytic_eq max weight rd v _ _ h']
    refine ⟨_, rfl, ?_⟩
    simp only [lineOf]
    split <;> rfl

theorem lineOf_congr (op : Op) (weight v weight' v' : ℤ → ℚ) (l : List ℤ)
    (hw : ∀ s ∈ l, weight s = weight' s) (hv : ∀ s ∈ l, v s = v' s) : lineOf op weight v l = lineOf op weight' v' l := by
  have e1 : l.map weight = l.map weight' := List.map_congr_left hw
  have e2 : (l.map fun s => v s * weight s) = l.map fun s => v' s * weight' s :=
    List.map_congr_left fun s hs => by rw [hw s hs, hv s hs]
  have e3 : ∀ (f : ℚ → ℚ → ℚ) (l' : List ℤ) (i : ℚ), (∀ s ∈ l', s ∈ l) →
      l'.foldl (fun a s => if weight s > 0 then f a (v s) else a) i =
      l'.foldl (fun a s => if weight' s > 0 then f a (v' s) else a) i := by
    intro f l'
    induction l' with
    | nil => intro i _; rfl
    | cons s l' ih =>
      intro i hs
      simp only [List.foldl_cons]
      rw [hw s (hs s (List.mem_cons_self ..)), hv s (hs s (List.mem_cons_self ..))]
      exact ih _ fun t ht => hs t (List.mem_cons_of_mem _ ht)
  cases op with
  | weighted => simp only [lineOf, e1, e2]
  | least i => simp only [lineOf, e3 min l i fun _ h => h]
  | greatest i => simp only [lineOf, e3 max l i fun _ h => h]

/-! Min and max -/

theorem foldl_min (weight v : ℤ → ℚ) : ∀ (l : List ℤ) (i : ℚ),
    let m := l.foldl (fun a s => if weight s > 0 then min a (v s) else a) i
    (m = i ∨ ∃ s ∈ l, weight s > 0 ∧ m = v s) ∧ m ≤ i ∧ ∀ s ∈ l, weight s > 0 → m ≤ v s
  | [], i => ⟨.inl rfl, le_refl i, by simp⟩
  | s :: l, i => by
    simp only [List.foldl_cons]
    by_cases hw : weight s > 0
    · rw [if_pos hw]
      obtain ⟨h1, h2, h3⟩ := foldl_min weight v l (min i (v s))
      refine ⟨?_, le_trans h2 (min_le_left _ _), fun t ht ht' => ?_⟩
      · rcases h1 with h1 | ⟨t, ht, ht', e⟩
        · rcases le_total i (v s) with h | h
          · rw [min_eq_left h] at h1 ⊢; exact .inl h1
          · rw [min_eq_right h] at h1 ⊢; exact .inr ⟨s, List.mem_cons_self .., hw, h1⟩
        · exact .inr ⟨t, List.mem_cons_of_mem _ ht, ht', e⟩
      · rcases List.mem_cons.1 ht with rfl | ht
        · exact le_trans h2 (min_le_right _ _)
        · exact h3 t ht ht'
    · rw [if_neg hw]
      obtain ⟨h1, h2, h3⟩ := foldl_min weight v l i
      refine ⟨?_, h2, fun t ht ht' => ?_⟩
      · rcases h1 with h1 | ⟨t, ht, ht', e⟩
        · exact .inl h1
        · exact .inr ⟨t, List.mem_cons_of_mem _ ht, ht', e⟩
      · rcases List.mem_cons.1 ht with rfl | ht
        · exact absurd ht' hw
        · exact h3 t ht ht'

theorem foldl_max (weight v : ℤ → ℚ) : ∀ (l : List ℤ) (i : ℚ),
    let m := l.foldl (fun a s => if weight s > 0 then max a (v s) else a) i
    (m = i ∨ ∃ s ∈ l, weight s > 0 ∧ m = v s) ∧ i ≤ m ∧ ∀ s ∈ l, weight s > 0 → v s ≤ m
  | [], i => ⟨.inl rfl, le_refl i, by simp⟩
  | s :: l, i => by
    simp only [List.foldl_cons]
    by_cases hw : weight s > 0
    · rw [if_pos hw]
      obtain ⟨h1, h2, h3⟩ := foldl_max weight v l (max i (v s))
      refine ⟨?_, le_trans (le_max_left _ _) h2, fun t ht ht' => ?_⟩
      · rcases h1 with h1 | ⟨t, ht, ht', e⟩
        · rcases le_total (v s) i with h | h
          · rw [max_eq_left h] at h1 ⊢; exact .inl h1
          · rw [max_eq_right h] at h1 ⊢; exact .inr ⟨s, List.mem_cons_self .., hw, h1⟩
        · exact .inr ⟨t, List.mem_cons_of_mem _ ht, ht', e⟩
      · rcases List.mem_cons.1 ht with rfl | ht
        · exact le_trans (le_max_right _ _) h2
        · exact h3 t ht ht'
    · rw [if_neg hw]
      obtain ⟨h1, h2, h3⟩ := foldl_max weight v l i
      refine ⟨?_, h2, fun t ht ht' => ?_⟩
      · rcases h1 with h1 | ⟨t, ht, ht', e⟩
        · exact .inl h1
        · exact .inr ⟨t, List.mem_cons_of_mem _ ht, ht', e⟩
      · rcases List.mem_cons.1 ht with rfl | ht
        · exact absurd ht' hw
        · exact h3 t ht ht'

/-- A min filter takes the least of the values with positive weight, if one is below its initial value. -/
theorem least_spec {i : ℚ} {weight v : ℤ → ℚ} {l : List ℤ} (h : ∃ s ∈ l, weight s > 0 ∧ v s < i) :
    (∃ s ∈ l, weight s > 0 ∧ lineOf (.least i) weight v l = v s) ∧
    ∀ s ∈ l, weight s > 0 → lineOf (.least i) weight v l ≤ v s := by
  obtain ⟨h1, _, h3⟩ := foldl_min weight v l i
  obtain ⟨s, hs, hw, hv⟩ := h
  have hne : l.foldl (fun a s => if weight s > 0 then min a (v s) else a) i ≠ i :=
    ne_of_lt (lt_of_le_of_lt (h3 s hs hw) hv)
  simp only [lineOf, if_pos hne]
  exact ⟨h1.resolve_left hne, h3⟩

theorem greatest_spec {i : ℚ} {weight v : ℤ → ℚ} {l : List ℤ} (h : ∃ s ∈ l, weight s > 0 ∧ i < v s) :
    (∃ s ∈ l, weight s > 0 ∧ lineOf (.greatest i) weight v l = v s) ∧
    ∀ s ∈ l, weight s > 0 → v s ≤ lineOf (.greatest i) weight v l := by
  obtain ⟨h1, _, h3⟩ := foldl_max weight v l i
  obtain ⟨s, hs, hw, hv⟩ := h
  have hne : l.foldl (fun a s => if weight s > 0 then max a (v s) else a) i ≠ i :=
    ne_of_gt (lt_of_lt_of_le hv (h3 s hs hw))
  simp only [lineOf, if_pos hne]
  exact ⟨h1.resolve_left hne, h3⟩

/-! Weighted means -/

theorem sum_le_sum (f g : ℤ → ℚ) : ∀ l : List ℤ, (∀ s ∈ l, f s ≤ g s) → (l.map f).sum ≤ (l.map g).sum
  | [], _ => le_refl _
  | s :: l, h => by
    simp only [List.map_cons, List.sum_cons]
    exact add_le_add (h s (List.mem_cons_self ..)) (sum_le_sum f g l fun t ht => h t (List.mem_cons_of_mem _ ht))

theorem sum_mul_left (c : ℚ) (f : ℤ → ℚ) : ∀ l : List ℤ, (l.map fun s => c * f s).sum = c * (l.map f).sum
  | [] => by simp
  | s :: l => by simp only [List.map_cons, List.sum_cons, sum_mul_left c f l]; ring

theorem sum_pos (f : ℤ → ℚ) : ∀ l : List ℤ, (∀ s ∈ l, 0 ≤ f s) → (∃ s ∈ l, 0 < f s) → 0 < (l.map f).sum
  | [], _, h => by obtain ⟨s, hs, _⟩ := h; cases hs
  | s :: l, h, h' => by
    simp only [List.map_cons, List.sum_cons]
    have hnn : 0 ≤ (l.map f).sum := by
      have := sum_le_sum (fun _ => 0) f l fun t ht => h t (List.mem_cons_of_mem _ ht)
      have z : (l.map fun _ => (0 : ℚ)).sum = 0 := by
        simp
      linarith
    obtain ⟨t, ht, hp⟩ := h'
    rcases List.mem_cons.1 ht with rfl | ht
    · linarith
    · have := sum_pos f l (fun t ht => h t (List.mem_cons_of_mem _ ht)) ⟨t, ht, hp⟩
      have := h s (List.mem_cons_self ..)
      linarith

/-- A filter with non-negative weights takes a value between the values it reads. -/
theorem weighted_between {weight v : ℤ → ℚ} {l : List ℤ} {lo hi : ℚ} (hw : ∀ s ∈ l, 0 ≤ weight s)
    (hp : ∃ s ∈ l, 0 < weight s) (hv : ∀ s ∈ l, 0 < weight s → lo ≤ v s ∧ v s ≤ hi) :
    lo ≤ lineOf .weighted weight v l ∧ lineOf .weighted weight v l ≤ hi := by
  have hW := sum_pos weight l hw hp
  simp only [lineOf, if_pos hW]
  rw [le_div_iff₀ hW, div_le_iff₀ hW, ← sum_mul_left, ← sum_mul_left]
  have key : ∀ s ∈ l, lo * weight s ≤ v s * weight s ∧ v s * weight s ≤ hi * weight s := fun s hs => by
    rcases lt_or_eq_of_le (hw s hs) with h | h
    · exact ⟨mul_le_mul_of_nonneg_right (hv s hs h).1 (hw s hs), mul_le_mul_of_nonneg_right (hv s hs h).2 (hw s hs)⟩
    · rw [← h]; simp
  exact ⟨sum_le_sum _ _ l fun s hs => (key s hs).1, sum_le_sum _ _ l fun s hs => (key s hs).2⟩

/-! ## Filling a field -/

/-- The field holds the values `v` in the window `[0, res)`. -/
structure Holds (f : Dense ℚ) (res : V3i) (v : V3i → ℚ) : Prop where
  wf : f.WF
  ext : f.extents = boxOf res
  dw : f.dw = boxOf res
  val : ∀ p, (boxOf res).contains p = true → f.value p = some (v p)

theorem boxOf_contains (res p : V3i) : (boxOf res).contains p = true ↔
    0 ≤ p.x ∧ p.x < res.x ∧ 0 ≤ p.y ∧ p.y < res.y ∧ 0 ≤ p.z ∧ p.z < res.z := by
  rw [Box3i.contains_iff]
  simp only [boxOf, V3i.all, V3i.sub_x, V3i.sub_y, V3i.sub_z]
  omega

theorem boxOf_ne {res : V3i} (h : 0 < res.x ∧ 0 < res.y ∧ 0 < res.z) : (boxOf res).isEmpty = false := by
  rw [Box3i.isEmpty_false]
  simp only [boxOf, V3i.all, V3i.sub_x, V3i.sub_y, V3i.sub_z]
  omega

theorem boxOf_size {res : V3i} (h : 0 < res.x ∧ 0 < res.y ∧ 0 < res.z) : (boxOf res).size + V3i.all 1 = res := by
  rw [Dense.size_of_ne (boxOf_ne h)]
  apply V3i.ext' <;> simp [boxOf, V3i.all]

theorem fill_spec (val : V3i → Option (Option ℚ)) (r : V3i → Option ℚ) : ∀ (l : List V3i) (f : Dense ℚ), f.WF →
    (∀ p ∈ l, f.dw.contains p = true ∧ val p = some (r p)) →
    ∃ g, fill val l f = some g ∧ g.WF ∧ g.dw = f.dw ∧ g.extents = f.extents ∧
      (∀ q, f.dw.contains q = true → q ∈ l → ∀ x, r q = some x → g.value q = some x) ∧
      (∀ q, f.dw.contains q = true → q ∉ l ∨ r q = none → g.value q = f.value q)
  | [], f, wf, _ => ⟨f, rfl, wf, rfl, rfl, by simp, fun _ _ _ => rfl⟩
  | p :: l, f, wf, h => by
    obtain ⟨hp, hv⟩ := h p (List.mem_cons_self ..)
    unfold fill
    rw [hv]
    show ∃ g, ((store f p (r p)).bind (fill val l)) = some g ∧ _
    cases hr : r p with
    | none =>
      obtain ⟨g, e, wg, dg, eg, h1, h2⟩ := fill_spec val r l f wf fun q hq => h q (List.mem_cons_of_mem _ hq)
      refine ⟨g, e, wg, dg, eg, fun q hq hm x hx => ?_, fun q hq hm => ?_⟩
      · rcases List.mem_cons.1 hm with rfl | hm
        · rw [hr] at hx; cases hx
        · exact h1 q hq hm x hx
      · apply h2 q hq
        rcases hm with hm | hm
        · exact .inl fun hm' => hm (List.mem_cons_of_mem _ hm')
        · exact .inr hm
    | some x =>
      have ew := Dense.write_eq wf hp x
      show ∃ g, ((f.write p x).bind (fill val l)) = some g ∧ _
      rw [ew]
      show ∃ g, fill val l _ = some g ∧ _
      obtain ⟨g, e, wg, dg, eg, h1, h2⟩ := fill_spec val r l { f with data := f.data.set (f.dw.indexOf p) x }
        (Dense.wf_write wf _ _) fun q hq => h q (List.mem_cons_of_mem _ hq)
      refine ⟨g, e, wg, dg, eg, fun q hq hm y hy => ?_, fun q hq hm => ?_⟩
      · by_cases hm' : q ∈ l
        · exact h1 q hq hm' y hy
        · have : q = p := (List.mem_cons.1 hm).resolve_right hm'
          subst this
          rw [h2 q hq (.inl hm'), Dense.value_write wf hp hq, if_pos rfl]
          rw [hr] at hy; exact hy
      · have hqp : q ≠ p := by
          rintro rfl
          rcases hm with hm | hm
          · exact hm (List.mem_cons_self ..)
          · rw [hr] at hm; cases hm
        rw [h2 q hq, Dense.value_write wf hp hq, if_neg hqp]
        rcases hm with hm | hm
        · exact .inl fun hm' => hm (List.mem_cons_of_mem _ hm')
        · exact .inr hm

/-- A pass over every voxel of the target. -/
theorem sized_spec {res : V3i} (hres : 0 < res.x ∧ 0 < res.y ∧ 0 < res.z) (val : V3i → Option (Option ℚ))
    (v : V3i → ℚ) (l : List V3i) (hl : ∀ p, p ∈ l ↔ (boxOf res).contains p = true)
    (hv : ∀ p, (boxOf res).contains p = true → ∃ r, val p = some r ∧ r.getD 0 = v p) :
    ∃ g, sized res val l = .ok g ∧ Holds g res v := by
  obtain ⟨f, e, wf, ed, ee, edata⟩ := Dense.setSize_ok (dflt := (0 : ℚ)) (e := boxOf res) (boxOf_ne hres)
  have hf : ∀ q, (boxOf res).contains q = true → f.value q = some 0 := fun q hq => by
    have hq' : f.dw.contains q = true := ed ▸ hq
    rw [Dense.value_eq wf hq', edata, ed]
    have := Box3i.indexOf_lt (boxOf_ne hres) hq
    simp [this]
  let r : V3i → Option ℚ := fun p => (val p).getD none
  have hr : ∀ p, (boxOf res).contains p = true → val p = some (r p) := fun p hp => by
    obtain ⟨x, hx, _⟩ := hv p hp
    show val p = some ((val p).getD none)
    rw [hx]; rfl
  obtain ⟨g, eg, wg, dg, exg, h1, h2⟩ := fill_spec val r l f wf fun p hp =>
    ⟨ed ▸ (hl p).1 hp, hr p ((hl p).1 hp)⟩
  refine ⟨g, ?_, wg, exg.trans ee, dg.trans ed, fun p hp => ?_⟩
  · unfold sized
    rw [e]
    show (match fill val l f with | none => Result.undef | some g => Result.ok g) = _
    rw [eg]
  · obtain ⟨x, hx, hx'⟩ := hv p hp
    have hrp : r p = x := by have := hr p hp; rw [hx] at this; exact (Option.some.inj this).symm
    cases x with
    | none => rw [h2 p (ed ▸ hp) (.inr hrp), hf p hp]; exact congrArg some hx'
    | some y => rw [h1 p (ed ▸ hp) ((hl p).2 hp) y hrp]; exact congrArg some hx'

/-! ## The blocks of the work list -/

theorem mem_starts (res : ℤ) (bs : ℕ) (hb : 0 < bs) (i : ℤ) :
    i ∈ starts res bs ↔ ∃ n : ℕ, i = n * bs ∧ (n : ℤ) * bs < res := by
  simp only [starts, List.mem_map, List.mem_range]
  constructor
  · rintro ⟨n, hn, rfl⟩
    refine ⟨n, rfl, ?_⟩
    have h1 : n + 1 ≤ (res.toNat + (bs - 1)) / bs := hn
    rw [Nat.le_div_iff_mul_le hb] at h1
    have : (n + 1) * bs = n * bs + bs := by ring
    have h2 : n * bs < res.toNat := by omega
    have : ((n * bs : ℕ) : ℤ) < res := by omega
    push_cast at this; exact this
  · rintro ⟨n, rfl, h⟩
    refine ⟨n, ?_, rfl⟩
    have h2 : ((n * bs : ℕ) : ℤ) < res := by push_cast; exact h
    have h3 : n * bs < res.toNat := by omega
    show n + 1 ≤ _
    rw [Nat.le_div_iff_mul_le hb]
    have : (n + 1) * bs = n * bs + bs := by ring
    omega

theorem start_of (res : ℤ) (bs : ℕ) (hb : 0 < bs) (i : ℤ) (h0 : 0 ≤ i) (h1 : i < res) (s : ℤ) :
    (s ∈ starts res bs ∧ s ≤ i ∧ i ≤ min (s + ((bs : ℤ) - 1)) (res - 1)) ↔ s = i / bs * bs := by
  have hb' : (0 : ℤ) < bs := by omega
  have e1 := Int.emod_add_mul_ediv i bs
  have e2 := Int.emod_nonneg i (ne_of_gt hb')
  have e3 := Int.emod_lt_of_pos i hb'
  rw [mul_comm] at e1
  rw [mem_starts res bs hb]
  constructor
  · rintro ⟨⟨n, rfl, hn⟩, h2, h3⟩
    have h4 : i ≤ n * bs + (bs - 1) := le_trans h3 (min_le_left _ _)
    have : i / bs = n := by
      rw [Int.ediv_eq_iff_of_pos hb']
      constructor <;> nlinarith
    rw [this]
  · rintro rfl
    have hd : 0 ≤ i / bs := Int.ediv_nonneg h0 (le_of_lt hb')
    refine ⟨⟨(i / bs).toNat, ?_, ?_⟩, by omega, le_min (by omega) (by omega)⟩
    · rw [Int.toNat_of_nonneg hd]
    · rw [Int.toNat_of_nonneg hd]; omega

/-- The blocks cover the target, each voxel being in one of them. -/
theorem mem_workBlocks (res : V3i) (bs : ℕ) (hb : 0 < bs) (p : V3i) :
    p ∈ (workBlocks res bs).flatMap boxLoop ↔ (boxOf res).contains p = true := by
  rw [boxOf_contains, List.mem_flatMap]
  constructor
  · rintro ⟨b, hb', hp⟩
    rw [mem_boxLoop, Box3i.contains_iff] at hp
    simp only [workBlocks, List.mem_flatMap, List.mem_map] at hb'
    obtain ⟨k, hk, j, hj, i, hi, rfl⟩ := hb'
    simp only at hp
    obtain ⟨n1, rfl, g1⟩ := (mem_starts _ _ hb _).1 hk
    obtain ⟨n2, rfl, g2⟩ := (mem_starts _ _ hb _).1 hj
    obtain ⟨n3, rfl, g3⟩ := (mem_starts _ _ hb _).1 hi
    have a1 : (0 : ℤ) ≤ n1 * bs := by positivity
    have a2 : (0 : ℤ) ≤ n2 * bs := by positivity
    have a3 : (0 : ℤ) ≤ n3 * bs := by positivity
    have b1 := hp.1.2; have b2 := hp.2.1.2; have b3 := hp.2.2.2
    omega
  · rintro ⟨h1, h2, h3, h4, h5, h6⟩
    obtain ⟨x1, x2, x3⟩ := (start_of res.x bs hb p.x h1 h2 _).2 rfl
    obtain ⟨y1, y2, y3⟩ := (start_of res.y bs hb p.y h3 h4 _).2 rfl
    obtain ⟨z1, z2, z3⟩ := (start_of res.z bs hb p.z h5 h6 _).2 rfl
    refine ⟨⟨⟨p.x / bs * bs, p.y / bs * bs, p.z / bs * bs⟩, ⟨min (p.x / bs * bs + (bs - 1)) (res.x - 1), min (p.y / bs * bs + (bs - 1)) (res.y - 1), min (p.z / bs * bs + (bs - 1)) (res.z - 1)⟩⟩, ?_, ?_⟩
    · simp only [workBlocks, List.mem_flatMap, List.mem_map]
      exact ⟨_, z1, _, y1, _, x1, rfl⟩
    · rw [mem_boxLoop, Box3i.contains_iff]
      exact ⟨⟨x2, x3⟩, ⟨y2, y3⟩, z2, z3⟩

end Resample
end F3D
