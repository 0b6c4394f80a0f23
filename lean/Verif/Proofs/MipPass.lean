import Verif.Proofs.Resample

/-!
# MIP filtering passes
-/

namespace F3D
namespace Resample
open Interp (floor_le' lt_floor' floor_unique)

/-- What a MIP pass along an axis does to the values of a field with `n` voxels along it. -/
def mipAxis (flt : Filter) (add : V3i) (a : Axis) (n : ℤ) (v : V3i → ℚ) (p : V3i) : ℚ :=
  lineOf flt.op (fun s => flt.eval (absQ (mid s - curSrc (a.get p) (a.get add)) * (1 / 2))) (fun s => v (a.set p s))
    (forRange (max (mipInterval flt.support (curSrc (a.get p) (a.get add))).1 0)
      (min (mipInterval flt.support (curSrc (a.get p) (a.get add))).2 (n - 1)))

theorem boxOf_min (a : Axis) (res : V3i) : a.get (boxOf res).min = 0 := by cases a <;> rfl
theorem boxOf_max (a : Axis) (res : V3i) : a.get (boxOf res).max = a.get res - 1 := by cases a <;> rfl

theorem mipSeparable_spec (flt : Filter) {src : Dense ℚ} {sres : V3i} {v : V3i → ℚ} (hs : Holds src sres v)
    (oldRes newRes add : V3i) (a : Axis) (hres : 0 < (passRes a oldRes newRes).x ∧ 0 < (passRes a oldRes newRes).y ∧ 0 < (passRes a oldRes newRes).z)
    (hc : ∀ p s, (boxOf (passRes a oldRes newRes)).contains p = true → 0 ≤ s → s < a.get sres →
      (boxOf sres).contains (a.set p s) = true) :
    ∃ g, mipSeparable flt src oldRes newRes add a = .ok g ∧
      Holds g (passRes a oldRes newRes) (mipAxis flt add a (a.get sres) v) := by
  unfold mipSeparable
  apply sized_spec hres
  · exact mem_workBlocks _ 16 (by omega)
  · intro p hp
    unfold mipValue
    simp only [hs.dw, boxOf_min, boxOf_max]
    apply lineValue_eq
    intro s h1 h2
    apply hs.val
    apply hc p s hp
    · exact le_trans (le_max_right _ _) h1
    · have := le_trans h2 (min_le_right _ _); omega

/-- The values of the next level. -/
def nextValues (flt : Filter) (add sres : V3i) (v : V3i → ℚ) : V3i → ℚ :=
  mipAxis flt add .z sres.z (mipAxis flt add .y sres.y (mipAxis flt add .x sres.x v))

theorem mipResample_spec (flt : Filter) {base src : Dense ℚ} {bres sres : V3i} {v : V3i → ℚ} (hb : base.dw = boxOf bres)
    (hbres : 0 < bres.x ∧ 0 < bres.y ∧ 0 < bres.z) (hs : Holds src sres v)
    (hsres : 0 < sres.x ∧ 0 < sres.y ∧ 0 < sres.z) (level : ℕ) (offset : V3i)
    (hn : 0 < (mipResolution bres level (addOf offset)).x ∧ 0 < (mipResolution bres level (addOf offset)).y ∧
      0 < (mipResolution bres level (addOf offset)).z) :
    ∃ g, mipResample flt base src level offset = .ok g ∧
      Holds g (mipResolution bres level (addOf offset)) (nextValues flt (addOf offset) sres v) := by
  unfold mipResample
  simp only [hb, hs.dw, boxOf_size hbres, boxOf_size hsres]
  generalize hN : mipResolution bres level (addOf offset) = N at hn ⊢
  obtain ⟨g1, e1, k1⟩ := mipSeparable_spec flt hs sres N (addOf offset) .x ⟨hn.1, hsres.2⟩ (by
    intro p s hp h1 h2
    rw [boxOf_contains] at hp ⊢
    simp only [passRes] at hp
    simp only [Axis.set, Axis.get] at h2 ⊢
    omega)
  obtain ⟨g2, e2, k2⟩ := mipSeparable_spec flt k1 sres N (addOf offset) .y ⟨hn.1, hn.2.1, hsres.2.2⟩ (by
    intro p s hp h1 h2
    rw [boxOf_contains] at hp ⊢
    simp only [passRes] at hp h2 ⊢
    simp only [Axis.set, Axis.get] at h2 ⊢
    omega)
  obtain ⟨g3, e3, k3⟩ := mipSeparable_spec flt k2 sres N (addOf offset) .z hn (by
    intro p s hp h1 h2
    rw [boxOf_contains] at hp ⊢
    simp only [passRes] at hp h2 ⊢
    simp only [Axis.set, Axis.get] at h2 ⊢
    omega)
  refine ⟨g3, ?_, k3⟩
  rw [e1]; show (mipSeparable flt g1 sres N (addOf offset) .y).bind _ = _
  rw [e2]; exact e3

/-! ## Filters of width one -/

/-- The voxels a coarse voxel covers along an axis. -/
def cell (i add n : ℤ) : List ℤ := forRange (max (2 * i - add) 0) (min (2 * i + 1 - add) (n - 1))

theorem mem_cell {i add n s : ℤ} : s ∈ cell i add n ↔ 0 ≤ s ∧ s < n ∧ (s + add) / 2 = i := by
  rw [cell, mem_forRange]
  omega

theorem cell_nodup (i add n : ℤ) : (cell i add n).Nodup := forRange_nodup _ _

theorem ceil_unique {x : ℚ} {n : ℤ} (h1 : (n : ℚ) - 1 < x) (h2 : x ≤ n) : x.ceil = n := by
  rw [Rat.ceil_eq_neg_floor_neg, floor_unique (n := -n) (by push_cast; linarith) (by push_cast; linarith)]
  ring

theorem unit_interval (i add : ℤ) : mipInterval (1 / 2 * 1) (curSrc i add) = (2 * i - add, 2 * i + 1 - add) := by
  unfold mipInterval curSrc mid
  rw [floor_unique (n := 2 * i - add) (by push_cast; linarith) (by push_cast; linarith),
    ceil_unique (n := 2 * i + 2 - add) (by push_cast; linarith) (by push_cast; linarith)]
  ring_nf

theorem absQ_eq (x : ℚ) : absQ x = |x| := by
  unfold absQ
  split
  · rw [abs_of_neg (by assumption)]
  · rw [abs_of_nonneg (by linarith)]

/-- The voxels a coarse voxel covers are half a voxel away from its centre. -/
theorem dist_cell {i add n s : ℤ} (h : s ∈ cell i add n) : absQ (mid s - curSrc i add) * (1 / 2) = 1 / 4 := by
  have h' := (mem_cell.1 h).2.2
  have : s = 2 * i - add ∨ s = 2 * i + 1 - add := by omega
  unfold mid curSrc mid absQ
  rcases this with rfl | rfl
  · push_cast; rw [if_pos (by linarith)]; ring
  · push_cast; rw [if_neg (by linarith)]; ring

theorem mipAxis_unit {flt : Filter} (hs : flt.support = 1 / 2 * 1) (he : flt.eval (1 / 4) = 1) (add : V3i) (a : Axis) (n : ℤ) (v : V3i → ℚ) (p : V3i) :
    mipAxis flt add a n v p = lineOf flt.op (fun _ => 1) (fun s => v (a.set p s)) (cell (a.get p) (a.get add) n) := by
  unfold mipAxis
  rw [hs, unit_interval]
  apply lineOf_congr
  · intro s hs
    rw [dist_cell (n := n) hs, he]
  · intro _ _; rfl

/-! ### Means -/

theorem sum_ones {T : Type} : ∀ l : List T, (l.map fun _ => (1 : ℚ)).sum = l.length
  | [] => by simp
  | a :: l => by simp only [List.map_cons, List.sum_cons, List.length_cons, sum_ones l]; push_cast; ring

theorem mean_line (v : ℤ → ℚ) (l : List ℤ) : lineOf .weighted (fun _ => 1) v l = (l.map v).sum / l.length := by
  simp only [lineOf, mul_one, sum_ones]
  split
  · rfl
  · rename_i h
    have : l.length = 0 := by
      by_contra h'
      exact h (by have : 0 < l.length := by omega
                  exact_mod_cast this)
    rw [this]; simp

/-- All combinations of indices. -/
def grid (X Y Z : List ℤ) : List V3i := Z.flatMap fun k => Y.flatMap fun j => X.map fun i => ⟨i, j, k⟩

theorem mem_grid (X Y Z : List ℤ) (q : V3i) : q ∈ grid X Y Z ↔ q.x ∈ X ∧ q.y ∈ Y ∧ q.z ∈ Z := by
  simp only [grid, List.mem_flatMap, List.mem_map]
  constructor
  · rintro ⟨k, hk, j, hj, i, hi, rfl⟩; exact ⟨hi, hj, hk⟩
  · rintro ⟨h1, h2, h3⟩; exact ⟨q.z, h3, q.y, h2, q.x, h1, rfl⟩

theorem sum_flatMap {S T : Type} (f : S → List T) (g : T → ℚ) : ∀ l : List S,
    ((l.flatMap f).map g).sum = (l.map fun k => ((f k).map g).sum).sum
  | [] => by simp
  | a :: l => by
    rw [List.flatMap_cons, List.map_append, List.sum_append, sum_flatMap f g l]
    simp

theorem length_flatMap_const {S T : Type} (f : S → List T) (n : ℕ) (h : ∀ s, (f s).length = n) : ∀ l : List S,
    (l.flatMap f).length = l.length * n
  | [] => by simp
  | a :: l => by
    rw [List.flatMap_cons, List.length_append, length_flatMap_const f n h l, h, List.length_cons]; ring

theorem length_grid (X Y Z : List ℤ) : (grid X Y Z).length = Z.length * (Y.length * X.length) :=
  length_flatMap_const _ _ (fun _ => length_flatMap_const _ _ (fun _ => by simp) Y) Z

theorem sum_grid (X Y Z : List ℤ) (v : V3i → ℚ) : ((grid X Y Z).map v).sum =
    (Z.map fun k => (Y.map fun j => (X.map fun i => v ⟨i, j, k⟩).sum).sum).sum := by
  unfold grid
  rw [sum_flatMap]
  congr 1
  apply List.map_congr_left
  intro k _
  rw [sum_flatMap]
  congr 1
  apply List.map_congr_left
  intro j _
  rw [List.map_map]; rfl

theorem grid_nodup {X Y Z : List ℤ} (hX : X.Nodup) (hY : Y.Nodup) (hZ : Z.Nodup) : (grid X Y Z).Nodup := by
  unfold grid
  rw [List.nodup_iff_pairwise_ne, List.pairwise_flatMap]
  refine ⟨fun k _ => ?_, ?_⟩
  · rw [List.pairwise_flatMap]
    refine ⟨fun j _ => ?_, ?_⟩
    · rw [List.pairwise_map]
      apply List.Pairwise.imp _ (List.nodup_iff_pairwise_ne.1 hX)
      intro a c h e
      injection e with e1; exact h e1
    · apply List.Pairwise.imp _ (List.nodup_iff_pairwise_ne.1 hY)
      intro a c h x hx y hy e
      rw [List.mem_map] at hx hy
      obtain ⟨i, _, rfl⟩ := hx
      obtain ⟨i', _, rfl⟩ := hy
      injection e with _ e2; exact h e2
  · apply List.Pairwise.imp _ (List.nodup_iff_pairwise_ne.1 hZ)
    intro a c h x hx y hy e
    simp only [List.mem_flatMap, List.mem_map] at hx hy
    obtain ⟨j, _, i, _, rfl⟩ := hx
    obtain ⟨j', _, i', _, rfl⟩ := hy
    injection e with _ _ e3; exact h e3

theorem sum_div (c : ℚ) (f : ℤ → ℚ) (l : List ℤ) : (l.map fun s => f s / c).sum = (l.map f).sum / c := by
  have := sum_mul_left c⁻¹ f l
  rw [div_eq_mul_inv, mul_comm, ← this]
  congr 1
  apply List.map_congr_left
  intro s _
  rw [div_eq_mul_inv, mul_comm]

/-- The voxels of the level before that a voxel covers. -/
def cells (add sres c : V3i) : List V3i := grid (cell c.x add.x sres.x) (cell c.y add.y sres.y) (cell c.z add.z sres.z)

theorem mem_cells {add sres c q : V3i} : q ∈ cells add sres c ↔ (boxOf sres).contains q = true ∧
    (q.x + add.x) / 2 = c.x ∧ (q.y + add.y) / 2 = c.y ∧ (q.z + add.z) / 2 = c.z := by
  rw [cells, mem_grid, mem_cell, mem_cell, mem_cell, boxOf_contains]
  tauto

theorem cells_nodup (add sres c : V3i) : (cells add sres c).Nodup :=
  grid_nodup (cell_nodup _ _ _) (cell_nodup _ _ _) (cell_nodup _ _ _)

/-- The next level of a box filter holds means. -/
theorem next_box (add sres : V3i) (v : V3i → ℚ) (c : V3i) :
    nextValues (boxFilter 1) add sres v c = ((cells add sres c).map v).sum / (cells add sres c).length := by
  have hu : ∀ (a : Axis) (n : ℤ) (w : V3i → ℚ) (p : V3i), mipAxis (boxFilter 1) add a n w p =
      ((cell (a.get p) (a.get add) n).map fun s => w (a.set p s)).sum / (cell (a.get p) (a.get add) n).length := by
    intro a n w p
    rw [mipAxis_unit (by rfl) (by simp only [boxFilter, boxEval]; rw [if_pos (by norm_num)])]
    exact mean_line _ _
  unfold nextValues
  rw [hu]
  simp only [hu, Axis.get, Axis.set]
  rw [cells, sum_grid, length_grid]
  simp only [sum_div]
  rw [div_div, div_div]
  push_cast
  congr 1
  ring

/-! ### Least and greatest values -/

/-- `m` is the least of the values in the list. -/
def IsMin {T : Type} (S : List T) (v : T → ℚ) (m : ℚ) : Prop := (∃ q ∈ S, m = v q) ∧ ∀ q ∈ S, m ≤ v q

def IsMax {T : Type} (S : List T) (v : T → ℚ) (m : ℚ) : Prop := (∃ q ∈ S, m = v q) ∧ ∀ q ∈ S, v q ≤ m

theorem min_line {i : ℚ} {v : ℤ → ℚ} {l : List ℤ} (hne : l ≠ []) (h : ∀ s ∈ l, v s < i) :
    IsMin l v (lineOf (.least i) (fun _ => 1) v l) := by
  obtain ⟨s, hs⟩ := List.exists_mem_of_ne_nil l hne
  obtain ⟨⟨t, ht, _, e⟩, h2⟩ := least_spec (weight := fun _ => 1) ⟨s, hs, one_pos, h s hs⟩
  exact ⟨⟨t, ht, e⟩, fun q hq => h2 q hq one_pos⟩

theorem max_line {i : ℚ} {v : ℤ → ℚ} {l : List ℤ} (hne : l ≠ []) (h : ∀ s ∈ l, i < v s) :
    IsMax l v (lineOf (.greatest i) (fun _ => 1) v l) := by
  obtain ⟨s, hs⟩ := List.exists_mem_of_ne_nil l hne
  obtain ⟨⟨t, ht, _, e⟩, h2⟩ := greatest_spec (weight := fun _ => 1) ⟨s, hs, one_pos, h s hs⟩
  exact ⟨⟨t, ht, e⟩, fun q hq => h2 q hq one_pos⟩

theorem next_min (add sres : V3i) (v : V3i → ℚ) (c : V3i) (hne : cells add sres c ≠ [])
    (hv : ∀ q ∈ cells add sres c, v q < floatMax) :
    IsMin (cells add sres c) v (nextValues (minFilter 1) add sres v c) := by
  obtain ⟨q0, hq0⟩ := List.exists_mem_of_ne_nil _ hne
  rw [cells, mem_grid] at hq0
  have hu : ∀ (a : Axis) (n : ℤ) (w : V3i → ℚ) (p : V3i), cell (a.get p) (a.get add) n ≠ [] →
      (∀ s ∈ cell (a.get p) (a.get add) n, w (a.set p s) < floatMax) →
      IsMin (cell (a.get p) (a.get add) n) (fun s => w (a.set p s)) (mipAxis (minFilter 1) add a n w p) := by
    intro a n w p h1 h2
    rw [mipAxis_unit (by rfl) (by simp only [minFilter, boxEval]; rw [if_pos (by norm_num)])]
    exact min_line h1 h2
  -- x pass
  have hx : ∀ j k, j ∈ cell c.y add.y sres.y → k ∈ cell c.z add.z sres.z →
      IsMin (cell c.x add.x sres.x) (fun s => v ⟨s, j, k⟩) (mipAxis (minFilter 1) add .x sres.x v ⟨c.x, j, k⟩) :=
    fun j k hj hk => hu .x sres.x v ⟨c.x, j, k⟩ (List.ne_nil_of_mem hq0.1) fun s hs =>
      hv _ ((mem_grid ..).2 ⟨hs, hj, hk⟩)
  have hy : ∀ k, k ∈ cell c.z add.z sres.z → IsMin (cell c.y add.y sres.y)
      (fun s => mipAxis (minFilter 1) add .x sres.x v ⟨c.x, s, k⟩)
      (mipAxis (minFilter 1) add .y sres.y (mipAxis (minFilter 1) add .x sres.x v) ⟨c.x, c.y, k⟩) :=
    fun k hk => hu .y sres.y _ ⟨c.x, c.y, k⟩ (List.ne_nil_of_mem hq0.2.1) fun s hs => by
      obtain ⟨⟨t, ht, e⟩, _⟩ := hx s k hs hk
      exact lt_of_eq_of_lt e (hv _ ((mem_grid ..).2 ⟨ht, hs, hk⟩))
  have hz := hu .z sres.z (mipAxis (minFilter 1) add .y sres.y (mipAxis (minFilter 1) add .x sres.x v)) c
    (List.ne_nil_of_mem hq0.2.2) fun s hs => by
      obtain ⟨⟨t, ht, e⟩, _⟩ := hy s hs
      obtain ⟨⟨t', ht', e'⟩, _⟩ := hx t s ht hs
      exact lt_of_eq_of_lt (e.trans e') (hv _ ((mem_grid ..).2 ⟨ht', ht, hs⟩))
  refine ⟨?_, fun q hq => ?_⟩
  · obtain ⟨⟨k, hk, e1⟩, _⟩ := hz
    obtain ⟨⟨j, hj, e2⟩, _⟩ := hy k hk
    obtain ⟨⟨i, hi, e3⟩, _⟩ := hx j k hj hk
    exact ⟨⟨i, j, k⟩, (mem_grid ..).2 ⟨hi, hj, hk⟩, e1.trans (e2.trans e3)⟩
  · rw [cells, mem_grid] at hq
    exact le_trans (hz.2 q.z hq.2.2) (le_trans ((hy q.z hq.2.2).2 q.y hq.2.1) ((hx q.y q.z hq.2.1 hq.2.2).2 q.x hq.1))

theorem next_max (add sres : V3i) (v : V3i → ℚ) (c : V3i) (hne : cells add sres c ≠ [])
    (hv : ∀ q ∈ cells add sres c, -floatMax < v q) :
    IsMax (cells add sres c) v (nextValues (maxFilter 1) add sres v c) := by
  obtain ⟨q0, hq0⟩ := List.exists_mem_of_ne_nil _ hne
  rw [cells, mem_grid] at hq0
  have hu : ∀ (a : Axis) (n : ℤ) (w : V3i → ℚ) (p : V3i), cell (a.get p) (a.get add) n ≠ [] →
      (∀ s ∈ cell (a.get p) (a.get add) n, -floatMax < w (a.set p s)) →
      IsMax (cell (a.get p) (a.get add) n) (fun s => w (a.set p s)) (mipAxis (maxFilter 1) add a n w p) := by
    intro a n w p h1 h2
    rw [mipAxis_unit (by rfl) (by simp only [maxFilter, boxEval]; rw [if_pos (by norm_num)])]
    exact max_line h1 h2
  have hx : ∀ j k, j ∈ cell c.y add.y sres.y → k ∈ cell c.z add.z sres.z →
      IsMax (cell c.x add.x sres.x) (fun s => v ⟨s, j, k⟩) (mipAxis (maxFilter 1) add .x sres.x v ⟨c.x, j, k⟩) :=
    fun j k hj hk => hu .x sres.x v ⟨c.x, j, k⟩ (List.ne_nil_of_mem hq0.1) fun s hs =>
      hv _ ((mem_grid ..).2 ⟨hs, hj, hk⟩)
  have hy : ∀ k, k ∈ cell c.z add.z sres.z → IsMax (cell c.y add.y sres.y)
      (fun s => mipAxis (maxFilter 1) add .x sres.x v ⟨c.x, s, k⟩)
      (mipAxis (maxFilter 1) add .y sres.y (mipAxis (maxFilter 1) add .x sres.x v) ⟨c.x, c.y, k⟩) :=
    fun k hk => hu .y sres.y _ ⟨c.x, c.y, k⟩ (List.ne_nil_of_mem hq0.2.1) fun s hs => by
      obtain ⟨⟨t, ht, e⟩, _⟩ := hx s k hs hk
      exact lt_of_lt_of_eq (hv _ ((mem_grid ..).2 ⟨ht, hs, hk⟩)) e.symm
  have hz := hu .z sres.z (mipAxis (maxFilter 1) add .y sres.y (mipAxis (maxFilter 1) add .x sres.x v)) c
    (List.ne_nil_of_mem hq0.2.2) fun s hs => by
      obtain ⟨⟨t, ht, e⟩, _⟩ := hy s hs
      obtain ⟨⟨t', ht', e'⟩, _⟩ := hx t s ht hs
      exact lt_of_lt_of_eq (hv _ ((mem_grid ..).2 ⟨ht', ht, hs⟩)) (e.trans e').symm
  refine ⟨?_, fun q hq => ?_⟩
  · obtain ⟨⟨k, hk, e1⟩, _⟩ := hz
    obtain ⟨⟨j, hj, e2⟩, _⟩ := hy k hk
    obtain ⟨⟨i, hi, e3⟩, _⟩ := hx j k hj hk
    exact ⟨⟨i, j, k⟩, (mem_grid ..).2 ⟨hi, hj, hk⟩, e1.trans (e2.trans e3)⟩
  · rw [cells, mem_grid] at hq
    exact le_trans ((hx q.y q.z hq.2.1 hq.2.2).2 q.x hq.1) (le_trans ((hy q.z hq.2.2).2 q.y hq.2.1) (hz.2 q.z hq.2.2))

/-! ## Filters with non-negative weights -/

/-- A voxel that is covered is read with the weight at a quarter. -/
theorem cell_read {flt : Filter} (hs : 0 < flt.support) {i add n s : ℤ} (h : s ∈ cell i add n) :
    s ∈ forRange (max (mipInterval flt.support (curSrc i add)).1 0)
      (min (mipInterval flt.support (curSrc i add)).2 (n - 1)) := by
  have h' := mem_cell.1 h
  rw [mem_forRange]
  unfold mipInterval
  have e : curSrc i add = ((2 * i + 1 - add : ℤ) : ℚ) := by unfold curSrc mid; push_cast; ring
  rw [e]
  have hf : (((2 * i + 1 - add : ℤ) : ℚ) - flt.support * 2).floor ≤ s := by
    have h1 := floor_le' (((2 * i + 1 - add : ℤ) : ℚ) - flt.support * 2)
    have h2 : ((((2 * i + 1 - add : ℤ) : ℚ) - flt.support * 2).floor : ℚ) < ((2 * i + 1 - add : ℤ) : ℚ) := by linarith
    have h3 : (((2 * i + 1 - add : ℤ) : ℚ) - flt.support * 2).floor < 2 * i + 1 - add := by exact_mod_cast h2
    omega
  have hc : s + 1 ≤ (((2 * i + 1 - add : ℤ) : ℚ) + flt.support * 2).ceil := by
    rw [Rat.ceil_eq_neg_floor_neg]
    have h1 := floor_le' (-(((2 * i + 1 - add : ℤ) : ℚ) + flt.support * 2))
    have h2 : ((-(((2 * i + 1 - add : ℤ) : ℚ) + flt.support * 2)).floor : ℚ) < ((-(2 * i + 1 - add) : ℤ) : ℚ) := by
      push_cast at h1 ⊢; linarith
    have h3 : (-(((2 * i + 1 - add : ℤ) : ℚ) + flt.support * 2)).floor < -(2 * i + 1 - add) := by exact_mod_cast h2
    omega
  constructor
  · exact max_le hf h'.1
  · exact le_min (by omega) (by omega)

/-- A pass of a filter with non-negative weights stays within the values of the field. -/
theorem mipAxis_between {flt : Filter} (ho : flt.op = .weighted) (hs : 0 < flt.support) (hnn : ∀ x, 0 ≤ x → 0 ≤ flt.eval x)
    (hq : 0 < flt.eval (1 / 4)) (add : V3i) (a : Axis) (n : ℤ) (v : V3i → ℚ) (p : V3i) {lo hi : ℚ}
    (hne : cell (a.get p) (a.get add) n ≠ []) (hv : ∀ s, 0 ≤ s → s < n → lo ≤ v (a.set p s) ∧ v (a.set p s) ≤ hi) :
    lo ≤ mipAxis flt add a n v p ∧ mipAxis flt add a n v p ≤ hi := by
  unfold mipAxis
  rw [ho]
  apply weighted_between
  · intro s _
    apply hnn
    rw [absQ_eq]; positivity
  · obtain ⟨s, hs'⟩ := List.exists_mem_of_ne_nil _ hne
    exact ⟨s, cell_read hs hs', by rw [dist_cell hs']; exact hq⟩
  · intro s hs' _
    rw [mem_forRange] at hs'
    have h1 := le_trans (le_max_right _ _) hs'.1
    have h2 := le_trans hs'.2 (min_le_right _ _)
    exact hv s h1 (by omega)

theorem next_between {flt : Filter} (ho : flt.op = .weighted) (hs : 0 < flt.support) (hnn : ∀ x, 0 ≤ x → 0 ≤ flt.eval x)
    (hq : 0 < flt.eval (1 / 4)) (add sres : V3i) (v : V3i → ℚ) (c : V3i) {lo hi : ℚ}
    (hne : cells add sres c ≠ []) (hv : ∀ q, (boxOf sres).contains q = true → lo ≤ v q ∧ v q ≤ hi) :
    lo ≤ nextValues flt add sres v c ∧ nextValues flt add sres v c ≤ hi := by
  obtain ⟨q0, hq0⟩ := List.exists_mem_of_ne_nil _ hne
  rw [cells, mem_grid] at hq0
  unfold nextValues
  apply mipAxis_between ho hs hnn hq add .z sres.z _ c (List.ne_nil_of_mem hq0.2.2)
  intro k hk1 hk2
  apply mipAxis_between ho hs hnn hq add .y sres.y _ ⟨c.x, c.y, k⟩ (List.ne_nil_of_mem hq0.2.1)
  intro j hj1 hj2
  apply mipAxis_between ho hs hnn hq add .x sres.x _ ⟨c.x, j, k⟩ (List.ne_nil_of_mem hq0.1)
  intro i hi1 hi2
  apply hv
  rw [boxOf_contains]
  exact ⟨hi1, hi2, hj1, hj2, hk1, hk2⟩

/-! ## The chain of levels -/

theorem halfOff_eq (o : ℤ) : halfOff o = o / 2 := by
  unfold halfOff
  split
  · have h2 : Int.sign 2 = 1 := rfl
    rw [Int.tdiv_eq_ediv, h2]
    have : ¬ (0 ≤ o - 1) := by omega
    simp only [this, false_or]
    split <;> omega
  · rw [Int.tdiv_eq_ediv_of_nonneg (by omega)]

/-- The offset at a level. -/
def offAt (off : V3i) (l : ℕ) : V3i := ⟨off.x / 2 ^ l, off.y / 2 ^ l, off.z / 2 ^ l⟩

theorem offAt_zero (off : V3i) : offAt off 0 = off := by simp [offAt]

theorem nextOff_offAt (off : V3i) (l : ℕ) : nextOff (offAt off l) = offAt off (l + 1) := by
  have h : ∀ o : ℤ, o / 2 ^ l / 2 = o / 2 ^ (l + 1) := fun o => by
    rw [Int.ediv_ediv_of_nonneg (by positivity), pow_succ]
  simp only [nextOff, offAt, halfOff_eq, h]

/-- What the loop returns: each level is filtered from the one before. -/
theorem mipLoop_ok (flt : Filter) (base : Dense ℚ) (minSize : ℤ) (off : V3i) : ∀ (fuel : ℕ) (last : Dense ℚ) (lv : ℕ)
    (levels : List (Dense ℚ)),
    mipLoop flt base minSize fuel last (lv + 1) (last.dw.size + V3i.all 1) (offAt off lv) = .ok (some levels) →
    (∀ (i : ℕ) (f g : Dense ℚ), (last :: levels)[i]? = some f → (last :: levels)[i + 1]? = some g →
      goOn minSize (f.dw.size + V3i.all 1) = true ∧ mipResample flt base f (lv + i + 1) (offAt off (lv + i)) = .ok g) ∧
    (∀ f : Dense ℚ, (last :: levels).getLast? = some f → goOn minSize (f.dw.size + V3i.all 1) = false) := by
  intro fuel
  induction fuel with
  | zero =>
    intro last lv levels h
    unfold mipLoop at h
    split at h
    · cases h
    · rename_i hg
      injection h with h; injection h with h; subst h
      refine ⟨fun i f g hf hg' => by simp at hg', fun f hf => ?_⟩
      simp at hf; subst hf; exact Bool.eq_false_iff.2 hg
  | succ n ih =>
    intro last lv levels h
    unfold mipLoop at h
    split at h
    · rename_i hg
      cases hr : mipResample flt base last (lv + 1) (offAt off lv) with
      | undef => rw [hr] at h; cases h
      | resizeException => rw [hr] at h; cases h
      | ok next =>
        rw [hr] at h
        change (mipLoop flt base minSize n next (lv + 1 + 1) (next.dw.size + V3i.all 1) (nextOff (offAt off lv))).bind _ = _ at h
        rw [nextOff_offAt] at h
        cases hl : mipLoop flt base minSize n next (lv + 1 + 1) (next.dw.size + V3i.all 1) (offAt off (lv + 1)) with
        | undef => rw [hl] at h; cases h
        | resizeException => rw [hl] at h; cases h
        | ok l =>
          rw [hl] at h
          cases l with
          | none => cases h
          | some l =>
            change Result.ok (some (next :: l)) = _ at h
            injection h with h; injection h with h; subst h
            obtain ⟨h1, h2⟩ := ih next (lv + 1) l hl
            refine ⟨fun i f g hf hg' => ?_, fun f hf => ?_⟩
            · cases i with
              | zero =>
                simp at hf hg'
                subst hf; subst hg'
                exact ⟨hg, hr⟩
              | succ i =>
                have := h1 i f g (by simpa using hf) (by simpa using hg')
                rw [show lv + (i + 1) = lv + 1 + i by omega]
                exact this
            · exact h2 f (by simpa using hf)
    · rename_i hg
      injection h with h; injection h with h; subst h
      refine ⟨fun i f g hf hg' => by simp at hg', fun f hf => ?_⟩
      simp at hf; subst hf; exact Bool.eq_false_iff.2 hg

theorem makeMIP_ok {flt : Filter} {base : Dense ℚ} {minSize : ℤ} {off : V3i} {fuel : ℕ} {levels : List (Dense ℚ)}
    (h : makeMIP flt base minSize off fuel = .ok levels) :
    base.extents = base.dw ∧ levels[0]? = some base ∧ sane levels = true ∧
    (∀ (i : ℕ) (f g : Dense ℚ), levels[i]? = some f → levels[i + 1]? = some g →
      goOn minSize (f.dw.size + V3i.all 1) = true ∧ mipResample flt base f (i + 1) (offAt off i) = .ok g) ∧
    (∀ f : Dense ℚ, levels.getLast? = some f → goOn minSize (f.dw.size + V3i.all 1) = false) := by
  unfold makeMIP at h
  split at h
  · cases h
  · rename_i he
    have he' : base.extents = base.dw := by simpa using he
    rw [he'] at h
    split at h
    · cases h
    · cases h
    · cases h
    · rename_i l hl
      split at h
      · rename_i hs
        injection h with h; subst h
        obtain ⟨h1, h2⟩ := mipLoop_ok flt base minSize off fuel base 0 l (by rw [offAt_zero]; exact hl)
        refine ⟨he', rfl, hs, fun i f g hf hg => ?_, h2⟩
        have := h1 i f g hf hg
        rwa [Nat.zero_add] at this
      · cases h

end Resample
end F3D
