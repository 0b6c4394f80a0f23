import Verif.Model.Iterate
import Verif.Proofs.Grid

/-! Helper lemmas for traversals of boxes. -/

namespace F3D

theorem Visits.det {σ : Type} {next : σ → σ} {isEnd : σ → Bool} {s : σ} {l₁ l₂ : List σ}
    (h₁ : Visits next isEnd s l₁) (h₂ : Visits next isEnd s l₂) : l₁ = l₂ := by
  induction h₁ generalizing l₂ with
  | done s h =>
    cases h₂ with
    | done => rfl
    | step _ _ h' => simp [h] at h'
  | step s l h _ ih =>
    cases h₂ with
    | done _ h' => simp [h] at h'
    | step _ l' _ h' => rw [ih h']

namespace Box3i

theorem isEmpty_false {b : Box3i} : b.isEmpty = false ↔
    b.min.x ≤ b.max.x ∧ b.min.y ≤ b.max.y ∧ b.min.z ≤ b.max.z := by
  simp only [isEmpty, Bool.or_eq_false_iff, decide_eq_false_iff_not]
  omega

theorem contains_iff {b : Box3i} {p : V3i} : b.contains p = true ↔
    (b.min.x ≤ p.x ∧ p.x ≤ b.max.x) ∧ (b.min.y ≤ p.y ∧ p.y ≤ b.max.y) ∧
    (b.min.z ≤ p.z ∧ p.z ≤ b.max.z) := by
  simp only [contains, Bool.and_eq_true, decide_eq_true_eq]
  constructor <;> intro h <;> simp_all

/-- Row length, slice height and number of slices as naturals. -/
def nx (b : Box3i) : Nat := b.res.x.toNat
def ny (b : Box3i) : Nat := b.res.y.toNat
def nz (b : Box3i) : Nat := b.res.z.toNat
def vol (b : Box3i) : Nat := b.nx * b.ny * b.nz

theorem dims (b : Box3i) (h : b.isEmpty = false) :
    (b.nx : Int) = b.max.x - b.min.x + 1 ∧ (b.ny : Int) = b.max.y - b.min.y + 1 ∧
    (b.nz : Int) = b.max.z - b.min.z + 1 ∧ 0 < b.nx ∧ 0 < b.ny ∧ 0 < b.nz := by
  rw [isEmpty_false] at h
  simp only [nx, ny, nz, res, V3i.add_x, V3i.add_y, V3i.add_z, V3i.sub_x, V3i.sub_y, V3i.sub_z,
    V3i.all_x, V3i.all_y, V3i.all_z]
  omega

/-- The voxel with linear index `i`. -/
def coordAt (b : Box3i) (i : Nat) : V3i :=
  ⟨b.min.x + (i % b.nx : Nat), b.min.y + (i / b.nx % b.ny : Nat),
   b.min.z + (i / (b.nx * b.ny) : Nat)⟩

/-- The linear index of a voxel. -/
def indexOf (b : Box3i) (p : V3i) : Nat :=
  Grid.enc b.nx b.ny (p.x - b.min.x).toNat (p.y - b.min.y).toNat (p.z - b.min.z).toNat

def voxels (b : Box3i) : List V3i := (List.range b.vol).map b.coordAt

theorem vol_pos {b : Box3i} (h : b.isEmpty = false) : 0 < b.vol := by
  obtain ⟨_, _, _, hx, hy, hz⟩ := b.dims h
  exact Nat.mul_pos (Nat.mul_pos hx hy) hz

theorem toNat_bounds {b : Box3i} (h : b.isEmpty = false) {p : V3i} (hp : b.contains p = true) :
    (p.x - b.min.x).toNat < b.nx ∧ (p.y - b.min.y).toNat < b.ny ∧ (p.z - b.min.z).toNat < b.nz := by
  obtain ⟨h1, h2, h3, _, _, _⟩ := b.dims h
  rw [contains_iff] at hp
  omega

theorem indexOf_lt {b : Box3i} (h : b.isEmpty = false) {p : V3i} (hp : b.contains p = true) :
    b.indexOf p < b.vol := by
  obtain ⟨h1, h2, h3⟩ := toNat_bounds h hp
  exact Grid.enc_lt h1 h2 h3

theorem coordAt_indexOf {b : Box3i} (h : b.isEmpty = false) {p : V3i} (hp : b.contains p = true) :
    b.coordAt (b.indexOf p) = p := by
  obtain ⟨h1, h2, h3⟩ := toNat_bounds h hp
  rw [contains_iff] at hp
  unfold coordAt indexOf
  rw [Grid.dec_x h1, Grid.dec_y h1 h2, Grid.dec_z h1 h2]
  apply V3i.ext' <;> simp only <;> omega

theorem contains_coordAt {b : Box3i} (h : b.isEmpty = false) {i : Nat} (hi : i < b.vol) :
    b.contains (b.coordAt i) = true := by
  obtain ⟨h1, h2, h3, _, _, _⟩ := b.dims h
  obtain ⟨g1, g2, g3⟩ := Grid.dec_bounds hi
  rw [contains_iff]
  simp only [coordAt]
  generalize i % b.nx = a at *
  generalize i / b.nx % b.ny = c at *
  generalize i / (b.nx * b.ny) = d at *
  omega

theorem indexOf_coordAt {b : Box3i} (i : Nat) :
    b.indexOf (b.coordAt i) = i := by
  unfold indexOf coordAt
  simp only [Int.toNat_natCast,
    show ∀ a c : Int, a + c - a = c from fun a c => by omega]
  exact Grid.enc_dec _ _ _

theorem indexOf_inj {b : Box3i} (h : b.isEmpty = false) {p q : V3i} (hp : b.contains p = true)
    (hq : b.contains q = true) (e : b.indexOf p = b.indexOf q) : p = q := by
  rw [← coordAt_indexOf h hp, e, coordAt_indexOf h hq]

theorem voxels_nodup (b : Box3i) : b.voxels.Nodup := by
  unfold voxels
  rw [List.nodup_iff_pairwise_ne, List.pairwise_map]
  refine List.Pairwise.imp ?_ (List.nodup_iff_pairwise_ne.mp List.nodup_range)
  intro i j hne he
  exact hne (by rw [← indexOf_coordAt (b := b) i, he, indexOf_coordAt])

theorem mem_voxels {b : Box3i} (h : b.isEmpty = false) {p : V3i} :
    p ∈ b.voxels ↔ b.contains p = true := by
  unfold voxels
  simp only [List.mem_map, List.mem_range]
  constructor
  · rintro ⟨i, hi, rfl⟩; exact contains_coordAt h hi
  · intro hp; exact ⟨_, indexOf_lt h hp, coordAt_indexOf h hp⟩

theorem coordAt_zero (b : Box3i) : b.coordAt 0 = b.min := by
  unfold coordAt; apply V3i.ext' <;> simp

/-- Successor in x-fastest order. -/
theorem coordAt_succ {b : Box3i} (h : b.isEmpty = false) {i : Nat} :
    b.coordAt (i + 1) = iterNext b (b.coordAt i) := by
  obtain ⟨h1, h2, h3, p1, p2, p3⟩ := b.dims h
  obtain ⟨m1, d1⟩ := Grid.succ_mod_div (i := i) p1
  obtain ⟨m2, d2⟩ := Grid.succ_mod_div (i := i / b.nx) p2
  have hz : (i + 1) / (b.nx * b.ny) = (i + 1) / b.nx / b.ny := (Nat.div_div_eq_div_mul _ _ _).symm
  have hz' : i / (b.nx * b.ny) = i / b.nx / b.ny := (Nat.div_div_eq_div_mul _ _ _).symm
  have b1 := Nat.mod_lt i p1
  have b2 := Nat.mod_lt (i / b.nx) p2
  unfold iterNext coordAt
  rw [hz, hz', m1, d1]
  simp only
  by_cases c1 : i % b.nx = b.nx - 1
  · rw [if_pos c1, if_pos c1, if_pos (by omega), m2, d2]
    by_cases c2 : i / b.nx % b.ny = b.ny - 1
    · rw [if_pos c2, if_pos c2, if_pos (by omega)]
      apply V3i.ext' <;> simp only <;> omega
    · rw [if_neg c2, if_neg c2, if_neg (by omega)]
      apply V3i.ext' <;> simp only <;> omega
  · rw [if_neg c1, if_neg c1, if_neg (by omega)]
    apply V3i.ext' <;> simp only <;> omega

theorem coordAt_last {b : Box3i} (h : b.isEmpty = false) : b.coordAt (b.vol - 1) = b.max := by
  have hmax : b.contains b.max = true := by
    rw [isEmpty_false] at h; rw [contains_iff]; omega
  have e : b.indexOf b.max = b.vol - 1 := by
    obtain ⟨h1, h2, h3, p1, p2, p3⟩ := b.dims h
    have hx : (b.max.x - b.min.x).toNat = b.nx - 1 := by omega
    have hy : (b.max.y - b.min.y).toNat = b.ny - 1 := by omega
    have hz : (b.max.z - b.min.z).toNat = b.nz - 1 := by omega
    unfold indexOf vol Grid.enc
    rw [hx, hy, hz, Nat.sub_mul, Nat.sub_mul]
    have q1 : b.nx ≤ b.ny * b.nx := Nat.le_mul_of_pos_left _ p2
    have q2 : b.nx * b.ny ≤ b.nz * (b.nx * b.ny) := Nat.le_mul_of_pos_left _ p3
    have q3 : b.ny * b.nx = b.nx * b.ny := Nat.mul_comm _ _
    have q4 : b.nx * b.ny * b.nz = b.nz * (b.nx * b.ny) := Nat.mul_comm _ _
    omega
  rw [← e, coordAt_indexOf h hmax]

theorem coordAt_ne_max {b : Box3i} (h : b.isEmpty = false) {i : Nat} (hi : i + 1 < b.vol) :
    b.coordAt i ≠ b.max := by
  intro e
  have := indexOf_coordAt (b := b) i
  rw [e, ← coordAt_last h, indexOf_coordAt] at this
  omega

end Box3i

theorem iterNext_max (b : Box3i) : iterNext b b.max = iterEnd b := by
  simp [iterNext, iterEnd]

theorem iterAtEnd_iff {b : Box3i} {p : V3i} : iterAtEnd b p = true ↔ p = iterEnd b := by
  unfold iterAtEnd
  simp only [Bool.and_eq_true, decide_eq_true_eq]
  constructor
  · rintro ⟨⟨h1, h2⟩, h3⟩; exact V3i.ext' h1 h2 h3
  · rintro rfl; simp

theorem iterAtEnd_false_of_contains {b : Box3i} {p : V3i} (hp : b.contains p = true) :
    iterAtEnd b p = false := by
  rw [Box3i.contains_iff] at hp
  apply Bool.eq_false_iff.mpr
  rw [Ne, iterAtEnd_iff]
  rintro rfl
  simp only [iterEnd] at hp
  omega

/-- Any state machine that simulates the coordinate stepping of a non-empty box visits the images
of its voxels in x-fastest order. -/
theorem visits_of_sim {σ : Type} {next : σ → σ} {isEnd : σ → Bool} {b : Box3i}
    (h : b.isEmpty = false) (emb : V3i → σ)
    (hnext : ∀ p, b.contains p = true → p ≠ b.max → next (emb p) = emb (iterNext b p))
    (hend : isEnd (next (emb b.max)) = true)
    (hne : ∀ p, b.contains p = true → isEnd (emb p) = false) :
    Visits next isEnd (emb b.min) (b.voxels.map emb) := by
  have key : ∀ n i, i + n = b.vol → 0 < n →
      Visits next isEnd (emb (b.coordAt i)) (((List.range' i n).map b.coordAt).map emb) := by
    intro n
    induction n with
    | zero => intro i _ h0; omega
    | succ n ih =>
      intro i hi _
      rw [List.range'_succ]
      simp only [List.map_cons]
      have hc := Box3i.contains_coordAt h (i := i) (by omega)
      refine Visits.step _ _ (hne _ hc) ?_
      by_cases hn : n = 0
      · subst hn
        have : i = b.vol - 1 := by omega
        rw [this, Box3i.coordAt_last h]
        exact Visits.done _ hend
      · rw [hnext _ hc (Box3i.coordAt_ne_max h (by omega)), ← Box3i.coordAt_succ h]
        exact ih (i + 1) (by omega) (by omega)
  have := key b.vol 0 (by omega) (Box3i.vol_pos h)
  rw [Box3i.coordAt_zero] at this
  rw [Box3i.voxels, List.range_eq_range']
  exact this

theorem visits_box {b : Box3i} (h : b.isEmpty = false) :
    Visits (iterNext b) (iterAtEnd b) b.min b.voxels := by
  have := visits_of_sim (next := iterNext b) (isEnd := iterAtEnd b) h id
    (fun p _ _ => rfl) (by simp only [id]; rw [iterNext_max, iterAtEnd_iff])
    (fun p hp => iterAtEnd_false_of_contains hp)
  simpa using this

/-- Position order: z, then y, then x. -/
def zyxLt (a b : V3i) : Prop :=
  a.z < b.z ∨ (a.z = b.z ∧ (a.y < b.y ∨ (a.y = b.y ∧ a.x < b.x)))

theorem zyxLt_trans {a b c : V3i} (h1 : zyxLt a b) (h2 : zyxLt b c) : zyxLt a c := by
  unfold zyxLt at *; omega

theorem iterNext_zyx {b : Box3i} (h : b.isEmpty = false) {p : V3i} (hp : b.contains p = true) :
    zyxLt p (iterNext b p) := by
  rw [Box3i.contains_iff] at hp
  unfold iterNext zyxLt
  split
  · split
    · left; simp only; omega
    · right; refine ⟨rfl, Or.inl ?_⟩; simp only; omega
  · right; refine ⟨rfl, Or.inr ⟨rfl, ?_⟩⟩; simp only; omega

theorem voxels_sorted {b : Box3i} (h : b.isEmpty = false) : b.voxels.Pairwise zyxLt := by
  unfold Box3i.voxels
  have step : ∀ d i, i + d + 1 < b.vol → zyxLt (b.coordAt i) (b.coordAt (i + d + 1)) := by
    intro d
    induction d with
    | zero =>
      intro i hi
      have := iterNext_zyx h (Box3i.contains_coordAt h (i := i) (by omega))
      rw [← Box3i.coordAt_succ h] at this
      exact this
    | succ d ih =>
      intro i hi
      refine zyxLt_trans (ih i (by omega)) ?_
      have := iterNext_zyx h (Box3i.contains_coordAt h (i := i + d + 1) (by omega))
      rw [← Box3i.coordAt_succ h] at this
      exact this
  rw [List.pairwise_map]
  rw [List.pairwise_iff_getElem]
  intro i j hi hj hij
  simp only [List.length_range] at hi hj
  simp only [List.getElem_range]
  have := step (j - i - 1) i (by omega)
  rwa [show i + (j - i - 1) + 1 = j by omega] at this

theorem Loop.visits {σ : Type} {next : σ → σ} {isEnd : σ → Bool} {s t : σ} {l : List σ}
    (h : Loop next isEnd s l t) : Visits next isEnd s l := by
  induction h with
  | done s h => exact Visits.done s h
  | step s l t h _ ih => exact Visits.step s l h ih

/-- Loop rule for counted traversals: an invariant indexed by the number of steps done. -/
theorem loop_of_inv {σ : Type} {next : σ → σ} {isEnd : σ → Bool} {n : Nat} (R : Nat → σ → Prop)
    (hstep : ∀ i s, i < n → R i s → R (i + 1) (next s))
    (hne : ∀ i s, i < n → R i s → isEnd s = false)
    (hend : ∀ s, R n s → isEnd s = true) {s : σ} (h0 : R 0 s) :
    ∃ l t, Loop next isEnd s l t ∧ R n t ∧ l.length = n ∧ ∀ i x, l[i]? = some x → R i x := by
  have key : ∀ m i s, i + m = n → R i s → ∃ l t, Loop next isEnd s l t ∧ R n t ∧ l.length = m ∧
      ∀ j x, l[j]? = some x → R (i + j) x := by
    intro m
    induction m with
    | zero =>
      intro i s hi h
      have : i = n := by omega
      subst this
      exact ⟨[], s, Loop.done s (hend s h), h, rfl, by simp⟩
    | succ m ih =>
      intro i s hi h
      obtain ⟨l, t, h1, h2, h3, h4⟩ := ih (i + 1) (next s) (by omega) (hstep i s (by omega) h)
      refine ⟨s :: l, t, Loop.step s l t (hne i s (by omega) h) h1, h2, by simp [h3], ?_⟩
      intro j x hx
      cases j with
      | zero => simp at hx; subst hx; exact h
      | succ j =>
        rw [show i + (j + 1) = i + 1 + j by omega]
        exact h4 j x (by simpa using hx)
  obtain ⟨l, t, h1, h2, h3, h4⟩ := key n 0 s (by omega) h0
  exact ⟨l, t, h1, h2, h3, fun i x hx => by simpa using h4 i x hx⟩

/-- If the `i`-th visited state reports position `coordAt i`, the positions are the voxels. -/
theorem map_pos_eq_voxels {σ : Type} {pos : σ → V3i} {b : Box3i} {l : List σ}
    (hl : l.length = b.vol) (h : ∀ i x, l[i]? = some x → pos x = b.coordAt i) :
    l.map pos = b.voxels := by
  apply List.ext_getElem?
  intro i
  unfold Box3i.voxels
  rw [List.getElem?_map, List.getElem?_map]
  by_cases hi : i < b.vol
  · rw [List.getElem?_range hi]
    have : i < l.length := by omega
    rw [List.getElem?_eq_getElem this]
    simp only [Option.map_some]
    rw [h i _ (List.getElem?_eq_getElem this)]
  · rw [List.getElem?_eq_none (by omega), List.getElem?_eq_none (by simp; omega)]
    rfl

end F3D
