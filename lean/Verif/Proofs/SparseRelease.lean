import Verif.Proofs.Sparse

/-! `releaseBlocks` in closed form. -/

namespace F3D
namespace Sparse
variable {α : Type}

/-- Grid coordinates of a linear index. -/
def gc (nx ny i : Nat) : V3i := ⟨(i % nx : Nat), (i / nx % ny : Nat), (i / (nx * ny) : Nat)⟩

theorem wrap_gc_zero {nx ny : Nat} (hx : 0 < nx) : wrap nx ny ⟨0, 0, 0⟩ = gc nx ny 0 := by
  unfold wrap gc
  rw [if_neg (by simp only; omega)]
  simp

theorem wrap_gc_succ {nx ny : Nat} (hx : 0 < nx) (hy : 0 < ny) (i : Nat) :
    wrap nx ny ⟨(gc nx ny i).x + 1, (gc nx ny i).y, (gc nx ny i).z⟩ = gc nx ny (i + 1) := by
  obtain ⟨m1, d1⟩ := Grid.succ_mod_div (i := i) hx
  obtain ⟨m2, d2⟩ := Grid.succ_mod_div (i := i / nx) hy
  have hz : (i + 1) / (nx * ny) = (i + 1) / nx / ny := (Nat.div_div_eq_div_mul _ _ _).symm
  have hz' : i / (nx * ny) = i / nx / ny := (Nat.div_div_eq_div_mul _ _ _).symm
  have b1 := Nat.mod_lt i hx
  have b2 := Nat.mod_lt (i / nx) hy
  unfold wrap gc
  rw [hz, hz', m1, d1]
  simp only
  by_cases c1 : i % nx = nx - 1
  · rw [if_pos c1, if_pos c1, if_pos (by omega), m2, d2]
    by_cases c2 : i / nx % ny = ny - 1
    · rw [if_pos c2, if_pos c2, if_pos (by omega)]
      apply V3i.ext' <;> simp
    · rw [if_neg c2, if_neg c2, if_neg (by omega)]
      apply V3i.ext' <;> simp
  · rw [if_neg c1, if_neg c1, if_neg (by omega)]
    apply V3i.ext' <;> simp

theorem allLoop_iff {bad : α → Bool} {ds : List α} :
    allLoop bad ds = true ↔ ∀ d ∈ ds, bad d = false := by
  induction ds with
  | nil => simp [allLoop]
  | cons d ds ih =>
    simp only [allLoop, List.mem_cons, forall_eq_or_imp]
    cases h : bad d <;> simp [ih]

/-- Inside the valid part of a block. -/
def Inside (v c : V3i) : Prop := c.x < v.x ∧ c.y < v.y ∧ c.z < v.z

theorem validLoop_iff {bad : α → Bool} {v : V3i} {nx ny : Nat} {bs : V3i} (hbx : bs.x = nx)
    (hby : bs.y = ny) (hx : 0 < nx) (hy : 0 < ny) (ds : List α) :
    ∀ (c : V3i) (i : Nat), wrap nx ny c = gc nx ny i →
      (validLoop bad v bs ds c = true ↔
        ∀ j d, ds[j]? = some d → Inside v (gc nx ny (i + j)) → bad d = false) := by
  induction ds with
  | nil => intro c i _; simp [validLoop]
  | cons d ds ih =>
    intro c i hc
    simp only [validLoop, hbx, hby, hc]
    have ih' := ih ⟨(gc nx ny i).x + 1, (gc nx ny i).y, (gc nx ny i).z⟩ (i + 1) (wrap_gc_succ hx hy i)
    have split_all : (∀ j e, (d :: ds)[j]? = some e → Inside v (gc nx ny (i + j)) → bad e = false) ↔
        ((Inside v (gc nx ny i) → bad d = false) ∧
         ∀ j e, ds[j]? = some e → Inside v (gc nx ny (i + 1 + j)) → bad e = false) := by
      constructor
      · intro H
        refine ⟨fun h => H 0 d rfl h, fun j e he hi => ?_⟩
        have := H (j + 1) e (by simpa using he)
        rw [show i + (j + 1) = i + 1 + j by omega] at this
        exact this hi
      · rintro ⟨H0, H⟩ j e he hi
        cases j with
        | zero => simp at he; subst he; exact H0 hi
        | succ j =>
          rw [show i + (j + 1) = i + 1 + j by omega] at hi
          exact H j e (by simpa using he) hi
    rw [split_all, ← ih']
    have hin : ¬ ((gc nx ny i).x ≥ v.x ∨ (gc nx ny i).y ≥ v.y ∨ (gc nx ny i).z ≥ v.z) ↔
        Inside v (gc nx ny i) := by
      unfold Inside; omega
    by_cases hI : Inside v (gc nx ny i)
    · rw [if_neg (hin.mpr hI)]
      cases hb : bad d <;> simp [hI]
    · rw [if_pos (by rw [← hin] at hI; exact Classical.not_not.mp hI)]
      simp [hI]

theorem checkBlock_spec {bad : α → α → Bool} {v : V3i} {B : Nat} (hB : 0 < B) {b : Block α}
    {d : List α} (hd : b.data = some d) (hl : d.length = B * B * B) :
    ∃ first, d[0]? = some first ∧
      ∃ r, checkBlock bad b v (V3i.all B) = some r ∧ (r = none ∨ r = some first) ∧
      (r = some first ↔ ∀ j e, d[j]? = some e → Inside v (gc B B j) → bad first e = false) := by
  have hpos : 0 < B * B * B := Nat.mul_pos (Nat.mul_pos hB hB) hB
  cases d with
  | nil => simp at hl; omega
  | cons first rest =>
    refine ⟨first, rfl, ?_⟩
    simp only [checkBlock, hd]
    have key : (if v = V3i.all B then allLoop (bad first) (first :: rest)
              else validLoop (bad first) v (V3i.all B) (first :: rest) ⟨0, 0, 0⟩) = true ↔
        ∀ j e, (first :: rest)[j]? = some e → Inside v (gc B B j) → bad first e = false := by
      split
      · rename_i hv
        rw [allLoop_iff]
        constructor
        · intro H j e he _
          exact H e (List.mem_of_getElem? he)
        · intro H e he
          obtain ⟨j, hj⟩ := List.getElem?_of_mem he
          refine H j e hj ?_
          have hjl : j < B * B * B := by
            rw [← hl]; exact (List.getElem?_eq_some_iff.mp hj).1
          obtain ⟨g1, g2, g3⟩ := Grid.dec_bounds hjl
          subst hv
          unfold Inside gc
          simp only [V3i.all_x, V3i.all_y, V3i.all_z]
          refine ⟨?_, ?_, ?_⟩ <;> exact Int.ofNat_lt.mpr ‹_›
      · have := validLoop_iff (bad := bad first) (v := v) (bs := V3i.all B) (nx := B) (ny := B)
          rfl rfl hB hB (first :: rest) ⟨0, 0, 0⟩ 0 (wrap_gc_zero hB)
        simpa using this
    refine ⟨_, rfl, ?_, ?_⟩
    · split <;> simp
    · rw [← key]; split <;> simp_all

/-- Whether the block with number `i` is given up by `releaseBlocks`, over the raw data. -/
def Freed (bad : α → α → Bool) (f : Sparse α) (i : Nat) (b : Block α) : Prop :=
  b.isAllocated = true ∧ ∃ d first, b.data = some d ∧ d[0]? = some first ∧
    ∀ j e, d[j]? = some e →
      Inside (f.validSize (gc (bn f.order f.dw.nx) (bn f.order f.dw.ny) i))
        (gc (2 ^ f.order) (2 ^ f.order) j) → bad first e = false

theorem releaseLoop_spec {bad : α → α → Bool} {f : Sparse α} (wf : f.WF) (bs : List (Block α)) :
    ∀ (c : V3i) (i : Nat), (∀ b ∈ bs, BWF f.bvol b) →
      wrap (bn f.order f.dw.nx : Nat) (bn f.order f.dw.ny : Nat) c =
        gc (bn f.order f.dw.nx) (bn f.order f.dw.ny) i →
      ∃ bs' n, releaseLoop bad f bs c = some (bs', n) ∧ bs'.length = bs.length ∧
        (∀ b ∈ bs', BWF f.bvol b) ∧
        (bs'.filter (·.isAllocated)).length + n = (bs.filter (·.isAllocated)).length ∧
        ∀ j b, bs[j]? = some b → ∃ b', bs'[j]? = some b' ∧
          ((Freed bad f (i + j) b ∧ b'.isAllocated = false ∧ some b'.emptyValue = bval b 0) ∨
           (¬ Freed bad f (i + j) b ∧ b' = b)) := by
  induction bs with
  | nil => intro c i _ _; exact ⟨[], 0, rfl, rfl, by simp, rfl, by simp⟩
  | cons b bs ih =>
    intro c i hb hc
    obtain ⟨_, _, _, p1, p2, _⟩ := f.dw.dims wf.ne
    have q1 := bn_pos (o := f.order) p1
    have q2 := bn_pos (o := f.order) p2
    obtain ⟨bs', m, hrec, hlen, hbw, hcount, hspec⟩ :=
      ih ⟨(gc (bn f.order f.dw.nx) (bn f.order f.dw.ny) i).x + 1,
          (gc (bn f.order f.dw.nx) (bn f.order f.dw.ny) i).y,
          (gc (bn f.order f.dw.nx) (bn f.order f.dw.ny) i).z⟩ (i + 1)
        (fun b' h => hb b' (List.mem_cons_of_mem _ h)) (wrap_gc_succ q1 q2 i)
    have hbwf := hb b List.mem_cons_self
    simp only [releaseLoop, wf.bx, wf.by', hc, hrec]
    -- combine the head result with the tail
    have combine : ∀ (b' : Block α) (n : Nat), BWF f.bvol b' →
        ((if b'.isAllocated then 1 else 0) + n = if b.isAllocated then 1 else 0) →
        ((Freed bad f i b ∧ b'.isAllocated = false ∧ some b'.emptyValue = bval b 0) ∨
           (¬ Freed bad f i b ∧ b' = b)) →
        (b' :: bs').length = (b :: bs).length ∧ (∀ x ∈ b' :: bs', BWF f.bvol x) ∧
        ((b' :: bs').filter (·.isAllocated)).length + (n + m) =
          ((b :: bs).filter (·.isAllocated)).length ∧
        ∀ j x, (b :: bs)[j]? = some x → ∃ x', (b' :: bs')[j]? = some x' ∧
          ((Freed bad f (i + j) x ∧ x'.isAllocated = false ∧ some x'.emptyValue = bval x 0) ∨
           (¬ Freed bad f (i + j) x ∧ x' = x)) := by
      intro b' n hw' hn hfr
      refine ⟨by simp [hlen], ?_, ?_, ?_⟩
      · intro x hx
        rcases List.mem_cons.mp hx with rfl | hx
        · exact hw'
        · exact hbw x hx
      · simp only [List.filter_cons]
        cases h1 : b'.isAllocated <;> cases h2 : b.isAllocated <;> simp [h1, h2] at hn ⊢ <;> omega
      · intro j x hx
        cases j with
        | zero =>
          simp at hx; subst hx
          exact ⟨b', rfl, hfr⟩
        | succ j =>
          obtain ⟨x', h1, h2⟩ := hspec j x (by simpa using hx)
          refine ⟨x', by simpa using h1, ?_⟩
          rw [show i + (j + 1) = i + 1 + j by omega]
          exact h2
    cases ha : b.isAllocated with
    | false =>
      simp only [Bool.false_eq_true, if_false]
      refine ⟨_, _, rfl, combine b 0 hbwf (by simp) (Or.inr ⟨?_, rfl⟩)⟩
      rintro ⟨h, _⟩
      rw [ha] at h; cases h
    | true =>
      simp only [if_true]
      have hbwf' := hbwf
      simp only [BWF, ha, if_true] at hbwf'
      obtain ⟨d, hd, hl⟩ := hbwf'
      obtain ⟨first, hfirst, r, hr, hcase, hiff⟩ := checkBlock_spec (bad := bad)
        (v := f.validSize (gc (bn f.order f.dw.nx) (bn f.order f.dw.ny) i))
        (two_pow_pos' f.order) hd hl
      rw [hr]
      rcases hcase with rfl | rfl
      · simp only
        refine ⟨_, _, rfl, combine b 0 hbwf (by simp) (Or.inr ⟨?_, rfl⟩)⟩
        rintro ⟨_, d', first', hd', hf', hall⟩
        rw [hd] at hd'; cases hd'
        rw [hfirst] at hf'; cases hf'
        have := hiff.mpr hall
        cases this
      · simp only
        refine ⟨_, _, rfl, combine (deallocBlock b first) 1 ?_ ?_ (Or.inl ⟨?_, ?_, ?_⟩)⟩
        · simp [BWF, deallocBlock, Block.clear]
        · simp [deallocBlock, Block.clear, ha]
        · exact ⟨ha, d, first, hd, hfirst, hiff.mp rfl⟩
        · rfl
        · simp [bval, ha, Block.read, hd, hfirst, deallocBlock]

/-! ## From raw data to voxels -/

/-- The voxel at the low corner of block `c` (block grid coordinates). -/
def corner (f : Sparse α) (a b c : Nat) : V3i :=
  ⟨f.dw.min.x + (a * 2 ^ f.order : Nat), f.dw.min.y + (b * 2 ^ f.order : Nat),
   f.dw.min.z + (c * 2 ^ f.order : Nat)⟩

theorem validSize_axis {o n c v : Nat} (hc : c < bn o n) (hv : v < 2 ^ o) :
    ((v : Int) < (if (c : Int) = (bn o n : Nat) - 1 then (n : Int) - c * (2 ^ o : Nat)
      else (2 ^ o : Nat))) ↔ c * 2 ^ o + v < n := by
  split
  · rename_i h
    have e : (c : Int) * (2 ^ o : Nat) = (c * 2 ^ o : Nat) := by push_cast; rfl
    rw [e]; omega
  · rename_i h
    have : c + 1 < bn o n := by omega
    have := mul_lt_of_lt_bn this
    rw [Nat.add_mul] at this
    omega

theorem mem_iff_nat {f : Sparse α} (hne : f.dw.isEmpty = false) {a b c : Nat} :
    f.dw.contains ⟨f.dw.min.x + (a : Nat), f.dw.min.y + (b : Nat), f.dw.min.z + (c : Nat)⟩ = true ↔
      a < f.dw.nx ∧ b < f.dw.ny ∧ c < f.dw.nz := by
  obtain ⟨h1, h2, h3, _, _, _⟩ := f.dw.dims hne
  rw [Box3i.contains_iff]
  simp only
  omega

/-- The voxel with block coordinates `(a,b,c)` and offset `j` in the block. -/
def voxAt (f : Sparse α) (a b c j : Nat) : V3i :=
  ⟨f.dw.min.x + (a * 2 ^ f.order + j % 2 ^ f.order : Nat),
   f.dw.min.y + (b * 2 ^ f.order + j / 2 ^ f.order % 2 ^ f.order : Nat),
   f.dw.min.z + (c * 2 ^ f.order + j / (2 ^ f.order * 2 ^ f.order) : Nat)⟩

theorem inside_iff {f : Sparse α} (wf : f.WF) {i j : Nat} (hi : i < f.blocks.length)
    (hj : j < f.bvol) :
    Inside (f.validSize (gc (bn f.order f.dw.nx) (bn f.order f.dw.ny) i))
        (gc (2 ^ f.order) (2 ^ f.order) j) ↔
    f.dw.contains (f.voxAt (i % bn f.order f.dw.nx) (i / bn f.order f.dw.nx % bn f.order f.dw.ny)
      (i / (bn f.order f.dw.nx * bn f.order f.dw.ny)) j) = true := by
  rw [wf.len] at hi
  obtain ⟨g1, g2, g3⟩ := Grid.dec_bounds hi
  obtain ⟨e1, e2, e3⟩ := Grid.dec_bounds hj
  obtain ⟨h1, h2, h3, _, _, _⟩ := f.dw.dims wf.ne
  rw [voxAt, mem_iff_nat wf.ne, ← validSize_axis g1 e1, ← validSize_axis g2 e2,
    ← validSize_axis g3 e3]
  unfold Inside validSize gc
  simp only [wf.bx, wf.by', wf.bz]
  have r1 : f.dw.res.x = (f.dw.nx : Int) := by simp [Box3i.res, h1]
  have r2 : f.dw.res.y = (f.dw.ny : Int) := by simp [Box3i.res, h2]
  have r3 : f.dw.res.z = (f.dw.nz : Int) := by simp [Box3i.res, h3]
  rw [r1, r2, r3]

theorem sub_cancel' (a c : Int) : a + c - a = c := by omega

theorem div_block {B a v : Nat} (hB : 0 < B) (hv : v < B) : (a * B + v) / B = a := by
  rw [Nat.add_comm, Nat.add_mul_div_right _ _ hB, Nat.div_eq_of_lt hv, Nat.zero_add]

theorem mod_block {B a v : Nat} (hv : v < B) : (a * B + v) % B = v := by
  rw [Nat.add_comm, Nat.add_mul_mod_self_right, Nat.mod_eq_of_lt hv]

/-- Address of `voxAt`. -/
theorem voxAt_addr {f : Sparse α} {a b c j : Nat} (hj : j < f.bvol) :
    f.idN (f.voxAt a b c j) = Grid.enc (bn f.order f.dw.nx) (bn f.order f.dw.ny) a b c ∧
    f.offN (f.voxAt a b c j) = j := by
  obtain ⟨e1, e2, e3⟩ := Grid.dec_bounds hj
  have hB := two_pow_pos' f.order
  simp only [idN, offN, voxAt, rx, ry, rz, sub_cancel', Int.toNat_natCast]
  rw [div_block hB e1, div_block hB e2, div_block hB e3, mod_block e1, mod_block e2, mod_block e3]
  exact ⟨rfl, Grid.enc_dec _ _ _⟩

/-- Every voxel is the `voxAt` of its address. -/
theorem voxAt_self {f : Sparse α} {p : V3i} (hp : f.dw.contains p = true) :
    f.voxAt (f.rx p / 2 ^ f.order) (f.ry p / 2 ^ f.order) (f.rz p / 2 ^ f.order) (f.offN p) = p := by
  have hB := two_pow_pos' f.order
  have m1 := Nat.mod_lt (f.rx p) hB
  have m2 := Nat.mod_lt (f.ry p) hB
  have m3 := Nat.mod_lt (f.rz p) hB
  unfold voxAt offN
  rw [Grid.dec_x m1, Grid.dec_y m1 m2, Grid.dec_z m1 m2, Nat.div_add_mod', Nat.div_add_mod',
    Nat.div_add_mod']
  rw [Box3i.contains_iff] at hp
  unfold rx ry rz
  apply V3i.ext' <;> simp only <;> omega

theorem id_dec {f : Sparse α} (wf : f.WF) {p : V3i} (hp : f.dw.contains p = true) :
    f.idN p % bn f.order f.dw.nx = f.rx p / 2 ^ f.order ∧
    f.idN p / bn f.order f.dw.nx % bn f.order f.dw.ny = f.ry p / 2 ^ f.order ∧
    f.idN p / (bn f.order f.dw.nx * bn f.order f.dw.ny) = f.rz p / 2 ^ f.order := by
  obtain ⟨h1, h2, h3⟩ := r_bounds wf hp
  have k1 := div_lt_bn (o := f.order) h1
  have k2 := div_lt_bn (o := f.order) h2
  exact ⟨Grid.dec_x k1, Grid.dec_y k1 k2, Grid.dec_z k1 k2⟩

/-- The low corner of the block of voxel `p`. -/
def lowCorner (f : Sparse α) (p : V3i) : V3i :=
  f.voxAt (f.rx p / 2 ^ f.order) (f.ry p / 2 ^ f.order) (f.rz p / 2 ^ f.order) 0

theorem bvol_pos (f : Sparse α) : 0 < f.bvol :=
  Nat.mul_pos (Nat.mul_pos (two_pow_pos' _) (two_pow_pos' _)) (two_pow_pos' _)

theorem lowCorner_spec {f : Sparse α} (wf : f.WF) {p : V3i} (hp : f.dw.contains p = true) :
    f.dw.contains (f.lowCorner p) = true ∧ f.idN (f.lowCorner p) = f.idN p ∧
    f.offN (f.lowCorner p) = 0 := by
  obtain ⟨h1, h2, h3⟩ := r_bounds wf hp
  obtain ⟨a1, a2⟩ := voxAt_addr (f := f) (a := f.rx p / 2 ^ f.order) (b := f.ry p / 2 ^ f.order)
    (c := f.rz p / 2 ^ f.order) (bvol_pos f)
  refine ⟨?_, a1, a2⟩
  unfold lowCorner voxAt
  rw [mem_iff_nat wf.ne]
  have d1 := Nat.div_mul_le_self (f.rx p) (2 ^ f.order)
  have d2 := Nat.div_mul_le_self (f.ry p) (2 ^ f.order)
  have d3 := Nat.div_mul_le_self (f.rz p) (2 ^ f.order)
  simp only [Nat.zero_mod, Nat.zero_div, Nat.add_zero]
  omega

/-- Membership of voxels in the same block. -/
def SameBlock (f : Sparse α) (p q : V3i) : Prop := f.idN p = f.idN q

/-- `Freed` in terms of voxels. -/
theorem freed_iff {bad : α → α → Bool} {f : Sparse α} (wf : f.WF) {p : V3i}
    (hp : f.dw.contains p = true) {b : Block α} (hb : f.blocks[f.idN p]? = some b) :
    Freed bad f (f.idN p) b ↔ b.isAllocated = true ∧
      ∃ first, f.value (f.lowCorner p) = some first ∧
        ∀ q e, f.dw.contains q = true → f.idN q = f.idN p → f.value q = some e →
          bad first e = false := by
  obtain ⟨c1, c2, c3⟩ := lowCorner_spec wf hp
  have hidlt := idN_lt wf hp
  have hbw : BWF f.bvol b := by
    obtain ⟨b', hb', hw⟩ := get_block wf hp
    rw [hb] at hb'; cases hb'; exact hw
  unfold Freed
  apply and_congr_right
  intro ha
  have hbw' := hbw
  simp only [BWF, ha, if_true] at hbw'
  obtain ⟨d, hd, hl⟩ := hbw'
  have hval : ∀ q, f.dw.contains q = true → f.idN q = f.idN p → f.value q = d[f.offN q]? := by
    intro q hq hqid
    rw [value_of_block wf hq (by rw [hqid]; exact hb)]
    simp [bval, ha, Block.read, hd]
  have hlow := hval _ c1 c2
  rw [c3] at hlow
  obtain ⟨i1, i2, i3⟩ := id_dec wf hp
  constructor
  · rintro ⟨d', first, hd', hfirst, hall⟩
    rw [hd] at hd'; cases hd'
    refine ⟨first, by rw [hlow, hfirst], ?_⟩
    intro q e hq hqid he
    rw [hval q hq hqid] at he
    refine hall _ e he ?_
    rw [inside_iff wf hidlt (offN_lt f q), ← hqid]
    obtain ⟨k1, k2, k3⟩ := id_dec wf hq
    rw [k1, k2, k3, voxAt_self hq]
    exact hq
  · rintro ⟨first, hfirst, hall⟩
    refine ⟨d, first, hd, by rw [← hlow, hfirst], ?_⟩
    intro j e he hin
    have hj : j < f.bvol := by rw [← hl]; exact (List.getElem?_eq_some_iff.mp he).1
    rw [inside_iff wf hidlt hj, i1, i2, i3] at hin
    obtain ⟨a1, a2⟩ := voxAt_addr (f := f) (a := f.rx p / 2 ^ f.order) (b := f.ry p / 2 ^ f.order)
      (c := f.rz p / 2 ^ f.order) hj
    refine hall _ e hin a1 ?_
    rw [hval _ hin a1, a2, he]

/-- Whether a voxel's block is allocated. -/
def allocAt (f : Sparse α) (p : V3i) : Prop := ∃ b, f.blocks[f.idN p]? = some b ∧ b.isAllocated = true

def allocCount (f : Sparse α) : Nat := (f.blocks.filter (·.isAllocated)).length

/-- Closed form of `releaseBlocks`. -/
theorem releaseBlocks_spec {bad : α → α → Bool} {f : Sparse α} (wf : f.WF) :
    ∃ g n, releaseBlocks bad f = some (g, n) ∧ g.WF ∧ g.dw = f.dw ∧ g.extents = f.extents ∧
      g.order = f.order ∧ g.allocCount + n = f.allocCount ∧
      ∀ p, f.dw.contains p = true →
        let rel := f.allocAt p ∧ ∃ first, f.value (f.lowCorner p) = some first ∧
            ∀ q e, f.dw.contains q = true → f.idN q = f.idN p → f.value q = some e →
              bad first e = false
        (rel → g.value p = f.value (f.lowCorner p) ∧ ¬ g.allocAt p) ∧
        (¬ rel → g.value p = f.value p ∧ (g.allocAt p ↔ f.allocAt p)) := by
  obtain ⟨_, _, _, p1, p2, _⟩ := f.dw.dims wf.ne
  have q1 := bn_pos (o := f.order) p1
  obtain ⟨bs', n, hloop, hlen, hbw, hcount, hspec⟩ := releaseLoop_spec (bad := bad) wf f.blocks
    ⟨0, 0, 0⟩ 0 wf.blk (wrap_gc_zero q1)
  refine ⟨{ f with blocks := bs' }, n, ?_, ?_, rfl, rfl, rfl, hcount, ?_⟩
  · simp only [releaseBlocks, hloop]
  · exact ⟨wf.ne, wf.bx, wf.by', wf.bz, wf.bxy, by simp only; rw [hlen, wf.len], hbw⟩
  · have gwf : ({ f with blocks := bs' } : Sparse α).WF :=
      ⟨wf.ne, wf.bx, wf.by', wf.bz, wf.bxy, by simp only; rw [hlen, wf.len], hbw⟩
    intro p hp
    obtain ⟨b, hb, hw⟩ := get_block wf hp
    obtain ⟨b', hb', hcase⟩ := hspec _ b hb
    rw [Nat.zero_add] at hcase
    have hfreed := freed_iff (bad := bad) wf hp hb
    have hal : f.allocAt p ↔ b.isAllocated = true := by
      unfold allocAt; rw [hb]; simp
    have hgv : ({ f with blocks := bs' } : Sparse α).value p = bval b' (f.offN p) :=
      value_of_block gwf hp hb'
    have hga : ({ f with blocks := bs' } : Sparse α).allocAt p ↔ b'.isAllocated = true := by
      show (∃ x, bs'[f.idN p]? = some x ∧ x.isAllocated = true) ↔ _
      rw [hb']; simp
    simp only
    rw [hal, ← hfreed, hgv, hga]
    rcases hcase with ⟨hfr, hna, hev⟩ | ⟨hnf, rfl⟩
    · refine ⟨fun _ => ⟨?_, by simp [hna]⟩, fun h => absurd hfr h⟩
      obtain ⟨c1, c2, c3⟩ := lowCorner_spec wf hp
      rw [value_of_block wf c1 (by rw [c2]; exact hb), c3, ← hev]
      simp [bval, hna]
    · exact ⟨fun h => absurd h hnf, fun _ => ⟨(value_of_block wf hp hb).symm, Iff.rfl⟩⟩

end Sparse
end F3D
