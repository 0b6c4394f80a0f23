import Verif.Proofs.MipPass
import Verif.Proofs.Sparse

/-!
# The levels of a MIP field
-/

namespace F3D
namespace Resample

/-- The resolution of a level. -/
def levelRes (bres off : V3i) : ℕ → V3i
  | 0 => bres
  | l + 1 => mipResolution bres (l + 1) (addOf (offAt off l))

/-- The values of a level. -/
def levelVals (flt : Filter) (bres off : V3i) (v : V3i → ℚ) : ℕ → V3i → ℚ
  | 0 => v
  | l + 1 => nextValues flt (addOf (offAt off l)) (levelRes bres off l) (levelVals flt bres off v l)

/-- A resolution that a field can have and that a `float` represents. -/
def GoodRes (r : V3i) : Prop := (0 < r.x ∧ r.x ≤ 2 ^ 24) ∧ (0 < r.y ∧ r.y ≤ 2 ^ 24) ∧ (0 < r.z ∧ r.z ≤ 2 ^ 24)

/-- The resolution divided by `2^l`, rounded up. -/
def up (n : ℤ) (l : ℕ) : ℤ := (n + (2 ^ l - 1)) / 2 ^ l

theorem lt_up (n : ℤ) (l : ℕ) (c : ℤ) : c < up n l ↔ c * 2 ^ l < n := by
  have h : (0 : ℤ) < 2 ^ l := by positivity
  have e : c < up n l ↔ c + 1 ≤ up n l := Iff.rfl
  rw [e, up, Int.le_ediv_iff_mul_le h, add_mul]
  generalize c * 2 ^ l = a
  generalize (2 : ℤ) ^ l = b
  omega

theorem up_zero (n : ℤ) : up n 0 = n := by simp [up]

theorem up_succ (n : ℤ) (l : ℕ) : up n (l + 1) = (up n l + 1) / 2 := by
  have key : ∀ c, c < up n (l + 1) ↔ c < (up n l + 1) / 2 := fun c => by
    rw [lt_up, pow_succ, show c * (2 ^ l * 2) = (2 * c) * 2 ^ l by ring, ← lt_up]
    omega
  have h1 := (key ((up n l + 1) / 2)).1.mt (lt_irrefl _)
  have h2 := (key (up n (l + 1))).2.mt (lt_irrefl _)
  omega

theorem up_pos {n : ℤ} (h0 : 0 < n) (l : ℕ) : 0 < up n l := by rw [lt_up]; omega

theorem mipRes1_eq {n : ℤ} (h0 : 0 < n) (h : n ≤ 2 ^ 24) (l : ℕ) (a : ℤ) : mipRes1 n l a = up n l + a := by
  obtain ⟨m, rfl⟩ := Int.eq_ofNat_of_zero_le (le_of_lt h0)
  unfold mipRes1 up
  rw [Int.toNat_natCast, toFloat32_id (by omega)]
  have : 1 ≤ 2 ^ l := Nat.one_le_two_pow
  push_cast [Nat.cast_sub this]
  rfl

theorem addOf_eq (o : V3i) : addOf o = ⟨o.x % 2, o.y % 2, o.z % 2⟩ := by
  unfold addOf
  congr 1 <;> split <;> omega

theorem levelRes_succ {bres : V3i} (h : GoodRes bres) (off : V3i) (l : ℕ) : levelRes bres off (l + 1) =
    ⟨up bres.x (l + 1) + off.x / 2 ^ l % 2, up bres.y (l + 1) + off.y / 2 ^ l % 2,
      up bres.z (l + 1) + off.z / 2 ^ l % 2⟩ := by
  obtain ⟨⟨h1, h2⟩, ⟨h3, h4⟩, h5, h6⟩ := h
  show mipResolution bres (l + 1) (addOf (offAt off l)) = _
  unfold mipResolution
  rw [addOf_eq, mipRes1_eq h1 h2, mipRes1_eq h3 h4, mipRes1_eq h5 h6]
  rfl

theorem levelRes_pos {bres : V3i} (h : GoodRes bres) (off : V3i) (l : ℕ) :
    0 < (levelRes bres off l).x ∧ 0 < (levelRes bres off l).y ∧ 0 < (levelRes bres off l).z := by
  cases l with
  | zero => exact ⟨h.1.1, h.2.1.1, h.2.2.1⟩
  | succ l =>
    rw [levelRes_succ h]
    have h1 := up_pos h.1.1 (l + 1)
    have h2 := up_pos h.2.1.1 (l + 1)
    have h3 := up_pos h.2.2.1 (l + 1)
    have g1 := Int.emod_nonneg (off.x / 2 ^ l) (show (2 : ℤ) ≠ 0 by omega)
    have g2 := Int.emod_nonneg (off.y / 2 ^ l) (show (2 : ℤ) ≠ 0 by omega)
    have g3 := Int.emod_nonneg (off.z / 2 ^ l) (show (2 : ℤ) ≠ 0 by omega)
    refine ⟨?_, ?_, ?_⟩ <;> simp only <;> omega

/-- One level. -/
theorem level_step (flt : Filter) {base last : Dense ℚ} {bres off : V3i} {v : V3i → ℚ} (hb : base.dw = boxOf bres)
    (hg : GoodRes bres) (l : ℕ) (hl : Holds last (levelRes bres off l) (levelVals flt bres off v l)) :
    ∃ g, mipResample flt base last (l + 1) (offAt off l) = .ok g ∧
      Holds g (levelRes bres off (l + 1)) (levelVals flt bres off v (l + 1)) :=
  mipResample_spec flt hb ⟨hg.1.1, hg.2.1.1, hg.2.2.1⟩ hl (levelRes_pos hg off l) (l + 1) (offAt off l)
    (levelRes_pos hg off (l + 1))

theorem loop_total (flt : Filter) {base : Dense ℚ} {bres off : V3i} {v : V3i → ℚ} (hb : base.dw = boxOf bres)
    (hg : GoodRes bres) (minSize : ℤ) : ∀ (d lv fuel : ℕ) (last : Dense ℚ),
    (∀ j, lv ≤ j → j < lv + d → goOn minSize (levelRes bres off j) = true) →
    goOn minSize (levelRes bres off (lv + d)) = false → d ≤ fuel →
    Holds last (levelRes bres off lv) (levelVals flt bres off v lv) →
    ∃ l, mipLoop flt base minSize fuel last (lv + 1) (levelRes bres off lv) (offAt off lv) = .ok (some l) ∧
      l.length = d ∧ ∀ (i : ℕ) (f : Dense ℚ), (last :: l)[i]? = some f →
        Holds f (levelRes bres off (lv + i)) (levelVals flt bres off v (lv + i)) := by
  intro d
  induction d with
  | zero =>
    intro lv fuel last _ h2 _ hl
    refine ⟨[], ?_, rfl, fun i f hf => ?_⟩
    · cases fuel <;> unfold mipLoop <;> rw [if_neg (by rw [Nat.add_zero] at h2; rw [h2]; decide)]
    · cases i with
      | zero => simp at hf; subst hf; exact hl
      | succ i => simp at hf
  | succ d ih =>
    intro lv fuel last h1 h2 h3 hl
    obtain ⟨n, rfl⟩ : ∃ n, fuel = n + 1 := ⟨fuel - 1, by omega⟩
    obtain ⟨g, e, hg'⟩ := level_step flt hb hg lv hl
    obtain ⟨l, el, hlen, hall⟩ := ih (lv + 1) n g (fun j hj hj' => h1 j (by omega) (by omega))
      (by rw [show lv + 1 + d = lv + (d + 1) by omega]; exact h2) (by omega) hg'
    refine ⟨g :: l, ?_, by simp [hlen], fun i f hf => ?_⟩
    · unfold mipLoop
      rw [if_pos (h1 lv (le_refl _) (by omega)), e]
      show (mipLoop flt base minSize n g (lv + 1 + 1) (g.dw.size + V3i.all 1) (nextOff (offAt off lv))).bind _ = _
      rw [nextOff_offAt, hg'.dw, boxOf_size (levelRes_pos hg off (lv + 1)), el]
      rfl
    · cases i with
      | zero => simp at hf; subst hf; exact hl
      | succ i =>
        have := hall i f (by simpa using hf)
        rw [show lv + 1 + i = lv + (i + 1) by omega] at this
        exact this

theorem stops {bres off : V3i} (hg : GoodRes bres) (minSize : ℤ) (l : ℕ) (h : bres.x ≤ l + 1) :
    goOn minSize (levelRes bres off (l + 1)) = false := by
  have h1 : (levelRes bres off (l + 1)).x ≤ 2 := by
    rw [levelRes_succ hg]
    simp only
    have : ¬ (1 < up bres.x (l + 1)) := by
      rw [lt_up]
      have : (l + 1 : ℕ) < 2 ^ (l + 1) := Nat.lt_two_pow_self
      have : ((l + 1 : ℕ) : ℤ) < ((2 ^ (l + 1) : ℕ) : ℤ) := by exact_mod_cast this
      push_cast at this
      linarith
    omega
  unfold goOn
  have : decide ((levelRes bres off (l + 1)).x > 2) = false := by simp; omega
  rw [this]; simp

/-- More fuel does not change the result of the loop. -/
theorem loop_fuel (flt : Filter) (base : Dense ℚ) (minSize : ℤ) : ∀ (n m : ℕ) (last : Dense ℚ) (lv : ℕ) (res off : V3i),
    n ≤ m → ∀ l l', mipLoop flt base minSize n last lv res off = .ok (some l) →
    mipLoop flt base minSize m last lv res off = .ok (some l') → l' = l := by
  intro n
  induction n with
  | zero =>
    intro m last lv res off _ l l' h h'
    unfold mipLoop at h
    by_cases hg : goOn minSize res = true
    · rw [if_pos hg] at h; cases h
    · rw [if_neg hg] at h
      cases m <;> unfold mipLoop at h' <;> rw [if_neg hg] at h' <;> (injection h with h; injection h' with h'; injection h with h; injection h' with h'; rw [← h, ← h'])
  | succ n ih =>
    intro m last lv res off hm l l' h h'
    obtain ⟨m, rfl⟩ : ∃ k, m = k + 1 := ⟨m - 1, by omega⟩
    unfold mipLoop at h h'
    by_cases hg : goOn minSize res = true
    · rw [if_pos hg] at h h'
      cases hr : mipResample flt base last lv off with
      | undef => rw [hr] at h; cases h
      | resizeException => rw [hr] at h; cases h
      | ok next =>
        rw [hr] at h h'
        change (mipLoop flt base minSize n next (lv + 1) (next.dw.size + V3i.all 1) (nextOff off)).bind _ = _ at h
        change (mipLoop flt base minSize m next (lv + 1) (next.dw.size + V3i.all 1) (nextOff off)).bind _ = _ at h'
        cases hl : mipLoop flt base minSize n next (lv + 1) (next.dw.size + V3i.all 1) (nextOff off) with
        | undef => rw [hl] at h; cases h
        | resizeException => rw [hl] at h; cases h
        | ok a =>
          cases hl' : mipLoop flt base minSize m next (lv + 1) (next.dw.size + V3i.all 1) (nextOff off) with
          | undef => rw [hl'] at h'; cases h'
          | resizeException => rw [hl'] at h'; cases h'
          | ok a' =>
            rw [hl] at h; rw [hl'] at h'
            cases a with
            | none => cases h
            | some a =>
              cases a' with
              | none => cases h'
              | some a' =>
                have := ih m next (lv + 1) _ _ (by omega) a a' hl hl'
                change Result.ok (some (next :: a)) = _ at h
                change Result.ok (some (next :: a')) = _ at h'
                injection h with h; injection h' with h'; injection h with h; injection h' with h'
                rw [← h, ← h', this]
    · rw [if_neg hg] at h h'
      injection h with h; injection h' with h'; injection h with h; injection h' with h'; rw [← h, ← h']

/-- `makeMIP` on a field whose window begins at zero. -/
theorem makeMIP_total (flt : Filter) {base : Dense ℚ} {bres : V3i} {v : V3i → ℚ} (hb : Holds base bres v) (hg : GoodRes bres)
    (minSize : ℤ) (off : V3i) :
    ∃ (K : ℕ) (levels : List (Dense ℚ)), (K : ℤ) ≤ bres.x ∧ levels.length = K + 1 ∧ levels[0]? = some base ∧
      (∀ (i : ℕ) (f : Dense ℚ), levels[i]? = some f → Holds f (levelRes bres off i) (levelVals flt bres off v i)) ∧
      (∀ j < K, goOn minSize (levelRes bres off j) = true) ∧ goOn minSize (levelRes bres off K) = false ∧
      ∀ fuel, K ≤ fuel → makeMIP flt base minSize off fuel = if sane levels then .ok levels else .mipException := by
  have hex : ∃ K, goOn minSize (levelRes bres off K) = false :=
    ⟨bres.x.toNat - 1 + 1, stops hg minSize _ (by have := hg.1.1; omega)⟩
  refine ⟨Nat.find hex, ?_⟩
  have hK := Nat.find_spec hex
  have hlt : ∀ j < Nat.find hex, goOn minSize (levelRes bres off j) = true := fun j hj =>
    Bool.eq_true_of_not_eq_false (Nat.find_min hex hj)
  have hle : ((Nat.find hex : ℕ) : ℤ) ≤ bres.x := by
    have := Nat.find_min' hex (stops hg minSize (off := off) (bres.x.toNat - 1) (by have := hg.1.1; omega))
    have := hg.1.1
    omega
  generalize Nat.find hex = K at hK hlt hle ⊢
  have ht := fun fuel (h : K ≤ fuel) => loop_total flt (off := off) (v := v) hb.dw hg minSize K 0 fuel base (fun j _ hj => hlt j (by omega))
    (by rw [Nat.zero_add]; exact hK) h hb
  obtain ⟨l, el, hlen, hall⟩ := ht K (le_refl _)
  refine ⟨base :: l, hle, by simp [hlen], rfl, fun i f hf => ?_, hlt, hK, fun fuel hf => ?_⟩
  · have := hall i f hf
    rwa [Nat.zero_add] at this
  · obtain ⟨l', el', hlen', _⟩ := ht fuel hf
    have hll : l' = l := loop_fuel flt base minSize K fuel base 1 _ _ hf l l' el el'
    subst hll
    unfold makeMIP
    rw [if_neg (by rw [hb.ext, hb.dw]; simp)]
    rw [offAt_zero] at el'
    have e0 : base.extents.size + V3i.all 1 = levelRes bres off 0 := by
      rw [hb.ext, boxOf_size ⟨hg.1.1, hg.2.1.1, hg.2.2.1⟩]; rfl
    rw [e0]
    rw [Nat.zero_add] at el'
    rw [el']

end Resample
end F3D
