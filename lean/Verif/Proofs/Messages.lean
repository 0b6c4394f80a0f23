import Verif.Model.Messages
import Verif.Proofs.Sparse
import Mathlib.Tactic.Ring
import Mathlib.Tactic.Linarith

namespace F3D
namespace Messages

theorem roundEven_bounds (n d : Nat) (hd : 0 < d) :
    2 * n ≤ 2 * (roundEven n d * d) + d ∧ 2 * (roundEven n d * d) ≤ 2 * n + d := by
  have h := Nat.div_add_mod n d
  have hlt := Nat.mod_lt n hd
  have e : (n / d + 1) * d = d * (n / d) + d := by ring
  have e' : n / d * d = d * (n / d) := by ring
  unfold roundEven
  split
  · rw [e']; omega
  · split
    · rw [e]; omega
    · split
      · rw [e']; omega
      · rw [e]; omega

theorem roundEven_mono {n m d : Nat} (hd : 0 < d) (h : n ≤ m) : roundEven n d ≤ roundEven m d := by
  have hq : n / d ≤ m / d := Nat.div_le_div_right h
  rcases Nat.lt_or_ge (n / d) (m / d) with hlt | hge
  · have h1 : roundEven n d ≤ n / d + 1 := by unfold roundEven; split_ifs <;> omega
    have h2 : m / d ≤ roundEven m d := by unfold roundEven; split_ifs <;> omega
    omega
  · have he : n / d = m / d := by omega
    have hn := Nat.div_add_mod n d
    have hm := Nat.div_add_mod m d
    rw [← he] at hm
    have hr : n % d ≤ m % d := by omega
    unfold roundEven
    rw [← he]
    split_ifs <;> omega

theorem roundEven_exact (a d : Nat) (hd : 0 < d) : roundEven (a * d) d = a := by
  unfold roundEven
  rw [Nat.mul_mod_left, Nat.mul_div_cancel _ hd]
  simp [hd]

/-- The conversion to `float` of a large count is a rounding to a multiple. -/
theorem toFloat32_round {n : Nat} (h : 24 ≤ n.log2) :
    toFloat32 n = roundEven n (2 ^ (n.log2 - 23)) * 2 ^ (n.log2 - 23) := by
  unfold toFloat32 roundEven
  simp only [show ¬ n.log2 < 24 from by omega, if_false]
  split_ifs <;> rfl

theorem toFloat32_two_pow (k : Nat) : toFloat32 (2 ^ k) = 2 ^ k := by
  rcases Nat.lt_or_ge k 24 with h | h
  · exact toFloat32_id (Nat.pow_le_pow_right (by omega) (by omega))
  · have hl : (2 ^ k).log2 = k := Nat.log2_two_pow
    rw [toFloat32_round (by rw [hl]; exact h), hl]
    have e : 2 ^ k = 2 ^ 23 * 2 ^ (k - 23) := by rw [← Nat.pow_add]; congr 1; omega
    conv => lhs; rw [e]
    rw [roundEven_exact _ _ (Nat.two_pow_pos _), ← e]

theorem toFloat32_mono_same {n m : Nat} (h : n ≤ m) (hl : n.log2 = m.log2) : toFloat32 n ≤ toFloat32 m := by
  rcases Nat.lt_or_ge n.log2 24 with h24 | h24
  · unfold toFloat32
    simp only [h24, hl ▸ h24, if_true]
    exact h
  · rw [toFloat32_round h24, toFloat32_round (by omega), ← hl]
    exact Nat.mul_le_mul_right _ (roundEven_mono (Nat.two_pow_pos _) h)

theorem two_pow_log2_le {n : Nat} (h : n ≠ 0) : 2 ^ n.log2 ≤ n := Nat.log2_self_le h

theorem le_toFloat32 {n : Nat} (h : n ≠ 0) : 2 ^ n.log2 ≤ toFloat32 n := by
  conv => lhs; rw [← toFloat32_two_pow]
  exact toFloat32_mono_same (Nat.log2_self_le h) Nat.log2_two_pow

theorem toFloat32_le (n : Nat) : toFloat32 n ≤ 2 ^ (n.log2 + 1) := by
  have hlt : n < 2 ^ (n.log2 + 1) := Nat.lt_log2_self
  rcases Nat.lt_or_ge n.log2 24 with h | h
  · unfold toFloat32
    simp only [h, if_true]
    omega
  · rw [toFloat32_round h]
    have e : 2 ^ (n.log2 + 1) = 2 ^ 24 * 2 ^ (n.log2 - 23) := by rw [← Nat.pow_add]; congr 1; omega
    have h1 := roundEven_mono (Nat.two_pow_pos (n.log2 - 23)) (Nat.le_of_lt hlt)
    have h2 : roundEven (2 ^ (n.log2 + 1)) (2 ^ (n.log2 - 23)) = 2 ^ 24 := by
      rw [e]; exact roundEven_exact _ _ (Nat.two_pow_pos _)
    rw [h2] at h1
    rw [e]
    exact Nat.mul_le_mul_right _ h1

theorem toFloat32_mono {n m : Nat} (h : n ≤ m) : toFloat32 n ≤ toFloat32 m := by
  rcases Nat.eq_zero_or_pos n with h0 | h0
  · subst h0; simp [toFloat32]
  · have hle : n.log2 ≤ m.log2 := by
      rw [Nat.le_log2 (by omega)]
      exact Nat.le_trans (Nat.log2_self_le (by omega)) h
    rcases Nat.lt_or_ge n.log2 m.log2 with hlt | hge
    · refine Nat.le_trans (toFloat32_le n) (Nat.le_trans ?_ (le_toFloat32 (by omega)))
      exact Nat.pow_le_pow_right (by omega) hlt
    · exact toFloat32_mono_same h (by omega)

/-- The conversion is off by at most one part in `2 ^ 24`. -/
theorem toFloat32_close (n : Nat) :
    2 ^ 24 * n ≤ 2 ^ 24 * toFloat32 n + n ∧ 2 ^ 24 * toFloat32 n ≤ 2 ^ 24 * n + n := by
  rcases Nat.lt_or_ge n.log2 24 with h | h
  · have : toFloat32 n = n := by unfold toFloat32; simp only [h, if_true]
    rw [this]; omega
  · have hn : n ≠ 0 := by rintro rfl; simp at h
    have hb := roundEven_bounds n (2 ^ (n.log2 - 23)) (Nat.two_pow_pos _)
    rw [← toFloat32_round h] at hb
    have e : 2 ^ n.log2 = 2 ^ 23 * 2 ^ (n.log2 - 23) := by rw [← Nat.pow_add]; congr 1; omega
    have hp := Nat.log2_self_le hn
    rw [e] at hp
    generalize 2 ^ (n.log2 - 23) = u at *
    omega

theorem wordsFrom_plain (cur cs : List Char) (h : ∀ c ∈ cs, white c = false) (hne : cur ≠ [] ∨ cs ≠ []) :
    wordsFrom cur cs = [cur.reverse ++ cs] := by
  induction cs generalizing cur with
  | nil =>
    have : cur ≠ [] := by rcases hne with h | h; exact h; exact absurd rfl h
    simp [wordsFrom, this]
  | cons c cs ih =>
    have hc : white c = false := h c (by simp)
    rw [wordsFrom, if_neg (by simp [hc]), ih (c :: cur) (fun d hd => h d (by simp [hd])) (by simp)]
    simp

theorem wordsFrom_pos (cur cs : List Char) (c : Char) (hc : white c = false) :
    1 ≤ (wordsFrom cur (cs ++ [c])).length := by
  induction cs generalizing cur with
  | nil => simp [wordsFrom, hc]
  | cons d cs ih =>
    rw [List.cons_append, wordsFrom]
    split_ifs
    · exact ih []
    · simp
    · exact ih (d :: cur)

theorem wordsFrom_two (cur cs : List Char) (c : Char) (hc : white c = false) (hne : cur ≠ [])
    (hw : ∃ d ∈ cs, white d = true) : 2 ≤ (wordsFrom cur (cs ++ [c])).length := by
  induction cs generalizing cur with
  | nil => simp at hw
  | cons d cs ih =>
    rw [List.cons_append, wordsFrom]
    have hcur : ¬ (cur.isEmpty = true) := by simpa using hne
    by_cases hd : white d = true
    · rw [if_pos hd, if_neg hcur]
      have := wordsFrom_pos [] cs c hc
      simp only [List.length_cons]; omega
    · rw [if_neg hd]
      refine ih (d :: cur) (by simp) ?_
      obtain ⟨e, he, hwe⟩ := hw
      rcases List.mem_cons.1 he with rfl | he
      · exact absurd hwe hd
      · exact ⟨e, he, hwe⟩

end Messages
end F3D
