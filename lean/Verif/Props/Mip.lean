import Verif.Proofs.MipChain
import Verif.Props.MipInterp

/-!
# C49, C50: making MIP fields
-/

namespace F3D.Props
open F3D F3D.Resample

/-! ## Specification -/

/-- A dense field that `makeMIP` can work on: the data window is the extents, begins at zero and has at most `2^24`
voxels along each axis. -/
structure MipBase (f : Dense ℚ) : Prop where
  wf : f.WF
  ext : f.extents = f.dw
  min : f.dw.min = V3i.all 0
  max : f.dw.max.x < 2 ^ 24 ∧ f.dw.max.y < 2 ^ 24 ∧ f.dw.max.z < 2 ^ 24

/-- The voxel of level `l` over a voxel of level 0, without an offset. -/
def over (l : ℕ) (q : V3i) : V3i := ⟨q.x / 2 ^ l, q.y / 2 ^ l, q.z / 2 ^ l⟩

/-- The voxel of the next level over voxel `q` of level `l` of a MIP field with offset `off`, as `C23_cells` has it for
positions: level `l` itself has the offset `off / 2^l`. -/
def parent (off : V3i) (l : ℕ) (q : V3i) : V3i :=
  ⟨coarse (off.x / 2 ^ l) 1 q.x, coarse (off.y / 2 ^ l) 1 q.y, coarse (off.z / 2 ^ l) 1 q.z⟩

/-- The values of a field. -/
def Values (f : Dense ℚ) (v : V3i → ℚ) : Prop := ∀ q, f.dw.contains q = true → f.value q = some (v q)

/-! ## Lemmas -/

theorem base_holds {f : Dense ℚ} (h : MipBase f) {v : V3i → ℚ} (hv : Values f v) :
    GoodRes (f.dw.max + V3i.all 1) ∧ f.dw = boxOf (f.dw.max + V3i.all 1) ∧ Holds f (f.dw.max + V3i.all 1) v := by
  have hne := Box3i.isEmpty_false.1 h.wf.ne
  have hm := h.min
  have hM := h.max
  have e : f.dw = boxOf (f.dw.max + V3i.all 1) := by
    have : f.dw = ⟨f.dw.min, f.dw.max⟩ := rfl
    rw [this, hm]
    unfold boxOf
    congr 1
    apply V3i.ext' <;> simp [V3i.all]
  rw [hm] at hne
  simp only [V3i.all] at hne
  refine ⟨?_, e, h.wf, h.ext.trans e, e, fun p hp => hv p (by rw [e]; exact hp)⟩
  simp only [GoodRes, V3i.add_x, V3i.add_y, V3i.add_z, V3i.all]
  omega

theorem values_exist {f : Dense ℚ} (wf : f.WF) : Values f fun q => (f.value q).getD 0 := fun q hq => by
  obtain ⟨v, hv⟩ := Dense.value_isSome wf hq
  simp only [hv, Option.getD_some]

theorem holds_unique {f : Dense ℚ} {res : V3i} {v w : V3i → ℚ} (h : Holds f res v) (hw : Values f w) (q : V3i)
    (hq : f.dw.contains q = true) : v q = w q := by
  have h1 := h.val q (h.dw ▸ hq)
  rw [hw q hq] at h1
  exact (Option.some.inj h1).symm

theorem levels_hold {flt : Filter} {base : Dense ℚ} {bres : V3i} {v : V3i → ℚ} (hb : Holds base bres v)
    (hg : GoodRes bres) {minSize : ℤ} {off : V3i} {fuel : ℕ} {levels : List (Dense ℚ)}
    (h : makeMIP flt base minSize off fuel = .ok levels) : ∀ (i : ℕ) (f : Dense ℚ), levels[i]? = some f →
      Holds f (levelRes bres off i) (levelVals flt bres off v i) := by
  obtain ⟨_, h0, _, hs, _⟩ := makeMIP_ok h
  intro i
  induction i with
  | zero => intro f hf; rw [h0] at hf; cases hf; exact hb
  | succ i ih =>
    intro g hg'
    have hi : i < levels.length := by
      have := (List.getElem?_eq_some_iff.1 hg').1
      omega
    have hf : levels[i]? = some levels[i] := List.getElem?_eq_getElem hi
    obtain ⟨_, hr⟩ := hs i _ g hf hg'
    obtain ⟨g', e, hh⟩ := level_step flt (off := off) (v := v) hb.dw hg i (ih _ hf)
    rw [hr] at e
    injection e with e
    rw [e]; exact hh

theorem goOn_iff (m : ℤ) (r : V3i) : goOn m r = true ↔
    (m < r.x ∨ m < r.y ∨ m < r.z) ∧ (2 < r.x ∧ 2 < r.y ∧ 2 < r.z) := by
  simp only [goOn, Bool.and_eq_true, Bool.or_eq_true, decide_eq_true_iff]
  tauto

theorem decreasing_of : ∀ (l : List V3i) (prev : V3i), (∀ (i : ℕ) (a b : V3i), (prev :: l)[i]? = some a →
    (prev :: l)[i + 1]? = some b → b.x < a.x ∧ b.y < a.y ∧ b.z < a.z) → decreasing prev l = true
  | [], _, _ => rfl
  | s :: l, prev, h => by
    have := h 0 prev s rfl rfl
    unfold decreasing
    rw [if_neg (by omega), if_neg (by omega)]
    exact decreasing_of l s fun i a b ha hb => h (i + 1) a b (by simpa using ha) (by simpa using hb)

theorem levelRes_zero {bres : V3i} (hg : GoodRes bres) (l : ℕ) :
    levelRes bres (V3i.all 0) l = ⟨up bres.x l, up bres.y l, up bres.z l⟩ := by
  cases l with
  | zero => simp only [up_zero]; rfl
  | succ l =>
    rw [levelRes_succ hg]
    simp [V3i.all]

theorem in_up (n : ℤ) (l : ℕ) (c : ℤ) : (0 ≤ c ∧ c < up n l) ↔ ∃ q, 0 ≤ q ∧ q < n ∧ q / 2 ^ l = c := by
  have hp : (0 : ℤ) < 2 ^ l := by positivity
  rw [lt_up]
  constructor
  · rintro ⟨h1, h2⟩
    exact ⟨c * 2 ^ l, by positivity, h2, Int.mul_ediv_cancel _ (ne_of_gt hp)⟩
  · rintro ⟨q, h1, h2, rfl⟩
    exact ⟨Int.ediv_nonneg h1 (le_of_lt hp), lt_of_le_of_lt (Int.ediv_mul_le q (ne_of_gt hp)) h2⟩

theorem in_level {f : Dense ℚ} {bres : V3i} {v : V3i → ℚ} {l : ℕ} (hg : GoodRes bres)
    (hf : Holds f (levelRes bres (V3i.all 0) l) v) (c : V3i) :
    f.dw.contains c = true ↔ ∃ q, (boxOf bres).contains q = true ∧ over l q = c := by
  rw [hf.dw, boxOf_contains, levelRes_zero hg]
  simp only
  constructor
  · rintro ⟨x1, x2, y1, y2, z1, z2⟩
    obtain ⟨qx, a1, a2, a3⟩ := (in_up _ _ _).1 ⟨x1, x2⟩
    obtain ⟨qy, b1, b2, b3⟩ := (in_up _ _ _).1 ⟨y1, y2⟩
    obtain ⟨qz, c1, c2, c3⟩ := (in_up _ _ _).1 ⟨z1, z2⟩
    exact ⟨⟨qx, qy, qz⟩, (boxOf_contains ..).2 ⟨a1, a2, b1, b2, c1, c2⟩, V3i.ext' a3 b3 c3⟩
  · rintro ⟨q, hq, rfl⟩
    rw [boxOf_contains] at hq
    obtain ⟨a1, a2, b1, b2, c1, c2⟩ := hq
    have hx := (in_up bres.x l (q.x / 2 ^ l)).2 ⟨q.x, a1, a2, rfl⟩
    have hy := (in_up bres.y l (q.y / 2 ^ l)).2 ⟨q.y, b1, b2, rfl⟩
    have hz := (in_up bres.z l (q.z / 2 ^ l)).2 ⟨q.z, c1, c2, rfl⟩
    exact ⟨hx.1, hx.2, hy.1, hy.2, hz.1, hz.2⟩

/-! ## C49 -/

/-- **C49.** Without an offset `makeMIP` succeeds on every field whose window begins at zero, whatever the filter. Level 0
is the field itself. The voxels of level `l` are those over the voxels of the field: nothing is left over and no voxel
covers nothing. Each level is smaller than the one before along every axis. The chain goes on while some axis has more
than `minSize` voxels and every axis has more than two. -/
theorem C49_levels (flt : Filter) (base : Dense ℚ) (h : MipBase base) (minSize : ℤ) (fuel : ℕ)
    (hf : base.dw.max.x + 1 ≤ fuel) :
    ∃ levels, makeMIP flt base minSize (V3i.all 0) fuel = .ok levels ∧ levels[0]? = some base ∧
      (∀ (l : ℕ) (f : Dense ℚ), levels[l]? = some f → f.WF ∧ f.extents = f.dw ∧
        ∀ c, f.dw.contains c = true ↔ ∃ q, base.dw.contains q = true ∧ over l q = c) ∧
      (∀ (l : ℕ) (f g : Dense ℚ), levels[l]? = some f → levels[l + 1]? = some g →
        g.dw.max.x < f.dw.max.x ∧ g.dw.max.y < f.dw.max.y ∧ g.dw.max.z < f.dw.max.z ∧
        (minSize < f.dw.max.x + 1 ∨ minSize < f.dw.max.y + 1 ∨ minSize < f.dw.max.z + 1) ∧
        (2 < f.dw.max.x + 1 ∧ 2 < f.dw.max.y + 1 ∧ 2 < f.dw.max.z + 1)) ∧
      (∀ f : Dense ℚ, levels.getLast? = some f →
        (f.dw.max.x + 1 ≤ minSize ∧ f.dw.max.y + 1 ≤ minSize ∧ f.dw.max.z + 1 ≤ minSize) ∨
        (f.dw.max.x + 1 ≤ 2 ∨ f.dw.max.y + 1 ≤ 2 ∨ f.dw.max.z + 1 ≤ 2)) := by
  obtain ⟨hg, e, hb⟩ := base_holds h (values_exist h.wf)
  obtain ⟨K, levels, hK, hlen, h0, hall, hgo, hstop, hmake⟩ := makeMIP_total flt hb hg minSize (V3i.all 0)
  have hmax : ∀ (l : ℕ) (f : Dense ℚ), levels[l]? = some f →
      f.dw.max + V3i.all 1 = levelRes (base.dw.max + V3i.all 1) (V3i.all 0) l := fun l f hf => by
    rw [(hall l f hf).dw]
    apply V3i.ext' <;> simp [boxOf, V3i.all]
  have hstep : ∀ (l : ℕ) (f g : Dense ℚ), levels[l]? = some f → levels[l + 1]? = some g →
      g.dw.max.x < f.dw.max.x ∧ g.dw.max.y < f.dw.max.y ∧ g.dw.max.z < f.dw.max.z ∧
        (minSize < f.dw.max.x + 1 ∨ minSize < f.dw.max.y + 1 ∨ minSize < f.dw.max.z + 1) ∧
        (2 < f.dw.max.x + 1 ∧ 2 < f.dw.max.y + 1 ∧ 2 < f.dw.max.z + 1) := by
    intro l f g hf hg'
    have hl : l < K := by
      have := (List.getElem?_eq_some_iff.1 hg').1
      omega
    have hgo' := hgo l hl
    have ef := hmax l f hf
    have eg := hmax (l + 1) g hg'
    rw [← ef] at hgo'
    rw [levelRes_zero hg] at ef eg
    simp only [up_succ] at eg
    have efx := congrArg V3i.x ef; have efy := congrArg V3i.y ef; have efz := congrArg V3i.z ef
    have egx := congrArg V3i.x eg; have egy := congrArg V3i.y eg; have egz := congrArg V3i.z eg
    simp only [V3i.add_x, V3i.add_y, V3i.add_z, V3i.all] at efx efy efz egx egy egz
    rw [goOn_iff] at hgo'
    simp only [V3i.add_x, V3i.add_y, V3i.add_z, V3i.all] at hgo'
    omega
  refine ⟨levels, ?_, h0, fun l f hf => ⟨(hall l f hf).wf, ?_, fun c => ?_⟩, hstep, fun f hf => ?_⟩
  · rw [hmake fuel (by
      simp only [V3i.add_x, V3i.all] at hK
      omega), if_pos]
    cases hl : levels with
    | nil => rw [hl] at hlen; simp at hlen
    | cons a l =>
      unfold sane
      apply decreasing_of
      intro i s t hs ht
      have hm : ∀ (i : ℕ) (s : V3i), (a.extents.size :: l.map fun (g : Dense ℚ) => g.extents.size)[i]? = some s →
          ∃ f : Dense ℚ, levels[i]? = some f ∧ s = f.dw.max := by
        intro i s hs
        have e2 : (a.extents.size :: l.map fun (g : Dense ℚ) => g.extents.size) = levels.map fun (g : Dense ℚ) => g.extents.size := by
          rw [hl]; rfl
        rw [e2, List.getElem?_map, Option.map_eq_some_iff] at hs
        obtain ⟨f, hf, rfl⟩ := hs
        refine ⟨f, hf, ?_⟩
        have := hall i f hf
        rw [this.ext, this.dw]
        rw [Dense.size_of_ne (boxOf_ne (levelRes_pos hg _ i))]
        apply V3i.ext' <;> simp [boxOf, V3i.all]
      obtain ⟨f, hf1, rfl⟩ := hm i s hs
      obtain ⟨g, hg1, rfl⟩ := hm (i + 1) t ht
      have := hstep i f g hf1 hg1
      exact ⟨this.1, this.2.1, this.2.2.1⟩
  · rw [(hall l f hf).ext, (hall l f hf).dw]
  · rw [in_level hg (hall l f hf), ← e]
  · have hl : levels[K]? = some f := by
      rw [List.getLast?_eq_getElem?, hlen] at hf
      exact hf
    have ef := hmax K f hl
    rw [← ef] at hstop
    have hst : ¬ (goOn minSize (f.dw.max + V3i.all 1) = true) := by rw [hstop]; decide
    rw [goOn_iff] at hst
    simp only [V3i.add_x, V3i.add_y, V3i.add_z, V3i.all] at hst
    omega

/-- **C49.** With an offset the construction still ends without undefined behaviour, in a MIP field or in an exception,
and level `l + 1` has `⌈n / 2^(l+1)⌉` voxels along an axis, one more if the offset of level `l` is odd. -/
theorem C49_offset_sizes (flt : Filter) (base : Dense ℚ) (h : MipBase base) (minSize : ℤ) (off : V3i) (fuel : ℕ)
    (hf : base.dw.max.x + 1 ≤ fuel) :
    makeMIP flt base minSize off fuel = .mipException ∨
    ∃ levels, makeMIP flt base minSize off fuel = .ok levels ∧ levels[0]? = some base ∧
      ∀ (l : ℕ) (g : Dense ℚ), levels[l + 1]? = some g → g.WF ∧ g.extents = g.dw ∧
        g.dw.min = V3i.all 0 ∧
        (∀ k : ℤ, k ≤ g.dw.max.x - off.x / 2 ^ l % 2 ↔ k * 2 ^ (l + 1) ≤ base.dw.max.x) ∧
        (∀ k : ℤ, k ≤ g.dw.max.y - off.y / 2 ^ l % 2 ↔ k * 2 ^ (l + 1) ≤ base.dw.max.y) ∧
        (∀ k : ℤ, k ≤ g.dw.max.z - off.z / 2 ^ l % 2 ↔ k * 2 ^ (l + 1) ≤ base.dw.max.z) := by
  obtain ⟨hg, e, hb⟩ := base_holds h (values_exist h.wf)
  obtain ⟨K, levels, hK, hlen, h0, hall, _, _, hmake⟩ := makeMIP_total flt hb hg minSize off
  have hm := hmake fuel (by simp only [V3i.add_x, V3i.all] at hK; omega)
  by_cases hs : sane levels = true
  · rw [if_pos hs] at hm
    refine .inr ⟨levels, hm, h0, fun l g hl => ?_⟩
    have hh := hall (l + 1) g hl
    have key : ∀ (n a k m : ℤ), m = up (n + 1) (l + 1) + a - 1 → (k ≤ m - a ↔ k * 2 ^ (l + 1) ≤ n) := by
      intro n a k m e
      have := lt_up (n + 1) (l + 1) k
      omega
    refine ⟨hh.wf, by rw [hh.ext, hh.dw], by rw [hh.dw]; rfl, fun k => key _ _ k _ ?_, fun k => key _ _ k _ ?_,
      fun k => key _ _ k _ ?_⟩ <;> rw [hh.dw, levelRes_succ hg] <;> simp [boxOf, V3i.all]
  · rw [if_neg hs] at hm
    exact .inl hm

/-- **C49.** With an offset a level can be too small. Along an axis with `n` voxels, level `l + 1` has the voxels over all
voxels of the field if and only if the offset of level `l` is odd or the remainders of `n - 1` and of the offset add up
to less than `2^(l+1)`. -/
theorem C49_offset_covers (n : ℤ) (hn : 0 < n) (off : ℤ) (l : ℕ) :
    (∀ q, 0 ≤ q → q < n → 0 ≤ coarse off (l + 1) q ∧ coarse off (l + 1) q < up n (l + 1) + off / 2 ^ l % 2) ↔
      (off / 2 ^ l % 2 = 1 ∨ (n - 1) % 2 ^ (l + 1) + off % 2 ^ (l + 1) < 2 ^ (l + 1)) := by
  have hp : (0 : ℤ) < 2 ^ (l + 1) := by positivity
  have hup : up n (l + 1) = (n - 1) / 2 ^ (l + 1) + 1 := by
    unfold up
    rw [show n + (2 ^ (l + 1) - 1) = n - 1 + 2 ^ (l + 1) * 1 by ring, Int.add_mul_ediv_left _ _ (ne_of_gt hp)]
  have hc : ∀ q, coarse off (l + 1) q = q / 2 ^ (l + 1) + (q % 2 ^ (l + 1) + off % 2 ^ (l + 1)) / 2 ^ (l + 1) := by
    intro q
    unfold coarse
    have e1 := Int.emod_add_mul_ediv q (2 ^ (l + 1))
    have e2 := Int.emod_add_mul_ediv off (2 ^ (l + 1))
    rw [show q + off = (q % 2 ^ (l + 1) + off % 2 ^ (l + 1)) + 2 ^ (l + 1) * (q / 2 ^ (l + 1) + off / 2 ^ (l + 1)) by
      rw [mul_add]; linarith, Int.add_mul_ediv_left _ _ (ne_of_gt hp)]
    ring
  have hbit : off / 2 ^ l % 2 = 0 ∨ off / 2 ^ l % 2 = 1 := by omega
  have hcar : ∀ q, (q % 2 ^ (l + 1) + off % 2 ^ (l + 1)) / 2 ^ (l + 1) = 0 ∧ q % 2 ^ (l + 1) + off % 2 ^ (l + 1) < 2 ^ (l + 1) ∨
      (q % 2 ^ (l + 1) + off % 2 ^ (l + 1)) / 2 ^ (l + 1) = 1 ∧ 2 ^ (l + 1) ≤ q % 2 ^ (l + 1) + off % 2 ^ (l + 1) := by
    intro q
    have a1 := Int.emod_nonneg q (ne_of_gt hp)
    have a2 := Int.emod_lt_of_pos q hp
    have b1 := Int.emod_nonneg off (ne_of_gt hp)
    have b2 := Int.emod_lt_of_pos off hp
    by_cases hlt : q % 2 ^ (l + 1) + off % 2 ^ (l + 1) < 2 ^ (l + 1)
    · left
      refine ⟨Int.ediv_eq_zero_of_lt (by omega) hlt, hlt⟩
    · right
      refine ⟨?_, by omega⟩
      rw [Int.ediv_eq_iff_of_pos hp]
      generalize (2 : ℤ) ^ (l + 1) = P at *
      constructor <;> omega
  have hmono : ∀ q, 0 ≤ q → q < n → coarse off (l + 1) q ≤ coarse off (l + 1) (n - 1) := by
    intro q _ h
    unfold coarse
    have : (q + off) / 2 ^ (l + 1) ≤ (n - 1 + off) / 2 ^ (l + 1) := Int.ediv_le_ediv hp (by omega)
    omega
  have hnn : ∀ q, 0 ≤ q → 0 ≤ coarse off (l + 1) q := by
    intro q h
    unfold coarse
    have : off / 2 ^ (l + 1) ≤ (q + off) / 2 ^ (l + 1) := Int.ediv_le_ediv hp (by omega)
    omega
  constructor
  · intro h
    have := (h (n - 1) (by omega) (by omega)).2
    rw [hc, hup] at this
    rcases hbit with hb | hb
    · right
      rcases hcar (n - 1) with ⟨_, h2⟩ | ⟨h1, _⟩
      · exact h2
      · omega
    · exact .inl hb
  · intro h q h1 h2
    refine ⟨hnn q h1, lt_of_le_of_lt (hmono q h1 h2) ?_⟩
    rw [hc, hup]
    rcases h with h | h
    · rcases hcar (n - 1) with ⟨e, _⟩ | ⟨e, _⟩ <;> omega
    · rcases hcar (n - 1) with ⟨e, _⟩ | ⟨e, h'⟩
      · omega
      · omega

/-- Where the statement fails: 8 voxels and offset 1, level 2. -/
example : ¬ ((1 : ℤ) / 2 ^ 1 % 2 = 1 ∨ ((8 : ℤ) - 1) % 2 ^ (1 + 1) + 1 % 2 ^ (1 + 1) < 2 ^ (1 + 1)) := by decide

theorem cube_base (n : ℕ) (f : Dense ℚ) (h : Dense.setSize (0 : ℚ) (boxOf (V3i.all n)) (boxOf (V3i.all n)) = .ok f)
    (hn : 0 < n) (hm : n ≤ 2 ^ 24) : MipBase f := by
  have hne : (boxOf (V3i.all n)).isEmpty = false := boxOf_ne (by simp only [V3i.all]; omega)
  obtain ⟨g, e, wf, ed, ee, _⟩ := Dense.setSize_ok (dflt := (0 : ℚ)) (e := boxOf (V3i.all n)) hne
  rw [h] at e
  injection e with e
  subst e
  refine ⟨wf, by rw [ee, ed], by rw [ed]; rfl, ?_⟩
  rw [ed]
  simp only [boxOf, V3i.all, V3i.sub_x, V3i.sub_y, V3i.sub_z]
  omega

/-- **C49.** The fault: a cube of eight voxels with an offset of one gets a level 2 in which the voxel over its last voxel
is missing. -/
theorem C49_offset_loses_voxels (flt : Filter) (base : Dense ℚ) (h : MipBase base) (h8 : base.dw.max = V3i.all 7) :
    ∃ levels f, makeMIP flt base 1 (V3i.all 1) 8 = .ok levels ∧ levels[2]? = some f ∧
      base.dw.contains (V3i.all 7) = true ∧
      f.dw.contains ⟨coarse 1 2 7, coarse 1 2 7, coarse 1 2 7⟩ = false := by
  obtain ⟨hg, e, hb⟩ := base_holds h (values_exist h.wf)
  rw [h8] at hg e hb
  obtain ⟨K, levels, hK, hlen, h0, hall, hgo, hstop, hmake⟩ := makeMIP_total flt hb hg 1 (V3i.all 1)
  have r0 : levelRes (V3i.all 7 + V3i.all 1) (V3i.all 1) 0 = V3i.all 8 := by decide +kernel
  have r1 : levelRes (V3i.all 7 + V3i.all 1) (V3i.all 1) 1 = V3i.all 5 := by decide +kernel
  have r2 : levelRes (V3i.all 7 + V3i.all 1) (V3i.all 1) 2 = V3i.all 2 := by decide +kernel
  have hK2 : K = 2 := by
    rcases Nat.lt_trichotomy K 2 with hlt | heq | hgt
    · have : K = 0 ∨ K = 1 := by omega
      rcases this with rfl | rfl
      · rw [r0] at hstop; exact absurd hstop (by decide +kernel)
      · rw [r1] at hstop; exact absurd hstop (by decide +kernel)
    · exact heq
    · have := hgo 2 hgt
      rw [r2] at this; exact absurd this (by decide +kernel)
  subst hK2
  obtain ⟨a, b, c, rfl⟩ := List.length_eq_three.1 hlen
  · have ha := hall 0 a rfl
    have hb' := hall 1 b rfl
    have hc := hall 2 c rfl
    rw [r0] at ha; rw [r1] at hb'; rw [r2] at hc
    refine ⟨[a, b, c], c, ?_, rfl, ?_, ?_⟩
    · rw [hmake 8 (by omega), if_pos]
      unfold sane
      simp only [List.map_cons, List.map_nil]
      rw [ha.ext, hb'.ext, hc.ext]
      decide +kernel
    · rw [e]; decide +kernel
    · rw [hc.dw]; decide +kernel

/-- The hypotheses are met by a field of that size. -/
example : ∃ f, Dense.setSize (0 : ℚ) (boxOf (V3i.all (8 : ℕ))) (boxOf (V3i.all (8 : ℕ))) = .ok f ∧ MipBase f ∧
    f.dw.max = V3i.all 7 := by
  obtain ⟨f, e, _, ed, _, _⟩ := Dense.setSize_ok (dflt := (0 : ℚ)) (e := boxOf (V3i.all (8 : ℕ)))
    (dw := boxOf (V3i.all (8 : ℕ))) (by decide)
  exact ⟨f, e, cube_base 8 f e (by omega) (by omega), by rw [ed]; decide⟩

/-- **C49.** The fault: a cube of three voxels with an odd offset is rejected with an exception, since its level 1 would
have three voxels again. -/
theorem C49_offset_rejected (flt : Filter) (base : Dense ℚ) (h : MipBase base) (h3 : base.dw.max = V3i.all 2) (fuel : ℕ)
    (hf : 3 ≤ fuel) : makeMIP flt base 1 (V3i.all 1) fuel = .mipException := by
  obtain ⟨hg, e, hb⟩ := base_holds h (values_exist h.wf)
  rw [h3] at hg e hb
  obtain ⟨K, levels, hK, hlen, h0, hall, hgo, hstop, hmake⟩ := makeMIP_total flt hb hg 1 (V3i.all 1)
  have r0 : levelRes (V3i.all 2 + V3i.all 1) (V3i.all 1) 0 = V3i.all 3 := by decide +kernel
  have r1 : levelRes (V3i.all 2 + V3i.all 1) (V3i.all 1) 1 = V3i.all 3 := by decide +kernel
  have hK1 : 1 ≤ K := by
    rcases Nat.eq_zero_or_pos K with rfl | hp
    · rw [r0] at hstop; exact absurd hstop (by decide)
    · exact hp
  have hk3 : (V3i.all 2 + V3i.all 1).x = 3 := by decide
  rw [hk3] at hK
  rw [hmake fuel (by omega), if_neg]
  obtain ⟨K, rfl⟩ : ∃ k, K = k + 1 := ⟨K - 1, by omega⟩
  match levels, hlen with
  | a :: b :: l, _ =>
    have ha := hall 0 a rfl
    have hb' := hall 1 b rfl
    rw [r0] at ha; rw [r1] at hb'
    unfold sane
    simp only [List.map_cons]
    rw [ha.ext, hb'.ext]
    unfold decreasing
    rw [if_neg (by decide), if_pos (by decide)]
    decide

def isUndef : Made → Bool
  | .undef => true
  | _ => false

theorem isUndef_eq {m : Made} (h : isUndef m = true) : m = .undef := by cases m <;> first | rfl | cases h

/-- **C49.** The fault: a base whose data window does not begin at zero is read outside its data. -/
theorem C49_origin_undefined : ∃ base, Dense.setSize (0 : ℚ) ⟨⟨0, 1, 0⟩, ⟨2, 3, 2⟩⟩ ⟨⟨0, 1, 0⟩, ⟨2, 3, 2⟩⟩ = .ok base ∧
    makeMIP (boxFilter 1) base 1 (V3i.all 0) 3 = .undef := by
  refine ⟨_, rfl, ?_⟩
  apply isUndef_eq
  decide +kernel

/-- **C49.** The fault: beyond `2^24` voxels the conversion to `float` makes a level too small. -/
theorem C49_large_resolution : mipRes1 (2 ^ 24 + 1) 1 0 = 2 ^ 23 ∧ coarse 0 1 (2 ^ 24) = 2 ^ 23 := by decide +kernel

/-- **C49.** Fields are accepted as the levels of a MIP field if there is at least one, and each level is no larger than
the one before along any axis and smaller along at least one; all others are refused. -/
theorem C49_accepted (fields : List (Dense ℚ)) : sane fields = true ↔ fields ≠ [] ∧
    ∀ (l : ℕ) (f g : Dense ℚ), fields[l]? = some f → fields[l + 1]? = some g →
      (g.extents.size.x ≤ f.extents.size.x ∧ g.extents.size.y ≤ f.extents.size.y ∧ g.extents.size.z ≤ f.extents.size.z) ∧
      (g.extents.size.x < f.extents.size.x ∨ g.extents.size.y < f.extents.size.y ∨ g.extents.size.z < f.extents.size.z) := by
  cases fields with
  | nil => simp [sane]
  | cons f rest =>
    simp only [sane, ne_eq, reduceCtorEq, not_false_eq_true, true_and]
    induction rest generalizing f with
    | nil =>
      simp only [List.map_nil, decreasing, true_iff]
      intro l f' g _ h2
      simp at h2
    | cons g rest ih =>
      simp only [List.map_cons, decreasing]
      constructor
      · intro h l f' g' h1 h2
        split at h
        · cases h
        · split at h
          · cases h
          · cases l with
            | zero =>
              simp only [List.getElem?_cons_zero, Option.some.injEq, Nat.zero_add, List.getElem?_cons_succ] at h1 h2
              subst h1 h2
              omega
            | succ l => exact (ih g).1 h l f' g' h1 h2
      · intro h
        have h0 := h 0 f g rfl rfl
        rw [if_neg (by omega), if_neg (by omega)]
        exact (ih g).2 fun l f' g' h1 h2 => h (l + 1) f' g' h1 h2

/-- A level may keep the size of the one before along some axes. -/
example : ∃ f g : Dense ℚ, Dense.setSize (0 : ℚ) (boxOf ⟨4, 4, 4⟩) (boxOf ⟨4, 4, 4⟩) = .ok f ∧
    Dense.setSize (0 : ℚ) (boxOf ⟨4, 2, 4⟩) (boxOf ⟨4, 2, 4⟩) = .ok g ∧ sane [f, g] = true := ⟨_, _, rfl, rfl, by decide +kernel⟩

/-! ## C50 -/

theorem parent_eq (off : V3i) (l : ℕ) (q c : V3i) : parent off l q = c ↔
    (q.x + (addOf (offAt off l)).x) / 2 = c.x ∧ (q.y + (addOf (offAt off l)).y) / 2 = c.y ∧
    (q.z + (addOf (offAt off l)).z) / 2 = c.z := by
  have h : ∀ o x : ℤ, coarse o 1 x = (x + o % 2) / 2 := fun o x => by unfold coarse; omega
  rw [addOf_eq]
  simp only [parent, offAt, h]
  constructor
  · intro e; subst e; exact ⟨rfl, rfl, rfl⟩
  · rintro ⟨h1, h2, h3⟩; exact V3i.ext' h1 h2 h3

theorem mem_cells_parent {f : Dense ℚ} {sres : V3i} {v : V3i → ℚ} (hf : Holds f sres v) (off : V3i) (l : ℕ) (c q : V3i) :
    q ∈ cells (addOf (offAt off l)) sres c ↔ f.dw.contains q = true ∧ parent off l q = c := by
  rw [mem_cells, parent_eq, hf.dw]

/-- Two consecutive levels of a MIP field. -/
theorem consecutive {flt : Filter} {base : Dense ℚ} (h : MipBase base) {minSize : ℤ} {off : V3i} {fuel : ℕ}
    {levels : List (Dense ℚ)} (hm : makeMIP flt base minSize off fuel = .ok levels) {l : ℕ} {f g : Dense ℚ}
    (hf : levels[l]? = some f) (hg : levels[l + 1]? = some g) :
    ∃ sres v, (0 < sres.x ∧ 0 < sres.y ∧ 0 < sres.z) ∧ Holds f sres v ∧ g.WF ∧ ∀ c, g.dw.contains c = true →
      g.value c = some (nextValues flt (addOf (offAt off l)) sres v c) := by
  obtain ⟨hgood, e, hb⟩ := base_holds h (values_exist h.wf)
  have h1 := levels_hold hb hgood hm l f hf
  have h2 := levels_hold hb hgood hm (l + 1) g hg
  exact ⟨_, _, levelRes_pos hgood off l, h1, h2.wf, fun c hc => h2.val c (h2.dw ▸ hc)⟩

/-- **C50.** The box filter: each voxel of a level is the mean of the voxels of the level before that it covers (and 0 if it
covers none). -/
theorem C50_box_mean (base : Dense ℚ) (h : MipBase base) (minSize : ℤ) (off : V3i) (fuel : ℕ)
    (levels : List (Dense ℚ)) (hm : makeMIP (boxFilter 1) base minSize off fuel = .ok levels) (l : ℕ) (f g : Dense ℚ)
    (hf : levels[l]? = some f) (hg : levels[l + 1]? = some g) (v : V3i → ℚ) (hv : Values f v) (c : V3i)
    (hc : g.dw.contains c = true) (covered : List V3i) (hn : covered.Nodup)
    (hcov : ∀ q, q ∈ covered ↔ f.dw.contains q = true ∧ parent off l q = c) :
    g.value c = some ((covered.map v).sum / covered.length) := by
  obtain ⟨sres, w, _, hw, _, hval⟩ := consecutive h hm hf hg
  rw [hval c hc, next_box]
  have hp : (cells (addOf (offAt off l)) sres c).Perm covered :=
    (List.perm_ext_iff_of_nodup (cells_nodup _ _ _) hn).2 fun q => by rw [mem_cells_parent hw, hcov]
  have e : (cells (addOf (offAt off l)) sres c).map w = (cells (addOf (offAt off l)) sres c).map v :=
    List.map_congr_left fun q hq => holds_unique hw hv q ((mem_cells_parent hw off l c q).1 hq).1
  rw [e, (hp.map v).sum_eq, hp.length_eq]

/-- **C50.** The min filter: each voxel of a level that covers voxels of the level before has the least of their values,
if these are below the largest `float`. -/
theorem C50_min_least (base : Dense ℚ) (h : MipBase base) (minSize : ℤ) (off : V3i) (fuel : ℕ)
    (levels : List (Dense ℚ)) (hm : makeMIP (minFilter 1) base minSize off fuel = .ok levels) (l : ℕ) (f g : Dense ℚ)
    (hf : levels[l]? = some f) (hg : levels[l + 1]? = some g) (v : V3i → ℚ) (hv : Values f v) (c : V3i)
    (hc : g.dw.contains c = true) (hlt : ∀ q, f.dw.contains q = true → v q < floatMax)
    (hne : ∃ q, f.dw.contains q = true ∧ parent off l q = c) :
    ∃ m, g.value c = some m ∧ (∃ q, f.dw.contains q = true ∧ parent off l q = c ∧ m = v q) ∧
      ∀ q, f.dw.contains q = true → parent off l q = c → m ≤ v q := by
  obtain ⟨sres, w, _, hw, _, hval⟩ := consecutive h hm hf hg
  obtain ⟨q0, hq0⟩ := hne
  have hmem := mem_cells_parent hw off l c
  obtain ⟨⟨q, hq, e⟩, h2⟩ := next_min (addOf (offAt off l)) sres w c (List.ne_nil_of_mem ((hmem q0).2 hq0)) fun q hq => by
    rw [holds_unique hw hv q ((hmem q).1 hq).1]
    exact hlt q ((hmem q).1 hq).1
  refine ⟨_, hval c hc, ⟨q, ((hmem q).1 hq).1, ((hmem q).1 hq).2, ?_⟩, fun q h3 h4 => ?_⟩
  · rw [← holds_unique hw hv q ((hmem q).1 hq).1]; exact e
  · rw [← holds_unique hw hv q h3]; exact h2 q ((hmem q).2 ⟨h3, h4⟩)

/-- **C50.** The max filter: the greatest of the values. -/
theorem C50_max_greatest (base : Dense ℚ) (h : MipBase base) (minSize : ℤ) (off : V3i) (fuel : ℕ)
    (levels : List (Dense ℚ)) (hm : makeMIP (maxFilter 1) base minSize off fuel = .ok levels) (l : ℕ) (f g : Dense ℚ)
    (hf : levels[l]? = some f) (hg : levels[l + 1]? = some g) (v : V3i → ℚ) (hv : Values f v) (c : V3i)
    (hc : g.dw.contains c = true) (hlt : ∀ q, f.dw.contains q = true → -floatMax < v q)
    (hne : ∃ q, f.dw.contains q = true ∧ parent off l q = c) :
    ∃ m, g.value c = some m ∧ (∃ q, f.dw.contains q = true ∧ parent off l q = c ∧ m = v q) ∧
      ∀ q, f.dw.contains q = true → parent off l q = c → v q ≤ m := by
  obtain ⟨sres, w, _, hw, _, hval⟩ := consecutive h hm hf hg
  obtain ⟨q0, hq0⟩ := hne
  have hmem := mem_cells_parent hw off l c
  obtain ⟨⟨q, hq, e⟩, h2⟩ := next_max (addOf (offAt off l)) sres w c (List.ne_nil_of_mem ((hmem q0).2 hq0)) fun q hq => by
    rw [holds_unique hw hv q ((hmem q).1 hq).1]
    exact hlt q ((hmem q).1 hq).1
  refine ⟨_, hval c hc, ⟨q, ((hmem q).1 hq).1, ((hmem q).1 hq).2, ?_⟩, fun q h3 h4 => ?_⟩
  · rw [← holds_unique hw hv q ((hmem q).1 hq).1]; exact e
  · rw [← holds_unique hw hv q h3]; exact h2 q ((hmem q).2 ⟨h3, h4⟩)

/-- A filter that averages: weights are not negative, and positive a quarter of a voxel from the centre. The box, triangle
and Gaussian filters are such; the Mitchell filter is not. -/
structure Averaging (flt : Filter) : Prop where
  op : flt.op = .weighted
  support : 0 < flt.support
  nonneg : ∀ x, 0 ≤ x → 0 ≤ flt.eval x
  quarter : 0 < flt.eval (1 / 4)

/-- **C50.** A level made by an averaging filter stays within the range of the level before: every voxel that covers
voxels of the level before is between the bounds of its values. -/
theorem C50_within (flt : Filter) (ha : Averaging flt) (base : Dense ℚ) (h : MipBase base) (minSize : ℤ) (off : V3i)
    (fuel : ℕ) (levels : List (Dense ℚ)) (hm : makeMIP flt base minSize off fuel = .ok levels) (l : ℕ) (f g : Dense ℚ)
    (hf : levels[l]? = some f) (hg : levels[l + 1]? = some g) (v : V3i → ℚ) (hv : Values f v) (lo hi : ℚ)
    (hb : ∀ q, f.dw.contains q = true → lo ≤ v q ∧ v q ≤ hi) (c : V3i) (hc : g.dw.contains c = true)
    (hne : ∃ q, f.dw.contains q = true ∧ parent off l q = c) :
    ∃ m, g.value c = some m ∧ lo ≤ m ∧ m ≤ hi := by
  obtain ⟨sres, w, _, hw, _, hval⟩ := consecutive h hm hf hg
  obtain ⟨q0, hq0⟩ := hne
  have hmem := mem_cells_parent hw off l c
  have := next_between ha.op ha.support ha.nonneg ha.quarter (addOf (offAt off l)) sres w c (lo := lo) (hi := hi)
    (List.ne_nil_of_mem ((hmem q0).2 hq0)) fun q hq => by
      have hq' : f.dw.contains q = true := by rw [hw.dw]; exact hq
      rw [holds_unique hw hv q hq']
      exact hb q hq'
  exact ⟨_, hval c hc, this⟩

theorem box_averaging {w : ℚ} (hw : 1 / 2 ≤ w) : Averaging (boxFilter w) := by
  have hp : 0 < w := by linarith
  refine ⟨rfl, ?_, fun x _ => ?_, ?_⟩
  · show 0 < 1 / 2 * w; positivity
  · show 0 ≤ boxEval w x
    unfold boxEval; split <;> norm_num
  · show 0 < boxEval w (1 / 4)
    unfold boxEval
    rw [if_pos (by rw [div_le_iff₀ hp]; linarith)]; norm_num

theorem triangle_averaging {w : ℚ} (hw : 1 / 2 ≤ w) : Averaging (triangleFilter w) := by
  have hp : 0 < w := by linarith
  refine ⟨rfl, ?_, fun x _ => ?_, ?_⟩
  · show 0 < 1 * w; linarith
  · show 0 ≤ if x / w > 1 then 0 else 1 - x / w
    split <;> linarith
  · show 0 < if 1 / 4 / w > 1 then 0 else 1 - 1 / 4 / w
    have : (1 / 4 : ℚ) / w ≤ 1 / 2 := by rw [div_le_iff₀ hp]; linarith
    rw [if_neg (by linarith)]; linarith

/-- The Gaussian filter: `eval` is the larger of zero and a difference of exponentials that is positive inside the
support. -/
theorem gaussian_averaging {w : ℚ} (hw : 0 < w) (g : ℚ → ℚ) (h0 : ∀ x, 0 ≤ g x) (h1 : 0 < g (1 / 4)) :
    Averaging (gaussianFilter w g) :=
  ⟨rfl, by show 0 < 2 * w; positivity, fun x _ => h0 x, h1⟩

/-- The Mitchell filter has negative weights. -/
example : (mitchellFilter 1 (1 / 3) (1 / 3)).eval (3 / 2) < 0 := by decide +kernel

/-! Min and max of the base -/

theorem over_succ (l : ℕ) (q : V3i) : parent (V3i.all 0) l (over l q) = over (l + 1) q := by
  have h : ∀ x : ℤ, coarse (0 / 2 ^ l) 1 (x / 2 ^ l) = x / 2 ^ (l + 1) := fun x => by
    rw [pow_succ, ← Int.ediv_ediv_of_nonneg (by positivity)]
    unfold coarse
    rw [Int.zero_ediv]; omega
  simp only [parent, over, V3i.all, h]

/-- **C50.** Without an offset, each voxel of each level made by the min filter has the least of the values of the base
under it. -/
theorem C50_min_of_base (base : Dense ℚ) (h : MipBase base) (minSize : ℤ) (fuel : ℕ) (levels : List (Dense ℚ))
    (hm : makeMIP (minFilter 1) base minSize (V3i.all 0) fuel = .ok levels) (v : V3i → ℚ) (hv : Values base v)
    (hlt : ∀ q, base.dw.contains q = true → v q < floatMax) : ∀ (l : ℕ) (f : Dense ℚ), levels[l]? = some f →
    ∀ c, f.dw.contains c = true →
    ∃ m, f.value c = some m ∧ (∃ q, base.dw.contains q = true ∧ over l q = c ∧ m = v q) ∧
      ∀ q, base.dw.contains q = true → over l q = c → m ≤ v q := by
  obtain ⟨hg, e, hb⟩ := base_holds h hv
  have hall := levels_hold hb hg hm
  intro l
  induction l with
  | zero =>
    intro f hf c hc
    obtain ⟨_, h0, _⟩ := makeMIP_ok hm
    rw [h0] at hf
    cases hf
    have o : ∀ q, over 0 q = q := fun q => by simp [over]
    refine ⟨v c, hv c hc, ⟨c, hc, o c, rfl⟩, fun q _ hq => ?_⟩
    rw [o] at hq; subst hq; exact le_refl _
  | succ l ih =>
    intro g hg' c hc
    have hl : l < levels.length := by
      have := (List.getElem?_eq_some_iff.1 hg').1
      omega
    have hf : levels[l]? = some levels[l] := List.getElem?_eq_getElem hl
    generalize levels[l] = f at hf
    have ihf := ih f hf
    have hfl := hall l f hf
    have hgl := hall (l + 1) g hg'
    have hin : ∀ q, base.dw.contains q = true → f.dw.contains (over l q) = true := fun q hq =>
      (in_level hg hfl _).2 ⟨q, e ▸ hq, rfl⟩
    obtain ⟨q0, hq0, hq0c⟩ := (in_level hg hgl c).1 hc
    obtain ⟨m, hm1, ⟨p, hp1, hp2, hp3⟩, hm2⟩ := C50_min_least base h minSize (V3i.all 0) fuel levels hm l f g hf hg'
      (fun q => (f.value q).getD 0) (values_exist hfl.wf) c hc (fun q hq => by
        obtain ⟨m, e1, ⟨p, hp, _, e2⟩, _⟩ := ihf q hq
        rw [e1, Option.getD_some, e2]; exact hlt p hp)
      ⟨over l q0, hin q0 (e ▸ hq0), by rw [over_succ, hq0c]⟩
    refine ⟨m, hm1, ?_, fun q hq hqc => ?_⟩
    · obtain ⟨m', e1, ⟨q, hq, hq', e2⟩, _⟩ := ihf p hp1
      refine ⟨q, hq, ?_, ?_⟩
      · rw [← over_succ, hq', hp2]
      · rw [hp3, e1, Option.getD_some, e2]
    · have hle := hm2 (over l q) (hin q hq) (by rw [over_succ, hqc])
      obtain ⟨m', e1, _, h3⟩ := ihf (over l q) (hin q hq)
      rw [e1, Option.getD_some] at hle
      exact le_trans hle (h3 q hq rfl)

/-- **C50.** The same for the max filter. -/
theorem C50_max_of_base (base : Dense ℚ) (h : MipBase base) (minSize : ℤ) (fuel : ℕ) (levels : List (Dense ℚ))
    (hm : makeMIP (maxFilter 1) base minSize (V3i.all 0) fuel = .ok levels) (v : V3i → ℚ) (hv : Values base v)
    (hlt : ∀ q, base.dw.contains q = true → -floatMax < v q) : ∀ (l : ℕ) (f : Dense ℚ), levels[l]? = some f →
    ∀ c, f.dw.contains c = true →
    ∃ m, f.value c = some m ∧ (∃ q, base.dw.contains q = true ∧ over l q = c ∧ m = v q) ∧
      ∀ q, base.dw.contains q = true → over l q = c → v q ≤ m := by
  obtain ⟨hg, e, hb⟩ := base_holds h hv
  have hall := levels_hold hb hg hm
  intro l
  induction l with
  | zero =>
    intro f hf c hc
    obtain ⟨_, h0, _⟩ := makeMIP_ok hm
    rw [h0] at hf
    cases hf
    have o : ∀ q, over 0 q = q := fun q => by simp [over]
    refine ⟨v c, hv c hc, ⟨c, hc, o c, rfl⟩, fun q _ hq => ?_⟩
    rw [o] at hq; subst hq; exact le_refl _
  | succ l ih =>
    intro g hg' c hc
    have hl : l < levels.length := by
      have := (List.getElem?_eq_some_iff.1 hg').1
      omega
    have hf : levels[l]? = some levels[l] := List.getElem?_eq_getElem hl
    generalize levels[l] = f at hf
    have ihf := ih f hf
    have hfl := hall l f hf
    have hgl := hall (l + 1) g hg'
    have hin : ∀ q, base.dw.contains q = true → f.dw.contains (over l q) = true := fun q hq =>
      (in_level hg hfl _).2 ⟨q, e ▸ hq, rfl⟩
    obtain ⟨q0, hq0, hq0c⟩ := (in_level hg hgl c).1 hc
    obtain ⟨m, hm1, ⟨p, hp1, hp2, hp3⟩, hm2⟩ := C50_max_greatest base h minSize (V3i.all 0) fuel levels hm l f g hf hg'
      (fun q => (f.value q).getD 0) (values_exist hfl.wf) c hc (fun q hq => by
        obtain ⟨m, e1, ⟨p, hp, _, e2⟩, _⟩ := ihf q hq
        rw [e1, Option.getD_some, e2]; exact hlt p hp)
      ⟨over l q0, hin q0 (e ▸ hq0), by rw [over_succ, hq0c]⟩
    refine ⟨m, hm1, ?_, fun q hq hqc => ?_⟩
    · obtain ⟨m', e1, ⟨q, hq, hq', e2⟩, _⟩ := ihf p hp1
      refine ⟨q, hq, ?_, ?_⟩
      · rw [← over_succ, hq', hp2]
      · rw [hp3, e1, Option.getD_some, e2]
    · have hle := hm2 (over l q) (hin q hq) (by rw [over_succ, hqc])
      obtain ⟨m', e1, _, h3⟩ := ihf (over l q) (hin q hq)
      rw [e1, Option.getD_some] at hle
      exact le_trans (h3 q hq rfl) hle

/-- **C50.** The fault: a voxel over voxels that all have the largest `float` as value gets zero from the min filter. -/
theorem C50_min_lost (weight : ℤ → ℚ) (l : List ℤ) : lineOf (minFilter 1).op weight (fun _ => floatMax) l = 0 := by
  have : ∀ l : List ℤ, l.foldl (fun a s => if weight s > 0 then min a floatMax else a) floatMax = floatMax := by
    intro l
    induction l with
    | nil => rfl
    | cons s l ih =>
      simp only [List.foldl_cons]
      rw [min_self, ite_self]
      exact ih
  show (if _ ≠ floatMax then _ else _) = _
  rw [this, if_neg (by simp)]

/-- The hypotheses of `C49_levels` and, through it, of the theorems on levels are met by cubes of any size. -/
example (n : ℕ) (hn : 0 < n) (hm : n ≤ 2 ^ 24) : ∃ base levels, MipBase base ∧ base.dw = boxOf (V3i.all n) ∧
    makeMIP (boxFilter 1) base 1 (V3i.all 0) n = .ok levels := by
  obtain ⟨f, e, _, ed, _, _⟩ := Dense.setSize_ok (dflt := (0 : ℚ)) (e := boxOf (V3i.all (n : ℤ)))
    (dw := boxOf (V3i.all (n : ℤ))) (boxOf_ne (by simp only [V3i.all]; omega))
  have hb := cube_base n f e hn hm
  obtain ⟨levels, h, _⟩ := C49_levels (boxFilter 1) f hb 1 n (by rw [ed]; simp [boxOf, V3i.all])
  exact ⟨f, levels, hb, ed, h⟩

end F3D.Props
