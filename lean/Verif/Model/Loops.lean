import Verif.Model.Basic

/-!
# Counting loops over integers and boxes
-/

namespace F3D

/-- `for (int i = lo; i <= hi; ++i)`. -/
def forRange (lo hi : Int) : List Int := (List.range (hi - lo + 1).toNat).map fun (n : Nat) => lo + n

theorem mem_forRange (lo hi i : Int) : i ∈ forRange lo hi ↔ lo ≤ i ∧ i ≤ hi := by
  simp only [forRange, List.mem_map, List.mem_range]
  constructor
  · rintro ⟨n, hn, rfl⟩; omega
  · rintro ⟨h1, h2⟩; exact ⟨(i - lo).toNat, by omega, by omega⟩

theorem forRange_nodup (lo hi : Int) : (forRange lo hi).Nodup := by
  unfold forRange
  rw [List.nodup_iff_pairwise_ne, List.pairwise_map]
  apply List.Pairwise.imp _ (List.nodup_iff_pairwise_ne.1 List.nodup_range)
  intro a b h e
  exact h (by omega)

/-- `for k, for j, for i` over an inclusive box. -/
def boxLoop (b : Box3i) : List V3i :=
  (forRange b.min.z b.max.z).flatMap fun k =>
    (forRange b.min.y b.max.y).flatMap fun j => (forRange b.min.x b.max.x).map fun i => ⟨i, j, k⟩

theorem mem_boxLoop (b : Box3i) (p : V3i) : p ∈ boxLoop b ↔ b.contains p = true := by
  simp only [boxLoop, List.mem_flatMap, List.mem_map, mem_forRange, Box3i.contains, Bool.and_eq_true,
    decide_eq_true_eq]
  constructor
  · rintro ⟨k, hk, j, hj, i, hi, rfl⟩; simp only; omega
  · rintro ⟨⟨⟨⟨⟨h1, h2⟩, h3⟩, h4⟩, h5⟩, h6⟩
    exact ⟨p.z, ⟨h5, h6⟩, p.y, ⟨h3, h4⟩, p.x, ⟨h1, h2⟩, rfl⟩

theorem boxLoop_nodup (b : Box3i) : (boxLoop b).Nodup := by
  unfold boxLoop
  rw [List.nodup_iff_pairwise_ne, List.pairwise_flatMap]
  refine ⟨fun k _ => ?_, ?_⟩
  · rw [List.pairwise_flatMap]
    refine ⟨fun j _ => ?_, ?_⟩
    · rw [List.pairwise_map]
      apply List.Pairwise.imp _ (List.nodup_iff_pairwise_ne.1 (forRange_nodup _ _))
      intro a c h e
      injection e with e1; exact h e1
    · apply List.Pairwise.imp _ (List.nodup_iff_pairwise_ne.1 (forRange_nodup _ _))
      intro a c h x hx y hy e
      rw [List.mem_map] at hx hy
      obtain ⟨i, _, rfl⟩ := hx
      obtain ⟨i', _, rfl⟩ := hy
      injection e with _ e2; exact h e2
  · apply List.Pairwise.imp _ (List.nodup_iff_pairwise_ne.1 (forRange_nodup _ _))
    intro a c h x hx y hy e
    simp only [List.mem_flatMap, List.mem_map] at hx hy
    obtain ⟨j, _, i, _, rfl⟩ := hx
    obtain ⟨j', _, i', _, rfl⟩ := hy
    injection e with _ _ e3; exact h e3

end F3D
