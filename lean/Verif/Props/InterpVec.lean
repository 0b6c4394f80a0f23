import Verif.Model.InterpVec
import Verif.Props.Interp

/-!
# C102: interpolating a vector field is interpolating its components
-/

namespace F3D.Props
open F3D

/-! ## Specification -/

/-- A component of a vector. -/
inductive Axis
  | x
  | y
  | z
deriving DecidableEq

/-- The component of a vector along an axis. -/
def Axis.of : Axis → V3q → ℚ
  | .x, v => v.x
  | .y, v => v.y
  | .z, v => v.z

/-- The scalar field of one component of a vector field. -/
def component (a : Axis) (rd : V3i → Option V3q) : V3i → Option ℚ := fun p => (rd p).map a.of

/-! ## Proofs -/

theorem add_of (a : Axis) (u v : V3q) : a.of (InterpVec.add u v) = a.of u + a.of v := by cases a <;> rfl

theorem minus_of (a : Axis) (u v : V3q) : a.of (InterpVec.minus u v) = a.of u - a.of v := by cases a <;> rfl

theorem scaled_of (a : Axis) (s : ℚ) (u : V3q) : a.of (InterpVec.scaled s u) = s * a.of u := by
  cases a <;> simp [InterpVec.scaled, Axis.of, mul_comm]

theorem times_of (a : Axis) (s : ℚ) (u : V3q) : a.of (InterpVec.times u s) = s * a.of u := by
  cases a <;> simp [InterpVec.times, Axis.of, mul_comm]

theorem mono_of (a : Axis) (f1 f2 f3 f4 : V3q) (t : ℚ) :
    a.of (InterpVec.mono f1 f2 f3 f4 t) = Interp.mono (a.of f1) (a.of f2) (a.of f3) (a.of f4) t := by
  have key : ∀ a b c d : ℚ,
      ((InterpVec.flat (c - b) ((c - a) * (1 / 2)) ((d - b) * (1 / 2))).1 +
          (InterpVec.flat (c - b) ((c - a) * (1 / 2)) ((d - b) * (1 / 2))).2 - (c - b) * 2) * (t * t * t) +
        ((c - b) * 3 - (InterpVec.flat (c - b) ((c - a) * (1 / 2)) ((d - b) * (1 / 2))).1 * 2 -
          (InterpVec.flat (c - b) ((c - a) * (1 / 2)) ((d - b) * (1 / 2))).2) * (t * t) +
        (InterpVec.flat (c - b) ((c - a) * (1 / 2)) ((d - b) * (1 / 2))).1 * t + b =
      Interp.mono a b c d t := by
    intro a b c d
    unfold InterpVec.flat Interp.mono
    by_cases h : c - b = 0
    · simp only [if_pos h]; ring
    · simp only [if_neg h]; ring
  cases a
  · exact key ..
  · exact key ..
  · exact key ..

theorem tri_of (a : Axis) (rd : V3i → Option V3q) (c1 c2 : V3i) (f1 f2 : V3q) :
    (InterpVec.tri rd c1 c2 f1 f2).map a.of = Interp.tri (component a rd) c1 c2 f1 f2 := by
  unfold InterpVec.tri Interp.tri component
  simp only [Option.bind_eq_bind, Option.map_bind, Option.bind_map, Function.comp_def, Option.map_some,
    add_of, scaled_of]

theorem line4_of (a : Axis) (rd : Int → Option V3q) (m1 m p1 p2 : Int) (t : ℚ) :
    (InterpVec.line4 rd m1 m p1 p2 t).map a.of =
      Interp.line4 (fun i => (rd i).map a.of) m1 m p1 p2 t := by
  unfold InterpVec.line4 Interp.line4
  simp only [Option.bind_eq_bind, Option.map_bind, Option.bind_map, Function.comp_def, Option.map_some,
    mono_of]

theorem cubicLines_of (a : Axis) (lo hi : V3i) (rd : V3i → Option V3q) (c : V3i) (t : V3q) :
    (InterpVec.cubicLines lo hi rd c t).map a.of = Interp.cubicLines lo hi (component a rd) c t := by
  unfold InterpVec.cubicLines Interp.cubicLines component
  simp only [line4_of]

/-! ## C102 -/

/-- C102: each component of a sample of a vector field, taken by any of the linear or cubic interpolators, is the
sample of the scalar field of that component at the same place; and one is defined just when the other is. -/
theorem C102_by_components (a : Axis) (dw : Box3i) (rd : V3i → Option V3q) (p : V3q) :
    (InterpVec.linear dw rd p).map a.of = Interp.linear dw (component a rd) p ∧
    (InterpVec.linearGeneric dw rd p).map a.of = Interp.linearGeneric dw (component a rd) p ∧
    (InterpVec.cubic dw rd p).map a.of = Interp.cubic dw (component a rd) p :=
  ⟨tri_of .., tri_of .., cubicLines_of ..⟩

theorem component_is {dw : Box3i} {rd : V3i → Option V3q} {g : V3i → V3q}
    (hg : ∀ q, dw.contains q = true → rd q = some (g q)) (a : Axis) :
    FieldIs dw (component a rd) (fun q => a.of (g q)) := by
  intro q hq
  unfold component
  rw [hg q hq]
  rfl

theorem eq_of_components {o : Option V3q} {v : V3q} (h : ∀ a : Axis, o.map a.of = some (a.of v)) : o = some v := by
  have hx := h .x
  have hy := h .y
  have hz := h .z
  cases o with
  | none => simp at hx
  | some u =>
    simp only [Option.map_some, Option.some.injEq, Axis.of] at hx hy hz
    cases u; cases v
    simp_all

/-- C102: a linear sample of a vector field whose voxels in the window are defined is defined, is the value of a voxel
at its center, and each of its components is between any bounds of that component for the voxels near
the point. The generic interpolator gives the same. -/
theorem C102_linear (dw : Box3i) (h : dw.isEmpty = false) (rd : V3i → Option V3q) (g : V3i → V3q)
    (hg : ∀ q, dw.contains q = true → rd q = some (g q)) :
    (∀ q, dw.contains q = true → InterpVec.linear dw rd (center q) = some (g q)) ∧
    ∀ p, ∃ s, InterpVec.linear dw rd p = some s ∧ InterpVec.linearGeneric dw rd p = some s ∧
      ∀ (a : Axis) (lo hi : ℚ), (∀ q, Near dw p q → lo ≤ a.of (g q) ∧ a.of (g q) ≤ hi) →
        lo ≤ a.of s ∧ a.of s ≤ hi := by
  constructor
  · intro q hq
    refine eq_of_components fun a => ?_
    rw [(C102_by_components a dw rd _).1]
    exact C18_linear_exact_at_centers dw _ _ (component_is hg a) q hq
  · intro p
    have hs : ∀ a : Axis, ∃ s, Interp.linear dw (component a rd) p = some s := fun a =>
      let ⟨⟨s, e, _⟩, _⟩ := C18_linear_reads_window_only dw h _ _ _ (component_is hg a) (component_is hg a) p
      ⟨s, e⟩
    obtain ⟨sx, hx⟩ := hs .x
    obtain ⟨sy, hy⟩ := hs .y
    obtain ⟨sz, hz⟩ := hs .z
    have hc : ∀ a : Axis, Interp.linear dw (component a rd) p = some (a.of ⟨sx, sy, sz⟩) := by
      intro a; cases a
      · exact hx
      · exact hy
      · exact hz
    refine ⟨⟨sx, sy, sz⟩, eq_of_components fun a => ?_, eq_of_components fun a => ?_, fun a lo hi hb => ?_⟩
    · rw [(C102_by_components a dw rd p).1, hc a]
    · rw [(C102_by_components a dw rd p).2.1,
        (C18_linear_reads_window_only dw h _ _ _ (component_is hg a) (component_is hg a) p).2, hc a]
    · obtain ⟨s, e, b1, b2⟩ := C18_linear_in_range dw h _ _ (component_is hg a) p lo hi hb
      rw [hc a] at e
      cases e
      exact ⟨b1, b2⟩

/-- C102: a cubic sample of a vector field is defined, and is the value of a voxel at its center if its coordinates are
not negative. -/
theorem C102_cubic (dw : Box3i) (h : dw.isEmpty = false) (rd : V3i → Option V3q) (g : V3i → V3q)
    (hg : ∀ q, dw.contains q = true → rd q = some (g q)) :
    (∀ p, ∃ s, InterpVec.cubic dw rd p = some s) ∧
    ∀ q, dw.contains q = true → 0 ≤ q.x ∧ 0 ≤ q.y ∧ 0 ≤ q.z →
      InterpVec.cubic dw rd (center q) = some (g q) := by
  constructor
  · intro p
    obtain ⟨s, e, -⟩ := C21_cubic_reads_window_only dw h _ _ _ (component_is hg .x) (component_is hg .x) p
    rw [← (C102_by_components .x dw rd p).2.2] at e
    cases hc : InterpVec.cubic dw rd p with
    | none => rw [hc] at e; simp at e
    | some v => exact ⟨v, rfl⟩
  · intro q hq h0
    refine eq_of_components fun a => ?_
    rw [(C102_by_components a dw rd _).2.2]
    exact C21_cubic_exact_at_centers dw _ _ (component_is hg a) q hq h0

/-- A linear map of vectors, by its rows. -/
def mapVec (r1 r2 r3 : V3q) (v : V3q) : V3q :=
  ⟨r1.x * v.x + r1.y * v.y + r1.z * v.z, r2.x * v.x + r2.y * v.y + r2.z * v.z,
    r3.x * v.x + r3.y * v.y + r3.z * v.z⟩

/-- C102: turning or scaling the vectors of a field turns or scales its linear samples in the same way: it does not matter
in which coordinates a vector field is stored. -/
theorem C102_linear_map (r1 r2 r3 : V3q) (dw : Box3i) (rd : V3i → Option V3q) (p : V3q) :
    InterpVec.linear dw (fun q => (rd q).map (mapVec r1 r2 r3)) p =
      (InterpVec.linear dw rd p).map (mapVec r1 r2 r3) ∧
    InterpVec.linearGeneric dw (fun q => (rd q).map (mapVec r1 r2 r3)) p =
      (InterpVec.linearGeneric dw rd p).map (mapVec r1 r2 r3) := by
  have k : ∀ c1 c2 f1 f2, InterpVec.tri (fun q => (rd q).map (mapVec r1 r2 r3)) c1 c2 f1 f2 =
      (InterpVec.tri rd c1 c2 f1 f2).map (mapVec r1 r2 r3) := by
    intro c1 c2 f1 f2
    unfold InterpVec.tri
    simp only [Option.bind_eq_bind, Option.map_bind, Option.bind_map, Function.comp_def, Option.map_some]
    repeat (congr 1; funext _)
    simp only [InterpVec.add, InterpVec.scaled, mapVec, Option.some.injEq, V3q.mk.injEq]
    refine ⟨?_, ?_, ?_⟩ <;> ring
  exact ⟨k .., k ..⟩

/-- Vectors along a row. -/
def vecRow (l : List V3q) : V3i → Option V3q := fun p => if 0 ≤ p.x then l[p.x.toNat]? else none

/-- C102 does not extend to the cubic interpolators: a component that is equal at two voxels is flattened by itself, so
the samples depend on the coordinates in which the vectors are stored. -/
theorem C102_cubic_not_linear :
    let dw : Box3i := ⟨⟨0, 0, 0⟩, ⟨3, 0, 0⟩⟩
    let l : List V3q := [⟨-10, 0, 0⟩, ⟨0, 0, 0⟩, ⟨0, 1, 0⟩, ⟨0, 1, 0⟩]
    let m := mapVec ⟨1, 1, 0⟩ ⟨1, -1, 0⟩ ⟨0, 0, 1⟩
    InterpVec.cubic dw (vecRow (l.map m)) ⟨2, 1 / 2, 1 / 2⟩ ≠
      (InterpVec.cubic dw (vecRow l) ⟨2, 1 / 2, 1 / 2⟩).map m := by
  decide +kernel

example : ∀ q, (⟨⟨0, 0, 0⟩, ⟨1, 0, 0⟩⟩ : Box3i).contains q = true →
    vecRow [⟨1, 2, 3⟩, ⟨4, 5, 6⟩] q = some (if q.x = 0 then ⟨1, 2, 3⟩ else ⟨4, 5, 6⟩) := by
  intro q hq
  rw [Box3i.contains_iff] at hq
  simp only at hq
  have : q.x = 0 ∨ q.x = 1 := by omega
  rcases this with h | h <;> simp [vecRow, h]

end F3D.Props
