import Verif.Model.MacUtil
import Verif.Props.Mac
import Verif.Proofs.Xform
import Mathlib.Tactic.Ring
import Mathlib.Tactic.Linarith

/-!
# C62: conversion between MAC and cell-centred fields
-/

namespace F3D.Props
open F3D MacUtil

/-! ## Specification -/

/-- A MAC field as a user can have it: just constructed, or sized and then written to. -/
def MacMade (f : Mac) : Prop :=
  f = Mac.fresh ∨ ∃ (f₀ : Mac) (e dw : Box3i) (g : Mac) (ops : List MacOp), f₀.setSize e dw = some g ∧ (∀ op ∈ ops, macAllowed dw op) ∧ macRun g ops = some f

/-- What a face should hold for the cell values `g`: at the two ends of its axis the value of the only cell next to
it, elsewhere the mean of the two cells. -/
def faceOf (d : Box3i) (g : V3i → V3q) : MacComp → V3i → Rat
  | .u, p => if p.x = d.min.x then (g p).x else if p.x = d.max.x + 1 then (g ⟨d.max.x, p.y, p.z⟩).x
      else ((g p).x + (g ⟨p.x - 1, p.y, p.z⟩).x) / 2
  | .v, p => if p.y = d.min.y then (g p).y else if p.y = d.max.y + 1 then (g ⟨p.x, d.max.y, p.z⟩).y
      else ((g p).y + (g ⟨p.x, p.y - 1, p.z⟩).y) / 2
  | .w, p => if p.z = d.min.z then (g p).z else if p.z = d.max.z + 1 then (g ⟨p.x, p.y, d.max.z⟩).z
      else ((g p).z + (g ⟨p.x, p.y, p.z - 1⟩).z) / 2

/-- What a cell should hold for the face values `m`: the means of opposite faces. -/
def cellOf (m : Faces) (p : V3i) : V3q :=
  ⟨(m .u p + m .u ⟨p.x + 1, p.y, p.z⟩) / 2, (m .v p + m .v ⟨p.x, p.y + 1, p.z⟩) / 2,
   (m .w p + m .w ⟨p.x, p.y, p.z + 1⟩) / 2⟩

/-- A vector turned by a matrix (which has no translation). -/
def turned (m : Option M44) (v : V3q) : V3q :=
  match m with
  | none => v
  | some m => m.multDir v

/-! ## Lemmas -/

theorem mac_made_wf (f : Mac) (h : MacMade f) (hne : f.dw.isEmpty = false) : f.WF := by
  rcases h with rfl | ⟨f₀, e, dw, g, ops, hs, hok, hr⟩
  · exact absurd hne (by decide)
  · obtain ⟨wf, fd, _⟩ := Mac.setSize_wf hs
    obtain ⟨k, hk, kwf, _⟩ := mac_run_refines ops g (fun c p => (g.face c p).getD 0) wf (by
      intro c p hp
      obtain ⟨x, hx⟩ := Mac.face_isSome wf (isFace_iff.mp hp)
      simp [hx]) (by rw [fd]; exact hok)
    rw [hr] at hk
    injection hk with hk
    rw [hk]
    exact kwf

theorem macRun_snoc (op : MacOp) (ops : List MacOp) : ∀ f : Mac,
    macRun f (ops ++ [op]) = (macRun f ops).bind fun g => macStep g op := by
  induction ops with
  | nil => intro f; simp only [List.nil_append, macRun, Option.bind_some]; cases macStep f op <;> rfl
  | cons o ops ih =>
    intro f
    simp only [List.cons_append, macRun]
    cases macStep f o with
    | none => rfl
    | some g => exact ih g

theorem made_write (f g : Mac) (h : MacMade f) (hne : f.dw.isEmpty = false) (c : MacComp) (p : V3i) (x : Rat)
    (hp : IsFace f.dw c p) (hw : f.write c p x = some g) : MacMade g := by
  rcases h with rfl | ⟨f₀, e, dw, k, ops, hs, hok, hr⟩
  · exact absurd hne (by decide)
  · obtain ⟨wf, fd, _⟩ := Mac.setSize_wf hs
    obtain ⟨k', hk, _, kd, _⟩ := mac_run_refines ops k (fun c p => (k.face c p).getD 0) wf (by
      intro c p hp
      obtain ⟨x, hx⟩ := Mac.face_isSome wf (isFace_iff.mp hp)
      simp [hx]) (by rw [fd]; exact hok)
    rw [hr] at hk
    injection hk with hk
    subst hk
    refine Or.inr ⟨f₀, e, dw, k, ops ++ [.write c p x], hs, ?_, ?_⟩
    · intro op ho
      rw [List.mem_append, List.mem_singleton] at ho
      rcases ho with ho | rfl
      · exact hok op ho
      · show IsFace dw c p
        rw [← fd, ← kd]; exact hp
    · rw [macRun_snoc, hr, Option.bind_some]
      exact hw

theorem run_made (L : List Assign) : ∀ f g : Mac, MacMade f → f.dw.isEmpty = false →
    (∀ a ∈ L, IsFace f.dw a.comp a.pos) → L.foldlM exec f = some g → MacMade g := by
  induction L with
  | nil => intro f g h _ _ hr; simp at hr; subst hr; exact h
  | cons a L ih =>
    intro f g h hne hL hr
    rw [List.foldlM_cons] at hr
    simp only [Option.bind_eq_bind, Option.bind_eq_some_iff, exec] at hr
    obtain ⟨k, ⟨x, _, hk⟩, hr⟩ := hr
    have hd : k.dw = f.dw := by
      obtain ⟨k', hk', _, kd, _⟩ := Mac.write_spec (mac_made_wf f h hne) (isFace_iff.mp (hL a List.mem_cons_self)) x
      rw [hk] at hk'
      injection hk' with hk'
      rw [hk']; exact kd
    exact ih k g (made_write f k h hne _ _ _ (hL a List.mem_cons_self) hk) (by rw [hd]; exact hne)
      (fun b hb => by rw [hd]; exact hL b (List.mem_cons_of_mem _ hb)) hr

theorem run_assigns (spec : Faces) (L : List Assign) : ∀ f : Mac, f.WF →
    (∀ a ∈ L, IsFace f.dw a.comp a.pos ∧ a.val = some (spec a.comp a.pos)) →
    ∃ g, L.foldlM exec f = some g ∧ g.WF ∧ g.dw = f.dw ∧ g.extents = f.extents ∧
      ∀ c p, IsFace f.dw c p → ((∃ a ∈ L, a.comp = c ∧ a.pos = p) ∨ f.face c p = some (spec c p)) →
        g.face c p = some (spec c p) := by
  induction L with
  | nil =>
    intro f wf _
    refine ⟨f, rfl, wf, rfl, rfl, ?_⟩
    rintro c p _ (⟨a, ha, _⟩ | h)
    · simp at ha
    · exact h
  | cons a L ih =>
    intro f wf h
    obtain ⟨ha1, ha2⟩ := h a List.mem_cons_self
    obtain ⟨g, hg, gwf, gd, ge, gf⟩ := Mac.write_spec wf (isFace_iff.mp ha1) (spec a.comp a.pos)
    obtain ⟨k, hk, kwf, kd, ke, kf⟩ := ih g gwf (fun b hb => by rw [gd]; exact h b (List.mem_cons_of_mem _ hb))
    refine ⟨k, ?_, kwf, by rw [kd, gd], by rw [ke, ge], ?_⟩
    · rw [List.foldlM_cons]
      have : exec f a = some g := by simp only [exec, ha2, Option.bind_some, hg]
      rw [this]
      exact hk
    · intro c p hp hc
      apply kf c p (by rw [gd]; exact hp)
      rw [gf c p (isFace_iff.mp hp)]
      by_cases hcp : c = a.comp ∧ p = a.pos
      · right; rw [if_pos hcp, hcp.1, hcp.2]
      · rw [if_neg hcp]
        rcases hc with ⟨b, hb, hb1, hb2⟩ | hc
        · rw [List.mem_cons] at hb
          rcases hb with rfl | hb
          · exact absurd ⟨hb1.symm, hb2.symm⟩ hcp
          · exact Or.inl ⟨b, hb, hb1, hb2⟩
        · exact Or.inr hc

theorem mean_eq (a b : Rat) : mean (some a) (some b) = some ((a + b) / 2) := by
  simp only [mean, Option.bind_eq_bind, Option.bind_some, Option.some.injEq]; ring

theorem assigns_sound (d : Box3i) (hd : d.isEmpty = false) (src : V3i → Option V3q) (g : V3i → V3q)
    (hs : ∀ p, d.contains p = true → src p = some (g p)) :
    ∀ a ∈ assigns d src, IsFace d a.comp a.pos ∧ a.val = some (faceOf d g a.comp a.pos) := by
  have hd' := Box3i.isEmpty_false.mp hd
  have hs' : ∀ x y z : Int, (d.min.x ≤ x ∧ x ≤ d.max.x) → (d.min.y ≤ y ∧ y ≤ d.max.y) → (d.min.z ≤ z ∧ z ≤ d.max.z) →
      src ⟨x, y, z⟩ = some (g ⟨x, y, z⟩) := fun x y z hx hy hz => hs _ (Box3i.contains_iff.mpr ⟨hx, hy, hz⟩)
  intro a ha
  simp only [assigns, List.mem_append, uEdges, vEdges, wEdges, uInner, vInner, wInner, List.mem_flatMap, List.mem_map,
    mem_forRange, List.mem_cons, List.not_mem_nil, or_false] at ha
  rcases ha with ((((⟨k, hk, j, hj, rfl | rfl⟩ | ⟨k, hk, i, hi, rfl | rfl⟩) | ⟨j, hj, i, hi, rfl | rfl⟩) |
    ⟨k, hk, j, hj, i, hi, rfl⟩) | ⟨k, hk, j, hj, i, hi, rfl⟩) | ⟨k, hk, j, hj, i, hi, rfl⟩
  · refine ⟨by simp [IsFace]; omega, ?_⟩
    simp only [hs' _ _ _ ⟨Int.le_refl _, hd'.1⟩ hj hk, Option.map_some, faceOf, if_true]
  · refine ⟨by simp [IsFace]; omega, ?_⟩
    simp only [hs' _ _ _ ⟨hd'.1, Int.le_refl _⟩ hj hk, Option.map_some, faceOf]
    rw [if_neg (by omega), if_pos trivial]
  · refine ⟨by simp [IsFace]; omega, ?_⟩
    simp only [hs' _ _ _ hi ⟨Int.le_refl _, hd'.2.1⟩ hk, Option.map_some, faceOf, if_true]
  · refine ⟨by simp [IsFace]; omega, ?_⟩
    simp only [hs' _ _ _ hi ⟨hd'.2.1, Int.le_refl _⟩ hk, Option.map_some, faceOf]
    rw [if_neg (by omega), if_pos trivial]
  · refine ⟨by simp [IsFace]; omega, ?_⟩
    simp only [hs' _ _ _ hi hj ⟨Int.le_refl _, hd'.2.2⟩, Option.map_some, faceOf, if_true]
  · refine ⟨by simp [IsFace]; omega, ?_⟩
    simp only [hs' _ _ _ hi hj ⟨hd'.2.2, Int.le_refl _⟩, Option.map_some, faceOf]
    rw [if_neg (by omega), if_pos trivial]
  · refine ⟨by simp [IsFace]; omega, ?_⟩
    simp only [hs' i j k (by omega) hj hk, hs' (i - 1) j k (by omega) hj hk, Option.map_some, faceOf, mean_eq]
    rw [if_neg (by omega), if_neg (by omega)]
  · refine ⟨by simp [IsFace]; omega, ?_⟩
    simp only [hs' i j k hi (by omega) hk, hs' i (j - 1) k hi (by omega) hk, Option.map_some, faceOf, mean_eq]
    rw [if_neg (by omega), if_neg (by omega)]
  · refine ⟨by simp [IsFace]; omega, ?_⟩
    simp only [hs' i j k hi hj (by omega), hs' i j (k - 1) hi hj (by omega), Option.map_some, faceOf, mean_eq]
    rw [if_neg (by omega), if_neg (by omega)]

theorem assigns_complete (d : Box3i) (src : V3i → Option V3q) (c : MacComp) (p : V3i) (h : IsFace d c p) :
    ∃ a ∈ assigns d src, a.comp = c ∧ a.pos = p := by
  obtain ⟨x, y, z⟩ := p
  have e0 : ∀ a, a ∈ uEdges d src ∨ a ∈ vEdges d src ∨ a ∈ wEdges d src ∨ a ∈ uInner d src ∨ a ∈ vInner d src ∨
      a ∈ wInner d src → a ∈ assigns d src := by
    intro a h
    simp only [assigns, List.mem_append]
    rcases h with h | h | h | h | h | h <;> simp [h]
  have two : ∀ (a b c : Assign), (c = a ∨ c = b) → c ∈ [a, b] := by
    intro a b c h; simpa using h
  cases c <;> simp [IsFace] at h
  · by_cases h1 : x = d.min.x
    · subst h1
      exact ⟨_, e0 _ (Or.inl (List.mem_flatMap.2 ⟨z, (mem_forRange _ _ _).2 h.2.2, List.mem_flatMap.2
        ⟨y, (mem_forRange _ _ _).2 h.2.1, two _ _ _ (Or.inl rfl)⟩⟩)), rfl, rfl⟩
    · by_cases h2 : x = d.max.x + 1
      · subst h2
        exact ⟨_, e0 _ (Or.inl (List.mem_flatMap.2 ⟨z, (mem_forRange _ _ _).2 h.2.2, List.mem_flatMap.2
          ⟨y, (mem_forRange _ _ _).2 h.2.1, two _ _ _ (Or.inr rfl)⟩⟩)), rfl, rfl⟩
      · exact ⟨_, e0 _ (Or.inr (Or.inr (Or.inr (Or.inl (List.mem_flatMap.2 ⟨z, (mem_forRange _ _ _).2 h.2.2,
          List.mem_flatMap.2 ⟨y, (mem_forRange _ _ _).2 h.2.1, List.mem_map.2 ⟨x, (mem_forRange _ _ _).2 (by omega),
          rfl⟩⟩⟩))))), rfl, rfl⟩
  · by_cases h1 : y = d.min.y
    · subst h1
      exact ⟨_, e0 _ (Or.inr (Or.inl (List.mem_flatMap.2 ⟨z, (mem_forRange _ _ _).2 h.2.2, List.mem_flatMap.2
        ⟨x, (mem_forRange _ _ _).2 h.1, two _ _ _ (Or.inl rfl)⟩⟩))), rfl, rfl⟩
    · by_cases h2 : y = d.max.y + 1
      · subst h2
        exact ⟨_, e0 _ (Or.inr (Or.inl (List.mem_flatMap.2 ⟨z, (mem_forRange _ _ _).2 h.2.2, List.mem_flatMap.2
          ⟨x, (mem_forRange _ _ _).2 h.1, two _ _ _ (Or.inr rfl)⟩⟩))), rfl, rfl⟩
      · exact ⟨_, e0 _ (Or.inr (Or.inr (Or.inr (Or.inr (Or.inl (List.mem_flatMap.2 ⟨z, (mem_forRange _ _ _).2 h.2.2,
          List.mem_flatMap.2 ⟨y, (mem_forRange _ _ _).2 (by omega), List.mem_map.2 ⟨x, (mem_forRange _ _ _).2 h.1,
          rfl⟩⟩⟩)))))), rfl, rfl⟩
  · by_cases h1 : z = d.min.z
    · subst h1
      exact ⟨_, e0 _ (Or.inr (Or.inr (Or.inl (List.mem_flatMap.2 ⟨y, (mem_forRange _ _ _).2 h.2.1, List.mem_flatMap.2
        ⟨x, (mem_forRange _ _ _).2 h.1, two _ _ _ (Or.inl rfl)⟩⟩)))), rfl, rfl⟩
    · by_cases h2 : z = d.max.z + 1
      · subst h2
        exact ⟨_, e0 _ (Or.inr (Or.inr (Or.inl (List.mem_flatMap.2 ⟨y, (mem_forRange _ _ _).2 h.2.1, List.mem_flatMap.2
          ⟨x, (mem_forRange _ _ _).2 h.1, two _ _ _ (Or.inr rfl)⟩⟩)))), rfl, rfl⟩
      · exact ⟨_, e0 _ (Or.inr (Or.inr (Or.inr (Or.inr (Or.inr (List.mem_flatMap.2 ⟨z, (mem_forRange _ _ _).2 (by omega),
          List.mem_flatMap.2 ⟨y, (mem_forRange _ _ _).2 h.2.1, List.mem_map.2 ⟨x, (mem_forRange _ _ _).2 h.1,
          rfl⟩⟩⟩)))))), rfl, rfl⟩

theorem turn_toSim (r : Option Rotation) (v : V3q) : turn (toSim r) v = some (turned (toSim r) v) := by
  cases r with
  | none => rfl
  | some r => simp [turn, toSim, turned, rotate, M44.multVec, M44.multDir, M44.rowMul]

theorem turn_toWorld (r : Option Rotation) (v : V3q) : turn (toWorld r) v = some (turned (toWorld r) v) := by
  cases r with
  | none => rfl
  | some r =>
    simp only [toWorld]
    split
    · rfl
    · simp [turn, turned, rotate, M44.multVec, M44.multDir, M44.rowMul]

/-! ## Theorems -/

/-- C62: converting any cell-centred field with voxels to any MAC field resizes the MAC field if necessary, never
writes outside of its buffers, and sets every face to what it should be for the (rotated) cell values, whatever the
MAC field held before. -/
theorem C62_cells_to_faces (cc : Cells) (hne : cc.dw.isEmpty = false) (g : V3i → V3q)
    (hg : ∀ p, cc.dw.contains p = true → cc.value p = some (g p)) (rot : Option Rotation) (mac : Mac)
    (hm : MacMade mac) :
    ∃ out, cellsToMac cc rot mac = some out ∧ MacMade out ∧ out.dw = cc.dw ∧ out.extents = cc.extents ∧
      ∀ c p, IsFace cc.dw c p → out.face c p = some (faceOf cc.dw (fun q => turned (toSim rot) (g q)) c p) := by
  have h1 : ∃ m1, matchMac cc mac = some m1 ∧ m1.WF ∧ MacMade m1 ∧ m1.dw = cc.dw ∧ m1.extents = cc.extents := by
    unfold matchMac
    by_cases h : mac.extents ≠ cc.extents ∨ mac.dw ≠ cc.dw
    · rw [if_pos h]
      have hne' := Box3i.isEmpty_false.mp hne
      obtain ⟨f, hf, wf, fd, fe, _⟩ := Mac.setSize_spec mac cc.extents cc.dw (by
        simp only [Box3i.res, V3i.add_x, V3i.add_y, V3i.add_z, V3i.sub_x, V3i.sub_y, V3i.sub_z,
          V3i.all_x, V3i.all_y, V3i.all_z]
        omega)
      exact ⟨f, hf, wf, Or.inr ⟨_, _, _, f, [], hf, by simp, rfl⟩, fd, fe⟩
    · rw [if_neg h]
      have h' : mac.extents = cc.extents ∧ mac.dw = cc.dw := by
        constructor
        · exact Classical.byContradiction fun hh => h (Or.inl hh)
        · exact Classical.byContradiction fun hh => h (Or.inr hh)
      exact ⟨mac, rfl, mac_made_wf mac hm (by rw [h'.2]; exact hne), hm, h'.2, h'.1⟩
  obtain ⟨m1, e1, wf, mm, md, me⟩ := h1
  have hsrc : ∀ p, cc.dw.contains p = true → source cc rot p = some (turned (toSim rot) (g p)) := by
    intro p hp
    simp only [source, hg p hp, Option.bind_some, turn_toSim]
  obtain ⟨out, ho, _, od, oe, of⟩ := run_assigns (faceOf cc.dw (fun q => turned (toSim rot) (g q)))
    (assigns cc.dw (source cc rot)) m1 wf (by rw [md]; exact assigns_sound cc.dw hne _ _ hsrc)
  refine ⟨out, ?_, run_made _ m1 out mm (by rw [md]; exact hne) (fun a ha => ?_) ho, by rw [od, md],
    by rw [oe, me], ?_⟩
  rotate_left
  · rw [md]; exact (assigns_sound cc.dw hne _ _ hsrc a ha).1
  rotate_left
  · simp only [cellsToMac, e1, Option.bind_eq_bind, Option.bind_some, md]
    exact ho
  · intro c p hp
    exact of c p (by rw [md]; exact hp) (Or.inl (assigns_complete _ _ c p hp))

/-- A dense field as a user can have it: sized and then written to (or not sized, and then without windows). -/
def DenseMade (f : Dense V3q) : Prop := f.dw.isEmpty = false → f.WF

theorem fill_spec (L : List V3i) (g : V3i → V3q) (mac : Mac) (rot : Option Rotation) : ∀ f : Dense V3q, f.WF →
    (∀ p ∈ L, f.dw.contains p = true ∧ (mac.value p).bind (turn (toWorld rot)) = some (g p)) →
    ∃ k, L.foldlM (fun cc p => do
        let v ← mac.value p
        let v ← turn (toWorld rot) v
        cc.write p v) f = some k ∧ k.WF ∧ k.dw = f.dw ∧ k.extents = f.extents ∧
      ∀ p, f.dw.contains p = true → (p ∈ L ∨ f.value p = some (g p)) → k.value p = some (g p) := by
  induction L with
  | nil =>
    intro f wf _
    refine ⟨f, rfl, wf, rfl, rfl, ?_⟩
    rintro p _ (h | h)
    · simp at h
    · exact h
  | cons q L ih =>
    intro f wf h
    obtain ⟨hq1, hq2⟩ := h q List.mem_cons_self
    obtain ⟨k, hk, kwf, kd, ke, kv⟩ := ih { f with data := f.data.set (f.dw.indexOf q) (g q) } (Dense.wf_write wf _ _)
      (fun p hp => h p (List.mem_cons_of_mem _ hp))
    refine ⟨k, ?_, kwf, kd, ke, ?_⟩
    · rw [List.foldlM_cons]
      simp only [Option.bind_eq_bind]
      cases hv : mac.value q with
      | none => rw [hv] at hq2; simp at hq2
      | some v =>
        rw [hv] at hq2
        simp only [Option.bind_some] at hq2 ⊢
        rw [hq2]
        simp only [Option.bind_some, Dense.write_eq wf hq1]
        exact hk
    · intro p hp hc
      apply kv p hp
      rw [Dense.value_write wf hq1 hp]
      by_cases hpq : p = q
      · right; rw [if_pos hpq, hpq]
      · rw [if_neg hpq]
        rcases hc with hc | hc
        · rw [List.mem_cons] at hc
          exact Or.inl (hc.resolve_left hpq)
        · exact Or.inr hc

/-- C62: converting any MAC field with voxels to any dense field resizes it if necessary and sets every voxel to the
(rotated) means of opposite faces. -/
theorem C62_faces_to_cells (mac : Mac) (hm : MacMade mac) (hne : mac.dw.isEmpty = false) (m : Faces)
    (hh : MacHolds mac m) (rot : Option Rotation) (cc : Dense V3q) (hc : DenseMade cc) (dflt : V3q) :
    ∃ out, macToCells mac rot cc dflt = some out ∧ out.dw = mac.dw ∧ out.extents = mac.extents ∧
      ∀ p, mac.dw.contains p = true → out.value p = some (turned (toWorld rot) (cellOf m p)) := by
  have wfm := mac_made_wf mac hm hne
  have hv : ∀ p, mac.dw.contains p = true → mac.value p = some (cellOf m p) := by
    intro p hp
    rw [Box3i.contains_iff] at hp
    have half : (1 : Rat) / 2 = 2⁻¹ := by rw [Rat.div_def, Rat.one_mul]
    have h1 := hh .u p (by simp [IsFace]; omega)
    have h2 := hh .u ⟨p.x + 1, p.y, p.z⟩ (by simp [IsFace]; omega)
    have h3 := hh .v p (by simp [IsFace]; omega)
    have h4 := hh .v ⟨p.x, p.y + 1, p.z⟩ (by simp [IsFace]; omega)
    have h5 := hh .w p (by simp [IsFace]; omega)
    have h6 := hh .w ⟨p.x, p.y, p.z + 1⟩ (by simp [IsFace]; omega)
    simp only [Mac.value, Mac.uCenter, Mac.vCenter, Mac.wCenter, h1, h2, h3, h4, h5, h6, half, cellOf]
    simp only [Rat.div_def]
    rfl
  have h1 : ∃ c1, matchCells mac cc dflt = some c1 ∧ c1.WF ∧ c1.dw = mac.dw ∧ c1.extents = mac.extents := by
    unfold matchCells
    by_cases h : cc.extents ≠ mac.extents ∨ cc.dw ≠ mac.dw
    · rw [if_pos h]
      obtain ⟨f, hf, wf, fd, fe, _⟩ := Dense.setSize_ok (dflt := dflt) (e := mac.extents) hne
      rw [hf]
      exact ⟨f, rfl, wf, fd, fe⟩
    · rw [if_neg h]
      have h' : cc.extents = mac.extents ∧ cc.dw = mac.dw := by
        constructor
        · exact Classical.byContradiction fun hh => h (Or.inl hh)
        · exact Classical.byContradiction fun hh => h (Or.inr hh)
      exact ⟨cc, rfl, hc (by rw [h'.2]; exact hne), h'.2, h'.1⟩
  obtain ⟨c1, e1, wf, cd, ce⟩ := h1
  obtain ⟨out, ho, _, od, oe, ov⟩ := fill_spec (boxLoop c1.dw) (fun p => turned (toWorld rot) (cellOf m p)) mac rot c1 wf
    (by
      intro p hp
      rw [mem_boxLoop] at hp
      refine ⟨hp, ?_⟩
      rw [cd] at hp
      rw [hv p hp, Option.bind_some, turn_toWorld])
  refine ⟨out, ?_, by rw [od, cd], by rw [oe, ce], ?_⟩
  · unfold macToCells
    simp only [e1, Option.bind_eq_bind, Option.bind_some]
    simp only [Option.bind_eq_bind] at ho
    exact ho
  · intro p hp
    exact ov p (by rw [cd]; exact hp) (Or.inl ((mem_boxLoop _ _).2 (by rw [cd]; exact hp)))

/-- One number of a cell field converted to faces and back: the mean of the two faces of a cell. -/
def smooth (lo hi x : Int) (f : Int → Rat) : Rat :=
  ((if x = lo then f x else (f x + f (x - 1)) / 2) + (if x = hi then f x else (f (x + 1) + f x) / 2)) / 2

/-- C62: without a rotation, converting a cell-centred field to a MAC field and back smooths every component along its
own axis, leaving it unchanged where it is constant along the axis. -/
theorem C62_round_trip (cc : Cells) (hne : cc.dw.isEmpty = false) (g : V3i → V3q)
    (hg : ∀ p, cc.dw.contains p = true → cc.value p = some (g p)) (mac : Mac) (hm : MacMade mac)
    (back : Dense V3q) (hb : DenseMade back) (dflt : V3q) :
    ∃ m out, cellsToMac cc none mac = some m ∧ macToCells m none back dflt = some out ∧ out.dw = cc.dw ∧
      ∀ p, cc.dw.contains p = true → out.value p = some
        ⟨smooth cc.dw.min.x cc.dw.max.x p.x fun i => (g ⟨i, p.y, p.z⟩).x,
         smooth cc.dw.min.y cc.dw.max.y p.y fun j => (g ⟨p.x, j, p.z⟩).y,
         smooth cc.dw.min.z cc.dw.max.z p.z fun k => (g ⟨p.x, p.y, k⟩).z⟩ := by
  obtain ⟨m, h1, h2, h3, h4, hw⟩ : ∃ m, cellsToMac cc none mac = some m ∧ m.dw = cc.dw ∧ m.extents = cc.extents ∧
      MacHolds m (faceOf cc.dw g) ∧ MacMade m := by
    obtain ⟨m, h1, hw, h2, h3, h4⟩ := C62_cells_to_faces cc hne g hg none mac hm
    refine ⟨m, h1, h2, h3, fun c p hp => ?_, hw⟩
    rw [h4 c p (by rw [← h2]; exact hp)]; rfl
  obtain ⟨out, o1, o2, _, o4⟩ := C62_faces_to_cells m hw (by rw [h2]; exact hne) _ h4 none back hb dflt
  refine ⟨m, out, h1, o1, by rw [o2, h2], fun p hp => ?_⟩
  rw [o4 p (by rw [h2]; exact hp)]
  rw [Box3i.contains_iff] at hp
  obtain ⟨x, y, z⟩ := p
  simp only at hp
  have key : ∀ (lo hi x : Int) (f : Int → Rat) (fh : Rat), lo ≤ x → x ≤ hi → (x = hi → fh = f x) →
      ((if x = lo then f x else if x = hi + 1 then fh else (f x + f (x - 1)) / 2) +
        (if x + 1 = lo then f (x + 1) else if x + 1 = hi + 1 then fh else (f (x + 1) + f (x + 1 - 1)) / 2)) / 2 =
      smooth lo hi x f := by
    intro lo hi x f fh h1 h2 h3
    unfold smooth
    rw [if_neg (by omega : ¬ x + 1 = lo), if_neg (by omega : ¬ x = hi + 1)]
    by_cases h : x = hi
    · rw [if_pos (by omega : x + 1 = hi + 1), if_pos h, h3 h]
    · rw [if_neg (by omega : ¬ x + 1 = hi + 1), if_neg h, Int.add_sub_cancel]
  simp only [turned, toWorld, cellOf, faceOf, Option.some.injEq]
  apply V3q.ext'
  · exact key _ _ x (fun i => (g ⟨i, y, z⟩).x) _ hp.1.1 hp.1.2 (fun h => by rw [h])
  · exact key _ _ y (fun j => (g ⟨x, j, z⟩).y) _ hp.2.1.1 hp.2.1.2 (fun h => by rw [h])
  · exact key _ _ z (fun k => (g ⟨x, y, k⟩).z) _ hp.2.2.1 hp.2.2.2 (fun h => by rw [h])

/-- C62: converting a constant field there and back, with any rotation that is not considered tiny, turns the constant
by the two matrices in turn; without a rotation it is unchanged. -/
theorem C62_constant (cc : Cells) (hne : cc.dw.isEmpty = false) (v : V3q)
    (hg : ∀ p, cc.dw.contains p = true → cc.value p = some v) (rot : Option Rotation) (mac : Mac) (hm : MacMade mac)
    (back : Dense V3q) (hb : DenseMade back) (dflt : V3q) :
    ∃ m out, cellsToMac cc rot mac = some m ∧ macToCells m rot back dflt = some out ∧ out.dw = cc.dw ∧
      (∀ p, cc.dw.contains p = true → out.value p = some (turned (toWorld rot) (turned (toSim rot) v))) ∧
      (rot = none → ∀ p, cc.dw.contains p = true → out.value p = some v) := by
  obtain ⟨m, h1, hw, h2, h3, h4⟩ := C62_cells_to_faces cc hne (fun _ => v) hg rot mac hm
  have hh : MacHolds m (fun c _ => V3q.get (turned (toSim rot) v) c) := by
    intro c p hp
    rw [h4 c p (by rw [← h2]; exact hp)]
    cases c <;> simp only [faceOf, V3q.get] <;> split <;> (try rfl) <;> split <;> (try rfl) <;>
      (simp only [Option.some.injEq]; ring)
  obtain ⟨out, o1, o2, _, o4⟩ := C62_faces_to_cells m hw (by rw [h2]; exact hne) _ hh rot back hb dflt
  have hall : ∀ p, cc.dw.contains p = true → out.value p = some (turned (toWorld rot) (turned (toSim rot) v)) := by
    intro p hp
    rw [o4 p (by rw [h2]; exact hp)]
    congr 2
    apply V3q.ext' <;> simp only [cellOf, V3q.get] <;> ring
  refine ⟨m, out, h1, o1, by rw [o2, h2], hall, fun hr p hp => ?_⟩
  rw [hall p hp, hr]
  rfl

/-- A proper angle. -/
def AngleOk (a : Angle) : Prop := a.c * a.c + a.s * a.s = 1

/-- No turn about this axis. -/
def AngleZero (a : Angle) : Prop := a.c = 1 ∧ a.s = 0

/-- C62: for a mapping rotated about one axis only, the two rotations cancel, so constants survive the round trip. -/
theorem C62_one_axis (r : Rot) (hx : AngleOk r.x) (hy : AngleOk r.y) (hz : AngleOk r.z)
    (h1 : (AngleZero r.x ∧ AngleZero r.y) ∨ (AngleZero r.y ∧ AngleZero r.z) ∨ (AngleZero r.x ∧ AngleZero r.z)) (v : V3q) :
    turned (toWorld (some ⟨r, false⟩)) (turned (toSim (some ⟨r, false⟩)) v) = v := by
  obtain ⟨⟨xc, xs⟩, ⟨yc, ys⟩, ⟨zc, zs⟩⟩ := r
  simp only [AngleOk, AngleZero] at *
  rcases h1 with ⟨⟨rfl, rfl⟩, rfl, rfl⟩ | ⟨⟨rfl, rfl⟩, rfl, rfl⟩ | ⟨⟨rfl, rfl⟩, rfl, rfl⟩
  · apply V3q.ext' <;> simp only [turned, toWorld, toSim, rotate, Rot.neg, Angle.neg, M44.multDir, M44.rowMul,
      Bool.false_eq_true, if_false]
    · linear_combination v.x * hz
    · linear_combination v.y * hz
    · ring
  · apply V3q.ext' <;> simp only [turned, toWorld, toSim, rotate, Rot.neg, Angle.neg, M44.multDir, M44.rowMul,
      Bool.false_eq_true, if_false]
    · ring
    · linear_combination v.y * hx
    · linear_combination v.z * hx
  · apply V3q.ext' <;> simp only [turned, toWorld, toSim, rotate, Rot.neg, Angle.neg, M44.multDir, M44.rowMul,
      Bool.false_eq_true, if_false]
    · linear_combination v.x * hy
    · ring
    · linear_combination v.z * hy

/-- C62: in general they do not: rotating by the negated angles in the same order of axes does not undo a rotation
about two axes. For this mapping the constant (1, 0, 0) comes back as another vector. -/
theorem C62_two_axes : ∃ r : Rot, AngleOk r.x ∧ AngleOk r.y ∧ AngleOk r.z ∧
    turned (toWorld (some ⟨r, false⟩)) (turned (toSim (some ⟨r, false⟩)) ⟨1, 0, 0⟩) ≠ ⟨1, 0, 0⟩ := by
  refine ⟨⟨⟨3 / 5, 4 / 5⟩, ⟨3 / 5, 4 / 5⟩, ⟨1, 0⟩⟩, ?_⟩
  unfold AngleOk
  decide +kernel

/-- The hypotheses are met: a field of two voxels, a fresh MAC field and a fresh target. -/
def twoCells : Cells :=
  ⟨⟨⟨0, 0, 0⟩, ⟨1, 0, 0⟩⟩, ⟨⟨0, 0, 0⟩, ⟨1, 0, 0⟩⟩, fun p => some ⟨p.x, 1, 2⟩⟩

example : twoCells.dw.isEmpty = false ∧ MacMade Mac.fresh ∧
    DenseMade ⟨⟨⟨0, 0, 0⟩, ⟨-1, -1, -1⟩⟩, ⟨⟨0, 0, 0⟩, ⟨-1, -1, -1⟩⟩, 0, 0, []⟩ :=
  ⟨by decide, Or.inl rfl, fun h => absurd h (by decide)⟩

example : (cellsToMac twoCells none Mac.fresh).map (fun m => [m.face .u ⟨0, 0, 0⟩, m.face .u ⟨1, 0, 0⟩,
    m.face .u ⟨2, 0, 0⟩]) = some [some 0, some (1 / 2), some 1] := by decide +kernel

end F3D.Props
