import Verif.Proofs.Dense
import Verif.Props.Iteration

/-!
# C01, C09 (dense), C11, C15 (dense): DenseField
-/

namespace F3D.Props
open F3D

/-! ## Specification: a voxel map with windows -/

/-- Operations of the public interface. -/
inductive DenseOp (α : Type) where
  | write (p : V3i) (v : α)
  | clear (v : α)
  | resize (extents dw : Box3i)

/-- The abstract field: its windows and a value per voxel. -/
structure VoxelMap (α : Type) where
  extents : Box3i
  dw : Box3i
  val : V3i → α

/-- What a user expects of each operation. -/
def VoxelMap.apply {α : Type} (dflt : α) (m : VoxelMap α) : DenseOp α → VoxelMap α
  | .write q v => { m with val := fun p => if p = q then v else m.val p }
  | .clear v => { m with val := fun _ => v }
  | .resize e w => ⟨e, w, fun _ => dflt⟩

/-- Preconditions of the documented interface: writes go to voxels of the current data window and
resizes ask for a window that is non-empty along each axis. -/
def VoxelMap.allowed {α : Type} (m : VoxelMap α) : DenseOp α → Prop
  | .write q _ => m.dw.contains q = true
  | .clear _ => True
  | .resize _ w => w.isEmpty = false

/-- All operations of a history are allowed when they are executed. -/
def VoxelMap.allAllowed {α : Type} (dflt : α) : VoxelMap α → List (DenseOp α) → Prop
  | _, [] => True
  | m, op :: ops => m.allowed op ∧ (m.apply dflt op).allAllowed dflt ops

/-- Running an operation on the model; `none` is undefined behaviour or an exception. -/
def denseStep {α : Type} (dflt : α) (f : Dense α) : DenseOp α → Option (Dense α)
  | .write q v => f.write q v
  | .clear v => some (f.clear v)
  | .resize e w => match Dense.setSize dflt e w with
    | .ok g => some g
    | .resizeException => none

def denseRun {α : Type} (dflt : α) : Dense α → List (DenseOp α) → Option (Dense α)
  | f, [] => some f
  | f, op :: ops => (denseStep dflt f op).bind (fun g => denseRun dflt g ops)

/-! ## C01 -/

theorem dense_run_refines {α : Type} (dflt : α) (ops : List (DenseOp α)) :
    ∀ (f : Dense α) (m : VoxelMap α), f.WF → f.dw = m.dw → f.extents = m.extents →
      (∀ p, m.dw.contains p = true → f.value p = some (m.val p)) → m.allAllowed dflt ops →
      ∃ g, denseRun dflt f ops = some g ∧
        let m' := ops.foldl (VoxelMap.apply dflt) m
        g.dw = m'.dw ∧ g.extents = m'.extents ∧
        ∀ p, m'.dw.contains p = true → g.value p = some (m'.val p) := by
  induction ops with
  | nil => intro f m _ h1 h2 h3 _; exact ⟨f, rfl, h1, h2, h3⟩
  | cons op ops ih =>
    intro f m wf h1 h2 h3 ⟨ha, hr⟩
    cases op with
    | write q v =>
      have hq : f.dw.contains q = true := by rw [h1]; exact ha
      have hs : denseStep dflt f (.write q v) =
          some { f with data := f.data.set (f.dw.indexOf q) v } := Dense.write_eq wf hq v
      simp only [denseRun, hs, Option.bind_some, List.foldl_cons]
      refine ih _ _ (Dense.wf_write wf _ _) h1 h2 ?_ hr
      intro p hp
      have hp' : f.dw.contains p = true := by rw [h1]; exact hp
      rw [Dense.value_write wf hq hp']
      simp only [VoxelMap.apply]
      split
      · rfl
      · exact h3 p hp
    | clear v =>
      simp only [denseRun, denseStep, Option.bind_some, List.foldl_cons]
      refine ih _ _ (Dense.wf_clear wf v) h1 h2 ?_ hr
      intro p hp
      exact Dense.value_clear wf (by rw [h1]; exact hp) v
    | resize e w =>
      obtain ⟨g, hg, gwf, gdw, gext, gdata⟩ := Dense.setSize_ok (dflt := dflt) (e := e) ha
      simp only [denseRun, denseStep, hg, Option.bind_some, List.foldl_cons]
      refine ih _ _ gwf gdw gext ?_ hr
      intro p hp
      have hp' : g.dw.contains p = true := by rw [gdw]; exact hp
      rw [Dense.value_eq gwf hp', gdata, gdw]
      have := Box3i.indexOf_lt ha hp
      simp [this, VoxelMap.apply]

/-- C01: from a freshly sized dense field, any allowed history of writes, clears and resizes runs
without leaving the buffer, and afterwards every voxel of the window reads as the last value
written to it (or the last clear value, or the default value after a resize). -/
theorem C01_dense_faithful_map {α : Type} (dflt : α) (e w : Box3i) (hw : w.isEmpty = false)
    (ops : List (DenseOp α)) (hok : (VoxelMap.mk e w (fun _ => dflt)).allAllowed dflt ops) :
    ∃ f g, Dense.setSize dflt e w = .ok f ∧ denseRun dflt f ops = some g ∧
      let m := ops.foldl (VoxelMap.apply dflt) ⟨e, w, fun _ => dflt⟩
      g.dw = m.dw ∧ g.extents = m.extents ∧
      ∀ p, m.dw.contains p = true → g.value p = some (m.val p) := by
  obtain ⟨f, hf, fwf, fdw, fext, fdata⟩ := Dense.setSize_ok (dflt := dflt) (e := e) hw
  obtain ⟨g, hg, h⟩ := dense_run_refines dflt ops f ⟨e, w, fun _ => dflt⟩ fwf fdw fext (by
    intro p hp
    have hp' : f.dw.contains p = true := by rw [fdw]; exact hp
    rw [Dense.value_eq fwf hp', fdata, fdw]
    have := Box3i.indexOf_lt hw hp
    simp [this]) hok
  exact ⟨f, g, hf, hg, h⟩

/-- C01: in a freshly sized field distinct voxels have distinct buffer positions, all inside the
buffer, and every buffer element belongs to a voxel. -/
theorem C01_dense_index_bijective {α : Type} (dflt : α) (e w : Box3i) (hw : w.isEmpty = false) :
    ∃ f : Dense α, Dense.setSize dflt e w = .ok f ∧
      (∀ p, w.contains p = true → 0 ≤ f.index p ∧ f.index p < f.data.length) ∧
      (∀ p q, w.contains p = true → w.contains q = true → f.index p = f.index q → p = q) ∧
      (∀ i : Nat, i < f.data.length → ∃ p, w.contains p = true ∧ f.index p = i) := by
  obtain ⟨f, hf, fwf, fdw, fext, fdata⟩ := Dense.setSize_ok (dflt := dflt) (e := e) hw
  refine ⟨f, hf, ?_, ?_, ?_⟩
  · intro p hp
    have hp' : f.dw.contains p = true := by rw [fdw]; exact hp
    rw [Dense.index_eq fwf hp', fwf.len]
    have := Box3i.indexOf_lt fwf.ne hp'
    omega
  · intro p q hp hq he
    have hp' : f.dw.contains p = true := by rw [fdw]; exact hp
    have hq' : f.dw.contains q = true := by rw [fdw]; exact hq
    rw [Dense.index_eq fwf hp', Dense.index_eq fwf hq'] at he
    exact Box3i.indexOf_inj fwf.ne hp' hq' (by omega)
  · intro i hi
    rw [fwf.len] at hi
    have hc := Box3i.contains_coordAt fwf.ne hi
    refine ⟨f.dw.coordAt i, by rw [← fdw]; exact hc, ?_⟩
    rw [Dense.index_eq fwf hc, Box3i.indexOf_coordAt]

/-- Non-vacuity: a history with overlapping writes, a clear and a resize is allowed. -/
example : (VoxelMap.mk ⟨⟨0, 0, 0⟩, ⟨1, 1, 0⟩⟩ ⟨⟨-1, 0, 0⟩, ⟨1, 1, 0⟩⟩ (fun _ => (0 : Nat))).allAllowed 0
    [.write ⟨-1, 1, 0⟩ 5, .clear 3, .write ⟨0, 0, 0⟩ 7,
     .resize ⟨⟨0, 0, 0⟩, ⟨0, 0, 1⟩⟩ ⟨⟨0, 0, 0⟩, ⟨0, 0, 1⟩⟩, .write ⟨0, 0, 1⟩ 9] := by
  refine ⟨?_, ?_, ?_, ?_, ?_, trivial⟩ <;> first | exact rfl | exact trivial

/-! ## C09 (dense): windows and exceptions -/

/-- C09: `setSize` on a dense field succeeds exactly when the data window is non-empty along each
axis, and then sets both windows as asked and every voxel to the default value. -/
theorem C09_dense_resize {α : Type} (dflt : α) (e w : Box3i) :
    (w.isEmpty = true → Dense.setSize dflt e w = .resizeException) ∧
    (w.isEmpty = false → ∃ f, Dense.setSize dflt e w = .ok f ∧ f.extents = e ∧ f.dw = w ∧
      ∀ p, w.contains p = true → f.value p = some dflt) := by
  constructor
  · intro h
    unfold Dense.setSize
    simp only
    rw [if_pos]
    simp only [Box3i.isEmpty, Bool.or_eq_true, decide_eq_true_eq] at h
    omega
  · intro h
    obtain ⟨f, hf, fwf, fdw, fext, fdata⟩ := Dense.setSize_ok (dflt := dflt) (e := e) h
    refine ⟨f, hf, fext, fdw, ?_⟩
    intro p hp
    have hp' : f.dw.contains p = true := by rw [fdw]; exact hp
    rw [Dense.value_eq fwf hp', fdata, fdw]
    have := Box3i.indexOf_lt h hp
    simp [this]

/-- C09: a size `s` gives the window of voxels `0 ≤ p < s`; padding by `n ≥ 0` gives the voxels
`-n ≤ p < s + n` around extents `0 ≤ p < s`. -/
theorem C09_size_windows (s : V3i) (n : Int) (p : V3i) :
    (((SizeArg.size s).windows.1.contains p = true ↔
      (0 ≤ p.x ∧ p.x < s.x) ∧ (0 ≤ p.y ∧ p.y < s.y) ∧ (0 ≤ p.z ∧ p.z < s.z)) ∧
     (SizeArg.size s).windows.2 = (SizeArg.size s).windows.1) ∧
    ((SizeArg.padded s n).windows.1 = (SizeArg.size s).windows.1) ∧
    ((SizeArg.padded s n).windows.2.contains p = true ↔
      (-n ≤ p.x ∧ p.x < s.x + n) ∧ (-n ≤ p.y ∧ p.y < s.y + n) ∧ (-n ≤ p.z ∧ p.z < s.z + n)) := by
  simp only [SizeArg.windows, Box3i.contains_iff, V3i.sub_x, V3i.sub_y, V3i.sub_z, V3i.all_x,
    V3i.all_y, V3i.all_z, V3i.add_x, V3i.add_y, V3i.add_z, true_and, and_true]
  omega

/-! ## C11 -/

/-- C11: traversing any non-empty sub-box of the data window of a dense field visits its voxels
exactly once and in order, and at every step the iterator dereferences the voxel whose
coordinates it reports (never a null or out-of-range pointer). -/
theorem C11_dense_iterator {α : Type} (dflt : α) (e dw w : Box3i) (hw : w.isEmpty = false)
    (hmin : dw.contains w.min = true) (hmax : dw.contains w.max = true)
    (ops : List (DenseOp α)) (hops : ∀ op ∈ ops, ∀ e' w', op ≠ .resize e' w')
    (hok : (VoxelMap.mk e dw (fun _ => dflt)).allAllowed dflt ops) :
    ∃ f g, Dense.setSize dflt e dw = .ok f ∧ denseRun dflt f ops = some g ∧
      ∃ l : List Dense.Iter, Visits (g.iterNext w) (g.iterAtEnd w) (g.iterBegin w) l ∧
        TraversesBox w (l.map (·.pos)) ∧
        ∀ s ∈ l, g.iterDeref s = g.value s.pos ∧
          g.iterDeref s = some ((ops.foldl (VoxelMap.apply dflt) ⟨e, dw, fun _ => dflt⟩).val s.pos) := by
  have hdw : dw.isEmpty = false := by
    rw [Box3i.contains_iff] at hmin; rw [Box3i.isEmpty_false]; omega
  obtain ⟨f, g, hf, hg, h1, h2, h3⟩ := C01_dense_faithful_map dflt e dw hdw ops hok
  have keep : ∀ (ops : List (DenseOp α)) (m : VoxelMap α),
      (∀ op ∈ ops, ∀ e' w', op ≠ .resize e' w') →
      (ops.foldl (VoxelMap.apply dflt) m).dw = m.dw := by
    intro ops
    induction ops with
    | nil => intros; rfl
    | cons op ops ih =>
      intro m hr
      rw [List.foldl_cons, ih _ (fun o ho => hr o (List.mem_cons_of_mem _ ho))]
      cases op with
      | write => rfl
      | clear => rfl
      | resize e' w' => exact absurd rfl (hr _ List.mem_cons_self e' w')
  refine ⟨f, g, hf, hg, _, Dense.iter_visits w hw, ?_, ?_⟩
  · rw [List.map_map]
    have : (Dense.Iter.pos ∘ fun p => (⟨p, some (g.index p)⟩ : Dense.Iter)) = id := rfl
    rw [this, List.map_id]
    exact voxels_traverses hw
  · intro s hs
    rw [List.mem_map] at hs
    obtain ⟨p, hp, rfl⟩ := hs
    rw [Box3i.mem_voxels hw] at hp
    have hp' : dw.contains p = true := by
      rw [Box3i.contains_iff] at *; omega
    refine ⟨rfl, ?_⟩
    exact h3 p (by rw [keep ops _ hops]; exact hp')

/-- C11: the whole-window traversal `cbegin()` is the traversal of the data window. -/
theorem C11_dense_iterator_whole {α : Type} (f : Dense α) (h : f.dw.isEmpty = false) :
    f.iterBeginAll = f.iterBegin f.dw := by
  have h' := Box3i.isEmpty_false.mp h
  unfold Dense.iterBeginAll Dense.iterBegin
  rw [if_neg, h, if_neg (by simp)]
  intro e
  have := congrArg V3i.x e
  simp [Box3i.res] at this
  omega

/-- C11: an empty subset is not entered. -/
theorem C11_dense_iterator_empty {α : Type} (f : Dense α) (w : Box3i) (h : w.isEmpty = true) :
    Visits (f.iterNext w) (f.iterAtEnd w) (f.iterBegin w) [] := by
  refine Visits.done _ ?_
  simp [Dense.iterBegin, h, Dense.iterAtEnd]

example : (⟨⟨0, -1, 2⟩, ⟨1, 0, 2⟩⟩ : Box3i).isEmpty = false ∧
    (⟨⟨-1, -1, 0⟩, ⟨3, 0, 2⟩⟩ : Box3i).contains ⟨0, -1, 2⟩ = true ∧
    (⟨⟨-1, -1, 0⟩, ⟨3, 0, 2⟩⟩ : Box3i).contains ⟨1, 0, 2⟩ = true := by decide

/-! ## C15 (dense) -/

/-- C15: the grains of a dense field partition its data window: there are as many grains as rows,
every voxel of the window is in exactly one grain, and grains contain no other voxels. -/
theorem C15_dense_grains {α : Type} (f : Dense α) (h : f.dw.isEmpty = false) :
    (∀ p, f.dw.contains p = true →
      ∃ idx : Nat, (idx : Int) < f.numGrains ∧ (f.getGrainBounds idx).contains p = true ∧
        ∀ idx' : Nat, (idx' : Int) < f.numGrains → (f.getGrainBounds idx').contains p = true →
          idx' = idx) ∧
    (∀ (idx : Nat) p, (idx : Int) < f.numGrains → (f.getGrainBounds idx).contains p = true →
      f.dw.contains p = true) := by
  obtain ⟨h1, h2, h3, p1, p2, p3⟩ := f.dw.dims h
  have hsz := Dense.size_of_ne h
  have ry : (f.dw.size + V3i.all 1).y = f.dw.ny := by rw [hsz]; simp; omega
  have rz : (f.dw.size + V3i.all 1).z = f.dw.nz := by rw [hsz]; simp; omega
  have rx : (f.dw.size + V3i.all 1).x = f.dw.nx := by rw [hsz]; simp; omega
  have hn : f.numGrains = ((f.dw.ny * f.dw.nz : Nat) : Int) := by
    unfold Dense.numGrains; rw [ry, rz]; push_cast; rfl
  have hin : ∀ (idx : Nat) p, (f.getGrainBounds idx).contains p = true ↔
      f.dw.contains p = true ∧ p.y - f.dw.min.y = ((idx % f.dw.ny : Nat) : Int) ∧
      p.z - f.dw.min.z = ((idx / f.dw.ny : Nat) : Int) := by
    intro idx p
    unfold Dense.getGrainBounds
    simp only
    rw [C17_clip_is_intersection, ry, rx, ← Int.natCast_emod, ← Int.natCast_ediv]
    simp only [Box3i.contains_iff, V3i.add_x, V3i.add_y, V3i.add_z]
    generalize idx % f.dw.ny = a
    generalize idx / f.dw.ny = c
    omega
  constructor
  · intro p hp
    obtain ⟨b1, b2, b3⟩ := Box3i.toNat_bounds h hp
    have hp' := Box3i.contains_iff.mp hp
    refine ⟨(p.y - f.dw.min.y).toNat + (p.z - f.dw.min.z).toNat * f.dw.ny, ?_, ?_, ?_⟩
    · rw [hn]
      exact_mod_cast Grid.enc_row_lt b2 b3
    · rw [hin]
      refine ⟨hp, ?_, ?_⟩
      · rw [Nat.add_mul_mod_self_right, Nat.mod_eq_of_lt b2]; omega
      · rw [Nat.add_mul_div_right _ _ p2, Nat.div_eq_of_lt b2]; omega
    · intro idx' _ hc
      rw [hin] at hc
      obtain ⟨_, e1, e2⟩ := hc
      have := Nat.div_add_mod idx' f.dw.ny
      have e1' : (p.y - f.dw.min.y).toNat = idx' % f.dw.ny := by rw [e1, Int.toNat_natCast]
      have e2' : (p.z - f.dw.min.z).toNat = idx' / f.dw.ny := by rw [e2, Int.toNat_natCast]
      rw [e1', e2', Nat.mul_comm (idx' / f.dw.ny)]
      omega
  · intro idx p _ hc
    exact ((hin idx p).mp hc).1

example : (Dense.mk (α := Nat) ⟨⟨0, 0, 0⟩, ⟨1, 1, 2⟩⟩ ⟨⟨0, -1, 0⟩, ⟨1, 1, 2⟩⟩ 2 6
    (List.replicate 18 0)).getGrainBounds 4 = ⟨⟨0, 0, 1⟩, ⟨1, 0, 1⟩⟩ := by decide

end F3D.Props
