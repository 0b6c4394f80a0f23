import Verif.Proofs.Machine
import Verif.Props.Dense
import Verif.Props.SparseIter
import Verif.Props.Mac

/-!
# C77: index arithmetic in machine integers

The other theorems count voxels with unbounded integers. Here the same fields are addressed with
the integer types of the source. `ov` ranges over what a machine may do when a signed operation
overflows, so a statement for every `ov` says that nothing overflows.
-/

namespace F3D.Props
open F3D F3D.Machine

/-! ## Specification -/

/-- The number of voxels of a window along each axis, and in all. -/
def side (lo hi : Int) : Nat := (hi - lo + 1).toNat

def countOf (w : Box3i) : Nat :=
  side w.min.x w.max.x * side w.min.y w.max.y * side w.min.z w.max.z

/-- A window whose corners and sides are `int`s. -/
def IntSides (w : Box3i) : Prop :=
  w.isEmpty = false ∧ side w.min.x w.max.x < 2 ^ 31 ∧ side w.min.y w.max.y < 2 ^ 31 ∧
  side w.min.z w.max.z < 2 ^ 31

/-- The windows a history of operations sizes the field to, starting with `w`. -/
def windowsOf {α : Type} (w : Box3i) (ops : List (DenseOp α)) : List Box3i :=
  w :: ops.filterMap (fun | .resize _ w => some w | _ => none)

/-- Dense operations on the machine; anything but a normal result is `none`. -/
def machineStep {α : Type} (ov : Int → Option Int) (most : Nat) (granted : Nat → Bool) (dflt : α)
    (f : Dense α) : DenseOp α → Option (Dense α)
  | .write q v => denseWrite ov f q v
  | .clear v => some (f.clear v)
  | .resize e w => match denseSetSize ov most granted dflt e w with
    | .ok g => some g
    | _ => none

def machineRun {α : Type} (ov : Int → Option Int) (most : Nat) (granted : Nat → Bool) (dflt : α) :
    Dense α → List (DenseOp α) → Option (Dense α)
  | f, [] => some f
  | f, op :: ops =>
    (machineStep ov most granted dflt f op).bind fun g => machineRun ov most granted dflt g ops

theorem side_nx (w : Box3i) : side w.min.x w.max.x = w.nx := rfl
theorem side_ny (w : Box3i) : side w.min.y w.max.y = w.ny := rfl
theorem side_nz (w : Box3i) : side w.min.z w.max.z = w.nz := rfl
theorem countOf_vol (w : Box3i) : countOf w = w.vol := rfl

theorem sidesFit {w : Box3i} (h : IntSides w) : SidesFit w := by
  obtain ⟨_, h1, h2, h3⟩ := h
  rw [side_nx] at h1; rw [side_ny] at h2; rw [side_nz] at h3
  exact ⟨by omega, by omega, by omega⟩

/-! ## Dense fields -/

theorem dense_machine_run {α : Type} (ov : Int → Option Int) (most : Nat) (granted : Nat → Bool)
    (dflt : α) (hm : most < 2 ^ 64) (ops : List (DenseOp α)) :
    ∀ (f : Dense α) (m : VoxelMap α), f.WF → f.dw = m.dw → IntSides f.dw → countOf f.dw < 2 ^ 64 →
      m.allAllowed dflt ops →
      (∀ w ∈ ops.filterMap (fun | .resize _ w => some w | _ => none),
        IntSides w ∧ countOf w ≤ most ∧ granted (countOf w) = true) →
      machineRun ov most granted dflt f ops = denseRun dflt f ops ∧
      ∀ g, denseRun dflt f ops = some g → g.WF ∧ IntSides g.dw ∧ countOf g.dw < 2 ^ 64 := by
  induction ops with
  | nil => intro f m wf _ hi hc _ _; exact ⟨rfl, fun g hg => by cases hg; exact ⟨wf, hi, hc⟩⟩
  | cons op ops ih =>
    intro f m wf hdw hi hc ⟨ha, hr⟩ hw
    cases op with
    | write q v =>
      have hq : f.dw.contains q = true := by rw [hdw]; exact ha
      have hlt := Box3i.indexOf_lt wf.ne hq
      have hix := dense_index (ov := ov) wf.ne wf.mx wf.mxy (sidesFit hi) hq
      rw [countOf_vol] at hc
      rw [Nat.mod_eq_of_lt (by omega)] at hix
      have h1 : denseWrite ov f q v = f.write q v := by
        rw [Dense.write_eq wf hq]
        unfold denseWrite
        rw [hix]
        simp only [Option.bind_some]
        rw [if_pos (by rw [wf.len]; exact hlt)]
      have h2 := Dense.write_eq wf hq v
      have := ih _ (m.apply dflt (.write q v)) (Dense.wf_write wf (f.dw.indexOf q) v) hdw hi hc hr
        (fun w hw' => hw w hw')
      simp only [machineRun, denseRun, machineStep, denseStep, h1, h2, Option.bind_some]
      exact this
    | clear v =>
      have := ih _ (m.apply dflt (.clear v)) (Dense.wf_clear wf v) hdw hi hc hr
        (fun w hw' => hw w hw')
      simp only [machineRun, denseRun, machineStep, denseStep, Option.bind_some]
      exact this
    | resize e w =>
      obtain ⟨w1, w2, w3⟩ := hw w (by simp)
      rw [countOf_vol] at w2 w3
      obtain ⟨g, hg, gwf, gdw, gext, gdata⟩ := Dense.setSize_ok (dflt := dflt) (e := e) ha
      have hs : denseSetSize ov most granted dflt e w = .ok g := by
        rw [dense_setSize w1.1 (sidesFit w1), Nat.mod_eq_of_lt (by omega), if_neg (by omega),
          if_pos w3]
        congr 1
        have g1 := gwf.mx
        have g2 := gwf.mxy
        obtain ⟨x1, x2, x3, x4, x5⟩ := g
        dsimp only at gdw gext gdata g1 g2
        rw [gdw] at g1 g2
        rw [gdw, gext, gdata, g1, g2]
      have := ih g (m.apply dflt (.resize e w)) gwf gdw (by rw [gdw]; exact w1)
        (by rw [gdw, countOf_vol]; omega) hr (fun w' hw' => hw w' (by
          simp only [List.filterMap_cons]; exact List.mem_cons_of_mem _ hw'))
      simp only [machineRun, denseRun, machineStep, denseStep, hg, hs, Option.bind_some]
      exact this

/-- C77: dense fields are a faithful voxel map on the machine as long as every window they are
sized to has sides below `2^31` and no more voxels than a vector can hold and the allocator
supplies. Nothing overflows, whatever overflow would do: any allowed history of writes, clears and
resizes runs, and every voxel reads as the last value written to it. -/
theorem C77_dense_faithful {α : Type} (ov : Int → Option Int) (most : Nat) (granted : Nat → Bool)
    (dflt : α) (hm : most < 2 ^ 64) (e w : Box3i) (ops : List (DenseOp α))
    (hok : (VoxelMap.mk e w (fun _ => dflt)).allAllowed dflt ops)
    (hw : ∀ w' ∈ windowsOf w ops, IntSides w' ∧ countOf w' ≤ most ∧ granted (countOf w') = true) :
    ∃ f g, denseSetSize ov most granted dflt e w = .ok f ∧ f.data.length = countOf w ∧
      machineRun ov most granted dflt f ops = some g ∧
      let m := ops.foldl (VoxelMap.apply dflt) ⟨e, w, fun _ => dflt⟩
      g.dw = m.dw ∧ g.extents = m.extents ∧
      ∀ p, m.dw.contains p = true → denseValue ov g p = some (m.val p) := by
  obtain ⟨w1, w2, w3⟩ := hw w (by simp [windowsOf])
  rw [countOf_vol] at w2 w3
  obtain ⟨f, g, h1, h2, h3, h4, h5⟩ := C01_dense_faithful_map dflt e w w1.1 ops hok
  obtain ⟨f', hf, fwf, fdw, fext, fdata⟩ := Dense.setSize_ok (dflt := dflt) (e := e) w1.1
  rw [h1] at hf; cases hf
  have hrun := dense_machine_run ov most granted dflt hm ops f ⟨e, w, fun _ => dflt⟩ fwf fdw
    (by rw [fdw]; exact w1) (by rw [fdw, countOf_vol]; omega) hok
    (fun w' hw' => hw w' (by simp only [windowsOf]; exact List.mem_cons_of_mem _ hw'))
  obtain ⟨gwf, gi, gc⟩ := hrun.2 g h2
  refine ⟨f, g, ?_, ?_, by rw [hrun.1]; exact h2, h3, h4, ?_⟩
  · rw [dense_setSize w1.1 (sidesFit w1), Nat.mod_eq_of_lt (by omega), if_neg (by omega),
      if_pos w3]
    congr 1
    have g1 := fwf.mx
    have g2 := fwf.mxy
    obtain ⟨x1, x2, x3, x4, x5⟩ := f
    dsimp only at fdw fext fdata g1 g2
    rw [fdw] at g1 g2
    rw [fdw, fext, fdata, g1, g2]
  · rw [fdata, List.length_replicate]; rfl
  · intro p hp
    rw [← h5 p hp]
    have hp' : g.dw.contains p = true := by rw [h3]; exact hp
    rw [Dense.value_eq gwf hp']
    have hlt := Box3i.indexOf_lt gwf.ne hp'
    rw [countOf_vol] at gc
    unfold denseValue
    rw [dense_index gwf.ne gwf.mx gwf.mxy (sidesFit gi) hp', Nat.mod_eq_of_lt (by omega)]
    rfl

example : ∀ w' ∈ windowsOf (α := Int) ⟨⟨-3, 0, 0⟩, ⟨40000, 40000, 1⟩⟩
      [.write ⟨-3, 5, 1⟩ 7, .resize ⟨⟨0, 0, 0⟩, ⟨9, 9, 9⟩⟩ ⟨⟨0, 0, -1⟩, ⟨2147483646, 0, 0⟩⟩, .clear 2],
    IntSides w' ∧ countOf w' ≤ 2 ^ 60 ∧ (fun _ : Nat => true) (countOf w') = true := by
  unfold IntSides
  decide

theorem every_voxel {α : Type} {ov : Int → Option Int} {f : Dense α} {dflt : α}
    (hw : IntSides f.dw) (hx : f.memX = f.dw.nx) (hxy : f.memXY = f.dw.nx * f.dw.ny)
    (hd : f.data = List.replicate (f.dw.vol % 18446744073709551616) dflt) :
    (∀ p, f.dw.contains p = true → ∃ v, denseValue ov f p = some v) ↔
      f.dw.vol < 18446744073709551616 := by
  have hm := Nat.mod_lt f.dw.vol (show 0 < 18446744073709551616 by decide)
  constructor
  · intro hall
    apply Classical.byContradiction
    intro hc
    have hi : f.dw.vol % 18446744073709551616 < f.dw.vol := by omega
    have hin := Box3i.contains_coordAt hw.1 hi
    obtain ⟨v, hv⟩ := hall _ hin
    unfold denseValue at hv
    rw [dense_index hw.1 hx hxy (sidesFit hw) hin] at hv
    simp only [Option.bind_some, Box3i.indexOf_coordAt, Nat.mod_mod] at hv
    rw [List.getElem?_eq_none (by rw [hd, List.length_replicate]; exact Nat.le_refl _)] at hv
    cases hv
  · intro hc p hp
    refine ⟨dflt, ?_⟩
    have hlt := Box3i.indexOf_lt hw.1 hp
    unfold denseValue
    rw [dense_index hw.1 hx hxy (sidesFit hw) hp]
    simp only [Option.bind_some]
    rw [Nat.mod_eq_of_lt (by omega), hd, Nat.mod_eq_of_lt hc, List.getElem?_replicate, if_pos hlt]

/-- C77: in general a dense field gets the number of its voxels modulo `2^64` elements, and every
voxel has an element exactly if there are fewer than `2^64` of them. `setSize` reports an error
only when that remainder is more than a vector can hold (`std::length_error`, not the documented
exception) or more than the allocator supplies. -/
theorem C77_dense_elements {α : Type} (ov : Int → Option Int) (most : Nat) (granted : Nat → Bool)
    (dflt : α) (e w : Box3i) (hw : IntSides w) :
    (most < countOf w % 2 ^ 64 → denseSetSize ov most granted dflt e w = .lengthError) ∧
    (countOf w % 2 ^ 64 ≤ most → granted (countOf w % 2 ^ 64) = false →
      denseSetSize ov most granted dflt e w = .memoryException) ∧
    (countOf w % 2 ^ 64 ≤ most → granted (countOf w % 2 ^ 64) = true →
      ∃ f, denseSetSize ov most granted dflt e w = .ok f ∧ f.dw = w ∧ f.extents = e ∧
        f.data.length = countOf w % 2 ^ 64 ∧
        ((∀ p, w.contains p = true → ∃ v, denseValue ov f p = some v) ↔ countOf w < 2 ^ 64)) := by
  rw [countOf_vol]
  have hs := dense_setSize (ov := ov) (most := most) (granted := granted) (dflt := dflt) (e := e)
    hw.1 (sidesFit hw)
  have e64 : (2 : Nat) ^ 64 = 18446744073709551616 := by decide
  rw [e64]
  refine ⟨fun h => by rw [hs, if_pos h],
    fun h g => by rw [hs, if_neg (by omega), if_neg (by simp [g])], fun h g => ?_⟩
  rw [if_neg (by omega), if_pos g] at hs
  generalize hf : (⟨e, w, w.nx, w.nx * w.ny,
    List.replicate (w.vol % 18446744073709551616) dflt⟩ : Dense α) = f at hs
  have hd : f.dw = w := by rw [← hf]
  have hdata : f.data = List.replicate (w.vol % 18446744073709551616) dflt := by rw [← hf]
  refine ⟨f, hs, hd, by rw [← hf], by rw [hdata, List.length_replicate], ?_⟩
  have hv := every_voxel (ov := ov) (f := f) (dflt := dflt) (by rw [hd]; exact hw)
    (by rw [← hf]) (by rw [← hf]) (by rw [hd]; exact hdata)
  rw [hd] at hv
  exact hv

/-- C77: a field that could never fit in memory can be resized to without any exception: its
`2^64` voxels get no element at all, and reading one leaves the buffer. -/
theorem C77_dense_wraps {α : Type} (ov : Int → Option Int) (most : Nat) (granted : Nat → Bool)
    (dflt : α) (hg : granted 0 = true) :
    let w : Box3i := ⟨⟨0, 0, 0⟩, ⟨4194303, 2097151, 2097151⟩⟩
    ∃ f, denseSetSize ov most granted dflt w w = .ok f ∧ f.data = [] ∧
      w.contains ⟨0, 0, 0⟩ = true ∧ denseValue ov f ⟨0, 0, 0⟩ = none := by
  intro w
  have hw : IntSides w := by unfold IntSides; decide
  have h0 : countOf w % 2 ^ 64 = 0 := by decide
  obtain ⟨f, hf, -, -, hl, -⟩ := (C77_dense_elements ov most granted dflt w w hw).2.2
    (by rw [h0]; exact Nat.zero_le _) (by rw [h0]; exact hg)
  rw [h0] at hl
  have hd := List.eq_nil_of_length_eq_zero hl
  refine ⟨f, hf, hd, by decide, ?_⟩
  unfold denseValue
  rw [hd]
  cases denseIndex ov f ⟨0, 0, 0⟩ <;> rfl

/-- C77: the counts that the code computes as products of `int`s. The number of elements written
to a file and the reported voxel count are right exactly up to `2^31 - 1` voxels, and the number of
grains up to `2^31 - 1` rows; beyond that the product overflows. -/
theorem C77_dense_counts (w : Box3i) (hw : IntSides w) :
    (∀ ov, countOf w < 2 ^ 31 →
      denseFileLength ov w = some (countOf w) ∧ voxelCount ov w = some (countOf w)) ∧
    (2 ^ 31 ≤ countOf w →
      denseFileLength undefinedOv w = none ∧ voxelCount undefinedOv w = none) ∧
    (∀ ov, side w.min.y w.max.y * side w.min.z w.max.z < 2 ^ 31 →
      denseGrains ov w = some (side w.min.y w.max.y * side w.min.z w.max.z)) ∧
    (2 ^ 31 ≤ side w.min.y w.max.y * side w.min.z w.max.z → denseGrains undefinedOv w = none) := by
  have hs := sidesFit hw
  obtain ⟨s1, s2, s3⟩ := hs
  obtain ⟨-, -, -, -, -, p3⟩ := w.dims hw.1
  rw [side_ny, side_nz, countOf_vol]
  have e : ∀ ov, denseFileLength ov w = (volume ov ⟨w.nx, w.ny, w.nz⟩).map size := by
    intro ov
    have k : ∀ t, sides ov w = some t → denseFileLength ov w =
        (volume ov ⟨toInt (size t.x), toInt (size t.y), toInt (size t.z)⟩).map size := by
      intro t ht
      unfold denseFileLength
      rw [ht, Option.bind_some]
    rw [k _ (sides_ok hw.1 ⟨s1, s2, s3⟩), toInt_size s1, toInt_size s2, toInt_size s3]
  have e' : ∀ ov, voxelCount ov w = (volume ov ⟨w.nx, w.ny, w.nz⟩).map size := by
    intro ov
    unfold voxelCount
    rw [sizePlus_ok hw.1 ⟨s1, s2, s3⟩]
    rfl
  have g : ∀ ov, denseGrains ov w = (int ov ((w.ny * w.nz : Nat) : Int)).map size := by
    intro ov
    unfold denseGrains
    rw [sizePlus_ok hw.1 ⟨s1, s2, s3⟩]
    simp only [Option.bind_some]
    push_cast
    rfl
  have hv : w.vol = w.nx * w.ny * w.nz := rfl
  refine ⟨fun ov h => ?_, fun h => ?_, fun ov h => ?_, fun h => ?_⟩
  · rw [e, e', volume_ok p3 (by omega)]
    simp only [Option.map_some]
    rw [size_nat (by omega)]
    exact ⟨rfl, rfl⟩
  · rw [e, e', volume_none (by omega)]; exact ⟨rfl, rfl⟩
  · rw [g, int_ok (by omega) (by omega)]
    simp only [Option.map_some]
    rw [size_nat (by omega)]
  · rw [g, int_none (by omega)]; rfl

/-- C77: on a machine that wraps, a dense field of `2^32` voxels has an element for each of them,
but the count written to a file is zero: its data are dropped. One of `2^31` voxels is written with
a count of `2^64 - 2^31`, far past its buffer. -/
theorem C77_dense_file_wraps {α : Type} (dflt : α) :
    let w : Box3i := ⟨⟨0, 0, 0⟩, ⟨2047, 2047, 1023⟩⟩
    let h : Box3i := ⟨⟨0, 0, 0⟩, ⟨2047, 2047, 511⟩⟩
    (∃ f, denseSetSize wrapping (2 ^ 60) (fun _ => true) dflt w w = .ok f ∧ f.data.length = 2 ^ 32 ∧
      ∀ p, w.contains p = true → ∃ v, denseValue wrapping f p = some v) ∧
    denseFileLength wrapping w = some 0 ∧ voxelCount wrapping w = some 0 ∧
    denseFileLength wrapping h = some (2 ^ 64 - 2 ^ 31) := by
  intro w h
  have hw : IntSides w := by unfold IntSides; decide
  have hc : countOf w = 2 ^ 32 := by decide
  obtain ⟨f, hf, -, -, hl, hv⟩ := (C77_dense_elements wrapping (2 ^ 60) (fun _ => true) dflt w w hw).2.2
    (by rw [hc]; decide) rfl
  rw [hc] at hl hv
  exact ⟨⟨f, hf, hl.trans (by decide), hv.mpr (by decide)⟩, by decide, by decide, by decide⟩

/-- C77: a window that is inverted along any axis is refused with the documented exception, or
resizing is undefined; no such window is ever accepted by a dense field, whatever overflow does. On a
machine that wraps it is always refused. -/
theorem C77_inverted_refused {α : Type} (ov : Int → Option Int) (most : Nat)
    (granted : Nat → Bool) (dflt : α) (e w : Box3i)
    (hw : w.max.x < w.min.x ∨ w.max.y < w.min.y ∨ w.max.z < w.min.z) :
    (denseSetSize ov most granted dflt e w = .resizeException ∨
      denseSetSize ov most granted dflt e w = .undefined) ∧
    ((∀ n, (ov n).isSome = true) →
      denseSetSize ov most granted dflt e w = .resizeException) := by
  unfold denseSetSize
  constructor
  · cases sides ov w with
    | none => exact Or.inr rfl
    | some s => exact Or.inl (if_pos hw)
  · intro ho
    have hi : ∀ n, ∃ m, int ov n = some m := by
      intro n
      unfold int
      split
      · exact ⟨n, rfl⟩
      · exact Option.isSome_iff_exists.mp (ho n)
    have hs : ∃ s, sides ov w = some s := by
      unfold sides sub3 add3
      obtain ⟨a, ha⟩ := hi (w.max.x - w.min.x)
      obtain ⟨b, hb⟩ := hi (w.max.y - w.min.y)
      obtain ⟨c, hc⟩ := hi (w.max.z - w.min.z)
      obtain ⟨a', ha'⟩ := hi (a + 1)
      obtain ⟨b', hb'⟩ := hi (b + 1)
      obtain ⟨c', hc'⟩ := hi (c + 1)
      exact ⟨⟨a', b', c'⟩, by simp [ha, hb, hc, ha', hb', hc']⟩
    obtain ⟨s, hs⟩ := hs
    rw [hs]
    exact if_pos hw

example : (∀ n, (wrapping n).isSome = true) ∧
    (⟨⟨0, 0, 0⟩, ⟨3, 3, -1⟩⟩ : Box3i).max.z < (⟨⟨0, 0, 0⟩, ⟨3, 3, -1⟩⟩ : Box3i).min.z :=
  ⟨fun _ => rfl, by decide⟩

/-- C77: a window can be so wide that its side is not an `int`; then resizing is undefined. So is
resizing to Imath's empty box, from the largest `int` down to the smallest: the size is computed
before the window is checked. On a machine that wraps, a dense field still throws, but a MAC field
accepts the empty box and stores faces for `2 × 2 × 2` voxels. -/
theorem C77_sides {α : Type} (most : Nat) (granted : Nat → Bool) (dflt : α) (e : Box3i) (f : Mac) :
    (∀ w : Box3i, w.isEmpty = false → (denseSetSize undefinedOv most granted dflt e w = .undefined ↔
      ¬ IntSides w)) ∧
    (let none3 : Box3i := ⟨V3i.all 2147483647, V3i.all (-2147483648)⟩
     denseSetSize undefinedOv most granted dflt e none3 = .undefined ∧
     denseSetSize wrapping most granted dflt e none3 = .resizeException ∧
     (12 ≤ most → ∃ g, macSetSize wrapping most f e none3 = .ok g ∧ g.dw = none3 ∧
       g.cu.data.length = 12 ∧ g.cv.data.length = 12 ∧ g.cw.data.length = 12)) := by
  refine ⟨fun w hw => ⟨?_, ?_⟩, ?_⟩
  · intro hu hi
    rw [dense_setSize hi.1 (sidesFit hi)] at hu
    split at hu
    · cases hu
    · split at hu <;> cases hu
  · intro hi
    unfold denseSetSize
    obtain ⟨h1, h2, h3, p1, p2, p3⟩ := w.dims hw
    have hn : sides undefinedOv w = none := by
      have hk : ¬ (w.nx ≤ 2147483647 ∧ w.ny ≤ 2147483647 ∧ w.nz ≤ 2147483647) := by
        intro ⟨a, b, c⟩
        exact hi ⟨hw, by rw [side_nx]; omega, by rw [side_ny]; omega, by rw [side_nz]; omega⟩
      have big : ∀ (lo hi : Int) (n : Nat), (n : Int) = hi - lo + 1 → 2147483647 < n →
          ∀ (k : Int → Option V3i), (int undefinedOv (hi - lo)) = none ∨
            ((int undefinedOv (hi - lo)) = some (hi - lo) ∧
              int undefinedOv (hi - lo + 1) = none) := by
        intro lo hi n hn hb k
        by_cases h : hi - lo ≤ 2147483647
        · exact Or.inr ⟨int_ok (by omega) h, int_none (by omega)⟩
        · exact Or.inl (int_none (by omega))
      have step : ∀ (a : Int), int undefinedOv a = none ∨ int undefinedOv a = some a := by
        intro a
        by_cases h : -2147483648 ≤ a ∧ a ≤ 2147483647
        · exact Or.inr (int_ok h.1 h.2)
        · exact Or.inl (int_none h)
      simp only [sides, sub3, add3, V3i.all_x, V3i.all_y, V3i.all_z]
      rcases step (w.max.x - w.min.x) with hx | hx
      · rw [hx]; rfl
      rcases step (w.max.y - w.min.y) with hy | hy
      · rw [hx, hy]; rfl
      rcases step (w.max.z - w.min.z) with hz | hz
      · rw [hx, hy, hz]; rfl
      rw [hx, hy, hz]
      simp only [Option.bind_some, Option.map_some]
      rcases step (w.max.x - w.min.x + 1) with hx' | hx'
      · rw [hx']; rfl
      rcases step (w.max.y - w.min.y + 1) with hy' | hy'
      · rw [hx', hy']; rfl
      rcases step (w.max.z - w.min.z + 1) with hz' | hz'
      · rw [hx', hy', hz']; rfl
      exfalso
      have r : ∀ a b, int undefinedOv a = some b → a ≤ 2147483647 := by
        intro a b h
        apply Classical.byContradiction
        intro hc
        rw [int_none (by omega)] at h; cases h
      have := r _ _ hx'
      have := r _ _ hy'
      have := r _ _ hz'
      omega
    rw [hn]
  · refine ⟨rfl, rfl, fun hm => ?_⟩
    have hs : sides wrapping ⟨V3i.all 2147483647, V3i.all (-2147483648)⟩ = some (V3i.all 2) := by
      decide
    have hu : ∀ c : Mac.Comp, macComp wrapping c (V3i.all 2) ⟨1, 0, 0⟩ =
        some (⟨⟨3, 2, 2⟩, 6, Mac.resizeVec c.data 12⟩, 12) := fun c => rfl
    have hv : ∀ c : Mac.Comp, macComp wrapping c (V3i.all 2) ⟨0, 1, 0⟩ =
        some (⟨⟨2, 3, 2⟩, 6, Mac.resizeVec c.data 12⟩, 12) := fun c => rfl
    have hw : ∀ c : Mac.Comp, macComp wrapping c (V3i.all 2) ⟨0, 0, 1⟩ =
        some (⟨⟨2, 2, 3⟩, 4, Mac.resizeVec c.data 12⟩, 12) := fun c => rfl
    unfold macSetSize
    rw [hs]
    simp only [hu, hv, hw]
    rw [if_neg (by decide), if_neg (by omega)]
    exact ⟨_, rfl, rfl, Mac.length_resizeVec _ _, Mac.length_resizeVec _ _, Mac.length_resizeVec _ _⟩

/-! ## MAC fields -/

/-- The number of faces of a window across each axis. -/
def faceCount (w : Box3i) (c : MacComp) : Nat :=
  (side w.min.x w.max.x + if c = .u then 1 else 0) *
  (side w.min.y w.max.y + if c = .v then 1 else 0) *
  (side w.min.z w.max.z + if c = .w then 1 else 0)

/-- Writes and clears on the machine. -/
def macMachineRun (ov : Int → Option Int) : Mac → List MacOp → Option Mac
  | f, [] => some f
  | f, .write c p x :: ops => (macWrite ov f c p x).bind fun g => macMachineRun ov g ops
  | f, .clear v :: ops => macMachineRun ov (f.clear v) ops

theorem faceCount_length {f : Mac} (wf : f.WF) (hne : f.dw.isEmpty = false) (c : MacComp) :
    (f.comp c).data.length = faceCount f.dw c := by
  obtain ⟨h1, h2, h3, p1, p2, p3⟩ := f.dw.dims hne
  rw [wf.len, wf.size]
  unfold faceCount
  rw [side_nx, side_ny, side_nz]
  have e : ∀ a b d : Nat, ((a : Int) * (b : Int) * (d : Int)).toNat = a * b * d := by
    intro a b d
    rw [← Int.natCast_mul, ← Int.natCast_mul, Int.toNat_natCast]
  have k : (Mac.compWindow f.dw c).res =
      ⟨((f.dw.nx + if c = .u then 1 else 0 : Nat) : Int),
       ((f.dw.ny + if c = .v then 1 else 0 : Nat) : Int),
       ((f.dw.nz + if c = .w then 1 else 0 : Nat) : Int)⟩ := by
    cases c <;> apply V3i.ext' <;> simp [Box3i.res, Mac.compWindow, h1, h2, h3] <;> omega
  rw [k]
  exact e _ _ _

theorem mac_machine_run (ov : Int → Option Int) (ops : List MacOp) :
    ∀ f : Mac, f.WF → f.dw.isEmpty = false → (∀ c, faceCount f.dw c < 2 ^ 31) →
      (∀ op ∈ ops, macAllowed f.dw op) →
      macMachineRun ov f ops = macRun f ops := by
  induction ops with
  | nil => intro f _ _ _ _; rfl
  | cons op ops ih =>
    intro f wf hne hn hok
    have ho := hok op (by simp)
    have hr : ∀ o ∈ ops, macAllowed f.dw o := fun o h => hok o (by simp [h])
    cases op with
    | write c p x =>
      have hp : (Mac.compWindow f.dw c).contains p = true := isFace_iff.mp ho
      have h1 := mac_write (ov := ov) wf hp
        (by rw [faceCount_length wf hne]; have := hn c; omega) x
      simp only [macMachineRun, macRun, macStep, h1]
      obtain ⟨g, hg, gwf, gdw, _⟩ := Mac.write_spec wf hp x
      rw [hg]
      simp only [Option.bind_some]
      exact ih g gwf (by rw [gdw]; exact hne) (by rw [gdw]; exact hn) (by rw [gdw]; exact hr)
    | clear v =>
      simp only [macMachineRun, macRun, macStep, Option.bind_some]
      obtain ⟨gwf, gdw, _⟩ := Mac.clear_spec wf v
      exact ih (f.clear v) gwf (by rw [gdw]; exact hne) (by rw [gdw]; exact hn)
        (by rw [gdw]; exact hr)

theorem mac_machine_size {ov : Int → Option Int} {most : Nat} {f : Mac} {e w : Box3i}
    (hne : w.isEmpty = false) (hn : ∀ c, faceCount w c < 2 ^ 31 ∧ faceCount w c ≤ most) :
    ∃ g, macSetSize ov most f e w = .ok g ∧ f.setSize e w = some g := by
  obtain ⟨h1, h2, h3, p1, p2, p3⟩ := w.dims hne
  have nu := hn .u
  have nv := hn .v
  have nw := hn .w
  simp only [faceCount, side_nx, side_ny, side_nz, reduceCtorEq, if_true, if_false] at nu nv nw
  have a1 : w.nx + 1 ≤ (w.nx + 1) * (w.ny + 0) * (w.nz + 0) :=
    Nat.le_trans (Nat.le_mul_of_pos_right _ (by omega)) (Nat.le_mul_of_pos_right _ (by omega))
  have a2 : w.ny + 1 ≤ (w.nx + 0) * (w.ny + 1) * (w.nz + 0) :=
    Nat.le_trans (Nat.le_mul_of_pos_left _ (by omega)) (Nat.le_mul_of_pos_right _ (by omega))
  have a3 : w.nz + 1 ≤ (w.nx + 0) * (w.ny + 0) * (w.nz + 1) :=
    Nat.le_mul_of_pos_left _ (Nat.mul_pos (by omega) (by omega))
  have su := macComp_ok (ov := ov) (c := f.cu) (a := w.nx) (b := w.ny) (d := w.nz) (a' := 1)
    (b' := 0) (d' := 0) (by omega) (by omega) (by omega) (by omega) (by omega)
  have sv := macComp_ok (ov := ov) (c := f.cv) (a := w.nx) (b := w.ny) (d := w.nz) (a' := 0)
    (b' := 1) (d' := 0) (by omega) (by omega) (by omega) (by omega) (by omega)
  have sw := macComp_ok (ov := ov) (c := f.cw) (a := w.nx) (b := w.ny) (d := w.nz) (a' := 0)
    (b' := 0) (d' := 1) (by omega) (by omega) (by omega) (by omega) (by omega)
  have hb : w.max - w.min + V3i.all 1 = ⟨w.nx, w.ny, w.nz⟩ := by
    apply V3i.ext' <;> simp <;> omega
  refine ⟨⟨e, w, Mac.resizeComp f.cu ⟨w.nx + 1, w.ny + 0, w.nz + 0⟩,
    Mac.resizeComp f.cv ⟨w.nx + 0, w.ny + 1, w.nz + 0⟩,
    Mac.resizeComp f.cw ⟨w.nx + 0, w.ny + 0, w.nz + 1⟩⟩, ?_, ?_⟩
  · unfold macSetSize
    rw [sides_ok hne ⟨by omega, by omega, by omega⟩]
    simp only
    rw [if_neg (by omega)]
    rw [show macComp ov f.cu ⟨w.nx, w.ny, w.nz⟩ ⟨1, 0, 0⟩ = _ from su,
      show macComp ov f.cv ⟨w.nx, w.ny, w.nz⟩ ⟨0, 1, 0⟩ = _ from sv,
      show macComp ov f.cw ⟨w.nx, w.ny, w.nz⟩ ⟨0, 0, 1⟩ = _ from sw]
    simp only
    rw [if_neg (by omega)]
    rfl
  · unfold Mac.setSize
    rw [hb]
    simp only
    rw [if_neg (by omega)]
    rfl

/-- C77: MAC fields keep their faces apart on the machine as long as each direction has fewer than
`2^31` faces: nothing overflows, and any history of face writes and clears leaves each face with
the last value written to exactly that face. -/
theorem C77_mac_faithful (ov : Int → Option Int) (most : Nat) (e w : Box3i)
    (hne : w.isEmpty = false) (hn : ∀ c, faceCount w c < 2 ^ 31 ∧ faceCount w c ≤ most)
    (ops : List MacOp) (hok : ∀ op ∈ ops, macAllowed w op) :
    ∃ f g, macSetSize ov most Mac.fresh e w = .ok f ∧
      (∀ c, (f.comp c).data.length = faceCount w c) ∧
      macMachineRun ov f ops = some g ∧ g.dw = w ∧ g.extents = e ∧
      ∀ c p, IsFace w c p →
        macFace ov g c p = some (ops.foldl Faces.apply (fun _ _ => 0) c p) := by
  have h' := Box3i.isEmpty_false.mp hne
  obtain ⟨f, g, h1, h2, h3, h4, h5⟩ := C08_mac_faithful_faces e w (by omega) ops hok
  obtain ⟨f', m1, m2⟩ := mac_machine_size (ov := ov) (f := Mac.fresh) (e := e) hne hn
  rw [h1] at m2; cases m2
  obtain ⟨fwf, fdw, -⟩ := Mac.setSize_wf h1
  have hrun := mac_machine_run ov ops f fwf (by rw [fdw]; exact hne)
    (by rw [fdw]; exact fun c => (hn c).1) (by rw [fdw]; exact hok)
  obtain ⟨g', hg', gwf, -⟩ := mac_run_refines ops f (fun _ _ => 0) fwf (mac_fresh_zero h1)
    (by rw [fdw]; exact hok)
  rw [h2] at hg'; cases hg'
  refine ⟨f, g, m1, ?_, by rw [hrun]; exact h2, h3, h4, ?_⟩
  · intro c
    rw [faceCount_length fwf (by rw [fdw]; exact hne), fdw]
  · intro c p hp
    rw [← h5 c p hp]
    have hp' : (Mac.compWindow g.dw c).contains p = true := by rw [h3]; exact isFace_iff.mp hp
    exact mac_face gwf hp' (by
      rw [faceCount_length gwf (by rw [h3]; exact hne), h3]; have := (hn c).1; omega)

example : (∀ c, faceCount ⟨⟨-5, 0, 0⟩, ⟨1000, 1000, 1000⟩⟩ c < 2 ^ 31 ∧
      faceCount ⟨⟨-5, 0, 0⟩, ⟨1000, 1000, 1000⟩⟩ c ≤ 2 ^ 60) ∧
    ∀ op ∈ [MacOp.write .u ⟨1001, 3, 4⟩ 2, .clear ⟨1, 2, 3⟩, .write .w ⟨-5, 0, 1001⟩ 5],
      macAllowed ⟨⟨-5, 0, 0⟩, ⟨1000, 1000, 1000⟩⟩ op := by
  refine ⟨fun c => by cases c <;> decide, ?_⟩
  simp [macAllowed, IsFace]

/-- C77: with `2^31` or more faces in some direction, resizing a MAC field overflows, although a
dense field of that size works. -/
theorem C77_mac_limit (most : Nat) (f : Mac) (e w : Box3i) (hne : w.isEmpty = false)
    (c : MacComp) (hn : 2 ^ 31 ≤ faceCount w c) :
    macSetSize undefinedOv most f e w = .undefined := by
  obtain ⟨h1, h2, h3, p1, p2, p3⟩ := w.dims hne
  unfold macSetSize
  by_cases hi : IntSides w
  · rw [sides_ok hne (sidesFit hi)]
    simp only
    rw [if_neg (by omega)]
    simp only [faceCount, side_nx, side_ny, side_nz] at hn
    cases c
    · have := macComp_none (c := f.cu) (a := w.nx) (b := w.ny) (d := w.nz) (a' := 1) (b' := 0)
        (d' := 0) (by simp at hn ⊢; omega)
      rw [show macComp undefinedOv f.cu ⟨w.nx, w.ny, w.nz⟩ ⟨1, 0, 0⟩ = none from this]
    · have := macComp_none (c := f.cv) (a := w.nx) (b := w.ny) (d := w.nz) (a' := 0) (b' := 1)
        (d' := 0) (by simp at hn ⊢; omega)
      rw [show macComp undefinedOv f.cv ⟨w.nx, w.ny, w.nz⟩ ⟨0, 1, 0⟩ = none from this]
      cases macComp undefinedOv f.cu ⟨w.nx, w.ny, w.nz⟩ ⟨1, 0, 0⟩ <;> rfl
    · have := macComp_none (c := f.cw) (a := w.nx) (b := w.ny) (d := w.nz) (a' := 0) (b' := 0)
        (d' := 1) (by simp at hn ⊢; omega)
      rw [show macComp undefinedOv f.cw ⟨w.nx, w.ny, w.nz⟩ ⟨0, 0, 1⟩ = none from this]
      cases macComp undefinedOv f.cu ⟨w.nx, w.ny, w.nz⟩ ⟨1, 0, 0⟩ <;>
        cases macComp undefinedOv f.cv ⟨w.nx, w.ny, w.nz⟩ ⟨0, 1, 0⟩ <;> rfl
  · have hu := ((C77_sides most (fun _ => true) (0 : Int) e f).1 w hne).mpr hi
    have hs : sides undefinedOv w = none := by
      cases hs : sides undefinedOv w with
      | none => rfl
      | some t =>
        exfalso
        unfold denseSetSize at hu
        rw [hs] at hu
        simp only at hu
        have h' := Box3i.isEmpty_false.mp hne
        rw [if_neg (by omega)] at hu
        split at hu
        · cases hu
        · split at hu <;> cases hu
    rw [hs]

example : (⟨⟨0, 0, 0⟩, ⟨1289, 1289, 1289⟩⟩ : Box3i).isEmpty = false ∧
    2 ^ 31 ≤ faceCount ⟨⟨0, 0, 0⟩, ⟨1290, 1290, 1290⟩⟩ .u := by decide

/-! ## Sparse fields -/

/-- The number of blocks needed to cover a window. -/
def blocksOf (w : Box3i) (order : Nat) : Nat :=
  ((side w.min.x w.max.x + (2 ^ order - 1)) / 2 ^ order) *
  ((side w.min.y w.max.y + (2 ^ order - 1)) / 2 ^ order) *
  ((side w.min.z w.max.z + (2 ^ order - 1)) / 2 ^ order)

/-- The sizes that sparse fields handle: blocks of at most `1024` voxels along each axis, and fewer
than `2^31` blocks. -/
def IntBlocks {α : Type} (m : SparseMap α) : Prop := m.order ≤ 10 ∧ blocksOf m.dw m.order < 2 ^ 31

/-- Every stage of a history has such a size. -/
def allIntBlocks {α : Type} (zero : α) : SparseMap α → List (SparseOp α) → Prop
  | m, [] => IntBlocks m
  | m, op :: ops => IntBlocks m ∧ allIntBlocks zero (m.apply zero op) ops

/-- The operations of a sparse field in machine arithmetic. -/
def sparseMachineStep {α : Type} [DecidableEq α] (ov : Int → Option Int) (zero : α) (f : Sparse α) :
    SparseOp α → Option (Sparse α)
  | .write q v => sparseWrite ov f q v
  | .clear v => sparseClear ov zero f v
  | .resize e w => sparseSetSize ov zero f e w
  | .setBlockOrder o => sparseSetBlockOrder ov zero f o
  | .setBlockEmptyValue b v => sparseSetBlockEmptyValue ov f b v
  | .releaseAllEqual => (sparseRelease ov (fun first d => decide (d ≠ first)) f).map (·.1)
  | .releaseMaxAbs less => (sparseRelease ov (fun _ d => less d) f).map (·.1)

def sparseMachineRun {α : Type} [DecidableEq α] (ov : Int → Option Int) (zero : α) :
    Sparse α → List (SparseOp α) → Option (Sparse α)
  | f, [] => some f
  | f, op :: ops => (sparseMachineStep ov zero f op).bind fun g => sparseMachineRun ov zero g ops

section
variable {α : Type}

theorem blocksOf_bn (w : Box3i) (o : Nat) :
    blocksOf w o = Sparse.bn o w.nx * Sparse.bn o w.ny * Sparse.bn o w.nz := rfl

theorem Refines.blocks {f : Sparse α} {m : SparseMap α} (r : Refines f m) :
    f.blocks.length = blocksOf m.dw m.order := by
  rw [r.wf.len, blocksOf_bn, r.dw, r.order]

theorem Refines.sidesFit {f : Sparse α} {m : SparseMap α} (r : Refines f m) : SidesFit f.dw := by
  obtain ⟨h1, h2, h3⟩ := r.fits
  exact ⟨by omega, by omega, by omega⟩

theorem sparse_machine_step [DecidableEq α] {ov : Int → Option Int} {zero : α} {f : Sparse α}
    {m : SparseMap α} (r : Refines f m) (op : SparseOp α) (hok : m.allowed op)
    (hi : IntBlocks m) (hi' : IntBlocks (m.apply zero op)) :
    sparseMachineStep ov zero f op = sparseStep zero f op := by
  have ho : f.order ≤ 10 := by rw [r.order]; exact hi.1
  have hn : f.blocks.length ≤ 2147483647 := by rw [r.blocks]; have := hi.2; omega
  cases op with
  | write q v =>
    exact sparse_write r.wf r.sidesFit ho hn (by rw [r.dw]; exact hok) v
  | clear v =>
    show sparseClear ov zero f v = some (f.clear zero v)
    unfold sparseClear
    rw [sparse_setSize r.wf.ne r.fits (by omega) (by rw [← r.wf.len]; exact hn)]
    rfl
  | resize e w =>
    refine sparse_setSize hok.1 (fits_of hok) (by omega) ?_
    have := hi'.2
    rw [show (m.apply zero (.resize e w)).dw = w from rfl,
      show (m.apply zero (.resize e w)).order = m.order from rfl, blocksOf_bn, ← r.order] at this
    omega
  | setBlockOrder o =>
    have h1 := hi'.1
    have h2 := hi'.2
    rw [show (m.apply zero (.setBlockOrder o)).dw = m.dw from rfl,
      show (m.apply zero (.setBlockOrder o)).order = o from rfl, blocksOf_bn, ← r.dw] at h2
    refine sparse_setSize (f := { f with order := o }) r.wf.ne r.fits ?_ ?_
    · show o ≤ 30
      have : o ≤ 10 := h1
      omega
    · show Sparse.bn o f.dw.nx * Sparse.bn o f.dw.ny * Sparse.bn o f.dw.nz ≤ 2147483647
      omega
  | setBlockEmptyValue b v =>
    obtain ⟨q, hq, rfl⟩ := hok
    have hq' : f.dw.contains q = true := by rw [r.dw]; exact hq
    obtain ⟨r1, r2, r3⟩ := Sparse.r_bounds r.wf hq'
    show sparseSetBlockEmptyValue ov f _ v = f.setBlockEmptyValue _ v
    unfold sparseSetBlockEmptyValue Sparse.setBlockEmptyValue
    rw [← r.dw, ← r.order, ← blockCoord_blockOf, Sparse.blockCoord_eq hq',
      blockId_ok r.wf (Sparse.div_lt_bn r1) (Sparse.div_lt_bn r2) (Sparse.div_lt_bn r3) hn]
    simp only [Option.bind_some]
    generalize f.block? _ = x
    cases x <;> rfl
  | releaseAllEqual =>
    show (sparseRelease ov _ f).map _ = _
    rw [sparse_release r.wf r.sidesFit ho]
    rfl
  | releaseMaxAbs less =>
    show (sparseRelease ov _ f).map _ = _
    rw [sparse_release r.wf r.sidesFit ho]
    rfl

theorem allIntBlocks_head [DecidableEq α] {zero : α} {m : SparseMap α} {ops : List (SparseOp α)}
    (h : allIntBlocks zero m ops) : IntBlocks m := by
  cases ops with
  | nil => exact h
  | cons op ops => exact h.1

theorem allIntBlocks_last {zero : α} (ops : List (SparseOp α)) : ∀ (m : SparseMap α),
    allIntBlocks zero m ops → IntBlocks (ops.foldl (SparseMap.apply zero) m) := by
  induction ops with
  | nil => intro m h; exact h
  | cons op ops ih => intro m h; exact ih _ h.2

theorem sparse_machine_run [DecidableEq α] (ov : Int → Option Int) (zero : α)
    (ops : List (SparseOp α)) : ∀ (f : Sparse α) (m : SparseMap α), Refines f m →
      m.allAllowed zero ops → allIntBlocks zero m ops →
      sparseMachineRun ov zero f ops = sparseRun zero f ops := by
  induction ops with
  | nil => intro f m _ _ _; rfl
  | cons op ops ih =>
    intro f m r hok hi
    obtain ⟨g, hg, hr⟩ := refines_step zero r op hok.1
    have hs := sparse_machine_step (ov := ov) r op hok.1 hi.1 (allIntBlocks_head hi.2)
    simp only [sparseMachineRun, sparseRun, hs, hg, Option.bind_some]
    exact ih g _ hr hok.2 hi.2

end

/-- C77: a sparse field of which, at every stage, the blocks have at most `1024` voxels along each
axis and number fewer than `2^31`, behaves on the machine as its abstract counterpart: no operation
overflows, whatever overflowing would do, and afterwards everything that can be observed is as it
should be, every voxel being read at machine addresses. -/
theorem C77_sparse_faithful {α : Type} [DecidableEq α] (ov : Int → Option Int) (zero : α)
    (e w : Box3i) (hw : SparseWindow w) (ops : List (SparseOp α))
    (hok : (SparseMap.fresh zero e w).allAllowed zero ops)
    (hi : allIntBlocks zero (SparseMap.fresh zero e w) ops) :
    ∃ f g, sparseSetSize ov zero (Sparse.empty zero) e w = some f ∧
      sparseMachineRun ov zero f ops = some g ∧
      Observes g (ops.foldl (SparseMap.apply zero) (SparseMap.fresh zero e w)) ∧
      g.blocks.length = blocksOf g.dw g.order ∧
      ∀ p, g.dw.contains p = true → sparseValue ov g p =
        some ((ops.foldl (SparseMap.apply zero) (SparseMap.fresh zero e w)).val p) := by
  have r0 := refines_fresh zero e w hw
  obtain ⟨g, hg, hr⟩ := refines_run zero ops _ _ r0 hok
  have h0 := allIntBlocks_head hi
  have hl := allIntBlocks_last ops _ hi
  have h02 := h0.2
  rw [show (SparseMap.fresh zero e w).dw = w from rfl,
    show (SparseMap.fresh zero e w).order = 4 from rfl, blocksOf_bn] at h02
  refine ⟨_, g, sparse_setSize hw.1 (fits_of hw) (by show 4 ≤ 30; decide) ?_, ?_, hr.observes, ?_, ?_⟩
  · show Sparse.bn 4 w.nx * Sparse.bn 4 w.ny * Sparse.bn 4 w.nz ≤ 2147483647
    omega
  · rw [sparse_machine_run ov zero ops _ _ r0 hok hi]; exact hg
  · rw [hr.blocks, hr.dw, hr.order]
  · intro p hp
    rw [sparse_value hr.wf hr.sidesFit (by rw [hr.order]; exact hl.1)
      (by rw [hr.blocks]; have := hl.2; omega) hp]
    exact hr.value p hp

example : SparseWindow ⟨⟨-4, 0, 0⟩, ⟨9999, 9999, 9999⟩⟩ ∧
    (SparseMap.fresh (0 : Int) ⟨⟨-4, 0, 0⟩, ⟨9999, 9999, 9999⟩⟩
      ⟨⟨-4, 0, 0⟩, ⟨9999, 9999, 9999⟩⟩).allAllowed 0
      [.write ⟨9999, 9999, 9999⟩ 3, .setBlockOrder 10, .write ⟨-4, 5, 6⟩ 2, .releaseAllEqual] ∧
    allIntBlocks 0 (SparseMap.fresh (0 : Int) ⟨⟨-4, 0, 0⟩, ⟨9999, 9999, 9999⟩⟩
      ⟨⟨-4, 0, 0⟩, ⟨9999, 9999, 9999⟩⟩)
      [.write ⟨9999, 9999, 9999⟩ 3, .setBlockOrder 10, .write ⟨-4, 5, 6⟩ 2, .releaseAllEqual] := by
  refine ⟨by unfold SparseWindow; decide, ⟨?_, trivial, ?_, trivial, trivial⟩, ?_⟩
  · show (⟨⟨-4, 0, 0⟩, ⟨9999, 9999, 9999⟩⟩ : Box3i).contains ⟨9999, 9999, 9999⟩ = true
    decide
  · show (⟨⟨-4, 0, 0⟩, ⟨9999, 9999, 9999⟩⟩ : Box3i).contains ⟨-4, 5, 6⟩ = true
    decide
  · have h4 : blocksOf ⟨⟨-4, 0, 0⟩, ⟨9999, 9999, 9999⟩⟩ 4 < 2 ^ 31 := by decide
    have h10 : blocksOf ⟨⟨-4, 0, 0⟩, ⟨9999, 9999, 9999⟩⟩ 10 < 2 ^ 31 := by decide
    have l4 : (4 : Nat) ≤ 10 := by decide
    have l10 : (10 : Nat) ≤ 10 := by decide
    exact ⟨⟨l4, h4⟩, ⟨l4, h4⟩, ⟨l10, h10⟩, ⟨l10, h10⟩, ⟨l10, h10⟩⟩

/-- C77: with `2^31` blocks or more, sizing a sparse field overflows, although none of its blocks
holds any voxel yet. -/
theorem C77_sparse_limit {α : Type} (zero : α) (f : Sparse α) (e w : Box3i) (hw : SparseWindow w)
    (hn : 2 ^ 31 ≤ blocksOf w f.order) : sparseSetSize undefinedOv zero f e w = none := by
  rw [blocksOf_bn] at hn
  exact sparse_setSize_none hw.1 (fits_of hw) (by omega)

example : SparseWindow ⟨⟨0, 0, 0⟩, ⟨4095, 4095, 4095⟩⟩ ∧
    2 ^ 31 ≤ blocksOf ⟨⟨0, 0, 0⟩, ⟨4095, 4095, 4095⟩⟩ 1 ∧
    ¬ 2 ^ 31 ≤ blocksOf ⟨⟨0, 0, 0⟩, ⟨4095, 4095, 4095⟩⟩ 4 := by
  unfold SparseWindow; decide

/-- C77: the number of voxels in a block can be computed for block orders up to `10` and for no
other. Up to there the field and the file code, which compute it differently, agree. From order
`11` on, the first write to a block without data overflows; where overflow wraps, a block of order
`11` gets no elements at all, and the write goes outside of it. -/
theorem C77_block_order {α : Type} :
    (∀ ov o, o ≤ 10 → blockVoxels ov o = some ((2 ^ o) ^ 3) ∧
      fileBlockVoxels ov o = some ((2 ^ o) ^ 3)) ∧
    (∀ o, 10 < o → blockVoxels undefinedOv o = none) ∧
    (∀ (f : Sparse α) (m : SparseMap α) (p : V3i) (v : α), Observes f m → 10 < f.order →
      f.dw.contains p = true → ¬ m.alloc (blockOf m.dw m.order p) →
      sparseWrite undefinedOv f p v = none) ∧
    blockVoxels wrapping 11 = some 0 ∧
    (∀ (f : Sparse α) (p : V3i) (v : α), f.order = 11 →
      (∀ b ∈ f.blocks, b.isAllocated = false) → sparseWrite wrapping f p v = none) := by
  have cube : ∀ o, (2 ^ o) ^ 3 = 2 ^ o * 2 ^ o * 2 ^ o := by intro o; rw [Nat.pow_succ, Nat.pow_two]
  refine ⟨?_, fun o h => blockVoxels_none h, ?_, by decide, ?_⟩
  · intro ov o ho
    rw [cube]
    exact ⟨blockVoxels_ok ho, fileBlockVoxels_eq ho⟩
  · intro f m p v ob ho hp hna
    unfold sparseWrite
    rw [blockVoxels_none ho]
    cases ha : sparseAddress undefinedOv f p with
    | none => rfl
    | some a =>
      simp only [Option.bind_some]
      cases hb : f.block? a.1 with
      | none => rfl
      | some b =>
        simp only [Option.bind_some, Option.bind_none]
        rw [if_neg]
        have hid := address_exact ha
        rw [ob.dw] at hp
        obtain ⟨r, hr, hra⟩ := ob.voxelAlloc p hp
        unfold Sparse.voxelIsInAllocatedBlock Sparse.blockIsAllocated at hr
        rw [← hid, hb] at hr
        cases hr
        exact fun c => hna (hra.mp c)
  · intro f p v ho hall
    unfold sparseWrite
    rw [ho, show blockVoxels wrapping 11 = some 0 by decide]
    cases sparseAddress wrapping f p with
    | none => rfl
    | some a =>
      simp only [Option.bind_some]
      cases hb : f.block? a.1 with
      | none => rfl
      | some b =>
        have hm : b ∈ f.blocks := by
          unfold Sparse.block? at hb
          split at hb
          · exact List.mem_of_getElem? hb
          · cases hb
        simp only [Option.bind_some, hall b hm, Bool.false_eq_true, if_false]
        unfold Sparse.store
        have : ((f.setBlock a.1 (b.resize 0)).block? a.1).bind (fun b => b.write a.2 v) = none := by
          unfold Sparse.block? at hb ⊢
          split at hb
          · rename_i h0
            rw [if_pos h0]
            have hlt : a.1.toNat < f.blocks.length := (List.getElem?_eq_some_iff.mp hb).1
            show ((f.blocks.set a.1.toNat (b.resize 0))[a.1.toNat]?).bind _ = none
            rw [List.getElem?_set_self hlt]
            simp [Block.write, Block.resize]
          · cases hb
        rw [this]

example : ∃ (f : Sparse Int) (m : SparseMap Int), Observes f m ∧ f.order = 11 ∧
    f.dw.contains ⟨0, 0, 0⟩ = true ∧ ¬ m.alloc (blockOf m.dw m.order ⟨0, 0, 0⟩) ∧
    ∀ b ∈ f.blocks, b.isAllocated = false := by
  have hw : SparseWindow ⟨⟨0, 0, 0⟩, ⟨9, 9, 9⟩⟩ := by unfold SparseWindow; decide
  obtain ⟨g, hg, hr⟩ := refines_step (0 : Int)
    (refines_fresh (0 : Int) ⟨⟨0, 0, 0⟩, ⟨9, 9, 9⟩⟩ ⟨⟨0, 0, 0⟩, ⟨9, 9, 9⟩⟩ hw)
    (.setBlockOrder 11) trivial
  refine ⟨g, _, hr.observes, hr.order, ?_, fun h => h, ?_⟩
  · rw [hr.dw]
    show (⟨⟨0, 0, 0⟩, ⟨9, 9, 9⟩⟩ : Box3i).contains ⟨0, 0, 0⟩ = true
    decide
  · cases hg
    intro b hb
    rw [List.eq_of_mem_replicate hb]
    rfl

/-! ## Grains and end iterators -/

/-- C77: as long as a dense field's window ends below the largest `int` along x, its grains on the
machine partition it: one grain for each row, each voxel of the window in exactly one. A window that
reaches the largest `int` along x overflows in every grain. -/
theorem C77_dense_grains (w : Box3i) (hne : w.isEmpty = false) (hs : IntSides w)
    (hlo : ∀ n ∈ [w.min.x, w.min.y, w.min.z], -2 ^ 31 ≤ n)
    (hhi : ∀ n ∈ [w.max.x, w.max.y, w.max.z], n < 2 ^ 31) :
    (w.max.x < 2 ^ 31 - 1 → ∀ ov,
      (∀ idx, idx < side w.min.y w.max.y * side w.min.z w.max.z →
        ∃ b, denseGrain ov w idx = some b ∧ ∀ p, b.contains p = true → w.contains p = true) ∧
      ∀ p, w.contains p = true → ∃ idx b, idx < side w.min.y w.max.y * side w.min.z w.max.z ∧
        denseGrain ov w idx = some b ∧ b.contains p = true ∧
        ∀ idx' b', idx' < side w.min.y w.max.y * side w.min.z w.max.z →
          denseGrain ov w idx' = some b' → b'.contains p = true → idx' = idx) ∧
    (w.max.x = 2 ^ 31 - 1 → ∀ idx, idx < side w.min.y w.max.y * side w.min.z w.max.z →
      denseGrain undefinedOv w idx = none) := by
  have hc : Corners w := by
    simp only [List.mem_cons, List.not_mem_nil, or_false, forall_eq_or_imp, forall_eq] at hlo hhi
    unfold Corners
    omega
  constructor
  · intro hx ov
    have g := fun idx (hi : idx < w.ny * w.nz) =>
      dense_grain (ov := ov) (f := (⟨w, w, 0, 0, []⟩ : Dense Unit)) hne (sidesFit hs) hc
        (show w.max.x < 2147483647 by omega) hi
    obtain ⟨h1, h2⟩ := C15_dense_grains (⟨w, w, 0, 0, []⟩ : Dense Unit) hne
    have hn : (⟨w, w, 0, 0, []⟩ : Dense Unit).numGrains = ((w.ny * w.nz : Nat) : Int) := by
      obtain ⟨d1, d2, d3, _, _, _⟩ := w.dims hne
      have hsz := Dense.size_of_ne hne
      have ry : (w.size + V3i.all 1).y = w.ny := by rw [hsz]; simp; omega
      have rz : (w.size + V3i.all 1).z = w.nz := by rw [hsz]; simp; omega
      show (w.size + V3i.all 1).y * (w.size + V3i.all 1).z = _
      rw [ry, rz]; push_cast; rfl
    rw [hn] at h1 h2
    constructor
    · intro idx hi
      exact ⟨_, g idx hi, fun p hp => h2 idx p (Int.ofNat_lt.mpr hi) hp⟩
    · intro p hp
      obtain ⟨idx, hi, hin, hu⟩ := h1 p hp
      have hi' : idx < w.ny * w.nz := Int.ofNat_lt.mp hi
      refine ⟨idx, _, hi', g idx hi', hin, ?_⟩
      intro idx' b' hlt hb' hpb
      rw [g idx' hlt] at hb'
      cases hb'
      exact hu idx' (Int.ofNat_lt.mpr hlt) hpb
  · intro hx idx hi
    exact dense_grain_none hne (sidesFit hs) hc (by omega) hi

example : (⟨⟨2147483000, 0, 0⟩, ⟨2147483646, 9, 9⟩⟩ : Box3i).isEmpty = false ∧
    IntSides ⟨⟨2147483000, 0, 0⟩, ⟨2147483646, 9, 9⟩⟩ ∧
    denseGrain undefinedOv ⟨⟨2147483000, 0, 0⟩, ⟨2147483646, 9, 9⟩⟩ 25 =
      some ⟨⟨2147483000, 5, 2⟩, ⟨2147483646, 5, 2⟩⟩ := by
  refine ⟨by decide, by unfold IntSides; decide, by decide⟩

/-- C77: the grains of a sparse field on the machine are its blocks clipped to its window, as long
as the window stays a block's length below the largest `int`: grain `idx` holds exactly the window
voxels that are stored in block `idx`. -/
theorem C77_sparse_grains {α : Type} [DecidableEq α] (ov : Int → Option Int) (zero : α)
    (f : Sparse α) (hr : SparseReachable zero f) (ho : f.order ≤ 10)
    (hn : blocksOf f.dw f.order < 2 ^ 31)
    (hlo : ∀ n ∈ [f.dw.min.x, f.dw.min.y, f.dw.min.z], -2 ^ 31 ≤ n)
    (hhi : ∀ n ∈ [f.dw.max.x, f.dw.max.y, f.dw.max.z], n + (2 ^ f.order : Nat) ≤ 2 ^ 31)
    (idx : Nat) (hi : idx < blocksOf f.dw f.order) :
    ∃ b, sparseGrain ov f idx = some b ∧
      ∀ p, b.contains p = true ↔
        f.dw.contains p = true ∧ sparseAddress ov f p = some ((idx : Int), Block.offset f.order
          ⟨(p.x - f.dw.min.x) % (2 ^ f.order : Nat), (p.y - f.dw.min.y) % (2 ^ f.order : Nat),
           (p.z - f.dw.min.z) % (2 ^ f.order : Nat)⟩) := by
  obtain ⟨m, r⟩ := reachable_refines hr
  simp only [List.mem_cons, List.not_mem_nil, or_false, forall_eq_or_imp, forall_eq] at hlo hhi
  have hB := Nat.two_pow_pos f.order
  have hc : Corners f.dw := by unfold Corners; omega
  have hlen : f.blocks.length = blocksOf f.dw f.order := by rw [r.blocks, r.dw, r.order]
  refine ⟨_, sparse_grain r.wf r.sidesFit (by omega) (by omega) hc (by omega) (by omega) (by omega)
    (by omega), ?_⟩
  intro p
  rw [C15_sparse_grain_is_block zero f hr idx (by show idx < f.blocks.length; omega) p]
  apply and_congr_right
  intro hp
  rw [sparse_address r.wf r.sidesFit ho (by omega) hp, ← blockCoord_blockOf]
  constructor
  · intro h
    rw [h]
    rfl
  · intro h
    exact (Prod.mk.inj (Option.some.inj h)).1

example : ∃ f : Sparse Int, SparseReachable 0 f ∧ f.order ≤ 10 ∧
    f.dw = ⟨⟨2147480000, -5, 0⟩, ⟨2147483632, 9, 9⟩⟩ ∧ blocksOf f.dw f.order < 2 ^ 31 ∧
    (∀ n ∈ [f.dw.max.x, f.dw.max.y, f.dw.max.z], n + (2 ^ f.order : Nat) ≤ 2 ^ 31) ∧
    200 < blocksOf f.dw f.order := by
  have hw : SparseWindow ⟨⟨2147480000, -5, 0⟩, ⟨2147483632, 9, 9⟩⟩ := by
    unfold SparseWindow; decide
  refine ⟨(Sparse.empty 0).setSize 0 _ ⟨⟨2147480000, -5, 0⟩, ⟨2147483632, 9, 9⟩⟩,
    ⟨⟨⟨0, 0, 0⟩, ⟨9, 9, 9⟩⟩, _, [], hw, trivial, rfl⟩, ?_, rfl, ?_, ?_, ?_⟩
  · show 4 ≤ 10
    decide
  · show blocksOf ⟨⟨2147480000, -5, 0⟩, ⟨2147483632, 9, 9⟩⟩ 4 < 2 ^ 31
    decide
  · show ∀ n ∈ [2147483632, 9, 9], n + ((2 ^ 4 : Nat) : Int) ≤ 2 ^ 31
    decide
  · show 200 < blocksOf ⟨⟨2147480000, -5, 0⟩, ⟨2147483632, 9, 9⟩⟩ 4
    decide

/-- C77: a sparse window that ends at the largest `int` in the middle of a block: the grain of that
block overflows before it is clipped. -/
theorem C77_sparse_grain_overflow :
    ∃ w, SparseWindow w ∧ w.max.x = 2 ^ 31 - 1 ∧
      sparseGrain undefinedOv ((Sparse.empty (0 : Int)).setSize 0 w w) 0 = none ∧
      ((Sparse.empty (0 : Int)).setSize 0 w w).getGrainBounds 0 = w := by
  refine ⟨⟨⟨2147483645, 0, 0⟩, ⟨2147483647, 9, 9⟩⟩, by unfold SparseWindow; decide, by decide,
    by decide +kernel, by decide +kernel⟩

/-- C77: the end iterator over a window is one slice above it, which exists exactly when the window
does not end at the largest `int`. -/
theorem C77_end_position (w : Box3i) (h : -2 ^ 31 ≤ w.max.z ∧ w.max.z < 2 ^ 31) :
    ((∀ ov, endPosition ov w = some ⟨w.min.x, w.min.y, w.max.z + 1⟩) ↔ w.max.z ≠ 2 ^ 31 - 1) ∧
    (w.max.z = 2 ^ 31 - 1 → endPosition undefinedOv w = none ∧
      endPosition wrapping w = some ⟨w.min.x, w.min.y, -2 ^ 31⟩) := by
  have h2 : w.max.z = 2 ^ 31 - 1 → endPosition undefinedOv w = none ∧
      endPosition wrapping w = some ⟨w.min.x, w.min.y, -2 ^ 31⟩ := by
    intro hz
    unfold endPosition
    rw [hz]
    exact ⟨rfl, rfl⟩
  refine ⟨⟨?_, ?_⟩, h2⟩
  · intro hov hz
    have := hov undefinedOv
    rw [(h2 hz).1] at this
    cases this
  · intro hz ov
    unfold endPosition
    rw [int_ok (by omega) (by omega)]
    rfl

end F3D.Props
