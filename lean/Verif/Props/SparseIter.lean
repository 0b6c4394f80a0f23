import Verif.Proofs.SparseDyn
import Verif.Props.Sparse

/-!
# C12, C14, C15 (sparse): sparse voxel iterators, block iterator and grains
-/

namespace F3D.Props
open F3D

variable {α : Type}

/-- `iter++` on a possibly failed iterator. -/
def sparseNext (f : Sparse α) (w : Box3i) (s : Option Sparse.Iter) : Option Sparse.Iter :=
  s.bind (f.iterNext w)

/-- `iter == end`; an undefined iterator never compares equal. -/
def sparseAtEnd (w : Box3i) : Option Sparse.Iter → Bool
  | none => false
  | some s => Sparse.iterAtEnd w s

theorem sub_of_corners {dw w : Box3i} (hmin : dw.contains w.min = true)
    (hmax : dw.contains w.max = true) : ∀ q, w.contains q = true → dw.contains q = true := by
  intro q hq
  rw [Box3i.contains_iff] at *
  omega

/-- C12: traversing any non-empty sub-box of the data window of a reachable in-memory sparse field
terminates, visits its voxels exactly once and in order, and at every step the iterator is
well-defined and dereferences the value of the voxel whose coordinates it reports. -/
theorem C12_sparse_iterator [DecidableEq α] (zero : α) (f : Sparse α) (hr : SparseReachable zero f)
    (w : Box3i) (hw : w.isEmpty = false) (hmin : f.dw.contains w.min = true)
    (hmax : f.dw.contains w.max = true) :
    ∃ l : List Sparse.Iter,
      Visits (sparseNext f w) (sparseAtEnd w) (f.iterBegin w) (l.map some) ∧
      TraversesBox w (l.map (·.pos)) ∧
      ∀ s ∈ l, ∃ v, f.iterDeref s = some v ∧ f.value s.pos = some v := by
  obtain ⟨m, r⟩ := reachable_refines hr
  have wf := r.wf
  have hsub := sub_of_corners hmin hmax
  refine ⟨w.voxels.map f.itAt, ?_, ?_, ?_⟩
  · have hb : f.iterBegin w = some (f.itAt w.min) := by
      unfold Sparse.iterBegin
      rw [hw, if_neg (by simp), Sparse.iterMake_in wf hmin]
    rw [hb, List.map_map]
    refine visits_of_sim (emb := some ∘ f.itAt) hw ?_ ?_ ?_
    · intro p hp hne
      exact Sparse.iterNext_in wf hsub hw hp hne
    · obtain ⟨s', h1, h2⟩ := Sparse.iterNext_max' wf hsub hw (f.itAt w.max) rfl
      show sparseAtEnd w (f.iterNext w (f.itAt w.max)) = true
      rw [h1]
      show F3D.iterAtEnd w s'.pos = true
      rw [iterAtEnd_iff, h2]
    · intro p hp
      exact iterAtEnd_false_of_contains hp
  · rw [List.map_map]
    have : (Sparse.Iter.pos ∘ f.itAt) = id := rfl
    rw [this, List.map_id]
    exact voxels_traverses hw
  · intro s hs
    rw [List.mem_map] at hs
    obtain ⟨p, hp, rfl⟩ := hs
    rw [Box3i.mem_voxels hw] at hp
    obtain ⟨v, hv⟩ := Sparse.value_isSome wf (hsub p hp)
    exact ⟨v, by rw [Sparse.iterDeref_itAt wf (hsub p hp), hv], hv⟩

/-- C12: `cbegin()`/`begin()` start the traversal of the whole data window. -/
theorem C12_sparse_iterator_whole (f : Sparse α) (h : f.dw.isEmpty = false) :
    f.iterBeginAll = f.iterBegin f.dw := by
  have h' := Box3i.isEmpty_false.mp h
  unfold Sparse.iterBeginAll Sparse.iterBegin
  rw [if_neg, h, if_neg (by simp)]
  intro e
  have := congrArg V3i.x e
  simp [Box3i.res] at this
  omega

/-! ### Writing through the iterator -/

/-- The loop body `*it = val(it.x, it.y, it.z)` followed by `++it`. -/
def fillStep (w : Box3i) (val : V3i → α) (s : Option (Sparse α × Sparse.Iter)) :
    Option (Sparse α × Sparse.Iter) :=
  s.bind fun (f, it) => (f.iterWrite it (val it.pos)).bind fun (g, it') =>
    (g.iterNext w it').map fun it'' => (g, it'')

def fillAtEnd (w : Box3i) : Option (Sparse α × Sparse.Iter) → Bool
  | none => false
  | some s => Sparse.iterAtEnd w s.2

theorem coordAt_contains_next {w : Box3i} (hw : w.isEmpty = false) {i : Nat} (hi : i + 1 < w.vol) :
    w.coordAt i ≠ w.max ∧ w.contains (F3D.iterNext w (w.coordAt i)) = true := by
  refine ⟨Box3i.coordAt_ne_max hw hi, ?_⟩
  rw [← Box3i.coordAt_succ hw]
  exact Box3i.contains_coordAt hw hi

/-- C12: filling a sub-box through the writable iterator sets every voxel of the box to the value
computed from its coordinates, leaves every other voxel alone, and never writes through an invalid
pointer, whichever blocks were allocated before. -/
theorem C12_sparse_fill [DecidableEq α] (zero : α) (f : Sparse α) (hr : SparseReachable zero f)
    (w : Box3i) (hw : w.isEmpty = false) (hmin : f.dw.contains w.min = true)
    (hmax : f.dw.contains w.max = true) (val : V3i → α) :
    ∃ l g it, Loop (fillStep w val) (fillAtEnd w) ((f.iterBegin w).map (fun it => (f, it))) l
        (some (g, it)) ∧ g.dw = f.dw ∧
      ∀ p, f.dw.contains p = true →
        g.value p = if w.contains p then some (val p) else f.value p := by
  obtain ⟨m, r⟩ := reachable_refines hr
  have wf := r.wf
  have hsub := sub_of_corners hmin hmax
  have hvol := Box3i.vol_pos hw
  let R : Nat → Option (Sparse α × Sparse.Iter) → Prop := fun i s =>
    ∃ g it, s = some (g, it) ∧ g.WF ∧ g.dw = f.dw ∧
      (i < w.vol → it = g.itAt (w.coordAt i)) ∧ (i = w.vol → it.pos = iterEnd w) ∧
      ∀ p, f.dw.contains p = true →
        g.value p = if w.contains p = true ∧ w.indexOf p < i then some (val p) else f.value p
  have hb : (f.iterBegin w).map (fun it => (f, it)) = some (f, f.itAt w.min) := by
    unfold Sparse.iterBegin
    rw [hw, if_neg (by simp), Sparse.iterMake_in wf hmin]; rfl
  have h0 : R 0 ((f.iterBegin w).map (fun it => (f, it))) := by
    refine ⟨f, f.itAt w.min, hb, wf, rfl, fun _ => by rw [Box3i.coordAt_zero], fun h => by omega, ?_⟩
    intro p _; simp
  have hstep : ∀ i s, i < w.vol → R i s → R (i + 1) (fillStep w val s) := by
    rintro i s hi ⟨g, it, rfl, gwf, gdw, hit, _, hval⟩
    have hit' := hit hi
    have hc := Box3i.contains_coordAt hw hi
    have hcg : g.dw.contains (w.coordAt i) = true := by rw [gdw]; exact hsub _ hc
    obtain ⟨g', hwr, hiw⟩ := Sparse.iterWrite_eq gwf hcg (val (w.coordAt i))
    obtain ⟨g'', hwr', gwf', gdw', _, _, gval', _⟩ := Sparse.write_value gwf hcg (val (w.coordAt i))
    rw [hwr] at hwr'; cases hwr'
    have hsub' : ∀ q, w.contains q = true → g'.dw.contains q = true := by
      intro q hq; rw [gdw', gdw]; exact hsub q hq
    have hvals : ∀ p, f.dw.contains p = true →
        g'.value p = if w.contains p = true ∧ w.indexOf p < i + 1 then some (val p) else f.value p := by
      intro p hp
      rw [gval' p (by rw [gdw]; exact hp), hval p hp]
      by_cases hpe : p = w.coordAt i
      · subst hpe
        rw [if_pos rfl, if_pos ⟨hc, by rw [Box3i.indexOf_coordAt]; omega⟩]
      · rw [if_neg hpe]
        by_cases hpw : w.contains p = true
        · have : w.indexOf p ≠ i := by
            intro e; apply hpe; rw [← e, Box3i.coordAt_indexOf hw hpw]
          by_cases hlt : w.indexOf p < i
          · rw [if_pos ⟨hpw, hlt⟩, if_pos ⟨hpw, by omega⟩]
          · rw [if_neg (fun h => hlt h.2), if_neg (fun h => by omega)]
        · rw [if_neg (fun h => hpw h.1), if_neg (fun h => hpw h.1)]
    have hfs : fillStep w val (some (g, it)) =
        (g'.iterNext w (g'.itAt (w.coordAt i))).map fun it'' => (g', it'') := by
      subst hit'
      simp only [fillStep, Option.bind_some]
      rw [show (g.itAt (w.coordAt i)).pos = w.coordAt i from rfl, hiw]
      rfl
    by_cases hlast : i + 1 < w.vol
    · obtain ⟨hne, _⟩ := coordAt_contains_next hw hlast
      rw [hfs, Sparse.iterNext_in gwf' hsub' hw hc hne]
      refine ⟨g', _, rfl, gwf', by rw [gdw', gdw], fun _ => ?_, fun h => by omega, hvals⟩
      rw [Box3i.coordAt_succ hw]
    · have hmaxi : w.coordAt i = w.max := by
        rw [show i = w.vol - 1 by omega, Box3i.coordAt_last hw]
      obtain ⟨s', e1, e2⟩ := Sparse.iterNext_max' gwf' hsub' hw (g'.itAt (w.coordAt i)) hmaxi
      rw [hfs, e1]
      exact ⟨g', s', rfl, gwf', by rw [gdw', gdw], fun h => by omega, fun _ => e2, hvals⟩
  obtain ⟨l, t, hloop, ⟨g, it, rfl, _, gdw, _, _, hval⟩, _, _⟩ := loop_of_inv (isEnd := fillAtEnd w) R hstep
    (by
      rintro i s hi ⟨g, it, rfl, _, _, hit, _⟩
      rw [hit hi]
      exact iterAtEnd_false_of_contains (Box3i.contains_coordAt hw hi))
    (by
      rintro s ⟨g, it, rfl, _, _, _, hend, _⟩
      show F3D.iterAtEnd w it.pos = true
      rw [iterAtEnd_iff]; exact hend rfl) h0
  refine ⟨l, g, it, hloop, gdw, ?_⟩
  intro p hp
  rw [hval p hp]
  by_cases hpw : w.contains p = true
  · rw [if_pos ⟨hpw, Box3i.indexOf_lt hw hpw⟩, if_pos hpw]
  · rw [if_neg (fun h => hpw h.1), if_neg hpw]

/-! ### File-backed fields -/

/-- The loop `v = *it; ++it` of a field with a manager. -/
def dynStep (f : Sparse α) (w : Box3i) (s : Option Sparse.DynIter) : Option Sparse.DynIter :=
  s.bind fun d => (f.dynDeref d).bind fun (_, d') => f.dynNext w d'

def dynAtEnd (w : Box3i) : Option Sparse.DynIter → Bool
  | none => false
  | some d => F3D.iterAtEnd w d.pos

/-- C12: for a file-backed field whose data window starts at a multiple of the block size, a
traversal that reads every voxel visits every voxel of the sub-box once, in order, and reads its
value. -/
theorem C12_dynamic_iterator_aligned [DecidableEq α] (zero : α) (f : Sparse α)
    (hr : SparseReachable zero f) (ha : f.Aligned)
    (w : Box3i) (hw : w.isEmpty = false) (hmin : f.dw.contains w.min = true)
    (hmax : f.dw.contains w.max = true) :
    ∃ l : List Sparse.DynIter,
      Visits (dynStep f w) (dynAtEnd w) (f.dynBegin w) (l.map some) ∧
      TraversesBox w (l.map (·.pos)) ∧
      ∀ d ∈ l, ∃ v d', f.dynDeref d = some (v, d') ∧ f.value d.pos = some v := by
  obtain ⟨m, r⟩ := reachable_refines hr
  have wf := r.wf
  have hsub := sub_of_corners hmin hmax
  have hvol := Box3i.vol_pos hw
  let R : Nat → Option Sparse.DynIter → Prop := fun i s =>
    ∃ d, s = some d ∧ (i < w.vol → Sparse.DAt f (w.coordAt i) d) ∧ (i = w.vol → d.pos = iterEnd w)
  have h0 : R 0 (f.dynBegin w) := by
    have : f.dynBegin w = Sparse.dynSetup f ⟨w.min, .null, false, false, 0, -1⟩ w.min := by
      unfold Sparse.dynBegin; rw [hw]; rfl
    rw [this]
    obtain ⟨d, hd, hda⟩ := Sparse.dynSetup_in wf hmin ⟨w.min, .null, false, false, 0, -1⟩ rfl
    exact ⟨d, hd, fun _ => by rw [Box3i.coordAt_zero]; exact hda, fun h => by omega⟩
  have hstep : ∀ i s, i < w.vol → R i s → R (i + 1) (dynStep f w s) := by
    rintro i s hi ⟨d, rfl, hd, _⟩
    have hc := Box3i.contains_coordAt hw hi
    obtain ⟨v, d', h1, h2, h3, _⟩ := Sparse.dynDeref_at wf ha (hsub _ hc) (hd hi)
    have hs : dynStep f w (some d) = f.dynNext w d' := by simp [dynStep, h1]
    rw [hs]
    by_cases hlast : i + 1 < w.vol
    · obtain ⟨_, hn⟩ := coordAt_contains_next hw hlast
      obtain ⟨d'', e1, e2⟩ := Sparse.dynNext_at wf hsub hc hn h3
      exact ⟨d'', e1, fun _ => by rw [Box3i.coordAt_succ hw]; exact e2, fun h => by omega⟩
    · have hmaxi : w.coordAt i = w.max := by
        rw [show i = w.vol - 1 by omega, Box3i.coordAt_last hw]
      obtain ⟨s', e1, e2⟩ := Sparse.dynNext_max wf hsub hw d' (by rw [h3.pos, hmaxi])
      exact ⟨s', e1, fun h => by omega, fun _ => e2⟩
  obtain ⟨l, t, hloop, _, hlen, hall⟩ := loop_of_inv (isEnd := dynAtEnd w) R hstep
    (by
      rintro i s hi ⟨d, rfl, hd, _⟩
      show F3D.iterAtEnd w d.pos = false
      rw [(hd hi).pos]
      exact iterAtEnd_false_of_contains (Box3i.contains_coordAt hw hi))
    (by
      rintro s ⟨d, rfl, _, he⟩
      show F3D.iterAtEnd w d.pos = true
      rw [iterAtEnd_iff]; exact he rfl) h0
  -- every visited state is defined
  have hsome : ∀ s ∈ l, s.isSome = true := by
    intro s hs
    obtain ⟨i, hi⟩ := List.getElem?_of_mem hs
    obtain ⟨d, rfl, _⟩ := hall i s hi
    rfl
  have hl : (l.filterMap id).map some = l := by
    clear hloop hlen hall
    induction l with
    | nil => rfl
    | cons a l ih =>
      have ha' := hsome a List.mem_cons_self
      obtain ⟨d, rfl⟩ := Option.isSome_iff_exists.mp ha'
      simp only [List.filterMap_cons, id, List.map_cons]
      rw [ih (fun s hs => hsome s (List.mem_cons_of_mem _ hs))]
  have hget : ∀ i d, (l.filterMap id)[i]? = some d → i < w.vol ∧ Sparse.DAt f (w.coordAt i) d := by
    intro i d hd
    have : l[i]? = some (some d) := by
      rw [← hl, List.getElem?_map, hd]; rfl
    have hi : i < w.vol := by
      rw [← hlen]; exact (List.getElem?_eq_some_iff.mp this).1
    obtain ⟨d', he, hda, _⟩ := hall i _ this
    cases he
    exact ⟨hi, hda hi⟩
  refine ⟨l.filterMap id, by rw [hl]; exact hloop.visits, ?_, ?_⟩
  · rw [map_pos_eq_voxels (b := w) (by rw [← hlen, ← hl]; simp) (fun i d hd => (hget i d hd).2.pos)]
    exact voxels_traverses hw
  · intro d hd
    obtain ⟨i, hi⟩ := List.getElem?_of_mem hd
    obtain ⟨hv, hda⟩ := hget i d hi
    obtain ⟨v, d', h1, h2, _, _⟩ := Sparse.dynDeref_at wf ha (hsub _ (Box3i.contains_coordAt hw hv)) hda
    exact ⟨v, d', h1, by rw [hda.pos]; exact h2⟩

/-- A field over the window `1..2` along x with block order 1 and one written voxel. -/
def misalignedField : Option (Sparse Int) :=
  sparseRun 0 ((Sparse.empty 0).setSize 0 ⟨⟨1, 0, 0⟩, ⟨2, 0, 0⟩⟩ ⟨⟨1, 0, 0⟩, ⟨2, 0, 0⟩⟩)
    [.setBlockOrder 1, .write ⟨1, 0, 0⟩ 7]

/-- C12: for a file-backed field whose window does not start at a multiple of the block size the
iterator reads another voxel: here the first voxel reads 0 instead of 7. -/
theorem C12_dynamic_iterator_misaligned :
    ∃ f d d', misalignedField = some f ∧ SparseReachable 0 f ∧
      f.value ⟨1, 0, 0⟩ = some 7 ∧ f.dynBegin f.dw = some d ∧ d.pos = ⟨1, 0, 0⟩ ∧
      f.dynDeref d = some (0, d') := by
  have hv : misalignedField.bind (fun f => f.value ⟨1, 0, 0⟩) = some 7 := by decide +kernel
  have hd : misalignedField.bind (fun f => (f.dynBegin f.dw).bind (fun d => (f.dynDeref d).map
      (fun r => (d.pos, r.1)))) = some (⟨1, 0, 0⟩, 0) := by decide +kernel
  cases hf : misalignedField with
  | none => rw [hf] at hv; cases hv
  | some f =>
    rw [hf] at hv hd
    simp only [Option.bind_some] at hv hd
    cases hb : f.dynBegin f.dw with
    | none => rw [hb] at hd; cases hd
    | some d =>
      rw [hb] at hd
      simp only [Option.bind_some] at hd
      cases hdd : f.dynDeref d with
      | none => rw [hdd] at hd; cases hd
      | some r =>
        rw [hdd] at hd
        simp only [Option.map_some, Option.some_inj, Prod.mk.injEq] at hd
        refine ⟨f, d, r.2, rfl, ⟨_, _, _, ?_, ?_, hf⟩, hv, hb, hd.1, ?_⟩
        · unfold SparseWindow; decide
        · exact ⟨trivial, rfl, trivial⟩
        · rw [hdd, ← hd.2]

/-- Non-vacuity: an aligned and reachable field with an allocated block. -/
example : ∃ f, sparseRun (0 : Int) ((Sparse.empty 0).setSize 0 ⟨⟨-2, 0, 0⟩, ⟨2, 0, 0⟩⟩ ⟨⟨-2, 0, 0⟩, ⟨2, 0, 0⟩⟩)
    [.setBlockOrder 1, .write ⟨1, 0, 0⟩ 7] = some f ∧ f.Aligned ∧ SparseReachable 0 f := by
  have h : ((sparseRun (0 : Int) ((Sparse.empty 0).setSize 0 ⟨⟨-2, 0, 0⟩, ⟨2, 0, 0⟩⟩ ⟨⟨-2, 0, 0⟩, ⟨2, 0, 0⟩⟩)
    [.setBlockOrder 1, .write ⟨1, 0, 0⟩ 7]).map (fun f => (f.dw.min, f.order))) =
      some (⟨-2, 0, 0⟩, 1) := by decide +kernel
  cases hf : sparseRun (0 : Int) ((Sparse.empty 0).setSize 0 ⟨⟨-2, 0, 0⟩, ⟨2, 0, 0⟩⟩ ⟨⟨-2, 0, 0⟩, ⟨2, 0, 0⟩⟩)
    [.setBlockOrder 1, .write ⟨1, 0, 0⟩ 7] with
  | none => rw [hf] at h; cases h
  | some f =>
    rw [hf] at h
    simp only [Option.map_some, Option.some_inj, Prod.mk.injEq] at h
    refine ⟨f, rfl, ?_, ⟨_, _, _, ?_, ?_, hf⟩⟩
    · unfold Sparse.Aligned; rw [h.1, h.2]; decide
    · unfold SparseWindow; decide
    · exact ⟨trivial, rfl, trivial⟩

/-! ## C14 -/

theorem blockWindow_ne {f : Sparse α} (wf : f.WF) : f.blockWindow.isEmpty = false := by
  obtain ⟨_, _, _, p1, p2, p3⟩ := f.dw.dims wf.ne
  have q1 := Sparse.bn_pos (o := f.order) p1
  have q2 := Sparse.bn_pos (o := f.order) p2
  have q3 := Sparse.bn_pos (o := f.order) p3
  rw [Box3i.isEmpty_false]
  simp only [Sparse.blockWindow, V3i.all_x, V3i.all_y, V3i.all_z, V3i.sub_x, V3i.sub_y, V3i.sub_z,
    wf.bx, wf.by', wf.bz]
  omega

theorem inBlock_iff_window {f : Sparse α} (wf : f.WF) (b : V3i) :
    f.blockWindow.contains b = true ↔ ∃ p, f.dw.contains p = true ∧ blockOf f.dw f.order p = b := by
  rw [Box3i.contains_iff]
  simp only [Sparse.blockWindow, V3i.all_x, V3i.all_y, V3i.all_z, V3i.sub_x, V3i.sub_y, V3i.sub_z,
    wf.bx, wf.by', wf.bz]
  constructor
  · intro h
    have e1 : b.x = (b.x.toNat : Nat) := by omega
    have e2 : b.y = (b.y.toNat : Nat) := by omega
    have e3 : b.z = (b.z.toNat : Nat) := by omega
    have k1 := Sparse.mul_lt_of_lt_bn (o := f.order) (n := f.dw.nx) (c := b.x.toNat) (by omega)
    have k2 := Sparse.mul_lt_of_lt_bn (o := f.order) (n := f.dw.ny) (c := b.y.toNat) (by omega)
    have k3 := Sparse.mul_lt_of_lt_bn (o := f.order) (n := f.dw.nz) (c := b.z.toNat) (by omega)
    have hm : f.dw.contains ⟨f.dw.min.x + (b.x.toNat * 2 ^ f.order : Nat),
        f.dw.min.y + (b.y.toNat * 2 ^ f.order : Nat), f.dw.min.z + (b.z.toNat * 2 ^ f.order : Nat)⟩ = true :=
      (Sparse.mem_iff_nat wf.ne).mpr ⟨k1, k2, k3⟩
    refine ⟨_, hm, ?_⟩
    rw [← blockCoord_blockOf, Sparse.blockCoord_eq hm]
    simp only [Sparse.rx, Sparse.ry, Sparse.rz, Sparse.sub_cancel', Int.toNat_natCast,
      Nat.mul_div_cancel _ (Sparse.two_pow_pos' f.order)]
    exact V3i.ext' e1.symm e2.symm e3.symm
  · rintro ⟨p, hp, rfl⟩
    obtain ⟨h1, h2, h3⟩ := Sparse.r_bounds wf hp
    have k1 := Sparse.div_lt_bn (o := f.order) h1
    have k2 := Sparse.div_lt_bn (o := f.order) h2
    have k3 := Sparse.div_lt_bn (o := f.order) h3
    rw [← blockCoord_blockOf, Sparse.blockCoord_eq hp]
    simp only
    generalize f.rx p / 2 ^ f.order = a at *
    generalize f.ry p / 2 ^ f.order = c at *
    generalize f.rz p / 2 ^ f.order = d at *
    omega

/-- C14: block iteration terminates and visits exactly the blocks that contain voxels of the
window, each once; their numbers are exactly `0 .. (number of blocks) - 1`. -/
theorem C14_block_iteration [DecidableEq α] (zero : α) (f : Sparse α) (hr : SparseReachable zero f) :
    ∃ l : List V3i,
      Visits (F3D.iterNext f.blockWindow) (F3D.iterAtEnd f.blockWindow) f.blockBegin l ∧
      l.Nodup ∧
      (∀ b, b ∈ l ↔ ∃ p, f.dw.contains p = true ∧ blockOf f.dw f.order p = b) ∧
      l.map f.blockId = (List.range f.blocks.length).map (fun i : Nat => (i : Int)) := by
  obtain ⟨m, r⟩ := reachable_refines hr
  have wf := r.wf
  have hne := blockWindow_ne wf
  have hdw := Box3i.isEmpty_false.mp wf.ne
  have hbegin : f.blockBegin = f.blockWindow.min := by
    unfold Sparse.blockBegin
    rw [if_neg]
    · rfl
    · intro e
      have := congrArg V3i.x e
      simp [Box3i.res] at this
      omega
  refine ⟨f.blockWindow.voxels, by rw [hbegin]; exact visits_box hne, Box3i.voxels_nodup _, ?_, ?_⟩
  · intro b
    rw [Box3i.mem_voxels hne, inBlock_iff_window wf]
  · have n1 : f.blockWindow.nx = Sparse.bn f.order f.dw.nx := by
      have := (f.blockWindow.dims hne).1
      simp [Sparse.blockWindow, wf.bx] at this
      simp only [Sparse.blockWindow]; omega
    have n2 : f.blockWindow.ny = Sparse.bn f.order f.dw.ny := by
      have := (f.blockWindow.dims hne).2.1
      simp [Sparse.blockWindow, wf.by'] at this
      simp only [Sparse.blockWindow]; omega
    have n3 : f.blockWindow.nz = Sparse.bn f.order f.dw.nz := by
      have := (f.blockWindow.dims hne).2.2.1
      simp [Sparse.blockWindow, wf.bz] at this
      simp only [Sparse.blockWindow]; omega
    have hv : f.blockWindow.vol = f.blocks.length := by
      rw [wf.len, Box3i.vol, n1, n2, n3]
    unfold Box3i.voxels
    rw [hv, List.map_map]
    apply List.map_congr_left
    intro i _
    simp only [Function.comp_apply, Box3i.coordAt]
    have hz : f.blockWindow.min = V3i.all 0 := rfl
    simp only [hz, V3i.all_x, V3i.all_y, V3i.all_z, Int.zero_add]
    rw [Sparse.blockId_nat wf, n1, n2, Grid.enc_dec]

/-- C14: for a window that starts at the origin, the bounding box reported for a block contains
exactly the window voxels of that block. -/
theorem C14_block_bounding_box [DecidableEq α] (zero : α) (f : Sparse α)
    (hr : SparseReachable zero f) (horigin : f.dw.min = ⟨0, 0, 0⟩) (b : V3i)
    (hb : ∃ q, f.dw.contains q = true ∧ blockOf f.dw f.order q = b) (p : V3i) :
    (f.blockBoundingBox b).contains p = true ↔
      f.dw.contains p = true ∧ blockOf f.dw f.order p = b := by
  obtain ⟨m, r⟩ := reachable_refines hr
  have wf := r.wf
  obtain ⟨q, hq, rfl⟩ := hb
  have hB : (0 : Int) < ((2 ^ f.order : Nat) : Int) := by
    have := Sparse.two_pow_pos' f.order; omega
  have hax : ∀ a c : Int, c / ((2 ^ f.order : Nat) : Int) * ((2 ^ f.order : Nat) : Int) ≤ a ∧
      a ≤ c / ((2 ^ f.order : Nat) : Int) * ((2 ^ f.order : Nat) : Int) + (((2 ^ f.order : Nat) : Int) - 1) ↔
      a / ((2 ^ f.order : Nat) : Int) = c / ((2 ^ f.order : Nat) : Int) := by
    intro a c
    generalize ((2 ^ f.order : Nat) : Int) = B at *
    constructor
    · intro h
      apply Int.le_antisymm
      · have : a / B < c / B + 1 := by
          rw [Int.ediv_lt_iff_lt_mul hB, Int.add_mul]; omega
        omega
      · rw [Int.le_ediv_iff_mul_le hB]; exact h.1
    · intro h
      rw [← h]
      have h1 := Int.ediv_mul_le a (Int.ne_of_gt hB)
      have h2 := Int.lt_ediv_add_one_mul_self a hB
      rw [Int.add_mul] at h2
      omega
  have hlo : ∀ c : Int, c / ((2 ^ f.order : Nat) : Int) * ((2 ^ f.order : Nat) : Int) ≤ c :=
    fun c => Int.ediv_mul_le c (Int.ne_of_gt hB)
  have hnn : ∀ c : Int, 0 ≤ c → 0 ≤ c / ((2 ^ f.order : Nat) : Int) * ((2 ^ f.order : Nat) : Int) :=
    fun c hc => Int.mul_nonneg (Int.ediv_nonneg hc (Int.le_of_lt hB)) (Int.le_of_lt hB)
  rw [Box3i.contains_iff, Box3i.contains_iff]
  rw [Box3i.contains_iff] at hq
  have key : blockOf f.dw f.order p = blockOf f.dw f.order q ↔
      (p.x / ((2 ^ f.order : Nat) : Int) = q.x / ((2 ^ f.order : Nat) : Int) ∧
       p.y / ((2 ^ f.order : Nat) : Int) = q.y / ((2 ^ f.order : Nat) : Int) ∧
       p.z / ((2 ^ f.order : Nat) : Int) = q.z / ((2 ^ f.order : Nat) : Int)) := by
    unfold blockOf
    rw [horigin]
    simp only [Int.sub_zero, V3i.mk.injEq]
  rw [key, ← hax p.x q.x, ← hax p.y q.y, ← hax p.z q.z]
  unfold Sparse.blockBoundingBox blockOf Sparse.clipPoint
  simp only [horigin, Int.sub_zero, V3i.add_x, V3i.add_y, V3i.add_z, V3i.all_x, V3i.all_y, V3i.all_z]
  simp only [horigin] at hq
  have l1 := hlo q.x; have l2 := hlo q.y; have l3 := hlo q.z
  have n1 := hnn q.x (by omega); have n2 := hnn q.y (by omega); have n3 := hnn q.z (by omega)
  generalize q.x / ((2 ^ f.order : Nat) : Int) * ((2 ^ f.order : Nat) : Int) = X at *
  generalize q.y / ((2 ^ f.order : Nat) : Int) * ((2 ^ f.order : Nat) : Int) = Y at *
  generalize q.z / ((2 ^ f.order : Nat) : Int) * ((2 ^ f.order : Nat) : Int) = Z at *
  generalize ((2 ^ f.order : Nat) : Int) = B at *
  clear hax hlo hnn key
  have cl : ∀ a lo hi : Int, (if a < lo then lo else if a > hi then hi else a) =
      max lo (min a hi) ∨ hi < lo := by
    intro a lo hi; omega
  constructor
  · intro h
    refine ⟨⟨?_, ?_, ?_⟩, ?_, ?_, ?_⟩ <;> omega
  · intro h
    refine ⟨?_, ?_, ?_⟩ <;> omega

/-- C14: with a window that does not start at the origin the reported bounding box is wrong: for
the window `10..13` along x and blocks of side 2, block 0 (voxels 10 and 11) is reported as the
single voxel 10. -/
theorem C14_bounding_box_ignores_origin :
    let f : Sparse Int := ((Sparse.empty 0).setSize 0 ⟨⟨10, 0, 0⟩, ⟨13, 0, 0⟩⟩
      ⟨⟨10, 0, 0⟩, ⟨13, 0, 0⟩⟩).setBlockOrder 0 1
    blockOf f.dw f.order ⟨11, 0, 0⟩ = ⟨0, 0, 0⟩ ∧ f.dw.contains ⟨11, 0, 0⟩ = true ∧
    f.blockBoundingBox ⟨0, 0, 0⟩ = ⟨⟨10, 0, 0⟩, ⟨10, 0, 0⟩⟩ := by
  decide +kernel

/-! ## C15 (sparse) -/

/-- C15: `getGrainBounds` of a sparse field tells truly whether the grain is a complete block: it answers yes exactly when
the grain is one block long along every axis. -/
theorem C15_sparse_grain_whole [DecidableEq α] (zero : α) (f : Sparse α)
    (hr : SparseReachable zero f) (idx : Nat) (hidx : idx < f.numGrains) :
    f.grainIsWholeBlock idx = true ↔ (f.getGrainBounds idx).res = V3i.all (2 ^ f.order : Nat) := by
  obtain ⟨m, r⟩ := reachable_refines hr
  have wf := r.wf
  have hB := Sparse.two_pow_pos' f.order
  unfold Sparse.grainIsWholeBlock Sparse.getGrainBounds
  rw [decide_eq_true_iff]
  simp only [indexToCoord]
  generalize idx % f.bres.x.toNat = a
  generalize idx / f.bres.x.toNat % f.bres.y.toNat = b
  generalize idx / (f.bres.x.toNat * f.bres.y.toNat) = c
  have na : 0 ≤ (a : Int) * (2 ^ f.order : Nat) := Int.mul_nonneg (by omega) (by omega)
  have nb : 0 ≤ (b : Int) * (2 ^ f.order : Nat) := Int.mul_nonneg (by omega) (by omega)
  have nc : 0 ≤ (c : Int) * (2 ^ f.order : Nat) := Int.mul_nonneg (by omega) (by omega)
  generalize (a : Int) * (2 ^ f.order : Nat) = x at *
  generalize (b : Int) * (2 ^ f.order : Nat) = y at *
  generalize (c : Int) * (2 ^ f.order : Nat) = z at *
  have hs : 0 < ((2 ^ f.order : Nat) : Int) := by omega
  generalize ((2 ^ f.order : Nat) : Int) = s at *
  have ext : ∀ u v : V3i, u = v ↔ u.x = v.x ∧ u.y = v.y ∧ u.z = v.z := by
    rintro ⟨_, _, _⟩ ⟨_, _, _⟩; simp only [V3i.mk.injEq]
  constructor
  · intro h
    rw [h]
    simp only [Box3i.res, ext, V3i.add_x, V3i.add_y, V3i.add_z, V3i.sub_x, V3i.sub_y, V3i.sub_z, V3i.all_x, V3i.all_y, V3i.all_z]
    omega
  · intro h
    simp only [Box3i.res, ext, V3i.add_x, V3i.add_y, V3i.add_z, V3i.sub_x, V3i.sub_y, V3i.sub_z, V3i.all_x, V3i.all_y,
      V3i.all_z, clipBounds] at h
    simp only [clipBounds, Box3i.mk.injEq, ext, V3i.add_x, V3i.add_y, V3i.add_z, V3i.all_x, V3i.all_y, V3i.all_z]
    omega

/-- A field of 20 voxels in blocks of 16: its first grain is a complete block, its second is not. -/
example : ∃ f : Sparse Int, SparseReachable 0 f ∧ f.numGrains = 2 ∧ f.grainIsWholeBlock 0 = true ∧ f.grainIsWholeBlock 1 = false := by
  have hw : SparseWindow ⟨⟨3, 0, 0⟩, ⟨22, 15, 15⟩⟩ := by unfold SparseWindow; decide
  exact ⟨(Sparse.empty 0).setSize 0 _ ⟨⟨3, 0, 0⟩, ⟨22, 15, 15⟩⟩, ⟨⟨⟨0, 0, 0⟩, ⟨9, 9, 9⟩⟩, _, [], hw, trivial, rfl⟩, by decide +kernel,
    by decide +kernel, by decide +kernel⟩

/-- C15: the grains of a reachable sparse field are its blocks clipped to the data window: grain
`idx` contains exactly the window voxels stored in block `idx`. -/
theorem C15_sparse_grain_is_block [DecidableEq α] (zero : α) (f : Sparse α)
    (hr : SparseReachable zero f) (idx : Nat) (hidx : idx < f.numGrains) (p : V3i) :
    (f.getGrainBounds idx).contains p = true ↔
      f.dw.contains p = true ∧ f.blockId (blockOf f.dw f.order p) = idx := by
  obtain ⟨m, r⟩ := reachable_refines hr
  have wf := r.wf
  have hi' : idx < f.blocks.length := hidx
  rw [wf.len] at hi'
  obtain ⟨g1, g2, g3⟩ := Grid.dec_bounds hi'
  unfold Sparse.getGrainBounds
  simp only
  rw [C17_clip_is_intersection]
  have hB := Sparse.two_pow_pos' f.order
  have hnx : f.bres.x.toNat = Sparse.bn f.order f.dw.nx := by rw [wf.bx, Int.toNat_natCast]
  have hny : f.bres.y.toNat = Sparse.bn f.order f.dw.ny := by rw [wf.by', Int.toNat_natCast]
  rw [hnx, hny]
  constructor
  · rintro ⟨h1, hp⟩
    refine ⟨hp, ?_⟩
    rw [← blockCoord_blockOf, Sparse.id_eq wf hp]
    have hp' := Box3i.contains_iff.mp hp
    rw [Box3i.contains_iff] at h1
    simp only [indexToCoord, V3i.add_x, V3i.add_y, V3i.add_z, V3i.all_x, V3i.all_y, V3i.all_z] at h1
    have ax : ∀ (c : Nat) (a lo : Int), lo ≤ a → (c : Int) * (2 ^ f.order : Nat) + lo ≤ a →
        a ≤ (c : Int) * (2 ^ f.order : Nat) + lo + ((2 ^ f.order : Nat) - 1) →
        (a - lo).toNat / 2 ^ f.order = c := by
      intro c a lo h0 h1 h2
      have e : (c : Int) * (2 ^ f.order : Nat) = ((c * 2 ^ f.order : Nat) : Int) := by push_cast; rfl
      rw [e] at h1 h2
      apply (Nat.div_eq_iff hB).mpr
      omega
    have a1 := ax _ p.x f.dw.min.x (by omega) h1.1.1 h1.1.2
    have a2 := ax _ p.y f.dw.min.y (by omega) h1.2.1.1 h1.2.1.2
    have a3 := ax _ p.z f.dw.min.z (by omega) h1.2.2.1 h1.2.2.2
    have : f.idN p = idx := by
      unfold Sparse.idN Sparse.rx Sparse.ry Sparse.rz
      rw [a1, a2, a3, Grid.enc_dec]
    rw [this]
  · rintro ⟨hp, hid⟩
    refine ⟨?_, hp⟩
    rw [← blockCoord_blockOf, Sparse.id_eq wf hp] at hid
    have hid' : f.idN p = idx := by omega
    obtain ⟨k1, k2, k3⟩ := Sparse.id_dec wf hp
    rw [hid'] at k1 k2 k3
    have hp' := Box3i.contains_iff.mp hp
    rw [Box3i.contains_iff]
    simp only [indexToCoord, V3i.add_x, V3i.add_y, V3i.add_z, V3i.all_x, V3i.all_y, V3i.all_z]
    rw [k1, k2, k3]
    have ax : ∀ (a lo : Int), lo ≤ a →
        (((a - lo).toNat / 2 ^ f.order : Nat) : Int) * (2 ^ f.order : Nat) + lo ≤ a ∧
        a ≤ (((a - lo).toNat / 2 ^ f.order : Nat) : Int) * (2 ^ f.order : Nat) + lo + ((2 ^ f.order : Nat) - 1) := by
      intro a lo h0
      have e : (((a - lo).toNat / 2 ^ f.order : Nat) : Int) * (2 ^ f.order : Nat) =
        (((a - lo).toNat / 2 ^ f.order * 2 ^ f.order : Nat) : Int) := by push_cast; rfl
      rw [e]
      have h1 := Nat.div_mul_le_self (a - lo).toNat (2 ^ f.order)
      have h2 := Nat.lt_div_mul_add (a := (a - lo).toNat) hB
      omega
    exact ⟨ax _ _ (by omega), ax _ _ (by omega), ax _ _ (by omega)⟩

/-- C15: so every window voxel is in exactly one grain, and grains contain no other voxels. -/
theorem C15_sparse_grains_partition [DecidableEq α] (zero : α) (f : Sparse α)
    (hr : SparseReachable zero f) :
    (∀ p, f.dw.contains p = true → ∃ idx, idx < f.numGrains ∧
      (f.getGrainBounds idx).contains p = true ∧
      ∀ idx', idx' < f.numGrains → (f.getGrainBounds idx').contains p = true → idx' = idx) ∧
    (∀ idx p, idx < f.numGrains → (f.getGrainBounds idx).contains p = true →
      f.dw.contains p = true) := by
  have hg := C15_sparse_grain_is_block zero f hr
  obtain ⟨m, r⟩ := reachable_refines hr
  have wf := r.wf
  constructor
  · intro p hp
    have hid : f.blockId (blockOf f.dw f.order p) = (f.idN p : Nat) := Sparse.id_eq wf hp
    refine ⟨f.idN p, Sparse.idN_lt wf hp, (hg _ (Sparse.idN_lt wf hp) p).mpr ⟨hp, hid⟩, ?_⟩
    intro idx' hlt hc
    have := ((hg idx' hlt p).mp hc).2
    omega
  · intro idx p hlt hc
    exact ((hg idx hlt p).mp hc).1

end F3D.Props
