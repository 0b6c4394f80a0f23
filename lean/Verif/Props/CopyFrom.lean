import Verif.Model.CopyFrom
import Verif.Props.Identical
import Verif.Props.Sparse
import Verif.Proofs.Mac

/-!
# C72: copying and comparing fields
-/

namespace F3D
namespace Props
open Mapping Copy
open _root_.F3D.Identical (Map Reals isIdentical)

/-! ## Loops -/

theorem loop_det {σ : Type} {next : σ → σ} {isEnd : σ → Bool} {s t₁ t₂ : σ} {l₁ l₂ : List σ}
    (h₁ : Loop next isEnd s l₁ t₁) (h₂ : Loop next isEnd s l₂ t₂) : t₁ = t₂ := by
  induction h₁ generalizing l₂ with
  | done s h =>
    cases h₂ with
    | done => rfl
    | step _ _ _ h' _ => rw [h] at h'; cases h'
  | step s l t h _ ih =>
    cases h₂ with
    | done _ h' => rw [h] at h'; cases h'
    | step _ _ _ _ h' => exact ih h'

theorem copies_det {F α β : Type} {w wo : Box3i} {rd : F → V3i → Option α} {cast : α → β} {wr : F → V3i → β → Option F}
    {f : F} {g g' : Option F} (h : Copies w wo rd cast wr f g) (h' : Copies w wo rd cast wr f g') : g = g' := by
  obtain ⟨_, _, _, h⟩ := h
  obtain ⟨_, _, _, h'⟩ := h'
  have := loop_det h h'
  injection this

theorem begin_min {w : Box3i} (h : w.isEmpty = false) : iterBegin w = w.min := by
  unfold iterBegin
  rw [if_neg]
  intro e
  have hx := congrArg V3i.x e
  have := (Box3i.isEmpty_false.1 h).1
  simp [Box3i.res] at hx
  omega

/-- A copy between equal windows: what every body establishes at its voxel and later bodies keep holds at the end of
every voxel. -/
theorem copies_spec {F α β : Type} {w : Box3i} (hw : w.isEmpty = false) (rd : F → V3i → Option α) (cast : α → β)
    (wr : F → V3i → β → Option F) (Inv : F → Prop) (Done : F → V3i → Prop) (f : F) (h0 : Inv f)
    (hstep : ∀ g p, Inv g → w.contains p = true → ∃ v g', rd g p = some v ∧ wr g p (cast v) = some g' ∧ Inv g' ∧
      Done g' p ∧ ∀ q, w.contains q = true → Done g q → Done g' q) :
    ∃ g, Copies w w rd cast wr f (some g) ∧ Inv g ∧ ∀ p, w.contains p = true → Done g p := by
  obtain ⟨l, t, hl, ht, -, -⟩ := loop_of_inv (next := step w w rd cast wr) (isEnd := atEnd w) (n := w.vol)
    (fun i s => (s.i = w.coordAt i ∨ i = w.vol ∧ s.i = iterEnd w) ∧ s.c = s.i ∧ ∃ g, s.field = some g ∧ Inv g ∧
      ∀ j, j < i → Done g (w.coordAt j))
    (by
      rintro i ⟨si, sc, sf⟩ hi ⟨h1, h2, g, h3, h4, h5⟩
      simp only at h1 h2 h3
      have e : si = w.coordAt i := by
        rcases h1 with h1 | h1
        · exact h1
        · omega
      have hc := Box3i.contains_coordAt hw hi
      obtain ⟨v, g', r1, r2, r3, r4, r5⟩ := hstep g _ h4 hc
      refine ⟨?_, ?_, g', ?_, r3, ?_⟩
      · simp only [step]
        rw [e, ← Box3i.coordAt_succ hw]
        left; rfl
      · simp only [step]; rw [h2]
      · simp only [step]; rw [h3, h2, e, Option.bind_some, r1, Option.bind_some, r2]
      · intro j hj
        rcases Nat.lt_succ_iff_lt_or_eq.1 hj with h | rfl
        · exact r5 _ (Box3i.contains_coordAt hw (by omega)) (h5 j h)
        · exact r4)
    (by
      rintro i ⟨si, sc, sf⟩ hi ⟨h1, -⟩
      simp only at h1
      rcases h1 with h1 | h1
      · simp only [atEnd]; rw [h1]
        exact iterAtEnd_false_of_contains (Box3i.contains_coordAt hw hi)
      · omega)
    (by
      rintro ⟨si, sc, sf⟩ ⟨h1, -⟩
      simp only at h1
      simp only [atEnd]
      rw [iterAtEnd_iff]
      rcases h1 with h1 | h1
      · have hp := Box3i.vol_pos hw
        rw [h1, show w.vol = (w.vol - 1) + 1 by omega, Box3i.coordAt_succ hw, Box3i.coordAt_last hw, iterNext_max]
      · exact h1.2)
    (s := ⟨iterBegin w, iterBegin w, some f⟩)
    ⟨Or.inl (by rw [begin_min hw, Box3i.coordAt_zero]), rfl, f, rfl, h0, by intro j hj; omega⟩
  obtain ⟨-, -, g, h3, h4, h5⟩ := ht
  refine ⟨g, ⟨l, t.i, t.c, by rw [← h3]; exact hl⟩, h4, ?_⟩
  intro p hp
  have := h5 _ (Box3i.indexOf_lt hw hp)
  rwa [Box3i.coordAt_indexOf hw hp] at this

/-! ## Copies of the voxels -/

/-- **C72, dense target.** `copyFrom` into a dense field, from any field whose voxels can all be read, ends with the
extents and data window of the source and with the value of the source, converted, in every voxel; whatever the target
held before does not matter. A source without voxels makes it throw. -/
theorem C72_copy_to_dense {α β : Type} (dflt : β) (cast : α → β) (src : Source α) (val : V3i → α)
    (hval : ∀ p, src.dw.contains p = true → src.value p = some (val p)) :
    if src.dw.isEmpty then ∀ g, ¬ DenseCopies dflt cast src g
    else ∃ g, (∀ r, DenseCopies dflt cast src r ↔ r = some g) ∧ g.extents = src.extents ∧ g.dw = src.dw ∧
      ∀ p, src.dw.contains p = true → g.value p = some (cast (val p)) := by
  split
  · rename_i he
    rintro g ⟨f, hf, -⟩
    unfold Dense.setSize at hf
    simp only at hf
    rw [if_pos] at hf
    · cases hf
    · simp only [Box3i.isEmpty, Bool.or_eq_true, decide_eq_true_eq] at he
      omega
  · rename_i he
    have hne : src.dw.isEmpty = false := by simpa using he
    obtain ⟨f, hf, hwf, hdw, hext, -⟩ := Dense.setSize_ok (dflt := dflt) (e := src.extents) hne
    obtain ⟨g, hg, hi, hd⟩ := copies_spec hne (fun (_ : Dense β) => src.value) cast Dense.write
      (fun g => g.WF ∧ g.dw = src.dw ∧ g.extents = src.extents)
      (fun g p => g.value p = some (cast (val p))) f ⟨hwf, hdw, hext⟩
      (by
        rintro g p ⟨w1, w2, w3⟩ hp
        have hp' : g.dw.contains p = true := by rw [w2]; exact hp
        refine ⟨val p, _, hval p hp, Dense.write_eq w1 hp' _, ⟨Dense.wf_write w1 _ _, w2, w3⟩, ?_, ?_⟩
        · rw [Dense.value_write w1 hp' hp', if_pos rfl]
        · intro q hq hd
          have hq' : g.dw.contains q = true := by rw [w2]; exact hq
          rw [Dense.value_write w1 hp' hq']
          split
          · rename_i e; rw [e]
          · exact hd)
    have hc : DenseCopies dflt cast src (some g) := ⟨f, hf, by rw [hdw]; exact hg⟩
    refine ⟨g, ?_, hi.2.2, hi.2.1, hd⟩
    intro r
    constructor
    · rintro ⟨f', hf', hr⟩
      rw [hf] at hf'; cases hf'
      rw [hdw] at hr
      exact copies_det hr hg
    · rintro rfl; exact hc

/-- **C72, a field copied to itself.** `copyFrom` applied to the same dense field does not leave it as it is: every
voxel is lost and reads as the default value. -/
theorem C72_self_copy_loses_data {α : Type} (dflt : α) (f : Dense α) (hf : f.WF) :
    ∃ g, (∀ r, DenseSelfCopies dflt f r ↔ r = some g) ∧ g.extents = f.extents ∧ g.dw = f.dw ∧
      ∀ p, f.dw.contains p = true → g.value p = some dflt := by
  obtain ⟨f', hf', hwf, hdw, hext, hdata⟩ := Dense.setSize_ok (dflt := dflt) (e := f.extents) hf.ne
  obtain ⟨g, hg, hi, hd⟩ := copies_spec hf.ne (Dense.value (α := α)) id Dense.write
    (fun g => g.WF ∧ g.dw = f.dw ∧ g.extents = f.extents ∧ ∀ p, f.dw.contains p = true → g.value p = some dflt)
    (fun _ _ => True) f' ⟨hwf, hdw, hext, by
      intro p hp
      have hp' : f'.dw.contains p = true := by rw [hdw]; exact hp
      rw [Dense.value_eq hwf hp', hdata]
      have := Box3i.indexOf_lt hf.ne hp
      rw [hdw]
      simp [this]⟩
    (by
      rintro g p ⟨w1, w2, w3, w4⟩ hp
      have hp' : g.dw.contains p = true := by rw [w2]; exact hp
      refine ⟨dflt, _, w4 p hp, Dense.write_eq w1 hp' _, ⟨Dense.wf_write w1 _ _, w2, w3, ?_⟩, trivial, fun _ _ _ => trivial⟩
      intro q hq
      have hq' : g.dw.contains q = true := by rw [w2]; exact hq
      rw [Dense.value_write w1 hp' hq']
      split
      · rfl
      · exact w4 q hq)
  refine ⟨g, ?_, hi.2.2.1, hi.2.1, hi.2.2.2⟩
  intro r
  constructor
  · rintro ⟨f2, h2, hr⟩
    rw [hf'] at h2; cases h2
    rw [hdw] at hr
    exact copies_det hr hg
  · rintro rfl
    exact ⟨f', hf', by rw [hdw]; exact hg⟩

/-- **C72, sparse target.** `copyFrom` into a sparse field ends with the windows of the source, the block order of the
target and the value of the source, converted, in every voxel. Every block is allocated, also where the source is
constant. -/
theorem C72_copy_to_sparse {α β : Type} [DecidableEq β] (zero : β) (cast : α → β) (src : Source α) (val : V3i → α)
    (hval : ∀ p, src.dw.contains p = true → src.value p = some (val p)) (hw : SparseWindow src.dw) (f : Sparse β) :
    ∃ g, (∀ r, SparseCopies zero cast src f r ↔ r = some g) ∧ g.extents = src.extents ∧ g.dw = src.dw ∧
      g.order = f.order ∧
      ∀ p, src.dw.contains p = true → g.value p = some (cast (val p)) ∧ g.voxelIsInAllocatedBlock p = some true := by
  have hr : Refines (f.setSize zero src.extents src.dw) ⟨src.extents, src.dw, f.order, fun _ => zero, fun _ => False⟩ :=
    refines_setup (f := { f with extents := src.extents, dw := src.dw }) zero hw.1 (fits_of hw)
      rfl rfl rfl (fun _ => rfl) (fun _ h => h)
  obtain ⟨g, hg, ⟨m, hm, m1, m2, m3⟩, hd⟩ := copies_spec hw.1 (fun (_ : Sparse β) => src.value) cast Sparse.write
    (fun g => ∃ m, Refines g m ∧ m.extents = src.extents ∧ m.dw = src.dw ∧ m.order = f.order)
    (fun g p => g.value p = some (cast (val p)) ∧ g.voxelIsInAllocatedBlock p = some true) _ ⟨_, hr, rfl, rfl, rfl⟩
    (by
      rintro g p ⟨m, hm, m1, m2, m3⟩ hp
      have hp' : m.dw.contains p = true := by rw [m2]; exact hp
      obtain ⟨g', hg', hr'⟩ := refines_step zero hm (.write p (cast (val p))) hp'
      have o := hm.observes
      have o' := hr'.observes
      have alloc : ∀ q, src.dw.contains q = true → (m.apply zero (.write p (cast (val p)))).alloc (blockOf m.dw m.order q) →
          g'.voxelIsInAllocatedBlock q = some true := by
        intro q hq ha
        obtain ⟨r, e, hr⟩ := o'.voxelAlloc q (by show m.dw.contains q = true; rw [m2]; exact hq)
        rw [e, hr.2 ha]
      refine ⟨val p, g', hval p hp, hg', ⟨_, hr', m1, m2, m3⟩, ⟨?_, ?_⟩, ?_⟩
      · rw [o'.value p hp']; simp [SparseMap.apply]
      · exact alloc p hp (Or.inr rfl)
      · rintro q hq ⟨v1, v2⟩
        have hq' : m.dw.contains q = true := by rw [m2]; exact hq
        refine ⟨?_, alloc q hq (Or.inl ?_)⟩
        · rw [o'.value q hq']
          simp only [SparseMap.apply]
          split
          · rename_i e; rw [e]
          · rw [← o.value q hq', v1]
        · obtain ⟨r, e, hr⟩ := o.voxelAlloc q hq'
          rw [v2] at e
          cases e
          exact hr.1 rfl)
  have o := hm.observes
  exact ⟨g, fun r => ⟨fun h => copies_det h hg, by rintro rfl; exact hg⟩, o.extents.trans m1, o.dw.trans m2,
    o.order.trans m3, hd⟩

/-- **C72, MAC target.** `copyFrom` into a MAC field copies nothing: the field ends as `setSize` with the windows of the
source left it, whatever the source holds. -/
theorem C72_copy_to_mac_copies_nothing (src : Source V3q) (val : V3i → V3q)
    (hval : ∀ p, src.dw.contains p = true → src.value p = some (val p)) (hne : src.dw.isEmpty = false) (f : Mac) :
    ∃ g, f.setSize src.extents src.dw = some g ∧ ∀ r, MacCopies src f r ↔ r = some g := by
  have hb := Box3i.isEmpty_false.1 hne
  obtain ⟨g, hg, hwf, hdw, -, -⟩ := Mac.setSize_spec f src.extents src.dw (by
    simp only [Box3i.res, V3i.add_x, V3i.add_y, V3i.add_z, V3i.sub_x, V3i.sub_y, V3i.sub_z,
      V3i.all_x, V3i.all_y, V3i.all_z]
    omega)
  obtain ⟨g', hc, he, -⟩ := copies_spec hne (fun (_ : Mac) => src.value) id Mac.writeLvalue (fun h => h = g)
    (fun _ _ => True) g rfl
    (by
      rintro h p rfl hp
      refine ⟨val p, h, hval p hp, ?_, rfl, trivial, fun _ _ _ => trivial⟩
      obtain ⟨v, hv⟩ : ∃ v, h.value p = some v := by
        have fc : ∀ c q, (Mac.compWindow h.dw c).contains q = true → ∃ x, h.face c q = some x := fun c q hq =>
          Mac.face_isSome hwf hq
        rw [← hdw] at hp
        simp only [Box3i.contains_iff] at hp
        obtain ⟨u, hu⟩ := fc .u p (by simp [Mac.compWindow, Box3i.contains_iff]; omega)
        obtain ⟨u', hu'⟩ := fc .u ⟨p.x + 1, p.y, p.z⟩ (by simp [Mac.compWindow, Box3i.contains_iff]; omega)
        obtain ⟨v, hv⟩ := fc .v p (by simp [Mac.compWindow, Box3i.contains_iff]; omega)
        obtain ⟨v', hv'⟩ := fc .v ⟨p.x, p.y + 1, p.z⟩ (by simp [Mac.compWindow, Box3i.contains_iff]; omega)
        obtain ⟨w, hw⟩ := fc .w p (by simp [Mac.compWindow, Box3i.contains_iff]; omega)
        obtain ⟨w', hw'⟩ := fc .w ⟨p.x, p.y, p.z + 1⟩ (by simp [Mac.compWindow, Box3i.contains_iff]; omega)
        simp [Mac.value, Mac.uCenter, Mac.vCenter, Mac.wCenter, hu, hu', hv, hv', hw, hw']
      simp [Mac.writeLvalue, hv])
  subst he
  refine ⟨g', hg, fun r => ⟨?_, ?_⟩⟩
  · rintro ⟨f2, h2, hr⟩
    rw [hg] at h2; cases h2
    rw [hdw] at hr
    exact copies_det hr hc
  · rintro rfl
    exact ⟨g', hg, by rw [hdw]; exact hc⟩

/-! ## Definitions -/

/-- The windows and mappings of fields after any calls: resizing, setting mappings, and changing the transforms of the
field's own mapping (not its extents, which the field keeps). -/
inductive FieldMade (k : Rat) : Defn → Prop
  | new : FieldMade k Defn.new
  | setMapping (d d' : Defn) (m : Map) : FieldMade k d → Made k m → d.setMapping m = some d' → FieldMade k d'
  | setSize (d d' : Defn) (e dw : Box3i) : FieldMade k d → d.setSize e dw = some d' → FieldMade k d'
  | transform (d : Defn) (m : Matrix) (o : Mapping.Op) : FieldMade k d → d.map = .matrix m →
      (∀ e, o ≠ .setExtents e) → FieldMade k { d with map := .matrix (m.apply o) }
  | frustum (d : Defn) (m m' : Frustum) (o : FrustumOp) : FieldMade k d → d.map = .frustum m →
      (∀ e, o ≠ .extents e) → frustumStep k m o = some m' → FieldMade k { d with map := .frustum m' }

/-- The mapping is that of a field with extents `e`. -/
def Fitted (e : Box3i) : Map → Prop
  | .null => True
  | .matrix m => m.frame = Frame.ofExtents e
  | .frustum m => m.frame = Frame.ofExtents e

theorem setExtents_made {k : Rat} {m m' : Map} {e : Box3i} (h : Made k m) (h' : setExtents m e = some m') :
    Made k m' ∧ Fitted e m' := by
  cases h with
  | null => cases h'; exact ⟨.null, trivial⟩
  | matrix f ops =>
    cases h'
    refine ⟨?_, rfl⟩
    have : (Matrix.run f ops).setExtents e = Matrix.run f (ops ++ [.setExtents e]) := by
      simp [Matrix.run, List.foldl_append, Matrix.apply]
    rw [this]; exact .matrix _ _
  | frustum m0 m ops h0 h =>
    simp only [setExtents, Option.map_eq_some_iff] at h'
    obtain ⟨m', hm', rfl⟩ := h'
    refine ⟨.frustum m0 m' (ops ++ [.extents e]) h0 ?_, ?_⟩
    · rw [List.foldlM_append, h]
      simp [frustumStep, hm']
    · have := computeVoxelSize_fields _ _ hm'
      rw [this]; rfl

theorem fieldMade_spec {k : Rat} {d : Defn} (h : FieldMade k d) : Made k d.map ∧ Fitted d.extents d.map := by
  induction h with
  | new =>
    refine ⟨?_, rfl⟩
    exact Made.matrix Frame.default [.setExtents _]
  | setMapping d d' m _ hm e ih =>
    simp only [Defn.setMapping, Option.map_eq_some_iff] at e
    obtain ⟨m', h1, rfl⟩ := e
    exact setExtents_made hm h1
  | setSize d d' e dw _ h ih =>
    simp only [Defn.setSize, Option.map_eq_some_iff] at h
    obtain ⟨m', h1, rfl⟩ := h
    exact setExtents_made ih.1 h1
  | transform d m o _ hm ho ih =>
    rw [hm] at ih
    obtain ⟨i1, i2⟩ := ih
    cases i1 with
    | matrix f ops =>
      have : (Matrix.run f ops).apply o = Matrix.run f (ops ++ [o]) := by simp [Matrix.run, List.foldl_append]
      refine ⟨by rw [this]; exact .matrix _ _, ?_⟩
      show ((Matrix.run f ops).apply o).frame = _
      rw [← show (Matrix.run f ops).frame = Frame.ofExtents d.extents from i2]
      cases o with
      | setExtents e => exact absurd rfl (ho e)
      | setLocalToWorld x => simp only [Matrix.apply, Matrix.setLocalToWorld]; split <;> rfl
      | setLocalToWorldAt t x => rfl
      | makeIdentity => rfl
  | frustum d m m' o _ hm ho e ih =>
    rw [hm] at ih
    obtain ⟨i1, i2⟩ := ih
    cases i1 with
    | frustum m0 m ops h0 h =>
      refine ⟨.frustum m0 m' (ops ++ [o]) h0 (by rw [List.foldlM_append, h]; simp [e]), ?_⟩
      show m'.frame = _
      rw [← show m.frame = Frame.ofExtents d.extents from i2]
      cases o with
      | extents b => exact absurd rfl (ho b)
      | transforms t ss cs =>
        obtain ⟨_, _, f1, _⟩ := setTransformsAt_fields _ _ _ _ _ (show m.setTransformsAt t ss cs = some m' from e)
        exact f1
      | dist z => cases e; rfl
      | reset =>
        simp only [frustumStep, Frustum.reset, Option.bind_eq_bind, Option.bind_eq_some_iff] at e
        obtain ⟨m1, h1, h2⟩ := e
        obtain ⟨_, _, f1, _⟩ := setTransformsAt_fields _ _ _ _ _ h1
        rw [computeVoxelSize_fields _ _ h2]
        exact f1

/-- Two mappings that place everything alike: equal, but for the voxel size of a frustum mapping. -/
def SamePlaces : Map → Map → Prop
  | .null, .null => True
  | .matrix m, .matrix n => m = n
  | .frustum m, .frustum n => m = { n with wsVoxelSizeSq := m.wsVoxelSizeSq }
  | _, _ => False

theorem setExtents_same {k : Rat} {m m' : Map} {e : Box3i} (h : Made k m) (hf : Fitted e m) (h' : setExtents m e = some m') :
    SamePlaces m' m := by
  cases h with
  | null => cases h'; trivial
  | matrix f ops =>
    cases h'
    show (Matrix.run f ops).setExtents e = Matrix.run f ops
    conv_rhs => rw [← (run_spec f ops).2.2]
    unfold Matrix.setExtents
    rw [← show (Matrix.run f ops).frame = _ from hf]
  | frustum m0 m ops h0 h =>
    simp only [setExtents, Option.map_eq_some_iff] at h'
    obtain ⟨m', hm', rfl⟩ := h'
    have := computeVoxelSize_fields _ _ hm'
    show m' = _
    conv_lhs => rw [this]
    rw [← show m.frame = _ from hf]

theorem setExtents_twice {k : Rat} {m m' m'' : Map} {e e' : Box3i} (h : Made k m) (hf : Fitted e' m)
    (h' : setExtents m e = some m') (h'' : setExtents m' e' = some m'') : SamePlaces m'' m := by
  cases h with
  | null => cases h'; cases h''; trivial
  | matrix f ops =>
    cases h'; cases h''
    exact setExtents_same (k := k) (.matrix f ops) hf rfl
  | frustum m0 m ops h0 h =>
    simp only [setExtents, Option.map_eq_some_iff] at h'
    obtain ⟨n, hn, rfl⟩ := h'
    simp only [setExtents, Option.map_eq_some_iff] at h''
    obtain ⟨n', hn', rfl⟩ := h''
    have e1 := computeVoxelSize_fields _ _ hn
    have e2 := computeVoxelSize_fields _ _ hn'
    show n' = _
    conv_lhs => rw [e2, e1]
    rw [← show m.frame = _ from hf]

theorem same_identical {k : Rat} {m m' : Map} (R : Reals) {tol : Rat} (ht : 0 ≤ tol) (h : Made k m) (hs : SamePlaces m' m) :
    isIdentical R tol m' m = some true ∧ isIdentical R tol m m' = some true := by
  have e := (C71_equivalence R k).1 tol m ht h
  cases h with
  | null => cases m' <;> first | exact ⟨rfl, rfl⟩ | exact absurd hs id
  | matrix f ops => cases m' with
    | matrix n => rw [show n = _ from hs]; exact ⟨e, e⟩
    | null => exact absurd hs id
    | frustum => exact absurd hs id
  | frustum m0 m ops h0 h => cases m' with
    | frustum n =>
      have : n = { m with wsVoxelSizeSq := n.wsVoxelSizeSq } := hs
      rw [this]
      exact ⟨e, e⟩
    | null => exact absurd hs id
    | matrix => exact absurd hs id

/-- **C72, definitions.** After `copyFrom` or `matchDefinition` between any two fields, the windows are those of the
other field, the mapping places every voxel as that of the other field does, and `sameDefinition` is true, with any
tolerance and in either order. -/
theorem C72_definition (R : Reals) (tol k : Rat) (ht : 0 ≤ tol) (d o d' : Defn) (hd : FieldMade k d) (ho : FieldMade k o)
    (h : d.copy o = some d' ∨ d.match' o = some d') :
    d'.extents = o.extents ∧ d'.dw = o.dw ∧ SamePlaces d'.map o.map ∧
    sameDefinition R tol d' o = some true ∧ sameDefinition R tol o d' = some true ∧ FieldMade k d' := by
  obtain ⟨m1, m2⟩ := fieldMade_spec ho
  have key : d'.extents = o.extents ∧ d'.dw = o.dw ∧ SamePlaces d'.map o.map ∧ FieldMade k d' := by
    rcases h with h | h
    · obtain ⟨d1, h1, h2⟩ := Option.bind_eq_some_iff.1 h
      have f1 := FieldMade.setMapping _ _ _ hd m1 h1
      have f2 := FieldMade.setSize _ _ _ _ f1 h2
      simp only [Defn.setMapping, Option.map_eq_some_iff] at h1
      obtain ⟨n, hn, rfl⟩ := h1
      simp only [Defn.setSize, Option.map_eq_some_iff] at h2
      obtain ⟨n', hn', rfl⟩ := h2
      exact ⟨rfl, rfl, setExtents_twice m1 m2 hn hn', f2⟩
    · obtain ⟨d1, h1, h2⟩ := Option.bind_eq_some_iff.1 h
      have f1 := FieldMade.setSize _ _ _ _ hd h1
      have f2 := FieldMade.setMapping _ _ _ f1 m1 h2
      simp only [Defn.setSize, Option.map_eq_some_iff] at h1
      obtain ⟨n, hn, rfl⟩ := h1
      simp only [Defn.setMapping, Option.map_eq_some_iff] at h2
      obtain ⟨n', hn', rfl⟩ := h2
      exact ⟨rfl, rfl, setExtents_same m1 m2 hn', f2⟩
  obtain ⟨h1, h2, h3, h4⟩ := key
  obtain ⟨i1, i2⟩ := same_identical R ht m1 h3
  refine ⟨h1, h2, h3, ?_, ?_, h4⟩
  · unfold sameDefinition; rw [if_neg (by simp [h1]), if_neg (by simp [h2]), i1]
  · unfold sameDefinition; rw [if_neg (by simp [h1]), if_neg (by simp [h2]), i2]

/-- **C72, definitions of other mappings.** `copyFrom` and `matchDefinition` can fail only where frustum mappings are
involved. -/
theorem C72_definition_defined (d o : Defn) (h : ∀ m, o.map ≠ .frustum m) :
    (d.copy o).isSome = true ∧ ((∀ m, d.map ≠ .frustum m) → (d.match' o).isSome = true) := by
  obtain ⟨oe, odw, om⟩ := o
  obtain ⟨de, ddw, dm⟩ := d
  cases om with
  | frustum m => exact absurd rfl (h m)
  | null =>
    refine ⟨rfl, fun h' => ?_⟩
    cases dm with
    | frustum m => exact absurd rfl (h' m)
    | null => rfl
    | matrix => rfl
  | matrix n =>
    refine ⟨rfl, fun h' => ?_⟩
    cases dm with
    | frustum m => exact absurd rfl (h' m)
    | null => rfl
    | matrix => rfl

/-! ## Comparing fields -/

theorem cmp_loop {α : Type} (ne : α → α → Bool) (w : Box3i) (hw : w.isEmpty = false) (rdA rdB : V3i → Option α)
    (va vb : V3i → α) (ha : ∀ p, w.contains p = true → rdA p = some (va p))
    (hb : ∀ p, w.contains p = true → rdB p = some (vb p)) :
    ∃ l t r, Loop (cmpStep ne w rdA rdB) (cmpEnd w) ⟨iterBegin w, iterBegin w, some true, false⟩ l t ∧ t.same = some r ∧
      (r = true ↔ ∀ p, w.contains p = true → ne (va p) (vb p) = false) := by
  have hend : w.coordAt w.vol = iterEnd w := by
    have hp := Box3i.vol_pos hw
    rw [show w.vol = (w.vol - 1) + 1 by omega, Box3i.coordAt_succ hw, Box3i.coordAt_last hw, iterNext_max]
  have key : ∀ m i, i + m = w.vol → (∀ j, j < i → ne (va (w.coordAt j)) (vb (w.coordAt j)) = false) →
      ∃ l t r, Loop (cmpStep ne w rdA rdB) (cmpEnd w) ⟨w.coordAt i, w.coordAt i, some true, false⟩ l t ∧
        t.same = some r ∧ (r = true ↔ ∀ j, j < w.vol → ne (va (w.coordAt j)) (vb (w.coordAt j)) = false) := by
    intro m
    induction m with
    | zero =>
      intro i hi hlt
      have : i = w.vol := by omega
      subst this
      refine ⟨[], _, true, Loop.done _ ?_, rfl, by simpa using hlt⟩
      simp only [cmpEnd, Bool.false_or]
      rw [iterAtEnd_iff, hend]
    | succ m ih =>
      intro i hi hlt
      have hc := Box3i.contains_coordAt hw (show i < w.vol by omega)
      have hnot : cmpEnd w ⟨w.coordAt i, w.coordAt i, some true, false⟩ = false := by
        simp only [cmpEnd, Bool.false_or]
        exact iterAtEnd_false_of_contains hc
      cases hne : ne (va (w.coordAt i)) (vb (w.coordAt i)) with
      | true =>
        refine ⟨_, _, false, Loop.step _ [] _ hnot (Loop.done _ ?_), ?_, ?_⟩
        · simp [cmpStep, ha _ hc, hb _ hc, hne, cmpEnd]
        · simp [cmpStep, ha _ hc, hb _ hc, hne]
        · simp only [Bool.false_eq_true, false_iff]
          intro h
          rw [h i (by omega)] at hne
          cases hne
      | false =>
        obtain ⟨l, t, r, h1, h2, h3⟩ := ih (i + 1) (by omega) (by
          intro j hj
          rcases Nat.lt_succ_iff_lt_or_eq.1 hj with h | rfl
          · exact hlt j h
          · exact hne)
        refine ⟨_, t, r, Loop.step _ l t hnot ?_, h2, h3⟩
        have : cmpStep ne w rdA rdB ⟨w.coordAt i, w.coordAt i, some true, false⟩ =
            ⟨w.coordAt (i + 1), w.coordAt (i + 1), some true, false⟩ := by
          simp only [cmpStep, ha _ hc, hb _ hc, hne]
          rw [Box3i.coordAt_succ hw]
          simp
        rw [this]; exact h1
  obtain ⟨l, t, r, h1, h2, h3⟩ := key w.vol 0 (by omega) (by intro j hj; omega)
  refine ⟨l, t, r, ?_, h2, h3.trans ⟨?_, ?_⟩⟩
  · rw [begin_min hw, ← Box3i.coordAt_zero]; exact h1
  · intro h p hp
    have := h _ (Box3i.indexOf_lt hw hp)
    rwa [Box3i.coordAt_indexOf hw hp] at this
  · intro h j hj
    exact h _ (Box3i.contains_coordAt hw hj)

theorem fieldsIdentical_det {α : Type} {R : Reals} {ne : α → α → Bool} {a b : Source α} {r r' : Option Bool}
    (h : FieldsIdentical R ne a b r) (h' : FieldsIdentical R ne a b r') : r = r' := by
  unfold FieldsIdentical at h h'
  generalize sameDefinition R 0 a.toDefn b.toDefn = d at h h'
  rcases d with _ | _ | _
  · exact Eq.trans h (Eq.symm h')
  · exact Eq.trans h (Eq.symm h')
  · obtain ⟨_, _, l1, e1⟩ := h
    obtain ⟨_, _, l2, e2⟩ := h'
    rw [e1, e2, loop_det l1 l2]

/-- **C72, comparison.** Comparing any two fields whose voxels can be read ends, and answers true exactly if the extents
and data windows are equal, the mappings are identical without tolerance, and no voxel of one differs from that of the
other. -/
theorem C72_comparison {α : Type} (R : Reals) (k : Rat) (ne : α → α → Bool) (a b : Source α)
    (ha : FieldMade k a.toDefn) (hb : FieldMade k b.toDefn) (hne : a.dw.isEmpty = false) (va vb : V3i → α)
    (hva : ∀ p, a.dw.contains p = true → a.value p = some (va p))
    (hvb : ∀ p, b.dw.contains p = true → b.value p = some (vb p)) :
    ∃ r, (∀ x, FieldsIdentical R ne a b x ↔ x = some r) ∧
      (r = true ↔ a.extents = b.extents ∧ a.dw = b.dw ∧ Identical R 0 a.map b.map ∧
        ∀ p, a.dw.contains p = true → ne (va p) (vb p) = false) := by
  have main : ∃ r, FieldsIdentical R ne a b (some r) ∧
      (r = true ↔ a.extents = b.extents ∧ a.dw = b.dw ∧ Identical R 0 a.map b.map ∧
        ∀ p, a.dw.contains p = true → ne (va p) (vb p) = false) := by
    unfold FieldsIdentical sameDefinition
    by_cases h1 : a.extents = b.extents
    · by_cases h2 : a.dw = b.dw
      · simp only [h1, h2, ne_eq, not_true_eq_false, if_false, true_and]
        obtain ⟨r, hr, hi⟩ := isIdentical_spec R 0 k a.map b.map (fieldMade_spec ha).1 (fieldMade_spec hb).1
        rw [hr]
        cases r with
        | false =>
          refine ⟨false, rfl, ?_⟩
          simp only [Bool.false_eq_true, false_iff] at hi ⊢
          exact fun h => hi h.1
        | true =>
          obtain ⟨l, t, r, hl, ht, hr⟩ := cmp_loop ne b.dw (by rw [← h2]; exact hne) a.value b.value va vb
            (by rw [← h2]; exact hva) hvb
          refine ⟨r, ⟨l, t, hl, ht.symm⟩, ?_⟩
          rw [hr]
          simp only [true_iff] at hi
          exact ⟨fun h => ⟨hi, h⟩, fun h => h.2⟩
      · exact ⟨false, by simp [h1, h2], by simp [h2]⟩
    · exact ⟨false, by simp [h1], by simp [h1]⟩
  obtain ⟨r, h1, h2⟩ := main
  exact ⟨r, fun x => ⟨fun h => fieldsIdentical_det h h1, by rintro rfl; exact h1⟩, h2⟩

/-- **C72, a copy is identical.** A dense field copied from any field, followed by no other call, is identical to it, as
long as every voxel compares equal to itself. -/
theorem C72_copy_is_identical {α : Type} (R : Reals) (k : Rat) (ne : α → α → Bool) (dflt : α) (src : Source α)
    (val : V3i → α) (hval : ∀ p, src.dw.contains p = true → src.value p = some (val p))
    (hne : src.dw.isEmpty = false) (hself : ∀ p, src.dw.contains p = true → ne (val p) (val p) = false)
    (d d' : Defn) (hd : FieldMade k d) (hs : FieldMade k src.toDefn) (hc : d.copy src.toDefn = some d') :
    ∃ g, (∀ r, DenseCopies dflt id src r ↔ r = some g) ∧
      ∀ r, FieldsIdentical R ne ⟨⟨g.extents, g.dw, d'.map⟩, g.value⟩ src r ↔ r = some true := by
  have h := C72_copy_to_dense dflt id src val hval
  rw [if_neg (by simp [hne])] at h
  obtain ⟨g, hg, h1, h2, h3⟩ := h
  obtain ⟨e1, e2, e3, e4, -, e6⟩ := C72_definition R 0 k (le_refl _) d src.toDefn d' hd hs (Or.inl hc)
  refine ⟨g, hg, ?_⟩
  have hd' : (⟨g.extents, g.dw, d'.map⟩ : Defn) = d' := by
    obtain ⟨a, b, c⟩ := d'
    simp only at e1 e2
    rw [h1, h2, ← e1, ← e2]
  have hm : FieldMade k (⟨g.extents, g.dw, d'.map⟩ : Defn) := by rw [hd']; exact e6
  obtain ⟨r, hr, ht⟩ := C72_comparison R k ne ⟨⟨g.extents, g.dw, d'.map⟩, g.value⟩ src hm hs (by show g.dw.isEmpty = _; rw [h2, hne]) val val
    (by intro p hp; exact h3 p (by rw [← h2]; exact hp)) hval
  have hid : Identical R 0 d'.map src.map := by
    obtain ⟨r', hr', hi⟩ := isIdentical_spec R 0 k d'.map src.map (fieldMade_spec e6).1 (fieldMade_spec hs).1
    rw [hi.symm]
    have := (same_identical R (le_refl 0) (fieldMade_spec hs).1 e3).1
    rw [this] at hr'
    cases hr'; rfl
  have : r = true := ht.2 ⟨h1, h2, hid, fun p hp => hself p (by rw [← h2]; exact hp)⟩
  subst this
  exact hr

/-- **C72, a field that differs from itself.** A field with a voxel that does not compare equal to itself (a NaN) is not
identical to itself. -/
theorem C72_nan_not_identical {α : Type} (R : Reals) (k : Rat) (ne : α → α → Bool) (a : Source α)
    (ha : FieldMade k a.toDefn) (hne : a.dw.isEmpty = false) (va : V3i → α)
    (hva : ∀ p, a.dw.contains p = true → a.value p = some (va p)) (p : V3i) (hp : a.dw.contains p = true)
    (h : ne (va p) (va p) = true) : ∀ r, FieldsIdentical R ne a a r ↔ r = some false := by
  obtain ⟨r, hr, ht⟩ := C72_comparison R k ne a a ha ha hne va va hva hva
  have : r = false := by
    cases r with
    | false => rfl
    | true =>
      have := (ht.1 rfl).2.2.2 p hp
      rw [h] at this; cases this
  subst this
  exact hr

/-! ## Cases that meet the hypotheses -/

/-- A window that is smaller than the extents. -/
def copyWindow : Box3i := ⟨⟨-1, 0, 2⟩, ⟨1, 1, 3⟩⟩
def copyExtents : Box3i := ⟨⟨-2, 0, 0⟩, ⟨3, 3, 3⟩⟩
/-- The voxels of a source, `none` a NaN. -/
def copyVal (p : V3i) : Option Int := if p.x = 1 ∧ p.y = 1 ∧ p.z = 3 then none else some (p.x + 10 * p.y)
/-- `!=` of numbers with NaN. -/
def nanNe (x y : Option Int) : Bool := x.isNone || y.isNone || decide (x ≠ y)

/-- A scaled mapping with two samples, set before the field was resized. -/
def copyMap : Matrix := Matrix.run Frame.default [.setLocalToWorldAt 0 (M44.setScale ⟨2, 3, 4⟩), .setLocalToWorldAt 1 (M44.setTranslation ⟨1, 0, 0⟩)]

def copyDefn : Defn := ⟨copyExtents, copyWindow, .matrix (copyMap.setExtents copyExtents)⟩

theorem copyDefn_made : FieldMade 1 copyDefn :=
  .setSize ⟨Defn.new.extents, Defn.new.dw, .matrix (copyMap.setExtents Defn.new.extents)⟩ _ copyExtents copyWindow
    (.setMapping _ _ (.matrix copyMap) .new (.matrix _ _) rfl) rfl

def copySource : Source (Option Int) := ⟨copyDefn, fun p => if copyWindow.contains p then some (copyVal p) else none⟩

theorem copySource_val : ∀ p, copySource.dw.contains p = true → copySource.value p = some (copyVal p) := by
  intro p hp
  exact if_pos hp

/-- Copied to integers, NaN being 7. -/
example : ∃ g, (∀ r, DenseCopies (0 : Int) (fun v => v.getD 7) copySource r ↔ r = some g) ∧ g.dw = copyWindow ∧
    g.value ⟨0, 1, 2⟩ = some 10 ∧ g.value ⟨1, 1, 3⟩ = some 7 := by
  have h := C72_copy_to_dense (0 : Int) (fun v => v.getD 7) copySource copyVal copySource_val
  rw [if_neg (by decide)] at h
  obtain ⟨g, h1, -, h3, h4⟩ := h
  exact ⟨g, h1, h3, (h4 ⟨0, 1, 2⟩ (by decide)).trans (by decide), (h4 ⟨1, 1, 3⟩ (by decide)).trans (by decide)⟩

example (f : Sparse Int) : ∃ g, (∀ r, SparseCopies (0 : Int) (fun v => v.getD 7) copySource f r ↔ r = some g) ∧
    g.value ⟨0, 0, 2⟩ = some 0 ∧ g.voxelIsInAllocatedBlock ⟨0, 0, 2⟩ = some true := by
  obtain ⟨g, h1, -, -, -, h5⟩ := C72_copy_to_sparse (0 : Int) (fun v => v.getD 7) copySource copyVal copySource_val
    (by unfold SparseWindow; decide) f
  exact ⟨g, h1, (h5 ⟨0, 0, 2⟩ (by decide)).1.trans (by decide), (h5 ⟨0, 0, 2⟩ (by decide)).2⟩

/-- The field is not identical to itself, nor its copy to it: one voxel is NaN. -/
example (R : Reals) : ∀ r, FieldsIdentical R nanNe copySource copySource r ↔ r = some false :=
  C72_nan_not_identical R 1 nanNe copySource copyDefn_made (by decide) copyVal copySource_val ⟨1, 1, 3⟩ (by decide) (by decide)

/-- Where no voxel is NaN the copy is identical. -/
def plainSource : Source (Option Int) := ⟨copyDefn, fun p => some (some (p.x + 10 * p.y))⟩

example (R : Reals) : ∃ d' g, Defn.new.copy copyDefn = some d' ∧ (∀ r, DenseCopies none id plainSource r ↔ r = some g) ∧
    ∀ r, FieldsIdentical R nanNe ⟨⟨g.extents, g.dw, d'.map⟩, g.value⟩ plainSource r ↔ r = some true := by
  obtain ⟨d', hd⟩ := Option.isSome_iff_exists.1 (C72_definition_defined Defn.new copyDefn (by intro m; simp [copyDefn])).1
  obtain ⟨g, h1, h2⟩ := C72_copy_is_identical R 1 nanNe none plainSource (fun p => some (p.x + 10 * p.y)) (fun _ _ => rfl)
    (by decide) (fun _ _ => by simp [nanNe]) Defn.new d' .new copyDefn_made hd
  exact ⟨d', g, hd, h1, h2⟩

/-- A field with a voxel 5 that is 0 after the field was copied to itself. -/
example : ∃ f g : Dense Int, f.value ⟨0, 1, 2⟩ = some 5 ∧ (∀ r, DenseSelfCopies 0 f r ↔ r = some g) ∧
    g.value ⟨0, 1, 2⟩ = some 0 := by
  obtain ⟨f, -, hwf, hdw, -, -⟩ := Dense.setSize_ok (dflt := (0 : Int)) (e := copyExtents) (dw := copyWindow) (by decide)
  have hp : f.dw.contains ⟨0, 1, 2⟩ = true := by rw [hdw]; decide
  obtain ⟨g, h1, -, -, h4⟩ := C72_self_copy_loses_data (0 : Int) _ (Dense.wf_write hwf (f.dw.indexOf ⟨0, 1, 2⟩) 5)
  exact ⟨_, g, by rw [Dense.value_write hwf hp hp, if_pos rfl], h1, h4 _ hp⟩

/-- A field with a frustum mapping can be matched, and the copy places everything alike. -/
example (R : Reals) : ∃ (o d' : Defn) (m : Frustum), o.map = .frustum m ∧ o.extents = copyExtents ∧ Defn.new.copy o = some d' ∧
    SamePlaces d'.map o.map ∧ sameDefinition R 0 d' o = some true := by
  obtain ⟨m, hm⟩ : ∃ m, Frustum.new 2 = some m := Option.isSome_iff_exists.1 (by decide +kernel)
  obtain ⟨d1, h1⟩ : ∃ d, (Defn.new.setSize copyExtents copyWindow).bind (fun d => d.setMapping (.frustum m)) = some d := by
    apply Option.isSome_iff_exists.1
    have : (((Frustum.new 2).bind fun m => (Defn.new.setSize copyExtents copyWindow).bind (fun d => d.setMapping (.frustum m))).isSome) = true := by
      decide +kernel
    rw [hm] at this
    exact this
  obtain ⟨d2, h2⟩ : ∃ d, Defn.new.copy d1 = some d := by
    apply Option.isSome_iff_exists.1
    have : (((Frustum.new 2).bind fun m => ((Defn.new.setSize copyExtents copyWindow).bind
        (fun d => d.setMapping (.frustum m))).bind fun d => Defn.new.copy d).isSome) = true := by
      decide +kernel
    rw [hm, Option.bind_some, h1] at this
    exact this
  obtain ⟨d0, g0, g1⟩ := Option.bind_eq_some_iff.1 h1
  have hmade : FieldMade 2 d1 := .setMapping _ _ _ (.setSize _ _ _ _ .new g0) (.frustum m m [] hm rfl) g1
  obtain ⟨-, -, e3, e4, -⟩ := C72_definition R 0 2 (le_refl _) _ d1 d2 .new hmade (Or.inl h2)
  simp only [Defn.setMapping, setExtents, Option.map_map, Option.map_eq_some_iff] at g1
  obtain ⟨m', -, rfl⟩ := g1
  simp only [Defn.setSize, Option.map_eq_some_iff] at g0
  obtain ⟨_, -, rfl⟩ := g0
  exact ⟨_, d2, m', rfl, rfl, h2, e3, e4⟩

/-- The voxels of a MAC field of fresh faces are not those of the source. -/
example : ∃ (src : Source V3q) (g : Mac), (∀ r, MacCopies src Mac.fresh r ↔ r = some g) ∧
    src.value ⟨0, 0, 2⟩ = some ⟨1, 2, 3⟩ ∧ g.value ⟨0, 0, 2⟩ = some ⟨0, 0, 0⟩ := by
  obtain ⟨g, h1, h2⟩ := C72_copy_to_mac_copies_nothing ⟨copyDefn, fun _ => some ⟨1, 2, 3⟩⟩ (fun _ => ⟨1, 2, 3⟩) (fun _ _ => rfl)
    (by decide) Mac.fresh
  refine ⟨_, g, h2, rfl, ?_⟩
  have : Mac.fresh.setSize copyExtents copyWindow = some g := h1
  have hv : (Mac.fresh.setSize copyExtents copyWindow).bind (fun g => g.value ⟨0, 0, 2⟩) = some ⟨0, 0, 0⟩ := by decide +kernel
  rw [this] at hv
  exact hv

end Props
end F3D
