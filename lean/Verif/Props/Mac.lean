import Verif.Proofs.Mac
import Verif.Props.Iteration

/-!
# C08, C13: MACField
-/

namespace F3D.Props
open F3D

/-! ## Specification -/

/-- The faces of a direction: the voxels of the data window, one more along the direction's axis. -/
def IsFace (dw : Box3i) (c : MacComp) (p : V3i) : Prop :=
  (dw.min.x ≤ p.x ∧ p.x ≤ dw.max.x + (if c = .u then 1 else 0)) ∧
  (dw.min.y ≤ p.y ∧ p.y ≤ dw.max.y + (if c = .v then 1 else 0)) ∧
  (dw.min.z ≤ p.z ∧ p.z ≤ dw.max.z + (if c = .w then 1 else 0))

theorem isFace_iff {dw : Box3i} {c : MacComp} {p : V3i} :
    IsFace dw c p ↔ (Mac.compWindow dw c).contains p = true := by
  rw [Box3i.contains_iff]
  cases c <;> simp [IsFace, Mac.compWindow]

/-- Contents of a MAC field: one number per face direction and face. -/
abbrev Faces := MacComp → V3i → Rat

inductive MacOp where
  | write (c : MacComp) (p : V3i) (x : Rat)
  | clear (val : V3q)

def V3q.get (val : V3q) : MacComp → Rat
  | .u => val.x
  | .v => val.y
  | .w => val.z

/-- What a user expects of each operation. -/
def Faces.apply (m : Faces) : MacOp → Faces
  | .write c p x => fun c' q => if c' = c ∧ q = p then x else m c' q
  | .clear val => fun c' _ => V3q.get val c'

def macAllowed (dw : Box3i) : MacOp → Prop
  | .write c p _ => IsFace dw c p
  | .clear _ => True

def macStep (f : Mac) : MacOp → Option Mac
  | .write c p x => f.write c p x
  | .clear val => some (f.clear val)

def macRun : Mac → List MacOp → Option Mac
  | f, [] => some f
  | f, op :: ops => (macStep f op).bind (fun g => macRun g ops)

/-- `f` holds exactly the contents `m`. -/
def MacHolds (f : Mac) (m : Faces) : Prop :=
  ∀ c p, IsFace f.dw c p → f.face c p = some (m c p)

theorem mac_run_refines (ops : List MacOp) : ∀ (f : Mac) (m : Faces), f.WF → MacHolds f m →
    (∀ op ∈ ops, macAllowed f.dw op) →
    ∃ g, macRun f ops = some g ∧ g.WF ∧ g.dw = f.dw ∧ g.extents = f.extents ∧
      MacHolds g (ops.foldl Faces.apply m) := by
  induction ops with
  | nil => intro f m wf h _; exact ⟨f, rfl, wf, rfl, rfl, h⟩
  | cons op ops ih =>
    intro f m wf h ha
    have h1 : ∃ g, macStep f op = some g ∧ g.WF ∧ g.dw = f.dw ∧ g.extents = f.extents ∧
        MacHolds g (m.apply op) := by
      cases op with
      | write c p x =>
        obtain ⟨g, e, gwf, gd, ge, gf⟩ := Mac.write_spec wf
          (isFace_iff.mp (ha _ List.mem_cons_self)) x
        refine ⟨g, e, gwf, gd, ge, ?_⟩
        intro c' q hq
        rw [gd] at hq
        rw [gf c' q (isFace_iff.mp hq)]
        simp only [Faces.apply]
        split
        · rfl
        · exact h c' q hq
      | clear val =>
        obtain ⟨gwf, gd, ge, gf⟩ := Mac.clear_spec wf val
        refine ⟨_, rfl, gwf, gd, ge, ?_⟩
        intro c' q hq
        rw [gd] at hq
        rw [gf c' q (isFace_iff.mp hq)]
        cases c' <;> rfl
    obtain ⟨g, e, gwf, gd, ge, gh⟩ := h1
    obtain ⟨k, ek, kwf, kd, ke, kh⟩ := ih g (m.apply op) gwf gh (by
      intro o ho
      rw [gd]
      exact ha o (List.mem_cons_of_mem _ ho))
    exact ⟨k, by simp only [macRun, e, Option.bind_some, ek], kwf, by rw [kd, gd], by rw [ke, ge], kh⟩

/-! ## C08 -/

/-- Resizing a default-constructed field gives zero on every face. -/
theorem mac_fresh_zero {e dw : Box3i} {f : Mac} (hs : Mac.fresh.setSize e dw = some f) :
    MacHolds f (fun _ _ => 0) := by
  intro c p hp
  by_cases hn : 0 ≤ dw.res.x ∧ 0 ≤ dw.res.y ∧ 0 ≤ dw.res.z
  · obtain ⟨g, h1, h2, h3, h4, h5⟩ := Mac.setSize_spec Mac.fresh e dw hn
    rw [hs] at h1
    cases h1
    rw [isFace_iff] at hp
    have ne := Mac.nonempty_of_contains hp
    have dwf := Mac.asDense_wf h2 ne
    rw [Mac.face_dense, Dense.value_eq dwf hp]
    have hl : Box3i.indexOf (Mac.asDense f c).dw p < (f.asDense c).data.length := by
      rw [dwf.len]; exact Box3i.indexOf_lt ne hp
    have hd : (f.asDense c).data = List.replicate (f.asDense c).data.length 0 := by
      show (f.comp c).data = List.replicate (f.comp c).data.length 0
      rw [h5]
      have : (Mac.fresh.comp c).data = [] := by cases c <;> rfl
      simp [Mac.resizeComp, Mac.resizeVec, this]
    rw [hd]
    simp [hl]
  · rw [Mac.setSize_none _ e dw hn] at hs
    cases hs

/-- C08: a fresh MAC field given a window that is not negative along any axis holds zero on every
face; any history of face writes (to faces of the field) and clears then runs inside the three
buffers, and afterwards each face of each direction reads as the last value written to exactly that
face, or the last clear value for its direction. -/
theorem C08_mac_faithful_faces (e dw : Box3i)
    (hdw : dw.min.x ≤ dw.max.x + 1 ∧ dw.min.y ≤ dw.max.y + 1 ∧ dw.min.z ≤ dw.max.z + 1)
    (ops : List MacOp) (hok : ∀ op ∈ ops, macAllowed dw op) :
    ∃ f g, Mac.fresh.setSize e dw = some f ∧ macRun f ops = some g ∧
      g.dw = dw ∧ g.extents = e ∧
      ∀ c p, IsFace dw c p → g.face c p = some (ops.foldl Faces.apply (fun _ _ => 0) c p) := by
  obtain ⟨f, hf, wf, fd, fe, _⟩ := Mac.setSize_spec Mac.fresh e dw (by
    simp only [Box3i.res, V3i.add_x, V3i.add_y, V3i.add_z, V3i.sub_x, V3i.sub_y, V3i.sub_z,
      V3i.all_x, V3i.all_y, V3i.all_z]
    omega)
  obtain ⟨g, hg, gwf, gd, ge, gh⟩ := mac_run_refines ops f (fun _ _ => 0) wf (mac_fresh_zero hf)
    (by rw [fd]; exact hok)
  refine ⟨f, g, hf, hg, by rw [gd, fd], by rw [ge, fe], ?_⟩
  intro c p hp
  exact gh c p (by rw [gd, fd]; exact hp)

/-- C08: in every state reached from a resize, each voxel of the data window has a value, which is
in each direction the average of the faces on its two sides; and a write through `lvalue` changes
nothing. -/
theorem C08_mac_value_is_face_average (f₀ f : Mac) (e dw : Box3i) (hs : f₀.setSize e dw = some f)
    (ops : List MacOp) (hok : ∀ op ∈ ops, macAllowed dw op) (m : Faces) (hm : MacHolds f m) :
    ∃ g, macRun f ops = some g ∧
      let m' := ops.foldl Faces.apply m
      ∀ p, dw.contains p = true →
        g.value p = some ⟨(m' .u p + m' .u ⟨p.x + 1, p.y, p.z⟩) / 2,
                          (m' .v p + m' .v ⟨p.x, p.y + 1, p.z⟩) / 2,
                          (m' .w p + m' .w ⟨p.x, p.y, p.z + 1⟩) / 2⟩ ∧
        ∀ x, g.writeLvalue p x = some g := by
  obtain ⟨wf, fd, fe⟩ := Mac.setSize_wf hs
  obtain ⟨g, hg, gwf, gd, ge, gh⟩ := mac_run_refines ops f m wf hm (by rw [fd]; exact hok)
  refine ⟨g, hg, ?_⟩
  intro m' p hp
  rw [Box3i.contains_iff] at hp
  have half : (1 : Rat) / 2 = 2⁻¹ := by rw [Rat.div_def, Rat.one_mul]
  have h1 := gh .u p (by rw [gd, fd]; simp [IsFace]; omega)
  have h2 := gh .u ⟨p.x + 1, p.y, p.z⟩ (by rw [gd, fd]; simp [IsFace]; omega)
  have h3 := gh .v p (by rw [gd, fd]; simp [IsFace]; omega)
  have h4 := gh .v ⟨p.x, p.y + 1, p.z⟩ (by rw [gd, fd]; simp [IsFace]; omega)
  have h5 := gh .w p (by rw [gd, fd]; simp [IsFace]; omega)
  have h6 := gh .w ⟨p.x, p.y, p.z + 1⟩ (by rw [gd, fd]; simp [IsFace]; omega)
  have hv : g.value p = some ⟨(m' .u p + m' .u ⟨p.x + 1, p.y, p.z⟩) / 2,
                          (m' .v p + m' .v ⟨p.x, p.y + 1, p.z⟩) / 2,
                          (m' .w p + m' .w ⟨p.x, p.y, p.z + 1⟩) / 2⟩ := by
    simp only [Mac.value, Mac.uCenter, Mac.vCenter, Mac.wCenter, h1, h2, h3, h4, h5, h6, half]
    simp only [Rat.div_def]
    rfl
  refine ⟨hv, ?_⟩
  intro x
  simp only [Mac.writeLvalue, hv]
  rfl

/-- C08: resizing succeeds exactly when no axis has negative size. -/
theorem C08_mac_resize_exception (f : Mac) (e dw : Box3i) :
    (∃ g, f.setSize e dw = some g ∧ g.extents = e ∧ g.dw = dw) ↔
      dw.min.x ≤ dw.max.x + 1 ∧ dw.min.y ≤ dw.max.y + 1 ∧ dw.min.z ≤ dw.max.z + 1 := by
  have hr : (0 ≤ dw.res.x ∧ 0 ≤ dw.res.y ∧ 0 ≤ dw.res.z) ↔
      dw.min.x ≤ dw.max.x + 1 ∧ dw.min.y ≤ dw.max.y + 1 ∧ dw.min.z ≤ dw.max.z + 1 := by
    simp only [Box3i.res, V3i.add_x, V3i.add_y, V3i.add_z, V3i.sub_x, V3i.sub_y, V3i.sub_z,
      V3i.all_x, V3i.all_y, V3i.all_z]
    omega
  rw [← hr]
  constructor
  · rintro ⟨g, hg, _⟩
    by_cases hn : 0 ≤ dw.res.x ∧ 0 ≤ dw.res.y ∧ 0 ≤ dw.res.z
    · exact hn
    · rw [Mac.setSize_none _ _ _ hn] at hg
      cases hg
  · intro hn
    obtain ⟨g, h1, _, h3, h4, _⟩ := Mac.setSize_spec f e dw hn
    exact ⟨g, h1, h4, h3⟩

/-- C08 (disagreement): unlike dense and sparse fields, a MAC field that is resized keeps the
elements of its old buffers, now at other faces. Here a face written before the resize shows up
after it at a face that was never written. -/
theorem C08_mac_resize_keeps_stale_faces :
    ∃ (e e' : Box3i) (p q : V3i) (f g h : Mac),
      Mac.fresh.setSize e e = some f ∧ f.write .u p 7 = some g ∧ g.setSize e' e' = some h ∧
      IsFace e' .u q ∧ q ≠ p ∧ h.face .u q = some 7 := by
  refine ⟨⟨⟨0, 0, 0⟩, ⟨1, 1, 0⟩⟩, ⟨⟨0, 0, 0⟩, ⟨2, 1, 0⟩⟩, ⟨1, 1, 0⟩, ⟨0, 1, 0⟩,
    (Mac.fresh.setSize ⟨⟨0, 0, 0⟩, ⟨1, 1, 0⟩⟩ ⟨⟨0, 0, 0⟩, ⟨1, 1, 0⟩⟩).get (by decide +kernel),
    (((Mac.fresh.setSize ⟨⟨0, 0, 0⟩, ⟨1, 1, 0⟩⟩ ⟨⟨0, 0, 0⟩, ⟨1, 1, 0⟩⟩).get (by decide +kernel)).write .u ⟨1, 1, 0⟩ 7).get
      (by decide +kernel),
    ((((Mac.fresh.setSize ⟨⟨0, 0, 0⟩, ⟨1, 1, 0⟩⟩ ⟨⟨0, 0, 0⟩, ⟨1, 1, 0⟩⟩).get (by decide +kernel)).write .u ⟨1, 1, 0⟩ 7).get
      (by decide +kernel) |>.setSize ⟨⟨0, 0, 0⟩, ⟨2, 1, 0⟩⟩ ⟨⟨0, 0, 0⟩, ⟨2, 1, 0⟩⟩).get (by decide +kernel),
    by decide +kernel, by decide +kernel, by decide +kernel, by simp [IsFace], by decide, by decide +kernel⟩

/-- C08: `copyMAC` never writes past its buffers and gives a field with the windows of the source
and the source's value on every face, whatever the destination held before. -/
theorem C08_copyMAC (f src : Mac) (e dw : Box3i) (s₀ : Mac) (hs : s₀.setSize e dw = some src)
    (ops : List MacOp) (hok : ∀ op ∈ ops, macAllowed dw op) (src' : Mac)
    (hr : macRun src ops = some src') :
    ∃ g, f.copyMAC src' = some g ∧ g.extents = e ∧ g.dw = dw ∧
      ∀ c p, g.face c p = src'.face c p := by
  obtain ⟨wf, fd, fe⟩ := Mac.setSize_wf hs
  have hm : ∃ m : Faces, MacHolds src m := by
    refine ⟨fun c p => (src.face c p).getD 0, ?_⟩
    intro c p hp
    obtain ⟨x, hx⟩ := Mac.face_isSome wf (isFace_iff.mp hp)
    simp [hx]
  obtain ⟨m, hm⟩ := hm
  obtain ⟨g', hg', gwf, gd, ge, -⟩ := mac_run_refines ops src m wf hm (by rw [fd]; exact hok)
  rw [hr] at hg'
  cases hg'
  have d1 : src'.dw = dw := by rw [gd, fd]
  have e1 : src'.extents = e := by rw [ge, fe]
  obtain ⟨k, hk, kwf, kd, ke, kc⟩ := Mac.setSize_spec f src'.extents src'.dw gwf.nonneg
  have hlen : ∀ c, (k.comp c).data.length = (src'.comp c).data.length := by
    intro c
    rw [kwf.len, gwf.len, kwf.size, gwf.size, kd]
  have hsz : ∀ c, (k.comp c).size = (src'.comp c).size := by
    intro c; rw [kwf.size, gwf.size, kd]
  have hxy : ∀ c, (k.comp c).sizeXY = (src'.comp c).sizeXY := by
    intro c; rw [kwf.xy, gwf.xy, hsz]
  have l1 : k.cu.data.length = src'.cu.data.length := hlen .u
  have l2 : k.cv.data.length = src'.cv.data.length := hlen .v
  have l3 : k.cw.data.length = src'.cw.data.length := hlen .w
  refine ⟨{ k with cu := { k.cu with data := src'.cu.data },
                   cv := { k.cv with data := src'.cv.data },
                   cw := { k.cw with data := src'.cw.data } }, ?_, ?_, ?_, ?_⟩
  · simp only [Mac.copyMAC, hk, Option.bind_eq_bind, Option.bind_some]
    rw [if_pos (by omega), List.drop_of_length_le (by omega), List.drop_of_length_le (by omega),
      List.drop_of_length_le (by omega)]
    simp
  · show k.extents = e
    rw [ke, e1]
  · show k.dw = dw
    rw [kd, d1]
  · intro c p
    have := hsz c
    have := hxy c
    cases c <;> simp_all [Mac.face, Mac.readAt, Mac.index, Mac.comp]

/-- Non-vacuity: writes to all three directions, at the extra faces, interleaved with a clear. -/
example : ∀ op ∈ [MacOp.write .u ⟨2, 1, 0⟩ 5, .clear ⟨1, 2, 3⟩, .write .v ⟨-1, 2, 0⟩ 7,
    .write .w ⟨1, 1, 1⟩ (1 / 2)], macAllowed ⟨⟨-1, 0, 0⟩, ⟨1, 1, 0⟩⟩ op := by
  simp [macAllowed, IsFace]
example : (Mac.fresh.setSize ⟨⟨-1, 0, 0⟩, ⟨1, 1, 0⟩⟩ ⟨⟨-1, 0, 0⟩, ⟨1, 1, 0⟩⟩).isSome = true := by
  decide +kernel

/-! ## C13 -/

/-- C13: iterating one component over the faces of any sub-box (non-empty along each axis) of the
data window, from `cbegin_comp(comp, subset)` to `cend_comp(comp, subset)`, terminates, visits every
face of that component of the sub-box exactly once and in order, and dereferences at each step the
face whose coordinates it reports. -/
theorem C13_mac_component_iterator (f₀ f : Mac) (e dw : Box3i) (hs : f₀.setSize e dw = some f)
    (c : MacComp) (sub : Box3i) (hsub : sub.isEmpty = false) (hmin : dw.contains sub.min = true)
    (hmax : dw.contains sub.max = true) :
    ∃ l : List Mac.Iter,
      Visits (f.iterNext c (Mac.compWindow sub c)) (f.iterAtEnd c sub) (f.iterBegin c sub) l ∧
      (l.map (·.pos)).Nodup ∧
      (∀ p, p ∈ l.map (·.pos) ↔ IsFace sub c p) ∧
      (l.map (·.pos)).Pairwise (fun a b =>
        a.z < b.z ∨ (a.z = b.z ∧ (a.y < b.y ∨ (a.y = b.y ∧ a.x < b.x)))) ∧
      ∀ s ∈ l, f.iterDeref c s = f.face c s.pos ∧ (f.iterDeref c s).isSome = true := by
  obtain ⟨wf, fd, fe⟩ := Mac.setSize_wf hs
  have hne := Mac.compWindow_nonempty hsub c
  have hb : f.iterBegin c sub = f.iterMake c (Mac.compWindow sub c) (Mac.compWindow sub c).min := by
    simp [Mac.iterBegin, hsub, Mac.compWindow_min]
  have tr := voxels_traverses hne
  have hid : ((Mac.compWindow sub c).voxels.map (fun p => (⟨p, some (f.index c p)⟩ : Mac.Iter))).map
      (·.pos) = (Mac.compWindow sub c).voxels := by
    rw [List.map_map]
    exact List.map_id _
  refine ⟨_, by rw [hb]; exact Mac.iter_visits f c sub hne, ?_, ?_, ?_, ?_⟩
  · rw [hid]; exact tr.nodup
  · intro p
    rw [hid, Box3i.mem_voxels hne, isFace_iff]
  · rw [hid]; exact tr.order
  · intro s hs'
    rw [List.mem_map] at hs'
    obtain ⟨p, hp, rfl⟩ := hs'
    rw [Box3i.mem_voxels hne, ← isFace_iff] at hp
    refine ⟨rfl, ?_⟩
    have : IsFace f.dw c p := by
      rw [fd]
      rw [Box3i.contains_iff] at hmin hmax
      unfold IsFace at *
      omega
    obtain ⟨x, hx⟩ := Mac.face_isSome wf (isFace_iff.mp this)
    show (f.face c p).isSome = true
    rw [hx]
    rfl

/-- C13: the whole-field iteration `cbegin_comp(comp)` of a field with a non-empty window is the
iteration over the data window; a freshly constructed field and an empty subset are not entered. -/
theorem C13_mac_component_iterator_whole (f : Mac) (c : MacComp) :
    (f.dw.isEmpty = false → f.iterBeginAll c = f.iterBegin c f.dw) ∧
    (f.dw.res = V3i.all 0 →
      Visits (f.iterNext c (Mac.compWindow f.dw c)) (f.iterAtEnd c f.dw) (f.iterBeginAll c) []) ∧
    (∀ sub : Box3i, sub.isEmpty = true →
      Visits (f.iterNext c (Mac.compWindow sub c)) (f.iterAtEnd c sub) (f.iterBegin c sub) []) := by
  refine ⟨?_, ?_, ?_⟩
  · intro h
    have h' := Box3i.isEmpty_false.mp h
    unfold Mac.iterBeginAll Mac.iterBegin
    rw [if_neg, h, if_neg (by simp), Mac.compWindow_min]
    intro e
    have := congrArg V3i.x e
    simp [Box3i.res] at this
    omega
  · intro h
    refine Visits.done _ ?_
    simp [Mac.iterBeginAll, h, Mac.iterAtEnd]
  · intro sub h
    refine Visits.done _ ?_
    simp [Mac.iterBegin, h, Mac.iterAtEnd]

example : (⟨⟨0, 0, 0⟩, ⟨1, 0, 0⟩⟩ : Box3i).isEmpty = false ∧
    (⟨⟨-1, 0, 0⟩, ⟨1, 1, 0⟩⟩ : Box3i).contains ⟨0, 0, 0⟩ = true ∧
    (⟨⟨-1, 0, 0⟩, ⟨1, 1, 0⟩⟩ : Box3i).contains ⟨1, 0, 0⟩ = true := by decide

end F3D.Props
