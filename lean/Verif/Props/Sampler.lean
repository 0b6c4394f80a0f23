import Verif.Proofs.Sampler
import Verif.Props.Mapping
import Verif.Props.Cont
import Verif.Model.Interp

/-!
# C61: sampling groups of fields
-/

namespace F3D
namespace Props
open Sampler Mapping
open Cont (Box3q)

/-! ## One point -/

/-- The point lies in the voxels of the field. -/
def insideField {V : Type} (p : V3q) (w : Wrapper V) : Bool :=
  match w.toVoxel p with
  | some q => w.vsBounds.contains q
  | none => false

/-- The fields whose value at `p` is among the values `vs`, in order: the interpolated value of the field at the point
in its voxel space, passed through the remapping of the field if it has one. -/
def ValuesAt {V : Type} (p : V3q) (spot : Wrapper V → Rat) (ws : List (Wrapper V)) (vs : List V) : Prop :=
  List.Forall₂ (fun w v => ∃ q x, w.toVoxel p = some q ∧ w.sample q (spot w) = some x ∧
    v = (match w.remap with | some op => op x | none => x)) ws vs

theorem contribution_eq {V : Type} (w : Wrapper V) (q : V3q) (s : Rat) (v : V) (h : w.contribution q s = some v) :
    ∃ x, w.sample q s = some x ∧ v = (match w.remap with | some op => op x | none => x) := by
  unfold Wrapper.contribution at h
  cases hr : w.remap with
  | none => rw [hr] at h; exact ⟨v, h, rfl⟩
  | some op =>
    rw [hr] at h
    simp only [Option.map_eq_some_iff] at h
    obtain ⟨x, h1, h2⟩ := h
    exact ⟨x, h1, h2.symm⟩

/-- C61: sampling a point adds, in order, the value of every field the point lies in, and counts those fields. -/
theorem C61_sample_sum {V : Type} (add : V → V → V) (p : V3q) : ∀ (fs : List (Wrapper V)) (a a' : Acc V),
    sample add fs p a = some a' →
    ∃ vs, ValuesAt p (fun _ => 0) (fs.filter (insideField p)) vs ∧ a'.1 = vs.foldl add a.1 ∧
      a'.2 = a.2 + (fs.filter (insideField p)).length := by
  intro fs
  induction fs with
  | nil =>
    intro a a' h
    injection h with h
    subst h
    exact ⟨[], .nil, rfl, rfl⟩
  | cons w fs ih =>
    intro a a' h
    simp only [sample, List.foldlM_cons, Option.bind_eq_bind, Option.bind_eq_some_iff] at h
    obtain ⟨b, hb, h⟩ := h
    obtain ⟨vs, h1, h2, h3⟩ := ih b a' h
    simp only [sampleField, Option.bind_eq_some_iff] at hb
    obtain ⟨q, hq, hb⟩ := hb
    have hin : insideField p w = w.vsBounds.contains q := by simp only [insideField, hq]
    split at hb
    · rename_i hc
      simp only [hit, Option.map_eq_some_iff] at hb
      obtain ⟨v, hv, rfl⟩ := hb
      obtain ⟨x, hx, e⟩ := contribution_eq w q 0 v hv
      rw [List.filter_cons_of_pos (by rw [hin]; exact hc)]
      exact ⟨v :: vs, .cons ⟨q, x, hq, hx, e⟩ h1, h2, by rw [h3, List.length_cons]; omega⟩
    · rename_i hc
      injection hb with hb
      subst hb
      rw [List.filter_cons_of_neg (by rw [hin]; exact hc)]
      exact ⟨vs, h1, h2, h3⟩

/-- C61: the same for MIP fields, the spot size being divided by the scale of the transform of the field. -/
theorem C61_sample_mip_sum {V : Type} (add : V → V → V) (p : V3q) (spot : Rat) : ∀ (fs : List (Wrapper V))
    (a a' : Acc V), sampleMIP add fs p spot a = some a' →
    ∃ vs, ValuesAt p (fun w => spot / w.worldScale) (fs.filter (insideField p)) vs ∧ a'.1 = vs.foldl add a.1 ∧
      a'.2 = a.2 + (fs.filter (insideField p)).length := by
  intro fs
  induction fs with
  | nil =>
    intro a a' h
    injection h with h
    subst h
    exact ⟨[], .nil, rfl, rfl⟩
  | cons w fs ih =>
    intro a a' h
    simp only [sampleMIP, List.foldlM_cons, Option.bind_eq_bind, Option.bind_eq_some_iff] at h
    obtain ⟨b, hb, h⟩ := h
    obtain ⟨vs, h1, h2, h3⟩ := ih b a' h
    simp only [sampleFieldMIP, Option.bind_eq_some_iff] at hb
    obtain ⟨q, hq, hb⟩ := hb
    have hin : insideField p w = w.vsBounds.contains q := by simp only [insideField, hq]
    split at hb
    · rename_i hc
      simp only [hit, Option.map_eq_some_iff, Option.bind_eq_some_iff] at hb
      obtain ⟨s, hs, v, hv, rfl⟩ := hb
      have hs : s = spot / w.worldScale := by
        unfold spotSize at hs
        split at hs
        · simp at hs
        · injection hs with hs; exact hs.symm
      subst hs
      obtain ⟨x, hx, e⟩ := contribution_eq w q _ v hv
      rw [List.filter_cons_of_pos (by rw [hin]; exact hc)]
      exact ⟨v :: vs, .cons ⟨q, x, hq, hx, e⟩ h1, h2, by rw [h3, List.length_cons]; omega⟩
    · rename_i hc
      injection hb with hb
      subst hb
      rw [List.filter_cons_of_neg (by rw [hin]; exact hc)]
      exact ⟨vs, h1, h2, h3⟩

theorem foldl_add (vs : List Rat) : ∀ a : Rat, vs.foldl (· + ·) a = a + vs.sum := by
  induction vs with
  | nil => intro a; simp
  | cons v vs ih => intro a; simp only [List.foldl_cons, List.sum_cons, ih]; ring

/-- C61: sampling a group of ordinary and MIP fields gives the sum of the values of all fields the point lies in; with
averaging, it is their mean if there is at least one, and 0 else (for a result that was 0 before). -/
theorem C61_group_sample (fs mips : List (Wrapper Rat)) (p : V3q) (spot : Rat) (avg : Bool) (r : Rat)
    (h : groupSample fs mips p spot avg 0 = some r) :
    ∃ vs us, ValuesAt p (fun _ => 0) (fs.filter (insideField p)) vs ∧
      ValuesAt p (fun w => spot / w.worldScale) (mips.filter (insideField p)) us ∧
      r = if avg then (vs ++ us).sum / ((vs ++ us).length : Nat) else (vs ++ us).sum := by
  simp only [groupSample, Option.bind_eq_bind, Option.bind_eq_some_iff, Option.some.injEq] at h
  obtain ⟨a, h1, b, h2, rfl⟩ := h
  obtain ⟨vs, v1, v2, v3⟩ := C61_sample_sum _ _ _ _ _ h1
  obtain ⟨us, u1, u2, u3⟩ := C61_sample_mip_sum _ _ _ _ _ _ h2
  refine ⟨vs, us, v1, u1, ?_⟩
  have hs : b.1 = (vs ++ us).sum := by
    rw [u2, foldl_add, v2, foldl_add, List.sum_append]; ring
  have hn : b.2 = (vs ++ us).length := by
    rw [u3, v3, List.length_append, ← v1.length_eq, ← u1.length_eq]; omega
  rw [hs, hn]
  generalize vs ++ us = l
  cases avg with
  | false => rfl
  | true =>
    simp only [Bool.true_and, if_true]
    by_cases hl : l.length > 1
    · rw [if_pos (by simpa using hl)]
    · rw [if_neg (by simpa using hl)]
      match l, hl with
      | [], _ => simp
      | [x], _ => simp
      | _ :: _ :: _, hl => simp at hl

/-- C61: a point meets the group if and only if it lies in some field of it. -/
theorem C61_intersects {V : Type} (fs : List (Wrapper V)) (p : V3q) (b : Bool) (h : intersects fs p = some b) :
    b = true ↔ ∃ w ∈ fs, insideField p w = true := by
  have key : ∀ (l : List (Wrapper V)) (r b : Bool), l.foldlM (fun (r : Bool) w => (w.toVoxel p).map fun vsP =>
      if w.vsBounds.contains vsP then true else r) r = some b → (b = true ↔ (r = true ∨ ∃ w ∈ l, insideField p w = true)) := by
    intro l
    induction l with
    | nil => intro r b h; injection h with h; subst h; simp
    | cons w l ih =>
      intro r b h
      simp only [List.foldlM_cons, Option.bind_eq_bind, Option.bind_eq_some_iff, Option.map_eq_some_iff] at h
      obtain ⟨c, ⟨q, hq, hc⟩, h⟩ := h
      rw [ih c b h]
      have hin : insideField p w = w.vsBounds.contains q := by simp only [insideField, hq]
      simp only [List.mem_cons, exists_eq_or_imp, hin]
      rw [← hc]
      by_cases hv : w.vsBounds.contains q = true
      · simp [hv]
      · simp [hv]
  rw [key _ _ _ h]
  constructor
  · rintro (h | ⟨w, hw, h⟩)
    · simp at h
    · simp only [List.mem_flatMap] at hw
      obtain ⟨_, _, hw⟩ := hw
      exact ⟨w, hw, h⟩
  · rintro ⟨w, hw, h⟩
    exact Or.inr ⟨w, List.mem_flatMap.2 ⟨w, hw, hw⟩, h⟩

/-! ## Many points -/

/-- C61: sampling `n` points at once over a list of fields gives for every point what sampling it alone gives, and
changes nothing else. -/
theorem C61_multiple_points {V : Type} (add : V → V → V) (fs : List (Wrapper V)) (n : Nat) (ps : List V3q)
    (st st' : List (Acc V)) (hp : n ≤ ps.length) (hs : n ≤ st.length) :
    sampleMultiple add fs n ps st = some st' ↔
      st'.length = st.length ∧
      (∀ i : Nat, i < n → ∃ p a a', ps[i]? = some p ∧ st[i]? = some a ∧ sample add fs p a = some a' ∧ st'[i]? = some a') ∧
      (∀ i : Nat, n ≤ i → st'[i]? = st[i]?) := by
  have e : sampleMultiple add fs n ps st = fs.foldlM (fun st w => loopPoints (fun p a => sampleField add p a w) ps n st) st := by
    unfold sampleMultiple
    congr 1
    funext st w
    split
    · rfl
    · rename_i h
      simp only [Bool.or_eq_true, not_or, Bool.not_eq_true, Option.isSome_eq_false_iff, Option.isNone_iff_eq_none] at h
      congr 1
      funext p a
      simp only [plainPoint, sampleField, Wrapper.toVoxel, Wrapper.contribution, h.1, h.2]
  rw [e]
  exact loopPoints_foldlM (fun w p a => sampleField add p a w) ps n fs st st' hp hs

/-! ## Many points and MIP fields -/

/-- The calls that change a wrapper. -/
inductive WrapperCall (V : Type) where
  | osToWs (m : M44) (scale : Rat)
  | optimise (on : Bool)
  | remap (op : Option (V → V))

def WrapperCall.apply {V : Type} (rnd : Rat → Rat) (w : Wrapper V) : WrapperCall V → Option (Wrapper V)
  | .osToWs m s => w.setOsToWs rnd m s
  | .optimise on => w.setOptimise rnd on
  | .remap op => some { w with remap := op }

/-- The transforms given are affine and invertible. -/
def WrapperCall.Ok {V : Type} : WrapperCall V → Prop
  | .osToWs m _ => Affine m ∧ m.det ≠ 0
  | _ => True

/-- A matrix mapping made by any calls, with affine transforms, invertible at time 0; or any other kind of mapping. -/
def GoodMap : Map → Prop
  | .matrix m => ∃ f ops, m = Matrix.run f ops ∧ f.Ok ∧ ProperCalls ops ∧ (∀ s ∈ history ops, Affine s.2) ∧
      (transformAt (history ops) 0).det ≠ 0
  | .other _ => True

theorem goodMap_spec (m : Mapping.Matrix) (h : GoodMap (.matrix m)) :
    Affine m.wsToVs ∧ m.wsToVs.det ≠ 0 ∧ m.worldToVoxelMatrix 0 = m.wsToVs := by
  obtain ⟨f, ops, rfl, hf, ho, ha, hd⟩ := h
  have hz := (C54_matrix_time_zero f ops ⟨0, 0, 0⟩).2.2.2.2
  have hr := (run_at f ops 0 ⟨0, 0, 0⟩).2.2.2.2
  rw [hz] at hr
  rw [hz]
  rw [hr]
  refine ⟨affine_inverse _ (affine_mul _ _ (affine_inverse _ (affine_frame _)) (affine_transformAt _ ha 0)), ?_, rfl⟩
  apply M44.det_inverse_ne
  rw [M44.det_mul]
  exact mul_ne_zero (M44.det_inverse_ne _ (Frame.matrix_det_ne _ (frameOf_ok f hf ops ho))) hd

/-- What the calls establish. -/
def Coherent {V : Type} (rnd : Rat → Rat) (w : Wrapper V) : Prop :=
  GoodMap w.map ∧ (∀ o i, w.osToWs = some (o, i) → Affine i ∧ i.det ≠ 0) ∧ w.optimise.isSome ∧
  (w.optimise = some true → ∃ m W b, w.map = .matrix m ∧
    W = (match w.osToWs with | some (_, i) => i.mul m.wsToVs | none => m.wsToVs) ∧ w.wsToVs = some W ∧
    transformBounds W.inverse w.vsBounds = some b ∧ w.wsBounds = some (roundBox rnd b))

theorem setOptimise_coherent {V : Type} (rnd : Rat → Rat) (w w' : Wrapper V) (on : Bool)
    (h1 : GoodMap w.map) (h2 : ∀ o i, w.osToWs = some (o, i) → Affine i ∧ i.det ≠ 0)
    (h3 : on = false → Coherent rnd w) (h4 : ∀ f, w.map = .other f → Coherent rnd w)
    (h : w.setOptimise rnd on = some w') : Coherent rnd w' := by
  unfold Wrapper.setOptimise at h
  cases on with
  | false => injection h with h; subst h; exact h3 rfl
  | true =>
    simp only [Bool.not_true, Bool.false_eq_true, if_false] at h
    cases hm : w.map with
    | other f => rw [hm] at h; injection h with h; subst h; exact h4 f hm
    | matrix m =>
      rw [hm] at h h1
      simp only at h
      have hz := (goodMap_spec m h1).2.2
      rw [hz] at h
      split at h
      · simp at h
      · rename_i b hb
        injection h with h
        subst h
        exact ⟨h1, h2, rfl, fun _ => ⟨m, _, b, rfl, rfl, rfl, hb, rfl⟩⟩

theorem call_coherent {V : Type} (rnd : Rat → Rat) (w w' : Wrapper V) (c : WrapperCall V) (hc : c.Ok)
    (hw : Coherent rnd w) (h : c.apply rnd w = some w') : Coherent rnd w' := by
  obtain ⟨h1, h2, h3, h4⟩ := hw
  cases c with
  | osToWs m s =>
    obtain ⟨ha, hd⟩ := hc
    have hi : ∀ o i, some (m, m.inverse) = some (o, i) → Affine i ∧ i.det ≠ 0 := by
      intro o i e
      injection e with e
      injection e with _ e
      subst e
      exact ⟨affine_inverse _ ha, M44.det_inverse_ne _ hd⟩
    simp only [WrapperCall.apply, Wrapper.setOsToWs] at h
    split at h
    · simp at h
    · rename_i ho
      refine setOptimise_coherent rnd { w with osToWs := some (m, m.inverse), worldScale := s } _ true h1 hi (by simp) ?_ h
      intro f hf
      obtain ⟨m', _, _, hm, _⟩ := h4 ho
      simp only at hf
      rw [hm] at hf
      simp at hf
    · rename_i ho
      injection h with h
      subst h
      exact ⟨h1, hi, by simp only; rw [ho]; rfl, fun e => by simp only at e; rw [ho] at e; simp at e⟩
  | optimise on =>
    exact setOptimise_coherent rnd _ _ on h1 h2 (fun _ => ⟨h1, h2, h3, h4⟩) (fun _ _ => ⟨h1, h2, h3, h4⟩) h
  | remap op =>
    simp only [WrapperCall.apply, Option.some.injEq] at h
    subst h
    exact ⟨h1, h2, h3, h4⟩

/-- A wrapper of a field with one of the mappings above, after any calls; the flag for the optimisation was false in
the beginning. -/
def Prepared {V : Type} (rnd : Rat → Rat) (w : Wrapper V) : Prop :=
  ∃ (w0 : Wrapper V) (calls : List (WrapperCall V)), GoodMap w0.map ∧ w0.osToWs = none ∧ w0.optimise = some false ∧ (∀ c ∈ calls, WrapperCall.Ok c) ∧
    calls.foldlM (WrapperCall.apply rnd) w0 = some w

theorem prepared_coherent {V : Type} (rnd : Rat → Rat) (w : Wrapper V) (h : Prepared rnd w) : Coherent rnd w := by
  obtain ⟨w0, calls, h1, h2, h3, hc, h⟩ := h
  have h0 : Coherent rnd w0 := ⟨h1, fun o i e => by rw [h2] at e; simp at e, by rw [h3]; rfl,
    fun e => by rw [h3] at e; simp at e⟩
  clear h1 h2 h3
  induction calls generalizing w0 with
  | nil => injection h with h; subst h; exact h0
  | cons c cs ih =>
    simp only [List.foldlM_cons, Option.bind_eq_bind, Option.bind_eq_some_iff] at h
    obtain ⟨w1, e1, e2⟩ := h
    exact ih w1 (fun c hm => hc c (List.mem_cons_of_mem _ hm)) e2
      (call_coherent rnd w0 w1 c (hc c List.mem_cons_self) h0 e1)

/-- Rounding keeps the order (as rounding to the nearest `float` does). -/
def Monotone' (rnd : Rat → Rat) : Prop := ∀ a b, a ≤ b → rnd a ≤ rnd b

/-- The coordinates of the point are `float`s: rounding does not change them. -/
def IsFloat (rnd : Rat → Rat) (p : V3q) : Prop := rnd p.x = p.x ∧ rnd p.y = p.y ∧ rnd p.z = p.z

theorem bounded_eq {V : Type} (add : V → V → V) (rnd : Rat → Rat) (hr : Monotone' rnd) (w : Wrapper V)
    (hw : Coherent rnd w) (ho : w.optimise = some true) (op : V → V) (hop : w.remap = some op) (p : V3q × Rat)
    (hp : IsFloat rnd p.1) (a : Acc V) : boundedPoint add w op p a = sampleFieldMIP add p.1 p.2 a w := by
  obtain ⟨h1, h2, _, h4⟩ := hw
  obtain ⟨m, W, b, hm, hW, hWs, hb, hws⟩ := h4 ho
  rw [hm] at h1
  obtain ⟨ma, md, _⟩ := goodMap_spec m h1
  have hWa : Affine W ∧ W.det ≠ 0 := by
    rw [hW]
    cases hos : w.osToWs with
    | none => exact ⟨ma, md⟩
    | some oi =>
      obtain ⟨o, i⟩ := oi
      obtain ⟨ia, id⟩ := h2 o i hos
      exact ⟨affine_mul _ _ ia ma, by rw [M44.det_mul]; exact mul_ne_zero id md⟩
  have hv : w.toVoxel p.1 = W.multVec p.1 := by
    unfold Wrapper.toVoxel
    rw [hW, hm]
    cases hos : w.osToWs with
    | none => rfl
    | some oi =>
      obtain ⟨o, i⟩ := oi
      obtain ⟨ia, _⟩ := h2 o i hos
      simp only
      have hi := affine_multVec i ia p.1
      rw [hi, Option.bind_some]
      exact M44.multVec_mul _ _ _ _ hi
  have hq := affine_multVec W hWa.1 p.1
  revert hq
  generalize (⟨p.1.x * W.r0.x + p.1.y * W.r1.x + p.1.z * W.r2.x + W.r3.x,
    p.1.x * W.r0.y + p.1.y * W.r1.y + p.1.z * W.r2.y + W.r3.y,
    p.1.x * W.r0.z + p.1.y * W.r1.z + p.1.z * W.r2.z + W.r3.z⟩ : V3q) = q
  intro hq
  unfold boundedPoint sampleFieldMIP
  rw [hws, hWs]
  simp only
  rw [hv, hq]
  simp only [Option.bind_some, Wrapper.contribution, hop]
  by_cases hin : w.vsBounds.contains q = true
  · rw [if_pos]
    have hinv := M44.multVec_inverse W hWa.2 _ _ hq
    obtain ⟨vb, q', t1, t2, t3, _⟩ := C55_transform_bounds W.inverse w.vsBounds
      (affine_oneSide _ (affine_inverse _ hWa.1) _) q hin
    rw [hb] at t1
    injection t1 with t1
    subst t1
    rw [hinv] at t2
    injection t2 with t2
    subst t2
    rw [Cont.Box3q.contains_iff] at t3 ⊢
    obtain ⟨f1, f2, f3⟩ := hp
    simp only [roundBox]
    obtain ⟨⟨k1, k2⟩, ⟨k3, k4⟩, k5, k6⟩ := t3
    refine ⟨⟨?_, ?_⟩, ⟨?_, ?_⟩, ?_, ?_⟩
    · rw [← f1]; exact hr _ _ k1
    · rw [← f1]; exact hr _ _ k2
    · rw [← f2]; exact hr _ _ k3
    · rw [← f2]; exact hr _ _ k4
    · rw [← f3]; exact hr _ _ k5
    · rw [← f3]; exact hr _ _ k6
  · rw [if_neg hin]
    simp

/-- C61: sampling `n` points in MIP fields at once gives for every point what sampling it alone gives, also with the
test against rounded world space bounds: a point with `float` coordinates is never lost. -/
theorem C61_mip_multiple_points {V : Type} (add : V → V → V) (rnd : Rat → Rat) (hr : Monotone' rnd)
    (fs : List (Wrapper V)) (hf : ∀ w ∈ fs, Prepared rnd w) (n : Nat) (ps : List (V3q × Rat))
    (hps : ∀ p ∈ ps, IsFloat rnd p.1) (st st' : List (Acc V)) (hp : n ≤ ps.length) (hs : n ≤ st.length) :
    sampleMIPMultiple add fs n ps st = some st' ↔
      st'.length = st.length ∧
      (∀ i : Nat, i < n → ∃ p a a', ps[i]? = some p ∧ st[i]? = some a ∧ sampleMIP add fs p.1 p.2 a = some a' ∧
        st'[i]? = some a') ∧
      (∀ i : Nat, n ≤ i → st'[i]? = st[i]?) := by
  have hloop : ∀ (f g : V3q × Rat → Acc V → Option (Acc V)), (∀ p ∈ ps, ∀ a, f p a = g p a) → ∀ st,
      loopPoints f ps n st = loopPoints g ps n st := by
    intro f g hfg st
    unfold loopPoints
    congr 1
    funext st i
    cases hi : ps[i]? with
    | none => rfl
    | some p =>
      simp only [Option.bind_some]
      congr 1
      funext a
      rw [hfg p (List.mem_of_getElem? hi)]
  have hfield : ∀ w ∈ fs, ∀ st, fieldMIPMultiple add w n ps st =
      loopPoints (fun p a => sampleFieldMIP add p.1 p.2 a w) ps n st := by
    intro w hw st
    have hc := prepared_coherent rnd w (hf w hw)
    unfold fieldMIPMultiple
    split
    · split
      · rename_i op hop
        split
        · rename_i ho
          have := hc.2.2.1
          rw [ho] at this
          simp at this
        · rename_i ho
          exact hloop _ _ (fun p hpm a => bounded_eq add rnd hr w hc ho op hop p (hps p hpm) a) st
        · rfl
      · rfl
    · rename_i h
      simp only [Bool.or_eq_true, not_or, Bool.not_eq_true, Option.isSome_eq_false_iff, Option.isNone_iff_eq_none] at h
      congr 1
      funext p a
      simp only [plainPointMIP, sampleFieldMIP, Wrapper.toVoxel, Wrapper.contribution, h.1, h.2]
  have e : ∀ (l : List (Wrapper V)), (∀ w ∈ l, w ∈ fs) → ∀ st, l.foldlM (fun st w => fieldMIPMultiple add w n ps st) st =
      l.foldlM (fun st w => loopPoints (fun p a => sampleFieldMIP add p.1 p.2 a w) ps n st) st := by
    intro l
    induction l with
    | nil => intro _ st; rfl
    | cons w l ih =>
      intro hl st
      simp only [List.foldlM_cons]
      rw [hfield w (hl w List.mem_cons_self)]
      congr 1
      funext st
      exact ih (fun w hw => hl w (List.mem_cons_of_mem _ hw)) st
  unfold sampleMIPMultiple
  rw [e fs (fun w hw => hw)]
  exact loopPoints_foldlM (fun w (p : V3q × Rat) a => sampleFieldMIP add p.1 p.2 a w) ps n fs st st' hp hs

/-- C61: but the flag is not initialised for MIP fields: adding a MIP field to a group with an object transform reads
it, and so does sampling many points if the group has a value remapping and the optimisation was not switched on. -/
theorem C61_mip_uninitialised_flag {V : Type} (add : V → V → V) (rnd : Rat → Rat) (map : Map) (vsBounds : Box3q)
    (smp : V3q → Rat → Option V) :
    (∀ m s r o, m ≠ M44.one → grab rnd m s r o (Wrapper.newMIP map vsBounds smp) = none) ∧
    (∀ s op, ∃ w, grab rnd M44.one s (some op) false (Wrapper.newMIP map vsBounds smp) = some w ∧
      ∀ n ps st fs, sampleMIPMultiple add (w :: fs) n ps st = none) := by
  constructor
  · intro m s r o hm
    unfold grab
    rw [if_pos hm]
    rfl
  · intro s op
    refine ⟨_, rfl, ?_⟩
    intro n ps st fs
    rfl

/-- C61: a field that is added to a group has the transform, the remapping and the optimisation of the group; the
optimisation needs a matrix mapping. Its wrapper is one of those above. -/
theorem C61_group_wrappers {V : Type} (rnd : Rat → Rat) (map : Map) (hm : GoodMap map) (vsBounds : Box3q)
    (smp : V3q → Rat → Option V) (m : M44) (hA : m ≠ M44.one → Affine m ∧ m.det ≠ 0) (s : Rat) (r : Option (V → V)) (o : Bool)
    (w : Wrapper V) (h : grab rnd m s r o (Wrapper.new map vsBounds smp) = some w) :
    Prepared rnd w ∧ w.map = map ∧ w.vsBounds = vsBounds ∧ w.sample = smp ∧ w.remap = r ∧
      w.osToWs = (if m ≠ M44.one then some (m, m.inverse) else none) ∧ w.worldScale = (if m ≠ M44.one then s else 1) ∧
      (w.optimise = some true ↔ o = true ∧ ∃ mm, map = .matrix mm) := by
  have hgrab : grab rnd m s r o (Wrapper.new map vsBounds smp) =
      (if m ≠ M44.one then (Wrapper.new map vsBounds smp).setOsToWs rnd m s else some (Wrapper.new map vsBounds smp)).bind fun w =>
      (if o then w.setOptimise rnd true else some w).bind fun w =>
      match r with
      | some op => some { w with remap := some op }
      | none => some w := by
    unfold grab
    by_cases hne : m ≠ M44.one
    · rw [if_pos hne, if_pos hne]
      cases o <;> rfl
    · rw [if_neg hne, if_neg hne]
      cases o <;> rfl
  rw [hgrab] at h
  simp only [Option.bind_eq_some_iff] at h
  obtain ⟨w1, h1, w2, h2, h3⟩ := h
  have hc1 : ∃ calls : List (WrapperCall V), (∀ c ∈ calls, WrapperCall.Ok c) ∧
      calls.foldlM (WrapperCall.apply rnd) (Wrapper.new map vsBounds smp) = some w1 ∧
      w1 = { Wrapper.new map vsBounds smp with
        osToWs := if m ≠ M44.one then some (m, m.inverse) else none, worldScale := if m ≠ M44.one then s else 1 } := by
    by_cases hne : m ≠ M44.one
    · simp only [hne, if_true, ne_eq, not_false_eq_true] at h1 ⊢
      refine ⟨[.osToWs m s], by intro c hc; rw [List.mem_singleton] at hc; subst hc; exact hA hne, ?_, ?_⟩
      · simp [List.foldlM, WrapperCall.apply, h1]
      · simp only [Wrapper.setOsToWs, Wrapper.new, Option.some.injEq] at h1
        rw [← h1]; rfl
    · simp only [hne, if_false] at h1 ⊢
      cases h1
      exact ⟨[], by simp, rfl, rfl⟩
  obtain ⟨cs, hok, hrun, hw1⟩ := hc1
  have hc2 : ∃ calls : List (WrapperCall V), (∀ c ∈ calls, WrapperCall.Ok c) ∧
      calls.foldlM (WrapperCall.apply rnd) w1 = some w2 := by
    cases o with
    | false => cases h2; exact ⟨[], by simp, rfl⟩
    | true =>
      simp only [if_true] at h2
      exact ⟨[.optimise true], by intro c hc; rw [List.mem_singleton] at hc; subst hc; trivial,
        by simp [List.foldlM, WrapperCall.apply, h2]⟩
  obtain ⟨cs2, hok2, hrun2⟩ := hc2
  have h2' : w2.map = w1.map ∧ w2.vsBounds = w1.vsBounds ∧ w2.sample = w1.sample ∧ w2.remap = w1.remap ∧
      w2.osToWs = w1.osToWs ∧ w2.worldScale = w1.worldScale ∧
      (w2.optimise = some true ↔ w1.optimise = some true ∨ o = true ∧ ∃ mm, w1.map = .matrix mm) := by
    cases o with
    | false => cases h2; simp
    | true =>
      simp only [if_true] at h2
      unfold Wrapper.setOptimise at h2
      simp only [Bool.not_true, Bool.false_eq_true, if_false] at h2
      cases hmap : w1.map with
      | other f => rw [hmap] at h2; cases h2; simp [hmap]
      | matrix mm =>
        rw [hmap] at h2
        simp only at h2
        split at h2
        · simp at h2
        · cases h2; simp [hmap]
  obtain ⟨g1, g2, g3, g4, g5, g6, g7⟩ := h2'
  have hw : w = { w2 with remap := r } := by
    cases r with
    | none =>
      have h4 : w2 = w := Option.some.inj h3
      have g4' : w2.remap = none := by rw [g4, hw1]; rfl
      rw [← h4]
      cases w2
      simp only at g4'
      rw [g4']
    | some op => cases h3; rfl
  refine ⟨⟨Wrapper.new map vsBounds smp, cs ++ cs2 ++ [.remap r], hm, rfl, rfl, ?_, ?_⟩, ?_⟩
  · intro c hc
    rw [List.mem_append, List.mem_append, List.mem_singleton] at hc
    rcases hc with (hc | hc) | rfl
    · exact hok c hc
    · exact hok2 c hc
    · trivial
  · rw [List.foldlM_append, List.foldlM_append, hrun]
    simp only [Option.bind_eq_bind, Option.bind_some]
    rw [hrun2]
    simp [List.foldlM, WrapperCall.apply, hw]
  · rw [hw1] at g1 g2 g3 g5 g6 g7
    rw [hw]
    refine ⟨g1, g2, g3, rfl, g5, g6, ?_⟩
    rw [g7]
    simp [Wrapper.new]

/-- Two fields of 4×4×4 and 2×2×2 voxels; the first is scaled, remapped and tested against its world bounds. -/
def sampleBox (n : Rat) : Box3q := ⟨⟨0, 0, 0⟩, ⟨n, n, n⟩⟩

def sampleMatrix : Mapping.Matrix := Matrix.run Frame.default [.setExtents ⟨⟨0, 0, 0⟩, ⟨3, 3, 3⟩⟩,
  .setLocalToWorld (M44.setScale ⟨4, 4, 4⟩)]

def sampleWrapper : Wrapper Rat := Wrapper.new (.matrix sampleMatrix) (sampleBox 4) (fun p s => some (p.x + s))

def sampleWrapperCalls : List (WrapperCall Rat) :=
  [.osToWs (M44.setScale ⟨2, 2, 2⟩) 2, .optimise true, .remap (some (· * 10))]

theorem sampleBuilt : (sampleWrapperCalls.foldlM (WrapperCall.apply id) sampleWrapper).isSome := by decide +kernel

example : ∃ w, sampleWrapperCalls.foldlM (WrapperCall.apply id) sampleWrapper = some w ∧ Prepared id w ∧
    sampleMIPMultiple (· + ·) [w] 2 [(⟨2, 1, 1⟩, 4), (⟨9, 1, 1⟩, 4)] [(0, 0), (0, 0)] = some [(30, 1), (0, 0)] := by
  refine ⟨(sampleWrapperCalls.foldlM (WrapperCall.apply id) sampleWrapper).get sampleBuilt, (Option.some_get sampleBuilt).symm, ?_, ?_⟩
  · refine ⟨sampleWrapper, sampleWrapperCalls, ⟨Frame.default, _, rfl, default_ok, ?_, ?_, ?_⟩, rfl, rfl, ?_,
      (Option.some_get sampleBuilt).symm⟩
    · intro e he
      simp only [List.mem_cons, Op.setExtents.injEq, List.mem_nil_iff, or_false] at he
      rcases he with rfl | he
      · unfold Proper; decide
      · simp at he
    · intro s hs
      simp only [history, List.foldl] at hs
      simp at hs
      subst hs
      unfold Affine
      decide +kernel
    · decide +kernel
    · intro c hc
      simp only [sampleWrapperCalls, List.mem_cons, List.mem_nil_iff, or_false] at hc
      rcases hc with rfl | rfl | rfl
      · refine ⟨?_, by decide +kernel⟩
        unfold Affine
        decide +kernel
      · trivial
      · trivial
  · decide +kernel

/-! ## Minimum and maximum -/

/-- The conversions between the type of the field and `float` are exact. -/
def Exact (s : Source) : Prop := (∀ x, s.cast x = x) ∧ (∀ x, s.store x = x)

theorem scan_spec (s : Source) (hs : Exact s) (r : Box3i) (st st' : Rat × Rat) (h : s.scan r st = some st') :
    (∀ v, r.contains v = true → ∃ x, s.value v = some x ∧ st'.1 ≤ x ∧ x ≤ st'.2) ∧ st'.1 ≤ st.1 ∧ st.2 ≤ st'.2 ∧
    (st'.1 = st.1 ∨ ∃ v, r.contains v = true ∧ s.value v = some st'.1) ∧
    (st'.2 = st.2 ∨ ∃ v, r.contains v = true ∧ s.value v = some st'.2) := by
  have key : ∀ (l : List V3i) (st st' : Rat × Rat), l.foldlM (fun (st : Rat × Rat) v => (s.value v).map fun val =>
      (s.store (stdMin val (s.cast st.1)), s.store (stdMax val (s.cast st.2)))) st = some st' →
      (∀ v ∈ l, ∃ x, s.value v = some x ∧ st'.1 ≤ x ∧ x ≤ st'.2) ∧ st'.1 ≤ st.1 ∧ st.2 ≤ st'.2 ∧
      (st'.1 = st.1 ∨ ∃ v ∈ l, s.value v = some st'.1) ∧ (st'.2 = st.2 ∨ ∃ v ∈ l, s.value v = some st'.2) := by
    intro l
    induction l with
    | nil =>
      intro st st' h
      injection h with h
      subst h
      exact ⟨fun v hv => absurd hv (by simp), le_refl _, le_refl _, Or.inl rfl, Or.inl rfl⟩
    | cons v l ih =>
      intro st st' h
      simp only [List.foldlM_cons, Option.bind_eq_bind, Option.bind_eq_some_iff, Option.map_eq_some_iff] at h
      obtain ⟨m, ⟨x, hx, hm⟩, h⟩ := h
      rw [hs.1, hs.1, hs.2, hs.2] at hm
      obtain ⟨k1, k2, k3, k4, k5⟩ := ih m st' h
      rw [← hm] at k2 k3 k4 k5
      simp only at k2 k3 k4 k5
      have hmin : stdMin x st.1 ≤ x ∧ stdMin x st.1 ≤ st.1 ∧ (stdMin x st.1 = x ∨ stdMin x st.1 = st.1) := by
        unfold stdMin
        split
        · rename_i h'; exact ⟨h'.le, le_refl _, Or.inr rfl⟩
        · rename_i h'; exact ⟨le_refl _, not_lt.1 h', Or.inl rfl⟩
      have hmax : x ≤ stdMax x st.2 ∧ st.2 ≤ stdMax x st.2 ∧ (stdMax x st.2 = x ∨ stdMax x st.2 = st.2) := by
        unfold stdMax
        split
        · rename_i h'; exact ⟨h'.le, le_refl _, Or.inr rfl⟩
        · rename_i h'; exact ⟨le_refl _, not_lt.1 h', Or.inl rfl⟩
      refine ⟨?_, le_trans k2 hmin.2.1, le_trans hmax.2.1 k3, ?_, ?_⟩
      · intro u hu
        rcases List.mem_cons.1 hu with rfl | hu
        · exact ⟨x, hx, le_trans k2 hmin.1, le_trans hmax.1 k3⟩
        · exact k1 u hu
      · rcases k4 with k4 | ⟨u, hu, k4⟩
        · rcases hmin.2.2 with e | e
          · exact Or.inr ⟨v, List.mem_cons_self, by rw [k4, e]; exact hx⟩
          · exact Or.inl (by rw [k4, e])
        · exact Or.inr ⟨u, List.mem_cons_of_mem _ hu, k4⟩
      · rcases k5 with k5 | ⟨u, hu, k5⟩
        · rcases hmax.2.2 with e | e
          · exact Or.inr ⟨v, List.mem_cons_self, by rw [k5, e]; exact hx⟩
          · exact Or.inl (by rw [k5, e])
        · exact Or.inr ⟨u, List.mem_cons_of_mem _ hu, k5⟩
  obtain ⟨h1, h2, h3, h4, h5⟩ := key _ _ _ h
  refine ⟨fun v hv => h1 v ((mem_boxLoop r v).2 hv), h2, h3, ?_, ?_⟩
  · rcases h4 with h4 | ⟨v, hv, h4⟩
    · exact Or.inl h4
    · exact Or.inr ⟨v, (mem_boxLoop r v).1 hv, h4⟩
  · rcases h5 with h5 | ⟨v, hv, h5⟩
    · exact Or.inl h5
    · exact Or.inr ⟨v, (mem_boxLoop r v).1 hv, h5⟩

/-- The region of every field meets its data window (or the bounds are infinite). -/
def AllMeet (fs : List Source) (b : Option Box3q) : Prop :=
  b = none ∨ ∀ s ∈ fs, ∀ r, s.region b = some r → boxesMeet s.dw r = true

/-- C61: if every field of the group meets the bounds, the minimum and maximum found bound the values of all voxels in
the bounds, of all fields, and each is the value of such a voxel or was there before. -/
theorem C61_minmax (b : Option Box3q) : ∀ (fs : List Source) (hx : ∀ s ∈ fs, Exact s) (hm : AllMeet fs b)
    (st st' : Rat × Rat), getMinMax fs b st = some st' →
    (∀ s ∈ fs, ∃ r, s.region b = some r ∧ ∀ v, r.contains v = true → ∃ x, s.value v = some x ∧ st'.1 ≤ x ∧ x ≤ st'.2) ∧
    st'.1 ≤ st.1 ∧ st.2 ≤ st'.2 ∧
    (st'.1 = st.1 ∨ ∃ s ∈ fs, ∃ r v, s.region b = some r ∧ r.contains v = true ∧ s.value v = some st'.1) ∧
    (st'.2 = st.2 ∨ ∃ s ∈ fs, ∃ r v, s.region b = some r ∧ r.contains v = true ∧ s.value v = some st'.2) := by
  intro fs
  induction fs with
  | nil =>
    intro _ _ st st' h
    injection h with h
    subst h
    exact ⟨fun s hs => absurd hs (by simp), le_refl _, le_refl _, Or.inl rfl, Or.inl rfl⟩
  | cons s fs ih =>
    intro hx hm st st' h
    simp only [getMinMax, Option.bind_eq_some_iff] at h
    obtain ⟨r, hr, h⟩ := h
    have hgo : ¬ ((b.isSome && !boxesMeet s.dw r) = true) := by
      rcases hm with hm | hm
      · rw [hm]; simp
      · rw [hm s List.mem_cons_self r hr]; simp
    rw [if_neg hgo] at h
    simp only [Option.bind_eq_some_iff] at h
    obtain ⟨m, h1, h2⟩ := h
    obtain ⟨k1, k2, k3, k4, k5⟩ := scan_spec s (hx s List.mem_cons_self) r st m h1
    obtain ⟨l1, l2, l3, l4, l5⟩ := ih (fun s hs => hx s (List.mem_cons_of_mem _ hs))
      (by rcases hm with hm | hm
          · exact Or.inl hm
          · exact Or.inr fun s hs => hm s (List.mem_cons_of_mem _ hs)) m st' h2
    refine ⟨?_, le_trans l2 k2, le_trans k3 l3, ?_, ?_⟩
    · intro u hu
      rcases List.mem_cons.1 hu with rfl | hu
      · refine ⟨r, hr, fun v hv => ?_⟩
        obtain ⟨x, e, e1, e2⟩ := k1 v hv
        exact ⟨x, e, le_trans l2 e1, le_trans e2 l3⟩
      · exact l1 u hu
    · rcases l4 with l4 | ⟨u, hu, r', v, e⟩
      · rcases k4 with k4 | ⟨v, hv, k4⟩
        · exact Or.inl (by rw [l4, k4])
        · exact Or.inr ⟨s, List.mem_cons_self, r, v, hr, hv, by rw [l4]; exact k4⟩
      · exact Or.inr ⟨u, List.mem_cons_of_mem _ hu, r', v, e⟩
    · rcases l5 with l5 | ⟨u, hu, r', v, e⟩
      · rcases k5 with k5 | ⟨v, hv, k5⟩
        · exact Or.inl (by rw [l5, k5])
        · exact Or.inr ⟨s, List.mem_cons_self, r, v, hr, hv, by rw [l5]; exact k5⟩
      · exact Or.inr ⟨u, List.mem_cons_of_mem _ hu, r', v, e⟩

/-- A box through a mapping as above. -/
theorem goodMap_bounds (m : Mapping.Matrix) (h : GoodMap (.matrix m)) (b : Box3q) (p : V3q) (hp : b.contains p = true) :
    ∃ vb q, boundsThrough m.worldToVoxel b = some vb ∧ m.worldToVoxel p = some q ∧ vb.contains q = true := by
  obtain ⟨ha, _, _⟩ := goodMap_spec m h
  obtain ⟨vb, q, e1, e2, e3, _⟩ := C55_transform_bounds m.wsToVs b (affine_oneSide _ ha b) p hp
  exact ⟨vb, q, e1, e2, e3⟩

theorem boundsToVoxel_spec (m : Mapping.Matrix) (hm : GoodMap (.matrix m)) (t : Option M44)
    (ht : ∀ x, t = some x → Affine x) (b vs : Box3q) (hb : boundsToVoxel (.matrix m) t b = some vs) (p : V3q)
    (hp : b.contains p = true) :
    ∃ q, (match t with | some x => (x.multVec p).bind m.worldToVoxel | none => m.worldToVoxel p) = some q ∧
      vs.contains q = true := by
  cases t with
  | none =>
    obtain ⟨vb, q, e1, e2, e3⟩ := goodMap_bounds m hm b p hp
    have : boundsThrough m.worldToVoxel b = some vs := hb
    rw [this] at e1
    injection e1 with e1
    subst e1
    exact ⟨q, e2, e3⟩
  | some x =>
    obtain ⟨ob, o, e1, e2, e3, _⟩ := C55_transform_bounds x b (affine_oneSide _ (ht x rfl) b) p hp
    obtain ⟨vb, q, k1, k2, k3⟩ := goodMap_bounds m hm ob o e3
    have : (transformBounds x b).bind (fun os => boundsThrough m.worldToVoxel os) = some vs := hb
    rw [e1, Option.bind_some, k1] at this
    injection this with this
    subst this
    exact ⟨q, by simp only; rw [e2, Option.bind_some, k2], k3⟩

/-- The voxel of the field that contains a world point. -/
def voxelAt (m : Mapping.Matrix) (t : Option M44) (p : V3q) : Option V3i :=
  (match t with | some x => (x.multVec p).bind m.worldToVoxel | none => m.worldToVoxel p).bind Cont.contToDisc3

theorem clip_contains (a b : Box3i) (i : V3i) : (clipBounds a b).contains i = true ↔ a.contains i = true ∧ b.contains i = true := by
  rw [Box3i.contains_iff, Box3i.contains_iff, Box3i.contains_iff]
  simp only [clipBounds]
  omega

theorem region_covers (m : Mapping.Matrix) (hm : GoodMap (.matrix m)) (t : Option M44)
    (ht : ∀ x, t = some x → Affine x) (dw : Box3i) (b vs : Box3q) (hb : boundsToVoxel (.matrix m) t b = some vs)
    (hg : GoodMin vs.min.x ∧ GoodMin vs.min.y ∧ GoodMin vs.min.z) (p : V3q) (hp : b.contains p = true) (i : V3i)
    (hi : voxelAt m t p = some i) (hd : dw.contains i = true) :
    (clipBounds (Cont.discreteBounds vs) dw).contains i = true := by
  obtain ⟨q, e1, e2⟩ := boundsToVoxel_spec m hm t ht b vs hb p hp
  unfold voxelAt at hi
  rw [e1, Option.bind_some] at hi
  rw [clip_contains]
  exact ⟨C17_discreteBounds_covers vs hg.1 hg.2.1 hg.2.2 q ((Cont.Box3q.contains_iff _ _).1 e2) i hi, hd⟩

/-- C61: for matrix mappings, the voxels looked at include every voxel of the data window that contains a point of the
given world bounds, provided the voxel space bounds do not begin at a negative fraction; so the result bounds the
value of each of them. -/
theorem C61_minmax_covers (fs : List Source) (hx : ∀ s ∈ fs, Exact s) (b : Box3q) (hmeet : AllMeet fs (some b))
    (st st' : Rat × Rat) (h : getMinMax fs (some b) st = some st') (s : Source) (hs : s ∈ fs) (m : Mapping.Matrix)
    (hm : s.map = .matrix m) (hgm : GoodMap (.matrix m)) (ht : ∀ x, s.wsToOs = some x → Affine x)
    (hg : ∀ vs, boundsToVoxel s.map s.wsToOs b = some vs → GoodMin vs.min.x ∧ GoodMin vs.min.y ∧ GoodMin vs.min.z)
    (p : V3q) (hp : b.contains p = true) (i : V3i) (hi : voxelAt m s.wsToOs p = some i) (hd : s.dw.contains i = true) :
    ∃ x, s.value i = some x ∧ st'.1 ≤ x ∧ x ≤ st'.2 := by
  obtain ⟨r, hr, hv⟩ := (C61_minmax (some b) fs hx hmeet st st' h).1 s hs
  simp only [Source.region, Option.map_eq_some_iff] at hr
  obtain ⟨vs, e1, e2⟩ := hr
  apply hv
  rw [← e2]
  have hg' := hg vs e1
  rw [hm] at e1
  exact region_covers m hgm s.wsToOs ht s.dw b vs e1 hg' p hp i hi hd

/-- C61: a field that does not meet the bounds ends the search: whatever fields come after it, the result is that of
the fields before it. -/
theorem C61_minmax_stops (b : Box3q) (s : Source) (r : Box3i) (hr : s.region (some b) = some r)
    (hn : boxesMeet s.dw r = false) (gs : List Source) : ∀ (fs : List Source) (st : Rat × Rat),
    getMinMax (fs ++ s :: gs) (some b) st = getMinMax fs (some b) st := by
  intro fs
  induction fs with
  | nil =>
    intro st
    simp only [List.nil_append, getMinMax, hr, Option.bind_some, hn, Option.isSome_some, Bool.not_false,
      Bool.and_self, if_true]
  | cons u fs ih =>
    intro st
    simp only [List.cons_append, getMinMax]
    congr 1
    funext r'
    split
    · rfl
    · congr 1
      funext st'
      exact ih st'

/-- Identity mapping of two voxels in a row. -/
def rowMap : Map := .other some

def rowSource (value : Int → Rat) (dw : Box3i) : Source := ⟨rowMap, none, dw, fun v => some (value v.x), id, id⟩

def tenRow : Source := rowSource (fun x => 10 * x) ⟨⟨0, 0, 0⟩, ⟨1, 0, 0⟩⟩

example : getMinMax [tenRow] (some ⟨⟨0, 0, 0⟩, ⟨2, 1, 1⟩⟩) (100, -100) = some (0, 10) := by decide +kernel
example : getMinMax [tenRow] none (100, -100) = some (0, 10) := by decide +kernel

/-- C61: so a group of a distant field and a near one has another range than the near field alone. -/
theorem C61_minmax_misses_fields :
    getMinMax [tenRow] (some ⟨⟨0, 0, 0⟩, ⟨2, 1, 1⟩⟩) (100, -100) = some (0, 10) ∧
    getMinMax [rowSource (fun _ => 7) ⟨⟨50, 0, 0⟩, ⟨60, 0, 0⟩⟩, tenRow] (some ⟨⟨0, 0, 0⟩, ⟨2, 1, 1⟩⟩) (100, -100) =
      some (100, -100) := by decide +kernel

/-- C61: the range does not bound the interpolated values: a sample between two voxels whose centres lie outside of the
bounds. -/
theorem C61_minmax_not_interpolated : ∃ b p, Cont.Box3q.contains b p = true ∧
    getMinMax [tenRow] (some b) (100, -100) = some (0, 0) ∧ Interp.linear tenRow.dw tenRow.value p = some 4 :=
  ⟨⟨⟨3 / 5, 0, 0⟩, ⟨9 / 10, 1 / 2, 1 / 2⟩⟩, ⟨9 / 10, 1 / 2, 1 / 2⟩, by decide +kernel⟩

/-- C61: bounds beginning at a negative fraction lose voxels. -/
theorem C61_minmax_negative : ∃ s b, Exact s ∧ getMinMax [s] (some b) (100, -100) = some (0, 0) ∧
    Cont.Box3q.contains b ⟨-1 / 4, 1 / 2, 1 / 2⟩ = true ∧ Cont.contToDisc3 ⟨-1 / 4, 1 / 2, 1 / 2⟩ = some ⟨-1, 0, 0⟩ ∧
    s.value ⟨-1, 0, 0⟩ = some (-10) :=
  ⟨rowSource (fun x => 10 * x) ⟨⟨-1, 0, 0⟩, ⟨0, 0, 0⟩⟩, ⟨⟨-1 / 2, 0, 0⟩, ⟨1 / 2, 1 / 2, 1 / 2⟩⟩,
    ⟨fun _ => rfl, fun _ => rfl⟩, by decide +kernel⟩

/-- Conversion of a non-negative integer to `half` (11 significant bits, to nearest, ties to even). -/
def toHalf (n : Nat) : Nat :=
  let k := n.log2
  if k < 11 then n
  else
    let u := 2 ^ (k - 10)
    let q := n / u
    let r := n % u
    if 2 * r < u then q * u
    else if u < 2 * r then (q + 1) * u
    else if q % 2 = 0 then q * u else (q + 1) * u

/-- The conversion of `float` to `half`, for integers. -/
def castHalf (x : Rat) : Rat := if x.den = 1 then (if 0 ≤ x.num then (toHalf x.num.toNat : Nat) else -(toHalf (-x.num).toNat : Nat)) else x

def halfSource : Source := { rowSource (fun _ => 1) ⟨⟨0, 0, 0⟩, ⟨1, 0, 0⟩⟩ with cast := castHalf }

/-- C61: a `half` field after a `float` field rounds what was found before to `half`: the maximum of a `float` field
with the value 2049 and a `half` field is given as 2048. -/
theorem C61_minmax_half :
    getMinMax [rowSource (fun _ => 2049) ⟨⟨0, 0, 0⟩, ⟨1, 0, 0⟩⟩] none (100, -100) = some (100, 2049) ∧
    getMinMax [rowSource (fun _ => 2049) ⟨⟨0, 0, 0⟩, ⟨1, 0, 0⟩⟩, halfSource] none (100, -100) = some (1, 2048) := by
  decide +kernel

/-! ## Prefiltered minimum and maximum -/

/-- Every voxel of a coarser level that contains a point of a voxel of the finest level has a value at most
(`isMin`) or at least (else) that of the fine voxel: what a MIP field of minima (maxima) is made for. All levels
have matrix mappings. -/
def Prefiltered (isMin : Bool) (s : MipSource) : Prop :=
  (∀ x, s.cast x = x) ∧ (∀ x, s.store x = x) ∧ (∀ x, s.wsToOs = some x → Affine x) ∧
  (∀ l ∈ s.levels, ∃ m, l.map = .matrix m ∧ GoodMap (.matrix m)) ∧
  ∀ f l, s.levels.head? = some f → l ∈ s.levels → ∀ mf ml, f.map = .matrix mf → l.map = .matrix ml →
    ∀ p i x, voxelAt mf s.wsToOs p = some i → f.dw.contains i = true → f.value i = some x →
      ∃ j y, voxelAt ml s.wsToOs p = some j ∧ l.dw.contains j = true ∧ l.value j = some y ∧
        (if isMin then y ≤ x else x ≤ y)

theorem chooseLevel_mem (t : Option M44) (b : Box3q) : ∀ (ls : List Level) (l : Level) (r : Box3i),
    chooseLevel t b ls = some (l, r) → l ∈ ls ∧ ∃ vs, boundsToVoxel l.map t b = some vs ∧
      r = clipBounds (Cont.discreteBounds vs) l.dw := by
  intro ls
  induction ls with
  | nil => intro l r h; simp [chooseLevel] at h
  | cons a ls ih =>
    intro l r h
    simp only [chooseLevel, Option.bind_eq_some_iff] at h
    obtain ⟨vs, h1, h⟩ := h
    split at h
    · simp only [Option.some.injEq, Prod.mk.injEq] at h
      obtain ⟨rfl, rfl⟩ := h
      exact ⟨List.mem_cons_self, vs, h1, rfl⟩
    · split at h
      · simp only [Option.some.injEq, Prod.mk.injEq] at h
        obtain ⟨rfl, rfl⟩ := h
        exact ⟨List.mem_cons_self, vs, h1, rfl⟩
      · obtain ⟨k1, k2⟩ := ih l r h
        exact ⟨List.mem_cons_of_mem _ k1, k2⟩

theorem prefilt_scan (isMin : Bool) (s : MipSource) (hc : ∀ x, s.cast x = x) (hs : ∀ x, s.store x = x) (l : Level) :
    ∀ (vs : List V3i) (st st' : Rat), vs.foldlM (fun st v => (l.value v).map fun val =>
      s.store (if isMin then stdMin val (s.cast st) else stdMax val (s.cast st))) st = some st' →
    (if isMin then st' ≤ st else st ≤ st') ∧
    ∀ v ∈ vs, ∃ x, l.value v = some x ∧ (if isMin then st' ≤ x else x ≤ st') := by
  intro vs
  induction vs with
  | nil =>
    intro st st' h
    injection h with h
    subst h
    exact ⟨by cases isMin <;> simp, fun v hv => absurd hv (by simp)⟩
  | cons v vs ih =>
    intro st st' h
    simp only [List.foldlM_cons, Option.bind_eq_bind, Option.bind_eq_some_iff, Option.map_eq_some_iff] at h
    obtain ⟨m, ⟨x, hx, hm⟩, h⟩ := h
    obtain ⟨k1, k2⟩ := ih m st' h
    rw [hc, hs] at hm
    subst hm
    cases isMin with
    | true =>
      simp only [if_true] at k1 k2 ⊢
      have hmin : stdMin x st ≤ x ∧ stdMin x st ≤ st := by
        unfold stdMin
        split
        · rename_i h'; exact ⟨h'.le, le_refl _⟩
        · rename_i h'; exact ⟨le_refl _, not_lt.1 h'⟩
      refine ⟨le_trans k1 hmin.2, fun u hu => ?_⟩
      rcases List.mem_cons.1 hu with rfl | hu
      · exact ⟨x, hx, le_trans k1 hmin.1⟩
      · exact k2 u hu
    | false =>
      simp only [Bool.false_eq_true, if_false] at k1 k2 ⊢
      have hmax : x ≤ stdMax x st ∧ st ≤ stdMax x st := by
        unfold stdMax
        split
        · rename_i h'; exact ⟨h'.le, le_refl _⟩
        · rename_i h'; exact ⟨le_refl _, not_lt.1 h'⟩
      refine ⟨le_trans hmax.2 k1, fun u hu => ?_⟩
      rcases List.mem_cons.1 hu with rfl | hu
      · exact ⟨x, hx, le_trans hmax.1 k1⟩
      · exact k2 u hu

/-- C61: with prefiltered fields, whatever level is chosen for each, the result bounds the value of every voxel of the
finest level of every field that contains a point of the bounds (again without bounds beginning at a negative
fraction). -/
theorem C61_prefiltered (isMin : Bool) (b : Box3q) : ∀ (fs : List MipSource)
    (hf : ∀ s ∈ fs, Prefiltered isMin s) (st st' : Rat), getMinMaxPrefilt isMin fs (some b) st = some st' →
    (if isMin then st' ≤ st else st ≤ st') ∧
    ∀ s ∈ fs, ∀ f, s.levels.head? = some f → ∀ mf, f.map = .matrix mf →
      (∀ l ∈ s.levels, ∀ vs, boundsToVoxel l.map s.wsToOs b = some vs →
        GoodMin vs.min.x ∧ GoodMin vs.min.y ∧ GoodMin vs.min.z) →
      ∀ p i x, b.contains p = true → voxelAt mf s.wsToOs p = some i → f.dw.contains i = true → f.value i = some x →
        (if isMin then st' ≤ x else x ≤ st') := by
  intro fs
  induction fs with
  | nil =>
    intro _ st st' h
    injection h with h
    subst h
    exact ⟨by cases isMin <;> simp, fun s hs => absurd hs (by simp)⟩
  | cons s fs ih =>
    intro hf st st' h
    simp only [getMinMaxPrefilt, List.foldlM_cons, Option.bind_eq_bind, Option.bind_eq_some_iff] at h
    obtain ⟨m, ⟨⟨l, r⟩, hr, hm⟩, h⟩ := h
    obtain ⟨k1, k2⟩ := ih (fun s hs => hf s (List.mem_cons_of_mem _ hs)) m st' h
    obtain ⟨hc, hs', ht, hmap, hpre⟩ := hf s List.mem_cons_self
    obtain ⟨j1, j2⟩ := prefilt_scan isMin s hc hs' l _ _ _ hm
    have htrans : ∀ x, (if isMin then m ≤ x else x ≤ m) → (if isMin then st' ≤ x else x ≤ st') := by
      intro x hx
      cases isMin with
      | true => simp only [if_true] at *; exact le_trans k1 hx
      | false => simp only [Bool.false_eq_true, if_false] at *; exact le_trans hx k1
    refine ⟨htrans st j1, ?_⟩
    intro u hu
    rcases List.mem_cons.1 hu with rfl | hu
    · intro f hfst mf hmf hg p i x hp hi hd hx
      obtain ⟨hl, vs, hvs, hreg⟩ := chooseLevel_mem _ _ _ _ _ hr
      obtain ⟨ml, hml, hgm⟩ := hmap l hl
      obtain ⟨j, y, e1, e2, e3, e4⟩ := hpre f l hfst hl mf ml hmf hml p i x hi hd hx
      have hg' := hg l hl vs hvs
      rw [hml] at hvs
      have hin := region_covers ml hgm u.wsToOs ht l.dw b vs hvs hg' p hp j e1 e2
      rw [← hreg] at hin
      obtain ⟨y', g1, g2⟩ := j2 j ((mem_boxLoop _ _).2 hin)
      rw [e3] at g1
      injection g1 with g1
      subst g1
      apply htrans
      cases isMin with
      | true => simp only [if_true] at *; exact le_trans g2 e4
      | false => simp only [Bool.false_eq_true, if_false] at *; exact le_trans e4 g2
    · exact k2 u hu

theorem sampleMatrix_good : GoodMap (.matrix sampleMatrix) := by
  refine ⟨Frame.default, _, rfl, default_ok, ?_, ?_, ?_⟩
  · intro e he
    simp only [List.mem_cons, Op.setExtents.injEq, List.mem_nil_iff, or_false] at he
    rcases he with rfl | he
    · unfold Proper; decide
    · simp at he
  · intro s hs
    simp only [history, List.foldl] at hs
    simp at hs
    subst hs
    unfold Affine
    decide +kernel
  · decide +kernel

/-- Two levels of equal size; the second holds lower bounds. -/
def samplePrefiltered : MipSource :=
  ⟨[⟨.matrix sampleMatrix, ⟨⟨0, 0, 0⟩, ⟨3, 3, 3⟩⟩, fun v => some (v.x + 5)⟩,
    ⟨.matrix sampleMatrix, ⟨⟨0, 0, 0⟩, ⟨3, 3, 3⟩⟩, fun _ => some 5⟩], none, id, id⟩

example : Prefiltered true samplePrefiltered := by
  refine ⟨fun _ => rfl, fun _ => rfl, fun x h => by simp [samplePrefiltered] at h, ?_, ?_⟩
  · intro l hl
    simp only [samplePrefiltered, List.mem_cons, List.mem_nil_iff, or_false] at hl
    rcases hl with rfl | rfl <;> exact ⟨sampleMatrix, rfl, sampleMatrix_good⟩
  · intro f l hf hl mf ml hmf hml p i x hi hd hx
    simp only [samplePrefiltered, List.head?_cons, Option.some.injEq] at hf
    subst hf
    simp only [Map.matrix.injEq] at hmf
    subst hmf
    simp only [samplePrefiltered, List.mem_cons, List.mem_nil_iff, or_false] at hl
    rcases hl with rfl | rfl
    · simp only [Map.matrix.injEq] at hml
      subst hml
      exact ⟨i, x, hi, hd, hx, by simp⟩
    · simp only [Map.matrix.injEq] at hml
      subst hml
      refine ⟨i, 5, hi, hd, rfl, ?_⟩
      simp only [if_true]
      simp only [Option.some.injEq] at hx
      rw [Box3i.contains_iff] at hd
      have : (0 : Rat) ≤ i.x := by exact_mod_cast hd.1.1
      linarith

example : getMinMaxPrefilt true [samplePrefiltered] (some ⟨⟨1, 1, 1⟩, ⟨2, 2, 2⟩⟩) 100 = some 6 := by decide +kernel
example : getMinMaxPrefilt true [samplePrefiltered] (some ⟨⟨0, 0, 0⟩, ⟨4, 4, 4⟩⟩) 100 = some 5 := by decide +kernel
example : boundsToVoxel (.matrix sampleMatrix) none ⟨⟨1, 1, 1⟩, ⟨2, 2, 2⟩⟩ = some ⟨⟨1, 1, 1⟩, ⟨2, 2, 2⟩⟩ ∧
    GoodMin 1 := ⟨by decide +kernel, Or.inl (by norm_num)⟩
example : voxelAt sampleMatrix none ⟨3 / 2, 1, 1⟩ = some ⟨1, 1, 1⟩ := by decide +kernel

/-- At most three voxels across. -/
def AtMostThree (r : Box3i) : Prop :=
  ∀ v w, r.contains v = true → r.contains w = true → v.x - w.x ≤ 2 ∧ v.y - w.y ≤ 2 ∧ v.z - w.z ≤ 2

theorem small_iff (r : Box3i) : small r = true ↔ AtMostThree r := by
  unfold small
  split
  · rename_i h
    simp only [true_iff]
    intro v w hv
    rw [Box3i.contains_iff] at hv
    simp only [Box3i.isEmpty, Bool.or_eq_true, decide_eq_true_eq] at h
    omega
  · rename_i h
    simp only [decide_eq_true_eq]
    simp only [Box3i.isEmpty, Bool.or_eq_true, decide_eq_true_eq, not_or] at h
    constructor
    · intro hs v w hv hw
      rw [Box3i.contains_iff] at hv hw
      omega
    · intro hs
      have := hs r.max r.min (by rw [Box3i.contains_iff]; omega) (by rw [Box3i.contains_iff]; omega)
      omega

/-- C61: with finite bounds the work is bounded: the level used is the first on which the bounds cover at most three
voxels in each direction, or the coarsest if there is none. -/
theorem C61_prefiltered_level (s : MipSource) (b : Box3q) (l : Level) (r : Box3i) (h : s.region (some b) = some (l, r)) :
    ∃ pre post, s.levels = pre ++ l :: post ∧
      (∀ k ∈ pre, ∀ vs, boundsToVoxel k.map s.wsToOs b = some vs →
        ¬ AtMostThree (clipBounds (Cont.discreteBounds vs) k.dw)) ∧ (AtMostThree r ∨ post = []) := by
  have key : ∀ (ls : List Level), chooseLevel s.wsToOs b ls = some (l, r) →
      ∃ pre post, ls = pre ++ l :: post ∧ (∀ k ∈ pre, ∀ vs, boundsToVoxel k.map s.wsToOs b = some vs →
        ¬ AtMostThree (clipBounds (Cont.discreteBounds vs) k.dw)) ∧ (AtMostThree r ∨ post = []) := by
    intro ls
    induction ls with
    | nil => intro h; simp [chooseLevel] at h
    | cons a ls ih =>
      intro h
      simp only [chooseLevel, Option.bind_eq_some_iff] at h
      obtain ⟨vs, h1, h⟩ := h
      split at h
      · rename_i hsm
        simp only [Option.some.injEq, Prod.mk.injEq] at h
        obtain ⟨rfl, rfl⟩ := h
        exact ⟨[], ls, rfl, fun k hk => absurd hk (by simp), Or.inl ((small_iff _).1 hsm)⟩
      · rename_i hsm
        split at h
        · simp only [Option.some.injEq, Prod.mk.injEq] at h
          obtain ⟨rfl, rfl⟩ := h
          exact ⟨[], [], rfl, fun k hk => absurd hk (by simp), Or.inr rfl⟩
        · obtain ⟨pre, post, e1, e2, e3⟩ := ih h
          refine ⟨a :: pre, post, by rw [e1]; rfl, ?_, e3⟩
          intro k hk vs' hvs
          rcases List.mem_cons.1 hk with rfl | hk
          · rw [h1] at hvs
            injection hvs with hvs
            subst hvs
            rw [← small_iff]
            exact hsm
          · exact e2 k hk vs' hvs
  exact key s.levels h

/-- C61: with infinite bounds only the coarsest level is looked at, all of it. -/
theorem C61_prefiltered_everywhere (isMin : Bool) (s : MipSource) (hc : ∀ x, s.cast x = x) (hs : ∀ x, s.store x = x)
    (ls : List Level) (l : Level) (hl : s.levels = ls ++ [l]) (st st' : Rat)
    (h : getMinMaxPrefilt isMin [s] none st = some st') :
    (∀ v, l.dw.contains v = true → ∃ x, l.value v = some x ∧ (if isMin then st' ≤ x else x ≤ st')) ∧
    (st' = st ∨ ∃ v, l.dw.contains v = true ∧ l.value v = some st') := by
  simp only [getMinMaxPrefilt, List.foldlM_cons, List.foldlM_nil, Option.bind_eq_bind, Option.bind_eq_some_iff,
    MipSource.region, hl, List.getLast?_append, List.getLast?_singleton, Option.some_or, Option.map_some] at h
  obtain ⟨m, ⟨⟨l', r⟩, e, hm⟩, e'⟩ := h
  simp only [Option.some.injEq, Prod.mk.injEq] at e
  obtain ⟨rfl, rfl⟩ := e
  injection e' with e'
  subst e'
  refine ⟨fun v hv => (prefilt_scan isMin s hc hs l _ _ _ hm).2 v ((mem_boxLoop _ _).2 hv), ?_⟩
  have key : ∀ (vs : List V3i) (st st' : Rat), vs.foldlM (fun st v => (l.value v).map fun val =>
      s.store (if isMin then stdMin val (s.cast st) else stdMax val (s.cast st))) st = some st' →
      st' = st ∨ ∃ v ∈ vs, l.value v = some st' := by
    intro vs
    induction vs with
    | nil => intro st st' h; injection h with h; exact Or.inl h.symm
    | cons v vs ih =>
      intro st st' h
      simp only [List.foldlM_cons, Option.bind_eq_bind, Option.bind_eq_some_iff, Option.map_eq_some_iff] at h
      obtain ⟨m, ⟨x, hx, hm⟩, h⟩ := h
      rw [hc, hs] at hm
      rcases ih m st' h with rfl | ⟨u, hu, hv⟩
      · have : st' = x ∨ st' = st := by
          rw [← hm]
          unfold stdMin stdMax
          split <;> split <;> simp
        rcases this with rfl | rfl
        · exact Or.inr ⟨v, by simp, hx⟩
        · exact Or.inl rfl
      · exact Or.inr ⟨u, List.mem_cons_of_mem _ hu, hv⟩
  rcases key _ _ _ hm with h | ⟨v, hv, h⟩
  · exact Or.inl h
  · exact Or.inr ⟨v, (mem_boxLoop _ _).1 hv, h⟩

example : getMinMaxPrefilt false [samplePrefiltered] none 0 = some 5 := by decide +kernel

end Props
end F3D
