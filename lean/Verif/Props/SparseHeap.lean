import Verif.Proofs.SparseHeap
import Verif.Props.Sparse

/-!
# C07, C65: copies of sparse fields are independent; no leak, no double deletion
-/

namespace F3D.Props
open F3D Heap HField

/-! ## Specification: variables hold values

An abstract program state gives each variable its own abstract field (`SparseMap`, see
`Props/Sparse.lean`); copying and assigning copy that value. -/

abbrev Env (α : Type) := Nat → Option (SparseMap α)

def Env.set {α : Type} (A : Env α) (i : Nat) (m : Option (SparseMap α)) : Env α :=
  fun x => if x = i then m else A x

noncomputable def Env.apply {α : Type} (zero : α) (A : Env α) : WOp α → Env α
  | .create i e d => A.set i (some (SparseMap.fresh zero e d))
  | .copy i j => A.set i (A j)
  | .assign i j => A.set i (A j)
  | .destroy i => A.set i none
  | .write i p v => A.set i ((A i).map (·.apply zero (.write p v)))
  | .clear i v => A.set i ((A i).map (·.apply zero (.clear v)))
  | .resize i e d => A.set i ((A i).map (·.apply zero (.resize e d)))
  | .setBlockOrder i o => A.set i ((A i).map (·.apply zero (.setBlockOrder o)))
  | .setBlockEmptyValue i b v => A.set i ((A i).map (·.apply zero (.setBlockEmptyValue b v)))
  | .setMapping _ _ => A

/-- Statements a correct program may execute: the variables used exist, the variable constructed
does not, and voxel operations meet their preconditions. -/
def Env.allowed {α : Type} (A : Env α) : WOp α → Prop
  | .create i _ d => A i = none ∧ SparseWindow d
  | .copy i j => A i = none ∧ A j ≠ none
  | .assign i j => A i ≠ none ∧ A j ≠ none
  | .destroy i => A i ≠ none
  | .write i p v => ∃ m, A i = some m ∧ m.allowed (.write p v)
  | .clear i _ => A i ≠ none
  | .resize i e d => ∃ m, A i = some m ∧ m.allowed (.resize e d)
  | .setBlockOrder i _ => A i ≠ none
  | .setBlockEmptyValue i b v => ∃ m, A i = some m ∧ m.allowed (.setBlockEmptyValue b v)
  | .setMapping i j => A i ≠ none ∧ A j ≠ none

def Env.allAllowed {α : Type} (zero : α) : Env α → List (WOp α) → Prop
  | _, [] => True
  | A, op :: ops => A.allowed op ∧ Env.allAllowed zero (A.apply zero op) ops

/-! ## Invariant -/

variable {α : Type}

def OT (w : World α) (i a : Nat) : Prop := ∃ f, w.vars i = some f ∧ f.table = some a

def OB (w : World α) (i a : Nat) : Prop :=
  ∃ f t bl, w.vars i = some f ∧ f.table = some t ∧ w.heap.tbl t = some bl ∧ Owns bl a

/-- What is known of one variable. -/
def VarOk (h : Heap α) : Option HField → Option (SparseMap α) → Prop
  | none, none => True
  | some f, some m => ∃ t bl, Rep h f t bl ∧ Refines (flat h f bl) m
  | _, _ => False

structure WInv (w : World α) (A : Env α) : Prop where
  fresh : w.heap.Fresh
  var : ∀ i, VarOk w.heap (w.vars i) (A i)
  sepT : ∀ i j a, i ≠ j → OT w i a → ¬ OT w j a
  sepB : ∀ i j a, i ≠ j → OB w i a → ¬ OB w j a
  leakT : ∀ a, w.heap.tbl a ≠ none → ∃ i, OT w i a
  leakB : ∀ a, w.heap.buf a ≠ none → ∃ i, OB w i a

theorem VarOk.of_some {h : Heap α} {f : HField} {x : Option (SparseMap α)} (v : VarOk h (some f) x) :
    ∃ m t bl, x = some m ∧ Rep h f t bl ∧ Refines (flat h f bl) m := by
  cases x with
  | none => exact v.elim
  | some m => obtain ⟨t, bl, r, q⟩ := v; exact ⟨m, t, bl, rfl, r, q⟩

theorem VarOk.get {h : Heap α} {x : Option HField} {m : SparseMap α} (v : VarOk h x (some m)) :
    ∃ f t bl, x = some f ∧ Rep h f t bl ∧ Refines (flat h f bl) m := by
  cases x with
  | none => exact v.elim
  | some f => obtain ⟨t, bl, r, q⟩ := v; exact ⟨f, t, bl, rfl, r, q⟩

theorem VarOk.none_iff {h : Heap α} {x : Option HField} {y : Option (SparseMap α)}
    (v : VarOk h x y) : x = none ↔ y = none := by
  cases x <;> cases y <;> simp_all [VarOk]

theorem OT_eq {w : World α} {i : Nat} {f : HField} {t : Nat} (hv : w.vars i = some f)
    (ht : f.table = some t) : OT w i = (· = t) := by
  funext a
  apply propext
  constructor
  · rintro ⟨g, hg, hga⟩; rw [hv] at hg; cases hg; rw [ht] at hga; cases hga; rfl
  · rintro rfl; exact ⟨f, hv, ht⟩

theorem OB_eq {w : World α} {i : Nat} {f : HField} {t : Nat} {bl : List (HBlock α)}
    (hv : w.vars i = some f) (r : Rep w.heap f t bl) : OB w i = Owns bl := by
  funext a
  apply propext
  constructor
  · rintro ⟨g, t', bl', hg, hgt, hbl, ho⟩
    rw [hv] at hg; cases hg
    rw [r.tab] at hgt; cases hgt
    rw [r.tbl] at hbl; cases hbl
    exact ho
  · intro ho; exact ⟨f, t, bl, hv, r.tab, r.tbl, ho⟩

/-- Fields whose memory is untouched keep their representation. -/
theorem rep_frame {h h' : Heap α} {f : HField} {t : Nat} {bl : List (HBlock α)} (r : Rep h f t bl)
    (h1 : h'.tbl t = h.tbl t) (h2 : ∀ a, Owns bl a → h'.buf a = h.buf a) :
    Rep h' f t bl ∧ flat h' f bl = flat h f bl := by
  refine ⟨⟨r.tab, by rw [h1]; exact r.tbl, r.pw, ?_⟩, ?_⟩
  · intro a ha; rw [h2 a ha]; exact r.live a ha
  · simp only [flat]
    congr 1
    apply List.map_congr_left
    intro b hb
    simp only [res]
    congr 1
    cases hbd : b.data with
    | none => rfl
    | some a => simp only [Option.bind_some]; exact h2 a ⟨b, hb, hbd⟩

/-- A statement that changes only what variable `i` owns keeps the invariant. -/
theorem WInv.update {w : World α} {A : Env α} (I : WInv w A) (i : Nat) {h' : Heap α}
    {x : Option HField} {y : Option (SparseMap α)} {OT' OB' : Nat → Prop}
    (hf : h'.Fresh) (l : Local w.heap h' (OT w i) (OB w i) OT' OB')
    (hx : (x = none ∧ y = none ∧ OT' = (fun _ => False) ∧ OB' = (fun _ => False)) ∨
      ∃ f m t bl, x = some f ∧ y = some m ∧ Rep h' f t bl ∧ Refines (flat h' f bl) m ∧
        OT' = (· = t) ∧ OB' = Owns bl) :
    WInv (w.setVar i (h', x)) (A.set i y) := by
  have hi : (w.setVar i (h', x)).vars i = x := by simp [World.setVar]
  have hj : ∀ j, j ≠ i → (w.setVar i (h', x)).vars j = w.vars j := by
    intro j h; simp [World.setVar, h]
  have hoti : OT (w.setVar i (h', x)) i = OT' := by
    rcases hx with ⟨rfl, rfl, rfl, rfl⟩ | ⟨f, m, t, bl, rfl, rfl, r, q, rfl, rfl⟩
    · funext a; apply propext; constructor
      · rintro ⟨f, hf, _⟩; rw [hi] at hf; cases hf
      · intro h; exact h.elim
    · exact OT_eq hi r.tab
  have hobi : OB (w.setVar i (h', x)) i = OB' := by
    rcases hx with ⟨rfl, rfl, rfl, rfl⟩ | ⟨f, m, t, bl, rfl, rfl, r, q, rfl, rfl⟩
    · funext a; apply propext; constructor
      · rintro ⟨f, _, _, hf, _⟩; rw [hi] at hf; cases hf
      · intro h; exact h.elim
    · exact OB_eq hi r
  have keep : ∀ j f t bl, j ≠ i → w.vars j = some f → Rep w.heap f t bl →
      Rep h' f t bl ∧ flat h' f bl = flat w.heap f bl := by
    intro j f t bl hji hv r
    refine rep_frame r ?_ ?_
    · refine l.tfr t (by rw [r.tbl]; simp) ?_
      intro h; exact I.sepT j i t hji ⟨f, hv, r.tab⟩ h
    · intro a ha
      refine l.bfr a (r.live a ha) ?_
      intro h; exact I.sepB j i a hji ⟨f, t, bl, hv, r.tab, r.tbl, ha⟩ h
  have hotj : ∀ j, j ≠ i → OT (w.setVar i (h', x)) j = OT w j := by
    intro j h; funext a; simp only [OT, hj j h]
  have hobj : ∀ j, j ≠ i → OB (w.setVar i (h', x)) j = OB w j := by
    intro j h
    cases hv : w.vars j with
    | none =>
      funext a; apply propext
      constructor
      · rintro ⟨f, _, _, hf, _⟩; rw [hj j h, hv] at hf; cases hf
      · rintro ⟨f, _, _, hf, _⟩; rw [hv] at hf; cases hf
    | some f =>
      have hvar := I.var j
      rw [hv] at hvar
      obtain ⟨m, t, bl, _, r, _⟩ := hvar.of_some
      rw [OB_eq hv r]
      exact OB_eq ((hj j h).trans hv) (keep j f t bl h hv r).1
  have liveT : ∀ j a, OT w j a → w.heap.tbl a ≠ none := by
    rintro j a ⟨f, hv, ht⟩
    have hvar := I.var j
    rw [hv] at hvar
    obtain ⟨m, t, bl, _, r, _⟩ := hvar.of_some
    rw [r.tab] at ht; cases ht
    rw [r.tbl]; simp
  have liveB : ∀ j a, OB w j a → w.heap.buf a ≠ none := by
    rintro j a ⟨f, t, bl, hv, ht, hbl, ho⟩
    have hvar := I.var j
    rw [hv] at hvar
    obtain ⟨m, t', bl', _, r, _⟩ := hvar.of_some
    rw [r.tab] at ht; cases ht
    rw [r.tbl] at hbl; cases hbl
    exact r.live a ho
  refine ⟨hf, ?_, ?_, ?_, ?_, ?_⟩
  · intro j
    by_cases h : j = i
    · subst h
      rw [hi]
      simp only [Env.set, if_true]
      rcases hx with ⟨rfl, rfl, rfl, rfl⟩ | ⟨f, m, t, bl, rfl, rfl, r, q, rfl, rfl⟩
      · trivial
      · exact ⟨t, bl, r, q⟩
    · rw [hj j h]
      simp only [Env.set, h, if_false]
      have hvar := I.var j
      cases hv : w.vars j with
      | none =>
        rw [hv] at hvar
        rw [(hvar.none_iff).mp rfl]
        trivial
      | some f =>
        rw [hv] at hvar
        obtain ⟨m, t, bl, hm, r, q⟩ := hvar.of_some
        rw [hm]
        obtain ⟨k1, k2⟩ := keep j f t bl h hv r
        refine ⟨t, bl, k1, ?_⟩
        show Refines (flat h' f bl) m
        rw [k2]; exact q
  · have : ∀ j a, j ≠ i → OT' a → ¬ OT w j a := by
      intro j a h h1 h2
      rcases l.tnew a h1 with h3 | h3
      · exact I.sepT j i a h h2 h3
      · exact liveT j a h2 h3
    intro j k a hjk h1 h2
    by_cases hji : j = i
    · subst hji
      rw [hoti] at h1
      rw [hotj k (Ne.symm hjk)] at h2
      exact this k a (Ne.symm hjk) h1 h2
    · rw [hotj j hji] at h1
      by_cases hki : k = i
      · subst hki
        rw [hoti] at h2
        exact this j a hji h2 h1
      · rw [hotj k hki] at h2
        exact I.sepT j k a hjk h1 h2
  · have : ∀ j a, j ≠ i → OB' a → ¬ OB w j a := by
      intro j a h h1 h2
      rcases l.bnew a h1 with h3 | h3
      · exact I.sepB j i a h h2 h3
      · exact liveB j a h2 h3
    intro j k a hjk h1 h2
    by_cases hji : j = i
    · subst hji
      rw [hobi] at h1
      rw [hobj k (Ne.symm hjk)] at h2
      exact this k a (Ne.symm hjk) h1 h2
    · rw [hobj j hji] at h1
      by_cases hki : k = i
      · subst hki
        rw [hobi] at h2
        exact this j a hji h2 h1
      · rw [hobj k hki] at h2
        exact I.sepB j k a hjk h1 h2
  · intro a ha
    rcases l.tleak a ha with h1 | ⟨h1, h2⟩
    · exact ⟨i, by rw [hoti]; exact h1⟩
    · obtain ⟨j, hja⟩ := I.leakT a h1
      have : j ≠ i := by rintro rfl; exact h2 hja
      exact ⟨j, by rw [hotj j this]; exact hja⟩
  · intro a ha
    rcases l.bleak a ha with h1 | ⟨h1, h2⟩
    · exact ⟨i, by rw [hobi]; exact h1⟩
    · obtain ⟨j, hja⟩ := I.leakB a h1
      have : j ≠ i := by rintro rfl; exact h2 hja
      exact ⟨j, by rw [hobj j this]; exact hja⟩

theorem Env.set_self {A : Env α} {i : Nat} {x : Option (SparseMap α)} (h : A i = x) : A.set i x = A := by
  funext j; simp only [Env.set]; split
  · rename_i h1; subst h1; exact h.symm
  · rfl

theorem OT_none {w : World α} {i : Nat} (hv : w.vars i = none) : OT w i = (fun _ => False) := by
  funext a; apply propext; constructor
  · rintro ⟨f, hf, _⟩; rw [hv] at hf; cases hf
  · intro h; exact h.elim

theorem OB_none {w : World α} {i : Nat} (hv : w.vars i = none) : OB w i = (fun _ => False) := by
  funext a; apply propext; constructor
  · rintro ⟨f, _, _, hf, _⟩; rw [hv] at hf; cases hf
  · intro h; exact h.elim

/-- Changing only mapping objects is invisible to the layout. -/
theorem rep_map {h : Heap α} {f : HField} {t : Nat} {bl : List (HBlock α)} (r : Rep h f t bl)
    (m : Nat → Box3i) (n : Nat) : Rep { h with map := m, nextM := n } f t bl :=
  ⟨r.tab, r.tbl, r.pw, r.live⟩

theorem Local.of_map {h h' : Heap α} {OT OB OT' OB' : Nat → Prop} {m : Nat → Box3i} {n : Nat}
    (l : Local { h with map := m, nextM := n } h' OT OB OT' OB') : Local h h' OT OB OT' OB' :=
  ⟨l.tfr, l.bfr, l.tnew, l.bnew, l.tleak, l.bleak⟩

/-- One allowed statement runs without undefined behaviour and keeps the invariant. -/
theorem winv_step [DecidableEq α] (zero : α) {w : World α} {A : Env α} (I : WInv w A) (op : WOp α)
    (hok : A.allowed op) : ∃ w', w.step zero op = some w' ∧ WInv w' (A.apply zero op) := by
  cases op with
  | create i e d =>
    obtain ⟨h1, hw⟩ := hok
    have hv : w.vars i = none := ((I.var i).none_iff).mpr h1
    let e0 : Box3i := ⟨V3i.all 0, V3i.all (-1)⟩
    let h0 : Heap α := { w.heap with map := fun x => if x = w.heap.nextM then e0 else w.heap.map x,
                                     nextM := w.heap.nextM + 1 }
    obtain ⟨ha, fa, ta, bla, ea, hfa, ra, la, _, _, _, _, _, hfl⟩ :=
      setupBlocks_spec (h := h0) (f := ⟨e0, e0, 4, V3i.all 0, 0, none, w.heap.nextM⟩) zero I.fresh
        (OT := fun _ => False) (OB := fun _ => False) (Or.inl ⟨rfl, rfl, rfl⟩)
    have hflat : flat ha fa bla = Sparse.empty zero := hfl
    let hm : Heap α := { ha with map := fun x => if x = fa.mapping then e else ha.map x }
    obtain ⟨hb, fb, tb, blb, eb, hfb, rb, lb, _, _, _, _, _, hfl2⟩ :=
      setupBlocks_spec (h := hm) (f := { fa with extents := e, dw := d }) zero hfa
        (OT := (· = ta)) (OB := Owns bla)
        (Or.inr ⟨ta, bla, ⟨ra.tab, ra.tbl, ra.pw, ra.live⟩, rfl, rfl⟩)
    refine ⟨w.setVar i (hb, some fb), ?_, ?_⟩
    · simp only [World.step, hv]
      have ea' : HField.create zero w.heap = some (ha, fa) := ea
      have eb' : HField.setSize zero ha fa e d = some (hb, fb) := eb
      rw [ea', Option.bind_some, eb']; rfl
    · refine I.update i hfb (OT' := (· = tb)) (OB' := Owns blb) ?_
        (Or.inr ⟨fb, _, tb, blb, rfl, rfl, rb, ?_, rfl, rfl⟩)
      · rw [OT_none hv, OB_none hv]
        exact (Local.of_map la).trans (Local.of_map lb)
      · rw [hfl2]
        have : fa.order = 4 := congrArg Sparse.order hflat
        have h2 := refines_setup (f := (⟨e, d, fa.order, fa.bres, fa.bxy, []⟩ : Sparse α))
          (m := SparseMap.fresh zero e d) zero hw.1 (fits_of hw) rfl rfl this
          (fun _ => rfl) (fun _ h => h)
        exact h2
  | copy i j =>
    obtain ⟨h1, h2⟩ := hok
    have hv : w.vars i = none := ((I.var i).none_iff).mpr h1
    obtain ⟨m, hm⟩ := Option.ne_none_iff_exists'.mp h2
    have hvj := I.var j
    rw [hm] at hvj
    obtain ⟨o, t, bl, ho, r, q⟩ := hvj.get
    obtain ⟨h', f', t', bl', e, hf, r', l, _, _, _, _, hfl⟩ :=
      copySparse_spec (h := { w.heap with
          map := fun x => if x = w.heap.nextM then w.heap.map o.mapping else w.heap.map x,
          nextM := w.heap.nextM + 1 })
        (f := { o with table := none, mapping := w.heap.nextM }) I.fresh (rep_map r _ _)
        (by exact q.wf) (OT := fun _ => False) (OB := fun _ => False) (Or.inl ⟨rfl, rfl, rfl⟩)
    refine ⟨w.setVar i (h', some f'), ?_, ?_⟩
    · simp only [World.step, hv, ho]
      have e' : HField.copyConstruct w.heap o = some (h', f') := e
      rw [e']; rfl
    · show WInv _ (A.set i (A j))
      rw [hm]
      refine I.update i hf (OT' := (· = t')) (OB' := Owns bl') ?_
        (Or.inr ⟨f', m, t', bl', rfl, rfl, r', ?_, rfl, rfl⟩)
      · rw [OT_none hv, OB_none hv]; exact Local.of_map l
      · rw [hfl]; exact q
  | assign i j =>
    obtain ⟨h1, h2⟩ := hok
    obtain ⟨m, hm⟩ := Option.ne_none_iff_exists'.mp h2
    obtain ⟨mi, hmi⟩ := Option.ne_none_iff_exists'.mp h1
    have hvj := I.var j
    rw [hm] at hvj
    obtain ⟨o, t, bl, ho, r, q⟩ := hvj.get
    have hvi := I.var i
    rw [hmi] at hvi
    obtain ⟨f, ti, bli, hf0, ri, qi⟩ := hvi.get
    by_cases hij : i = j
    · subst hij
      refine ⟨w, ?_, ?_⟩
      · simp only [World.step, ho, if_true]
      · show WInv w (A.set i (A i))
        rw [Env.set_self rfl]; exact I
    · obtain ⟨h', f', t', bl', e, hf, r', l, _, _, _, _, hfl⟩ :=
        copySparse_spec (h := w.heap)
          (f := { f with extents := o.extents, dw := o.dw, mapping := o.mapping }) I.fresh r q.wf
          (OT := (· = ti)) (OB := Owns bli)
          (Or.inr ⟨ti, bli, ⟨ri.tab, ri.tbl, ri.pw, ri.live⟩, by
              intro h; subst h
              exact I.sepT i j ti hij ⟨f, hf0, ri.tab⟩ ⟨o, ho, r.tab⟩, by
              intro a ha hb
              exact I.sepB i j a hij ⟨f, ti, bli, hf0, ri.tab, ri.tbl, ha⟩
                ⟨o, t, bl, ho, r.tab, r.tbl, hb⟩, rfl, rfl⟩)
      refine ⟨w.setVar i (h', some f'), ?_, ?_⟩
      · simp only [World.step, hf0, ho, if_neg hij]
        have e' : HField.assign w.heap f o = some (h', f') := e
        rw [e']; rfl
      · show WInv _ (A.set i (A j))
        rw [hm]
        refine I.update i hf (OT' := (· = t')) (OB' := Owns bl') ?_
          (Or.inr ⟨f', m, t', bl', rfl, rfl, r', ?_, rfl, rfl⟩)
        · rw [OT_eq hf0 ri.tab, OB_eq hf0 ri]; exact l
        · rw [hfl]; exact q
  | destroy i =>
    obtain ⟨mi, hmi⟩ := Option.ne_none_iff_exists'.mp hok
    have hvi := I.var i
    rw [hmi] at hvi
    obtain ⟨f, ti, bli, hf0, ri, qi⟩ := hvi.get
    obtain ⟨h1, e, f1, m1, n1, l1⟩ := deleteTable_spec I.fresh ri.tbl ri.pw ri.live
    refine ⟨w.setVar i (h1, none), ?_, ?_⟩
    · simp only [World.step, hf0, HField.destroy, ri.tab, e, Option.map_some]
    · refine I.update i f1 (OT' := fun _ => False) (OB' := fun _ => False) ?_
        (Or.inl ⟨rfl, rfl, rfl, rfl⟩)
      rw [OT_eq hf0 ri.tab, OB_eq hf0 ri]; exact l1
  | write i p v =>
    obtain ⟨m, hm, hp⟩ := hok
    have hvi := I.var i
    rw [hm] at hvi
    obtain ⟨f, ti, bli, hf0, ri, qi⟩ := hvi.get
    have hp' : f.dw.contains p = true := by
      have := qi.dw; simp only [flat] at this; rw [this]; exact hp
    obtain ⟨h', bl', e, hf, r', l, _, _, hfl⟩ := HField.write_spec I.fresh ri qi.wf hp' v
    obtain ⟨g, hg, hr⟩ := refines_step zero qi (.write p v) hp
    simp only [sparseStep, hfl] at hg; cases hg
    refine ⟨w.setVar i (h', some f), ?_, ?_⟩
    · simp only [World.step, hf0, e, Option.map_some]
    · show WInv _ (A.set i ((A i).map _))
      rw [hm]
      refine I.update i hf (OT' := (· = ti)) (OB' := Owns bl') ?_
        (Or.inr ⟨f, _, ti, bl', rfl, rfl, r', hr, rfl, rfl⟩)
      rw [OT_eq hf0 ri.tab, OB_eq hf0 ri]; exact l
  | clear i v =>
    obtain ⟨m, hm⟩ := Option.ne_none_iff_exists'.mp hok
    have hvi := I.var i
    rw [hm] at hvi
    obtain ⟨f, ti, bli, hf0, ri, qi⟩ := hvi.get
    obtain ⟨h', f', t', bl', e, hf, r', l, _, _, _, _, hfl⟩ := HField.clear_spec zero I.fresh ri v
    obtain ⟨g, hg, hr⟩ := refines_step zero qi (.clear v) trivial
    simp only [sparseStep, ← hfl] at hg; cases hg
    refine ⟨w.setVar i (h', some f'), ?_, ?_⟩
    · simp only [World.step, hf0, e, Option.map_some]
    · show WInv _ (A.set i ((A i).map _))
      rw [hm]
      refine I.update i hf (OT' := (· = t')) (OB' := Owns bl') ?_
        (Or.inr ⟨f', _, t', bl', rfl, rfl, r', hr, rfl, rfl⟩)
      rw [OT_eq hf0 ri.tab, OB_eq hf0 ri]; exact l
  | resize i e d =>
    obtain ⟨m, hm, hp⟩ := hok
    have hvi := I.var i
    rw [hm] at hvi
    obtain ⟨f, ti, bli, hf0, ri, qi⟩ := hvi.get
    obtain ⟨h', f', t', bl', e', hf, r', l, _, _, _, _, _, hfl⟩ :=
      setupBlocks_spec (h := { w.heap with map := fun x => if x = f.mapping then e else w.heap.map x })
        (f := { f with extents := e, dw := d }) zero I.fresh (OT := (· = ti)) (OB := Owns bli)
        (Or.inr ⟨ti, bli, ⟨ri.tab, ri.tbl, ri.pw, ri.live⟩, rfl, rfl⟩)
    obtain ⟨g, hg, hr⟩ := refines_step zero qi (.resize e d) hp
    have hgg : g = flat h' f' bl' := by
      rw [hfl]; simp only [sparseStep] at hg; cases hg; rfl
    subst hgg
    refine ⟨w.setVar i (h', some f'), ?_, ?_⟩
    · have e'' : HField.setSize zero w.heap f e d = some (h', f') := e'
      simp only [World.step, hf0, e'', Option.map_some]
    · show WInv _ (A.set i ((A i).map _))
      rw [hm]
      refine I.update i hf (OT' := (· = t')) (OB' := Owns bl') ?_
        (Or.inr ⟨f', _, t', bl', rfl, rfl, r', hr, rfl, rfl⟩)
      rw [OT_eq hf0 ri.tab, OB_eq hf0 ri]; exact Local.of_map l
  | setBlockOrder i o =>
    obtain ⟨m, hm⟩ := Option.ne_none_iff_exists'.mp hok
    have hvi := I.var i
    rw [hm] at hvi
    obtain ⟨f, ti, bli, hf0, ri, qi⟩ := hvi.get
    obtain ⟨h', f', t', bl', e', hf, r', l, _, _, _, _, _, hfl⟩ :=
      setupBlocks_spec (h := w.heap) (f := { f with order := o }) zero I.fresh
        (OT := (· = ti)) (OB := Owns bli)
        (Or.inr ⟨ti, bli, ⟨ri.tab, ri.tbl, ri.pw, ri.live⟩, rfl, rfl⟩)
    obtain ⟨g, hg, hr⟩ := refines_step zero qi (.setBlockOrder o) trivial
    have hgg : g = flat h' f' bl' := by
      rw [hfl]; simp only [sparseStep] at hg; cases hg; rfl
    subst hgg
    refine ⟨w.setVar i (h', some f'), ?_, ?_⟩
    · have e'' : HField.setBlockOrder zero w.heap f o = some (h', f') := e'
      simp only [World.step, hf0, e'', Option.map_some]
    · show WInv _ (A.set i ((A i).map _))
      rw [hm]
      refine I.update i hf (OT' := (· = t')) (OB' := Owns bl') ?_
        (Or.inr ⟨f', _, t', bl', rfl, rfl, r', hr, rfl, rfl⟩)
      rw [OT_eq hf0 ri.tab, OB_eq hf0 ri]; exact l
  | setBlockEmptyValue i b v =>
    obtain ⟨m, hm, hp⟩ := hok
    have hvi := I.var i
    rw [hm] at hvi
    obtain ⟨f, ti, bli, hf0, ri, qi⟩ := hvi.get
    obtain ⟨x, hx, hxb⟩ := id hp
    have hx' : f.dw.contains x = true := by
      have := qi.dw; simp only [flat] at this; rw [this]; exact hx
    have hbc : (flat w.heap f bli).blockCoord ((flat w.heap f bli).offsetCoord x) = b := by
      rw [blockCoord_blockOf, qi.dw, qi.order]; exact hxb
    obtain ⟨h', bl', e, hf, r', l, _, _, hfl⟩ :=
      HField.setBlockEmptyValue_spec I.fresh ri qi.wf hx' v hbc
    obtain ⟨g, hg, hr⟩ := refines_step zero qi (.setBlockEmptyValue b v) hp
    simp only [sparseStep, hfl] at hg; cases hg
    refine ⟨w.setVar i (h', some f), ?_, ?_⟩
    · simp only [World.step, hf0, e, Option.map_some]
    · show WInv _ (A.set i ((A i).map _))
      rw [hm]
      refine I.update i hf (OT' := (· = ti)) (OB' := Owns bl') ?_
        (Or.inr ⟨f, _, ti, bl', rfl, rfl, r', hr, rfl, rfl⟩)
      rw [OT_eq hf0 ri.tab, OB_eq hf0 ri]; exact l
  | setMapping i j =>
    obtain ⟨h1, h2⟩ := hok
    obtain ⟨m, hm⟩ := Option.ne_none_iff_exists'.mp h2
    obtain ⟨mi, hmi⟩ := Option.ne_none_iff_exists'.mp h1
    have hvj := I.var j
    rw [hm] at hvj
    obtain ⟨o, t, bl, ho, r, q⟩ := hvj.get
    have hvi := I.var i
    rw [hmi] at hvi
    obtain ⟨f, ti, bli, hf0, ri, qi⟩ := hvi.get
    refine ⟨w.setVar i ((setMapping w.heap f o).fst, some (setMapping w.heap f o).snd),
      by simp only [World.step, hf0, ho], ?_⟩
    have : A = A.set i (some mi) := (Env.set_self hmi).symm
    show WInv _ A
    rw [this]
    refine I.update i I.fresh (OT' := (· = ti)) (OB' := Owns bli) ?_
      (Or.inr ⟨_, _, ti, bli, rfl, rfl, ⟨ri.tab, ri.tbl, ri.pw, ri.live⟩, qi, rfl, rfl⟩)
    rw [OT_eq hf0 ri.tab, OB_eq hf0 ri]
    have := Local.refl w.heap (· = ti) (Owns bli)
    exact ⟨this.tfr, this.bfr, this.tnew, this.bnew, this.tleak, this.bleak⟩

theorem winv_run [DecidableEq α] (zero : α) (ops : List (WOp α)) : ∀ (w : World α) (A : Env α),
    WInv w A → Env.allAllowed zero A ops →
    ∃ w', w.run zero ops = some w' ∧ WInv w' (ops.foldl (Env.apply zero) A) := by
  induction ops with
  | nil => intro w A I _; exact ⟨w, rfl, I⟩
  | cons op ops ih =>
    intro w A I ⟨h1, h2⟩
    obtain ⟨w1, e1, I1⟩ := winv_step zero I op h1
    obtain ⟨w2, e2, I2⟩ := ih w1 _ I1 h2
    exact ⟨w2, by simp only [World.run, e1, Option.bind_some]; exact e2, I2⟩

theorem winv_start : WInv (World.start α) (fun _ => none) where
  fresh := ⟨fun _ _ => rfl, fun _ _ => rfl⟩
  var _ := trivial
  sepT := by rintro i j a _ ⟨f, hf, _⟩; cases hf
  sepB := by rintro i j a _ ⟨f, _, _, hf, _⟩; cases hf
  leakT := by intro a h; exact absurd rfl h
  leakB := by intro a h; exact absurd rfl h

end F3D.Props

namespace F3D.Props
open F3D Heap HField
variable {α : Type}

/-! ## Observations -/

theorem hvalue_flat {h : Heap α} {f : HField} {t : Nat} {bl : List (HBlock α)} (r : Rep h f t bl)
    (wf : (flat h f bl).WF) {p : V3i} (hp : f.dw.contains p = true) :
    HField.value h f p = (flat h f bl).value p := by
  obtain ⟨b, hb, hsb, hw⟩ := get_hblock wf hp
  have hid : (f.shape α).blockId ((f.shape α).blockCoord ((f.shape α).offsetCoord p)) =
      ((flat h f bl).idN p : Nat) := Sparse.id_eq wf hp
  have hid' : (flat h f bl).blockId ((flat h f bl).blockCoord ((flat h f bl).offsetCoord p)) =
      ((flat h f bl).idN p : Nat) := hid
  simp only [HField.value, hid, HField.block?_nat r, hb, Option.map_some, Sparse.value, hid',
    Sparse.block?_nat, hsb]
  have e1 : (h.res b).isAllocated = b.isAllocated := rfl
  have e2 : (h.res b).emptyValue = b.emptyValue := rfl
  have e3 : (h.res b).data = b.data.bind h.buf := rfl
  rw [e1, e2]
  cases b.isAllocated
  · simp
  · simp only [if_true, Block.read, e3]
    cases b.data.bind h.buf <;> rfl

theorem halloc_flat {h : Heap α} {f : HField} {t : Nat} {bl : List (HBlock α)} (r : Rep h f t bl)
    (bc : V3i) : HField.blockIsAllocated h f bc = (flat h f bl).blockIsAllocated bc := by
  simp only [HField.blockIsAllocated, HField.block?, r.tab, r.tbl, Sparse.blockIsAllocated,
    Sparse.block?, blockId_flat (h := h) (bl := bl)]
  have hb : (flat h f bl).blocks = bl.map h.res := rfl
  rw [hb]
  generalize (flat h f bl).blockId bc = k
  split
  · rw [List.getElem?_map]
    cases bl[k.toNat]? <;> rfl
  · rfl

/-- C07: run any program that default-constructs, sizes, copies, clones, assigns, destroys, writes,
clears and resizes any number of sparse fields (in any order, obeying only the preconditions of the
interface). It executes without undefined behaviour, and at the end every variable holds exactly the
field it would hold if fields were plain values: same windows and block order, same value at every
voxel, same allocation state of every block. So a copy equals its source at the time of copying and
nothing done later to one is seen through the other. -/
theorem C07_copies_equal_and_independent [DecidableEq α] (zero : α) (ops : List (WOp α))
    (hok : Env.allAllowed zero (fun _ => none) ops) :
    ∃ w, (World.start α).run zero ops = some w ∧
      ∀ i, match ops.foldl (Env.apply zero) (fun _ => none) i with
        | none => w.vars i = none
        | some m => ∃ f, w.vars i = some f ∧ f.extents = m.extents ∧ f.dw = m.dw ∧
            f.order = m.order ∧
            (∀ p, m.dw.contains p = true → HField.value w.heap f p = some (m.val p)) ∧
            (∀ b p, m.inBlock b p →
              ∃ r, HField.blockIsAllocated w.heap f b = some r ∧ (r = true ↔ m.alloc b)) := by
  obtain ⟨w, e, I⟩ := winv_run zero ops _ _ winv_start hok
  refine ⟨w, e, ?_⟩
  intro i
  have hv := I.var i
  cases hA : ops.foldl (Env.apply zero) (fun _ => none) i with
  | none => rw [hA] at hv; exact (hv.none_iff).mpr rfl
  | some m =>
    rw [hA] at hv
    obtain ⟨f, t, bl, hf, r, q⟩ := hv.get
    have o := q.observes
    refine ⟨f, hf, o.extents, o.dw, o.order, ?_, ?_⟩
    · intro p hp
      have hp' : f.dw.contains p = true := by
        have := o.dw; simp only [flat] at this; rw [this]; exact hp
      rw [hvalue_flat r q.wf hp']; exact o.value p hp
    · intro b p hbp
      rw [halloc_flat r]; exact o.blockAlloc b p hbp

/-- C65: in every such program no block data or block table is ever freed twice or used after being
freed (the run succeeds), and each one still allocated belongs to a live variable; so once all
variables are destroyed all memory of their blocks has been returned. -/
theorem C65_no_leak_no_double_free [DecidableEq α] (zero : α) (ops : List (WOp α))
    (hok : Env.allAllowed zero (fun _ => none) ops) :
    ∃ w, (World.start α).run zero ops = some w ∧
      ((∀ i, w.vars i = none) → (∀ a, w.heap.tbl a = none) ∧ (∀ a, w.heap.buf a = none)) ∧
      (∀ i j f g t, i ≠ j → w.vars i = some f → w.vars j = some g → f.table = some t →
        g.table ≠ some t) := by
  obtain ⟨w, e, I⟩ := winv_run zero ops _ _ winv_start hok
  refine ⟨w, e, ?_, ?_⟩
  · intro hall
    constructor
    · intro a
      cases h : w.heap.tbl a with
      | none => rfl
      | some x =>
        obtain ⟨i, f, hf, _⟩ := I.leakT a (by rw [h]; simp)
        rw [hall i] at hf; cases hf
    · intro a
      cases h : w.heap.buf a with
      | none => rfl
      | some x =>
        obtain ⟨i, f, _, _, hf, _⟩ := I.leakB a (by rw [h]; simp)
        rw [hall i] at hf; cases hf
  · intro i j f g t hij hf hg ht hgt
    exact I.sepT i j t hij ⟨f, hf, ht⟩ ⟨g, hg, hgt⟩

/-! ## Mapping objects -/

theorem freeBlocks_map (bl : List (HBlock α)) : ∀ (h h' : Heap α), h.freeBlocks bl = some h' →
    h'.map = h.map ∧ h'.nextM = h.nextM := by
  induction bl with
  | nil => intro h h' e; cases e; exact ⟨rfl, rfl⟩
  | cons b bs ih =>
    intro h h' e
    simp only [freeBlocks] at e
    cases hx : h.freeData b with
    | none => rw [hx] at e; cases e
    | some x =>
      rw [hx, Option.bind_some] at e
      obtain ⟨h1, h2⟩ := ih x h' e
      have : x.map = h.map ∧ x.nextM = h.nextM := by
        simp only [freeData] at hx
        cases hd : b.data with
        | none => rw [hd] at hx; cases hx; exact ⟨rfl, rfl⟩
        | some a =>
          rw [hd] at hx
          simp only [freeBuf] at hx
          cases hb : h.buf a with
          | none => rw [hb] at hx; cases hx
          | some d => rw [hb] at hx; cases hx; exact ⟨rfl, rfl⟩
      exact ⟨h1.trans this.1, h2.trans this.2⟩

theorem freeData_map {b : HBlock α} {h h' : Heap α} (e : h.freeData b = some h') :
    h'.map = h.map ∧ h'.nextM = h.nextM :=
  freeBlocks_map [b] h h' (by simp only [freeBlocks, e, Option.bind_some])

theorem deleteTable_map {h h' : Heap α} {t : Option Nat} (e : h.deleteTable t = some h') :
    h'.map = h.map ∧ h'.nextM = h.nextM := by
  cases t with
  | none => cases e; exact ⟨rfl, rfl⟩
  | some t =>
    simp only [deleteTable] at e
    cases hb : h.tbl t with
    | none => rw [hb] at e; cases e
    | some bl =>
      rw [hb] at e
      simp only at e
      cases hf : h.freeBlocks bl with
      | none => rw [hf] at e; cases e
      | some x =>
        rw [hf] at e; cases e
        exact freeBlocks_map bl h x hf

theorem setupBlocks_map {zero : α} {h h' : Heap α} {f f' : HField}
    (e : setupBlocks zero h f = some (h', f')) :
    h'.map = h.map ∧ h'.nextM = h.nextM ∧ f'.mapping = f.mapping ∧ f'.extents = f.extents := by
  simp only [setupBlocks] at e
  cases hd : h.deleteTable f.table with
  | none => rw [hd] at e; cases e
  | some x =>
    rw [hd] at e
    simp only [Option.map_some, Option.some.injEq, Prod.mk.injEq] at e
    obtain ⟨rfl, rfl⟩ := e
    obtain ⟨h1, h2⟩ := deleteTable_map hd
    exact ⟨h1, h2, rfl, rfl⟩

theorem copyBlocks_map (n : Nat) (bl : List (HBlock α)) : ∀ (h h' : Heap α) (r : List (HBlock α)),
    copyBlocks h n bl = some (h', r) → h'.map = h.map ∧ h'.nextM = h.nextM := by
  induction bl with
  | nil => intro h h' r e; cases e; exact ⟨rfl, rfl⟩
  | cons b bs ih =>
    intro h h' r e
    simp only [copyBlocks] at e
    cases hx : copyBlock h n b with
    | none => rw [hx] at e; cases e
    | some x =>
      obtain ⟨h1, b1⟩ := x
      rw [hx] at e
      simp only at e
      cases hy : copyBlocks h1 n bs with
      | none => rw [hy] at e; cases e
      | some y =>
        obtain ⟨h2, r2⟩ := y
        rw [hy] at e; cases e
        obtain ⟨a1, a2⟩ := ih _ _ _ hy
        have : h1.map = h.map ∧ h1.nextM = h.nextM := by
          simp only [copyBlock] at hx
          split at hx
          · split at hx
            · cases hx
            · split at hx
              · cases hx; exact ⟨rfl, rfl⟩
              · cases hx
          · cases hx; exact ⟨rfl, rfl⟩
        exact ⟨a1.trans this.1, a2.trans this.2⟩

theorem copySparse_map {h h' : Heap α} {f o f' : HField} (e : copySparse h f o = some (h', f')) :
    h'.map = h.map ∧ h'.nextM = h.nextM ∧ f'.mapping = f.mapping ∧ f'.extents = f.extents := by
  simp only [copySparse] at e
  split at e
  · cases e
  · rename_i h1 hd
    split at e
    · cases e
    · split at e
      · cases e
      · rename_i h2 bl' hc
        cases e
        obtain ⟨a1, a2⟩ := deleteTable_map hd
        obtain ⟨b1, b2⟩ := copyBlocks_map _ _ _ _ _ hc
        exact ⟨b1.trans a1, b2.trans a2, rfl, rfl⟩

theorem write_map {h h' : Heap α} {f : HField} {p : V3i} {v : α} (e : HField.write h f p v = some h') :
    h'.map = h.map ∧ h'.nextM = h.nextM := by
  simp only [HField.write] at e
  split at e
  · cases e
  · rename_i t bl b hb
    split at e
    · cases e
    · cases e
    · rename_i h2 a hr
      split at e
      · cases e
      · split at e
        · cases e
          have : h2.map = h.map ∧ h2.nextM = h.nextM := by
            split at hr
            · simp only [Option.some.injEq, Prod.mk.injEq] at hr
              rw [← hr.1]; exact ⟨rfl, rfl⟩
            · cases hx : h.freeData b with
              | none => rw [hx] at hr; cases hr
              | some x =>
                rw [hx] at hr; cases hr
                have := freeData_map hx
                exact ⟨this.1, this.2⟩
          exact this
        · cases e

theorem setBlockEmptyValue_map {h h' : Heap α} {f : HField} {b : V3i} {v : α}
    (e : HField.setBlockEmptyValue h f b v = some h') : h'.map = h.map ∧ h'.nextM = h.nextM := by
  simp only [HField.setBlockEmptyValue] at e
  split at e
  · cases e
  · rename_i t bl b hb
    split at e
    · cases hx : h.freeData b with
      | none => rw [hx] at e; cases e
      | some x =>
        rw [hx] at e; cases e
        have := freeData_map hx
        exact ⟨this.1, this.2⟩
    · cases e; exact ⟨rfl, rfl⟩

theorem clear_map {zero : α} {h h' : Heap α} {f f' : HField} {v : α}
    (e : HField.clear zero h f v = some (h', f')) :
    h'.map = h.map ∧ h'.nextM = h.nextM ∧ f'.mapping = f.mapping ∧ f'.extents = f.extents := by
  simp only [HField.clear] at e
  split at e
  · cases e
  · rename_i h1 f1 hs
    split at e
    · cases e
    · split at e
      · cases e
      · cases e
        obtain ⟨a1, a2, a3, a4⟩ := setupBlocks_map hs
        exact ⟨a1, a2, a3, a4⟩

/-- Each variable has its own mapping object, with the extents of its field. -/
structure MInv (w : World α) : Prop where
  lt : ∀ i f, w.vars i = some f → f.mapping < w.heap.nextM
  ext : ∀ i f, w.vars i = some f → w.heap.map f.mapping = f.extents
  sep : ∀ i j f g, i ≠ j → w.vars i = some f → w.vars j = some g → f.mapping ≠ g.mapping

/-- Generic step: variable `i` gets field `f'` (or is removed), other mapping objects are kept. -/
theorem MInv.update {w : World α} (M : MInv w) (i : Nat) {h' : Heap α} {x : Option HField}
    (hn : w.heap.nextM ≤ h'.nextM)
    (hx : ∀ f', x = some f' → f'.mapping < h'.nextM ∧ h'.map f'.mapping = f'.extents ∧
      (w.heap.nextM ≤ f'.mapping ∨ ∃ f, w.vars i = some f ∧ f.mapping = f'.mapping))
    (hk : ∀ a, a < w.heap.nextM → (∀ f, w.vars i = some f → f.mapping ≠ a) →
      h'.map a = w.heap.map a) :
    MInv (w.setVar i (h', x)) := by
  have hi : (w.setVar i (h', x)).vars i = x := by simp [World.setVar]
  have hj : ∀ j, j ≠ i → (w.setVar i (h', x)).vars j = w.vars j := by
    intro j h; simp [World.setVar, h]
  have hsep : ∀ j f' g, j ≠ i → x = some f' → w.vars j = some g → f'.mapping ≠ g.mapping := by
    intro j f' g h1 h2 h3 h4
    have hl := M.lt j g h3
    rcases (hx f' h2).2.2 with h5 | ⟨f, h5, h6⟩
    · omega
    · exact M.sep i j f g (Ne.symm h1) h5 h3 (h6.trans h4)
  refine ⟨?_, ?_, ?_⟩
  · intro j f hf
    by_cases h : j = i
    · subst h; rw [hi] at hf; exact (hx f hf).1
    · rw [hj j h] at hf; exact Nat.lt_of_lt_of_le (M.lt j f hf) hn
  · intro j f hf
    by_cases h : j = i
    · subst h; rw [hi] at hf; exact (hx f hf).2.1
    · rw [hj j h] at hf
      show h'.map f.mapping = f.extents
      rw [hk _ (M.lt j f hf) (fun g hg he => M.sep i j g f (Ne.symm h) hg hf he)]
      exact M.ext j f hf
  · intro j k f g hjk hf hg
    by_cases h : j = i
    · subst h
      rw [hi] at hf; rw [hj k (Ne.symm hjk)] at hg
      exact hsep k f g (Ne.symm hjk) hf hg
    · rw [hj j h] at hf
      by_cases h2 : k = i
      · subst h2; rw [hi] at hg
        exact (hsep j g f hjk hg hf).symm
      · rw [hj k h2] at hg; exact M.sep j k f g hjk hf hg

/-- Statements other than assignments between two different variables. -/
def noAssign : WOp α → Bool
  | .assign i j => decide (i = j)
  | _ => true

theorem minv_step {zero : α} {w w' : World α} (M : MInv w) {op : WOp α} (hop : noAssign op = true)
    (e : w.step zero op = some w') : MInv w' := by
  cases op with
  | create i ex d =>
    simp only [World.step] at e
    split at e
    · cases e
    · rename_i hv
      cases hc : HField.create zero w.heap with
      | none => rw [hc] at e; cases e
      | some r =>
        obtain ⟨h1, f1⟩ := r
        rw [hc, Option.bind_some] at e
        simp only at e
        cases hs : HField.setSize zero h1 f1 ex d with
        | none => rw [hs] at e; cases e
        | some r2 =>
          obtain ⟨h2, f2⟩ := r2
          rw [hs] at e; cases e
          obtain ⟨a1, a2, a3, a4⟩ := setupBlocks_map (by unfold HField.create at hc; exact hc)
          obtain ⟨b1, b2, b3, b4⟩ := setupBlocks_map (by unfold HField.setSize at hs; exact hs)
          simp only at a1 a2 a3 a4 b1 b2 b3 b4
          refine M.update i (by first | omega | (simp only; omega)) ?_ ?_
          · intro f' hf'; cases hf'
            rw [b3, b1, b4, a3, b2, a2]
            exact ⟨by omega, by simp, Or.inl (Nat.le_refl _)⟩
          · intro a ha _
            rw [b1]
            simp only
            rw [if_neg (by rw [a3]; omega), a1]
            simp only
            rw [if_neg (by omega)]
  | copy i j =>
    simp only [World.step] at e
    split at e
    · rename_i o hv ho
      cases hc : HField.copyConstruct w.heap o with
      | none => rw [hc] at e; cases e
      | some r =>
        obtain ⟨h1, f1⟩ := r
        rw [hc] at e; cases e
        obtain ⟨a1, a2, a3, a4⟩ := copySparse_map (by unfold HField.copyConstruct at hc; exact hc)
        simp only at a1 a2 a3 a4
        refine M.update i (by first | omega | (simp only; omega)) ?_ ?_
        · intro f' hf'; cases hf'
          rw [a3, a1, a4, a2]
          exact ⟨by omega, by simp [M.ext j o ho], Or.inl (Nat.le_refl _)⟩
        · intro a ha _
          rw [a1]
          simp only
          rw [if_neg (by omega)]
    · cases e
  | assign i j =>
    simp only [noAssign, decide_eq_true_eq] at hop
    subst hop
    simp only [World.step, if_true] at e
    split at e
    · cases e; exact M
    · cases e
  | destroy i =>
    simp only [World.step] at e
    split at e
    · cases e
    · rename_i f hf
      cases hc : HField.destroy w.heap f with
      | none => rw [hc] at e; cases e
      | some h1 =>
        rw [hc] at e; cases e
        obtain ⟨a1, a2⟩ := deleteTable_map (by unfold HField.destroy at hc; exact hc)
        refine M.update i (by first | omega | (simp only; omega)) (by intro f' h; cases h) ?_
        intro a _ _; rw [a1]
  | write i p v =>
    simp only [World.step] at e
    split at e
    · cases e
    · rename_i f hf
      cases hc : HField.write w.heap f p v with
      | none => rw [hc] at e; cases e
      | some h1 =>
        rw [hc] at e; cases e
        obtain ⟨a1, a2⟩ := write_map hc
        refine M.update i (by first | omega | (simp only; omega)) ?_ (by intro a _ _; rw [a1])
        intro f' h; cases h
        rw [a1, a2]
        exact ⟨M.lt i f hf, M.ext i f hf, Or.inr ⟨f, hf, rfl⟩⟩
  | clear i v =>
    simp only [World.step] at e
    split at e
    · cases e
    · rename_i f hf
      cases hc : HField.clear zero w.heap f v with
      | none => rw [hc] at e; cases e
      | some r =>
        obtain ⟨h1, f1⟩ := r
        rw [hc] at e; cases e
        obtain ⟨a1, a2, a3, a4⟩ := clear_map hc
        refine M.update i (by first | omega | (simp only; omega)) ?_ (by intro a _ _; rw [a1])
        intro f' h; cases h
        rw [a1, a2, a3, a4]
        exact ⟨M.lt i f hf, M.ext i f hf, Or.inr ⟨f, hf, rfl⟩⟩
  | resize i ex d =>
    simp only [World.step] at e
    split at e
    · cases e
    · rename_i f hf
      cases hc : HField.setSize zero w.heap f ex d with
      | none => rw [hc] at e; cases e
      | some r =>
        obtain ⟨h1, f1⟩ := r
        rw [hc] at e; cases e
        obtain ⟨a1, a2, a3, a4⟩ := setupBlocks_map (by unfold HField.setSize at hc; exact hc)
        simp only at a1 a2 a3 a4
        refine M.update i (by first | omega | (simp only; omega)) ?_ ?_
        · intro f' h; cases h
          rw [a1, a2, a3, a4]
          exact ⟨M.lt i f hf, by simp, Or.inr ⟨f, hf, rfl⟩⟩
        · intro a _ h; rw [a1]
          simp only
          rw [if_neg (fun h2 => h f hf h2.symm)]
  | setBlockOrder i o =>
    simp only [World.step] at e
    split at e
    · cases e
    · rename_i f hf
      cases hc : HField.setBlockOrder zero w.heap f o with
      | none => rw [hc] at e; cases e
      | some r =>
        obtain ⟨h1, f1⟩ := r
        rw [hc] at e; cases e
        obtain ⟨a1, a2, a3, a4⟩ := setupBlocks_map (by unfold HField.setBlockOrder at hc; exact hc)
        simp only at a1 a2 a3 a4
        refine M.update i (by first | omega | (simp only; omega)) ?_ (by intro a _ _; rw [a1])
        intro f' h; cases h
        rw [a1, a2, a3, a4]
        exact ⟨M.lt i f hf, M.ext i f hf, Or.inr ⟨f, hf, rfl⟩⟩
  | setBlockEmptyValue i b v =>
    simp only [World.step] at e
    split at e
    · cases e
    · rename_i f hf
      cases hc : HField.setBlockEmptyValue w.heap f b v with
      | none => rw [hc] at e; cases e
      | some h1 =>
        rw [hc] at e; cases e
        obtain ⟨a1, a2⟩ := setBlockEmptyValue_map hc
        refine M.update i (by first | omega | (simp only; omega)) ?_ (by intro a _ _; rw [a1])
        intro f' h; cases h
        rw [a1, a2]
        exact ⟨M.lt i f hf, M.ext i f hf, Or.inr ⟨f, hf, rfl⟩⟩
  | setMapping i j =>
    simp only [World.step] at e
    split at e
    · rename_i f o hf ho
      cases e
      refine M.update i (by simp [setMapping]) ?_ ?_
      · intro f' h; cases h
        exact ⟨by simp [setMapping], by simp [setMapping], Or.inl (by simp [setMapping])⟩
      · intro a ha _
        simp only [setMapping]
        rw [if_neg (by omega)]
    · cases e

/-- C07 (mapping): in any program without assignments between fields, each field has a mapping
object of its own, and the extents of its mapping are always the extents of the field; so a copied
or cloned field and its source never influence each other through their mappings. -/
theorem C07_mapping_private_without_assignment (zero : α) (ops : List (WOp α)) (w : World α)
    (hno : ∀ op ∈ ops, noAssign op = true) (hrun : (World.start α).run zero ops = some w) :
    (∀ i f, w.vars i = some f → w.heap.map f.mapping = f.extents) ∧
    (∀ i j f g, i ≠ j → w.vars i = some f → w.vars j = some g → f.mapping ≠ g.mapping) := by
  have main : ∀ (ops : List (WOp α)) (v : World α), MInv v → (∀ op ∈ ops, noAssign op = true) →
      ∀ w, v.run zero ops = some w → MInv w := by
    intro ops
    induction ops with
    | nil => intro v M _ w h; cases h; exact M
    | cons op ops ih =>
      intro v M hn w h
      simp only [World.run] at h
      cases hs : v.step zero op with
      | none => rw [hs] at h; cases h
      | some v1 =>
        rw [hs, Option.bind_some] at h
        exact ih v1 (minv_step M (hn op List.mem_cons_self) hs)
          (fun o ho => hn o (List.mem_cons_of_mem _ ho)) w h
  have M0 : MInv (World.start α) :=
    { lt := fun i f h => by cases h
      ext := fun i f h => by cases h
      sep := fun i j f g _ h => by cases h }
  have M := main ops _ M0 hno w hrun
  exact ⟨M.ext, M.sep⟩

/-- C07 (mapping, disagreement): after `a = b`, for any two fields of any program, resizing `b`
changes the extents of the mapping of `a` although the extents of `a` stay the same. -/
theorem C07_assignment_shares_mapping [DecidableEq α] (zero : α) (ops : List (WOp α)) (i j : Nat)
    (e d : Box3i) (hij : i ≠ j)
    (hok : Env.allAllowed zero (fun _ => none) (ops ++ [.assign i j, .resize j e d])) :
    ∃ w f m, (World.start α).run zero (ops ++ [.assign i j, .resize j e d]) = some w ∧
      (ops.foldl (Env.apply zero) (fun _ => none)) j = some m ∧
      w.vars i = some f ∧ f.extents = m.extents ∧ w.heap.map f.mapping = e := by
  have hsplit : ∀ (l : List (WOp α)) (A : Env α), Env.allAllowed zero A (l ++ [.assign i j, .resize j e d]) →
      Env.allAllowed zero A l ∧
      Env.allAllowed zero (l.foldl (Env.apply zero) A) [.assign i j, .resize j e d] := by
    intro l
    induction l with
    | nil => intro A h; exact ⟨trivial, h⟩
    | cons op l ih => intro A h; exact ⟨⟨h.1, (ih _ h.2).1⟩, (ih _ h.2).2⟩
  have happ : ∀ (l : List (WOp α)) (m : List (WOp α)) (w : World α),
      w.run zero (l ++ m) = (w.run zero l).bind (fun w' => w'.run zero m) := by
    intro l
    induction l with
    | nil => intro m w; rfl
    | cons op l ih =>
      intro m w
      simp only [List.cons_append, World.run]
      cases w.step zero op with
      | none => rfl
      | some w1 => simp only [Option.bind_some]; exact ih m w1
  obtain ⟨h1, ⟨h2, h3, _⟩⟩ := hsplit ops _ hok
  obtain ⟨w0, e0, I0⟩ := winv_run zero ops _ _ winv_start h1
  obtain ⟨w1, e1, I1⟩ := winv_step zero I0 _ h2
  obtain ⟨w2, e2, I2⟩ := winv_step zero I1 _ h3
  obtain ⟨m, hm⟩ := Option.ne_none_iff_exists'.mp h2.2
  have hvj := I0.var j
  rw [hm] at hvj
  obtain ⟨o, t, bl, ho, r, q⟩ := hvj.get
  obtain ⟨mi, hmi⟩ := Option.ne_none_iff_exists'.mp h2.1
  have hvi := I0.var i
  rw [hmi] at hvi
  obtain ⟨f, ti, bli, hf, ri, qi⟩ := hvi.get
  -- the assignment
  simp only [World.step, hf, ho, if_neg hij] at e1
  cases ha : HField.assign w0.heap f o with
  | none => rw [ha] at e1; cases e1
  | some x =>
    obtain ⟨h1', f1⟩ := x
    rw [ha] at e1; cases e1
    obtain ⟨a1, a2, a3, a4⟩ := copySparse_map (by unfold HField.assign at ha; exact ha)
    have hj1 : (w0.setVar i (h1', some f1)).vars j = some o := by
      simp [World.setVar, Ne.symm hij, ho]
    simp only [World.step, hj1] at e2
    cases hs : HField.setSize zero (w0.setVar i (h1', some f1)).heap o e d with
    | none => rw [hs] at e2; cases e2
    | some y =>
      obtain ⟨h2', o2⟩ := y
      rw [hs] at e2; cases e2
      obtain ⟨b1, b2, b3, b4⟩ := setupBlocks_map (by unfold HField.setSize at hs; exact hs)
      refine ⟨(w0.setVar i (h1', some f1)).setVar j (h2', some o2), f1, m, ?_, hm, ?_, ?_, ?_⟩
      · rw [happ, e0, Option.bind_some]
        simp only [World.run, World.step, hf, ho, if_neg hij, ha, Option.map_some, Option.bind_some,
          hj1, hs]
      · simp [World.setVar, hij]
      · rw [a4]; exact q.extents
      · simp only at a3
        show h2'.map f1.mapping = e
        rw [b1, a3]; simp

/-! The hypotheses are met by a program that creates a field, writes to it, copies it, assigns it to
another field, changes both and destroys one. -/
def exampleProgram : List (WOp Int) :=
  [.create 0 ⟨⟨0,0,0⟩,⟨3,3,3⟩⟩ ⟨⟨-1,0,0⟩,⟨3,3,3⟩⟩, .write 0 ⟨-1,2,3⟩ 7, .copy 1 0,
   .write 1 ⟨-1,2,3⟩ 8, .create 2 ⟨⟨0,0,0⟩,⟨1,1,1⟩⟩ ⟨⟨0,0,0⟩,⟨1,1,1⟩⟩, .write 2 ⟨0,0,0⟩ 1,
   .assign 2 0, .clear 0 5, .destroy 1]

example : Env.allAllowed (0 : Int) (fun _ => none) exampleProgram := by
  refine ⟨⟨rfl, by unfold SparseWindow; decide⟩, ⟨_, rfl, rfl⟩,
    ⟨rfl, by simp [Env.apply, Env.set]⟩, ⟨_, rfl, rfl⟩,
    ⟨rfl, by unfold SparseWindow; decide⟩, ⟨_, rfl, rfl⟩,
    ⟨by simp [Env.apply, Env.set], by simp [Env.apply, Env.set]⟩, ?_, ?_, trivial⟩ <;>
  simp [Env.allowed, Env.apply, Env.set]

/-- Reading voxel `p` of variable `i` after the example program. -/
def exampleRead (i : Nat) (p : V3i) : Option Int :=
  ((World.start Int).run 0 exampleProgram).bind
    (fun w => (w.vars i).bind (fun f => HField.value w.heap f p))

example : exampleRead 0 ⟨-1,2,3⟩ = some 5 ∧ exampleRead 2 ⟨-1,2,3⟩ = some 7 ∧
    exampleRead 2 ⟨0,0,0⟩ = some 0 ∧ exampleRead 1 ⟨0,0,0⟩ = none := by
  decide +kernel

/-- A program that assigns and then resizes, for `C07_assignment_shares_mapping`. -/
example : Env.allAllowed (0 : Int) (fun _ => none)
    ([.create 0 ⟨⟨0,0,0⟩,⟨3,3,3⟩⟩ ⟨⟨0,0,0⟩,⟨3,3,3⟩⟩, .create 1 ⟨⟨0,0,0⟩,⟨1,1,1⟩⟩ ⟨⟨0,0,0⟩,⟨1,1,1⟩⟩] ++
      [.assign 0 1, .resize 1 ⟨⟨0,0,0⟩,⟨5,5,5⟩⟩ ⟨⟨0,0,0⟩,⟨5,5,5⟩⟩]) := by
  refine ⟨⟨rfl, by unfold SparseWindow; decide⟩, ⟨rfl, by unfold SparseWindow; decide⟩,
    ⟨by simp [Env.apply, Env.set], by simp [Env.apply, Env.set]⟩,
    ⟨_, rfl, by simp only [SparseMap.allowed]; unfold SparseWindow; decide⟩, trivial⟩

end F3D.Props
