import Verif.Proofs.DynEdit

/-!
# C78: fields that load their blocks from files, as objects
-/

namespace F3D.Props
open F3D
open _root_.F3D.Dyn (St Fld Ref Inv FieldOk viewOf)

section
variable {α : Type} {files : Nat → Sparse α} {s : Dyn.St α} {w : World α}

theorem inv_init : Inv files (St.init : Dyn.St α) World.empty := by
  refine ⟨rfl, fun _ => ⟨fun _ => rfl, fun _ => rfl⟩, ?_, fun _ _ => rfl, fun _ _ => rfl, fun _ _ => rfl, ?_, ?_, ?_, ?_,
    List.nodup_nil⟩
  · intro f o h ho; cases ho
  · intro f g o o' ho; cases ho
  · intro f g o o' r ho; cases ho
  · intro k hk; cases hk
  · intro a ha; exact absurd rfl ha

theorem apply_edit (zero : α) (layers : Nat → SparseMap α) {f : Nat} {h : Handle α} {op : SparseOp α}
    (hw : w.fld f = some h) (hop : h.lazy = false ∨ ∀ p v, op ≠ .write p v) :
    w.apply zero layers (.edit f op) = w.put f { h with edited := true, map := h.map.apply zero op } := by
  simp only [World.apply, hw]
  cases hl : h.lazy with
  | false => rfl
  | true =>
    rw [hl] at hop
    cases op <;> simp at hop ⊢

theorem edit_ok [DecidableEq α] (I : Inv files s w) (zero : α) (layers : Nat → SparseMap α) {f : Nat} {op : SparseOp α}
    (hp : w.permits (.edit f op)) :
    ∃ s', fieldStep zero files s (.edit f op) = some (s', none) ∧
      Inv files s' (w.apply zero layers (.edit f op)) := by
  obtain ⟨h, hw, hal, hed⟩ := hp
  obtain ⟨o, ho, k⟩ := I.get hw
  obtain ⟨x, hx⟩ := k.ideal
  cases op with
  | write p v =>
    cases hl : h.lazy with
    | true =>
      have hs : o.file.isSome = true := by
        cases k with
        | plain _ _ hl' => rw [hl] at hl'; cases hl'
        | backed _ _ _ _ hfile => rw [hfile]; rfl
      refine ⟨s, ?_, ?_⟩
      · simp only [fieldStep, Dyn.write, ho, Option.bind_some, hs, if_true, Option.map_some]
      · have : w.apply zero layers (.edit f (.write p v)) = w := by
          simp only [World.apply, hw, hl]
        rw [this]; exact I
    | false =>
      rw [apply_edit zero layers hw (.inl hl)]
      have hs : o.file.isSome = false := by
        cases k with
        | plain _ hfile => rw [hfile]; rfl
        | backed _ _ _ _ _ hl' => rw [hl] at hl'; cases hl'
      obtain ⟨s', h1, h2⟩ := Dyn.inPlace_plain I ho hw hl (op := fun g => g.write p v)
        (m := h.map.apply zero (.write p v)) rfl rfl rfl (fun g hg => refines_step zero hg (.write p v) hal)
      refine ⟨s', ?_, h2⟩
      simp only [fieldStep, Dyn.write, ho, Option.bind_some, hs, Bool.false_eq_true, if_false, h1, Option.map_some]
  | clear v =>
    rw [apply_edit zero layers hw (.inr (by simp))]
    obtain ⟨g, hg, hr⟩ := refines_step zero hx (.clear v) hal
    obtain ⟨s', h1, h2⟩ := Dyn.resetup_ok I ho hw hed hr (fun _ hb => hb)
    refine ⟨s', ?_, h2⟩
    have : o.geom.clear zero v = g := Option.some.inj hg
    simp only [fieldStep, Dyn.clear, ho, Option.bind_some, this, h1, Option.map_some]
  | resize e dw =>
    rw [apply_edit zero layers hw (.inr (by simp))]
    obtain ⟨g, hg, hr⟩ := refines_step zero hx (.resize e dw) hal
    obtain ⟨s', h1, h2⟩ := Dyn.resetup_ok I ho hw hed hr (fun _ hb => hb)
    refine ⟨s', ?_, h2⟩
    have : o.geom.setSize zero e dw = g := Option.some.inj hg
    simp only [fieldStep, Dyn.resize, ho, Option.bind_some, this, h1, Option.map_some]
  | setBlockOrder n =>
    rw [apply_edit zero layers hw (.inr (by simp))]
    obtain ⟨g, hg, hr⟩ := refines_step zero hx (.setBlockOrder n) hal
    obtain ⟨s', h1, h2⟩ := Dyn.resetup_ok I ho hw hed hr (fun _ hb => hb)
    refine ⟨s', ?_, h2⟩
    have : o.geom.setBlockOrder zero n = g := Option.some.inj hg
    simp only [fieldStep, Dyn.setBlockOrder, ho, Option.bind_some, this, h1, Option.map_some]
  | setBlockEmptyValue b v =>
    rw [apply_edit zero layers hw (.inr (by simp))]
    by_cases hl : h.lazy = true
    · obtain ⟨s', h1, h2⟩ := Dyn.setEmpty_lazy I zero ho hw hl b v hal
      exact ⟨s', by simp only [fieldStep, h1, Option.map_some], h2⟩
    · replace hl := Bool.eq_false_iff.mpr hl
      obtain ⟨s', h1, h2⟩ := Dyn.inPlace_plain I ho hw hl (op := fun g => g.setBlockEmptyValue b v)
        (m := h.map.apply zero (.setBlockEmptyValue b v)) rfl rfl rfl (fun g hg => refines_step zero hg (.setBlockEmptyValue b v) hal)
      exact ⟨s', by simp only [fieldStep, Dyn.setBlockEmptyValue, h1, Option.map_some], h2⟩
  | releaseAllEqual =>
    rw [apply_edit zero layers hw (.inr (by simp))]
    obtain ⟨s', h1, h2⟩ := Dyn.inPlace_plain I ho hw hed (op := fun g => sparseStep zero g .releaseAllEqual)
      (m := h.map.apply zero .releaseAllEqual) rfl rfl rfl (fun g hg => refines_step zero hg .releaseAllEqual hal)
    have h1' : Dyn.release Sparse.releaseAllEqual s f = some s' := h1
    exact ⟨s', by simp only [fieldStep, h1', Option.map_some], h2⟩
  | releaseMaxAbs less =>
    rw [apply_edit zero layers hw (.inr (by simp))]
    obtain ⟨s', h1, h2⟩ := Dyn.inPlace_plain I ho hw hed (op := fun g => sparseStep zero g (.releaseMaxAbs less))
      (m := h.map.apply zero (.releaseMaxAbs less)) rfl rfl rfl (fun g hg => refines_step zero hg (.releaseMaxAbs less) hal)
    have h1' : Dyn.release (Sparse.releaseMaxAbs less) s f = some s' := h1
    exact ⟨s', by simp only [fieldStep, h1', Option.map_some], h2⟩

theorem fieldStep_ok [DecidableEq α] (I : Inv files s w) (zero : α) (layers : Nat → SparseMap α)
    (hf : ∀ l, Refines (files l) (layers l)) (ev : FieldEvent α) (hp : w.permits ev) :
    ∃ s', fieldStep zero files s ev = some (s', w.answer ev) ∧ Inv files s' (w.apply zero layers ev) := by
  cases ev with
  | create e dw => exact ⟨_, rfl, Dyn.create_ok I zero layers e dw hp⟩
  | openLayer l => exact ⟨_, rfl, Dyn.openLayer_ok I zero layers hf l⟩
  | copy f =>
    obtain ⟨s', h1, h2⟩ := Dyn.copy_ok I zero layers hf hp
    exact ⟨s', by simp only [fieldStep, h1, Option.map_some, World.answer], h2⟩
  | assign d f =>
    obtain ⟨s', h1, h2⟩ := Dyn.assign_ok I zero layers hf hp
    exact ⟨s', by simp only [fieldStep, h1, Option.map_some, World.answer], h2⟩
  | edit f op =>
    obtain ⟨s', h1, h2⟩ := edit_ok I zero layers hp
    exact ⟨s', h1, h2⟩
  | read f p =>
    obtain ⟨h, hw, hpd⟩ := hp
    obtain ⟨s', h1, h2, _⟩ := Dyn.read_ok I zero layers hw hpd
    exact ⟨s', by simp only [fieldStep, h1, Option.map_some, World.answer, hw], h2⟩
  | evict k =>
    obtain ⟨s', h1, h2⟩ := Dyn.evict_ok I k
    exact ⟨s', by simp only [fieldStep, h1, Option.map_some, World.answer], h2⟩
  | flush =>
    obtain ⟨s', h1, h2, _⟩ := Dyn.flush_ok I zero layers
    exact ⟨s', by simp only [fieldStep, h1, Option.map_some, World.answer], h2⟩
  | destroy f =>
    obtain ⟨s', h1, h2⟩ := Dyn.destroy_ok I zero layers hp
    exact ⟨s', by simp only [fieldStep, h1, Option.map_some, World.answer], h2⟩

theorem fieldRun_ok [DecidableEq α] (zero : α) (layers : Nat → SparseMap α)
    (hf : ∀ l, Refines (files l) (layers l)) (evs : List (FieldEvent α)) :
    ∀ (s : Dyn.St α) (w : World α), Inv files s w → w.allPermitted zero layers evs →
      ∃ s', fieldRun zero files s evs = some (s', World.answers zero layers w evs) ∧
        Inv files s' (World.run zero layers w evs) := by
  induction evs with
  | nil => intro s w I _; exact ⟨s, rfl, I⟩
  | cons ev evs ih =>
    intro s w I ⟨h1, h2⟩
    obtain ⟨t, g1, g2⟩ := fieldStep_ok I zero layers hf ev h1
    obtain ⟨s', g3, g4⟩ := ih t _ g2 h2
    exact ⟨s', by simp only [fieldRun, g1, Option.bind_some, g3, Option.map_some, World.answers], g4⟩

theorem stored_refines [DecidableEq α] {zero : α} {layers : Nat → SparseMap α}
    (hs : StoredLayers zero files layers) (l : Nat) : Refines (files l) (layers l) := by
  obtain ⟨e, w, ops, hw, hok, hrun, hl⟩ := hs l
  obtain ⟨g, hg, hr⟩ := refines_run zero ops _ _ (refines_fresh zero e w hw) hok
  rw [hrun] at hg; cases hg
  rw [hl]; exact hr

theorem seen_of (I : Inv files s w) {f : Nat} {h : Handle α} (zero : α) (layers : Nat → SparseMap α)
    (hw : w.fld f = some h) : SeenAs files s f h := by
  obtain ⟨o, ho, k⟩ := I.get hw
  refine ⟨?_, ?_⟩
  · cases k with
    | plain bs hfile hl hb hr =>
      have ob := hr.observes
      exact ⟨o, bs, ho, hb, by rw [hfile, hl]; rfl, hr.extents, hr.dw, hr.order, ob.blockAlloc, ob.emptyValue⟩
    | backed r ref bs ib hfile hl hb href alive cold load hr len cells same =>
      have ob := hr.observes
      have key : ∀ bc : V3i, ∀ b p, h.map.inBlock b p → bc = b →
          (viewOf o bs).blockIsAllocated bc = (viewOf o ib).blockIsAllocated bc ∧
          (viewOf o bs).getBlockEmptyValue bc = (viewOf o ib).getBlockEmptyValue bc := by
        rintro bc b p ⟨hp, rfl⟩ rfl
        have hp' : (viewOf o ib).dw.contains p = true := by rw [hr.dw]; exact hp
        have hid := Sparse.id_eq hr.wf hp'
        rw [blockCoord_blockOf, hr.dw, hr.order] at hid
        have hid2 : (viewOf o bs).blockId (blockOf h.map.dw h.map.order p) = ((viewOf o ib).idN p : Nat) := hid
        obtain ⟨c, hc, _⟩ := Sparse.get_block hr.wf hp'
        have hilt := Sparse.idN_lt hr.wf hp'
        have hilt2 : (viewOf o ib).idN p < bs.length := by rw [← len]; exact hilt
        have hbi : (viewOf o bs).blocks[(viewOf o ib).idN p]? = some bs[(viewOf o ib).idN p] :=
          List.getElem?_eq_getElem hilt2
        have cc := cells _ _ _ hbi hc
        unfold Sparse.blockIsAllocated Sparse.getBlockEmptyValue
        rw [hid, hid2, Sparse.block?_nat, Sparse.block?_nat, hc, hbi]
        simp only [Option.map_some, cc.alloc, cc.empty, and_self]
      refine ⟨o, bs, ho, hb, by rw [hfile, hl]; rfl, hr.extents, hr.dw, hr.order, ?_, ?_⟩
      · intro b p hbp
        obtain ⟨x, hx1, hx2⟩ := ob.blockAlloc b p hbp
        exact ⟨x, (key b b p hbp rfl).1.trans hx1, hx2⟩
      · intro b p hbp hna
        exact (key b b p hbp rfl).2.trans (ob.emptyValue b p hbp hna)
  · intro p hp
    obtain ⟨t, ht, _⟩ := Dyn.read_ok I zero layers hw hp
    exact ⟨t, ht⟩

end

/-! ## C78 -/

/-- C78: any permitted history of making, reading from file, copying, assigning, editing, reading and
destroying sparse fields, with blocks evicted from the cache at any moment, runs without undefined
behaviour; every read gives the value of the user's map for that field, and at the end every field is
seen as its map. A write to a lazily loaded field is ignored, and no call changes any field but the
one it is made on. -/
theorem C78_fields_are_maps {α : Type} [DecidableEq α] (zero : α) (files : Nat → Sparse α)
    (layers : Nat → SparseMap α) (hs : StoredLayers zero files layers) (evs : List (FieldEvent α))
    (hok : World.empty.allPermitted zero layers evs) :
    ∃ s, fieldRun zero files St.init evs = some (s, World.empty.answers zero layers evs) ∧
      (∀ f h, (World.empty.run zero layers evs).fld f = some h → SeenAs files s f h) ∧
      (∀ f, (World.empty.run zero layers evs).fld f = none → s.flds f = none) := by
  obtain ⟨s, h1, I⟩ := fieldRun_ok zero layers (stored_refines hs) evs _ _ inv_init hok
  exact ⟨s, h1, fun f h hw => seen_of I zero layers hw, fun f hf => (I.dead f).mpr hf⟩

/-- C78: after any permitted history every block table belongs to exactly one field (so none is leaked
or shared), every entry of the cache list is a loaded block of a field that still exists, once, and
every block that holds data of a lazily loaded field is on the cache list. -/
theorem C78_ownership {α : Type} [DecidableEq α] (zero : α) (files : Nat → Sparse α)
    (layers : Nat → SparseMap α) (hs : StoredLayers zero files layers) (evs : List (FieldEvent α))
    (hok : World.empty.allPermitted zero layers evs) :
    ∃ s outs, fieldRun zero files St.init evs = some (s, outs) ∧
      (∀ a bs, s.heap a = some bs → ∃ f o, s.flds f = some o ∧ o.arr = a ∧
        ∀ g o', s.flds g = some o' → o'.arr = a → g = f) ∧
      s.cache.Nodup ∧
      (∀ k ∈ s.cache, ∃ f o, s.flds f = some o ∧ o.file = some k.1 ∧
        ∀ g o', s.flds g = some o' → o'.file = some k.1 → g = f) ∧
      (∀ f o r bs i b, s.flds f = some o → o.file = some r → s.heap o.arr = some bs → bs[i]? = some b →
        b.data ≠ none → (r, i) ∈ s.cache) := by
  obtain ⟨s, h1, I⟩ := fieldRun_ok zero layers (stored_refines hs) evs _ _ inv_init hok
  refine ⟨s, _, h1, ?_, I.nodup, ?_, ?_⟩
  · intro a bs ha
    obtain ⟨f, o, ho, hoa⟩ := I.owned a (by rw [ha]; simp)
    exact ⟨f, o, ho, hoa, fun g o' hg hga => I.arrInj g f o' o hg ho (hga.trans hoa.symm)⟩
  · intro k hk
    obtain ⟨f, o, ref, bs, g1, g2, _⟩ := I.cacheOk k hk
    exact ⟨f, o, g1, g2, fun g o' hg hgr => I.refInj g f o' o k.1 hg g1 hgr g2⟩
  · intro f o r bs i b ho hr hb hbi hd
    obtain ⟨h, hw, k⟩ := I.ghost ho
    cases k with
    | plain _ hfile => rw [hfile] at hr; cases hr
    | backed r' ref bs' ib hfile hl hb' href alive cold load hrf len cells same =>
      rw [hfile] at hr; cases hr
      rw [hb'] at hb; cases hb
      have hilt : i < ib.length := by rw [len]; exact (List.getElem?_eq_some_iff.mp hbi).1
      have cc := cells i b _ hbi (List.getElem?_eq_getElem hilt)
      cases hba : b.isAllocated with
      | false => exact absurd (cc.free hba) hd
      | true =>
        obtain ⟨d, fi, _, _, _, _, hcase⟩ := cc.data hba
        rcases hcase with ⟨hld, _⟩ | ⟨_, hn⟩
        · exact (load i).mp hld
        · exact absurd hn hd

/-- C78: flushing the cache after any permitted history frees the data of every block of every lazily
loaded field, and empties the cache list; nothing that can be observed of any field changes. -/
theorem C78_flush_frees {α : Type} [DecidableEq α] (zero : α) (files : Nat → Sparse α)
    (layers : Nat → SparseMap α) (hs : StoredLayers zero files layers) (evs : List (FieldEvent α))
    (hok : World.empty.allPermitted zero layers evs) :
    ∃ s outs t, fieldRun zero files St.init evs = some (s, outs) ∧ Dyn.flush s = some t ∧ t.cache = [] ∧
      (∀ f o r bs b, t.flds f = some o → o.file = some r → t.heap o.arr = some bs → b ∈ bs → b.data = none) ∧
      (∀ f h, (World.empty.run zero layers evs).fld f = some h → SeenAs files t f h) := by
  obtain ⟨s, h1, I⟩ := fieldRun_ok zero layers (stored_refines hs) evs _ _ inv_init hok
  obtain ⟨t, g1, J, g3⟩ := Dyn.flush_ok I zero layers
  refine ⟨s, _, t, h1, g1, g3, ?_, ?_⟩
  · intro f o r bs b ho hr hb hbm
    obtain ⟨i, hbi⟩ := List.getElem?_of_mem hbm
    obtain ⟨h, hw, k⟩ := J.ghost ho
    cases k with
    | plain _ hfile => rw [hfile] at hr; cases hr
    | backed r' ref bs' ib hfile hl hb' href alive cold load hrf len cells same =>
      rw [hb'] at hb; cases hb
      have hilt : i < ib.length := by rw [len]; exact (List.getElem?_eq_some_iff.mp hbi).1
      have cc := cells i b _ hbi (List.getElem?_eq_getElem hilt)
      cases hba : b.isAllocated with
      | false => exact cc.free hba
      | true =>
        obtain ⟨d, fi, _, _, _, _, hcase⟩ := cc.data hba
        rcases hcase with ⟨hld, _⟩ | ⟨_, hn⟩
        · have := (load i).mp hld
          rw [g3] at this; cases this
        · exact hn
  · intro f h hw
    have hw' : (World.apply zero layers (World.empty.run zero layers evs) .flush).fld f = some { h with hot := false } := by
      simp only [World.apply, hw, Option.map_some]
    have sn := seen_of J zero layers hw'
    exact ⟨sn.object, sn.value⟩

/-! ## What must not be done to lazily loaded fields -/

section
variable {α : Type} {files : Nat → Sparse α} {s : Dyn.St α} {w : World α}

theorem fieldRun_append [DecidableEq α] (zero : α) (a b : List (FieldEvent α)) : ∀ {s t : Dyn.St α} {o : List (Option α)},
    fieldRun zero files s a = some (t, o) →
    fieldRun zero files s (a ++ b) = (fieldRun zero files t b).map fun q => (q.1, o ++ q.2) := by
  induction a with
  | nil =>
    intro s t o h
    cases h
    simp
  | cons e es ih =>
    intro s t o h
    simp only [fieldRun, List.cons_append] at h ⊢
    cases he : fieldStep zero files s e with
    | none => rw [he] at h; cases h
    | some r =>
      rw [he, Option.bind_some] at h
      obtain ⟨q, hq, hqe⟩ := Option.map_eq_some_iff.mp h
      obtain ⟨q1, q2⟩ := q
      cases hqe
      rw [Option.bind_some, ih hq]
      simp [Function.comp_def]

/-- The cache list has a block of a deleted table. -/
def Dangling (s : Dyn.St α) (ks : List (Nat × Nat)) : Prop :=
  ∃ k ∈ ks, ∃ ref a, s.refs k.1 = some ref ∧ ref.arr = some a ∧ s.heap a = none

theorem unload_keeps {t : Dyn.St α} {r i : Nat} (h : Dyn.unload s r i = some t) :
    (∀ r' ref, s.refs r' = some ref → ∃ ref', t.refs r' = some ref' ∧ ref'.arr = ref.arr) ∧
    ∀ a, s.heap a = none → t.heap a = none := by
  simp only [Dyn.unload] at h
  obtain ⟨ref, h1, h⟩ := Option.bind_eq_some_iff.mp h
  obtain ⟨a, h2, h⟩ := Option.bind_eq_some_iff.mp h
  obtain ⟨bs, h3, h⟩ := Option.bind_eq_some_iff.mp h
  obtain ⟨b, h4, h⟩ := Option.map_eq_some_iff.mp h
  subst h
  constructor
  · intro r' ref' hr
    by_cases e : r' = r
    · subst e
      rw [h1] at hr; cases hr
      exact ⟨_, Dyn.upd_same _ _ _, rfl⟩
    · exact ⟨ref', (Dyn.upd_ne _ _ e).trans hr, rfl⟩
  · intro x hx
    have : x ≠ a := by rintro rfl; rw [h3] at hx; cases hx
    exact (Dyn.upd_ne _ _ this).trans hx

theorem flush_dangling (ks : List (Nat × Nat)) : ∀ s : Dyn.St α, Dangling s ks → Dyn.flushLoop s ks = none := by
  induction ks with
  | nil => rintro s ⟨k, hk, _⟩; cases hk
  | cons k ks ih =>
    rintro s ⟨k', hk, ref, a, h1, h2, h3⟩
    cases hu : Dyn.unload s k.1 k.2 with
    | none => simp only [Dyn.flushLoop, hu, Option.bind_none]
    | some t =>
      simp only [Dyn.flushLoop, hu, Option.bind_some]
      rcases List.mem_cons.mp hk with rfl | hk
      · simp only [Dyn.unload, h1, Option.bind_some, h2, h3, Option.bind_none] at hu
        cases hu
      · obtain ⟨g1, g2⟩ := unload_keeps hu
        obtain ⟨ref', g3, g4⟩ := g1 _ _ h1
        exact ih _ ⟨k', hk, ref', a, g3, g4.trans h2, g2 a h3⟩

end

/-- Calls that give a field a new block table. -/
def startsOver {α : Type} : SparseOp α → Prop
  | .clear _ => True
  | .resize _ _ => True
  | .setBlockOrder _ => True
  | _ => False

/-- C78: clearing or resizing a lazily loaded field, or changing its block order, after reading a voxel
of one of its allocated blocks leaves a deleted block on the cache list: the next flush (or eviction of
that block) is undefined. This holds after any permitted history, so the restriction to fields that
were not read since the last flush cannot be dropped. -/
theorem C78_reset_after_read_dangles {α : Type} [DecidableEq α] (zero : α) (files : Nat → Sparse α)
    (layers : Nat → SparseMap α) (hs : StoredLayers zero files layers) (evs : List (FieldEvent α))
    (hok : World.empty.allPermitted zero layers evs) (f : Nat) (h : Handle α) (p : V3i) (op : SparseOp α)
    (hw : (World.empty.run zero layers evs).fld f = some h) (hl : h.lazy = true)
    (hp : h.map.dw.contains p = true) (ha : h.map.alloc (blockOf h.map.dw h.map.order p)) (hop : startsOver op) :
    ∃ s outs, fieldRun zero files St.init (evs ++ [.read f p, .edit f op]) = some (s, outs) ∧
      fieldStep zero files s .flush = none := by
  obtain ⟨s, h1, I⟩ := fieldRun_ok zero layers (stored_refines hs) evs _ _ inv_init hok
  obtain ⟨t, h2, J, h3⟩ := Dyn.read_ok I zero layers hw hp
  obtain ⟨o, r, i, ho, hr, hc⟩ := h3 hl ha
  obtain ⟨f2, o2, ref, bs, c1, c2, c3, c4, c5, c6⟩ := J.cacheOk _ hc
  have : f2 = f := J.refInj f2 f o2 o r c1 ho c2 hr
  subst this
  rw [ho] at c1; cases c1
  have key : ∀ g : Sparse α, ∃ u, Dyn.resetup t f2 o g = some u ∧ Dyn.flush u = none := by
    intro g
    refine ⟨{ t with heap := Dyn.upd (Dyn.upd t.heap o.arr none) t.nextA (some g.blocks), nextA := t.nextA + 1,
                     flds := Dyn.upd t.flds f2 (some { o with geom := g, arr := t.nextA }) }, ?_, ?_⟩
    · simp only [Dyn.resetup, St.freeArr, c5, Option.map_some, St.newArr]
    · refine flush_dangling _ _ ⟨(r, i), hc, ref, o.arr, c3, c4, ?_⟩
      show Dyn.upd (Dyn.upd t.heap o.arr none) t.nextA _ o.arr = none
      rw [Dyn.upd_ne _ _ (by have := J.arr_lt ho; omega), Dyn.upd_same]
  have hstep : ∃ u, fieldStep zero files t (.edit f2 op) = some (u, none) ∧ Dyn.flush u = none := by
    cases op with
    | clear v =>
      obtain ⟨u, k1, k2⟩ := key (o.geom.clear zero v)
      exact ⟨u, by simp only [fieldStep, Dyn.clear, ho, Option.bind_some, k1, Option.map_some], k2⟩
    | resize e dw =>
      obtain ⟨u, k1, k2⟩ := key (o.geom.setSize zero e dw)
      exact ⟨u, by simp only [fieldStep, Dyn.resize, ho, Option.bind_some, k1, Option.map_some], k2⟩
    | setBlockOrder n =>
      obtain ⟨u, k1, k2⟩ := key (o.geom.setBlockOrder zero n)
      exact ⟨u, by simp only [fieldStep, Dyn.setBlockOrder, ho, Option.bind_some, k1, Option.map_some], k2⟩
    | write _ _ => exact hop.elim
    | setBlockEmptyValue _ _ => exact hop.elim
    | releaseAllEqual => exact hop.elim
    | releaseMaxAbs _ => exact hop.elim
  obtain ⟨u, k1, k2⟩ := hstep
  refine ⟨u, World.empty.answers zero layers evs ++ [some (h.map.val p), none], ?_,
    by simp only [fieldStep, k2, Option.map_none]⟩
  rw [fieldRun_append zero evs _ h1]
  have hread : fieldStep zero files s (.read f2 p) = some (t, some (h.map.val p)) := by
    simp only [fieldStep, h2, Option.map_some]
  simp only [fieldRun, hread, Option.map_some, Option.bind_some, k1]

/-- C78: the same for assigning to a lazily loaded field after reading from it, from any other field. -/
theorem C78_assign_after_read_dangles {α : Type} [DecidableEq α] (zero : α) (files : Nat → Sparse α)
    (layers : Nat → SparseMap α) (hs : StoredLayers zero files layers) (evs : List (FieldEvent α))
    (hok : World.empty.allPermitted zero layers evs) (f g : Nat) (h h' : Handle α) (p : V3i)
    (hw : (World.empty.run zero layers evs).fld f = some h) (hl : h.lazy = true)
    (hp : h.map.dw.contains p = true) (ha : h.map.alloc (blockOf h.map.dw h.map.order p))
    (hw' : (World.empty.run zero layers evs).fld g = some h') (hfg : f ≠ g) (hc' : World.copyable h') :
    ∃ s outs, fieldRun zero files St.init (evs ++ [.read f p, .assign f g]) = some (s, outs) ∧
      fieldStep zero files s .flush = none := by
  obtain ⟨s, h1, I⟩ := fieldRun_ok zero layers (stored_refines hs) evs _ _ inv_init hok
  obtain ⟨t, h2, J, h3⟩ := Dyn.read_ok I zero layers hw hp
  obtain ⟨o, r, i, ho, hr, hc⟩ := h3 hl ha
  obtain ⟨f2, o2, ref, bs, c1, c2, c3, c4, c5, c6⟩ := J.cacheOk _ hc
  have : f2 = f := J.refInj f2 f o2 o r c1 ho c2 hr
  subst this
  rw [ho] at c1; cases c1
  have hwg : (World.apply zero layers (World.empty.run zero layers evs) (.read f2 p)).fld g = some h' := by
    simp only [World.apply, hw, World.put, if_neg (Ne.symm hfg), hw']
  obtain ⟨og, hog, _⟩ := J.get hwg
  obtain ⟨u, o', bs', H, e, e1, e2, e3, e4, e5, e6, e7, e8, e9, e10, e11, ok⟩ :=
    Dyn.copySparse_ok J zero (stored_refines hs) hog hwg hc' (some o.arr) (by
      intro a ha; cases ha
      exact ⟨by rw [c5]; simp, fun he => hfg (J.arrInj f2 g o og ho hog he)⟩)
  simp only at e6
  subst e6
  refine ⟨{ u with flds := Dyn.upd u.flds f2 (some o') }, World.empty.answers zero layers evs ++ [some (h.map.val p), none], ?_, ?_⟩
  · rw [fieldRun_append zero evs _ h1]
    have : Dyn.assign zero t f2 g = some { u with flds := Dyn.upd u.flds f2 (some o') } := by
      simp only [Dyn.assign, ho, hog, Option.bind_some, if_neg hfg, e, Option.map_some]
    simp only [fieldRun, fieldStep, h2, Option.map_some, Option.bind_some, this]
  · have : Dyn.flush { u with flds := Dyn.upd u.flds f2 (some o') } = none := by
      refine flush_dangling _ _ ⟨(r, i), ?_, ref, o.arr, ?_, c4, ?_⟩
      · show (r, i) ∈ u.cache
        rw [e9]; exact hc
      · show u.refs r = _
        rw [e7 r (J.ref_lt ho hr)]; exact c3
      · show u.heap o.arr = none
        rw [e5, Dyn.upd_ne _ _ (by have := J.arr_lt ho; omega), Dyn.upd_same]
    simp only [fieldStep, this, Option.map_none]

section
variable {α : Type}

theorem releaseLoop_null (bad : α → α → Bool) (f : Sparse α) (bs : List (Block α)) : ∀ c,
    (∃ b ∈ bs, b.isAllocated = true ∧ b.data = none) → Sparse.releaseLoop bad f bs c = none := by
  induction bs with
  | nil => rintro c ⟨b, hb, _⟩; cases hb
  | cons b bs ih =>
    rintro c ⟨b', hb', h1, h2⟩
    simp only [Sparse.releaseLoop]
    rcases List.mem_cons.mp hb' with rfl | hb'
    · simp only [h1, if_true, Sparse.checkBlock, h2]
    · rw [ih _ ⟨b', hb', h1, h2⟩]
      split
      · next h => cases h
      · rfl

end

/-- C78: releasing blocks of a lazily loaded field that has an allocated block which is not loaded, for
instance after any permitted history followed by a flush, is undefined: the checks read through a null
pointer. -/
theorem C78_release_unloaded_undefined {α : Type} [DecidableEq α] (zero : α) (files : Nat → Sparse α)
    (layers : Nat → SparseMap α) (hs : StoredLayers zero files layers) (evs : List (FieldEvent α))
    (hok : World.empty.allPermitted zero layers evs) (f : Nat) (h : Handle α) (p : V3i)
    (hw : (World.empty.run zero layers evs).fld f = some h) (hl : h.lazy = true)
    (hp : h.map.dw.contains p = true) (ha : h.map.alloc (blockOf h.map.dw h.map.order p)) :
    ∃ s outs, fieldRun zero files St.init (evs ++ [.flush]) = some (s, outs) ∧
      fieldStep zero files s (.edit f .releaseAllEqual) = none ∧
      ∀ less, fieldStep zero files s (.edit f (.releaseMaxAbs less)) = none := by
  obtain ⟨s, h1, I⟩ := fieldRun_ok zero layers (stored_refines hs) evs _ _ inv_init hok
  obtain ⟨t, g1, J, g3⟩ := Dyn.flush_ok I zero layers
  have hwt : (World.apply zero layers (World.empty.run zero layers evs) .flush).fld f = some { h with hot := false } := by
    simp only [World.apply, hw, Option.map_some]
  obtain ⟨o, ho, k⟩ := J.get hwt
  cases k with
  | plain _ _ hl' => rw [hl] at hl'; cases hl'
  | backed r ref bs ib hfile hl hb href alive cold load hr len cells same =>
    have hp' : (viewOf o ib).dw.contains p = true := by rw [hr.dw]; exact hp
    have hal : (viewOf o ib).allocAt p := by
      rw [hr.alloc p hp', hr.dw, hr.order]; exact ha
    obtain ⟨c, hc, hca⟩ := hal
    have hilt2 : (viewOf o ib).idN p < bs.length := by rw [← len]; exact Sparse.idN_lt hr.wf hp'
    have hbi : bs[(viewOf o ib).idN p]? = some bs[(viewOf o ib).idN p] := List.getElem?_eq_getElem hilt2
    have cc := cells _ _ _ hbi hc
    generalize bs[(viewOf o ib).idN p] = b at hbi cc
    have hba : b.isAllocated = true := by rw [cc.alloc, hca]
    have hnull : b.data = none := by
      obtain ⟨d, fi, _, _, _, _, hcase⟩ := cc.data hba
      rcases hcase with ⟨hld, _⟩ | ⟨_, hn⟩
      · have := (load _).mp hld
        rw [g3] at this; cases this
      · exact hn
    have key : ∀ bad : α → α → Bool, Sparse.releaseBlocks bad ({ o.geom with blocks := bs } : Sparse α) = none := by
      intro bad
      simp only [Sparse.releaseBlocks, releaseLoop_null bad _ bs _ ⟨b, List.mem_of_getElem? hbi, hba, hnull⟩]
    refine ⟨t, World.empty.answers zero layers evs ++ [none], ?_, ?_, ?_⟩
    · rw [fieldRun_append zero evs _ h1]
      simp only [fieldRun, fieldStep, g1, Option.map_some, Option.bind_some]
    · simp only [fieldStep, Dyn.release, Dyn.inPlace, ho, Option.bind_some, hb, Sparse.releaseAllEqual, key,
        Option.map_none]
    · intro less
      simp only [fieldStep, Dyn.release, Dyn.inPlace, ho, Option.bind_some, hb, Sparse.releaseMaxAbs, key,
        Option.map_none]

/-! ### A stored layer of two blocks -/

def lineBox : Box3i := ⟨⟨0, 0, 0⟩, ⟨3, 0, 0⟩⟩

def lineOps : List (SparseOp Int) := [.setBlockOrder 1, .write ⟨0, 0, 0⟩ 5, .write ⟨2, 0, 0⟩ 7]

def lineLayer : Sparse Int := (sparseRun 0 ((Sparse.empty 0).setSize 0 lineBox lineBox) lineOps).getD (Sparse.empty 0)

noncomputable def lineMap : SparseMap Int := lineOps.foldl (SparseMap.apply 0) (SparseMap.fresh 0 lineBox lineBox)

theorem line_run : sparseRun 0 ((Sparse.empty 0).setSize 0 lineBox lineBox) lineOps = some lineLayer := by
  have h : (sparseRun 0 ((Sparse.empty 0).setSize 0 lineBox lineBox) lineOps).isSome = true := by decide +kernel
  obtain ⟨x, hx⟩ := Option.isSome_iff_exists.mp h
  unfold lineLayer
  rw [hx]; rfl

theorem line_stored : StoredLayers 0 (fun _ => lineLayer) (fun _ => lineMap) := by
  intro l
  refine ⟨lineBox, lineBox, lineOps, by unfold SparseWindow; decide, ?_, line_run, rfl⟩
  simp only [lineOps, SparseMap.allAllowed, SparseMap.allowed, SparseMap.apply, SparseMap.fresh, and_true, true_and]
  decide

/-- C78: copying a lazily loaded field of which a block was given up (here by setting its empty value)
renumbers the blocks that are left, so the copy reads another block's data: voxel (2,0,0) is 7 in the
field and 5 in its copy. -/
theorem C78_edited_copy_reads_wrong_block :
    (fieldRun 0 (fun _ => lineLayer) St.init
      [.openLayer 0, .edit 0 (.setBlockEmptyValue ⟨0, 0, 0⟩ 1), .copy 0, .read 0 ⟨2, 0, 0⟩,
       .read 1 ⟨2, 0, 0⟩]).map (·.2) = some [none, none, none, some 7, some 5] ∧
    (fieldRun 0 (fun _ => lineLayer) St.init
      [.openLayer 0, .copy 0, .read 0 ⟨2, 0, 0⟩, .read 1 ⟨2, 0, 0⟩]).map (·.2) =
        some [none, none, some 7, some 7] := by
  constructor <;> decide +kernel

/-- A history with every kind of call meets the preconditions: a field is read from file, read, copied,
the copy is edited, the cache is flushed, the first field is then resized and assigned to. -/
example : World.empty.allPermitted 0 (fun _ => lineMap)
    [.openLayer 0, .read 0 ⟨2, 0, 0⟩, .copy 0, .edit 1 (.setBlockEmptyValue ⟨0, 0, 0⟩ 9), .evict (0, 1),
     .read 1 ⟨2, 0, 0⟩, .edit 0 (.write ⟨0, 0, 0⟩ 3), .flush, .create lineBox lineBox, .assign 0 2,
     .edit 0 (.resize lineBox lineBox), .edit 0 .releaseAllEqual, .destroy 1] := by
  have hd : lineMap.dw = lineBox := rfl
  have ho : lineMap.order = 1 := rfl
  simp [World.allPermitted, World.permits, World.apply, World.push, World.put, World.empty, World.copyable,
    World.discardable, World.editable, SparseMap.allowed, SparseMap.apply, SparseMap.inBlock, hd, ho]
  unfold SparseWindow
  refine ⟨by decide, ⟨⟨0, 0, 0⟩, by decide⟩, by decide, by decide, by decide⟩

/-- A field that was just read from this file has an allocated block to read from. -/
example : ∃ h, (World.empty.run 0 (fun _ => lineMap) [.openLayer 0]).fld 0 = some h ∧ h.lazy = true ∧
    h.map.dw.contains ⟨2, 0, 0⟩ = true ∧ h.map.alloc (blockOf h.map.dw h.map.order ⟨2, 0, 0⟩) := by
  refine ⟨⟨true, false, false, lineMap⟩, rfl, rfl, rfl, ?_⟩
  exact Or.inr rfl

end F3D.Props
